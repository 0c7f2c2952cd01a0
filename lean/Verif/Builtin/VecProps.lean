import Verif.Builtin.StackProps

/-!
# C47: vector and matrix accessors

A matrix is specified by its entries: `entry m i j` is row `i`, column `j`.
-/

namespace Dyon
open Val
variable [FloatOps] (c : Cfg) (st : Stack)

/-- Row `i`, column `j` of a matrix value. -/
def entry (m : Mat4) (i j : Nat) : Option F32 := (m.nth j).bind (Vec4.nth · i)

/-- The four vectors are the rows of the matrix. -/
def HasRows (m : Mat4) (r0 r1 r2 r3 : Vec4) : Prop :=
  ∀ j, entry m 0 j = r0.nth j ∧ entry m 1 j = r1.nth j ∧ entry m 2 j = r2.nth j ∧ entry m 3 j = r3.nth j

/-- The vector is row `i`. -/
def IsRow (m : Mat4) (i : Nat) (v : Vec4) : Prop := ∀ j, v.nth j = entry m i j
/-- The vector is column `j`. -/
def IsCol (m : Mat4) (j : Nat) (v : Vec4) : Prop := ∀ i, v.nth i = entry m i j

theorem Vec4.nth_ext {u v : Vec4} (h : ∀ i, u.nth i = v.nth i) : u = v := by
  have h0 := h 0; have h1 := h 1; have h2 := h 2; have h3 := h 3
  simp only [Vec4.nth, Option.some.injEq] at h0 h1 h2 h3
  cases u; cases v; simp_all

/-- A matrix is determined by its entries. -/
theorem C47_entries {m m' : Mat4} (h : ∀ i j, entry m i j = entry m' i j) : m = m' := by
  have e : ∀ j, j < 4 → ∀ i, entry m i j = entry m' i j := fun j _ i => h i j
  have c0 := Vec4.nth_ext (e 0 (by omega))
  have c1 := Vec4.nth_ext (e 1 (by omega))
  have c2 := Vec4.nth_ext (e 2 (by omega))
  have c3 := Vec4.nth_ext (e 3 (by omega))
  cases m; cases m'; simp_all

theorem nth_cases {P : Nat → Prop} (h0 : P 0) (h1 : P 1) (h2 : P 2) (h3 : P 3)
    (h : ∀ n, P (n + 4)) : ∀ j, P j
  | 0 => h0 | 1 => h1 | 2 => h2 | 3 => h3 | n + 4 => h n

/-- A matrix literal is written row by row: its rows are the four given vectors. -/
theorem C47_literal (a b d e : Val) (r0 r1 r2 r3 : Vec4)
    (ha : Denotes (st ++ [a, b, d]) e (.vec4 r3)) (hb : Denotes (st ++ [a, b]) d (.vec4 r2))
    (hd : Denotes (st ++ [a]) b (.vec4 r1)) (he : Denotes st a (.vec4 r0)) :
    ∃ m, Lib.mat4Lit c (st ++ [a, b, d, e]) = .ok (.mat4 m) st ∧ HasRows m r0 r1 r2 r3 := by
  refine ⟨⟨⟨r0.x, r1.x, r2.x, r3.x⟩, ⟨r0.y, r1.y, r2.y, r3.y⟩, ⟨r0.z, r1.z, r2.z, r3.z⟩,
    ⟨r0.w, r1.w, r2.w, r3.w⟩⟩, ?_, ?_⟩
  · simp [Lib.mat4Lit, Lib.popVec4, ha.getV', hb.getV', hd.getV', he.getV']
  · exact nth_cases ⟨rfl, rfl, rfl, rfl⟩ ⟨rfl, rfl, rfl, rfl⟩ ⟨rfl, rfl, rfl, rfl⟩
      ⟨rfl, rfl, rfl, rfl⟩ fun _ => ⟨rfl, rfl, rfl, rfl⟩

/-- A vector literal holds its four numbers, rounded to `f32`, in order. -/
theorem C47_vector_literal (a b d e : Val) (x y z w : F64) (s0 s1 s2 s3 : Option (List Val))
    (he : Denotes (st ++ [a, b, d]) e (.f64 w s3)) (hd : Denotes (st ++ [a, b]) d (.f64 z s2))
    (hb : Denotes (st ++ [a]) b (.f64 y s1)) (ha : Denotes st a (.f64 x s0)) :
    ∃ v, Lib.vec4Lit c (st ++ [a, b, d, e]) = .ok (.vec4 v) st ∧
      ([0, 1, 2, 3] : List Nat).map v.nth =
        [x, y, z, w].map fun n => some (FloatOps.toF32 n) := by
  refine ⟨⟨FloatOps.toF32 x, FloatOps.toF32 y, FloatOps.toF32 z, FloatOps.toF32 w⟩, ?_, rfl⟩
  simp [Lib.vec4Lit, Lib.number, ha.getV', hb.getV', hd.getV', he.getV']

variable (a : Val)

/-- `x y z w` return the four components, widened to `f64`. -/
theorem C47_components (v : Vec4) (ha : Denotes st a (.vec4 v)) :
    (∃ r, v.nth 0 = some r ∧ Lib.x c (st ++ [a]) = .ok (ofF64 (FloatOps.ofF32 r)) st) ∧
    (∃ r, v.nth 1 = some r ∧ Lib.y c (st ++ [a]) = .ok (ofF64 (FloatOps.ofF32 r)) st) ∧
    (∃ r, v.nth 2 = some r ∧ Lib.z c (st ++ [a]) = .ok (ofF64 (FloatOps.ofF32 r)) st) ∧
    (∃ r, v.nth 3 = some r ∧ Lib.w c (st ++ [a]) = .ok (ofF64 (FloatOps.ofF32 r)) st) := by
  simp [Lib.x, Lib.y, Lib.z, Lib.w, Lib.popVec4, ha.getV', Vec4.nth]

/-- `rx ry rz rw` return the rows. -/
theorem C47_rows (m : Mat4) (ha : Denotes st a (.mat4 m)) :
    (∃ r, IsRow m 0 r ∧ Lib.rx c (st ++ [a]) = .ok (.vec4 r) st) ∧
    (∃ r, IsRow m 1 r ∧ Lib.ry c (st ++ [a]) = .ok (.vec4 r) st) ∧
    (∃ r, IsRow m 2 r ∧ Lib.rz c (st ++ [a]) = .ok (.vec4 r) st) ∧
    (∃ r, IsRow m 3 r ∧ Lib.rw c (st ++ [a]) = .ok (.vec4 r) st) := by
  refine ⟨⟨⟨m.c0.x, m.c1.x, m.c2.x, m.c3.x⟩, nth_cases rfl rfl rfl rfl fun _ => rfl, ?_⟩,
    ⟨⟨m.c0.y, m.c1.y, m.c2.y, m.c3.y⟩, nth_cases rfl rfl rfl rfl fun _ => rfl, ?_⟩,
    ⟨⟨m.c0.z, m.c1.z, m.c2.z, m.c3.z⟩, nth_cases rfl rfl rfl rfl fun _ => rfl, ?_⟩,
    ⟨⟨m.c0.w, m.c1.w, m.c2.w, m.c3.w⟩, nth_cases rfl rfl rfl rfl fun _ => rfl, ?_⟩⟩ <;>
  simp [Lib.rx, Lib.ry, Lib.rz, Lib.rw, Lib.popMat4, ha.getV']

/-- `cx cy cz cw` return the columns. -/
theorem C47_columns (m : Mat4) (ha : Denotes st a (.mat4 m)) :
    (∃ r, IsCol m 0 r ∧ Lib.cx c (st ++ [a]) = .ok (.vec4 r) st) ∧
    (∃ r, IsCol m 1 r ∧ Lib.cy c (st ++ [a]) = .ok (.vec4 r) st) ∧
    (∃ r, IsCol m 2 r ∧ Lib.cz c (st ++ [a]) = .ok (.vec4 r) st) ∧
    (∃ r, IsCol m 3 r ∧ Lib.cw c (st ++ [a]) = .ok (.vec4 r) st) := by
  refine ⟨⟨m.c0, fun _ => rfl, ?_⟩, ⟨m.c1, fun _ => rfl, ?_⟩, ⟨m.c2, fun _ => rfl, ?_⟩,
    ⟨m.c3, fun _ => rfl, ?_⟩⟩ <;>
  simp [Lib.cx, Lib.cy, Lib.cz, Lib.cw, Lib.popMat4, ha.getV']

variable (i : Val) (n : F64) (sec : Option (List Val))

theorem popF64!_two (hi : Denotes (st ++ [a]) i (.f64 n sec)) :
    Lib.popF64! (st ++ [a, i]) = .ok n (st ++ [a]) := by
  simp [Lib.popF64!, hi.getV']

/-- `s(v, i)` is component `i`, an error when the index is 4 or more. -/
theorem C47_s (v : Vec4) (hi : Denotes (st ++ [a]) i (.f64 n sec)) (ha : Denotes st a (.vec4 v)) :
    (∀ r, v.nth n.toUsize = some r →
      Lib.s (st ++ [a, i]) = .ok (ofF64 (FloatOps.ofF32 r)) st) ∧
    (v.nth n.toUsize = none → ∃ e, Lib.s (st ++ [a, i]) = .err e (st ++ [a])) := by
  have h4 : ∀ k, v.nth k = none ↔ 4 ≤ k :=
    nth_cases (by simp [Vec4.nth]) (by simp [Vec4.nth]) (by simp [Vec4.nth]) (by simp [Vec4.nth])
      fun n => by simp [Vec4.nth]
  constructor
  · intro r hr
    have hlt : ¬ 4 ≤ n.toUsize := fun h => by rw [(h4 _).2 h] at hr; cases hr
    simp [Lib.s, popF64!_two st a i n sec hi, hlt, Lib.popVec4!, ha.getV', hr]
  · intro hr
    simp [Lib.s, popF64!_two st a i n sec hi, (h4 _).1 hr]

/-- `rv(m, i)` is row `i`, an error when the index is 4 or more. -/
theorem C47_rv (m : Mat4) (hi : Denotes (st ++ [a]) i (.f64 n sec)) (ha : Denotes st a (.mat4 m)) :
    (n.toUsize < 4 → ∃ r, IsRow m n.toUsize r ∧ Lib.rv (st ++ [a, i]) = .ok (.vec4 r) st) ∧
    (4 ≤ n.toUsize → ∃ e, Lib.rv (st ++ [a, i]) = .err e (st ++ [a])) := by
  constructor
  · intro hlt
    have hn : ¬ 4 ≤ n.toUsize := by omega
    have : n.toUsize = 0 ∨ n.toUsize = 1 ∨ n.toUsize = 2 ∨ n.toUsize = 3 := by omega
    rcases this with h | h | h | h <;> rw [h]
    · refine ⟨⟨m.c0.x, m.c1.x, m.c2.x, m.c3.x⟩, nth_cases rfl rfl rfl rfl fun _ => rfl, ?_⟩
      simp [Lib.rv, popF64!_two st a i n sec hi, h, Lib.popMat4!, ha.getV', Vec4.nth]
    · refine ⟨⟨m.c0.y, m.c1.y, m.c2.y, m.c3.y⟩, nth_cases rfl rfl rfl rfl fun _ => rfl, ?_⟩
      simp [Lib.rv, popF64!_two st a i n sec hi, h, Lib.popMat4!, ha.getV', Vec4.nth]
    · refine ⟨⟨m.c0.z, m.c1.z, m.c2.z, m.c3.z⟩, nth_cases rfl rfl rfl rfl fun _ => rfl, ?_⟩
      simp [Lib.rv, popF64!_two st a i n sec hi, h, Lib.popMat4!, ha.getV', Vec4.nth]
    · refine ⟨⟨m.c0.w, m.c1.w, m.c2.w, m.c3.w⟩, nth_cases rfl rfl rfl rfl fun _ => rfl, ?_⟩
      simp [Lib.rv, popF64!_two st a i n sec hi, h, Lib.popMat4!, ha.getV', Vec4.nth]
  · intro hlt
    simp [Lib.rv, popF64!_two st a i n sec hi, hlt]

/-- Finding: `cv(m, i)` does not return column `i` but the whole matrix. -/
theorem C47_cv (m : Mat4) (hi : Denotes (st ++ [a]) i (.f64 n sec)) (ha : Denotes st a (.mat4 m))
    (hn : n.toUsize < 4) : Lib.cv (st ++ [a, i]) = .ok (.mat4 m) st := by
  have : ¬ 4 ≤ n.toUsize := by omega
  simp [Lib.cv, popF64!_two st a i n sec hi, this, Lib.popMat4!, ha.getV']

/-- Finding: the indexed accessors panic, instead of reporting an error, on an argument of
another kind. -/
theorem C47_wrong_kind (v : Val) (hi : Denotes (st ++ [a]) i (.f64 n sec)) (ha : Denotes st a v)
    (hn : n.toUsize < 4) :
    ((∀ u, v ≠ .vec4 u) → Lib.s (st ++ [a, i]) = .panic) ∧
    ((∀ m, v ≠ .mat4 m) → Lib.rv (st ++ [a, i]) = .panic ∧ Lib.cv (st ++ [a, i]) = .panic) := by
  have hn : ¬ 4 ≤ n.toUsize := by omega
  have hv : (∀ u, v ≠ .vec4 u) → Lib.popVec4! (st ++ [a]) = .panic := by
    intro h
    simp only [Lib.popVec4!, SM.bind_apply, popV_one, ha.getV']
    rfl
  have hm : (∀ u, v ≠ .mat4 u) → Lib.popMat4! (st ++ [a]) = .panic := by
    intro h
    simp only [Lib.popMat4!, SM.bind_apply, popV_one, ha.getV']
    rfl
  constructor
  · intro h
    simp [Lib.s, popF64!_two st a i n sec hi, hn, hv h]
  · intro h
    simp [Lib.rv, Lib.cv, popF64!_two st a i n sec hi, hn, hm h]

/-- A swizzle pushes exactly the selected components, in order. -/
theorem C47_swizzle (v : Vec4) (k0 k1 : Nat) (k2 k3 : Option Nat) (rs : List F32)
    (ha : Denotes st a (.vec4 v))
    (hr : ([k0, k1] ++ k2.toList ++ k3.toList).map v.nth = rs.map some) :
    Lib.swizzle c a k0 k1 k2 k3 st = .ok () (st ++ rs.map fun r => ofF64 (FloatOps.ofF32 r)) := by
  have key : ∀ (ks : List Nat) (rs : List F32), ks.map v.nth = rs.map some → ks.mapM v.nth = some rs := by
    intro ks
    induction ks with
    | nil => intro rs h; cases rs <;> simp_all
    | cons k ks ih =>
      intro rs h
      cases rs with
      | nil => simp at h
      | cons r rs =>
        simp only [List.map_cons, List.cons.injEq] at h
        simp [h.1, ih rs h.2]
  simp only [Lib.swizzle, SM.bind_apply, ha.getV', key _ _ hr, Lib.pushAll]

/-! ## Operators on matrices and vectors (C13) -/

/-- A matrix whose entries are those of another one with a function applied to each. -/
def EachEntry (f : F32 → F32) (m r : Mat4) : Prop := ∀ i j, entry r i j = (entry m i j).map f

theorem map_entries (f : F32 → F32) (m : Mat4) : EachEntry f m (m.map f) := by
  intro i j
  have hv : ∀ v : Vec4, (v.map f).nth i = (v.nth i).map f := fun v => by
    revert i; exact nth_cases rfl rfl rfl rfl fun _ => rfl
  revert j
  exact nth_cases (by simp [entry, Mat4.nth, Mat4.map, hv]) (by simp [entry, Mat4.nth, Mat4.map, hv])
    (by simp [entry, Mat4.nth, Mat4.map, hv]) (by simp [entry, Mat4.nth, Mat4.map, hv]) fun _ => by simp [entry, Mat4.nth]

/-- On a matrix and a number `+`, `-` and `*` act on every entry, in the order of the operands; `-m` negates every
entry. -/
theorem C13_mat4 [VecMath] (m : Mat4) (x : F64) (s : Option (List Val)) :
    (∃ r, Op.add (.mat4 m) (.f64 x s) = .ok (.mat4 r) ∧ EachEntry (FloatOps.add32 · (FloatOps.toF32 x)) m r) ∧
    (∃ r, Op.add (.f64 x s) (.mat4 m) = .ok (.mat4 r) ∧ EachEntry (FloatOps.add32 · (FloatOps.toF32 x)) m r) ∧
    (∃ r, Op.sub (.mat4 m) (.f64 x s) = .ok (.mat4 r) ∧ EachEntry (FloatOps.sub32 · (FloatOps.toF32 x)) m r) ∧
    (∃ r, Op.sub (.f64 x s) (.mat4 m) = .ok (.mat4 r) ∧ EachEntry (FloatOps.sub32 (FloatOps.toF32 x) ·) m r) ∧
    (∃ r, Op.mul (.mat4 m) (.f64 x s) = .ok (.mat4 r) ∧ EachEntry (FloatOps.mul32 · (FloatOps.toF32 x)) m r) ∧
    (∃ r, Op.mul (.f64 x s) (.mat4 m) = .ok (.mat4 r) ∧ EachEntry (FloatOps.mul32 · (FloatOps.toF32 x)) m r) ∧
    (∃ r, Op.neg (.mat4 m) = .ok (.mat4 r) ∧ EachEntry F32.fneg m r) :=
  ⟨⟨_, rfl, map_entries _ m⟩, ⟨_, rfl, map_entries _ m⟩, ⟨_, rfl, map_entries _ m⟩, ⟨_, rfl, map_entries _ m⟩,
    ⟨_, rfl, map_entries _ m⟩, ⟨_, rfl, map_entries _ m⟩, ⟨_, rfl, map_entries _ m⟩⟩

/-- `-v` negates every component, and so does `-x` for a number. -/
theorem C13_negative [VecMath] (v : Vec4) (x : F64) (s : Option (List Val)) :
    Op.neg (.f64 x s) = .ok (.f64 (F64.fneg x) s) ∧
    ∃ r, Op.neg (.vec4 v) = .ok (.vec4 r) ∧ ∀ i, r.nth i = (v.nth i).map F32.fneg :=
  ⟨rfl, _, rfl, nth_cases rfl rfl rfl rfl fun _ => rfl⟩

/-- The product of a vector and a number under the dot is the sum of the four products, from the left to the right, in both
orders. -/
theorem C13_dot [VecMath] (v : Vec4) (x : F64) (s : Option (List Val)) (a b d e : F32)
    (hv : [0, 1, 2, 3].map v.nth = [a, b, d, e].map some) :
    let p := fun y => FloatOps.mul32 y (FloatOps.toF32 x)
    let sum := ([b, d, e].map p).foldl FloatOps.add32 (p a)
    Op.dot (.vec4 v) (.f64 x s) = .ok (ofF64 (FloatOps.ofF32 sum)) ∧
    Op.dot (.f64 x s) (.vec4 v) = .ok (ofF64 (FloatOps.ofF32 sum)) := by
  simp only [List.map_cons, List.map_nil, Vec4.nth, List.cons.injEq, Option.some.injEq, and_true] at hv
  obtain ⟨rfl, rfl, rfl, rfl⟩ := hv
  exact ⟨rfl, rfl⟩

/-- `cross(u, v)`: component `i` is `u_j * v_k - u_k * v_j` for `i, j, k` in the order `x, y, z, x, ...`; the last component
is zero. -/
theorem C13_cross (b : Val) (u v : Vec4) (hb : Denotes (st ++ [a]) b (.vec4 v)) (ha : Denotes st a (.vec4 u)) :
    ∃ r, Lib.cross c (st ++ [a, b]) = .ok (.vec4 r) st ∧ r.nth 3 = some F32.zero ∧
      ∀ i, i < 3 → r.nth i = (do
        let uj ← u.nth ((i + 1) % 3)
        let vk ← v.nth ((i + 2) % 3)
        let uk ← u.nth ((i + 2) % 3)
        let vj ← v.nth ((i + 1) % 3)
        some (FloatOps.sub32 (FloatOps.mul32 uj vk) (FloatOps.mul32 uk vj))) := by
  refine ⟨Op.cross u v, ?_, rfl, fun i hi => ?_⟩
  · simp [Lib.cross, Lib.popVec4, ha.getV', hb.getV']
  · match i, hi with
    | 0, _ => rfl
    | 1, _ => rfl
    | 2, _ => rfl

/-! ## Matrices made by functions -/

/-- The entry of the identity matrix. -/
def identityEntry (i j : Nat) : Option F32 :=
  if i < 4 ∧ j < 4 then some (if i = j then Lib.one32 else 0) else none

/-- `mov(v)` is the identity matrix with the first three entries of the last column replaced by those of `v`. -/
theorem C47_mov (v : Vec4) (ha : Denotes st a (.vec4 v)) :
    ∃ m, Lib.mov c (st ++ [a]) = .ok (.mat4 m) st ∧
      ∀ i j, entry m i j = if j = 3 ∧ i < 3 then v.nth i else identityEntry i j := by
  refine ⟨_, by simp [Lib.mov, Lib.popVec4, ha.getV']; rfl, ?_⟩
  refine nth_cases ?_ ?_ ?_ ?_ fun n => ?_ <;> refine nth_cases ?_ ?_ ?_ ?_ fun m => ?_ <;>
    simp [entry, Mat4.nth, Vec4.nth, identityEntry]

/-- `scale(v)` is the identity matrix with the first three entries of its diagonal replaced by those of `v`. -/
theorem C47_scale (v : Vec4) (ha : Denotes st a (.vec4 v)) :
    ∃ m, Lib.scale c (st ++ [a]) = .ok (.mat4 m) st ∧
      ∀ i j, entry m i j = if i = j ∧ i < 3 then v.nth i else identityEntry i j := by
  refine ⟨_, by simp [Lib.scale, Lib.popVec4, ha.getV']; rfl, ?_⟩
  refine nth_cases ?_ ?_ ?_ ?_ fun n => ?_ <;> refine nth_cases ?_ ?_ ?_ ?_ fun m => ?_ <;>
    simp [entry, Mat4.nth, Vec4.nth, identityEntry]

/-- `ortho__pos_right_up_forward(pos, right, up, forward)`: the rows are the three directions, each followed by the negated
product of the direction with the position; the last row is that of the identity matrix. -/
theorem C47_ortho [VecMath] (a b d e : Val) (pos right up forward : Vec4)
    (he : Denotes (st ++ [a, b, d]) e (.vec4 forward)) (hd : Denotes (st ++ [a, b]) d (.vec4 up))
    (hb : Denotes (st ++ [a]) b (.vec4 right)) (ha : Denotes st a (.vec4 pos)) :
    ∃ m, Lib.ortho c (st ++ [a, b, d, e]) = .ok (.mat4 m) st ∧
      (∀ j, j < 3 → entry m 0 j = right.nth j ∧ entry m 1 j = up.nth j ∧ entry m 2 j = forward.nth j) ∧
      (∀ i dir, [right, up, forward][i]? = some dir → entry m i 3 = some (F32.fneg (VecMath.vec4Dot dir pos))) ∧
      ∀ j, entry m 3 j = identityEntry 3 j := by
  refine ⟨_, by simp [Lib.ortho, Lib.popVec4, ha.getV', hb.getV', hd.getV', he.getV']; rfl, fun j hj => ?_, fun i dir h => ?_, ?_⟩
  · match j, hj with
    | 0, _ => exact ⟨rfl, rfl, rfl⟩
    | 1, _ => exact ⟨rfl, rfl, rfl⟩
    | 2, _ => exact ⟨rfl, rfl, rfl⟩
  · match i, h with
    | 0, h => cases h; rfl
    | 1, h => cases h; rfl
    | 2, h => cases h; rfl
  · refine nth_cases ?_ ?_ ?_ ?_ fun n => ?_ <;> simp [entry, Mat4.nth, Vec4.nth, identityEntry]

/-- `mvp__model_view_projection(model, view, proj)` is what the operators give for `proj * view * model`. -/
theorem C47_mvp [VecMath] (a b d : Val) (model view proj : Mat4)
    (hd : Denotes (st ++ [a, b]) d (.mat4 proj)) (hb : Denotes (st ++ [a]) b (.mat4 view)) (ha : Denotes st a (.mat4 model)) :
    ∃ pv m, Op.mul (.mat4 proj) (.mat4 view) = .ok (.mat4 pv) ∧ Op.mul (.mat4 pv) (.mat4 model) = .ok (.mat4 m) ∧
      Lib.mvp c (st ++ [a, b, d]) = .ok (.mat4 m) st :=
  ⟨_, _, rfl, rfl, by simp [Lib.mvp, Lib.popMat4, ha.getV', hb.getV', hd.getV']⟩

/-- The hypotheses of `C47_ortho` are met by references to one vector. -/
example : let st : Stack := [.vec4 ⟨1, 2, 3, 4⟩]
    Denotes (st ++ [.ref 0, .ref 0, .ref 0]) (.ref 0) (.vec4 ⟨1, 2, 3, 4⟩) ∧ Denotes st (.ref 0) (.vec4 ⟨1, 2, 3, 4⟩) :=
  ⟨.inl ⟨0, rfl, rfl⟩, .inl ⟨0, rfl, rfl⟩⟩

/-! ## Links (C01) -/

/-- `head`, `tip`, `tail`, `neck` and `is_empty` of a link are the first element, the last, the list without the first, the list
without the last, and whether there is none. -/
theorem C01_functions (l : List Link.Scalar) (ha : Denotes st a (.link l)) :
    Lib.head c (st ++ [a]) = .ok (.option ((l[0]?).map Lib.scalarVal)) st ∧
    Lib.tip c (st ++ [a]) = .ok (.option ((l[l.length - 1]?).map Lib.scalarVal)) st ∧
    (∃ t, Lib.tail c (st ++ [a]) = .ok (.link t) st ∧ ∀ i, t[i]? = l[i + 1]?) ∧
    (∃ t, Lib.neck c (st ++ [a]) = .ok (.link t) st ∧ t.length = l.length - 1 ∧ ∀ i, i + 1 < l.length → t[i]? = l[i]?) ∧
    Lib.isEmpty c (st ++ [a]) = .ok (ofBool (l.length == 0)) st := by
  refine ⟨?_, ?_, ⟨l.tail, ?_, fun i => by simp⟩, ⟨l.dropLast, ?_, by simp, fun i hi => ?_⟩, ?_⟩
  · simp [Lib.head, Lib.popLink, ha.getV', List.head?_eq_getElem?]
  · simp [Lib.tip, Lib.popLink, ha.getV', List.getLast?_eq_getElem?]
  · simp [Lib.tail, Lib.popLink, ha.getV']
  · simp [Lib.neck, Lib.popLink, ha.getV']
  · rw [List.getElem?_dropLast, if_pos (by omega)]
  · simp [Lib.isEmpty, Lib.popLink, ha.getV']
    cases l <;> rfl

/-- The hypotheses of `C01_functions`, `C13_dot` and `C13_cross` are met. -/
example : Denotes [.link [.bool true, .f64 7]] (.ref 0) (.link [.bool true, .f64 7]) ∧
    [0, 1, 2, 3].map (Vec4.nth ⟨1, 2, 3, 4⟩) = [(1 : F32), 2, 3, 4].map some ∧
    Denotes [.vec4 ⟨1, 2, 3, 4⟩] (.ref 0) (.vec4 ⟨1, 2, 3, 4⟩) := ⟨.inl ⟨0, rfl, rfl⟩, rfl, .inl ⟨0, rfl, rfl⟩⟩

/-- A matrix literal, read back by rows, gives the rows; a swizzle `zx` picks 2 and 0. -/
example : let st : Stack := [.vec4 ⟨1, 2, 3, 4⟩]
    Denotes st (.ref 0) (.vec4 ⟨1, 2, 3, 4⟩) ∧
    ([2, 0] ++ (none : Option Nat).toList ++ (none : Option Nat).toList).map (Vec4.nth ⟨1, 2, 3, 4⟩) =
      [(3 : F32), 1].map some := ⟨.inl ⟨0, rfl, rfl⟩, rfl⟩

end Dyon
