import Verif.Host.Embed
import Verif.Builtin.CloneProps

/-!
# C43: host values survive a push and a pop
-/

namespace Dyon

/-! ## Specification -/

/-- Converting to `f64` and back gives an `f32` that is a number back: a consequence of
IEEE-754, external to the model like `FloatOps`. -/
class LawfulF32 [FloatOps] : Prop where
  back : ∀ x : F32, F32.isNaN x = false → FloatOps.toF32 (FloatOps.ofF32 x) = x

/-- Host values that are kept exactly: `usize` up to `2^53`, no NaN of type `f32` (its bits may
change), no references in variables. -/
def Fits : (t : HTy) → t.T → Prop
  | .value, v => RefFree v
  | .usize, n => n.val < 2 ^ 53
  | .f32, x => F32.isNaN x = false
  | .option t, o => ∀ x, o = some x → Fits t x
  | .result t u, r => (∀ x, r = .ok x → Fits t x) ∧ ∀ e, r = .error e → Fits u e
  | .tup2 a b, x => Fits a x.1 ∧ Fits b x.2
  | .tup3 a b c, x => Fits a x.1 ∧ Fits b x.2.1 ∧ Fits c x.2.2
  | .tup4 a b c d, x => Fits a x.1 ∧ Fits b x.2.1 ∧ Fits c x.2.2.1 ∧ Fits d x.2.2.2
  | .vec t, xs => ∀ x ∈ xs, Fits t x
  | _, _ => True

/-- The kind of value a host type is popped from, and the name used in the error. -/
def HTy.kind : HTy → Option (String × String)
  | .value => none
  | .rust => some ("rust_object", "rust_object")
  | .bool => some ("boolean", "bool")
  | .u32 | .usize | .f32 | .f64 => some ("number", "number")
  | .string => some ("string", "string")
  | .vec4 => some ("vec4", "vec4")
  | .mat4 => some ("mat4", "mat4")
  | .option _ => some ("option", "option")
  | .result _ _ => some ("result", "result")
  | .tup2 _ _ => some ("array", "[_; 2]")
  | .tup3 _ _ _ => some ("array", "[_; 3]")
  | .tup4 _ _ _ _ => some ("array", "[_; 4]")
  | .vec _ => some ("array", "array")

section
variable [FloatOps]

/-! ## Lemmas -/

theorem ofNatRound_small {n : Nat} (h : n < 2 ^ 53) : F64.ofNatRound n = F64.ofNat n := by
  rw [F64.ofNatRound, if_pos h]

omit [FloatOps] in
theorem Pop.get_of {α} {st : Stack} {pop : Val → Pop α} {v : Val} {a : α} (hv : ∀ i, v ≠ .ref i)
    (h : pop v = .ok a) : Pop.get st pop v = .ok a := by
  cases v <;> first | exact absurd rfl (hv _) | exact h

/-- Pushed values are never references. -/
theorem pushVar_not_ref (t : HTy) (x : t.T) (h : Fits t x) (i : Nat) : pushVar t x ≠ .ref i := by
  cases t
  case value => intro hc; rw [pushVar] at hc; subst hc; rw [Fits] at h; cases h
  case option t => cases x <;> (intro hc; simp only [pushVar] at hc; cases hc)
  case result t u => cases x <;> (intro hc; simp only [pushVar] at hc; cases hc)
  all_goals (intro hc; simp only [pushVar, Val.ofBool, Val.ofF64] at hc; cases hc)

variable [LawfulF32]

/-! ## Properties -/

/-- **C43.** A value that is pushed and popped at the same type is the same value, on every
stack. -/
theorem C43_round_trip (st : Stack) (trace : String) (n : Nat) (t : HTy) (x : t.T) (h : Fits t x) :
    popVar st trace n t (pushVar t x) = .ok x := by
  induction t with
  | value =>
    rw [Fits] at h
    simp only [pushVar, popVar, C14_stable st n x h]
  | rust | bool | f64 | string | vec4 | mat4 => rfl
  | u32 =>
    simp only [pushVar, popVar, Val.ofF64]
    congr 1
    have hx := x.isLt
    rw [F64.toU32, F64.ofNat_toUsize (by omega), Nat.min_eq_left (by omega)]
    exact Fin.ext (Nat.mod_eq_of_lt hx)
  | usize =>
    simp only [pushVar, popVar, Val.ofF64]
    congr 1
    rw [Fits] at h
    rw [ofNatRound_small h, F64.ofNat_toUsize h]
    exact Fin.ext (Nat.mod_eq_of_lt x.isLt)
  | f32 =>
    simp only [pushVar, popVar, Val.ofF64]
    rw [LawfulF32.back x h]
  | option t ih =>
    cases x with
    | none => rfl
    | some x =>
      have hx := h x rfl
      simp only [pushVar, popVar]
      rw [Pop.get_of (pushVar_not_ref t x hx) (ih x hx)]
      rfl
  | result t u iht ihu =>
    cases x with
    | ok x =>
      have hx := h.1 x rfl
      simp only [pushVar, popVar]
      rw [Pop.get_of (pushVar_not_ref t x hx) (iht x hx)]
      rfl
    | error x =>
      have hx := h.2 x rfl
      simp only [pushVar, popVar]
      rw [Pop.get_of (pushVar_not_ref u x hx) (ihu x hx)]
      rfl
  | tup2 a b iha ihb =>
    obtain ⟨x, y⟩ := x
    simp only [pushVar, popVar, Pop.elem, List.getElem?_cons_zero, List.getElem?_cons_succ]
    rw [Pop.get_of (pushVar_not_ref a x h.1) (iha x h.1), Pop.get_of (pushVar_not_ref b y h.2) (ihb y h.2)]
    rfl
  | tup3 a b c iha ihb ihc =>
    obtain ⟨x, y, z⟩ := x
    simp only [pushVar, popVar, Pop.elem, List.getElem?_cons_zero, List.getElem?_cons_succ]
    rw [Pop.get_of (pushVar_not_ref a x h.1) (iha x h.1), Pop.get_of (pushVar_not_ref b y h.2.1) (ihb y h.2.1),
      Pop.get_of (pushVar_not_ref c z h.2.2) (ihc z h.2.2)]
    rfl
  | tup4 a b c d iha ihb ihc ihd =>
    obtain ⟨x, y, z, w⟩ := x
    simp only [pushVar, popVar, Pop.elem, List.getElem?_cons_zero, List.getElem?_cons_succ]
    rw [Pop.get_of (pushVar_not_ref a x h.1) (iha x h.1), Pop.get_of (pushVar_not_ref b y h.2.1) (ihb y h.2.1),
      Pop.get_of (pushVar_not_ref c z h.2.2.1) (ihc z h.2.2.1),
      Pop.get_of (pushVar_not_ref d w h.2.2.2) (ihd w h.2.2.2)]
    rfl
  | vec t ih =>
    simp only [pushVar, popVar]
    rw [Fits] at h
    induction x with
    | nil => rfl
    | cons x xs ihx =>
      have hx := h x (by simp)
      rw [List.map_cons, Pop.all, Pop.get_of (pushVar_not_ref t x hx) (ih x hx)]
      simp only [Pop.bind]
      rw [ihx fun y hy => h y (by simp [hy])]

/-- **C43.** `Runtime::push` followed by `Runtime::pop` gives the value back and leaves the
stack as it was. -/
theorem C43_push_pop (st : Stack) (trace : String) (n : Nat) (t : HTy) (x : t.T) (h : Fits t x) :
    rtPop trace n t (rtPush t x st) = (.ok x, st) := by
  simp only [rtPop, rtPush, List.getLast?_concat, List.dropLast_concat]
  rw [Pop.get_of (pushVar_not_ref t x h) (C43_round_trip st trace n t x h)]

/-- **C43.** Values pushed one after the other are popped in the opposite order. -/
theorem C43_push_pop_all (st : Stack) (trace : String) (n : Nat) (xs : List ((t : HTy) × t.T))
    (h : ∀ x ∈ xs, Fits x.1 x.2) :
    let pushed := xs.foldl (fun st x => rtPush x.1 x.2 st) st
    ∀ k ≤ xs.length, ∀ x, xs.reverse[k]? = some x →
      ∃ rest, pushed = rest ++ (xs.drop (xs.length - k)).map (fun x => pushVar x.1 x.2) ∧
        rtPop trace n x.1 rest = (.ok x.2, st ++ (xs.take (xs.length - k - 1)).map fun x => pushVar x.1 x.2) := by
  intro pushed k hk x hx
  have hp : ∀ (ys : List ((t : HTy) × t.T)) (s : Stack),
      ys.foldl (fun st x => rtPush x.1 x.2 st) s = s ++ ys.map fun x => pushVar x.1 x.2 := by
    intro ys
    induction ys with
    | nil => intro s; simp
    | cons y ys ih => intro s; rw [List.foldl_cons, ih]; simp [rtPush]
  have hlt : k < xs.length := by
    have := (List.getElem?_eq_some_iff.1 hx).1; simpa using this
  rw [List.getElem?_reverse hlt] at hx
  have hidx : xs.length - 1 - k = xs.length - k - 1 := by omega
  rw [hidx] at hx
  have hmem := List.mem_of_getElem? hx
  refine ⟨st ++ (xs.take (xs.length - k)).map (fun x => pushVar x.1 x.2), ?_, ?_⟩
  · show xs.foldl _ st = _
    rw [hp, List.append_assoc, ← List.map_append, List.take_append_drop]
  · have htake : xs.take (xs.length - k) = xs.take (xs.length - k - 1) ++ [x] := by
      have h1 : xs.length - k = (xs.length - k - 1) + 1 := by omega
      rw [h1, List.take_add_one, Nat.add_sub_cancel, hx]
      rfl
    rw [htake, List.map_append, ← List.append_assoc]
    exact C43_push_pop _ trace n x.1 x.2 (h x hmem)

omit [LawfulF32] in
/-- **C43.** A value of another kind is an error that names both kinds. -/
theorem C43_wrong_kind (st : Stack) (trace : String) (n : Nat) (t : HTy) (v : Val) (kind name : String)
    (hk : t.kind = some (kind, name)) (hv : v.typeofVar ≠ kind) :
    popVar st trace n t v =
      .err (trace ++ "\nExpected `" ++ name ++ "`, found `" ++ v.typeofVar ++ "`") := by
  cases t <;> simp only [HTy.kind, Option.some.injEq, Prod.mk.injEq, reduceCtorEq] at hk <;>
    obtain ⟨rfl, rfl⟩ := hk <;> cases v <;> first | exact absurd rfl hv | rfl

omit [LawfulF32] in
/-- Finding: an array with too few elements is not an error but a crash of the host. -/
theorem C43_short_array (st : Stack) (trace : String) (n : Nat) (a b : HTy) :
    popVar st trace n (.tup2 a b) (.array []) = .panic := rfl

omit [LawfulF32] in
/-- Finding: additional elements are dropped without an error. -/
theorem C43_long_array (st : Stack) (trace : String) (n : Nat) (x y : F64) (rest : List Val) :
    popVar st trace n (.tup2 .f64 .f64) (.array (.ofF64 x :: .ofF64 y :: rest)) = .ok (x, y) := rfl

omit [LawfulF32] [FloatOps] in
theorem toUsize_round_large : F64.toUsize (F64.ofNatRound (2 ^ 53 + 1)) = 2 ^ 53 := by
  have hl : Nat.log 2 (2 ^ 53 + 1) = 53 :=
    (Nat.log_eq_iff (by decide)).2 ⟨by decide, by decide⟩
  have h1 : F64.ofNatRound (2 ^ 53 + 1) = BitVec.ofNat 64 ((53 + 1022) * 2 ^ 52 + 2 ^ 52) := by
    rw [F64.ofNatRound, if_neg (by decide), hl]
    rfl
  rw [h1]
  have hm : F64.mag (BitVec.ofNat 64 ((53 + 1022) * 2 ^ 52 + 2 ^ 52)) = 1076 * 2 ^ 52 := by decide
  have hs : F64.smag (1076 * 2 ^ 52) = 2 ^ 53 * F64.unit := by
    rw [F64.smag, if_neg (by decide), F64.unit]
    norm_num
    rw [show (2 : Nat) ^ 1075 = 2 ^ 1074 * 2 from pow_succ 2 1074]
    generalize (2 : Nat) ^ 1074 = k
    omega
  rw [F64.toUsize, if_neg (by decide), if_neg (by decide), if_pos (by decide), hm, hs,
    Nat.mul_div_cancel _ F64.unit_pos]
  decide

omit [LawfulF32] in
/-- Finding: a `usize` above `2^53` may come back changed. -/
theorem C43_large_usize (st : Stack) (trace : String) (n : Nat) :
    popVar st trace n .usize (pushVar .usize ⟨2 ^ 53 + 1, by decide⟩) = .ok ⟨2 ^ 53, by decide⟩ := by
  show Pop.ok (Fin.ofNat _ (F64.toUsize (F64.ofNatRound (2 ^ 53 + 1)))) = _
  rw [toUsize_round_large]
  rfl

omit [LawfulF32] in
/-- **C43.** A field of an object that exists is popped, otherwise there is an error. -/
theorem C43_obj_field (st : Stack) (trace : String) (n : Nat) (t : HTy) (obj : List (String × Val))
    (name : String) :
    (∀ v, obj.lookup name = some v → objField st trace n t obj name = popVar st trace n t v) ∧
    ((∀ kv ∈ obj, kv.1 ≠ name) → objField st trace n t obj name =
      .err ("Object has no key `" ++ name ++ "`")) := by
  constructor
  · intro v h
    simp only [objField, h]
  · intro h
    have : obj.lookup name = none := by
      rw [List.lookup_eq_none_iff]
      intro p hp
      simpa using fun hc => h p hp hc.symm
    simp only [objField, this]

omit [LawfulF32] in
/-- Finding: unlike elements of arrays, a field that holds a reference is not looked up. -/
theorem C43_obj_field_ref (trace : String) (n : Nat) (x : F64) :
    objField [.ofF64 x] trace n .f64 [("a", .ref 0)] "a" =
      .err (trace ++ "\nExpected `" ++ "number" ++ "`, found `" ++ "ref" ++ "`") ∧
    popVar [.ofF64 x] trace n (.vec .f64) (.array [.ref 0]) = .ok [x] :=
  ⟨((C43_obj_field _ _ _ _ _ _).1 (.ref 0) (by simp)).trans rfl, rfl⟩

omit [LawfulF32] [FloatOps] in
/-- **C43.** Vectors of two, three and four `f32` survive the conversion to `vec4`. -/
theorem C43_vec4_f32 (xs : List F32) (h : 2 ≤ xs.length ∧ xs.length ≤ 4) :
    f32OfVec4 xs.length (vec4OfF32 xs) = xs := by
  match xs, h with
  | [x, y], _ => rfl
  | [x, y, z], _ => rfl
  | [x, y, z, w], _ => rfl
  | [], h => simp at h
  | [_], h => simp at h
  | _ :: _ :: _ :: _ :: _ :: _, h => simp at h

/-- **C43.** The same for `f64` whose values are exact in single precision. -/
theorem C43_vec4_f64 (ys : List F32) (hn : ∀ y ∈ ys, F32.isNaN y = false)
    (h : 2 ≤ ys.length ∧ ys.length ≤ 4) :
    f64OfVec4 ys.length (vec4OfF64 (ys.map FloatOps.ofF32)) = ys.map FloatOps.ofF32 := by
  have : (ys.map FloatOps.ofF32).map FloatOps.toF32 = ys := by
    rw [List.map_map]
    conv => rhs; rw [← List.map_id ys]
    exact List.map_congr_left fun y hy => LawfulF32.back y (hn y hy)
  rw [vec4OfF64, this, f64OfVec4, C43_vec4_f32 ys h]

end

/-- Values that fit: `(true, [some(7), none], err("x"))`. -/
example : Fits (.tup3 .bool (.vec (.option .usize)) (.result .f64 .string))
    (true, [some ⟨7, by decide⟩, none], .error "x") := by
  simp only [Fits, List.mem_cons, List.not_mem_nil, or_false]
  refine ⟨trivial, ?_, ?_, ?_⟩
  · rintro x (rfl | rfl) y hy
    · cases hy; decide
    · cases hy
  · intro x hx; cases hx
  · intro x hx; trivial

/-- Operations for which `LawfulF32` holds. -/
noncomputable def lawfulOps : FloatOps :=
  { exactOps with toF32 := fun x => x.setWidth 32, ofF32 := fun x => x.setWidth 64 }

/-- `LawfulF32` has an instance. -/
example : @LawfulF32 lawfulOps :=
  @LawfulF32.mk lawfulOps (by
    intro x _
    show (x.setWidth 64).setWidth 32 = x
    simp)

end Dyon
