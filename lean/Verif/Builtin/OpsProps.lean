import Verif.Builtin.Ops
import Mathlib.Data.List.Perm.Subperm

/-!
# Properties of the operators: C11, C12, C13
-/

namespace Dyon
open Val

/-! ## Vocabulary of the statements -/

/-- What a user sees of a boolean operator: `none` for an error, otherwise the truth
value (its secret is the subject of C13). -/
def outcome : OpRes → Option Bool
  | .ok (.bool b _) => some b
  | _ => none

/-- A hash map has distinct keys, at every depth. -/
inductive Wf : Val → Prop
  | array {xs} : (∀ x ∈ xs, Wf x) → Wf (.array xs)
  | object {kvs} : (kvs.map Prod.fst).Nodup → (∀ kv ∈ kvs, Wf kv.2) → Wf (.object kvs)
  | some {v} : Wf v → Wf (.option (some v))
  | other {v} : (∀ xs, v ≠ .array xs) → (∀ kvs, v ≠ .object kvs) → (∀ w, v ≠ .option (some w)) → Wf v

/-- Values built from the kinds `==` accepts, without NaN. -/
inductive Comparable : Val → Prop
  | num {x s} : F64.isNaN x = false → Comparable (.f64 x s)
  | str {s} : Comparable (.str s)
  | bool {b s} : Comparable (.bool b s)
  | vec4 {v : Vec4} : F32.isNaN v.x = false → F32.isNaN v.y = false → F32.isNaN v.z = false →
      F32.isNaN v.w = false → Comparable (.vec4 v)
  | array {xs} : (∀ x ∈ xs, Comparable x) → Comparable (.array xs)
  | object {kvs} : (∀ kv ∈ kvs, Comparable kv.2) → Comparable (.object kvs)
  | none : Comparable (.option none)
  | some {v} : Comparable v → Comparable (.option (some v))

/-! ## Helper lemmas -/

theorem isTrue_iff (r : OpRes) : Op.isTrue r = true ↔ outcome r = some true := by
  unfold Op.isTrue outcome
  split <;> split <;> simp_all

theorem lookup_mem {α} {k : String} {v : α} : ∀ {l : List (String × α)}, l.lookup k = some v → (k, v) ∈ l
  | [], h => by simp at h
  | (k', v') :: l, h => by
    simp only [List.lookup_cons] at h
    by_cases hk : k = k'
    · subst hk; simp at h; simp [h]
    · have : (k == k') = false := by simpa using hk
      rw [this] at h
      exact List.mem_cons_of_mem _ (lookup_mem h)

theorem lookup_of_mem {α} {k : String} {v : α} : ∀ {l : List (String × α)},
    (l.map Prod.fst).Nodup → (k, v) ∈ l → l.lookup k = some v
  | [], _, h => by simp at h
  | (k', v') :: l, hn, h => by
    simp only [List.map_cons, List.nodup_cons] at hn
    rcases List.mem_cons.1 h with h | h
    · cases h; simp
    · have hk : (k == k') = false := by
        have : k ∈ l.map Prod.fst := List.mem_map_of_mem h
        simp only [beq_eq_false_iff_ne]
        rintro rfl
        exact hn.1 this
      rw [List.lookup_cons, hk]
      exact lookup_of_mem hn.2 h

theorem equalArr_iff : ∀ {xs ys : List Val}, xs.length = ys.length →
    (Op.equalArr xs ys = true ↔
      ∀ (i : Nat) x y, xs[i]? = some x → ys[i]? = some y → outcome (Op.equal x y) = some true)
  | [], [], _ => by simp [Op.equalArr]
  | x :: xs, y :: ys, h => by
    have ih := @equalArr_iff xs ys (by simpa using h)
    rw [Op.equalArr, Bool.and_eq_true, ih, isTrue_iff]
    constructor
    · rintro ⟨h1, h2⟩ i a b ha hb
      cases i with
      | zero => simp at ha hb; subst ha hb; exact h1
      | succ i => exact h2 i a b (by simpa using ha) (by simpa using hb)
    · intro h
      exact ⟨h 0 x y rfl rfl, fun i a b ha hb => h (i + 1) a b (by simpa using ha) (by simpa using hb)⟩

theorem equalObj_iff : ∀ {a b : List (String × Val)},
    (Op.equalObj a b = true ↔ ∀ k v, (k, v) ∈ a →
      ∃ w, b.lookup k = some w ∧ outcome (Op.equal v w) = some true)
  | [], b => by simp [Op.equalObj]
  | (k, v) :: a, b => by
    have ih := @equalObj_iff a b
    rw [Op.equalObj, Bool.and_eq_true, ih]
    constructor
    · rintro ⟨h1, h2⟩ k' v' hm
      rcases List.mem_cons.1 hm with hm | hm
      · cases hm
        cases hl : b.lookup k with
        | none => simp [hl] at h1
        | some w => simp only [hl] at h1; exact ⟨w, rfl, (isTrue_iff _).1 h1⟩
      · exact h2 k' v' hm
    · intro h
      refine ⟨?_, fun k' v' hm => h k' v' (List.mem_cons_of_mem _ hm)⟩
      obtain ⟨w, h1, h2⟩ := h k v (by simp)
      simp only [h1]
      exact (isTrue_iff _).2 h2

theorem feq64_symm (x y : F64) : F64.feq x y = F64.feq y x := by
  simp only [F64.feq, eq_comm (a := F64.key x)]
  cases F64.isNaN x <;> cases F64.isNaN y <;> simp

theorem feq32_symm (x y : F32) : F32.feq x y = F32.feq y x := by
  simp only [F32.feq, eq_comm (a := F32.key x)]
  cases F32.isNaN x <;> cases F32.isNaN y <;> simp

theorem feq64_trans {x y z : F64} (h : F64.feq x y = true) (h' : F64.feq y z = true) :
    F64.feq x z = true := by
  simp only [F64.feq, Bool.and_eq_true, Bool.not_eq_true', decide_eq_true_eq] at *
  exact ⟨⟨h.1.1, h'.1.2⟩, h.2.trans h'.2⟩

theorem feq32_trans {x y z : F32} (h : F32.feq x y = true) (h' : F32.feq y z = true) :
    F32.feq x z = true := by
  simp only [F32.feq, Bool.and_eq_true, Bool.not_eq_true', decide_eq_true_eq] at *
  exact ⟨⟨h.1.1, h'.1.2⟩, h.2.trans h'.2⟩

theorem Wf.elem {xs : List Val} (h : Wf (.array xs)) : ∀ x ∈ xs, Wf x := by
  cases h with
  | array h => exact h
  | other h _ _ => exact absurd rfl (h xs)

theorem Wf.keys {kvs : List (String × Val)} (h : Wf (.object kvs)) : (kvs.map Prod.fst).Nodup := by
  cases h with
  | object h _ => exact h
  | other _ h _ => exact absurd rfl (h kvs)

theorem Wf.entry {kvs : List (String × Val)} (h : Wf (.object kvs)) : ∀ kv ∈ kvs, Wf kv.2 := by
  cases h with
  | object _ h => exact h
  | other _ h _ => exact absurd rfl (h kvs)

theorem Wf.opt {v : Val} (h : Wf (.option (Option.some v))) : Wf v := by
  cases h with
  | some h => exact h
  | other _ _ h => exact absurd rfl (h v)

/-- Distinct keys, as many entries, and every key of `a` in `b`: the same keys. -/
theorem keys_sub {a b : List (String × Val)} (hn : (a.map Prod.fst).Nodup)
    (hlen : a.length = b.length) (h : ∀ k v, (k, v) ∈ a → ∃ w, b.lookup k = some w)
    {k : String} {w : Val} (hm : (k, w) ∈ b) : ∃ v, (k, v) ∈ a := by
  have hsub : a.map Prod.fst ⊆ b.map Prod.fst := by
    intro k hk
    obtain ⟨⟨k', v⟩, hm, rfl⟩ := List.mem_map.1 hk
    obtain ⟨w, hw⟩ := h k' v hm
    exact List.mem_map.2 ⟨_, lookup_mem hw, rfl⟩
  have hp : (a.map Prod.fst).Perm (b.map Prod.fst) :=
    (List.Nodup.subperm hn hsub).perm_of_length_le (by simp [hlen])
  have : k ∈ a.map Prod.fst := hp.symm.subset (List.mem_map_of_mem (f := Prod.fst) hm)
  obtain ⟨⟨k', v⟩, hm', rfl⟩ := List.mem_map.1 this
  exact ⟨v, hm'⟩

/-! ## C11: equality -/

/-- Arrays are equal exactly when they have the same length and equal elements. -/
theorem C11_array (xs ys : List Val) :
    outcome (Op.equal (.array xs) (.array ys)) = some true ↔
      xs.length = ys.length ∧ ∀ (i : Nat) x y, xs[i]? = some x → ys[i]? = some y →
        outcome (Op.equal x y) = some true := by
  rw [Op.equal]
  simp only [outcome, ofBool, Option.some.injEq, Bool.and_eq_true, beq_iff_eq]
  constructor
  · rintro ⟨h1, h2⟩; exact ⟨h1, (equalArr_iff h1).1 h2⟩
  · rintro ⟨h1, h2⟩; exact ⟨h1, (equalArr_iff h1).2 h2⟩

/-- Objects are equal exactly when they have the same number of keys and every key of
the first is a key of the second with an equal value. -/
theorem C11_object (a b : List (String × Val)) :
    outcome (Op.equal (.object a) (.object b)) = some true ↔
      a.length = b.length ∧ ∀ k v, (k, v) ∈ a →
        ∃ w, b.lookup k = some w ∧ outcome (Op.equal v w) = some true := by
  rw [Op.equal]
  simp only [outcome, ofBool, Option.some.injEq, Bool.and_eq_true, beq_iff_eq, equalObj_iff]

/-- `a == b` and `b == a` give the same truth value, or both are errors. -/
theorem C11_symm (a b : Val) (ha : Wf a) (hb : Wf b) :
    outcome (Op.equal a b) = outcome (Op.equal b a) := by
  induction a using Val.induct generalizing b with
  | harr xs ih =>
    cases b with
    | array ys =>
      have key : outcome (Op.equal (.array xs) (.array ys)) = some true ↔
          outcome (Op.equal (.array ys) (.array xs)) = some true := by
        rw [C11_array, C11_array]
        constructor
        · rintro ⟨h1, h2⟩
          refine ⟨h1.symm, fun i y x hy hx => ?_⟩
          rw [← ih x (List.mem_of_getElem? hx) y (ha.elem _ (List.mem_of_getElem? hx))
            (hb.elem _ (List.mem_of_getElem? hy))]
          exact h2 i x y hx hy
        · rintro ⟨h1, h2⟩
          refine ⟨h1.symm, fun i x y hx hy => ?_⟩
          rw [ih x (List.mem_of_getElem? hx) y (ha.elem _ (List.mem_of_getElem? hx))
            (hb.elem _ (List.mem_of_getElem? hy))]
          exact h2 i y x hy hx
      simp only [Op.equal, outcome, ofBool, Option.some.injEq] at key ⊢
      exact Bool.eq_iff_iff.2 key
    | _ => simp [Op.equal, outcome]
  | hobj as ih =>
    cases b with
    | object bs =>
      have key : outcome (Op.equal (.object as) (.object bs)) = some true ↔
          outcome (Op.equal (.object bs) (.object as)) = some true := by
        rw [C11_object, C11_object]
        constructor
        · rintro ⟨h1, h2⟩
          refine ⟨h1.symm, fun k w hm => ?_⟩
          obtain ⟨v, hv⟩ := keys_sub ha.keys h1
            (fun k v h => let ⟨w, hw, _⟩ := h2 k v h; ⟨w, hw⟩) hm
          refine ⟨v, lookup_of_mem ha.keys hv, ?_⟩
          obtain ⟨w', hw', he⟩ := h2 k v hv
          rw [lookup_of_mem hb.keys hm] at hw'
          cases hw'
          rw [← ih _ hv w (ha.entry _ hv) (hb.entry _ hm)]
          exact he
        · rintro ⟨h1, h2⟩
          refine ⟨h1.symm, fun k w hm => ?_⟩
          obtain ⟨v, hv⟩ := keys_sub hb.keys h1
            (fun k v h => let ⟨w, hw, _⟩ := h2 k v h; ⟨w, hw⟩) hm
          refine ⟨v, lookup_of_mem hb.keys hv, ?_⟩
          obtain ⟨w', hw', he⟩ := h2 k v hv
          rw [lookup_of_mem ha.keys hm] at hw'
          cases hw'
          rw [ih _ hm v (ha.entry _ hm) (hb.entry _ hv)]
          exact he
      simp only [Op.equal, outcome, ofBool, Option.some.injEq] at key ⊢
      exact Bool.eq_iff_iff.2 key
    | _ => simp [Op.equal, outcome]
  | hf64 x s => cases b <;> simp [Op.equal, outcome, feq64_symm x]
  | hstr x => cases b <;> simp [Op.equal, outcome, ofBool, Bool.beq_comm, BEq.comm]
  | hbool x s => cases b <;> simp [Op.equal, outcome, BEq.comm]
  | hvec4 x =>
    cases b <;> simp [Op.equal, outcome, ofBool, Vec4.feq, feq32_symm x.x, feq32_symm x.y,
      feq32_symm x.z, feq32_symm x.w]
  | hnone =>
    cases b with
    | option o => cases o <;> simp [Op.equal, outcome]
    | _ => simp [Op.equal, outcome]
  | hsome v ih =>
    cases b with
    | option o =>
      cases o with
      | none => simp [Op.equal, outcome]
      | some w => simp only [Op.equal]; exact ih w ha.opt hb.opt
    | _ => simp [Op.equal, outcome]
  | _ => cases b <;> simp [Op.equal, outcome]

/-- Both sides of `C11_symm` occur: unequal objects, and errors. -/
example : Wf (.object [("a", ofBool true), ("b", .array [ofF64 0])]) ∧
    outcome (Op.equal (.link []) (.link [])) = none := by
  refine ⟨.object (by decide) ?_, rfl⟩
  intro kv h
  simp only [List.mem_cons, List.not_mem_nil, or_false] at h
  rcases h with rfl | rfl
  · exact .other (by simp [ofBool]) (by simp [ofBool]) (by simp [ofBool])
  · exact .array (by
      intro x hx; simp only [List.mem_singleton] at hx; subst hx
      exact .other (by simp [ofF64]) (by simp [ofF64]) (by simp [ofF64]))

/-- Equality of well-formed values is transitive. -/
theorem C11_trans (a b c : Val) (hab : outcome (Op.equal a b) = some true)
    (hbc : outcome (Op.equal b c) = some true) : outcome (Op.equal a c) = some true := by
  induction a using Val.induct generalizing b c with
  | harr xs ih =>
    cases b with
    | array ys =>
      cases c with
      | array zs =>
        rw [C11_array] at *
        refine ⟨hab.1.trans hbc.1, fun i x z hx hz => ?_⟩
        have hlt : i < ys.length := by
          have := (List.getElem?_eq_some_iff.1 hz).1; omega
        have hy : ys[i]? = some ys[i] := List.getElem?_eq_getElem hlt
        exact ih x (List.mem_of_getElem? hx) _ z (hab.2 i x _ hx hy) (hbc.2 i _ z hy hz)
      | _ => simp [Op.equal, outcome] at hbc
    | _ => simp [Op.equal, outcome] at hab
  | hobj as ih =>
    cases b with
    | object bs =>
      cases c with
      | object cs =>
        rw [C11_object] at *
        refine ⟨hab.1.trans hbc.1, fun k v hm => ?_⟩
        obtain ⟨w, hw, h1⟩ := hab.2 k v hm
        obtain ⟨u, hu, h2⟩ := hbc.2 k w (lookup_mem hw)
        exact ⟨u, hu, ih _ hm w u h1 h2⟩
      | _ => simp [Op.equal, outcome] at hbc
    | _ => simp [Op.equal, outcome] at hab
  | hf64 x s =>
    cases b <;> simp [Op.equal, outcome] at hab
    cases c <;> simp [Op.equal, outcome] at hbc
    simpa [Op.equal, outcome] using feq64_trans hab hbc
  | hstr x =>
    cases b <;> simp [Op.equal, outcome, ofBool] at hab
    subst hab; exact hbc
  | hbool x s =>
    cases b <;> simp [Op.equal, outcome] at hab
    cases c <;> simp [Op.equal, outcome] at hbc
    simp [Op.equal, outcome, hab, hbc]
  | hvec4 x =>
    cases b <;> simp [Op.equal, outcome, ofBool, Vec4.feq] at hab
    cases c <;> simp [Op.equal, outcome, ofBool, Vec4.feq] at hbc
    obtain ⟨⟨⟨a1, a2⟩, a3⟩, a4⟩ := hab
    obtain ⟨⟨⟨b1, b2⟩, b3⟩, b4⟩ := hbc
    simp [Op.equal, outcome, ofBool, Vec4.feq, feq32_trans a1 b1, feq32_trans a2 b2,
      feq32_trans a3 b3, feq32_trans a4 b4]
  | hnone =>
    cases b with
    | option o => cases o <;> simp [Op.equal, outcome, ofBool] at hab; exact hbc
    | _ => simp [Op.equal, outcome] at hab
  | hsome v ih =>
    cases b with
    | option o =>
      cases o with
      | none => simp [Op.equal, outcome, ofBool] at hab
      | some w =>
        cases c with
        | option o =>
          cases o with
          | none => simp [Op.equal, outcome, ofBool] at hbc
          | some u => simp only [Op.equal] at *; exact ih w u hab hbc
        | _ => simp [Op.equal, outcome] at hbc
    | _ => simp [Op.equal, outcome] at hab
  | _ => cases b <;> simp [Op.equal, outcome] at hab

example : outcome (Op.equal (.array [ofF64 0]) (.array [ofF64 (F64.fneg 0)])) = some true := by
  decide

theorem equal_bool (a b : Val) {v : Val} (h : Op.equal a b = .ok v) : ∃ c s, v = .bool c s := by
  induction a using Val.induct generalizing b with
  | hsome w ih =>
    cases b with
    | option o =>
      cases o with
      | none => simp [Op.equal] at h; exact ⟨_, _, h.symm⟩
      | some u => simp only [Op.equal] at h; exact ih u h
    | _ => simp [Op.equal] at h
  | hnone =>
    cases b with
    | option o => cases o <;> (simp [Op.equal] at h; exact ⟨_, _, h.symm⟩)
    | _ => simp [Op.equal] at h
  | _ => cases b <;> simp [Op.equal] at h <;> exact ⟨_, _, h.symm⟩

/-- `a != b` is the negation of `a == b`, and an error exactly when `a == b` is. -/
theorem C11_not_equal (a b : Val) :
    outcome (Op.notEqual a b) = (outcome (Op.equal a b)).map (!·) ∧
    (∀ e, Op.notEqual a b = .error e ↔ Op.equal a b = .error e) := by
  unfold Op.notEqual
  cases h : Op.equal a b with
  | error e => simp [Op.negate, outcome]
  | ok v =>
    obtain ⟨c, s, rfl⟩ := equal_bool a b h
    simp [Op.negate, outcome]

theorem feq64_refl (x : F64) : F64.feq x x = !F64.isNaN x := by simp [F64.feq]
theorem feq32_refl (x : F32) : F32.feq x x = !F32.isNaN x := by simp [F32.feq]

/-- A value equals itself exactly when it is built from comparable kinds without NaN. -/
theorem C11_refl_iff (a : Val) (ha : Wf a) :
    outcome (Op.equal a a) = some true ↔ Comparable a := by
  induction a using Val.induct with
  | harr xs ih =>
    rw [C11_array]
    constructor
    · rintro ⟨-, h⟩
      refine .array fun x hx => ?_
      obtain ⟨i, hi⟩ := List.mem_iff_getElem?.1 hx
      exact (ih x hx (ha.elem _ hx)).1 (h i x x hi hi)
    · intro h
      cases h with
      | array h =>
        refine ⟨rfl, fun i x y hx hy => ?_⟩
        rw [hx] at hy; cases hy
        have hm := List.mem_of_getElem? hx
        exact (ih x hm (ha.elem _ hm)).2 (h x hm)
  | hobj kvs ih =>
    rw [C11_object]
    constructor
    · rintro ⟨-, h⟩
      refine .object fun kv hm => ?_
      obtain ⟨k, v⟩ := kv
      obtain ⟨w, hw, he⟩ := h k v hm
      rw [lookup_of_mem ha.keys hm] at hw; cases hw
      exact (ih _ hm (ha.entry _ hm)).1 he
    · intro h
      cases h with
      | object h =>
        exact ⟨rfl, fun k v hm => ⟨v, lookup_of_mem ha.keys hm,
          (ih _ hm (ha.entry _ hm)).2 (h _ hm)⟩⟩
  | hf64 x s =>
    simp only [Op.equal, outcome, feq64_refl, Option.some.injEq, Bool.not_eq_true']
    exact ⟨.num, fun h => by cases h; assumption⟩
  | hvec4 v =>
    simp only [Op.equal, outcome, ofBool, Vec4.feq, feq32_refl, Option.some.injEq,
      Bool.and_eq_true, Bool.not_eq_true']
    exact ⟨fun ⟨⟨⟨h1, h2⟩, h3⟩, h4⟩ => .vec4 h1 h2 h3 h4,
      fun h => by cases h; exact ⟨⟨⟨by assumption, by assumption⟩, by assumption⟩, by assumption⟩⟩
  | hstr s => simp only [Op.equal, outcome, ofBool, beq_self_eq_true]; exact ⟨fun _ => .str, fun _ => trivial⟩
  | hbool b s => simp only [Op.equal, outcome, beq_self_eq_true]; exact ⟨fun _ => .bool, fun _ => trivial⟩
  | hnone => simp only [Op.equal, outcome, ofBool]; exact ⟨fun _ => .none, fun _ => trivial⟩
  | hsome v ih =>
    simp only [Op.equal]
    rw [ih ha.opt]
    exact ⟨.some, fun h => by cases h; assumption⟩
  | _ =>
    simp only [Op.equal, outcome]
    exact ⟨fun h => by simp at h, fun h => by cases h⟩

/-- Finding: an array holding a reference (the literal `[x]` for a variable `x`) is not
equal to itself, although the value `x` is: references inside are not followed. -/
theorem C11_reference_elements (i : Nat) :
    outcome (Op.equal (.array [.ref i]) (.array [.ref i])) = some false := by
  simp [Op.equal, Op.equalArr, Op.isTrue, outcome, ofBool]

/-! ## C12: comparison -/

/-- The verdicts of the six comparisons on `(a, b)`. -/
structure Verdicts where
  lt : Option Bool
  le : Option Bool
  gt : Option Bool
  ge : Option Bool
  eq : Option Bool
  ne : Option Bool
deriving DecidableEq

/-- The six comparison operators of the language on one pair of operands. -/
def verdicts (a b : Val) : Verdicts :=
  ⟨outcome (Op.less a b), outcome (Op.lessOrEqual a b), outcome (Op.greater a b),
   outcome (Op.greaterOrEqual a b), outcome (Op.equal a b), outcome (Op.notEqual a b)⟩

/-- On numbers that are not NaN, one of three rows of the table applies: the one for
"smaller", "same" or "larger" by numeric value (`F64.key` orders the numbers; on finite
numbers it agrees with the exact value, `C12_exact_value`). -/
theorem C12_numbers (x y : F64) (s t : Option (List Val)) (hx : F64.isNaN x = false)
    (hy : F64.isNaN y = false) :
    verdicts (.f64 x s) (.f64 y t) =
      if F64.key x < F64.key y then
        ⟨some true, some true, some false, some false, some false, some true⟩
      else if F64.key x = F64.key y then
        ⟨some false, some true, some false, some true, some true, some false⟩
      else ⟨some false, some false, some true, some true, some false, some true⟩ := by
  simp only [verdicts, Op.less, Op.lessOrEqual, Op.greater, Op.greaterOrEqual, Op.equal,
    Op.notEqual, Op.negate, outcome, F64.lt, F64.le, F64.feq, hx, hy]
  rcases Int.lt_trichotomy (F64.key x) (F64.key y) with h | h | h
  · simp [h, Int.le_of_lt h, Int.ne_of_lt h]
  · simp [h]
  · have h1 : ¬ F64.key x < F64.key y := by omega
    have h2 : ¬ F64.key x ≤ F64.key y := by omega
    have h3 : ¬ F64.key x = F64.key y := by omega
    simp [h1, h2, h3]

/-- On finite numbers "smaller" means: the exact real value is smaller. -/
theorem C12_exact_value (x y : F64) (s t : Option (List Val)) (hx : F64.isFinite x = true)
    (hy : F64.isFinite y = true) :
    outcome (Op.less (.f64 x s) (.f64 y t)) = some (decide (F64.scaled x < F64.scaled y)) := by
  simp only [Op.less, outcome, Option.some.injEq]
  rw [Bool.eq_iff_iff, F64.lt_iff_scaled hx hy, decide_eq_true_iff]

/-- Infinities are the ends of the order. -/
theorem C12_infinities (x : F64) (s t : Option (List Val)) (hx : F64.isFinite x = true) :
    outcome (Op.less (.f64 x s) (.f64 0x7ff0000000000000#64 t)) = some true ∧
    outcome (Op.less (.f64 0xfff0000000000000#64 t) (.f64 x s)) = some true := by
  have hn := F64.isNaN_of_isFinite hx
  have h1 : F64.isNaN 0x7ff0000000000000#64 = false := by decide
  have h2 : F64.isNaN 0xfff0000000000000#64 = false := by decide
  have k1 : F64.key 0x7ff0000000000000#64 = F64.infMag := by decide
  have k2 : F64.key 0xfff0000000000000#64 = -(F64.infMag : Int) := by decide
  have hm : F64.mag x < F64.infMag := by simpa [F64.isFinite] using hx
  simp only [Op.less, outcome, F64.lt, hn, h1, h2, k1, k2, Option.some.injEq]
  have hk : -(F64.infMag : Int) < F64.key x ∧ F64.key x < F64.infMag := by
    unfold F64.key; split <;> omega
  simp [hk.1, hk.2]

/-- On strings the six comparisons are those of one total order. -/
theorem C12_strings (x y : String) :
    verdicts (.str x) (.str y) =
      if x < y then ⟨some true, some true, some false, some false, some false, some true⟩
      else if x = y then ⟨some false, some true, some false, some true, some true, some false⟩
      else ⟨some false, some false, some true, some true, some false, some true⟩ := by
  simp only [verdicts, Op.less, Op.lessOrEqual, Op.greater, Op.greaterOrEqual, Op.equal,
    Op.notEqual, Op.negate, outcome, ofBool]
  rcases lt_trichotomy x y with h | h | h
  · simp [h, le_of_lt h, ne_of_lt h, not_lt_of_gt h]
  · simp [h]
  · simp [h, not_lt_of_gt h, ne_of_gt h, not_le_of_gt h]

/-- Values `<` accepts and that are not NaN. -/
def Ordered : Val → Bool
  | .f64 x _ => !F64.isNaN x
  | _ => true

/-- `a > b` is `b < a` and `a >= b` is `b <= a`, including errors.  Missing from the full
property: NaN operands, for which it is false (`C12_nan`). -/
theorem C12_swap_partial (a b : Val) (ha : Ordered a = true) (hb : Ordered b = true) :
    outcome (Op.greater a b) = outcome (Op.less b a) ∧
    outcome (Op.greaterOrEqual a b) = outcome (Op.lessOrEqual b a) := by
  cases a <;> cases b <;> simp only [Op.greater, Op.less, Op.greaterOrEqual, Op.lessOrEqual,
    Op.negate, outcome, ofBool] <;> try exact ⟨trivial, trivial⟩
  · simp only [Ordered, Bool.not_eq_true'] at ha hb
    simp only [F64.le, F64.lt, ha, hb, Bool.not_false, Bool.true_and, Option.some.injEq,
      ← decide_not, decide_eq_decide, Int.not_le, Int.not_lt, and_self]
  · rename_i x y
    simp only [Option.some.injEq, Bool.not_eq_eq_eq_not]
    constructor
    · by_cases h : x ≤ y
      · simp [h, not_lt_of_ge h]
      · simp [h, lt_of_not_ge h]
    · by_cases h : x < y
      · simp [h, not_le_of_gt h]
      · simp [h, le_of_not_gt h]

example : Ordered (ofF64 F64.one) = true ∧
    outcome (Op.greater (ofF64 F64.one) (ofF64 0)) = some true := by decide

/-- Finding: with a NaN operand `<`, `<=`, `==` are false and `!=` is true, but `>` and
`>=` are true as well. -/
theorem C12_nan (x y : F64) (s t : Option (List Val))
    (h : F64.isNaN x = true ∨ F64.isNaN y = true) :
    verdicts (.f64 x s) (.f64 y t) =
      ⟨some false, some false, some true, some true, some false, some true⟩ := by
  rcases h with h | h <;>
  simp [verdicts, Op.less, Op.lessOrEqual, Op.greater, Op.greaterOrEqual, Op.equal,
    Op.notEqual, Op.negate, outcome, F64.lt, F64.le, F64.feq, h]

/-- The property "with NaN every comparison except `!=` is false" is false of the code. -/
theorem C12_nan_fails : outcome (Op.greater (ofF64 F64.nan) (ofF64 0)) = some true ∧
    outcome (Op.less (ofF64 0) (ofF64 F64.nan)) = some false := by decide

/-- The order is total and transitive on numbers that are not NaN. -/
theorem C12_transitive (a b c : Val) (h1 : outcome (Op.less a b) = some true)
    (h2 : outcome (Op.less b c) = some true) : outcome (Op.less a c) = some true := by
  cases a <;> cases b <;> simp only [Op.less, outcome, ofBool, reduceCtorEq] at h1
  all_goals cases c <;> simp only [Op.less, outcome, ofBool, reduceCtorEq] at h2
  all_goals simp only [Op.less, outcome, ofBool, Option.some.injEq, F64.lt, Bool.and_eq_true,
    Bool.not_eq_true', decide_eq_true_eq] at *
  · exact ⟨⟨h1.1.1, h2.1.2⟩, Int.lt_trans h1.2 h2.2⟩
  · exact lt_trans h1 h2

/-! ## C13: boolean, string and link arithmetic; accepted kinds -/

/-- The kinds of value the operators tell apart. -/
inductive Kind
  | f64 | vec4 | mat4 | bool | str | link | object | array | opt | other
deriving DecidableEq, Repr

/-- The kind of a value. -/
def kind : Val → Kind
  | .f64 _ _ => .f64
  | .vec4 _ => .vec4
  | .mat4 _ => .mat4
  | .bool _ _ => .bool
  | .str _ => .str
  | .link _ => .link
  | .object _ => .object
  | .array _ => .array
  | .option _ => .opt
  | _ => .other

/-- The kind of a result; `none` for an error. -/
def resKind : OpRes → Option Kind
  | .ok v => some (kind v)
  | .error _ => none

section
variable [FloatOps] [VecMath]

/-- Booleans: `+ * - ^` are or, and, and-not, exclusive or; the secret is that of the
left operand. -/
theorem C13_bool (a b : Bool) (s t : Option (List Val)) :
    Op.add (.bool a s) (.bool b t) = .ok (.bool (a || b) s) ∧
    Op.mul (.bool a s) (.bool b t) = .ok (.bool (a && b) s) ∧
    Op.sub (.bool a s) (.bool b t) = .ok (.bool (a && !b) s) ∧
    Op.pow (.bool a s) (.bool b t) = .ok (.bool (a ^^ b) s) ∧
    Op.not (.bool a s) = .ok (.bool (!a) s) := by
  simp [Op.add, Op.mul, Op.sub, Op.pow, Op.not]

/-- Numbers keep the secret of the left operand in every arithmetic operator, in
negation and in comparisons. -/
theorem C13_number_secret (x y : F64) (s t : Option (List Val)) :
    (∃ z, Op.add (.f64 x s) (.f64 y t) = .ok (.f64 z s)) ∧
    (∃ z, Op.sub (.f64 x s) (.f64 y t) = .ok (.f64 z s)) ∧
    (∃ z, Op.mul (.f64 x s) (.f64 y t) = .ok (.f64 z s)) ∧
    (∃ z, Op.div (.f64 x s) (.f64 y t) = .ok (.f64 z s)) ∧
    (∃ z, Op.rem (.f64 x s) (.f64 y t) = .ok (.f64 z s)) ∧
    (∃ z, Op.pow (.f64 x s) (.f64 y t) = .ok (.f64 z s)) ∧
    (∃ z, Op.neg (.f64 x s) = .ok (.f64 z s)) ∧
    (∃ z, Op.less (.f64 x s) (.f64 y t) = .ok (.bool z s)) ∧
    (∃ z, Op.lessOrEqual (.f64 x s) (.f64 y t) = .ok (.bool z s)) ∧
    (∃ z, Op.greater (.f64 x s) (.f64 y t) = .ok (.bool z s)) ∧
    (∃ z, Op.greaterOrEqual (.f64 x s) (.f64 y t) = .ok (.bool z s)) ∧
    (∃ z, Op.equal (.f64 x s) (.f64 y t) = .ok (.bool z s)) ∧
    (∃ z, Op.notEqual (.f64 x s) (.f64 y t) = .ok (.bool z s)) := by
  simp [Op.add, Op.sub, Op.mul, Op.div, Op.rem, Op.pow, Op.neg, Op.less, Op.lessOrEqual,
    Op.greater, Op.greaterOrEqual, Op.equal, Op.notEqual, Op.negate]

/-- `+` on strings and on links is concatenation. -/
theorem C13_concat (a b : String) (k l : List Link.Scalar) :
    Op.add (.str a) (.str b) = .ok (.str (a ++ b)) ∧
    Op.add (.link k) (.link l) = .ok (.link (k ++ l)) := by
  simp [Op.add]

/-- `(a + b) + c` and `a + (b + c)` agree on strings and links, errors included. -/
theorem C13_concat_assoc (a b c : Val) (ha : kind a = .str ∨ kind a = .link) :
    ((Op.add a b).bind fun ab => Op.add ab c) = ((Op.add b c).bind fun bc => Op.add a bc) ∨
    (∃ e e', ((Op.add a b).bind fun ab => Op.add ab c) = .error e ∧
      ((Op.add b c).bind fun bc => Op.add a bc) = .error e') := by
  cases a <;> simp [kind] at ha <;> cases b <;> cases c <;>
    simp [Op.add, Except.bind, String.append_assoc]

/-- The empty string and the empty link are neutral on both sides. -/
theorem C13_concat_neutral (a : String) (k : List Link.Scalar) :
    Op.add (.str "") (.str a) = .ok (.str a) ∧ Op.add (.str a) (.str "") = .ok (.str a) ∧
    Op.add (.link []) (.link k) = .ok (.link k) ∧ Op.add (.link k) (.link []) = .ok (.link k) := by
  simp [Op.add]

/-- The accepted operand kinds of `+` and the kind of the result. -/
def addKinds : Kind → Kind → Option Kind
  | .f64, .f64 => some .f64
  | .vec4, .vec4 | .vec4, .f64 | .f64, .vec4 => some .vec4
  | .mat4, .mat4 | .mat4, .f64 | .f64, .mat4 => some .mat4
  | .bool, .bool => some .bool
  | .str, .str => some .str
  | .link, .link => some .link
  | _, _ => none

/-- The accepted operand kinds of `-` and the kind of the result. -/
def subKinds : Kind → Kind → Option Kind
  | .f64, .f64 => some .f64
  | .vec4, .vec4 | .vec4, .f64 | .f64, .vec4 => some .vec4
  | .mat4, .mat4 | .mat4, .f64 | .f64, .mat4 => some .mat4
  | .bool, .bool => some .bool
  | _, _ => none

/-- The accepted operand kinds of `*` and the kind of the result. -/
def mulKinds : Kind → Kind → Option Kind
  | .mat4, .vec4 => some .vec4
  | a, b => subKinds a b

/-- The accepted operand kinds of `/` and `%` and the kind of the result. -/
def divKinds : Kind → Kind → Option Kind
  | .f64, .f64 => some .f64
  | .vec4, .vec4 | .vec4, .f64 | .f64, .vec4 => some .vec4
  | _, _ => none

/-- The accepted operand kinds of `^` and the kind of the result. -/
def powKinds : Kind → Kind → Option Kind
  | .bool, .bool => some .bool
  | a, b => divKinds a b

/-- Every operator accepts exactly the listed kinds and gives a value of the listed kind;
every other combination of operand kinds is an error. -/
theorem C13_kinds (a b : Val) :
    resKind (Op.add a b) = addKinds (kind a) (kind b) ∧
    resKind (Op.sub a b) = subKinds (kind a) (kind b) ∧
    resKind (Op.mul a b) = mulKinds (kind a) (kind b) ∧
    resKind (Op.div a b) = divKinds (kind a) (kind b) ∧
    resKind (Op.rem a b) = divKinds (kind a) (kind b) ∧
    resKind (Op.pow a b) = powKinds (kind a) (kind b) ∧
    resKind (Op.not a) = (if kind a = .bool then some .bool else none) ∧
    resKind (Op.neg a) = (if kind a = .f64 ∨ kind a = .vec4 ∨ kind a = .mat4
      then some (kind a) else none) ∧
    resKind (Op.less a b) = (if kind a = kind b ∧ (kind a = .f64 ∨ kind a = .str)
      then some .bool else none) := by
  cases a <;> cases b <;> simp [Op.add, Op.sub, Op.mul, Op.div, Op.rem, Op.pow, Op.not, Op.neg,
    Op.less, kind, resKind, addKinds, subKinds, mulKinds, divKinds, powKinds, ofBool]

/-- On vectors the operators act component by component; a number operand stands for
the vector with that number in every component. -/
theorem C13_vec4 (u v : Vec4) (x : F64) (s : Option (List Val)) :
    let rep : Vec4 := ⟨FloatOps.toF32 x, FloatOps.toF32 x, FloatOps.toF32 x, FloatOps.toF32 x⟩
    let pair (f : F32 → F32 → F32) (p q : Vec4) : OpRes :=
      .ok (.vec4 ⟨f p.x q.x, f p.y q.y, f p.z q.z, f p.w q.w⟩)
    Op.add (.vec4 u) (.vec4 v) = pair FloatOps.add32 u v ∧
    Op.sub (.vec4 u) (.vec4 v) = pair FloatOps.sub32 u v ∧
    Op.mul (.vec4 u) (.vec4 v) = pair FloatOps.mul32 u v ∧
    Op.div (.vec4 u) (.vec4 v) = pair FloatOps.div32 u v ∧
    Op.rem (.vec4 u) (.vec4 v) = pair FloatOps.rem32 u v ∧
    Op.pow (.vec4 u) (.vec4 v) = pair FloatOps.pow32 u v ∧
    Op.sub (.f64 x s) (.vec4 v) = pair FloatOps.sub32 rep v ∧
    Op.sub (.vec4 v) (.f64 x s) = pair FloatOps.sub32 v rep ∧
    Op.div (.f64 x s) (.vec4 v) = pair FloatOps.div32 rep v ∧
    Op.div (.vec4 v) (.f64 x s) = pair FloatOps.div32 v rep ∧
    Op.rem (.f64 x s) (.vec4 v) = pair FloatOps.rem32 rep v ∧
    Op.rem (.vec4 v) (.f64 x s) = pair FloatOps.rem32 v rep ∧
    Op.pow (.f64 x s) (.vec4 v) = pair FloatOps.pow32 rep v ∧
    Op.pow (.vec4 v) (.f64 x s) = pair FloatOps.pow32 v rep ∧
    Op.add (.vec4 v) (.f64 x s) = pair FloatOps.add32 v rep ∧
    Op.add (.f64 x s) (.vec4 v) = pair FloatOps.add32 v rep ∧
    Op.mul (.vec4 v) (.f64 x s) = pair FloatOps.mul32 v rep ∧
    Op.mul (.f64 x s) (.vec4 v) = pair FloatOps.mul32 v rep := by
  simp [Op.add, Op.sub, Op.mul, Op.div, Op.rem, Op.pow, Vec4.zipWith, Vec4.map]

/-- Negating twice gives the number, vector or matrix back. -/
theorem C13_neg_neg (a b : Val) (h : Op.neg a = .ok b) : Op.neg b = .ok a := by
  have e64 : ∀ x : F64, F64.fneg (F64.fneg x) = x := fun x => by
    simp [F64.fneg, BitVec.xor_assoc]
  have e32 : ∀ x : F32, F32.fneg (F32.fneg x) = x := fun x => by
    simp [F32.fneg, BitVec.xor_assoc]
  cases a <;> simp [Op.neg] at h <;> subst h <;> simp [Op.neg, Mat4.map, Vec4.map, e64, e32]

/-- Negating a boolean twice gives it back. -/
theorem C13_not_not (a b : Val) (h : Op.not a = .ok b) : Op.not b = .ok a := by
  cases a <;> simp [Op.not] at h
  subst h; simp [Op.not]

end

end Dyon
