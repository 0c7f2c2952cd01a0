import Verif.Builtin.Stack

/-!
# C14: deep clone yields a self-contained value
-/

namespace Dyon
open Val

/-! ## Specification -/

/-- Values `deep_clone` returns as they are. -/
def IsLeaf : Val → Prop
  | .ref _ | .array _ | .object _ | .unsafeRef _ => False
  | _ => True

/-- `w` is `v` with every reference replaced, recursively, by what it points to. -/
inductive Resolves (st : Stack) : Val → Val → Prop
  | ref {i : Nat} {v w} : st[i]? = some v → Resolves st v w → Resolves st (.ref i) w
  | array {xs ys : List Val} : xs.length = ys.length →
      (∀ (i : Nat) x y, xs[i]? = some x → ys[i]? = some y → Resolves st x y) →
      Resolves st (.array xs) (.array ys)
  | object {as bs : List (String × Val)} : as.map Prod.fst = bs.map Prod.fst →
      (∀ (i : Nat) a b, as[i]? = some a → bs[i]? = some b → Resolves st a.2 b.2) →
      Resolves st (.object as) (.object bs)
  | leaf {v} : IsLeaf v → Resolves st v v

/-- No reference occurs anywhere in the value: not in arrays, objects, options, results
or secrets. -/
inductive RefFree : Val → Prop
  | ret : RefFree .ret
  | bool {b s} : (∀ l ∈ s, ∀ x ∈ l, RefFree x) → RefFree (.bool b s)
  | f64 {x s} : (∀ l ∈ s, ∀ x ∈ l, RefFree x) → RefFree (.f64 x s)
  | vec4 {v} : RefFree (.vec4 v)
  | mat4 {m} : RefFree (.mat4 m)
  | str {s} : RefFree (.str s)
  | array {xs} : (∀ x ∈ xs, RefFree x) → RefFree (.array xs)
  | object {kvs} : (∀ kv ∈ kvs, RefFree kv.2) → RefFree (.object kvs)
  | link {l} : RefFree (.link l)
  | rustObject {i} : RefFree (.rustObject i)
  | none : RefFree (.option none)
  | some {v} : RefFree v → RefFree (.option (some v))
  | ok {v} : RefFree v → RefFree (.resOk v)
  | err {v t} : RefFree v → RefFree (.resErr v t)
  | thread {i} : RefFree (.thread i)
  | closure {i} : RefFree (.closure i)
  | inTy {i} : RefFree (.inTy i)

/-- References may occur, but not inside options, results and secrets. -/
inductive Sealed : Val → Prop
  | ref {i} : Sealed (.ref i)
  | unsafeRef {i} : Sealed (.unsafeRef i)
  | array {xs} : (∀ x ∈ xs, Sealed x) → Sealed (.array xs)
  | object {kvs} : (∀ kv ∈ kvs, Sealed kv.2) → Sealed (.object kvs)
  | free {v} : RefFree v → Sealed v

/-- `u` is `v` or occurs in `v` through arrays and objects. -/
inductive Inside (u : Val) : Val → Prop
  | here : Inside u u
  | array {x : Val} {xs : List Val} : x ∈ xs → Inside u x → Inside u (.array xs)
  | object {kv : String × Val} {kvs : List (String × Val)} : kv ∈ kvs → Inside u kv.2 →
      Inside u (.object kvs)

/-- The references of a stack (and of a value) lead to existing slots, and following them
never comes back to a slot: some rank decreases along every reference. -/
structure Acyclic (st : Stack) (rank : Nat → Nat) : Prop where
  down : ∀ (i j : Nat) v, st[i]? = some v → Inside (.ref j) v → rank j < rank i
  range : ∀ (i j : Nat) v, st[i]? = some v → Inside (.ref j) v → j < st.length
  safe : ∀ (i : Nat) p v, st[i]? = some v → ¬ Inside (.unsafeRef p) v

/-! ## Helper lemmas -/

theorem deepCloneArr_ok {r : Nat → DC Val} : ∀ {xs ys : List Val},
    deepCloneArr r xs = .ok ys ↔
      xs.length = ys.length ∧
        ∀ (i : Nat) x y, xs[i]? = some x → ys[i]? = some y → deepCloneWith r x = .ok y
  | [], ys => by
    simp only [deepCloneArr, DC.ok.injEq]
    constructor
    · rintro rfl; simp
    · rintro ⟨h, -⟩; exact (List.length_eq_zero_iff.1 h.symm).symm
  | x :: xs, ys => by
    rw [deepCloneArr]
    constructor
    · intro h
      split at h
      · next y hy =>
        split at h
        · next ys' hys =>
          cases h
          obtain ⟨h1, h2⟩ := deepCloneArr_ok.1 hys
          refine ⟨by simp [h1], fun i a b ha hb => ?_⟩
          cases i with
          | zero => simp at ha hb; subst ha hb; exact hy
          | succ i => exact h2 i a b (by simpa using ha) (by simpa using hb)
        · cases h
        · cases h
      · cases h
      · cases h
    · rintro ⟨h1, h2⟩
      cases ys with
      | nil => simp at h1
      | cons y ys =>
        rw [h2 0 x y rfl rfl]
        have := (deepCloneArr_ok (r := r) (xs := xs) (ys := ys)).2
          ⟨by simpa using h1, fun i a b ha hb => h2 (i + 1) a b (by simpa using ha) (by simpa using hb)⟩
        simp [this]

theorem deepCloneObj_ok {r : Nat → DC Val} : ∀ {xs ys : List (String × Val)},
    deepCloneObj r xs = .ok ys ↔
      xs.map Prod.fst = ys.map Prod.fst ∧
        ∀ (i : Nat) x y, xs[i]? = some x → ys[i]? = some y → deepCloneWith r x.2 = .ok y.2
  | [], ys => by
    simp only [deepCloneObj, DC.ok.injEq]
    constructor
    · rintro rfl; simp
    · rintro ⟨h, -⟩
      cases ys with
      | nil => rfl
      | cons => simp at h
  | (k, x) :: xs, ys => by
    rw [deepCloneObj]
    constructor
    · intro h
      split at h
      · next y hy =>
        split at h
        · next ys' hys =>
          cases h
          obtain ⟨h1, h2⟩ := deepCloneObj_ok.1 hys
          refine ⟨by simp [h1], fun i a b ha hb => ?_⟩
          cases i with
          | zero => simp at ha hb; subst ha hb; exact hy
          | succ i => exact h2 i a b (by simpa using ha) (by simpa using hb)
        · cases h
        · cases h
      · cases h
      · cases h
    · rintro ⟨h1, h2⟩
      cases ys with
      | nil => simp at h1
      | cons y ys =>
        obtain ⟨k', y⟩ := y
        simp only [List.map_cons, List.cons.injEq] at h1
        obtain ⟨rfl, h1⟩ := h1
        have e := h2 0 (k, x) (k, y) rfl rfl
        simp only at e
        rw [e]
        have := (deepCloneObj_ok (r := r) (xs := xs) (ys := ys)).2
          ⟨h1, fun i a b ha hb => h2 (i + 1) a b (by simpa using ha) (by simpa using hb)⟩
        simp [this]

theorem deepCloneWith_leaf {r : Nat → DC Val} {v : Val} (h : IsLeaf v) :
    deepCloneWith r v = .ok v := by
  cases v <;> simp_all [IsLeaf, deepCloneWith]

theorem deepCloneWith_array {r : Nat → DC Val} {xs : List Val} {w : Val} :
    deepCloneWith r (.array xs) = .ok w ↔ ∃ ys, w = .array ys ∧ deepCloneArr r xs = .ok ys := by
  rw [deepCloneWith]
  cases deepCloneArr r xs <;> simp [eq_comm]

theorem deepCloneWith_object {r : Nat → DC Val} {xs : List (String × Val)} {w : Val} :
    deepCloneWith r (.object xs) = .ok w ↔ ∃ ys, w = .object ys ∧ deepCloneObj r xs = .ok ys := by
  rw [deepCloneWith]
  cases deepCloneObj r xs <;> simp [eq_comm]

/-- The reference step of `deepClone st n`. -/
def resolver (st : Stack) : Nat → Nat → DC Val
  | 0 => fun _ => .running
  | n + 1 => fun i => match st[i]? with
    | some v => deepClone st n v
    | none => .panic

theorem deepClone_eq (st : Stack) (n : Nat) (v : Val) :
    deepClone st n v = deepCloneWith (resolver st n) v := by
  cases n <;> rfl

/-! ## Theorems -/

/-- Soundness: the clone is the value with all references resolved. -/
theorem C14_resolves (st : Stack) (n : Nat) (v w : Val) (h : deepClone st n v = .ok w) :
    Resolves st v w := by
  induction n generalizing v w with
  | zero =>
    rw [deepClone_eq] at h
    induction v using Val.induct generalizing w with
    | harr xs ih =>
      obtain ⟨ys, rfl, hys⟩ := deepCloneWith_array.1 h
      obtain ⟨h1, h2⟩ := deepCloneArr_ok.1 hys
      exact .array h1 fun i x y hx hy => ih x (List.mem_of_getElem? hx) y (h2 i x y hx hy)
    | hobj xs ih =>
      obtain ⟨ys, rfl, hys⟩ := deepCloneWith_object.1 h
      obtain ⟨h1, h2⟩ := deepCloneObj_ok.1 hys
      exact .object h1 fun i x y hx hy => ih x (List.mem_of_getElem? hx) y.2 (h2 i x y hx hy)
    | href i => simp [deepCloneWith, resolver] at h
    | hunsafe i => simp [deepCloneWith] at h
    | _ =>
      simp only [deepCloneWith, DC.ok.injEq] at h
      subst h
      exact .leaf trivial
  | succ n ihn =>
    rw [deepClone_eq] at h
    induction v using Val.induct generalizing w with
    | harr xs ih =>
      obtain ⟨ys, rfl, hys⟩ := deepCloneWith_array.1 h
      obtain ⟨h1, h2⟩ := deepCloneArr_ok.1 hys
      exact .array h1 fun i x y hx hy => ih x (List.mem_of_getElem? hx) y (h2 i x y hx hy)
    | hobj xs ih =>
      obtain ⟨ys, rfl, hys⟩ := deepCloneWith_object.1 h
      obtain ⟨h1, h2⟩ := deepCloneObj_ok.1 hys
      exact .object h1 fun i x y hx hy => ih x (List.mem_of_getElem? hx) y.2 (h2 i x y hx hy)
    | href i =>
      simp only [deepCloneWith, resolver] at h
      split at h
      · next v hv => exact .ref hv (ihn v w h)
      · cases h
    | hunsafe i => simp [deepCloneWith] at h
    | _ =>
      simp only [deepCloneWith, DC.ok.injEq] at h
      subst h
      exact .leaf trivial

/-- More fuel does not change a result. -/
theorem deepClone_mono (st : Stack) (n : Nat) (v w : Val) (h : deepClone st n v = .ok w) :
    deepClone st (n + 1) v = .ok w := by
  induction n generalizing v w with
  | zero =>
    rw [deepClone_eq] at *
    induction v using Val.induct generalizing w with
    | harr xs ih =>
      obtain ⟨ys, rfl, hys⟩ := deepCloneWith_array.1 h
      obtain ⟨h1, h2⟩ := deepCloneArr_ok.1 hys
      exact deepCloneWith_array.2 ⟨ys, rfl, deepCloneArr_ok.2
        ⟨h1, fun i x y hx hy => ih x (List.mem_of_getElem? hx) y (h2 i x y hx hy)⟩⟩
    | hobj xs ih =>
      obtain ⟨ys, rfl, hys⟩ := deepCloneWith_object.1 h
      obtain ⟨h1, h2⟩ := deepCloneObj_ok.1 hys
      exact deepCloneWith_object.2 ⟨ys, rfl, deepCloneObj_ok.2
        ⟨h1, fun i x y hx hy => ih x (List.mem_of_getElem? hx) y.2 (h2 i x y hx hy)⟩⟩
    | href i => simp [deepCloneWith, resolver] at h
    | hunsafe i => simp [deepCloneWith] at h
    | _ => simp only [deepCloneWith] at *; exact h
  | succ n ihn =>
    rw [deepClone_eq] at *
    induction v using Val.induct generalizing w with
    | harr xs ih =>
      obtain ⟨ys, rfl, hys⟩ := deepCloneWith_array.1 h
      obtain ⟨h1, h2⟩ := deepCloneArr_ok.1 hys
      exact deepCloneWith_array.2 ⟨ys, rfl, deepCloneArr_ok.2
        ⟨h1, fun i x y hx hy => ih x (List.mem_of_getElem? hx) y (h2 i x y hx hy)⟩⟩
    | hobj xs ih =>
      obtain ⟨ys, rfl, hys⟩ := deepCloneWith_object.1 h
      obtain ⟨h1, h2⟩ := deepCloneObj_ok.1 hys
      exact deepCloneWith_object.2 ⟨ys, rfl, deepCloneObj_ok.2
        ⟨h1, fun i x y hx hy => ih x (List.mem_of_getElem? hx) y.2 (h2 i x y hx hy)⟩⟩
    | href i =>
      simp only [deepCloneWith, resolver] at *
      split at h
      · next v hv => exact ihn v w h
      · cases h
    | hunsafe i => simp [deepCloneWith] at h
    | _ => simp only [deepCloneWith] at *; exact h

theorem deepClone_mono_le {st : Stack} {n m : Nat} {v w : Val} (hnm : n ≤ m)
    (h : deepClone st n v = .ok w) : deepClone st m v = .ok w := by
  induction hnm with
  | refl => exact h
  | step _ ih => exact deepClone_mono _ _ _ _ ih

/-- A finite family of clones has a common fuel. -/
theorem common_fuel {α : Type} (l : List α) (P : α → Nat → Prop)
    (hmono : ∀ a n m, n ≤ m → P a n → P a m) (h : ∀ a ∈ l, ∃ n, P a n) :
    ∃ n, ∀ a ∈ l, P a n := by
  induction l with
  | nil => exact ⟨0, by simp⟩
  | cons a l ih =>
    obtain ⟨n1, h1⟩ := h a (by simp)
    obtain ⟨n2, h2⟩ := ih fun b hb => h b (List.mem_cons_of_mem _ hb)
    refine ⟨max n1 n2, fun b hb => ?_⟩
    rcases List.mem_cons.1 hb with rfl | hb
    · exact hmono _ _ _ (Nat.le_max_left _ _) h1
    · exact hmono _ _ _ (Nat.le_max_right _ _) (h2 b hb)

theorem deepClone_array_of {st : Stack} {n : Nat} {xs ys : List Val} (h1 : xs.length = ys.length)
    (h2 : ∀ (i : Nat) x y, xs[i]? = some x → ys[i]? = some y → deepClone st n x = .ok y) :
    deepClone st n (.array xs) = .ok (.array ys) := by
  rw [deepClone_eq]
  exact deepCloneWith_array.2 ⟨ys, rfl, deepCloneArr_ok.2
    ⟨h1, fun i x y hx hy => by rw [← deepClone_eq]; exact h2 i x y hx hy⟩⟩

theorem deepClone_object_of {st : Stack} {n : Nat} {xs ys : List (String × Val)}
    (h1 : xs.map Prod.fst = ys.map Prod.fst)
    (h2 : ∀ (i : Nat) x y, xs[i]? = some x → ys[i]? = some y → deepClone st n x.2 = .ok y.2) :
    deepClone st n (.object xs) = .ok (.object ys) := by
  rw [deepClone_eq]
  exact deepCloneWith_object.2 ⟨ys, rfl, deepCloneObj_ok.2
    ⟨h1, fun i x y hx hy => by rw [← deepClone_eq]; exact h2 i x y hx hy⟩⟩

/-- Completeness: whenever the references of a value can be resolved, the clone ends with
exactly that value. -/
theorem C14_complete (st : Stack) (v w : Val) (h : Resolves st v w) :
    ∃ n, ∀ m, n ≤ m → deepClone st m v = .ok w := by
  suffices ∃ n, deepClone st n v = .ok w from
    let ⟨n, hn⟩ := this; ⟨n, fun m hm => deepClone_mono_le hm hn⟩
  induction h with
  | @ref i v w hv _ ih =>
    obtain ⟨n, hn⟩ := ih
    refine ⟨n + 1, ?_⟩
    rw [deepClone_eq]
    simp only [deepCloneWith, resolver, hv]
    exact hn
  | @array xs ys hlen hall ih =>
    obtain ⟨n, hn⟩ := common_fuel (List.range xs.length)
      (fun i n => ∀ x y, xs[i]? = some x → ys[i]? = some y → deepClone st n x = .ok y)
      (fun i n m hnm h x y hx hy => deepClone_mono_le hnm (h x y hx hy))
      (fun i hi => by
        have hi := List.mem_range.1 hi
        obtain ⟨n, hn⟩ := ih i xs[i] (ys[i]'(hlen ▸ hi)) (List.getElem?_eq_getElem hi)
          (List.getElem?_eq_getElem _)
        refine ⟨n, fun x y hx hy => ?_⟩
        rw [List.getElem?_eq_getElem hi] at hx
        rw [List.getElem?_eq_getElem (hlen ▸ hi)] at hy
        cases hx; cases hy; exact hn)
    refine ⟨n, deepClone_array_of hlen fun i x y hx hy => ?_⟩
    exact hn i (List.mem_range.2 (List.getElem?_eq_some_iff.1 hx).1) x y hx hy
  | @object xs ys hkeys hall ih =>
    have hlen : xs.length = ys.length := by
      have := congrArg List.length hkeys
      simpa using this
    obtain ⟨n, hn⟩ := common_fuel (List.range xs.length)
      (fun i n => ∀ x y, xs[i]? = some x → ys[i]? = some y → deepClone st n x.2 = .ok y.2)
      (fun i n m hnm h x y hx hy => deepClone_mono_le hnm (h x y hx hy))
      (fun i hi => by
        have hi := List.mem_range.1 hi
        obtain ⟨n, hn⟩ := ih i xs[i] (ys[i]'(hlen ▸ hi)) (List.getElem?_eq_getElem hi)
          (List.getElem?_eq_getElem _)
        refine ⟨n, fun x y hx hy => ?_⟩
        rw [List.getElem?_eq_getElem hi] at hx
        rw [List.getElem?_eq_getElem (hlen ▸ hi)] at hy
        cases hx; cases hy; exact hn)
    refine ⟨n, deepClone_object_of hkeys fun i x y hx hy => ?_⟩
    exact hn i (List.mem_range.2 (List.getElem?_eq_some_iff.1 hx).1) x y hx hy
  | leaf h => exact ⟨0, by rw [deepClone_eq, deepCloneWith_leaf h]⟩

/-- The resolved value is unique. -/
theorem C14_unique (st : Stack) (v w w' : Val) (h : Resolves st v w) (h' : Resolves st v w') :
    w = w' := by
  obtain ⟨n, hn⟩ := C14_complete st v w h
  obtain ⟨m, hm⟩ := C14_complete st v w' h'
  have a := hn (max n m) (Nat.le_max_left _ _)
  have b := hm (max n m) (Nat.le_max_right _ _)
  rw [a] at b
  cases b; rfl

/-- A slot whose references are acyclic resolves to some value. -/
theorem exists_resolved (st : Stack) (v : Val) (hsafe : ∀ j, ¬ Inside (.unsafeRef j) v)
    (h : ∀ j, Inside (.ref j) v → ∃ w, Resolves st (.ref j) w) : ∃ w, Resolves st v w := by
  induction v using Val.induct with
  | href j => exact h j .here
  | hunsafe j => exact absurd .here (hsafe j)
  | harr xs ih =>
    have hx : ∀ x ∈ xs, ∃ w, Resolves st x w := fun x hx =>
      ih x hx (fun j hj => hsafe j (.array hx hj)) (fun j hj => h j (.array hx hj))
    have : ∃ ys : List Val, xs.length = ys.length ∧
        ∀ (i : Nat) x y, xs[i]? = some x → ys[i]? = some y → Resolves st x y := by
      clear ih h hsafe
      induction xs with
      | nil => exact ⟨[], rfl, by simp⟩
      | cons x xs ih =>
        obtain ⟨ys, h1, h2⟩ := ih fun x hm => hx x (List.mem_cons_of_mem _ hm)
        obtain ⟨y, hy⟩ := hx x (by simp)
        refine ⟨y :: ys, by simp [h1], fun i a b ha hb => ?_⟩
        cases i with
        | zero => simp at ha hb; subst ha hb; exact hy
        | succ i => exact h2 i a b (by simpa using ha) (by simpa using hb)
    obtain ⟨ys, h1, h2⟩ := this
    exact ⟨_, .array h1 h2⟩
  | hobj xs ih =>
    have hx : ∀ x ∈ xs, ∃ w, Resolves st x.2 w := fun x hx =>
      ih x hx (fun j hj => hsafe j (.object hx hj)) (fun j hj => h j (.object hx hj))
    have : ∃ ys : List (String × Val), xs.map Prod.fst = ys.map Prod.fst ∧
        ∀ (i : Nat) x y, xs[i]? = some x → ys[i]? = some y → Resolves st x.2 y.2 := by
      clear ih h hsafe
      induction xs with
      | nil => exact ⟨[], rfl, by simp⟩
      | cons x xs ih =>
        obtain ⟨ys, h1, h2⟩ := ih fun x hm => hx x (List.mem_cons_of_mem _ hm)
        obtain ⟨y, hy⟩ := hx x (by simp)
        refine ⟨(x.1, y) :: ys, by simp [h1], fun i a b ha hb => ?_⟩
        cases i with
        | zero => simp at ha hb; subst ha hb; exact hy
        | succ i => exact h2 i a b (by simpa using ha) (by simpa using hb)
    obtain ⟨ys, h1, h2⟩ := this
    exact ⟨_, .object h1 h2⟩
  | _ => exact ⟨_, .leaf trivial⟩

/-- Termination: with acyclic references into the stack, the clone of every value over
that stack ends. -/
theorem C14_terminates (st : Stack) (rank : Nat → Nat) (hst : Acyclic st rank) (v : Val)
    (hrange : ∀ j, Inside (.ref j) v → j < st.length)
    (hsafe : ∀ j, ¬ Inside (.unsafeRef j) v) :
    ∃ w n, ∀ m, n ≤ m → deepClone st m v = .ok w := by
  have slot : ∀ r i, rank i = r → i < st.length → ∃ w, Resolves st (.ref i) w := by
    intro r
    induction r using Nat.strongRecOn with
    | _ r ih =>
      intro i hr hi
      have hv := List.getElem?_eq_getElem hi
      obtain ⟨w, hw⟩ := exists_resolved st st[i] (fun j => hst.safe i j _ hv)
        (fun j hj => ih (rank j) (by have := hst.down i j _ hv hj; omega) j rfl
          (hst.range i j _ hv hj))
      exact ⟨w, .ref hv hw⟩
  obtain ⟨w, hw⟩ := exists_resolved st v hsafe fun j hj => slot _ j rfl (hrange j hj)
  obtain ⟨n, hn⟩ := C14_complete st v w hw
  exact ⟨w, n, hn⟩

/-- A stack with a reference inside an array inside an object meets the hypotheses. -/
example : Acyclic [ofF64 0, .array [.ref 0, .str "a"], .object [("k", .ref 1)]] id := by
  have inv : ∀ (i j : Nat) (p : Place) v,
      [ofF64 0, Val.array [.ref 0, .str "a"], .object [("k", .ref 1)]][i]? = some v →
      Inside (.ref j) v ∨ Inside (.unsafeRef p) v →
      Inside (.ref j) v ∧ j < i ∧ i < 3 ∧ ¬ Inside (.unsafeRef p) v := by
    intro i j p v h hin
    match i with
    | 0 => simp [ofF64] at h; subst h; rcases hin with h | h <;> cases h
    | 1 =>
      simp at h; subst h
      rcases hin with h | h
      · refine ⟨h, ?_, by omega, ?_⟩
        · cases h with
          | array hm h =>
            simp only [List.mem_cons, List.not_mem_nil, or_false] at hm
            rcases hm with rfl | rfl <;> cases h
            omega
        · intro h
          cases h with
          | array hm h =>
            simp only [List.mem_cons, List.not_mem_nil, or_false] at hm
            rcases hm with rfl | rfl <;> cases h
      · cases h with
        | array hm h =>
          simp only [List.mem_cons, List.not_mem_nil, or_false] at hm
          rcases hm with rfl | rfl <;> cases h
    | 2 =>
      simp at h; subst h
      rcases hin with h | h
      · refine ⟨h, ?_, by omega, ?_⟩
        · cases h with
          | object hm h => simp only [List.mem_singleton] at hm; subst hm; cases h; omega
        · intro h
          cases h with
          | object hm h => simp only [List.mem_singleton] at hm; subst hm; cases h
      · cases h with
        | object hm h => simp only [List.mem_singleton] at hm; subst hm; cases h
    | n + 3 => simp at h
  exact ⟨fun i j v h hin => (inv i j ⟨0, []⟩ v h (.inl hin)).2.1,
    fun i j v h hin => by have := inv i j ⟨0, []⟩ v h (.inl hin); simp only [List.length_cons, List.length_nil]; omega,
    fun i p v h hin => (inv i 0 p v h (.inr hin)).2.2.2 hin⟩

/-- The clone of a sealed value over a stack of sealed values contains no reference. -/
theorem C14_self_contained (st : Stack) (n : Nat) (v w : Val) (hst : ∀ u ∈ st, Sealed u)
    (hv : Sealed v) (h : deepClone st n v = .ok w) : RefFree w := by
  have hr := C14_resolves st n v w h
  clear h
  induction hr with
  | @ref i v w hi _ ih => exact ih (hst v (List.mem_of_getElem? hi))
  | @array xs ys hlen _ ih =>
    refine .array fun y hy => ?_
    obtain ⟨i, hi⟩ := List.mem_iff_getElem?.1 hy
    have hlt : i < xs.length := by have := (List.getElem?_eq_some_iff.1 hi).1; omega
    have hx := List.getElem?_eq_getElem hlt
    refine ih i _ y hx hi ?_
    cases hv with
    | array h => exact h _ (List.mem_of_getElem? hx)
    | free h => cases h with
      | array h => exact .free (h _ (List.mem_of_getElem? hx))
  | @object xs ys hkeys _ ih =>
    refine .object fun y hy => ?_
    obtain ⟨i, hi⟩ := List.mem_iff_getElem?.1 hy
    have hlt : i < xs.length := by
      have := (List.getElem?_eq_some_iff.1 hi).1
      have := congrArg List.length hkeys
      simp at this; omega
    have hx := List.getElem?_eq_getElem hlt
    refine ih i _ y hx hi ?_
    cases hv with
    | object h => exact h _ (List.mem_of_getElem? hx)
    | free h => cases h with
      | object h => exact .free (h _ (List.mem_of_getElem? hx))
  | leaf hl =>
    cases hv with
    | free h => exact h
    | _ => cases hl

example : Sealed (.array [.ref 0, .option (some (ofF64 0))]) := by
  refine .array fun x hx => ?_
  simp only [List.mem_cons, List.not_mem_nil, or_false] at hx
  rcases hx with rfl | rfl
  · exact .ref
  · exact .free (.some (.f64 (by simp)))

/-- A value without references is its own clone, over every stack: sending it on again
changes nothing. -/
theorem C14_stable (st : Stack) (n : Nat) (v : Val) (h : RefFree v) : deepClone st n v = .ok v := by
  induction h with
  | @array xs _ ih =>
    exact deepClone_array_of rfl fun i x y hx hy => by
      rw [hx] at hy; cases hy; exact ih x (List.mem_of_getElem? hx)
  | @object xs _ ih =>
    exact deepClone_object_of rfl fun i x y hx hy => by
      rw [hx] at hy; cases hy; exact ih x (List.mem_of_getElem? hx)
  | _ => rw [deepClone_eq, deepCloneWith] <;> simp

/-- Finding: a cyclic reference (`push_ref(mut a, a)` makes one) is followed for ever. -/
theorem C14_cycle (n : Nat) : deepClone [.array [.ref 0]] n (.array [.ref 0]) = .running := by
  induction n with
  | zero => simp [deepClone, deepCloneWith, deepCloneArr]
  | succ n ih => simp [deepClone, deepCloneWith, deepCloneArr, ih]

/-- Finding: references inside an option would be kept, so the hypothesis `Sealed` is
needed; it is kept by every library function (`C14_sealed_history`). -/
theorem C14_options_not_entered :
    deepClone [ofF64 0] 5 (.option (some (.ref 0))) = .ok (.option (some (.ref 0))) := by
  simp [deepClone, deepCloneWith]

end Dyon
