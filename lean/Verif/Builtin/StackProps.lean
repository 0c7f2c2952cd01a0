import Verif.Builtin.CloneProps

/-!
# C14 (history), C15, C16, C17 (library part), C46, C47: library functions on the stack
-/

namespace Dyon
open Val

/-! ## Helper lemmas: running the stack monad -/

@[simp] theorem SM.bind_apply {α β} (m : SM α) (f : α → SM β) (st : Stack) :
    (m >>= f) st = match m st with
      | .ok a st' => f a st'
      | .err e st' => .err e st'
      | .panic => .panic
      | .running => .running := rfl

@[simp] theorem SM.pure_apply {α} (a : α) (st : Stack) : (pure a : SM α) st = .ok a st := rfl
@[simp] theorem SM.fail_apply {α} (m : String) (st : Stack) : (SM.fail m : SM α) st = .err m st := rfl
@[simp] theorem SM.panic_apply {α} (st : Stack) : (SM.panic : SM α) st = .panic := rfl

@[simp] theorem popV_one (st : Stack) (v : Val) : popV (st ++ [v]) = .ok v st := by simp [popV]
@[simp] theorem popV_two (st : Stack) (a b : Val) : popV (st ++ [a, b]) = .ok b (st ++ [a]) := by
  have : st ++ [a, b] = (st ++ [a]) ++ [b] := by simp
  rw [this, popV_one]
@[simp] theorem popV_three (st : Stack) (a b c : Val) :
    popV (st ++ [a, b, c]) = .ok c (st ++ [a, b]) := by
  have : st ++ [a, b, c] = (st ++ [a, b]) ++ [c] := by simp
  rw [this, popV_one]
@[simp] theorem popV_four (st : Stack) (a b c d : Val) :
    popV (st ++ [a, b, c, d]) = .ok d (st ++ [a, b, c]) := by
  have : st ++ [a, b, c, d] = (st ++ [a, b, c]) ++ [d] := by simp
  rw [this, popV_one]

/-- The value an argument stands for: the slot it refers to, or itself. -/
def Denotes (st : Stack) (a v : Val) : Prop :=
  (∃ i : Nat, a = .ref i ∧ st[i]? = some v) ∨ ((∀ i, a ≠ .ref i) ∧ a = v)

theorem Denotes.getV {st : Stack} {a v : Val} (h : Denotes st a v) (tl : Stack) :
    getV a (st ++ tl) = .ok v (st ++ tl) := by
  rcases h with ⟨i, rfl, h⟩ | ⟨h, rfl⟩
  · have hlt := (List.getElem?_eq_some_iff.1 h).1
    simp [Dyon.getV, List.getElem?_append_left hlt, h]
  · cases a <;> simp_all [Dyon.getV]

theorem Denotes.getV' {st : Stack} {a v : Val} (h : Denotes st a v) :
    Dyon.getV a st = .ok v st := by
  have := h.getV []
  simpa using this

theorem Denotes.number {c : Cfg} {st : Stack} {a : Val} {x : F64} {s : Option (List Val)}
    (h : Denotes st a (.f64 x s)) (tl : Stack) :
    Lib.number c a (st ++ tl) = .ok x (st ++ tl) := by
  simp [Lib.number, h.getV tl]

theorem withArray_ok {α} {st : Stack} {i : Nat} {xs ys : List Val} {a : α}
    {f : List Val → Except String (List Val × α)} (hi : st[i]? = some (.array xs))
    (hf : f xs = .ok (ys, a)) :
    Lib.withArray (.ref i) f st = .ok a (st.set i (.array ys)) := by
  simp [Lib.withArray, hi, hf]

theorem withArray_err {α} {st : Stack} {i : Nat} {xs : List Val} {e : String}
    {f : List Val → Except String (List Val × α)} (hi : st[i]? = some (.array xs))
    (hf : f xs = .error e) :
    Lib.withArray (.ref i) f st = .err e st := by
  simp [Lib.withArray, hi, hf]

theorem insertIdx_take_drop {α} : ∀ (xs : List α) (n : Nat) (a : α), n ≤ xs.length →
    xs.insertIdx n a = xs.take n ++ a :: xs.drop n
  | _, 0, _, _ => by simp
  | [], n + 1, _, h => by simp at h
  | x :: xs, n + 1, a, h => by
    have := insertIdx_take_drop xs n a (by simpa using h)
    simp [this]

theorem frame_swapIn_eq {st : Stack} {v : Val} {i j : F64}
    (hv : (∀ j, v ≠ .ref j) ∨ ∃ j u, v = .ref j ∧ st[j]? = some u ∧ ∀ ys, u ≠ .array ys) :
    Lib.swapIn v i j st = .err "Expected reference to array" st := by
  rcases hv with hv | ⟨j, u, rfl, hu, hn⟩
  · cases v <;> simp_all [Lib.swapIn]
  · cases u <;> simp_all [Lib.swapIn]

/-! ## C15: array functions are list operations

`st` is the stack below the arguments, `.ref i` the array argument.  The new stack is
`st.set i (.array ys)`: slot `i` changes, every other slot keeps its value. -/

section arrays
variable (c : Cfg) (st : Stack) (i : Nat) (xs : List Val)

/-- `push_ref` appends the item. -/
theorem C15_push_ref (item : Val) (hi : st[i]? = some (.array xs)) :
    Lib.pushRef (st ++ [.ref i, item]) = .ok () (st.set i (.array (xs ++ [item]))) := by
  simp only [Lib.pushRef, SM.bind_apply, popV_two, popV_one]
  exact withArray_ok hi rfl

/-- `push` appends the resolved copy of the item. -/
theorem C15_push (item v w : Val) (hi : st[i]? = some (.array xs)) (hd : Denotes st item v)
    (hw : deepClone (st ++ [.ref i]) c.fuel v = .ok w) :
    Lib.push c (st ++ [.ref i, item]) = .ok () (st.set i (.array (xs ++ [w]))) := by
  simp only [Lib.push, SM.bind_apply, popV_two, hd.getV, cloneV, hw, popV_one]
  exact withArray_ok hi rfl

/-- `insert_ref` inserts before position `index` when `index ≤ len`. -/
theorem C15_insert_ref (index : Val) (x : F64) (s : Option (List Val)) (item : Val)
    (hi : st[i]? = some (.array xs)) (hd : Denotes st index (.f64 x s))
    (hx : x.toUsize ≤ xs.length) :
    Lib.insertRef c (st ++ [.ref i, index, item]) =
      .ok () (st.set i (.array (xs.insertIdx x.toUsize item))) := by
  simp only [Lib.insertRef, SM.bind_apply, popV_three, popV_two, hd.number, popV_one]
  refine withArray_ok hi ?_
  simp only [Lib.insertAt, Nat.not_lt.2 hx, if_false]
  rw [insertIdx_take_drop _ _ _ hx]

/-- `insert` inserts the resolved copy of the item. -/
theorem C15_insert (index : Val) (x : F64) (s : Option (List Val)) (item v w : Val)
    (hi : st[i]? = some (.array xs)) (hd : Denotes st index (.f64 x s))
    (hx : x.toUsize ≤ xs.length) (hv : Denotes st item v)
    (hw : deepClone (st ++ [.ref i, index]) c.fuel v = .ok w) :
    Lib.insert c (st ++ [.ref i, index, item]) =
      .ok () (st.set i (.array (xs.insertIdx x.toUsize w))) := by
  simp only [Lib.insert, SM.bind_apply, popV_three, hv.getV, cloneV, hw, popV_two, hd.number,
    popV_one]
  refine withArray_ok hi ?_
  simp only [Lib.insertAt, Nat.not_lt.2 hx, if_false]
  rw [insertIdx_take_drop _ _ _ hx]

/-- Inserting after the end is an error that leaves every variable as it was. -/
theorem C15_insert_out_of_bounds (index : Val) (x : F64) (s : Option (List Val)) (item v w : Val)
    (hi : st[i]? = some (.array xs)) (hd : Denotes st index (.f64 x s))
    (hx : xs.length < x.toUsize) (hv : Denotes st item v)
    (hw : deepClone (st ++ [.ref i, index]) c.fuel v = .ok w) :
    Lib.insert c (st ++ [.ref i, index, item]) = .err "Index out of bounds" st ∧
    Lib.insertRef c (st ++ [.ref i, index, item]) = .err "Index out of bounds" st := by
  constructor
  · simp only [Lib.insert, SM.bind_apply, popV_three, hv.getV, cloneV, hw, popV_two, hd.number,
      popV_one]
    exact withArray_err hi (by simp [Lib.insertAt, hx])
  · simp only [Lib.insertRef, SM.bind_apply, popV_three, popV_two, hd.number, popV_one]
    exact withArray_err hi (by simp [Lib.insertAt, hx])

/-- `pop` removes and returns the last element. -/
theorem C15_pop (v : Val) (hi : st[i]? = some (.array (xs ++ [v]))) :
    Lib.pop (st ++ [.ref i]) = .ok v (st.set i (.array xs)) := by
  simp only [Lib.pop, SM.bind_apply, popV_one]
  exact withArray_ok hi (by simp)

/-- `pop` of an empty array is an error. -/
theorem C15_pop_empty (hi : st[i]? = some (.array [])) :
    Lib.pop (st ++ [.ref i]) = .err "Expected non-empty array" st := by
  simp only [Lib.pop, SM.bind_apply, popV_one]
  exact withArray_err hi (by simp)

/-- `remove` removes and returns the element at `index`. -/
theorem C15_remove (index : Val) (x : F64) (s : Option (List Val)) (v : Val)
    (hi : st[i]? = some (.array xs)) (hd : Denotes st index (.f64 x s))
    (hv : xs[x.toUsize]? = some v) :
    Lib.remove c (st ++ [.ref i, index]) = .ok v (st.set i (.array (xs.eraseIdx x.toUsize))) := by
  simp only [Lib.remove, SM.bind_apply, popV_two, hd.number, popV_one]
  refine withArray_ok hi ?_
  simp only [hv, List.eraseIdx_eq_take_drop_succ]

/-- `remove` outside the array is an error. -/
theorem C15_remove_out_of_bounds (index : Val) (x : F64) (s : Option (List Val))
    (hi : st[i]? = some (.array xs)) (hd : Denotes st index (.f64 x s))
    (hx : xs.length ≤ x.toUsize) :
    Lib.remove c (st ++ [.ref i, index]) = .err "Index out of bounds" st := by
  simp only [Lib.remove, SM.bind_apply, popV_two, hd.number, popV_one]
  exact withArray_err hi (by simp [List.getElem?_eq_none hx])

/-- `reverse` reverses. -/
theorem C15_reverse (hi : st[i]? = some (.array xs)) :
    Lib.reverse (st ++ [.ref i]) = .ok () (st.set i (.array xs.reverse)) := by
  simp only [Lib.reverse, SM.bind_apply, popV_one]
  exact withArray_ok hi rfl

/-- `clear` empties. -/
theorem C15_clear (hi : st[i]? = some (.array xs)) :
    Lib.clear (st ++ [.ref i]) = .ok () (st.set i (.array [])) := by
  simp only [Lib.clear, SM.bind_apply, popV_one]
  exact withArray_ok hi rfl

/-- `swap` exchanges the elements at two positions inside the array: position `a` gets
the element of `b` and the other way round, all others stay.  Missing from the full
property: indices outside the array, which crash the host (`C15_swap_panics`). -/
theorem C15_swap_partial (ia ib : Val) (a b : F64) (s t : Option (List Val))
    (hi : st[i]? = some (.array xs)) (ha : Denotes st ia (.f64 a s))
    (hb : Denotes st ib (.f64 b t)) (hla : a.toUsize < xs.length) (hlb : b.toUsize < xs.length) :
    ∃ ys, Lib.swap c (st ++ [.ref i, ia, ib]) = .ok () (st.set i (.array ys)) ∧
      ys.length = xs.length ∧ ys[a.toUsize]? = xs[b.toUsize]? ∧ ys[b.toUsize]? = xs[a.toUsize]? ∧
      ∀ k : Nat, k ≠ a.toUsize → k ≠ b.toUsize → ys[k]? = xs[k]? := by
  refine ⟨(xs.set a.toUsize xs[b.toUsize]).set b.toUsize xs[a.toUsize], ?_, by simp, ?_, ?_, ?_⟩
  · simp only [Lib.swap, SM.bind_apply, popV_three, popV_two, hb.number, ha.number, popV_one, Lib.swapIn, hi,
      List.getElem?_eq_getElem hla, List.getElem?_eq_getElem hlb]
  · rw [List.getElem?_set, List.getElem?_eq_getElem hlb]
    by_cases h : b.toUsize = a.toUsize
    · simp [h, hla]
    · simp [h, hla]
  · simp [List.getElem?_set, hlb, List.getElem?_eq_getElem hla]
  · intro k h1 h2
    rw [List.getElem?_set, List.getElem?_set]
    simp [Ne.symm h1, Ne.symm h2]

/-- Finding: `swap` with an index outside the array panics instead of giving an error. -/
theorem C15_swap_panics (ia ib : Val) (a b : F64) (s t : Option (List Val))
    (hi : st[i]? = some (.array xs)) (ha : Denotes st ia (.f64 a s))
    (hb : Denotes st ib (.f64 b t)) (h : xs.length ≤ a.toUsize ∨ xs.length ≤ b.toUsize) :
    Lib.swap c (st ++ [.ref i, ia, ib]) = .panic := by
  simp only [Lib.swap, SM.bind_apply, popV_three, popV_two, hb.number, ha.number, popV_one, Lib.swapIn, hi]
  rcases h with h | h
  · simp [List.getElem?_eq_none h]
  · rw [List.getElem?_eq_none h]
    cases xs[a.toUsize]? <;> rfl

/-- `len` is the number of elements (exact below `2^53`: `F64.ofNat_toUsize`). -/
theorem C15_len (h : xs.length < 2 ^ 53) :
    ∃ x, Op.len (.array xs) = .ok (ofF64 x) ∧ x.toUsize = xs.length ∧
      F64.scaled x = xs.length * F64.unit :=
  ⟨F64.ofNat xs.length, rfl, F64.ofNat_toUsize h, F64.ofNat_scaled h⟩

/-- Finding: a negative or NaN index counts as index 0. -/
theorem C15_negative_index (x : F64) (h : F64.isNaN x = true ∨ F64.neg? x = true) :
    x.toUsize = 0 := by
  rcases h with h | h <;> simp [F64.toUsize, h]

/-- An integer index is taken as it is. -/
theorem C15_integer_index (n : Nat) (h : n < 2 ^ 53) : (F64.ofNat n).toUsize = n :=
  F64.ofNat_toUsize h

/-- Arguments that are not a reference to an array variable are an error for every array
function. -/
theorem C15_not_an_array (v index item : Val) (x : F64) (s : Option (List Val))
    (hd : Denotes st index (.f64 x s))
    (hv : (∀ j, v ≠ .ref j) ∨ ∃ j u, v = .ref j ∧ st[j]? = some u ∧ ∀ ys, u ≠ .array ys) :
    Lib.pushRef (st ++ [v, item]) = .err "Expected reference to array" st ∧
    Lib.insertRef c (st ++ [v, index, item]) = .err "Expected reference to array" st ∧
    Lib.pop (st ++ [v]) = .err "Expected reference to array" st ∧
    Lib.remove c (st ++ [v, index]) = .err "Expected reference to array" st ∧
    Lib.reverse (st ++ [v]) = .err "Expected reference to array" st ∧
    Lib.clear (st ++ [v]) = .err "Expected reference to array" st ∧
    Lib.swap c (st ++ [v, index, index]) = .err "Expected reference to array" st := by
  have key : ∀ {α} (f : List Val → Except String (List Val × α)),
      Lib.withArray v f st = .err "Expected reference to array" st := by
    intro α f
    rcases hv with hv | ⟨j, u, rfl, hu, hn⟩
    · cases v <;> simp_all [Lib.withArray]
    · cases u <;> simp_all [Lib.withArray]
  simp only [Lib.pushRef, Lib.insertRef, Lib.pop, Lib.remove, Lib.reverse, Lib.clear, Lib.swap,
    SM.bind_apply, popV_three, popV_two, popV_one, hd.number, key, frame_swapIn_eq hv, and_self]

end arrays

/-- The hypotheses hold for an array variable in slot 1 with an index variable in slot 0. -/
example : let st : Stack := [ofF64 (F64.ofNat 1), .array [.str "a", .str "b"]]
    st[1]? = some (.array [.str "a", .str "b"]) ∧
    Denotes st (.ref 0) (ofF64 (F64.ofNat 1)) ∧ (F64.ofNat 1).toUsize < 2 :=
  ⟨rfl, .inl ⟨0, rfl, rfl⟩, by rw [F64.ofNat_toUsize] <;> omega⟩

/-! ## Every library function: frame and sealing -/

/-- The modelled library functions. -/
inductive LibFn
  | clone | why | where' | explainWhy | explainWhere | pushRef | insertRef | push | insert | pop
  | remove | reverse | clear | swap | some' | ok' | err' | none' | isErr | isOk | min | max
  | unwrap | unwrapOr | unwrapErr | head | tip | tail | neck | isEmpty | x | y | z | w | s
  | rx | ry | rz | rw | rv | cx | cy | cz | cw | cv | vec4Lit | mat4Lit | andAlso | orElse
deriving DecidableEq

/-- Runs a library function; functions without a result give `none`. -/
def LibFn.run [FloatOps] (c : Cfg) : LibFn → SM (Option Val)
  | clone => some <$> Lib.clone c
  | why => some <$> Lib.why c
  | where' => some <$> Lib.where' c
  | explainWhy => some <$> Lib.explainWhy c
  | explainWhere => some <$> Lib.explainWhere c
  | pushRef => (fun _ => none) <$> Lib.pushRef
  | insertRef => (fun _ => none) <$> Lib.insertRef c
  | push => (fun _ => none) <$> Lib.push c
  | insert => (fun _ => none) <$> Lib.insert c
  | pop => some <$> Lib.pop
  | remove => some <$> Lib.remove c
  | reverse => (fun _ => none) <$> Lib.reverse
  | clear => (fun _ => none) <$> Lib.clear
  | swap => (fun _ => none) <$> Lib.swap c
  | some' => some <$> Lib.some' c
  | ok' => some <$> Lib.ok' c
  | err' => some <$> Lib.err' c
  | none' => some <$> Lib.none'
  | isErr => some <$> Lib.isErr c
  | isOk => some <$> Lib.isOk c
  | min => some <$> Lib.min c
  | max => some <$> Lib.max c
  | unwrap => some <$> Lib.unwrap c
  | unwrapOr => some <$> Lib.unwrapOr c
  | unwrapErr => some <$> Lib.unwrapErr c
  | head => some <$> Lib.head c
  | tip => some <$> Lib.tip c
  | tail => some <$> Lib.tail c
  | neck => some <$> Lib.neck c
  | isEmpty => some <$> Lib.isEmpty c
  | x => some <$> Lib.x c
  | y => some <$> Lib.y c
  | z => some <$> Lib.z c
  | w => some <$> Lib.w c
  | s => some <$> Lib.s
  | rx => some <$> Lib.rx c
  | ry => some <$> Lib.ry c
  | rz => some <$> Lib.rz c
  | rw => some <$> Lib.rw c
  | rv => some <$> Lib.rv
  | cx => some <$> Lib.cx c
  | cy => some <$> Lib.cy c
  | cz => some <$> Lib.cz c
  | cw => some <$> Lib.cw c
  | cv => some <$> Lib.cv
  | vec4Lit => some <$> Lib.vec4Lit c
  | mat4Lit => some <$> Lib.mat4Lit c
  | andAlso => some <$> Lib.andAlso
  | orElse => some <$> Lib.orElse

/-- `st'` is what is left of `st` after popping, where at most some array variables have
become other arrays. -/
def Left (arrays : Bool) (st st' : Stack) : Prop :=
  st'.length ≤ st.length ∧ ∀ (j : Nat) v', st'[j]? = some v' →
    st[j]? = some v' ∨ arrays = true ∧ ∃ xs ys, st[j]? = some (.array xs) ∧ v' = .array ys

theorem Left.refl (a : Bool) (st : Stack) : Left a st st := ⟨Nat.le_refl _, fun _ _ h => .inl h⟩

theorem Left.trans {a : Bool} {s t u : Stack} (h : Left false s t) (h' : Left a t u) : Left a s u := by
  refine ⟨Nat.le_trans h'.1 h.1, fun j v hv => ?_⟩
  rcases h'.2 j v hv with h1 | ⟨ha, xs, ys, h1, h2⟩
  · rcases h.2 j v h1 with h3 | ⟨h3, _⟩
    · exact .inl h3
    · cases h3
  · rcases h.2 j _ h1 with h3 | ⟨h3, _⟩
    · exact .inr ⟨ha, xs, ys, h3, h2⟩
    · cases h3

/-- An action only pops (`a = false`), or pops and changes arrays (`a = true`); in an
error it only pops. -/
def Frame {α} (a : Bool) (m : SM α) : Prop := ∀ st, match m st with
  | .ok _ st' => Left a st st'
  | .err _ st' => Left false st st'
  | _ => True

theorem Frame.bind {α β} {a : Bool} {m : SM α} {f : α → SM β} (hm : Frame false m)
    (hf : ∀ x, Frame a (f x)) : Frame a (m >>= f) := by
  intro st
  have h1 := hm st
  rw [SM.bind_apply]
  cases hms : m st with
  | ok x st' =>
    rw [hms] at h1
    have h2 := hf x st'
    simp only
    cases hfs : f x st' with
    | ok y st'' => rw [hfs] at h2; exact h1.trans h2
    | err y st'' => rw [hfs] at h2; exact h1.trans h2
    | panic => trivial
    | running => trivial
  | err e st' => rw [hms] at h1; exact h1
  | panic => trivial
  | running => trivial

theorem Frame.map {α β} {a : Bool} {m : SM α} (f : α → β) (hm : Frame a m) : Frame a (f <$> m) := by
  intro st
  have h := hm st
  have e : (f <$> m) st = match m st with
    | .ok a st' => .ok (f a) st' | .err e st' => .err e st' | .panic => .panic
    | .running => .running := rfl
  rw [e]
  cases hms : m st <;> rw [hms] at h <;> exact h

theorem frame_pure {α} (b : Bool) (a : α) : Frame b (pure a : SM α) := fun st => .refl _ _
theorem frame_fail {α} (b : Bool) (m : String) : Frame b (SM.fail m : SM α) := fun st => .refl _ _
theorem frame_panic {α} (b : Bool) : Frame b (SM.panic : SM α) := fun _ => trivial
theorem frame_popV : Frame false popV := by
  intro st
  simp only [popV]
  cases h : st.getLast? with
  | none => trivial
  | some v =>
    refine ⟨by simp, fun j v' hv => .inl ?_⟩
    rw [List.dropLast_eq_take, List.getElem?_take] at hv
    split at hv
    · exact hv
    · cases hv
theorem frame_getV (v : Val) : Frame false (getV v) := by
  intro st
  cases v <;> simp only [getV] <;> try exact .refl _ _
  next i => cases st[i]? <;> first | exact .refl _ _ | trivial
theorem frame_cloneV (c : Cfg) (v : Val) : Frame false (cloneV c v) := by
  intro st
  simp only [cloneV]
  cases deepClone st c.fuel v <;> first | exact .refl _ _ | trivial
theorem frame_withArray {α} (v : Val) (f : List Val → Except String (List Val × α)) :
    Frame true (Lib.withArray v f) := by
  intro st
  cases v <;> simp only [Lib.withArray] <;> try exact .refl _ _
  next i =>
  cases h : st[i]? with
  | none => trivial
  | some u =>
    cases u <;> try exact .refl _ _
    next xs =>
    simp only
    cases hf : f xs with
    | error e => exact .refl _ _
    | ok p =>
      obtain ⟨ys, a⟩ := p
      refine ⟨by simp, fun j v' hv => ?_⟩
      rw [List.getElem?_set] at hv
      split at hv
      · next hij =>
        subst hij
        split at hv
        · cases hv; exact .inr ⟨rfl, xs, ys, h, rfl⟩
        · cases hv
      · exact .inl hv
theorem frame_number (c : Cfg) (v : Val) : Frame false (Lib.number c v) := by
  refine .bind (frame_getV v) fun w => ?_
  cases w <;> first | exact frame_pure _ _ | exact frame_fail _ _
theorem frame_popVec4 (c : Cfg) : Frame false (Lib.popVec4 c) := by
  refine .bind frame_popV fun v => .bind (frame_getV v) fun w => ?_
  cases w <;> first | exact frame_pure _ _ | exact frame_fail _ _
theorem frame_popMat4 (c : Cfg) : Frame false (Lib.popMat4 c) := by
  refine .bind frame_popV fun v => .bind (frame_getV v) fun w => ?_
  cases w <;> first | exact frame_pure _ _ | exact frame_fail _ _
theorem frame_popLink (c : Cfg) : Frame false (Lib.popLink c) := by
  refine .bind frame_popV fun v => .bind (frame_getV v) fun w => ?_
  cases w <;> first | exact frame_pure _ _ | exact frame_fail _ _
theorem frame_popF64! : Frame false Lib.popF64! := by
  refine .bind frame_popV fun v => .bind (frame_getV v) fun w => ?_
  cases w <;> first | exact frame_pure _ _ | exact frame_panic _
theorem frame_popVec4! : Frame false Lib.popVec4! := by
  refine .bind frame_popV fun v => .bind (frame_getV v) fun w => ?_
  cases w <;> first | exact frame_pure _ _ | exact frame_panic _
theorem frame_popMat4! : Frame false Lib.popMat4! := by
  refine .bind frame_popV fun v => .bind (frame_getV v) fun w => ?_
  cases w <;> first | exact frame_pure _ _ | exact frame_panic _

/-- Whether a function may change an array variable. -/
def LibFn.changesArrays : LibFn → Bool
  | pushRef | insertRef | push | insert | pop | remove | reverse | clear | swap => true
  | _ => false


theorem frame_swapIn (v : Val) (i j : F64) : Frame true (Lib.swapIn v i j) := by
  intro st
  cases v <;> simp only [Lib.swapIn] <;> try exact .refl _ _
  next k =>
  cases h : st[k]? with
  | none => trivial
  | some u =>
    cases u <;> try exact .refl _ _
    next xs =>
    simp only
    cases xs[i.toUsize]? <;> cases xs[j.toUsize]? <;> try trivial
    refine ⟨by simp, fun j v' hv => ?_⟩
    rw [List.getElem?_set] at hv
    split at hv
    · next hij =>
      subst hij
      split at hv
      · cases hv; exact .inr ⟨rfl, xs, _, h, rfl⟩
      · cases hv
    · exact .inl hv
theorem frame_minOf (xs : List Val) : Frame false (Lib.minOf xs) := by
  intro st
  simp only [Lib.minOf]
  cases Lib.minLoop st F64.nan xs <;> first | exact .refl _ _ | trivial
theorem frame_maxOf (xs : List Val) : Frame false (Lib.maxOf xs) := by
  intro st
  simp only [Lib.maxOf]
  cases Lib.maxLoop st F64.nan xs <;> first | exact .refl _ _ | trivial
theorem frame_unwrapFail (c : Cfg) (m : Val) (t : List String) :
    Frame false (Lib.unwrapFail c m t) := fun st => .refl _ _

/-- One step of a frame proof. -/
macro "frame_step" : tactic => `(tactic| first
  | exact frame_pure _ _ | exact frame_fail _ _ | exact frame_panic _
  | exact frame_popV | exact frame_getV _ | exact frame_cloneV _ _ | exact frame_number _ _
  | exact frame_withArray _ _ | exact frame_swapIn _ _ _ | exact frame_minOf _
  | exact frame_maxOf _ | exact frame_unwrapFail _ _ _
  | exact frame_popVec4 _ | exact frame_popMat4 _ | exact frame_popLink _
  | exact frame_popF64! | exact frame_popVec4! | exact frame_popMat4!
  | refine Frame.bind ?_ (fun _ => ?_)
  | split)

theorem libFn_frame [FloatOps] (c : Cfg) (f : LibFn) : Frame f.changesArrays (f.run c) := by
  cases f <;> refine Frame.map _ ?_ <;>
    simp only [LibFn.changesArrays, Lib.clone, Lib.why, Lib.where', Lib.explainWhy, Lib.explainWhere,
      Lib.pushRef, Lib.insertRef, Lib.push, Lib.insert, Lib.pop, Lib.remove, Lib.reverse, Lib.clear,
      Lib.swap, Lib.some', Lib.ok', Lib.err', Lib.none', Lib.isErr, Lib.isOk, Lib.min, Lib.max,
      Lib.unwrap, Lib.unwrapOr, Lib.unwrapErr, Lib.head, Lib.tip, Lib.tail, Lib.neck, Lib.isEmpty,
      Lib.x, Lib.y, Lib.z, Lib.w, Lib.s, Lib.rx, Lib.ry, Lib.rz, Lib.rw, Lib.rv, Lib.cx, Lib.cy,
      Lib.cz, Lib.cw, Lib.cv, Lib.vec4Lit, Lib.mat4Lit, Lib.andAlso, Lib.orElse] <;>
    repeat frame_step

/-- No library function touches a variable other than an array passed to it: after any
call, every remaining slot holds the value it had, except that an array-changing function
may have replaced an array by an array.  When a call fails, every remaining slot holds
exactly the value it had. -/
theorem C15_frame [FloatOps] (c : Cfg) (f : LibFn) (st st' : Stack) :
    (∀ r, f.run c st = .ok r st' → ∀ (j : Nat) v, st'[j]? = some v →
      st[j]? = some v ∨
        f.changesArrays = true ∧ ∃ xs ys, st[j]? = some (.array xs) ∧ v = .array ys) ∧
    (∀ e, f.run c st = .err e st' → ∀ (j : Nat) v, st'[j]? = some v → st[j]? = some v) := by
  have h := libFn_frame c f st
  constructor
  · intro r hr
    rw [hr] at h
    exact h.2
  · intro e he
    rw [he] at h
    intro j v hv
    rcases h.2 j v hv with h | ⟨h, _⟩
    · exact h
    · cases h

/-! ## C14: options, results and secrets stay free of references -/

/-- Stack invariant. -/
def AllSealed (st : Stack) : Prop := ∀ u ∈ st, Sealed u

/-- An action keeps the invariant and returns a value with `Q`. -/
def Keeps {α} (Q : α → Prop) (m : SM α) : Prop := ∀ st, AllSealed st → match m st with
  | .ok a st' => AllSealed st' ∧ Q a
  | .err _ st' => AllSealed st'
  | _ => True

theorem Keeps.bind {α β} {Q : α → Prop} {R : β → Prop} {m : SM α} {f : α → SM β} (hm : Keeps Q m)
    (hf : ∀ a, Q a → Keeps R (f a)) : Keeps R (m >>= f) := by
  intro st hst
  have h1 := hm st hst
  rw [SM.bind_apply]
  cases hms : m st with
  | ok a st' => rw [hms] at h1; exact hf a h1.2 st' h1.1
  | err e st' => rw [hms] at h1; exact h1
  | panic => trivial
  | running => trivial

theorem Keeps.map {α β} {Q : α → Prop} {R : β → Prop} {m : SM α} (f : α → β) (hm : Keeps Q m)
    (hf : ∀ a, Q a → R (f a)) : Keeps R (f <$> m) := by
  intro st hst
  have h := hm st hst
  have e : (f <$> m) st = match m st with
    | .ok a st' => .ok (f a) st' | .err e st' => .err e st' | .panic => .panic
    | .running => .running := rfl
  rw [e]
  cases hms : m st <;> rw [hms] at h
  · exact ⟨h.1, hf _ h.2⟩
  all_goals exact h

theorem keeps_pure {α} {Q : α → Prop} {a : α} (h : Q a) : Keeps Q (pure a : SM α) :=
  fun _ hst => ⟨hst, h⟩
theorem keeps_fail {α} {Q : α → Prop} (m : String) : Keeps Q (SM.fail m : SM α) := fun _ hst => hst
theorem keeps_panic {α} {Q : α → Prop} : Keeps Q (SM.panic : SM α) := fun _ _ => trivial
theorem keeps_popV : Keeps Sealed popV := by
  intro st hst
  simp only [popV]
  cases h : st.getLast? with
  | none => trivial
  | some v =>
    exact ⟨fun u hu => hst u (List.dropLast_subset st hu), hst v (List.mem_of_getLast? h)⟩
theorem keeps_getV {v : Val} (hv : Sealed v) : Keeps Sealed (getV v) := by
  intro st hst
  cases v <;> simp only [getV] <;> try exact ⟨hst, hv⟩
  next i =>
  cases h : st[i]? with
  | none => trivial
  | some u => exact ⟨hst, hst u (List.mem_of_getElem? h)⟩
theorem keeps_cloneV {c : Cfg} {v : Val} (hv : Sealed v) : Keeps RefFree (cloneV c v) := by
  intro st hst
  simp only [cloneV]
  cases h : deepClone st c.fuel v with
  | ok w => exact ⟨hst, C14_self_contained st _ v w hst hv h⟩
  | panic => trivial
  | running => trivial

theorem Sealed.elems {xs : List Val} (h : Sealed (.array xs)) : ∀ x ∈ xs, Sealed x := by
  cases h with
  | array h => exact h
  | free h => cases h with | array h => exact fun x hx => .free (h x hx)

theorem Sealed.secret {s : Option (List Val)} {v : Val} (h : Sealed v)
    (hv : (∃ b, v = .bool b s) ∨ ∃ x, v = .f64 x s) : ∀ l ∈ s, ∀ x ∈ l, RefFree x := by
  rcases hv with ⟨b, rfl⟩ | ⟨x, rfl⟩
  · cases h with | free h => cases h with | bool h => exact h
  · cases h with | free h => cases h with | f64 h => exact h

theorem keeps_withArray {α} {Q : α → Prop} (v : Val) {f : List Val → Except String (List Val × α)}
    (hf : ∀ xs ys a, (∀ x ∈ xs, Sealed x) → f xs = .ok (ys, a) → (∀ y ∈ ys, Sealed y) ∧ Q a) :
    Keeps Q (Lib.withArray v f) := by
  intro st hst
  cases v <;> simp only [Lib.withArray] <;> try exact hst
  next i =>
  cases h : st[i]? with
  | none => trivial
  | some u =>
    cases u <;> try exact hst
    next xs =>
    simp only
    cases hfx : f xs with
    | error e => exact hst
    | ok p =>
      obtain ⟨ys, a⟩ := p
      have := hf xs ys a (hst _ (List.mem_of_getElem? h)).elems hfx
      refine ⟨fun u hu => ?_, this.2⟩
      rcases List.mem_or_eq_of_mem_set hu with hu | rfl
      · exact hst u hu
      · exact .array this.1

theorem keeps_swapIn (v : Val) (i j : F64) : Keeps (fun _ => True) (Lib.swapIn v i j) := by
  intro st hst
  cases v <;> simp only [Lib.swapIn] <;> try exact hst
  next k =>
  cases h : st[k]? with
  | none => trivial
  | some u =>
    cases u <;> try exact hst
    next xs =>
    have hxs := (hst _ (List.mem_of_getElem? h)).elems
    simp only
    cases h1 : xs[i.toUsize]? <;> cases h2 : xs[j.toUsize]? <;> try trivial
    refine ⟨fun u hu => ?_, trivial⟩
    rcases List.mem_or_eq_of_mem_set hu with hu | rfl
    · exact hst u hu
    · refine .array fun x hx => ?_
      rcases List.mem_or_eq_of_mem_set hx with hx | rfl
      · rcases List.mem_or_eq_of_mem_set hx with hx | rfl
        · exact hxs x hx
        · exact hxs _ (List.mem_of_getElem? h2)
      · exact hxs _ (List.mem_of_getElem? h1)

theorem keeps_number {c : Cfg} {v : Val} (hv : Sealed v) : Keeps (fun _ => True) (Lib.number c v) := by
  refine .bind (keeps_getV hv) fun w _ => ?_
  cases w <;> first | exact keeps_pure trivial | exact keeps_fail _
theorem keeps_popVec4 (c : Cfg) : Keeps (fun _ => True) (Lib.popVec4 c) := by
  refine .bind keeps_popV fun v hv => .bind (keeps_getV hv) fun w _ => ?_
  cases w <;> first | exact keeps_pure trivial | exact keeps_fail _
theorem keeps_popMat4 (c : Cfg) : Keeps (fun _ => True) (Lib.popMat4 c) := by
  refine .bind keeps_popV fun v hv => .bind (keeps_getV hv) fun w _ => ?_
  cases w <;> first | exact keeps_pure trivial | exact keeps_fail _
theorem keeps_popLink (c : Cfg) : Keeps (fun _ => True) (Lib.popLink c) := by
  refine .bind keeps_popV fun v hv => .bind (keeps_getV hv) fun w _ => ?_
  cases w <;> first | exact keeps_pure trivial | exact keeps_fail _
theorem keeps_popF64! : Keeps (fun _ => True) Lib.popF64! := by
  refine .bind keeps_popV fun v hv => .bind (keeps_getV hv) fun w _ => ?_
  cases w <;> first | exact keeps_pure trivial | exact keeps_panic
theorem keeps_popVec4! : Keeps (fun _ => True) Lib.popVec4! := by
  refine .bind keeps_popV fun v hv => .bind (keeps_getV hv) fun w _ => ?_
  cases w <;> first | exact keeps_pure trivial | exact keeps_panic
theorem keeps_popMat4! : Keeps (fun _ => True) Lib.popMat4! := by
  refine .bind keeps_popV fun v hv => .bind (keeps_getV hv) fun w _ => ?_
  cases w <;> first | exact keeps_pure trivial | exact keeps_panic
theorem keeps_minOf (xs : List Val) : Keeps Sealed (Lib.minOf xs) := by
  intro st hst
  simp only [Lib.minOf]
  cases Lib.minLoop st F64.nan xs
  · trivial
  · exact ⟨hst, .free (.f64 (by simp))⟩
theorem keeps_maxOf (xs : List Val) : Keeps Sealed (Lib.maxOf xs) := by
  intro st hst
  simp only [Lib.maxOf]
  cases Lib.maxLoop st F64.nan xs
  · trivial
  · exact ⟨hst, .free (.f64 (by simp))⟩
theorem keeps_unwrapFail (c : Cfg) (m : Val) (t : List String) :
    Keeps Sealed (Lib.unwrapFail c m t) := fun _ hst => hst

theorem sealed_ofBool (b : Bool) : Sealed (.ofBool b) := .free (.bool (by simp))
theorem sealed_ofF64 (x : F64) : Sealed (.ofF64 x) := .free (.f64 (by simp))
theorem sealed_scalar (s : Link.Scalar) : RefFree (Lib.scalarVal s) := by
  cases s
  · exact .bool (by simp)
  · exact .f64 (by simp)
  · exact .str

theorem sealed_optScalar (o : Option Link.Scalar) : Sealed (.option (o.map Lib.scalarVal)) := by
  cases o
  · exact .free .none
  · exact .free (.some (sealed_scalar _))

theorem Sealed.unoption {v : Val} (h : Sealed (.option (some v))) : Sealed v := by
  cases h with | free h => cases h with | some h => exact .free h
theorem Sealed.unok {v : Val} (h : Sealed (.resOk v)) : Sealed v := by
  cases h with | free h => cases h with | ok h => exact .free h
theorem Sealed.unerr {v : Val} {t : List String} (h : Sealed (.resErr v t)) : Sealed v := by
  cases h with | free h => cases h with | err h => exact .free h

theorem sealed_reverse {s : List Val} {v : Val} (h : Sealed v)
    (hv : (∃ b, v = .bool b (some s)) ∨ ∃ x, v = .f64 x (some s)) : Sealed (.array s.reverse) := by
  have := h.secret (s := some s) hv
  exact .array fun x hx => .free (this s rfl x (List.mem_reverse.1 hx))

theorem refFree_snoc {s : Option (List Val)} {y : Val} (h : ∀ l ∈ s, ∀ x ∈ l, RefFree x)
    (hy : RefFree y) : ∀ l ∈ some (s.getD [] ++ [y]), ∀ x ∈ l, RefFree x := by
  intro l hl x hx
  cases hl
  rcases List.mem_append.1 hx with hx | hx
  · cases s with
    | none => simp at hx
    | some s => exact h s rfl x hx
  · simp only [List.mem_singleton] at hx; subst hx; exact hy

theorem libFn_keeps [FloatOps] (c : Cfg) (f : LibFn) :
    Keeps (fun r => ∀ v ∈ r, Sealed v) (f.run c) := by
  have some_of : ∀ {m : SM Val}, Keeps Sealed m → Keeps (fun r => ∀ v ∈ r, Sealed v) (some <$> m) :=
    fun hm => hm.map _ fun a ha v hv => by cases hv; exact ha
  have none_of : ∀ {m : SM Unit}, Keeps (fun _ => True) m →
      Keeps (fun r => ∀ v ∈ r, Sealed v) ((fun _ => none) <$> m) :=
    fun hm => hm.map _ fun a _ v hv => by cases hv
  have arg : ∀ {β} {R : β → Prop} {f : Val → SM β}, (∀ w, Sealed w → Keeps R (f w)) →
      Keeps R (popV >>= fun v => getV v >>= f) := fun h =>
    .bind keeps_popV fun v hv => .bind (keeps_getV hv) h
  have append : ∀ (xs : List Val) (item : Val) , Sealed item → (∀ x ∈ xs, Sealed x) →
      ∀ y ∈ xs ++ [item], Sealed y := by
    intro xs item hi hx y hy
    rcases List.mem_append.1 hy with h | h
    · exact hx y h
    · simp only [List.mem_singleton] at h; subst h; exact hi
  have insertAt : ∀ (index : F64) (item : Val), Sealed item → ∀ xs ys a, (∀ x ∈ xs, Sealed x) →
      Lib.insertAt index item xs = .ok (ys, a) → (∀ y ∈ ys, Sealed y) ∧ True := by
    intro index item hi xs ys a hx h
    simp only [Lib.insertAt] at h
    split at h
    · cases h
    · cases h
      refine ⟨fun y hy => ?_, trivial⟩
      rcases List.mem_append.1 hy with h | h
      · exact hx y (List.mem_of_mem_take h)
      · rcases List.mem_cons.1 h with rfl | h
        · exact hi
        · exact hx y (List.mem_of_mem_drop h)
  cases f with
  | clone => exact some_of (arg fun w hw st hst => by
      have := keeps_cloneV (c := c) hw st hst
      cases h : cloneV c w st <;> rw [h] at this
      · exact ⟨this.1, .free this.2⟩
      all_goals exact this)
  | why =>
    refine some_of (arg fun w hw => ?_)
    split
    · exact keeps_pure (sealed_reverse hw (.inl ⟨_, rfl⟩))
    all_goals exact keeps_fail _
  | where' =>
    refine some_of (arg fun w hw => ?_)
    split
    · split
      · exact keeps_fail _
      · exact keeps_pure (sealed_reverse hw (.inr ⟨_, rfl⟩))
    all_goals exact keeps_fail _
  | explainWhy =>
    refine some_of (.bind keeps_popV fun y hy => arg fun w hw => ?_)
    split
    · exact .bind (keeps_cloneV hy) fun z hz =>
        keeps_pure (.free (.bool (refFree_snoc (hw.secret (.inl ⟨_, rfl⟩)) hz)))
    · exact keeps_fail _
  | explainWhere =>
    refine some_of (.bind keeps_popV fun y hy => arg fun w hw => ?_)
    split
    · exact .bind (keeps_cloneV hy) fun z hz =>
        keeps_pure (.free (.f64 (refFree_snoc (hw.secret (.inr ⟨_, rfl⟩)) hz)))
    · exact keeps_fail _
  | pushRef =>
    refine none_of (.bind keeps_popV fun item hi => .bind keeps_popV fun v _ => ?_)
    exact keeps_withArray v fun xs ys a hx h => by cases h; exact ⟨append _ _ hi hx, trivial⟩
  | insertRef =>
    refine none_of (.bind keeps_popV fun item hi => .bind keeps_popV fun ix hx =>
      .bind (keeps_number hx) fun ix _ => .bind keeps_popV fun v _ => ?_)
    exact keeps_withArray v (insertAt _ _ hi)
  | push =>
    refine none_of (arg fun item hi => .bind (keeps_cloneV hi) fun item hi =>
      .bind keeps_popV fun v _ => ?_)
    exact keeps_withArray v fun xs ys a hx h => by cases h; exact ⟨append _ _ (.free hi) hx, trivial⟩
  | insert =>
    refine none_of (arg fun item hi => .bind (keeps_cloneV hi) fun item hi =>
      .bind keeps_popV fun ix hx => .bind (keeps_number hx) fun ix _ =>
      .bind keeps_popV fun v _ => ?_)
    exact keeps_withArray v (insertAt _ _ (.free hi))
  | pop =>
    refine some_of (.bind keeps_popV fun v _ => keeps_withArray v fun xs ys a hx h => ?_)
    split at h
    · next u hu =>
      cases h
      exact ⟨fun y hy => hx y (List.dropLast_subset xs hy), hx _ (List.mem_of_getLast? hu)⟩
    · cases h
  | remove =>
    refine some_of (.bind keeps_popV fun ix hx => .bind (keeps_number hx) fun ix _ =>
      .bind keeps_popV fun v _ => keeps_withArray v fun xs ys a hx h => ?_)
    simp only at h
    split at h
    · next u hu =>
      cases h
      refine ⟨fun y hy => ?_, hx _ (List.mem_of_getElem? hu)⟩
      rcases List.mem_append.1 hy with h | h
      · exact hx y (List.mem_of_mem_take h)
      · exact hx y (List.mem_of_mem_drop h)
    · cases h
  | reverse =>
    refine none_of (.bind keeps_popV fun v _ => keeps_withArray v fun xs ys a hx h => ?_)
    cases h
    exact ⟨fun y hy => hx y (List.mem_reverse.1 hy), trivial⟩
  | clear =>
    refine none_of (.bind keeps_popV fun v _ => keeps_withArray v fun xs ys a hx h => ?_)
    cases h
    exact ⟨by simp, trivial⟩
  | swap =>
    exact none_of (.bind keeps_popV fun j hj => .bind keeps_popV fun i hi =>
      .bind (keeps_number hj) fun _ _ => .bind (keeps_number hi) fun _ _ =>
      .bind keeps_popV fun v _ => keeps_swapIn v _ _)
  | some' => exact some_of (arg fun w hw => .bind (keeps_cloneV hw) fun y hy =>
      keeps_pure (.free (.some hy)))
  | ok' => exact some_of (arg fun w hw => .bind (keeps_cloneV hw) fun y hy =>
      keeps_pure (.free (.ok hy)))
  | err' => exact some_of (arg fun w hw => .bind (keeps_cloneV hw) fun y hy =>
      keeps_pure (.free (.err hy)))
  | none' => exact some_of (keeps_pure (.free .none))
  | isErr =>
    refine some_of (arg fun w hw => ?_)
    split <;> first | exact keeps_pure (sealed_ofBool _) | exact keeps_fail _
  | isOk =>
    refine some_of (arg fun w hw => ?_)
    split <;> first | exact keeps_pure (sealed_ofBool _) | exact keeps_fail _
  | min =>
    refine some_of (arg fun w hw => ?_)
    split <;> first | exact keeps_minOf _ | exact keeps_fail _
  | max =>
    refine some_of (arg fun w hw => ?_)
    split <;> first | exact keeps_maxOf _ | exact keeps_fail _
  | unwrap =>
    refine some_of (arg fun w hw => ?_)
    split
    · exact keeps_pure hw.unoption
    · exact keeps_fail _
    · exact keeps_pure hw.unok
    · exact keeps_unwrapFail _ _ _
    · exact keeps_fail _
  | unwrapOr =>
    refine some_of (.bind keeps_popV fun d hd => arg fun w hw => ?_)
    split
    · exact keeps_pure hw.unoption
    · exact keeps_pure hw.unok
    · exact keeps_getV hd
    · exact keeps_getV hd
    · exact keeps_fail _
  | unwrapErr =>
    refine some_of (arg fun w hw => ?_)
    split
    · exact keeps_pure hw.unerr
    · exact keeps_fail _
  | head => exact some_of (.bind (keeps_popLink c) fun l _ => keeps_pure (sealed_optScalar _))
  | tip => exact some_of (.bind (keeps_popLink c) fun l _ => keeps_pure (sealed_optScalar _))
  | tail => exact some_of (.bind (keeps_popLink c) fun l _ => keeps_pure (.free .link))
  | neck => exact some_of (.bind (keeps_popLink c) fun l _ => keeps_pure (.free .link))
  | isEmpty => exact some_of (.bind (keeps_popLink c) fun l _ => keeps_pure (sealed_ofBool _))
  | x => exact some_of (.bind (keeps_popVec4 c) fun l _ => keeps_pure (sealed_ofF64 _))
  | y => exact some_of (.bind (keeps_popVec4 c) fun l _ => keeps_pure (sealed_ofF64 _))
  | z => exact some_of (.bind (keeps_popVec4 c) fun l _ => keeps_pure (sealed_ofF64 _))
  | w => exact some_of (.bind (keeps_popVec4 c) fun l _ => keeps_pure (sealed_ofF64 _))
  | s =>
    refine some_of (.bind keeps_popF64! fun i _ => ?_)
    simp only
    split
    · exact keeps_fail _
    · refine .bind keeps_popVec4! fun v _ => ?_
      split
      · exact keeps_pure (sealed_ofF64 _)
      · exact keeps_panic
  | rx => exact some_of (.bind (keeps_popMat4 c) fun l _ => keeps_pure (.free .vec4))
  | ry => exact some_of (.bind (keeps_popMat4 c) fun l _ => keeps_pure (.free .vec4))
  | rz => exact some_of (.bind (keeps_popMat4 c) fun l _ => keeps_pure (.free .vec4))
  | rw => exact some_of (.bind (keeps_popMat4 c) fun l _ => keeps_pure (.free .vec4))
  | rv =>
    refine some_of (.bind keeps_popF64! fun i _ => ?_)
    simp only
    split
    · exact keeps_fail _
    · refine .bind keeps_popMat4! fun v _ => ?_
      split
      · exact keeps_pure (.free .vec4)
      · exact keeps_panic
  | cx => exact some_of (.bind (keeps_popMat4 c) fun l _ => keeps_pure (.free .vec4))
  | cy => exact some_of (.bind (keeps_popMat4 c) fun l _ => keeps_pure (.free .vec4))
  | cz => exact some_of (.bind (keeps_popMat4 c) fun l _ => keeps_pure (.free .vec4))
  | cw => exact some_of (.bind (keeps_popMat4 c) fun l _ => keeps_pure (.free .vec4))
  | cv =>
    refine some_of (.bind keeps_popF64! fun i _ => ?_)
    simp only
    split
    · exact keeps_fail _
    · exact .bind keeps_popMat4! fun v _ => keeps_pure (.free .mat4)
  | vec4Lit =>
    exact some_of (.bind keeps_popV fun _ h => .bind (keeps_number h) fun _ _ =>
      .bind keeps_popV fun _ h => .bind (keeps_number h) fun _ _ =>
      .bind keeps_popV fun _ h => .bind (keeps_number h) fun _ _ =>
      .bind keeps_popV fun _ h => .bind (keeps_number h) fun _ _ => keeps_pure (.free .vec4))
  | mat4Lit =>
    exact some_of (.bind (keeps_popVec4 c) fun _ _ => .bind (keeps_popVec4 c) fun _ _ =>
      .bind (keeps_popVec4 c) fun _ _ => .bind (keeps_popVec4 c) fun _ _ => keeps_pure (.free .mat4))
  | andAlso =>
    refine some_of (.bind keeps_popV fun b hb => .bind keeps_popV fun a ha =>
      .bind (keeps_getV ha) fun a ha => .bind (keeps_getV hb) fun b hb => ?_)
    split
    · exact keeps_pure (.free (.bool (ha.secret (.inl ⟨_, rfl⟩))))
    · exact keeps_fail _
  | orElse =>
    refine some_of (.bind keeps_popV fun b hb => .bind keeps_popV fun a ha =>
      .bind (keeps_getV ha) fun a ha => .bind (keeps_getV hb) fun b hb => ?_)
    split
    · exact keeps_pure (.free (.bool (ha.secret (.inl ⟨_, rfl⟩))))
    · exact keeps_fail _

/-- What a program does to the stack between library calls. -/
inductive Act
  /-- Pushes a value (a literal, a reference to a variable, an array of such). -/
  | push (v : Val)
  /-- Overwrites a variable. -/
  | assign (i : Nat) (v : Val)
  /-- Leaves a scope. -/
  | truncate (n : Nat)
  /-- Calls a library function and pushes its result. -/
  | call (f : LibFn)

/-- One action; after a panic or an endless clone the program is gone (empty stack). -/
def Act.step [FloatOps] (c : Cfg) (st : Stack) : Act → Stack
  | push v => st ++ [v]
  | assign i v => st.set i v
  | truncate n => st.take n
  | call f => match f.run c st with
    | .ok (some v) st' => st' ++ [v]
    | .ok none st' => st'
    | .err _ st' => st'
    | _ => []

/-- Through every history of pushes, assignments, scope exits and library calls, if the
program itself only writes sealed values, then all variables stay sealed; so a deep clone of
any of them is free of references (`C14_self_contained`). -/
theorem C14_sealed_history [FloatOps] (c : Cfg) (acts : List Act)
    (h : ∀ a ∈ acts, ∀ v, (a = .push v ∨ ∃ i, a = .assign i v) → Sealed v) :
    ∀ v ∈ acts.foldl (Act.step c) [], Sealed v := by
  suffices ∀ st : Stack, AllSealed st → AllSealed (acts.foldl (Act.step c) st) from
    this [] (by simp [AllSealed])
  induction acts with
  | nil => exact fun st hst => hst
  | cons a acts ih =>
    intro st hst
    refine ih (fun b hb => h b (List.mem_cons_of_mem _ hb)) _ ?_
    cases a with
    | push v =>
      intro u hu
      rcases List.mem_append.1 hu with hu | hu
      · exact hst u hu
      · simp only [List.mem_singleton] at hu; subst hu; exact h _ (by simp) _ (.inl rfl)
    | assign i v =>
      intro u hu
      rcases List.mem_or_eq_of_mem_set hu with hu | rfl
      · exact hst u hu
      · exact h _ (by simp) _ (.inr ⟨i, rfl⟩)
    | truncate n => exact fun u hu => hst u (List.mem_of_mem_take hu)
    | call f =>
      have := libFn_keeps c f st hst
      simp only [Act.step]
      cases hr : f.run c st with
      | ok r st' =>
        rw [hr] at this
        cases r with
        | none => exact this.1
        | some v =>
          intro u hu
          rcases List.mem_append.1 hu with hu | hu
          · exact this.1 u hu
          · simp only [List.mem_singleton] at hu; subst hu; exact this.2 _ rfl
      | err e st' => rw [hr] at this; exact this
      | panic => simp [AllSealed]
      | running => simp [AllSealed]

/-- A non-trivial history meeting the hypothesis. -/
example : ∀ a ∈ [Act.push (ofF64 0), .push (.array [.ref 0]), .push (.ref 1), .call .some'],
    ∀ v, (a = .push v ∨ ∃ i, a = .assign i v) → Sealed v := by
  intro a ha v hv
  simp only [List.mem_cons, List.not_mem_nil, or_false] at ha
  rcases ha with rfl | rfl | rfl | rfl <;> rcases hv with hv | ⟨i, hv⟩ <;> cases hv
  · exact sealed_ofF64 _
  · exact .array (by simp; exact .ref)
  · exact .ref

/-! ## C16: minimum and maximum of an array -/

/-- The numbers among the (resolved) elements. -/
def numbers (st : Stack) (xs : List Val) : List F64 :=
  xs.filterMap fun v => match v with
    | .ref i => match st[i]? with
      | some (.f64 x _) => some x
      | _ => none
    | .f64 x _ => some x
    | _ => none

/-- All references among the elements lead to variables. -/
def ElemsInRange (st : Stack) (xs : List Val) : Prop := ∀ i, Val.ref i ∈ xs → i < st.length

theorem minLoop_eq (st : Stack) : ∀ (xs : List Val) (acc : F64), ElemsInRange st xs →
    Lib.minLoop st acc xs = some ((numbers st xs).foldl
      (fun acc val => if F64.lt val acc || F64.isNaN acc then val else acc) acc)
  | [], acc, _ => rfl
  | v :: xs, acc, h => by
    have h' : ElemsInRange st xs := fun i hi => h i (List.mem_cons_of_mem _ hi)
    cases v with
    | ref i =>
      have hi := h i (by simp)
      simp only [Lib.minLoop, getV, List.getElem?_eq_getElem hi]
      cases hv : st[i] <;> simp [minLoop_eq st xs _ h', numbers, List.getElem?_eq_getElem hi, hv]
    | _ => simp only [Lib.minLoop, getV, minLoop_eq st xs _ h']; simp [numbers]

theorem maxLoop_eq (st : Stack) : ∀ (xs : List Val) (acc : F64), ElemsInRange st xs →
    Lib.maxLoop st acc xs = some ((numbers st xs).foldl
      (fun acc val => if F64.lt acc val || F64.isNaN acc then val else acc) acc)
  | [], acc, _ => rfl
  | v :: xs, acc, h => by
    have h' : ElemsInRange st xs := fun i hi => h i (List.mem_cons_of_mem _ hi)
    cases v with
    | ref i =>
      have hi := h i (by simp)
      simp only [Lib.maxLoop, getV, List.getElem?_eq_getElem hi]
      cases hv : st[i] <;> simp [maxLoop_eq st xs _ h', numbers, List.getElem?_eq_getElem hi, hv]
    | _ => simp only [Lib.maxLoop, getV, maxLoop_eq st xs _ h']; simp [numbers]

/-- `m` is the minimum of the numbers `l`: NaN exactly when there is nothing else,
otherwise an element below all that are not NaN. -/
def IsMin (l : List F64) (m : F64) : Prop :=
  ((∀ x ∈ l, F64.isNaN x = true) → F64.isNaN m = true) ∧
  ((∃ x ∈ l, F64.isNaN x = false) →
    m ∈ l ∧ F64.isNaN m = false ∧ ∀ x ∈ l, F64.isNaN x = false → F64.le m x = true)

/-- `m` is the maximum of the numbers `l`. -/
def IsMax (l : List F64) (m : F64) : Prop :=
  ((∀ x ∈ l, F64.isNaN x = true) → F64.isNaN m = true) ∧
  ((∃ x ∈ l, F64.isNaN x = false) →
    m ∈ l ∧ F64.isNaN m = false ∧ ∀ x ∈ l, F64.isNaN x = false → F64.le x m = true)

theorem le_iff {x y : F64} (hx : F64.isNaN x = false) (hy : F64.isNaN y = false) :
    F64.le x y = true ↔ F64.key x ≤ F64.key y := by simp [F64.le, hx, hy]
theorem lt_iff {x y : F64} (hx : F64.isNaN x = false) (hy : F64.isNaN y = false) :
    F64.lt x y = true ↔ F64.key x < F64.key y := by simp [F64.lt, hx, hy]
theorem lt_nan_left {x y : F64} (hx : F64.isNaN x = true) : F64.lt x y = false := by simp [F64.lt, hx]

theorem isMin_snoc {l : List F64} {m x : F64} (h : IsMin l m) :
    IsMin (l ++ [x]) (if F64.lt x m || F64.isNaN m then x else m) := by
  by_cases hm : F64.isNaN m = true
  · have hall : ∀ y ∈ l, F64.isNaN y = true := by
      by_contra hc
      push Not at hc
      obtain ⟨y, hy, hyn⟩ := hc
      have := (h.2 ⟨y, hy, by simpa using hyn⟩).2.1
      simp [hm] at this
    simp only [hm, Bool.or_true, if_true]
    constructor
    · intro hx; exact hx x (by simp)
    · rintro ⟨y, hy, hyn⟩
      rcases List.mem_append.1 hy with hy' | hy'
      · rw [hall y hy'] at hyn; cases hyn
      · simp only [List.mem_singleton] at hy'; subst hy'
        refine ⟨by simp, hyn, fun z hz hzn => ?_⟩
        rcases List.mem_append.1 hz with hz | hz
        · rw [hall z hz] at hzn; cases hzn
        · simp only [List.mem_singleton] at hz; subst hz
          exact (le_iff hyn hyn).2 (Int.le_refl _)
  · have hm' : F64.isNaN m = false := by simpa using hm
    have hex : ∃ x ∈ l, F64.isNaN x = false := by
      by_contra hc
      push Not at hc
      exact hm (h.1 fun y hy => by simpa using hc y hy)
    obtain ⟨hin, -, hle⟩ := h.2 hex
    simp only [hm', Bool.or_false]
    constructor
    · intro hx
      obtain ⟨y, hy, hyn⟩ := hex
      rw [hx y (by simp [hy])] at hyn; cases hyn
    · intro _
      by_cases hlt : F64.lt x m = true
      · have hxn : F64.isNaN x = false := by
          by_contra hc
          have : F64.isNaN x = true := by simpa using hc
          rw [lt_nan_left this] at hlt; cases hlt
        rw [if_pos hlt]
        refine ⟨by simp, hxn, fun z hz hzn => ?_⟩
        rcases List.mem_append.1 hz with hz | hz
        · have h1 := (le_iff hm' hzn).1 (hle z hz hzn)
          have h2 := (lt_iff hxn hm').1 hlt
          exact (le_iff hxn hzn).2 (by omega)
        · simp only [List.mem_singleton] at hz; subst hz
          exact (le_iff hxn hxn).2 (Int.le_refl _)
      · rw [if_neg hlt]
        refine ⟨by simp [hin], hm', fun z hz hzn => ?_⟩
        rcases List.mem_append.1 hz with hz | hz
        · exact hle z hz hzn
        · simp only [List.mem_singleton] at hz; subst hz
          rw [lt_iff hzn hm'] at hlt
          exact (le_iff hm' hzn).2 (by omega)

theorem isMax_snoc {l : List F64} {m x : F64} (h : IsMax l m) :
    IsMax (l ++ [x]) (if F64.lt m x || F64.isNaN m then x else m) := by
  by_cases hm : F64.isNaN m = true
  · have hall : ∀ y ∈ l, F64.isNaN y = true := by
      by_contra hc
      push Not at hc
      obtain ⟨y, hy, hyn⟩ := hc
      have := (h.2 ⟨y, hy, by simpa using hyn⟩).2.1
      simp [hm] at this
    simp only [hm, Bool.or_true, if_true]
    constructor
    · intro hx; exact hx x (by simp)
    · rintro ⟨y, hy, hyn⟩
      rcases List.mem_append.1 hy with hy' | hy'
      · rw [hall y hy'] at hyn; cases hyn
      · simp only [List.mem_singleton] at hy'; subst hy'
        refine ⟨by simp, hyn, fun z hz hzn => ?_⟩
        rcases List.mem_append.1 hz with hz | hz
        · rw [hall z hz] at hzn; cases hzn
        · simp only [List.mem_singleton] at hz; subst hz
          exact (le_iff hyn hyn).2 (Int.le_refl _)
  · have hm' : F64.isNaN m = false := by simpa using hm
    have hex : ∃ x ∈ l, F64.isNaN x = false := by
      by_contra hc
      push Not at hc
      exact hm (h.1 fun y hy => by simpa using hc y hy)
    obtain ⟨hin, -, hle⟩ := h.2 hex
    simp only [hm', Bool.or_false]
    constructor
    · intro hx
      obtain ⟨y, hy, hyn⟩ := hex
      rw [hx y (by simp [hy])] at hyn; cases hyn
    · intro _
      by_cases hlt : F64.lt m x = true
      · have hxn : F64.isNaN x = false := by
          by_contra hc
          have : F64.isNaN x = true := by simpa using hc
          simp [F64.lt, this] at hlt
        rw [if_pos hlt]
        refine ⟨by simp, hxn, fun z hz hzn => ?_⟩
        rcases List.mem_append.1 hz with hz | hz
        · have h1 := (le_iff hzn hm').1 (hle z hz hzn)
          have h2 := (lt_iff hm' hxn).1 hlt
          exact (le_iff hzn hxn).2 (by omega)
        · simp only [List.mem_singleton] at hz; subst hz
          exact (le_iff hxn hxn).2 (Int.le_refl _)
      · rw [if_neg hlt]
        refine ⟨by simp [hin], hm', fun z hz hzn => ?_⟩
        rcases List.mem_append.1 hz with hz | hz
        · exact hle z hz hzn
        · simp only [List.mem_singleton] at hz; subst hz
          rw [lt_iff hm' hzn] at hlt
          exact (le_iff hzn hm').2 (by omega)

theorem foldl_isMin (l pre : List F64) (m : F64) (h : IsMin pre m) :
    IsMin (pre ++ l) (l.foldl (fun acc val => if F64.lt val acc || F64.isNaN acc then val else acc) m) := by
  induction l generalizing pre m with
  | nil => simpa using h
  | cons x l ih =>
    have := ih (pre ++ [x]) _ (isMin_snoc h)
    simpa using this

theorem foldl_isMax (l pre : List F64) (m : F64) (h : IsMax pre m) :
    IsMax (pre ++ l) (l.foldl (fun acc val => if F64.lt acc val || F64.isNaN acc then val else acc) m) := by
  induction l generalizing pre m with
  | nil => simpa using h
  | cons x l ih =>
    have := ih (pre ++ [x]) _ (isMax_snoc h)
    simpa using this

/-- `min` of an array gives the minimum of its numbers.  Missing from the full property:
an element that is not a number is skipped, not reported (`C16_skips`). -/
theorem C16_min_partial (c : Cfg) (st : Stack) (a : Val) (xs : List Val) (ha : Denotes st a (.array xs))
    (hr : ElemsInRange st xs) :
    ∃ m, Lib.min c (st ++ [a]) = .ok (ofF64 m) st ∧ IsMin (numbers st xs) m := by
  refine ⟨_, ?_, foldl_isMin (numbers st xs) [] F64.nan ⟨fun _ => by decide, by simp⟩⟩
  simp only [Lib.min, SM.bind_apply, popV_one, ha.getV', Lib.minOf, minLoop_eq st xs _ hr]

/-- `max` of an array gives the maximum of its numbers; missing as in `C16_min_partial`. -/
theorem C16_max_partial (c : Cfg) (st : Stack) (a : Val) (xs : List Val) (ha : Denotes st a (.array xs))
    (hr : ElemsInRange st xs) :
    ∃ m, Lib.max c (st ++ [a]) = .ok (ofF64 m) st ∧ IsMax (numbers st xs) m := by
  refine ⟨_, ?_, foldl_isMax (numbers st xs) [] F64.nan ⟨fun _ => by decide, by simp⟩⟩
  simp only [Lib.max, SM.bind_apply, popV_one, ha.getV', Lib.maxOf, maxLoop_eq st xs _ hr]

/-- Arguments other than arrays are errors. -/
theorem C16_not_an_array (c : Cfg) (st : Stack) (a v : Val) (ha : Denotes st a v)
    (hv : ∀ xs, v ≠ .array xs) :
    (∃ e, Lib.min c (st ++ [a]) = .err e st) ∧ (∃ e, Lib.max c (st ++ [a]) = .err e st) := by
  cases v <;> simp_all [Lib.min, Lib.max, ha.getV']

/-- Elements may be references to variables, and NaN is among them. -/
example : let st : Stack := [ofF64 F64.one]
    Denotes st (.array [.ref 0, ofF64 F64.nan]) (.array [.ref 0, ofF64 F64.nan]) ∧
    ElemsInRange st [.ref 0, ofF64 F64.nan] ∧
    numbers st [.ref 0, ofF64 F64.nan] = [F64.one, F64.nan] := by
  refine ⟨.inr ⟨by simp, rfl⟩, ?_, rfl⟩
  intro i hi
  simp [ofF64] at hi
  subst hi
  simp

/-- Finding: an element that is not a number is silently skipped. -/
theorem C16_skips (c : Cfg) : Lib.min c [.array [.str "a", ofF64 F64.one]] =
    .ok (ofF64 F64.one) [] := by
  simp only [Lib.min, SM.bind_apply, popV, getV, Lib.minOf, Lib.minLoop, ofF64, List.getLast?_singleton,
    List.dropLast_singleton]
  rfl

/-! ## C17: `why` and `where` (the recording side is in the loop model) -/

/-- `why` returns the secret of a true value, innermost entry last recorded first; every
other argument is an error. -/
theorem C17_why (c : Cfg) (st : Stack) (a v : Val) (ha : Denotes st a v) :
    (∀ l, v = .bool true (some l) → Lib.why c (st ++ [a]) = .ok (.array l.reverse) st) ∧
    ((∀ l, v ≠ .bool true (some l)) → ∃ e, Lib.why c (st ++ [a]) = .err e st) := by
  constructor
  · rintro l rfl
    simp [Lib.why, ha.getV']
  · intro h
    simp only [Lib.why, SM.bind_apply, popV_one, ha.getV']
    split
    · exact absurd rfl (h _)
    all_goals exact ⟨_, rfl⟩

/-- `where` returns the secret of a number that is not NaN; every other argument is an
error. -/
theorem C17_where (c : Cfg) (st : Stack) (a v : Val) (ha : Denotes st a v) :
    (∀ x l, v = .f64 x (some l) → F64.isNaN x = false →
      Lib.where' c (st ++ [a]) = .ok (.array l.reverse) st) ∧
    ((∀ x l, v = .f64 x (some l) → F64.isNaN x = true) →
      ∃ e, Lib.where' c (st ++ [a]) = .err e st) := by
  constructor
  · rintro x l rfl hx
    simp [Lib.where', ha.getV', hx]
  · intro h
    simp only [Lib.where', SM.bind_apply, popV_one, ha.getV']
    split
    · rw [if_pos (h _ _ rfl)]; exact ⟨_, rfl⟩
    all_goals exact ⟨_, rfl⟩

/-- `explain_why` adds an outermost explanation: `why` then returns it first, followed by
the explanations recorded before. -/
theorem C17_explain_why (c : Cfg) (st : Stack) (a w w' : Val) (l : Option (List Val))
    (ha : Denotes st a (.bool true l)) (hw : deepClone st c.fuel w = .ok w') :
    ∃ v, Lib.explainWhy c (st ++ [a, w]) = .ok v st ∧
      Lib.why c (st ++ [v]) = .ok (.array (w' :: (l.getD []).reverse)) st := by
  refine ⟨.bool true (some (l.getD [] ++ [w'])), ?_, ?_⟩
  · simp [Lib.explainWhy, ha.getV', cloneV, hw]
  · simp [Lib.why, getV]

/-- `explain_where` adds an outermost explanation to a number. -/
theorem C17_explain_where (c : Cfg) (st : Stack) (a w w' : Val) (x : F64) (l : Option (List Val))
    (hx : F64.isNaN x = false)
    (ha : Denotes st a (.f64 x l)) (hw : deepClone st c.fuel w = .ok w') :
    ∃ v, Lib.explainWhere c (st ++ [a, w]) = .ok v st ∧
      Lib.where' c (st ++ [v]) = .ok (.array (w' :: (l.getD []).reverse)) st := by
  refine ⟨.f64 x (some (l.getD [] ++ [w'])), ?_, ?_⟩
  · simp [Lib.explainWhere, ha.getV', cloneV, hw]
  · simp [Lib.where', getV, hx]

example : Denotes [.bool true (some [ofF64 0])] (.ref 0) (.bool true (some [ofF64 0])) :=
  .inl ⟨0, rfl, rfl⟩

/-! ## C46: options and results -/

section unwrap
variable (c : Cfg) (st : Stack) (a v w : Val)

/-- `unwrap(some(x))`, `unwrap(ok(x))` and `unwrap_err(err(x))` give the resolved copy of
`x`. -/
theorem C46_round_trip (ha : Denotes st a v) (hw : deepClone st c.fuel v = .ok w) :
    (∃ o, Lib.some' c (st ++ [a]) = .ok o st ∧ Lib.unwrap c (st ++ [o]) = .ok w st ∧
      ∀ d, Lib.unwrapOr c (st ++ [o, d]) = .ok w st) ∧
    (∃ o, Lib.ok' c (st ++ [a]) = .ok o st ∧ Lib.unwrap c (st ++ [o]) = .ok w st ∧
      (∀ d, Lib.unwrapOr c (st ++ [o, d]) = .ok w st) ∧
      Lib.isOk c (st ++ [o]) = .ok (ofBool true) st ∧
      Lib.isErr c (st ++ [o]) = .ok (ofBool false) st ∧
      ∃ e, Lib.unwrapErr c (st ++ [o]) = .err e st) ∧
    (∃ o, Lib.err' c (st ++ [a]) = .ok o st ∧ Lib.unwrapErr c (st ++ [o]) = .ok w st ∧
      Lib.isOk c (st ++ [o]) = .ok (ofBool false) st ∧
      Lib.isErr c (st ++ [o]) = .ok (ofBool true) st ∧
      (∀ d dv, Denotes st d dv → Lib.unwrapOr c (st ++ [o, d]) = .ok dv st) ∧
      Lib.unwrap c (st ++ [o]) = .err (c.trace ++ "\n" ++ c.write st w) st) := by
  refine ⟨⟨.option (some w), ?_, ?_, ?_⟩, ⟨.resOk w, ?_, ?_, ?_, ?_, ?_, ?_⟩,
    ⟨.resErr w [], ?_, ?_, ?_, ?_, ?_, ?_⟩⟩
  all_goals first
    | (simp [Lib.some', Lib.ok', Lib.err', ha.getV', cloneV, hw]; done)
    | (intro d dv hd
       have : getV (.resErr w []) st = .ok (.resErr w []) st := rfl
       simp [Lib.unwrapOr, this, hd.getV']; done)
    | (simp [Lib.unwrap, Lib.unwrapOr, Lib.unwrapErr, Lib.isOk, Lib.isErr, getV, Lib.unwrapFail,
        Lib.unwrapMsg]; done)

/-- `none()` unwraps to an error, and to the default with `unwrap_or`. -/
theorem C46_none :
    ∃ o, Lib.none' st = .ok o st ∧ (∃ e, Lib.unwrap c (st ++ [o]) = .err e st) ∧
      ∀ d dv, Denotes st d dv → Lib.unwrapOr c (st ++ [o, d]) = .ok dv st := by
  refine ⟨.option none, rfl, ?_, ?_⟩
  · simp [Lib.unwrap, getV]
  · intro d dv hd
    have : getV (.option none) st = .ok (.option none) st := rfl
    simp [Lib.unwrapOr, this, hd.getV']

/-- The error of `unwrap` on an error value contains its message and then its trace,
line by line. -/
theorem C46_unwrap_error (msg : Val) (trace : List String) (ha : Denotes st a (.resErr msg trace)) :
    Lib.unwrap c (st ++ [a]) =
      .err (c.trace ++ "\n" ++ c.write st msg ++ (trace.map ("\n" ++ ·)).foldr (· ++ ·) "") st := by
  have key : ∀ (l : List String) (s : String),
      l.foldl (fun w t => w ++ "\n" ++ t) s = s ++ (l.map ("\n" ++ ·)).foldr (· ++ ·) "" := by
    intro l
    induction l with
    | nil => intro s; simp
    | cons t l ih =>
      intro s
      rw [List.foldl_cons, ih, List.map_cons, List.foldr_cons]
      simp only [String.append_assoc]
  simp [Lib.unwrap, ha.getV', Lib.unwrapFail, Lib.unwrapMsg, key]

/-- Every other kind of argument is an error naming the kind found. -/
theorem C46_other_kinds (ha : Denotes st a v)
    (h1 : ∀ o, v ≠ .option o) (h2 : ∀ u, v ≠ .resOk u) (h3 : ∀ m t, v ≠ .resErr m t) (d : Val) :
    Lib.unwrap c (st ++ [a]) = .err (c.trace ++ "\nExpected `some(_) or ok(_)`, found `" ++ v.typeofVar ++ "`") st ∧
    Lib.unwrapOr c (st ++ [a, d]) = .err (c.trace ++ "\nExpected `some(_) or ok(_)`, found `" ++ v.typeofVar ++ "`") st ∧
    Lib.unwrapErr c (st ++ [a]) = .err (c.trace ++ "\nExpected `err(_)`, found `" ++ v.typeofVar ++ "`") st ∧
    Lib.isOk c (st ++ [a]) = .err (c.trace ++ "\nExpected `result`, found `" ++ v.typeofVar ++ "`") st ∧
    Lib.isErr c (st ++ [a]) = .err (c.trace ++ "\nExpected `result`, found `" ++ v.typeofVar ++ "`") st := by
  have e1 : ∀ t : String, "\nExpected `" ++ t ++ "`, found `" = "\nExpected `" ++ (t ++ "`, found `") :=
    fun t => String.append_assoc
  cases v <;> simp_all [Lib.unwrap, Lib.unwrapOr, Lib.unwrapErr, Lib.isOk, Lib.isErr, ha.getV',
    expected, String.append_assoc]

end unwrap

example : Denotes [.resErr (.str "no") ["in f"]] (.ref 0) (.resErr (.str "no") ["in f"]) :=
  .inl ⟨0, rfl, rfl⟩

end Dyon
