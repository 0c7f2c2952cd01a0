import Verif.Eval.Fold

/-!
# Places: specification and lemmas for C31

`Spec.Reach` and `Spec.Child` say which place a chain of keys and indices addresses,
`Spec.Under` which places are inside another.
-/

namespace Dyon

/-! ## Writing into a tree -/

/-- A value without the values inside it: the length of an array and the keys of an object
are kept, every other value is kept as it is. -/
def Val.shape : Val → Val
  | .array xs => .array (xs.map fun _ => .ret)
  | .object kvs => .object (kvs.map fun kv => (kv.1, .ret))
  | v => v

theorem lookup_setKey_self {k : String} {w u : Val} {kvs : List (String × Val)} (h : kvs.lookup k = some u) :
    (setKey k w kvs).lookup k = some w := by
  induction kvs with
  | nil => cases h
  | cons kv rest ih =>
    obtain ⟨k', v'⟩ := kv
    by_cases hk : k' = k
    · simp [setKey, hk]
    · have hk2 : (k == k') = false := by simp; exact fun hh => hk hh.symm
      simp only [List.lookup, hk2] at h
      simp [setKey, hk, List.lookup, hk2, ih h]

theorem lookup_setKey_ne {k k' : String} {w : Val} (kvs : List (String × Val)) (h : k' ≠ k) :
    (setKey k w kvs).lookup k' = kvs.lookup k' := by
  induction kvs with
  | nil => rfl
  | cons kv rest ih =>
    obtain ⟨k2, v2⟩ := kv
    by_cases hk : k2 = k
    · have : (k' == k2) = false := by simp; exact fun hh => h (hh.trans hk)
      simp [setKey, hk]
      subst hk
      simp [List.lookup, this]
    · simp only [setKey, if_neg hk, List.lookup]
      rw [ih]

theorem setKey_keys {k : String} {w : Val} (kvs : List (String × Val)) :
    (setKey k w kvs).map (fun kv => (kv.1, Val.ret)) = kvs.map fun kv => (kv.1, Val.ret) := by
  induction kvs with
  | nil => rfl
  | cons kv rest ih =>
    obtain ⟨k2, v2⟩ := kv
    by_cases hk : k2 = k
    · simp [setKey, hk]
    · simp only [setKey, if_neg hk, List.map_cons]
      rw [ih]

theorem step_setStep_self {v w u : Val} {s : Step} (h : v.step s = some u) : (v.setStep s w).step s = some w := by
  cases v <;> cases s <;> try cases h
  · rename_i xs i
    simp only [Val.step] at h
    have hi : i < xs.length := (List.getElem?_eq_some_iff.mp h).1
    simp [Val.setStep, Val.step, hi]
  · exact lookup_setKey_self h

theorem step_setStep_ne {v w : Val} {s t : Step} (h : t ≠ s) : (v.setStep s w).step t = v.step t := by
  cases v <;> cases s <;> cases t <;> try rfl
  · rename_i xs i j
    have : i ≠ j := fun hh => h (by rw [hh])
    simp only [Val.setStep, Val.step]
    exact List.getElem?_set_ne this
  · rename_i kvs k k'
    have : k' ≠ k := fun hh => h (by rw [hh])
    exact lookup_setKey_ne kvs this

theorem shape_setStep {v w : Val} {s : Step} : (v.setStep s w).shape = v.shape := by
  cases v <;> cases s <;> try rfl
  · simp only [Val.setStep, Val.shape]
    congr 1
    apply List.ext_getElem? 
    intro i
    simp [List.getElem?_map, List.getElem?_set]
  · simp only [Val.setStep, Val.shape]
    rw [setKey_keys]

theorem atPath_setPath_self {v w : Val} {p : List Step} {u : Val} (h : v.atPath p = some u) :
    (v.setPath p w).atPath p = some w := by
  induction p generalizing v with
  | nil => rfl
  | cons s p ih =>
    simp only [Val.atPath] at h
    cases hs : v.step s with
    | none => simp [hs] at h
    | some x =>
      simp only [hs] at h
      simp only [Val.setPath, hs, Val.atPath, step_setStep_self hs]
      exact ih h

theorem atPath_setPath_shape {v w : Val} {p q : List Step} (hq : ¬ p <+: q) :
    ((v.setPath p w).atPath q).map Val.shape = (v.atPath q).map Val.shape := by
  induction p generalizing v q with
  | nil => exact absurd (List.nil_prefix) hq
  | cons s p ih =>
    simp only [Val.setPath]
    cases hs : v.step s with
    | none => rfl
    | some x =>
      cases q with
      | nil => simp [Val.atPath, shape_setStep]
      | cons t q =>
        by_cases ht : t = s
        · subst ht
          simp only [Val.atPath, step_setStep_self hs, hs]
          exact ih fun h => hq (by simpa using h)
        · simp only [Val.atPath, step_setStep_ne ht]

theorem atPath_setPath_apart {v w : Val} {p q : List Step} (hq : ¬ p <+: q) (hp : ¬ q <+: p) :
    (v.setPath p w).atPath q = v.atPath q := by
  induction p generalizing v q with
  | nil => exact absurd (List.nil_prefix) hq
  | cons s p ih =>
    simp only [Val.setPath]
    cases hs : v.step s with
    | none => rfl
    | some x =>
      cases q with
      | nil => exact absurd (List.nil_prefix) hp
      | cons t q =>
        by_cases ht : t = s
        · subst ht
          simp only [Val.atPath, step_setStep_self hs, hs]
          exact ih (fun h => hq (by simpa using h)) fun h => hp (by simpa using h)
        · simp only [Val.atPath, step_setStep_ne ht]

theorem setStep_setStep {v a b : Val} {s : Step} : (v.setStep s a).setStep s b = v.setStep s b := by
  cases v <;> cases s <;> try rfl
  · simp [Val.setStep]
  · rename_i kvs k
    simp only [Val.setStep]
    congr 1
    induction kvs with
    | nil => rfl
    | cons kv rest ih =>
      obtain ⟨k2, v2⟩ := kv
      by_cases hk : k2 = k
      · simp [setKey, hk]
      · simp only [setKey, if_neg hk]
        rw [ih]

theorem setPath_setPath {v a b : Val} {p : List Step} : (v.setPath p a).setPath p b = v.setPath p b := by
  induction p generalizing v with
  | nil => rfl
  | cons s p ih =>
    simp only [Val.setPath]
    cases hs : v.step s with
    | none => simp [hs]
    | some x => simp only [step_setStep_self hs, ih, setStep_setStep]

theorem atPath_append {v : Val} {p q : List Step} : v.atPath (p ++ q) = (v.atPath p).bind (·.atPath q) := by
  induction p generalizing v with
  | nil => rfl
  | cons s p ih =>
    simp only [List.cons_append, Val.atPath]
    cases v.step s with
    | none => rfl
    | some x => exact ih

theorem readPlace_down {stk : Stack} {p : Place} {s : Step} {u : Val} (h : readPlace stk p = some u) :
    readPlace stk (p.down s) = u.step s := by
  simp only [readPlace, Place.down] at *
  cases hr : stk[p.root]? with
  | none => simp [hr] at h
  | some v =>
    simp only [hr] at h
    simp only [atPath_append, h, Option.bind_some, Val.atPath]
    cases u.step s <;> rfl

theorem writePlace_writePlace {stk : Stack} {p : Place} {a b : Val} :
    writePlace (writePlace stk p a) p b = writePlace stk p b := by
  simp only [writePlace]
  cases hr : stk[p.root]? with
  | none => simp [hr]
  | some v =>
    have hi : p.root < stk.length := (List.getElem?_eq_some_iff.mp hr).1
    simp [hi, setPath_setPath]

namespace Spec

/-- `r` is the place `q` or inside it. -/
def Under (q r : Place) : Prop := r.root = q.root ∧ q.path <+: r.path

end Spec

theorem readPlace_writePlace_self {stk : Stack} {q : Place} {u w : Val} (h : readPlace stk q = some u) :
    readPlace (writePlace stk q w) q = some w := by
  simp only [readPlace, writePlace] at *
  cases hr : stk[q.root]? with
  | none => simp [hr] at h
  | some v =>
    have hi : q.root < stk.length := (List.getElem?_eq_some_iff.mp hr).1
    simp only [hr] at h
    simp [hi, atPath_setPath_self h]

/-! ## Specification: which place an item addresses -/

namespace Spec

/-- What is written behind a variable: `.name` or `[number]`, or the value of `[expression]`. -/
inductive Key where
  | name (s : String)
  | num (x : F64)

/-- The part of the value at `p` a key selects: its place and its value.  A number selects
the element with the number rounded to an index. -/
def Child (stk : Stack) (p : Place) (k : Key) (q : Place) (v : Val) : Prop :=
  match k with
  | .name s => ∃ kvs, readPlace stk p = some (.object kvs) ∧ kvs.lookup s = some v ∧ q = p.down (.key s)
  | .num x => ∃ xs, readPlace stk p = some (.array xs) ∧ xs[x.toUsize]? = some v ∧ q = p.down (.idx x.toUsize)

/-- A reference stored in an array or object is followed to the variable. -/
def follow (q : Place) : Val → Place
  | .ref i => ⟨i, []⟩
  | _ => q

/-- The value of a slot, through one reference. -/
def valueAt (stk : Stack) (i : Nat) : Option Val :=
  match stk[i]? with
  | some (.ref j) => stk[j]?
  | v => v

/-- The key a computed property stands for: a text or a number. -/
def keyAt (stk : Stack) (i : Nat) : Option Key :=
  match valueAt stk i with
  | some (.str s) => some (.name s)
  | some (.f64 x _) => some (.num x)
  | _ => none

/-- The key of a property, the values of the computed ones being on the stack from slot
`start` on, `j` of them used; and the new `j`. -/
def keyOf (stk : Stack) (start j : Nat) : Id → Option (Key × Nat)
  | .str s => some (.name s, j)
  | .num x => some (.num x, j)
  | .expr _ => (keyAt stk (start + j)).map fun k => (k, j + 1)

/-- The keys of an item. -/
def keys (stk : Stack) (start : Nat) : Nat → List Id → Option (List Key)
  | _, [] => some []
  | j, d :: ds => match keyOf stk start j d with
    | some (k, j') => (keys stk start j' ds).map (k :: ·)
    | none => none

/-- The slot of a computed property, through one reference. -/
def slotAt (stk : Stack) (i : Nat) : Option Nat :=
  match stk[i]? with
  | some (.ref j) => some j
  | some _ => some i
  | none => none

/-- The numbers of an array of indices in slot `s`: numbers, and variables below the slot with numbers. -/
inductive Numbers (stk : Stack) (s : Nat) : List Val → List F64 → Prop
  | nil : Numbers stk s [] []
  | num {x sec inds xs} : Numbers stk s inds xs → Numbers stk s (.f64 x sec :: inds) (x :: xs)
  | ref {i x sec inds xs} : i < s → stk[i]? = some (.f64 x sec) → Numbers stk s inds xs → Numbers stk s (.ref i :: inds) (x :: xs)

/-- From `p` along numbers to the array `r`, through references to variables below the slot `s`. -/
inductive Along (stk : Stack) (s : Nat) : Place → List F64 → Place → Prop
  | nil (p : Place) : Along stk s p [] p
  | cons {p q r : Place} {x : F64} {xs : List F64} {v : Val} :
      Child stk p (.num x) q v → (∀ i, v = .ref i → i < s) → Along stk s (follow q v) xs r → Along stk s p (x :: xs) r

/-- The `j`-th computed property is an array of indices that lead from `p` to the place `q` with the value `v`. -/
def ByArray (stk : Stack) (start j : Nat) (p q : Place) (v : Val) (s : Nat) : Prop :=
  slotAt stk (start + j) = some s ∧ ∃ inds xs x p', stk[s]? = some (.array inds) ∧ Numbers stk s inds (xs ++ [x]) ∧
    Along stk s p xs p' ∧ Child stk p' (.num x) q v

/-- No number: neither a number nor a variable with one. -/
def NoNumber (stk : Stack) (s : Nat) (ind : Val) : Prop :=
  (∀ x sec, ind ≠ .f64 x sec) ∧ ∀ i, ind = .ref i → i < s ∧ ∃ w, stk[i]? = some w ∧ ∀ x sec, w ≠ .f64 x sec

/-- The `j`-th computed property is an array of indices that does not lead from the array `p` to an element: it is empty, or some first
indices lead to a value `r`, and the next one is not a number or the index of an element of `r`. -/
def Misled (stk : Stack) (start j : Nat) (p : Place) : Prop :=
  ∃ s inds, slotAt stk (start + j) = some s ∧ stk[s]? = some (.array inds) ∧ (∃ ys, readPlace stk p = some (.array ys)) ∧
    (inds = [] ∨ ∃ first ind rest xs r u, inds = first ++ ind :: rest ∧ Numbers stk s first xs ∧ Along stk s p xs r ∧
      readPlace stk r = some u ∧ (NoNumber stk s ind ∨ ∃ x, Numbers stk s [ind] [x] ∧ ∀ q v, ¬ Child stk r (.num x) q v))

/-- The way from `p` along properties to the value `r` (and the properties behind it), through references.  `j` and `j'` are the numbers of
computed properties that were used.  A property is a key, or an array of indices that stands for several numbers and behind which nothing
is computed. -/
inductive Route (stk : Stack) (start : Nat) : Place → Nat → List Id → Place → Nat → List Id → Prop
  | nil (p : Place) (j : Nat) (ids : List Id) : Route stk start p j ids p j ids
  | key {p q r : Place} {k : Key} {v : Val} {j j' jr : Nat} {d : Id} {ds idr : List Id} : keyOf stk start j d = some (k, j') →
      Child stk p k q v → ds ≠ [] → Route stk start (follow q v) j' ds r jr idr → Route stk start p j (d :: ds) r jr idr
  | indices {p q r : Place} {v : Val} {j jr s : Nat} {e : Expr} {ds idr : List Id} : ByArray stk start j p q v s → (∀ i, v = .ref i → i < s) →
      ds ≠ [] → (∀ e, .expr e ∉ ds) → Route stk start (follow q v) j ds r jr idr → Route stk start p j (.expr e :: ds) r jr idr

/-- The computed properties are evaluated in order; each leaves its value on the stack. -/
inductive Indices (ev : Evl) : List Id → St → St → Prop
  | nil (st : St) : Indices ev [] st st
  | str {s ds st st'} : Indices ev ds st st' → Indices ev (.str s :: ds) st st'
  | num {x ds st st'} : Indices ev ds st st' → Indices ev (.num x :: ds) st st'
  | expr {e ds x} {st st1 st' : St} : ev e .right st = .ok (some x, .cont) st1 →
      Indices ev ds { st1 with stack := st1.stack ++ [x] } st' → Indices ev (.expr e :: ds) st st'

end Spec

open Spec

/-! ## The walk -/

theorem readE_some {p : Place} {v : Val} {st : St} (h : readPlace st.stack p = some v) : readE p st = .ok v st := by
  simp only [readE, h]

theorem slotE_some {i : Nat} {v : Val} {st : St} (h : st.stack[i]? = some v) : slotE i st = .ok v st := by
  simp only [slotE, h]

theorem computed_ok {st : St} {start j : Nat} {v : Val} (h : valueAt st.stack (start + j) = some v) :
    ∃ id, computedSlot start j st = .ok id st ∧ st.stack[id]? = some v := by
  unfold valueAt at h
  cases hs : st.stack[start + j]? with
  | none => simp [hs] at h
  | some w =>
    by_cases hw : ∃ i, w = .ref i
    · obtain ⟨i, rfl⟩ := hw
      simp only [hs] at h
      refine ⟨i, ?_, h⟩
      unfold computedSlot
      rw [EM.bind_ok (slotE_some hs)]
      rfl
    · have hv : v = w := by
        rw [hs] at h
        cases w <;> simp_all
      subst hv
      refine ⟨start + j, ?_, hs⟩
      unfold computedSlot
      rw [EM.bind_ok (slotE_some hs)]
      cases v <;> first | rfl | (exact absurd ⟨_, rfl⟩ hw)

theorem keyAt_name {stk : Stack} {i : Nat} {s : String} (h : keyAt stk i = some (.name s)) :
    valueAt stk i = some (.str s) := by
  unfold keyAt at h
  split at h <;> simp_all

theorem keyAt_num {stk : Stack} {i : Nat} {x : F64} (h : keyAt stk i = some (.num x)) :
    ∃ sec, valueAt stk i = some (.f64 x sec) := by
  unfold keyAt at h
  split at h
  · simp_all
  · rename_i y sec hv
    cases h
    exact ⟨sec, hv⟩
  · simp_all

section
variable {c : ECfg} {p q : Place} {prop : Id} {start j j' : Nat} {ins last : Bool} {st : St} {k : Key} {v : Val}

/-- The key of a property of an object. -/
theorem objectKey_ok {s : String} (h : keyOf st.stack start j prop = some (.name s, j')) :
    objectKey prop start j st = .ok (s, j') st := by
  cases prop with
  | str t => cases h; rfl
  | num x => cases h
  | expr e =>
    simp only [keyOf, Option.map_eq_some_iff, Prod.mk.injEq] at h
    obtain ⟨k, hk, rfl, rfl⟩ := h
    obtain ⟨id, h1, h2⟩ := computed_ok (keyAt_name hk)
    simp only [objectKey]
    rw [EM.bind_ok h1, EM.bind_ok (slotE_some h2)]
    rfl

theorem objectKey_num {x : F64} (h : keyOf st.stack start j prop = some (.num x, j')) :
    ∃ m, objectKey prop start j st = .err m st := by
  cases prop with
  | str t => cases h
  | num x => exact ⟨_, rfl⟩
  | expr e =>
    simp only [keyOf, Option.map_eq_some_iff, Prod.mk.injEq] at h
    obtain ⟨k, hk, rfl, rfl⟩ := h
    obtain ⟨sec, hv⟩ := keyAt_num hk
    obtain ⟨id, h1, h2⟩ := computed_ok hv
    simp only [objectKey]
    rw [EM.bind_ok h1, EM.bind_ok (slotE_some h2)]
    exact ⟨_, rfl⟩

theorem lookupArray_num {x : F64} {xs : List Val} (h : keyOf st.stack start j prop = some (.num x, j')) :
    lookupArray c p xs prop start j last st = lookupIndex c p xs x j' last st := by
  cases prop with
  | str t => cases h
  | num x => cases h; rfl
  | expr e =>
    simp only [keyOf, Option.map_eq_some_iff, Prod.mk.injEq] at h
    obtain ⟨k, hk, rfl, rfl⟩ := h
    obtain ⟨sec, hv⟩ := keyAt_num hk
    obtain ⟨id, h1, h2⟩ := computed_ok hv
    simp only [lookupArray]
    rw [EM.bind_ok h1, EM.bind_ok (slotE_some h2)]

theorem lookupArray_name {s : String} {xs : List Val} (h : keyOf st.stack start j prop = some (.name s, j')) :
    ∃ m, lookupArray c p xs prop start j last st = .err m st := by
  cases prop with
  | str t => exact ⟨_, rfl⟩
  | num x => cases h
  | expr e =>
    simp only [keyOf, Option.map_eq_some_iff, Prod.mk.injEq] at h
    obtain ⟨k, hk, rfl, rfl⟩ := h
    obtain ⟨id, h1, h2⟩ := computed_ok (keyAt_name hk)
    simp only [lookupArray]
    rw [EM.bind_ok h1, EM.bind_ok (slotE_some h2)]
    exact ⟨_, rfl⟩

theorem itemLookup_child (hk : keyOf st.stack start j prop = some (k, j')) (hc : Child st.stack p k q v) :
    itemLookup c p prop start j ins last st = .ok (resolveRef q v last, j') st := by
  cases k with
  | name s =>
    obtain ⟨kvs, hp, hl, rfl⟩ := hc
    unfold itemLookup
    rw [EM.bind_ok (readE_some hp)]
    show lookupObject p kvs prop start j ins last st = _
    unfold lookupObject
    rw [EM.bind_ok (objectKey_ok hk)]
    simp only [hl]
    rfl
  | num x =>
    obtain ⟨xs, hp, hl, rfl⟩ := hc
    unfold itemLookup
    rw [EM.bind_ok (readE_some hp)]
    show lookupArray c p xs prop start j last st = _
    rw [lookupArray_num hk]
    unfold lookupIndex
    simp only [hl]
    rfl

theorem itemLookup_missing {u : Val} (hk : keyOf st.stack start j prop = some (k, j'))
    (hp : readPlace st.stack p = some u) (hc : ∀ q v, ¬ Child st.stack p k q v)
    (hi : (ins && last) = true → ∀ kvs s, u = .object kvs → k ≠ .name s) :
    ∃ m, itemLookup c p prop start j ins last st = .err m st := by
  unfold itemLookup
  rw [EM.bind_ok (readE_some hp)]
  cases u with
  | object kvs =>
    show ∃ m, lookupObject p kvs prop start j ins last st = .err m st
    unfold lookupObject
    cases k with
    | num x =>
      obtain ⟨m, hm⟩ := objectKey_num hk
      exact ⟨m, EM.bind_err hm⟩
    | name s =>
      rw [EM.bind_ok (objectKey_ok hk)]
      cases hl : kvs.lookup s with
      | some v => exact absurd ⟨kvs, hp, hl, rfl⟩ (hc _ v)
      | none =>
        have hi' : (ins && last) = false := by
          cases h : ins && last with
          | false => rfl
          | true => exact absurd rfl (hi h kvs s rfl)
        simp only [hl, hi']
        exact ⟨_, rfl⟩
  | array xs =>
    show ∃ m, lookupArray c p xs prop start j last st = .err m st
    cases k with
    | name s => exact lookupArray_name hk
    | num x =>
      rw [lookupArray_num hk]
      unfold lookupIndex
      cases hl : xs[x.toUsize]? with
      | some v => exact absurd ⟨xs, hp, hl, rfl⟩ (hc _ v)
      | none => exact ⟨_, rfl⟩
  | _ => exact ⟨_, rfl⟩

theorem itemLookup_insert {s : String} {kvs : List (String × Val)}
    (hk : keyOf st.stack start j prop = some (.name s, j'))
    (hp : readPlace st.stack p = some (.object kvs)) (hl : kvs.lookup s = none) :
    itemLookup c p prop start j true true st =
      .ok (p.down (.key s), j') { st with stack := writePlace st.stack p (.object (kvs ++ [(s, .ret)])) } := by
  unfold itemLookup
  rw [EM.bind_ok (readE_some hp)]
  show lookupObject p kvs prop start j true true st = _
  unfold lookupObject
  rw [EM.bind_ok (objectKey_ok hk)]
  simp only [hl]
  have hw : writeE p (.object (kvs ++ [(s, .ret)])) st =
      .ok () { st with stack := writePlace st.stack p (.object (kvs ++ [(s, .ret)])) } := by
    simp only [writeE, hp]
  show (writeE p (.object (kvs ++ [(s, .ret)])) >>= fun _ => pure (p.down (.key s), j')) st = _
  rw [EM.bind_ok hw]
  rfl

end

theorem resolveRef_follow (q : Place) (v : Val) : resolveRef q v false = follow q v := by
  cases v <;> rfl

theorem keys_cons {stk : Stack} {start j : Nat} {ids : List Id} {k : Key} {ks : List Key}
    (h : keys stk start j ids = some (k :: ks)) :
    ∃ d ds j', ids = d :: ds ∧ keyOf stk start j d = some (k, j') ∧ keys stk start j' ds = some ks := by
  cases ids with
  | nil => simp [keys] at h
  | cons d ds =>
    simp only [keys] at h
    cases hk : keyOf stk start j d with
    | none => simp [hk] at h
    | some kj =>
      simp only [hk, Option.map_eq_some_iff, List.cons.injEq] at h
      obtain ⟨ks', h1, h2, rfl⟩ := h
      obtain ⟨k', j'⟩ := kj
      cases h2
      exact ⟨d, ds, j', rfl, hk, h1⟩

theorem keys_nil {stk : Stack} {start j : Nat} {ids : List Id} (h : keys stk start j ids = some []) : ids = [] := by
  cases ids with
  | nil => rfl
  | cons d ds =>
    simp only [keys] at h
    cases hk : keyOf stk start j d with
    | none => simp [hk] at h
    | some kj => simp [hk] at h

theorem child_read {stk : Stack} {r q : Place} {k : Key} {v : Val} (hc : Child stk r k q v) :
    readPlace stk q = some v := by
  cases k with
  | name s =>
    obtain ⟨kvs, hp, hl, rfl⟩ := hc
    rw [readPlace_down hp]; exact hl
  | num x =>
    obtain ⟨xs, hp, hl, rfl⟩ := hc
    rw [readPlace_down hp]; exact hl

section
variable {c : ECfg} {st : St}

theorem slotAt_ok {start j s : Nat} {v : Val} (h : slotAt st.stack (start + j) = some s) (hv : st.stack[s]? = some v) :
    computedSlot start j st = .ok s st := by
  unfold slotAt at h
  unfold computedSlot
  cases hs : st.stack[start + j]? with
  | none => rw [hs] at h; cases h
  | some w =>
    rw [EM.bind_ok (slotE_some hs)]
    rw [hs] at h
    cases w <;> (cases h; rfl)

theorem indexNumber_ok {s : Nat} {ind : Val} {inds : List Val} {x : F64} {xs : List F64} (h : Numbers st.stack s (ind :: inds) (x :: xs)) :
    indexNumber s ind st = .ok (some x) st ∧ Numbers st.stack s inds xs := by
  cases h with
  | num h => exact ⟨rfl, h⟩
  | @ref i _ sec _ _ h1 h2 h =>
    refine ⟨?_, h⟩
    have h3 : prevSlot s i st = .ok (.f64 x sec) st := by
      unfold prevSlot
      rw [if_pos h1]
      exact slotE_some h2
    unfold indexNumber
    show EM.bind _ _ st = _
    unfold EM.bind
    rw [h3]
    rfl

/-- Where a number leads there is an array. -/
theorem along_array {stk : Stack} {s : Nat} {p r : Place} {xs : List F64} (h : Along stk s p xs r) (hr : ∃ ys, readPlace stk r = some (.array ys)) :
    ∃ ys, readPlace stk p = some (.array ys) := by
  cases h with
  | nil => exact hr
  | cons h _ _ => obtain ⟨ys, h, -⟩ := h; exact ⟨ys, h⟩

theorem indexNext_ok {s : Nat} {q : Place} {v : Val} {ys : List Val} (hv : readPlace st.stack q = some v) (hi : ∀ i, v = .ref i → i < s)
    (h : readPlace st.stack (follow q v) = some (.array ys)) : indexNext s q v st = .ok (some (follow q v)) st := by
  cases v with
  | ref i =>
    have h2 : st.stack[i]? = some (.array ys) := by
      have h : readPlace st.stack ⟨i, []⟩ = some (.array ys) := h
      unfold readPlace at h
      cases h3 : st.stack[i]? with
      | none => simp [h3] at h
      | some w => simpa [h3, Val.atPath] using h
    have h3 : prevSlot s i st = .ok (.array ys) st := by
      unfold prevSlot
      rw [if_pos (hi i rfl)]
      exact slotE_some h2
    unfold indexNext
    show EM.bind _ _ st = _
    unfold EM.bind
    rw [h3]
    rfl
  | array ys => rfl
  | _ => rw [show follow q _ = q from rfl, hv] at h; cases h

theorem lookupIndices_ok {s : Nat} {last : Bool} {p r q : Place} {xs : List F64} {x : F64} {v : Val} (h : Along st.stack s p xs r)
    (hc : Child st.stack r (.num x) q v) : ∀ {inds : List Val}, Numbers st.stack s inds (xs ++ [x]) →
    lookupIndices c s last p inds st = indexLast s last q v st := by
  induction h with
  | nil p =>
    intro inds hn
    obtain ⟨ys, h1, h2, rfl⟩ := hc
    cases inds with
    | nil => cases hn
    | cons ind rest =>
      obtain ⟨h3, h4⟩ := indexNumber_ok hn
      cases h4
      unfold lookupIndices
      rw [EM.bind_ok h3]
      show EM.bind _ _ st = _
      unfold EM.bind
      rw [readE_some h1]
      simp only [h2]
      rfl
  | @cons p q' r y xs w h1 h2 h5 ih =>
    intro inds hn
    have hq := child_read h1
    obtain ⟨ys, g1, g2, rfl⟩ := h1
    cases inds with
    | nil => cases hn
    | cons ind rest =>
      obtain ⟨h3, h4⟩ := indexNumber_ok hn
      have hne : rest.isEmpty = false := by
        cases rest with
        | nil => cases xs <;> cases h4
        | cons _ _ => rfl
      obtain ⟨zs, hz⟩ := along_array h5 (by obtain ⟨ys, h, -⟩ := hc; exact ⟨ys, h⟩)
      rw [← ih hc h4]
      conv => lhs; unfold lookupIndices
      rw [EM.bind_ok h3]
      show EM.bind _ _ st = _
      unfold EM.bind
      rw [readE_some g1]
      simp only [g2, hne]
      show EM.bind _ _ st = _
      unfold EM.bind
      rw [indexNext_ok hq h2 hz]

theorem indexNumber_none {s : Nat} {ind : Val} (h : NoNumber st.stack s ind) : indexNumber s ind st = .ok none st := by
  obtain ⟨h1, h2⟩ := h
  cases ind with
  | f64 x sec => exact absurd rfl (h1 x sec)
  | ref i =>
    obtain ⟨h3, w, h4, h5⟩ := h2 i rfl
    have h6 : prevSlot s i st = .ok w st := by
      unfold prevSlot
      rw [if_pos h3]
      exact slotE_some h4
    unfold indexNumber
    show EM.bind _ _ st = _
    unfold EM.bind
    rw [h6]
    cases w <;> first | rfl | exact absurd rfl (h5 _ _)
  | _ => rfl

theorem indexNext_none {s : Nat} {q : Place} {v u : Val} (hv : readPlace st.stack q = some v) (hi : ∀ i, v = .ref i → i < s)
    (hu : readPlace st.stack (follow q v) = some u) (h : ∀ ys, u ≠ .array ys) : indexNext s q v st = .ok none st := by
  cases v with
  | ref i =>
    have h2 : st.stack[i]? = some u := by
      have h : readPlace st.stack ⟨i, []⟩ = some u := hu
      unfold readPlace at h
      cases h3 : st.stack[i]? with
      | none => simp [h3] at h
      | some w => simpa [h3, Val.atPath] using h
    have h3 : prevSlot s i st = .ok u st := by
      unfold prevSlot
      rw [if_pos (hi i rfl)]
      exact slotE_some h2
    unfold indexNext
    show EM.bind _ _ st = _
    unfold EM.bind
    rw [h3]
    cases u <;> first | rfl | exact absurd rfl (h _)
  | array ys =>
    rw [show follow q (.array ys) = q from rfl, hv] at hu
    exact absurd (Option.some.inj hu).symm (h ys)
  | _ => rfl

theorem lookupIndices_missing {s : Nat} {last : Bool} {p r : Place} {xs : List F64} {u ind : Val} (h : Along st.stack s p xs r)
    (hu : readPlace st.stack r = some u) (hb : NoNumber st.stack s ind ∨ ∃ x, Numbers st.stack s [ind] [x] ∧ ∀ q v, ¬ Child st.stack r (.num x) q v) :
    ∀ {first rest : List Val}, Numbers st.stack s first xs → (∃ ys, readPlace st.stack p = some (.array ys)) →
    ∃ m, lookupIndices c s last p (first ++ ind :: rest) st = .err m st := by
  induction h with
  | nil p =>
    intro first rest hn hp
    cases hn
    obtain ⟨ys, hp⟩ := hp
    rw [List.nil_append]
    rcases hb with hb | ⟨x, hb, hc⟩
    · unfold lookupIndices
      rw [EM.bind_ok (indexNumber_none hb)]
      exact ⟨_, rfl⟩
    · unfold lookupIndices
      rw [EM.bind_ok (indexNumber_ok hb).1]
      show ∃ m, EM.bind _ _ st = _
      unfold EM.bind
      rw [readE_some hp]
      cases hx : ys[x.toUsize]? with
      | some v => exact absurd ⟨ys, hp, hx, rfl⟩ (hc (p.down (.idx x.toUsize)) v)
      | none => simp only [hx]; exact ⟨_, rfl⟩
  | @cons p q' r y xs w h1 h2 h5 ih =>
    intro first rest hn hp
    have hq := child_read h1
    obtain ⟨ys, g1, g2, rfl⟩ := h1
    cases first with
    | nil => cases hn
    | cons i first =>
      obtain ⟨h3, h4⟩ := indexNumber_ok hn
      have hne : (first ++ ind :: rest).isEmpty = false := by cases first <;> rfl
      rw [List.cons_append]
      unfold lookupIndices
      rw [EM.bind_ok h3]
      show ∃ m, EM.bind _ _ st = _
      unfold EM.bind
      rw [readE_some g1]
      simp only [g2, hne]
      by_cases ha : ∃ zs, readPlace st.stack (follow (p.down (.idx y.toUsize)) w) = some (.array zs)
      · obtain ⟨m, hm⟩ := ih hu hb (rest := rest) h4 ha
        obtain ⟨zs, hz⟩ := ha
        refine ⟨m, ?_⟩
        rw [← hm]
        show EM.bind _ _ st = _
        unfold EM.bind
        rw [indexNext_ok hq h2 hz]
      · have hz : ∃ z, readPlace st.stack (follow (p.down (.idx y.toUsize)) w) = some z := by
          cases h5 with
          | nil => exact ⟨u, hu⟩
          | cons h _ _ => obtain ⟨ys, h, -⟩ := h; exact ⟨_, h⟩
        obtain ⟨z, hz⟩ := hz
        have h6 := indexNext_none hq h2 hz fun zs h => ha ⟨zs, by rw [hz, h]⟩
        show ∃ m, EM.bind _ _ st = _
        unfold EM.bind
        rw [h6]
        exact ⟨_, rfl⟩

/-- An array of indices that leads to nothing. -/
theorem itemLookup_misled {start j : Nat} {ins last : Bool} {e : Expr} {p : Place} (h : Misled st.stack start j p) :
    ∃ m, itemLookup c p (.expr e) start j ins last st = .err m st := by
  obtain ⟨s, inds, h1, h2, ⟨ys, hy⟩, h3⟩ := h
  have : ∃ m, lookupIndices c s last p inds st = .err m st := by
    rcases h3 with rfl | ⟨first, ind, rest, xs, r, u, rfl, h4, h5, h6, h7⟩
    · exact ⟨_, rfl⟩
    · exact lookupIndices_missing h5 h6 h7 h4 ⟨ys, hy⟩
  obtain ⟨m, hm⟩ := this
  refine ⟨m, ?_⟩
  unfold itemLookup
  rw [EM.bind_ok (readE_some hy)]
  show lookupArray c p ys (.expr e) start j last st = _
  unfold lookupArray
  show EM.bind _ _ st = _
  unfold EM.bind
  rw [slotAt_ok h1 h2]
  show EM.bind _ _ st = _
  unfold EM.bind
  rw [slotE_some h2]
  exact EM.bind_err hm

/-- An array of indices in a property. -/
theorem itemLookup_indices {start j s : Nat} {ins last : Bool} {e : Expr} {p q : Place} {v : Val} (h : ByArray st.stack start j p q v s) :
    itemLookup c p (.expr e) start j ins last st = (indexLast s last q v >>= fun q => pure (q, j)) st := by
  obtain ⟨h1, inds, xs, x, p', h2, h3, h4, h5⟩ := h
  obtain ⟨ys, hy⟩ := along_array h4 (by obtain ⟨ys, h, -⟩ := h5; exact ⟨ys, h⟩)
  unfold itemLookup
  rw [EM.bind_ok (readE_some hy)]
  show lookupArray c p ys (.expr e) start j last st = _
  unfold lookupArray
  show EM.bind _ _ st = EM.bind _ _ st
  unfold EM.bind
  rw [slotAt_ok h1 h2]
  show EM.bind _ _ st = _
  unfold EM.bind
  rw [slotE_some h2]
  show EM.bind _ _ st = _
  unfold EM.bind
  rw [lookupIndices_ok h4 h5 h3]

theorem indexLast_follow {s : Nat} {q : Place} {v u : Val} (hi : ∀ i, v = .ref i → i < s) (hu : readPlace st.stack (follow q v) = some u) :
    indexLast s false q v st = .ok (follow q v) st := by
  cases v with
  | ref i =>
    have h2 : ∃ w, st.stack[i]? = some w := by
      have h : readPlace st.stack ⟨i, []⟩ = some u := hu
      unfold readPlace at h
      cases h3 : st.stack[i]? with
      | none => simp [h3] at h
      | some w => exact ⟨w, rfl⟩
    obtain ⟨w, h2⟩ := h2
    have h3 : prevSlot s i st = .ok w st := by
      unfold prevSlot
      rw [if_pos (hi i rfl)]
      exact slotE_some h2
    show (prevSlot s i >>= fun _ => pure (⟨i, []⟩ : Place)) st = _
    rw [EM.bind_ok h3]
    rfl
  | _ => rfl

end

theorem route_read {stk : Stack} {start : Nat} {p r : Place} {j jr : Nat} {ids idr : List Id} {u : Val} (h : Route stk start p j ids r jr idr)
    (hu : readPlace stk r = some u) : ∃ w, readPlace stk p = some w := by
  cases h with
  | nil => exact ⟨u, hu⟩
  | @key _ _ _ k _ _ _ _ _ _ _ _ hc =>
    cases k with
    | name s => obtain ⟨_, h, -⟩ := hc; exact ⟨_, h⟩
    | num x => obtain ⟨_, h, -⟩ := hc; exact ⟨_, h⟩
  | indices hb =>
    obtain ⟨-, inds, xs, x, p', -, -, h4, h5⟩ := hb
    obtain ⟨ys, hy⟩ := along_array h4 (by obtain ⟨ys, h, -⟩ := h5; exact ⟨ys, h⟩)
    exact ⟨_, hy⟩

theorem route_ne {stk : Stack} {start : Nat} {p r : Place} {j jr : Nat} {ids idr : List Id} (h : Route stk start p j ids r jr idr)
    (hr : idr ≠ []) : ids ≠ [] := by
  cases h with
  | nil => exact hr
  | key => simp
  | indices => simp

theorem walk_route {c : ECfg} {start : Nat} {side : Side} {st : St} {p r : Place} {j jr : Nat} {ids idr : List Id} {u : Val}
    (h : Route st.stack start p j ids r jr idr) (hu : readPlace st.stack r = some u) :
    ∀ i, ∃ i', itemWalk c start side i ids [] p j st = itemWalk c start side i' idr [] r jr st := by
  induction h with
  | nil p => exact fun i => ⟨i, rfl⟩
  | @key p q r k v j j' jr d ds idr hk hc hne hR ih =>
    intro i
    obtain ⟨i', h2⟩ := ih hu (i + 1)
    refine ⟨i', ?_⟩
    rw [← h2]
    obtain ⟨d2, ds2, rfl⟩ : ∃ d2 ds2, ds = d2 :: ds2 := by
      cases ds with
      | nil => exact absurd rfl hne
      | cons d2 ds2 => exact ⟨d2, ds2, rfl⟩
    conv => lhs; unfold itemWalk
    have hl := itemLookup_child (c := c) (ins := side.insert) (last := (d2 :: ds2).isEmpty) hk hc
    rw [EM.bind_ok hl]
    have : (([] : List Nat).head? = some i) = False := by simp
    simp only [this, if_false]
    rw [show (d2 :: ds2).isEmpty = false from rfl, resolveRef_follow]
  | @indices p q r v j jr s e ds idr hb hi hne hs hR ih =>
    intro i
    obtain ⟨i', h2⟩ := ih hu (i + 1)
    refine ⟨i', ?_⟩
    rw [← h2]
    obtain ⟨d2, ds2, rfl⟩ : ∃ d2 ds2, ds = d2 :: ds2 := by
      cases ds with
      | nil => exact absurd rfl hne
      | cons d2 ds2 => exact ⟨d2, ds2, rfl⟩
    conv => lhs; unfold itemWalk
    obtain ⟨w, hw⟩ := route_read hR hu
    have hl : itemLookup c p (.expr e) start j side.insert (d2 :: ds2).isEmpty st = .ok (follow q v, j) st := by
      rw [itemLookup_indices hb, show (d2 :: ds2).isEmpty = false from rfl, EM.bind_ok (indexLast_follow hi hw)]
      rfl
    rw [EM.bind_ok hl]
    have : (([] : List Nat).head? = some i) = False := by simp
    simp only [this, if_false]

/-- An array of indices at the end. -/
theorem walk_indices {c : ECfg} {start : Nat} {side : Side} {st : St} {r q : Place} {v : Val} {i j s : Nat} {e : Expr}
    (h : ByArray st.stack start j r q v s) :
    ∃ i' j', itemWalk c start side i [.expr e] [] r j st = itemWalk c start side i' [] [] q j' st := by
  refine ⟨i + 1, j, ?_⟩
  conv => lhs; unfold itemWalk
  have hl : itemLookup c r (.expr e) start j side.insert ([] : List Id).isEmpty st = .ok (q, j) st := by
    rw [itemLookup_indices h]
    have : indexLast s ([] : List Id).isEmpty q v st = .ok q st := by cases v <;> rfl
    rw [EM.bind_ok this]
    rfl
  rw [EM.bind_ok hl]
  have : (([] : List Nat).head? = some i) = False := by simp
  simp only [this, if_false]

theorem walk_last {c : ECfg} {start : Nat} {side : Side} {st : St} {r q : Place} {k : Key} {v : Val}
    {ids : List Id} {i j : Nat} (hkey : keys st.stack start j ids = some [k]) (hc : Child st.stack r k q v) :
    ∃ i' j', itemWalk c start side i ids [] r j st = itemWalk c start side i' [] [] q j' st := by
  obtain ⟨d, ds, j', rfl, hk, hks⟩ := keys_cons hkey
  obtain rfl := keys_nil hks
  refine ⟨i + 1, j', ?_⟩
  conv => lhs; unfold itemWalk
  have hl := itemLookup_child (c := c) (ins := side.insert) (last := ([] : List Id).isEmpty) hk hc
  rw [EM.bind_ok hl]
  have : (([] : List Nat).head? = some i) = False := by simp
  simp only [this, if_false]
  have : resolveRef q v ([] : List Id).isEmpty = q := by cases v <;> rfl
  rw [this]

theorem pushIds_ok {β} {ev : Evl} {r : Option Val → EM β} {ids : List Id} {k : EM β} {st st' : St}
    (h : Indices ev ids st st') : pushIds ev r ids k st = k st' := by
  induction h with
  | nil => rfl
  | str _ ih => exact ih
  | num _ ih => exact ih
  | expr he _ ih =>
    simp only [pushIds]
    unfold wantK
    rw [EM.bind_ok he]
    exact ih

theorem walk_missing {c : ECfg} {start : Nat} {side : Side} {st : St} {r : Place} {k : Key} {rest : List Key} {u : Val}
    {ids : List Id} {i j : Nat} (hkey : keys st.stack start j ids = some (k :: rest))
    (hu : readPlace st.stack r = some u) (hc : ∀ q v, ¬ Child st.stack r k q v)
    (hi : side.insert = true → rest = [] → ∀ kvs s, u = .object kvs → k ≠ .name s) :
    ∃ m, itemWalk c start side i ids [] r j st = .err m st := by
  obtain ⟨d, ds, j', rfl, hk, hks⟩ := keys_cons hkey
  obtain ⟨m, hm⟩ := itemLookup_missing (c := c) (ins := side.insert) (last := ds.isEmpty) hk hu hc (by
    intro h
    simp only [Bool.and_eq_true, List.isEmpty_iff] at h
    obtain ⟨h1, rfl⟩ := h
    refine hi h1 ?_
    simp only [keys, Option.some.injEq] at hks
    exact hks.symm)
  refine ⟨m, ?_⟩
  conv => lhs; unfold itemWalk
  exact EM.bind_err hm

theorem walk_insert {c : ECfg} {start : Nat} {st : St} {r : Place} {s : String} {kvs : List (String × Val)}
    {ids : List Id} {i j : Nat} (hkey : keys st.stack start j ids = some [.name s])
    (hu : readPlace st.stack r = some (.object kvs)) (hl : kvs.lookup s = none) :
    itemWalk c start (.leftInsert true) i ids [] r j st =
      .ok (true, (some (.unsafeRef (r.down (.key s))), .cont))
        { st with stack := writePlace st.stack r (.object (kvs ++ [(s, .ret)])) } := by
  obtain ⟨d, ds, j', rfl, hk, hks⟩ := keys_cons hkey
  obtain rfl := keys_nil hks
  unfold itemWalk
  have hl' : itemLookup c r d start j (Side.insert (.leftInsert true)) ([] : List Id).isEmpty st = _ :=
    itemLookup_insert (c := c) hk hu hl
  rw [EM.bind_ok hl']
  have : (([] : List Nat).head? = some i) = False := by simp
  simp only [this, if_false]
  rfl

/-! ## The item -/

/-- The variable of an item, without the properties. -/
def Item.bare (it : Item) : Item := .mk it.name it.sid it.current false [] []

theorem EM.bind_inv {α β} {m : EM α} {f : α → EM β} {s s' : St} {b : β} (h : (m >>= f) s = .ok b s') :
    ∃ a s1, m s = .ok a s1 ∧ f a s1 = .ok b s' := by
  have h' : EM.bind m f s = .ok b s' := h
  unfold EM.bind at h'
  cases hm : m s with
  | ok a s1 => rw [hm] at h'; exact ⟨a, s1, rfl, h'⟩
  | err e s1 => rw [hm] at h'; cases h'
  | panic w => rw [hm] at h'; cases h'
  | timeout => rw [hm] at h'; cases h'

theorem slotOf_bare (c : ECfg) (it : Item) (call : CallRec) : slotOf c it.bare call = slotOf c it call := rfl

theorem item_start {c : ECfg} {ev : Evl} {it : Item} {side side' : Side} {st st' : St} {id : Nat}
    (h : itemE c ev it.bare side st = .ok (some (.ref id), .cont) st') (hids : it.ids ≠ []) :
    itemE c ev it side' st' = scope1 (pushIds ev (fun x => pure (false, (x, .ret))) it.ids
      (itemWalk c st'.stack.length side' 0 it.ids it.tryIds ⟨id, []⟩ 0)) st' ∧ st' = st := by
  unfold itemE at h
  obtain ⟨call, s1, h1, g1⟩ := EM.bind_inv h
  clear h
  have e1 : s1 = st := by
    unfold lastCall at h1
    split at h1 <;> cases h1
    rfl
  subst e1
  obtain ⟨i0, s2, h2, g2⟩ := EM.bind_inv g1
  clear g1
  have e2 : s2 = s1 := by
    unfold slotOf at h2
    obtain ⟨s, s3, h3, k2⟩ := EM.bind_inv h2
    cases h3
    split at k2
    · generalize findLast _ _ = o at k2
      cases o with
      | some i => cases k2; rfl
      | none =>
        simp only at k2
        cases hlost : c.lost with
        | some msg => rw [hlost] at k2; cases k2
        | none =>
          rw [hlost] at k2
          simp only at k2
          split at k2 <;> cases k2
    · generalize it.bare.sid = o at k2
      cases o with
      | none => cases k2
      | some d =>
        simp only at k2
        split at k2 <;> cases k2
        rfl
  subst e2
  obtain ⟨i1, s3, h3, g3⟩ := EM.bind_inv g2
  clear g2
  have e3 : s3 = s2 := by
    unfold refSlot at h3
    obtain ⟨v, s4, h4, k3⟩ := EM.bind_inv h3
    have : s4 = s2 := by
      unfold slotE at h4
      split at h4 <;> cases h4
      rfl
    subst this
    split at k3 <;> cases k3 <;> rfl
  subst e3
  have hi : i1 = id ∧ st' = s3 := by
    have h5 : (pure (some (.ref i1), Flow.cont) : EM R) s3 = .ok (some (.ref id), .cont) st' := g3
    cases h5
    exact ⟨rfl, rfl⟩
  obtain ⟨rfl, rfl⟩ := hi
  refine ⟨?_, rfl⟩
  unfold itemE
  rw [slotOf_bare] at h2
  rw [EM.bind_ok h1, EM.bind_ok h2, EM.bind_ok h3]
  cases hd : it.ids with
  | nil => exact absurd hd hids
  | cons d ds => rfl

theorem scope1_yes {α} {m : EM (Bool × α)} {a : α} {st st' : St} (h : m st = .ok (true, a) st') :
    scope1 m st = .ok a { st' with stack := st'.stack.take st.stack.length } := by
  unfold scope1
  have : EM.get st = .ok st st := rfl
  rw [EM.bind_ok this, EM.bind_ok h]
  rfl

theorem scope1_same {α} {m m' : EM (Bool × α)} {st : St} (h : m st = m' st) : scope1 m st = scope1 m' st := by
  unfold scope1
  have hg : EM.get st = .ok st st := rfl
  rw [EM.bind_ok hg, EM.bind_ok hg]
  show EM.bind _ _ st = EM.bind _ _ st
  unfold EM.bind
  rw [h]

theorem scope1_fail {α} {m : EM (Bool × α)} {e : String} {st st' : St} (h : m st = .err e st') :
    scope1 m st = .err e st' := by
  unfold scope1
  have : EM.get st = .ok st st := rfl
  rw [EM.bind_ok this, EM.bind_err h]

/-! ## Truncating -/

theorem readPlace_take {stk : Stack} {q : Place} {n : Nat} (h : q.root < n) :
    readPlace (stk.take n) q = readPlace stk q := by
  simp only [readPlace, List.getElem?_take_of_lt h]

theorem writePlace_take {stk : Stack} {q : Place} {n : Nat} {w : Val} (h : q.root < n) :
    (writePlace stk q w).take n = writePlace (stk.take n) q w := by
  simp only [writePlace, List.getElem?_take_of_lt h]
  cases stk[q.root]? with
  | none => rfl
  | some v => rw [List.take_set]

theorem setPath_down {v u w x : Val} {p : List Step} {s : Step} (h : v.atPath p = some u) (hs : u.step s = some x) :
    v.setPath (p ++ [s]) w = v.setPath p (u.setStep s w) := by
  induction p generalizing v with
  | nil =>
    cases h
    simp only [List.nil_append, Val.setPath, hs]
  | cons t p ih =>
    simp only [Val.atPath] at h
    cases ht : v.step t with
    | none => simp [ht] at h
    | some y =>
      simp only [ht] at h
      simp only [List.cons_append, Val.setPath, ht, ih h]

theorem writePlace_down {stk : Stack} {p : Place} {s : Step} {u w x : Val} (h : readPlace stk p = some u)
    (hs : u.step s = some x) : writePlace stk (p.down s) w = writePlace stk p (u.setStep s w) := by
  simp only [readPlace] at h
  simp only [writePlace, Place.down]
  cases hr : stk[p.root]? with
  | none => simp [hr] at h
  | some v =>
    simp only [hr] at h
    simp only [setPath_down h hs]

end Dyon
