import Verif.Eval.PlaceLemmas
import Verif.Eval.Demo

/-!
# C31: assigning through items updates exactly one place

The specification is in `Verif/Eval/PlaceLemmas.lean`: `Spec.Reach` and `Spec.Child` say
which place a chain of keys and indices addresses, `Spec.Under` which places are inside
another, `Spec.Indices` that the computed properties are evaluated in order.

The theorems about items carry the suffix `_partial`: items with `?` (C26) are not covered, arrays of indices only if nothing is computed
behind them and all references that are met lead to variables below the array of indices (`C31_indices_then_computed`,
`C31_indices_panic`), and a negative index is not an error (`C31_negative_index`).
-/

namespace Dyon

open Spec

/-- **C31**, the write itself: after writing through a pointer the place has the new value;
everything that is not inside the place is as before — the same value, or, for the arrays
and objects around the place, the same length and the same keys. -/
theorem C31_write {stk : Stack} {q : Place} {u w : Val} (h : readPlace stk q = some u) :
    readPlace (writePlace stk q w) q = some w ∧
    (∀ r, ¬ Spec.Under q r → (readPlace (writePlace stk q w) r).map Val.shape = (readPlace stk r).map Val.shape) ∧
    (∀ r, ¬ Spec.Under q r → ¬ Spec.Under r q → readPlace (writePlace stk q w) r = readPlace stk r) ∧
    (writePlace stk q w).length = stk.length := by
  refine ⟨readPlace_writePlace_self h, fun r hr => ?_, fun r hr hr' => ?_, writePlace_length _ _ _⟩
  · simp only [readPlace, writePlace]
    cases hv : stk[q.root]? with
    | none => rfl
    | some v =>
      have hi : q.root < stk.length := (List.getElem?_eq_some_iff.mp hv).1
      by_cases hroot : r.root = q.root
      · rw [hroot]
        simp only [List.getElem?_set_self hi, hv]
        exact atPath_setPath_shape fun hp => hr ⟨hroot, hp⟩
      · simp only [List.getElem?_set_ne (Ne.symm hroot)]
  · simp only [readPlace, writePlace]
    cases hv : stk[q.root]? with
    | none => rfl
    | some v =>
      have hi : q.root < stk.length := (List.getElem?_eq_some_iff.mp hv).1
      by_cases hroot : r.root = q.root
      · rw [hroot]
        simp only [List.getElem?_set_self hi, hv]
        exact atPath_setPath_apart (fun hp => hr ⟨hroot, hp⟩) fun hp => hr' ⟨hroot.symm, hp⟩
      · simp only [List.getElem?_set_ne (Ne.symm hroot)]


variable [FloatOps] [VecMath]

namespace Spec

/-- In the state `st` the item stands for the key `k` (and the keys `rest` behind it) of the
value at the place `r`: its variable alone is the slot `id`; its computed properties are
evaluated, which leaves the state `st2` with their values on top of the stack; and the properties
before `k` lead from the slot to `r`.  `?` is not used in the item. -/
structure Addressed (c : ECfg) (m : Nat) (it : Item) (st st2 : St) (r : Place) (k : Key) (rest : List Key) : Prop where
  no_try : it.tryIds = []
  reach : ∃ id j ids, eval c (m + 1) (.item it.bare) .right st = .ok (some (.ref id), .cont) st ∧
    Indices (eval c m) it.ids st st2 ∧
    Route st2.stack st.stack.length ⟨id, []⟩ 0 it.ids r j ids ∧
    keys st2.stack st.stack.length j ids = some (k :: rest) ∧
    ∃ u, readPlace st2.stack r = some u

/-- In the state `st` the item stands for the place `q` with the value `v`: by its last key, or by an array of indices at its end. -/
inductive Hits (c : ECfg) (m : Nat) (it : Item) (st st2 : St) (q : Place) (v : Val) : Prop
  | key {r : Place} {k : Key} : Addressed c m it st st2 r k [] → Child st2.stack r k q v → Hits c m it st st2 q v
  | indices {id j s : Nat} {r : Place} {e : Expr} : it.tryIds = [] →
      eval c (m + 1) (.item it.bare) .right st = .ok (some (.ref id), .cont) st → Indices (eval c m) it.ids st st2 →
      Route st2.stack st.stack.length ⟨id, []⟩ 0 it.ids r j [.expr e] → ByArray st2.stack st.stack.length j r q v s →
      Hits c m it st st2 q v

/-- In the state `st` the item stands for nothing: a key is not there, or an array of indices leads to nothing.  `ins`: the item is the left
side of `:=`, whose last key may be missing in an object. -/
inductive Misses (c : ECfg) (m : Nat) (it : Item) (st st2 : St) (ins : Bool) : Prop
  | key {r : Place} {k : Key} {rest : List Key} {u : Val} : Addressed c m it st st2 r k rest → readPlace st2.stack r = some u →
      (∀ q v, ¬ Child st2.stack r k q v) → (ins = true → rest = [] → ∀ kvs s, u = .object kvs → k ≠ .name s) → Misses c m it st st2 ins
  | indices {id j : Nat} {r : Place} {e : Expr} {ids : List Id} : it.tryIds = [] →
      eval c (m + 1) (.item it.bare) .right st = .ok (some (.ref id), .cont) st → Indices (eval c m) it.ids st st2 →
      Route st2.stack st.stack.length ⟨id, []⟩ 0 it.ids r j (.expr e :: ids) → Misled st2.stack st.stack.length j r →
      Misses c m it st st2 ins

/-- The state without the values of the computed properties. -/
def back (st st2 : St) : St := { st2 with stack := st2.stack.take st.stack.length }

/-- A value, a reference being replaced by what it refers to. -/
def target (stk : Stack) : Val → Option Val
  | .ref i => stk[i]?
  | v => some v

end Spec

section
variable {c : ECfg} {m : Nat} {it : Item} {st st2 : St} {r q : Place} {k : Key} {rest : List Key} {v : Val} {side : Side}

/-- The walk from the slot of the variable on. -/
theorem routed_item {id : Nat} {j : Nat} {ids : List Id} {u : Val} (hn : it.tryIds = [])
    (h1 : eval c (m + 1) (.item it.bare) .right st = .ok (some (.ref id), .cont) st) (h2 : Indices (eval c m) it.ids st st2)
    (h3 : Route st2.stack st.stack.length ⟨id, []⟩ 0 it.ids r j ids) (hne : ids ≠ []) (hu : readPlace st2.stack r = some u) :
    ∃ i, eval c (m + 1) (.item it) side st = scope1 (fun s0 => itemWalk c s0.stack.length side i ids [] r j st2) st := by
  have h1' : itemE c (eval c m) it.bare .right st = .ok (some (.ref id), .cont) st := h1
  obtain ⟨h5, _⟩ := item_start (side' := side) h1' (route_ne h3 hne)
  obtain ⟨i, h7⟩ := walk_route (c := c) (side := side) h3 hu 0
  refine ⟨i, ?_⟩
  have h8 : eval c (m + 1) (.item it) side st = itemE c (eval c m) it side st := rfl
  rw [h8, h5, hn]
  unfold scope1
  have hg : EM.get st = .ok st st := rfl
  rw [EM.bind_ok hg, EM.bind_ok hg]
  show EM.bind _ _ st = EM.bind _ _ st
  unfold EM.bind
  rw [pushIds_ok h2, h7]

theorem addressed_item (h : Addressed c m it st st2 r k rest) : ∃ i j ids',
    keys st2.stack st.stack.length j ids' = some (k :: rest) ∧
    eval c (m + 1) (.item it) side st =
      scope1 (fun s0 => itemWalk c s0.stack.length side i ids' [] r j st2) st := by
  obtain ⟨hn, id, j, ids, h1, h2, h3, h4, u, hu⟩ := h
  obtain ⟨i, h5⟩ := routed_item (side := side) hn h1 h2 h3 (by rintro rfl; cases h4) hu
  exact ⟨i, j, ids, h4, h5⟩

theorem Spec.Addressed.ids_ne (h : Addressed c m it st st2 r k rest) : it.ids.isEmpty = false := by
  obtain ⟨_, id, j, ids, _, _, h3, h4, -⟩ := h
  have := route_ne h3 (by rintro rfl; cases h4)
  cases hd : it.ids with
  | nil => exact absurd hd this
  | cons _ _ => rfl

theorem Spec.Hits.ids_ne (h : Hits c m it st st2 q v) : it.ids.isEmpty = false := by
  cases h with
  | key h _ => exact h.ids_ne
  | indices _ _ _ h _ =>
    have := route_ne h (by simp)
    cases hd : it.ids with
    | nil => exact absurd hd this
    | cons _ _ => rfl

theorem child_path (hc : Child st2.stack r k q v) : q.path ≠ [] := by
  cases k with
  | name s => obtain ⟨_, _, _, rfl⟩ := hc; simp [Place.down]
  | num x => obtain ⟨_, _, _, rfl⟩ := hc; simp [Place.down]

theorem Spec.Hits.path (h : Hits c m it st st2 q v) : q.path ≠ [] := by
  cases h with
  | key _ hc => exact child_path hc
  | indices _ _ _ _ h => obtain ⟨-, _, _, _, _, _, _, _, hc⟩ := h; exact child_path hc

theorem Spec.Hits.read (h : Hits c m it st st2 q v) : readPlace st2.stack q = some v := by
  cases h with
  | key _ hc => exact child_read hc
  | indices _ _ _ _ h => obtain ⟨-, _, _, _, _, _, _, _, hc⟩ := h; exact child_read hc

theorem hits_item (h : Hits c m it st st2 q v) : ∃ i j,
    eval c (m + 1) (.item it) side st = scope1 (fun s0 => itemWalk c s0.stack.length side i [] [] q j st2) st := by
  cases h with
  | key h hc =>
    obtain ⟨i, j, ids, h1, h2⟩ := addressed_item (side := side) h
    obtain ⟨i', j', h3⟩ := walk_last (c := c) (side := side) (i := i) h1 hc
    exact ⟨i', j', h2.trans (scope1_same h3)⟩
  | @indices id j s r e hn h1 h2 h3 hb =>
    have hu : ∃ u, readPlace st2.stack r = some u := by
      obtain ⟨-, inds, xs, x, p', -, -, h4, h5⟩ := hb
      obtain ⟨ys, hy⟩ := along_array h4 (by obtain ⟨ys, h, -⟩ := h5; exact ⟨ys, h⟩)
      exact ⟨_, hy⟩
    obtain ⟨u, hu⟩ := hu
    obtain ⟨i, h5⟩ := routed_item (side := side) hn h1 h2 h3 (by simp) hu
    obtain ⟨i', j', h6⟩ := walk_indices (c := c) (side := side) (i := i) (e := e) hb
    exact ⟨i', j', h5.trans (scope1_same h6)⟩

/-- **C31**, reading: an item is the value of the addressed element or key; the values of
the computed properties are gone afterwards and nothing else has changed. -/
theorem C31_read_partial (h : Hits c m it st st2 q v) :
    eval c (m + 1) (.item it) .right st = .ok (some v, .cont) (back st st2) := by
  obtain ⟨i, j, h2⟩ := hits_item (side := .right) h
  rw [h2]
  refine scope1_yes ?_
  show itemWalk c st.stack.length _ i [] [] q j st2 = _
  unfold itemWalk
  show EM.bind _ _ st2 = _
  unfold EM.bind
  rw [readE_some h.read]
  rfl

/-- The pointer to an element, for an assignment. -/
theorem hits_left {b : Bool} (h : Hits c m it st st2 q v) :
    eval c (m + 1) (.item it) (.leftInsert b) st = .ok (some (.unsafeRef q), .cont) (back st st2) := by
  obtain ⟨i, j, h2⟩ := hits_item (side := .leftInsert b) h
  rw [h2]
  refine scope1_yes ?_
  show itemWalk c st.stack.length _ i [] [] q j st2 = _
  unfold itemWalk
  rfl

/-- **C31**, errors: a key that is not in the object, an index outside the array, a number
used on an object, a name used on an array, any property of another value and arrays of indices that lead to nothing are
run-time errors, wherever they occur in the item; only the last key of the left side of
`:=` may be missing in an object. -/
theorem C31_missing_partial (h : Misses c m it st st2 side.insert) :
    ∃ e, eval c (m + 1) (.item it) side st = .err e st2 := by
  cases h with
  | key h hu hc hi =>
    obtain ⟨i, j, ids, h1, h2⟩ := addressed_item (side := side) h
    rw [h2]
    obtain ⟨e, h3⟩ := walk_missing (c := c) (side := side) (i := i) h1 hu hc hi
    exact ⟨e, scope1_fail h3⟩
  | @indices id j r e ids hn h1 h2 h3 hm =>
    obtain ⟨ys, hu⟩ : ∃ ys, readPlace st2.stack r = some (.array ys) := by obtain ⟨_, _, _, _, h, _⟩ := hm; exact h
    obtain ⟨i, h5⟩ := routed_item (side := side) hn h1 h2 h3 (by simp) hu
    obtain ⟨m, hm⟩ := itemLookup_misled (c := c) (ins := side.insert) (last := ids.isEmpty) (e := e) hm
    refine ⟨m, ?_⟩
    rw [h5]
    refine scope1_fail ?_
    show itemWalk c st.stack.length _ i _ [] r j st2 = _
    unfold itemWalk
    exact EM.bind_err hm

/-- What an assignment to the place `q` leaves as it was: all variables, elements and keys
that are not inside the place.  Of the arrays and objects around the place the lengths and
keys stay. -/
def OnlyAt (q : Place) (stk stk' : Stack) : Prop :=
  (∀ p, ¬ Under q p → (readPlace stk' p).map Val.shape = (readPlace stk p).map Val.shape) ∧
  (∀ p, ¬ Under q p → ¬ Under p q → readPlace stk' p = readPlace stk p) ∧
  stk'.length = stk.length

theorem readPlace_ref_read {stk : Stack} {i : Nat} {d : Val} (h : target stk (.ref i) = some d) :
    stk[i]? = some d := h

theorem target_deref {st : St} {b d : Val} (h : target st.stack b = some d) : derefE b st = .ok d st := by
  cases b with
  | ref i => exact slotE_some h
  | _ => cases h; rfl

theorem writeE_some {st : St} {p : Place} {v w : Val} (h : readPlace st.stack p = some v) :
    writeE p w st = .ok () { st with stack := writePlace st.stack p w } := by
  simp only [writeE, h]

/-- The pointer, the reference at it being replaced. -/
theorem targetOf_ok {st : St} {q : Place} {v old : Val} (h : readPlace st.stack q = some v)
    (ho : target st.stack v = some old) :
    ∃ stk, targetOf (.unsafeRef q) st = .ok q { st with stack := stk } ∧
      readPlace stk q = some old ∧ (∀ w, writePlace stk q w = writePlace st.stack q w) ∧
      ∀ i, i ≠ q.root → stk[i]? = st.stack[i]? := by
  by_cases hv : ∃ i, v = .ref i
  · obtain ⟨i, rfl⟩ := hv
    refine ⟨writePlace st.stack q old, ?_, readPlace_writePlace_self h, fun w => writePlace_writePlace, ?_⟩
    · simp only [targetOf]
      rw [EM.bind_ok (readE_some h)]
      show (slotE i >>= fun v => writeE q v >>= fun _ => pure q) st = _
      rw [EM.bind_ok (slotE_some ho), EM.bind_ok (writeE_some h)]
      rfl
    · intro j hj
      simp only [writePlace]
      cases st.stack[q.root]? with
      | none => rfl
      | some x => exact List.getElem?_set_ne (Ne.symm hj)
  · refine ⟨st.stack, ?_, ?_, fun _ => rfl, fun _ _ => rfl⟩
    · simp only [targetOf]
      rw [EM.bind_ok (readE_some h)]
      cases v <;> first | rfl | exact absurd ⟨_, rfl⟩ hv
    · rw [h]
      cases v <;> first | exact ho | exact absurd ⟨_, rfl⟩ hv

/-- **C31**, assignment: `x[i].k = v` (and `+=`, `-=`, …).  The right side is evaluated
first, then the computed properties; if the item addresses an element or key `q` and the
operator is defined for its value and the right side, the assignment gives that place the
new value and leaves everything else as it was.  (`hroot`: the addressed variable is not one
of the temporary values; `hself`: the right side is not the variable itself.) -/
theorem C31_assign_partial {op : AssignOp} {right : Expr} {st0 : St} {b old d w : Val} (hop : op ≠ .assign)
    (hright : eval c (m + 1) right .right st0 = .ok (some b, .cont) st)
    (h : Hits c m it st st2 q v) (hroot : q.root < st.stack.length)
    (hself : b ≠ .ref q.root) (hold : target (back st st2).stack v = some old)
    (hb : target (back st st2).stack b = some d) (hw : assignOp op old d = .ok w) :
    ∃ stk', eval c (m + 2) (.assign op (.item it) right) side st0 =
        .ok (none, .cont) { back st st2 with stack := stk' } ∧
      readPlace stk' q = some w ∧ OnlyAt q (back st st2).stack stk' := by
  have hq : readPlace (back st st2).stack q = some v := by
    rw [← h.read]
    exact readPlace_take hroot
  refine ⟨writePlace (back st st2).stack q w, ?_, (C31_write hq).1, (C31_write hq).2.1, (C31_write hq).2.2.1,
    (C31_write hq).2.2.2⟩
  have e1 : eval c (m + 2) (.assign op (.item it) right) side st0 =
      assignSetE (eval c (m + 1)) op (.item it) right st0 := by
    show assignE (eval c (m + 1)) op (.item it) right st0 = _
    unfold assignE
    rw [if_neg hop]
  rw [e1]
  unfold assignSetE
  rw [want_ok hright, want_ok (hits_left h)]
  obtain ⟨stk, t1, t2, t3, t4⟩ := targetOf_ok hq hold
  rw [EM.bind_ok t1]
  unfold assignTo
  have hd : derefE b { back st st2 with stack := stk } = .ok d { back st st2 with stack := stk } := by
    refine target_deref ?_
    cases b with
    | ref i =>
      have : i ≠ q.root := fun hh => hself (by rw [hh])
      show stk[i]? = _
      rw [t4 i this]; exact hb
    | _ => exact hb
  rw [EM.bind_ok hd, EM.bind_ok (readE_some t2)]
  have s1 : selfAppend op q b old = false := by
    unfold selfAppend
    split
    · refine decide_eq_false fun hh => h.path ?_
      rw [hh]
    · rfl
  have s2 : selfContain op q b = false := by
    unfold selfContain
    split
    · rename_i i
      have : q.root ≠ i := fun hh => hself (by rw [hh])
      simp [this]
    · rfl
  simp only [s1, s2, hw]
  show (writeE q w >>= fun _ => noneR) _ = _
  rw [EM.bind_ok (writeE_some t2)]
  simp only [t3]
  rfl

/-- **C31**, `:=` on an object: the key is inserted with the value of the right side, or,
if the object has it already, it gets that value; the other keys of the object and
everything outside of the object stay. -/
theorem C31_insert_partial {right : Expr} {st0 : St} {b d : Val} {s : String} {kvs : List (String × Val)}
    (hright : eval c (m + 1) right .right st0 = .ok (some b, .cont) st) (hb : target st.stack b = some d)
    (h : Addressed c m it st st2 r (.name s) []) (hr : readPlace st2.stack r = some (.object kvs))
    (hroot : r.root < st.stack.length) :
    ∃ stk' kvs', eval c (m + 2) (.assign .assign (.item it) right) side st0 =
        .ok (none, .cont) { back st st2 with stack := stk' } ∧
      readPlace stk' r = some (.object kvs') ∧
      kvs'.lookup s = some d ∧ (∀ s', s' ≠ s → kvs'.lookup s' = kvs.lookup s') ∧
      OnlyAt r (back st st2).stack stk' := by
  have hq : readPlace (back st st2).stack r = some (.object kvs) := by
    rw [← hr]
    exact readPlace_take hroot
  have hids := h.ids_ne
  have e1 : eval c (m + 2) (.assign .assign (.item it) right) side st0 =
      want (eval c (m + 1)) (.item it) (.leftInsert true) "Expected something from the left side"
        (fun y => storeAt y d) st := by
    show assignE (eval c (m + 1)) .assign (.item it) right st0 = _
    unfold assignE
    rw [if_pos rfl]
    unfold declareE
    simp only
    rw [want_ok hright]
    have hs : shallow b st = .ok d st := by
      cases b with
      | ref i => exact slotE_some hb
      | _ => cases hb; rfl
    rw [EM.bind_ok hs]
    simp only [hids]
    rfl
  rw [e1]
  cases hl : kvs.lookup s with
  | some v =>
    have hc : Child st2.stack r (.name s) (r.down (.key s)) v := ⟨kvs, hr, hl, rfl⟩
    rw [want_ok (hits_left (.key h hc))]
    have hv : readPlace (back st st2).stack (r.down (.key s)) = some v := by
      rw [readPlace_down hq]; exact hl
    have hwr : writePlace (back st st2).stack (r.down (.key s)) d =
        writePlace (back st st2).stack r (.object (setKey s d kvs)) := writePlace_down hq hl
    have hW := C31_write (w := .object (setKey s d kvs)) hq
    refine ⟨writePlace (back st st2).stack r (.object (setKey s d kvs)), setKey s d kvs, ?_, hW.1,
      lookup_setKey_self hl, fun s' hs' => lookup_setKey_ne kvs hs', hW.2.1, hW.2.2.1, hW.2.2.2⟩
    show (writeE (r.down (.key s)) d >>= fun _ => noneR) _ = _
    rw [EM.bind_ok (writeE_some hv)]
    simp only [hwr]
    rfl
  | none =>
    have hleft : eval c (m + 1) (.item it) (.leftInsert true) st =
        .ok (some (.unsafeRef (r.down (.key s))), .cont)
          { back st st2 with stack := writePlace (back st st2).stack r (.object (kvs ++ [(s, .ret)])) } := by
      obtain ⟨i, j, ids, h1, h2⟩ := addressed_item (side := .leftInsert true) h
      rw [h2]
      have := scope1_yes (m := fun s0 : St => itemWalk c s0.stack.length (.leftInsert true) i ids [] r j st2) (st := st)
        (walk_insert (c := c) (i := i) h1 hr hl)
      rw [this]
      simp only [back, writePlace_take hroot]
    rw [want_ok hleft]
    have hq2 := (C31_write (w := .object (kvs ++ [(s, .ret)])) hq).1
    have hlk : ∀ x : Val, (kvs ++ [(s, x)]).lookup s = some x := by
      intro x
      rw [List.lookup_append, hl]
      simp
    have hwr := writePlace_down (s := .key s) (w := d) hq2 (hlk .ret)
    rw [writePlace_writePlace] at hwr
    have hset : Val.setStep (.object (kvs ++ [(s, .ret)])) (.key s) d = .object (kvs ++ [(s, d)]) := by
      simp only [Val.setStep]
      congr 1
      clear hwr hlk hq2 hleft hq hids e1 hr
      induction kvs with
      | nil => simp [setKey]
      | cons kv rest ih =>
        obtain ⟨k', v'⟩ := kv
        have hk : (s == k') = false := by
          cases hb : s == k' with
          | false => rfl
          | true => simp [List.lookup, hb] at hl
        simp only [List.lookup, hk] at hl
        have hk' : k' ≠ s := fun hh => by simp [hh] at hk
        simp only [List.cons_append, setKey, if_neg hk', ih hl]
    rw [hset] at hwr
    have hW := C31_write (w := .object (kvs ++ [(s, d)])) hq
    refine ⟨writePlace (back st st2).stack r (.object (kvs ++ [(s, d)])), kvs ++ [(s, d)], ?_, hW.1, hlk d, ?_,
      hW.2.1, hW.2.2.1, hW.2.2.2⟩
    · have hv : readPlace (writePlace (back st st2).stack r (.object (kvs ++ [(s, .ret)]))) (r.down (.key s)) =
          some .ret := by rw [readPlace_down hq2]; exact hlk .ret
      show (writeE (r.down (.key s)) d >>= fun _ => noneR) _ = _
      rw [EM.bind_ok (writeE_some hv)]
      simp only [hwr]
      rfl
    · intro s' hs'
      rw [List.lookup_append]
      have : (s' == s) = false := by simpa using hs'
      simp [List.lookup, this]

/-- **C31**, `:=` on an element of an array, or on a key that is there: it gets the value of the right side. -/
theorem C31_replace_partial {right : Expr} {st0 : St} {b d : Val}
    (hright : eval c (m + 1) right .right st0 = .ok (some b, .cont) st) (hb : target st.stack b = some d)
    (h : Hits c m it st st2 q v) (hroot : q.root < st.stack.length) :
    ∃ stk', eval c (m + 2) (.assign .assign (.item it) right) side st0 =
        .ok (none, .cont) { back st st2 with stack := stk' } ∧
      readPlace stk' q = some d ∧ OnlyAt q (back st st2).stack stk' := by
  have hq : readPlace (back st st2).stack q = some v := by
    rw [← h.read]
    exact readPlace_take hroot
  have hids := h.ids_ne
  refine ⟨writePlace (back st st2).stack q d, ?_, (C31_write hq).1, (C31_write hq).2.1, (C31_write hq).2.2.1,
    (C31_write hq).2.2.2⟩
  show assignE (eval c (m + 1)) .assign (.item it) right st0 = _
  unfold assignE
  rw [if_pos rfl]
  unfold declareE
  simp only
  rw [want_ok hright]
  have hs : shallow b st = .ok d st := by
    cases b with
    | ref i => exact slotE_some hb
    | _ => cases hb; rfl
  rw [EM.bind_ok hs]
  simp only [hids]
  show want _ _ _ _ _ st = _
  rw [want_ok (hits_left h)]
  show (writeE q d >>= fun _ => noneR) _ = _
  rw [EM.bind_ok (writeE_some hq)]
  rfl

/-- **C31**, errors in an assignment: if the left side addresses nothing the assignment is a
run-time error; nothing has been written. -/
theorem C31_assign_missing_partial {op : AssignOp} {right : Expr} {st0 : St} {b : Val} (hop : op ≠ .assign)
    (hright : eval c (m + 1) right .right st0 = .ok (some b, .cont) st) (h : Misses c m it st st2 false) :
    ∃ e, eval c (m + 2) (.assign op (.item it) right) side st0 = .err e st2 := by
  obtain ⟨e, he⟩ := C31_missing_partial (side := .leftInsert false) h
  refine ⟨e, ?_⟩
  show assignE (eval c (m + 1)) op (.item it) right st0 = _
  unfold assignE
  rw [if_neg hop]
  unfold assignSetE
  rw [want_ok hright]
  unfold want wantK
  exact EM.bind_err he

end

/-! ## Cases meeting the hypotheses -/

section
open Demo

/-- `a := {pos: [1, [7]]}; i := 1; s := "pos"` -/
def placeSt : St := { empty with
  stack := [.object [("pos", .array [.ofF64 (F64.ofNat 1), .array [.ofF64 (F64.ofNat 7)]])],
    .ofF64 (F64.ofNat 1), .str "pos"]
  calls := [⟨"main", 0, none, 0, 0, 0⟩] }

/-- `a[s][i][0]` -/
def placeItem : Item := .mk "a" (some 3) false false
  [.expr (var "s" 1), .expr (var "i" 3), .num (F64.ofNat 0)] []

/-- The state with the values of `s` and `i` pushed. -/
def placeSt2 : St := { placeSt with stack := placeSt.stack ++ [.ref 2, .ref 1] }

set_option maxRecDepth 20000 in
theorem placeAddressed : Addressed (cfg []) 5 placeItem placeSt placeSt2
    ⟨0, [.key "pos", .idx 1]⟩ (.num (F64.ofNat 0)) [] := by
  refine ⟨rfl, 0, 2, [.num (F64.ofNat 0)], rfl, ?_, ?_, rfl, _, rfl⟩
  · exact .expr (x := .ref 2) (st1 := placeSt) rfl (.expr (x := .ref 1)
      (st1 := { placeSt with stack := placeSt.stack ++ [.ref 2] }) rfl (.num (.nil _)))
  · refine .key (k := .name "pos") (q := ⟨0, [.key "pos"]⟩) (v := .array [.ofF64 (F64.ofNat 1), .array [.ofF64 (F64.ofNat 7)]])
      rfl ⟨_, rfl, rfl, rfl⟩ (by simp) (.key (k := .num (F64.ofNat 1)) (q := ⟨0, [.key "pos", .idx 1]⟩) (v := .array [.ofF64 (F64.ofNat 7)])
      rfl ⟨_, rfl, rfl, rfl⟩ (by simp) (.nil _ _ _))

set_option maxRecDepth 20000 in
/-- `a[s][i][0] = 5` -/
example : ∃ stk', eval (cfg []) 7 (.assign .set (.item placeItem) (num 5)) .right placeSt =
      .ok (none, .cont) { back placeSt placeSt2 with stack := stk' } ∧
    readPlace stk' ⟨0, [.key "pos", .idx 1, .idx 0]⟩ = some (.ofF64 (F64.ofNat 5)) ∧
    OnlyAt ⟨0, [.key "pos", .idx 1, .idx 0]⟩ (back placeSt placeSt2).stack stk' :=
  C31_assign_partial (by decide) (st := placeSt) (b := .ofF64 (F64.ofNat 5)) rfl
    (v := .ofF64 (F64.ofNat 7)) (.key placeAddressed ⟨_, rfl, rfl, rfl⟩) (by decide) (by intro h; cases h) rfl rfl rfl

/-- `a.vel` -/
def insertItem : Item := .mk "a" (some 3) false false [.str "vel"] []

theorem insertAddressed : Addressed (cfg []) 5 insertItem placeSt placeSt ⟨0, []⟩ (.name "vel") [] :=
  ⟨rfl, 0, 0, [.str "vel"], rfl, .str (.nil _), .nil _ _ _, rfl, _, rfl⟩

/-- `a.vel := s` -/
example : ∃ stk' kvs', eval (cfg []) 7 (.assign .assign (.item insertItem) (var "s" 1)) .right placeSt =
      .ok (none, .cont) { back placeSt placeSt with stack := stk' } ∧
    readPlace stk' ⟨0, []⟩ = some (.object kvs') ∧
    kvs'.lookup "vel" = some (.str "pos") ∧ (∀ s', s' ≠ "vel" → kvs'.lookup s' =
      [("pos", Val.array [.ofF64 (F64.ofNat 1), .array [.ofF64 (F64.ofNat 7)]])].lookup s') ∧
    OnlyAt ⟨0, []⟩ (back placeSt placeSt).stack stk' :=
  C31_insert_partial (st := placeSt) (b := .ref 2) rfl rfl insertAddressed rfl (by decide)

/-- `a.vel = 1` is an error. -/
example : ∃ e, eval (cfg []) 7 (.assign .set (.item insertItem) (num 1)) .right placeSt = .err e placeSt :=
  C31_assign_missing_partial (by decide) (st := placeSt) (b := .ofF64 (F64.ofNat 1)) rfl
    (.key insertAddressed rfl (fun q v h => by obtain ⟨kvs, h1, h2, _⟩ := h; cases h1; cases h2) fun h => by cases h)

end

/-! ### Arrays of indices -/

section
open Demo

/-- `x := 1; y := [1, 2]; a := [[x, y]]; i := [0, x]` -/
def arraySt : St := { empty with
  stack := [.ofF64 (F64.ofNat 1), .array [.ofF64 (F64.ofNat 1), .ofF64 (F64.ofNat 2)],
    .array [.array [.ref 0, .ref 1]], .array [.ofF64 (F64.ofNat 0), .ref 0]]
  calls := [⟨"main", 0, none, 0, 0, 0⟩] }

/-- The state with the value of `i` pushed. -/
def arraySt2 : St := { arraySt with stack := arraySt.stack ++ [.ref 3] }

theorem arrayNumbers : Numbers arraySt2.stack 3 [.ofF64 (F64.ofNat 0), .ref 0] ([F64.ofNat 0] ++ [F64.ofNat 1]) :=
  .num (.ref (by decide) rfl .nil)

set_option maxRecDepth 20000 in
theorem arrayBy : ByArray arraySt2.stack arraySt.stack.length 0 ⟨2, []⟩ ⟨2, [.idx 0, .idx 1]⟩ (.ref 1) 3 :=
  ⟨rfl, _, _, _, ⟨2, [.idx 0]⟩, rfl, arrayNumbers, .cons (q := ⟨2, [.idx 0]⟩) (v := .array [.ref 0, .ref 1]) ⟨_, rfl, rfl, rfl⟩
    (fun _ h => by cases h) (.nil _), _, rfl, rfl, rfl⟩

set_option maxRecDepth 20000 in
/-- `a[i] = 5` puts 5 into `a[0][1]`, where a reference was. -/
example : ∃ stk', eval (cfg []) 7 (.assign .set (.item (.mk "a" (some 2) false false [.expr (var "i" 1)] [])) (.item (.mk "y" (some 3) false false [] [])))
      .right arraySt = .ok (none, .cont) { back arraySt arraySt2 with stack := stk' } ∧
    readPlace stk' ⟨2, [.idx 0, .idx 1]⟩ = some (.array [.ofF64 (F64.ofNat 1), .ofF64 (F64.ofNat 2)]) ∧
    OnlyAt ⟨2, [.idx 0, .idx 1]⟩ (back arraySt arraySt2).stack stk' :=
  C31_assign_partial (by decide) (st := arraySt) (b := .ref 1) rfl
    (.indices rfl (id := 2) rfl (.expr (x := .ref 3) (st1 := arraySt) rfl (.nil _)) (.nil _ _ _) arrayBy) (by decide)
    (by intro h; cases h) (old := .array [.ofF64 (F64.ofNat 1), .ofF64 (F64.ofNat 2)]) rfl rfl rfl

set_option maxRecDepth 20000 in
/-- `a[i][1]` is `y[1]`. -/
example : eval (cfg []) 6 (.item (.mk "a" (some 2) false false [.expr (var "i" 1), .num (F64.ofNat 1)] [])) .right arraySt =
    .ok (some (.ofF64 (F64.ofNat 2)), .cont) (back arraySt arraySt2) :=
  C31_read_partial (q := ⟨1, [.idx 1]⟩) (.key (r := ⟨1, []⟩) (k := .num (F64.ofNat 1)) ⟨rfl, 2, 0, [.num (F64.ofNat 1)], rfl,
    .expr (x := .ref 3) (st1 := arraySt) rfl (.num (.nil _)),
    .indices arrayBy (by intro i h; cases h; decide) (by simp) (by simp) (.nil _ _ _), rfl, _, rfl⟩ ⟨_, rfl, rfl, rfl⟩)

set_option maxRecDepth 20000 in
/-- `a[[0, 1, 5]]` is an error. -/
example : ∃ e s, eval (cfg []) 7 (.item (.mk "a" (some 2) false false
      [.expr (.array [num 0, num 1, num 5])] [])) .right arraySt = .err e s :=
  ⟨_, { arraySt with stack := arraySt.stack ++ [.array [.ofF64 (F64.ofNat 0), .ofF64 (F64.ofNat 1), .ofF64 (F64.ofNat 5)]] },
    (C31_missing_partial (side := .right) (.indices rfl (id := 2) rfl (.expr (st1 := arraySt) rfl (.nil _)) (.nil _ _ _)
      ⟨4, _, rfl, rfl, ⟨_, rfl⟩, .inr ⟨[.ofF64 (F64.ofNat 0), .ofF64 (F64.ofNat 1)], .ofF64 (F64.ofNat 5), [], _, ⟨1, []⟩, _, rfl,
        .num (.num .nil), .cons (q := ⟨2, [.idx 0]⟩) (v := .array [.ref 0, .ref 1]) ⟨_, rfl, rfl, rfl⟩ (fun _ h => by cases h)
          (.cons (q := ⟨2, [.idx 0, .idx 1]⟩) (v := .ref 1) ⟨_, rfl, rfl, rfl⟩ (fun _ h => by cases h; decide) (.nil _)), rfl,
        .inr ⟨_, .num .nil, fun q v h => by obtain ⟨ys, h1, h2, _⟩ := h; cases h1; cases h2⟩⟩⟩)).choose_spec⟩

end

/-! ## Findings -/

section
open Demo

/-- `a := [[[1, 2]]]; i := [0, 0]; k := 1` -/
def indicesSt : St := { empty with
  stack := [.array [.array [.array [.ofF64 (F64.ofNat 1), .ofF64 (F64.ofNat 2)]]],
    .array [.ofF64 (F64.ofNat 0), .ofF64 (F64.ofNat 0)], .ofF64 (F64.ofNat 1)]
  calls := [⟨"main", 0, none, 0, 0, 0⟩] }

set_option maxRecDepth 20000 in
/-- An array of indices stands for several indices, `a[[0, 0]]` is `a[0][0]`; but another
computed property behind it does not work: `a[i][k]`, with `i = [0, 0]` and `k = 1`, reads
the array of indices a second time instead of `k` and is an error, although `a[0][0][k]` is
the number 2. -/
theorem C31_indices_then_computed :
    eval (cfg []) 5 (.item (.mk "a" (some 3) false false [.expr (var "i" 2)] [])) .right indicesSt =
      .ok (some (.array [.ofF64 (F64.ofNat 1), .ofF64 (F64.ofNat 2)]), .cont) indicesSt ∧
    eval (cfg []) 5 (.item (.mk "a" (some 3) false false
      [.num (F64.ofNat 0), .num (F64.ofNat 0), .expr (var "k" 1)] [])) .right indicesSt =
      .ok (some (.ofF64 (F64.ofNat 2)), .cont) indicesSt ∧
    ∃ e s, eval (cfg []) 5 (.item (.mk "a" (some 3) false false [.expr (var "i" 2), .expr (var "k" 2)] []))
      .right indicesSt = .err e s := by
  refine ⟨rfl, rfl, ?_⟩
  exact ⟨_, _, rfl⟩

/-- `i := [0, 0]; x := [5]; a := [x]` -/
def laterSt : St := { empty with
  stack := [.array [.ofF64 (F64.ofNat 0), .ofF64 (F64.ofNat 0)], .array [.ofF64 (F64.ofNat 5)], .array [.ref 1]]
  calls := [⟨"main", 0, none, 0, 0, 0⟩] }

set_option maxRecDepth 20000 in
/-- References to variables that were declared after the array of indices are not found: `a[0][0]` is 5, but `a[i]` crashes the program
(`prev_stack` has only the slots below `i`). -/
theorem C31_indices_panic :
    eval (cfg []) 5 (.item (.mk "a" (some 1) false false [.num (F64.ofNat 0), .num (F64.ofNat 0)] [])) .right laterSt =
      .ok (some (.ofF64 (F64.ofNat 5)), .cont) laterSt ∧
    eval (cfg []) 5 (.item (.mk "a" (some 1) false false [.expr (var "i" 3)] [])) .right laterSt = .panic "index out of bounds" :=
  ⟨rfl, rfl⟩

set_option maxRecDepth 20000 in
/-- A negative index is not out of range: `a[-1]` is the first element. -/
theorem C31_negative_index :
    eval (cfg []) 5 (.item (.mk "a" (some 3) false false [.num (0xBFF0000000000000 : BitVec 64)] [])) .right indicesSt =
      .ok (some (.array [.array [.ofF64 (F64.ofNat 1), .ofF64 (F64.ofNat 2)]]), .cont) indicesSt := rfl

/-- `s := "ab"; a := [s]` — the array holds a reference. -/
def refSt : St := { empty with
  stack := [.str "ab", .array [.ref 0, .str "x"]], calls := [⟨"main", 0, none, 0, 0, 0⟩] }

set_option maxRecDepth 20000 in
/-- A variable put into an array is there as a reference: reading through the array reads
the variable, but assigning to the element replaces the reference by a copy first, so the
variable keeps its value. -/
theorem C31_reference_replaced :
    eval (cfg []) 5 (.assign .add (.item (.mk "a" (some 1) false false [.num (F64.ofNat 0)] [])) (str "c")) .right
      refSt = .ok (none, .cont) { refSt with stack := [.str "ab", .array [.str "abc", .str "x"]] } := rfl

end

end Dyon
