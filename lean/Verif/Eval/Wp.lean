import Verif.Eval.WF

/-!
# Reasoning about the evaluation monad

Lemmas: a weakest-precondition calculus and the relations of `WF`.
-/

namespace Dyon

/-- `Q` holds after a result, `E` after an error. -/
def wp {α} (m : EM α) (Q : α → St → Prop) (E : St → Prop) (st : St) : Prop :=
  match m st with
  | .ok a s => Q a s
  | .err _ s => E s
  | _ => True

section
variable {α β : Type} {Q Q' : α → St → Prop} {E E' : St → Prop} {st : St}

theorem wp_bind {m : EM α} {f : α → EM β} {Q : β → St → Prop}
    (h : wp m (fun a s => wp (f a) Q E s) E st) : wp (m >>= f) Q E st := by
  show wp (EM.bind m f) Q E st
  simp only [wp, EM.bind] at *
  cases hm : m st <;> simp_all

theorem wp_mono {m : EM α} (h : wp m Q E st) (hq : ∀ a s, Q a s → Q' a s)
    (he : ∀ s, E s → E' s) : wp m Q' E' st := by
  simp only [wp] at *
  cases hm : m st <;> simp_all

theorem wp_and {m : EM α} {E'} (h : wp m Q E st) (h' : wp m Q' E' st) :
    wp m (fun a s => Q a s ∧ Q' a s) (fun s => E s ∧ E' s) st := by
  simp only [wp] at *
  cases hm : m st <;> simp_all

theorem wp_pure {a : α} (h : Q a st) : wp (pure a) Q E st := h
theorem wp_errT {msg} (h : E st) : wp (errT msg : EM α) Q E st := h
theorem wp_errCaller {msg} (h : E st) : wp (errCaller msg : EM α) Q E st := by
  unfold wp errCaller
  cases hc : st.calls.getLast? with
  | none => simp [lastCall, hc, bind, EM.bind]
  | some r => simpa [lastCall, hc, bind, EM.bind, errT] using h
theorem wp_fail {msg} (h : E st) : wp (EM.fail msg : EM α) Q E st := h
theorem wp_panic {msg} : wp (EM.panic msg : EM α) Q E st := trivial
theorem wp_timeout : wp (EM.timeout : EM α) Q E st := trivial
theorem wp_get {Q : St → St → Prop} (h : Q st st) : wp EM.get Q E st := h
theorem wp_modify {f} {Q : Unit → St → Prop} (h : Q () (f st)) : wp (EM.modify f) Q E st := h
theorem wp_errExpected {v ty} (h : E st) : wp (errExpected v ty : EM α) Q E st := h
theorem wp_errExpected2 {v ty} (h : E st) : wp (errExpected2 v ty : EM α) Q E st := h
theorem wp_errIndices (h : E st) : wp (errIndices : EM α) Q E st := h
theorem wp_errBounds {c x} (h : E st) : wp (errBounds c x : EM α) Q E st := h

theorem wp_ite {p : Prop} [Decidable p] {a b : EM α} (h : p → wp a Q E st) (h' : ¬p → wp b Q E st) :
    wp (if p then a else b) Q E st := by
  split <;> simp_all

end

/-! ## Relations -/

theorem Same.rfl {a : St} : Same a a := ⟨by rfl, by rfl, by rfl, by rfl, by rfl⟩
theorem Same.trans {a b d : St} (h : Same a b) (h' : Same b d) : Same a d :=
  ⟨h'.1.trans h.1, h'.2.trans h.2, h'.3.trans h.3, h'.4.trans h.4, h'.5.trans h.5⟩
theorem Same.ext {a b : St} (h : Same a b) : Ext a b :=
  ⟨h.1, h.2, h.3 ▸ List.prefix_rfl, h.4 ▸ List.prefix_rfl, h.5.ge⟩
theorem Ext.rfl {a : St} : Ext a a := Same.rfl.ext
theorem Ext.trans {a b d : St} (h : Ext a b) (h' : Ext b d) : Ext a d :=
  ⟨h'.1.trans h.1, h'.2.trans h.2, h.3.trans h'.3, h.4.trans h'.4, h.5.trans h'.5⟩
theorem Ext.extE {a b : St} (h : Ext a b) : ExtE a b :=
  ⟨h.1, h.2 ▸ List.prefix_rfl, h.3, h.4, h.5⟩
theorem Same.extE {a b : St} (h : Same a b) : ExtE a b := h.ext.extE
theorem ExtE.rfl {a : St} : ExtE a a := Same.rfl.extE
theorem ExtE.trans {a b d : St} (h : ExtE a b) (h' : ExtE b d) : ExtE a d :=
  ⟨h'.1.trans h.1, h.2.trans h'.2, h.3.trans h'.3, h.4.trans h'.4, h.5.trans h'.5⟩
theorem Ext.transE {a b d : St} (h : Ext a b) (h' : ExtE b d) : ExtE a d := h.extE.trans h'
theorem Same.transE {a b d : St} (h : Same a b) (h' : ExtE b d) : ExtE a d := h.extE.trans h'
theorem Same.transExt {a b d : St} (h : Same a b) (h' : Ext b d) : Ext a d := h.ext.trans h'
theorem Ext.transSame {a b d : St} (h : Ext a b) (h' : Same b d) : Ext a d := h.trans h'.ext
theorem Same.rel {a b : St} (h : Same a b) : b.rel = a.rel := by simp [St.rel, h.calls]
theorem Ext.rel {a b : St} (h : Ext a b) : b.rel = a.rel := by simp [St.rel, h.calls]

theorem prefix_take {α} {a b : List α} (h : a <+: b) : b.take a.length = a := by
  obtain ⟨t, rfl⟩ := h; simp

/-- Cutting everything back gives the old state. -/
theorem Ext.cut3 {a b : St} (h : Ext a b) : Same a { b with
    stack := b.stack.take a.stack.length, locals := b.locals.take a.locals.length,
    currents := b.currents.take a.currents.length } :=
  ⟨h.1, h.2, prefix_take h.3, prefix_take h.4, by simpa using h.5⟩

theorem ExtE.cut4 {a b : St} (h : ExtE a b) : Same a { b with
    calls := b.calls.take a.calls.length
    stack := b.stack.take a.stack.length, locals := b.locals.take a.locals.length,
    currents := b.currents.take a.currents.length } :=
  ⟨h.1, prefix_take h.2, prefix_take h.3, prefix_take h.4, by simpa using h.5⟩

/-! ## Actions that only read, write and count -/

/-- The action changes nothing but the contents of the stack and what is shared with other
threads. -/
structure Quiet {α} (m : EM α) : Prop where
  run : ∀ st, wp m (fun _ s => Same st s ∧ s.closures = st.closures)
    (fun s => Same st s ∧ s.closures = st.closures) st

theorem Quiet.pure {α} (a : α) : Quiet (pure a : EM α) := ⟨fun _ => ⟨.rfl, rfl⟩⟩
theorem Quiet.errT {α} (m) : Quiet (errT m : EM α) := ⟨fun _ => ⟨.rfl, rfl⟩⟩
theorem Quiet.fail {α} (m) : Quiet (EM.fail m : EM α) := ⟨fun _ => ⟨.rfl, rfl⟩⟩
theorem Quiet.panic {α} (m) : Quiet (EM.panic m : EM α) := ⟨fun _ => trivial⟩
theorem Quiet.errExpected {α} (v ty) : Quiet (errExpected v ty : EM α) := ⟨fun _ => ⟨.rfl, rfl⟩⟩
theorem Quiet.errExpected2 {α} (v ty) : Quiet (errExpected2 v ty : EM α) := ⟨fun _ => ⟨.rfl, rfl⟩⟩
theorem Quiet.errIndices {α} : Quiet (errIndices : EM α) := ⟨fun _ => ⟨.rfl, rfl⟩⟩
theorem Quiet.errBounds {α} (c x) : Quiet (errBounds c x : EM α) := ⟨fun _ => ⟨.rfl, rfl⟩⟩
theorem Quiet.get : Quiet EM.get := ⟨fun _ => ⟨.rfl, rfl⟩⟩
theorem Quiet.relIndex : Quiet relIndex := ⟨fun _ => ⟨.rfl, rfl⟩⟩
theorem Quiet.slotE (i) : Quiet (slotE i) := by
  constructor; intro st; simp only [wp, Dyon.slotE]; cases st.stack[i]? <;> first | exact ⟨.rfl, rfl⟩ | trivial
theorem Quiet.lastCall : Quiet lastCall := by
  constructor; intro st; simp only [wp, Dyon.lastCall]
  cases st.calls.getLast? <;> first | exact ⟨.rfl, rfl⟩ | trivial
theorem Quiet.readE (p) : Quiet (readE p) := by
  constructor; intro st; simp only [wp, Dyon.readE]
  cases readPlace st.stack p <;> first | exact ⟨.rfl, rfl⟩ | trivial
theorem Quiet.cloneE (n v) : Quiet (cloneE n v) := by
  constructor; intro st; simp only [wp, Dyon.cloneE]
  cases deepClone st.stack n v <;> first | exact ⟨.rfl, rfl⟩ | trivial
theorem Quiet.liftOp (r) : Quiet (liftOp r) := by
  constructor; intro st; cases r <;> exact ⟨.rfl, rfl⟩
theorem writePlace_length (st : Stack) (p : Place) (w : Val) :
    (writePlace st p w).length = st.length := by
  simp only [writePlace]; split <;> simp
theorem Quiet.writeE (p v) : Quiet (writeE p v) := by
  constructor; intro st; simp only [wp, Dyon.writeE]
  cases readPlace st.stack p
  · trivial
  · exact ⟨⟨rfl, rfl, rfl, rfl, writePlace_length _ _ _⟩, rfl⟩
theorem Quiet.recvE (c ch) : Quiet (recvE c ch) := by
  constructor; intro st; simp only [wp, Dyon.recvE]
  cases (sync c st).queues ch <;> exact ⟨⟨rfl, rfl, rfl, rfl, rfl⟩, rfl⟩
theorem Quiet.bind {α β} {m : EM α} {f : α → EM β} (hm : Quiet m) (hf : ∀ a, Quiet (f a)) :
    Quiet (m >>= f) := by
  constructor; intro st
  refine wp_bind (wp_mono (hm.run st) (fun a s hs => ?_) fun s hs => hs)
  exact wp_mono ((hf a).run s) (fun _ t ht => ⟨hs.1.trans ht.1, ht.2.trans hs.2⟩)
    fun t ht => ⟨hs.1.trans ht.1, ht.2.trans hs.2⟩
theorem Quiet.ite {α} {p : Prop} [Decidable p] {a b : EM α} (ha : Quiet a) (hb : Quiet b) :
    Quiet (if p then a else b) := by split <;> assumption

/-- Cuts the goal that an action is quiet into pieces. -/
macro "quiet" : tactic => `(tactic| repeat' first
  | assumption
  | exact Quiet.pure _
  | exact Quiet.errT _
  | exact Quiet.fail _
  | exact Quiet.panic _
  | exact Quiet.errExpected _ _
  | exact Quiet.errExpected2 _ _
  | exact Quiet.errIndices
  | exact Quiet.errBounds _ _
  | exact Quiet.get
  | exact Quiet.relIndex
  | exact Quiet.slotE _
  | exact Quiet.lastCall
  | exact Quiet.readE _
  | exact Quiet.writeE _ _
  | exact Quiet.cloneE _ _
  | exact Quiet.liftOp _
  | exact Quiet.recvE _ _
  | refine Quiet.bind ?_ fun _ => ?_
  | refine Quiet.ite ?_ ?_
  | split)

theorem Quiet.derefE (v) : Quiet (derefE v) := by unfold Dyon.derefE; quiet
theorem Quiet.prevSlot (a b) : Quiet (prevSlot a b) := by unfold Dyon.prevSlot; quiet
theorem Quiet.computedSlot (a b) : Quiet (computedSlot a b) := by unfold Dyon.computedSlot; quiet
theorem Quiet.indexNumber (a b) : Quiet (indexNumber a b) := by
  unfold Dyon.indexNumber; have := @Quiet.prevSlot; split <;> quiet <;> exact this _ _
theorem Quiet.indexNext (a b d) : Quiet (indexNext a b d) := by
  unfold Dyon.indexNext; have := @Quiet.prevSlot; split <;> quiet <;> exact this _ _
theorem Quiet.indexLast (a b d e) : Quiet (indexLast a b d e) := by
  unfold Dyon.indexLast
  split
  · exact .ite (.pure _) (.bind (.prevSlot _ _) fun _ => .pure _)
  · exact .pure _
theorem Quiet.lookupIndices (c id last) (p l) : Quiet (lookupIndices c id last p l) := by
  induction l generalizing p with
  | nil => exact Quiet.errIndices
  | cons i l ih =>
    rw [Dyon.lookupIndices]
    refine .bind (.indexNumber _ _) fun o => ?_
    cases o with
    | none => exact Quiet.errIndices
    | some x =>
      refine .bind (.readE _) fun v => ?_
      split
      · split
        · exact .errBounds _ _
        · refine .ite (.indexLast _ _ _ _) (.bind (.indexNext _ _ _) fun o => ?_)
          cases o with
          | none => exact Quiet.errIndices
          | some q => exact ih q
      · exact .panic _
theorem Quiet.objectKey (a b d) : Quiet (objectKey a b d) := by
  unfold Dyon.objectKey; have := @Quiet.computedSlot; split <;> quiet <;> exact this _ _
theorem Quiet.lookupObject (p kvs prop sl j i l) : Quiet (lookupObject p kvs prop sl j i l) := by
  unfold Dyon.lookupObject
  refine .bind (.objectKey _ _ _) fun _ => ?_
  quiet
theorem Quiet.lookupIndex (c p xs x j l) : Quiet (lookupIndex c p xs x j l) := by
  unfold Dyon.lookupIndex; quiet
theorem Quiet.lookupArray (c p xs prop sl j l) : Quiet (lookupArray c p xs prop sl j l) := by
  unfold Dyon.lookupArray
  split
  · exact .lookupIndex ..
  · refine .bind (.computedSlot _ _) fun id => .bind (.slotE _) fun v => ?_
    split
    · exact .lookupIndex ..
    · exact .bind (.lookupIndices ..) fun _ => .pure _
    · exact .errT _
  · exact .errT _
theorem Quiet.itemLookup (c p prop sl j i l) : Quiet (itemLookup c p prop sl j i l) := by
  unfold Dyon.itemLookup
  refine .bind (.readE _) fun v => ?_
  split
  · exact .lookupObject ..
  · exact .lookupArray ..
  · exact .errT _
theorem Quiet.propagate (m t) : Quiet (propagate m t) := by
  unfold Dyon.propagate; quiet
theorem Quiet.tryVal (v) : Quiet (tryVal v) := by
  unfold Dyon.tryVal; split
  · exact .errT _
  · exact .pure _
  · exact .propagate ..
theorem Quiet.itemWalk (c sl side i l t p j) : Quiet (itemWalk c sl side i l t p j) := by
  induction l generalizing i t p j with
  | nil => unfold Dyon.itemWalk; quiet
  | cons x l ih =>
    unfold Dyon.itemWalk
    refine .bind (.itemLookup ..) fun q => .ite (.bind (.readE _) fun v => ?_) (ih ..)
    split
    · exact .errT _
    · exact .bind (.writeE _ _) fun _ => ih ..
    · exact .bind (.propagate ..) fun _ => .pure _
theorem Quiet.refSlot (id) : Quiet (refSlot id) := by unfold Dyon.refSlot; quiet
theorem Quiet.slotOf (c it call) : Quiet (slotOf c it call) := by unfold Dyon.slotOf; quiet
theorem Quiet.targetOf (a) : Quiet (targetOf a) := by unfold Dyon.targetOf; quiet
theorem Quiet.noneR : Quiet noneR := .pure _
theorem Quiet.assignTo [FloatOps] [VecMath] (op p b) : Quiet (assignTo op p b) := by
  unfold Dyon.assignTo
  refine .bind (.derefE _) fun d => .bind (.readE _) fun n => .ite (.panic _) (.ite (.panic _) ?_)
  split
  · exact .bind (.writeE _ _) fun _ => .noneR
  · exact .errT _
  · exact .panic _
theorem Quiet.shallow (a) : Quiet (shallow a) := by unfold Dyon.shallow; quiet
theorem Quiet.storeAt (x v) : Quiet (storeAt x v) := by
  unfold Dyon.storeAt
  split
  · exact .bind (.writeE _ _) fun _ => .noneR
  · exact .panic _
theorem Quiet.cloneAll (n vs) : Quiet (cloneAll n vs) := by
  induction vs with
  | nil => exact .pure _
  | cons v vs ih => exact .bind (.cloneE _ _) fun _ => .bind ih fun _ => .pure _
theorem Quiet.notify (c n i st) : Quiet (notify c n i st) := by
  unfold Dyon.notify
  refine .bind .get fun s => .ite (.bind (.cloneAll _ _) fun msg => ?_) (.pure _)
  exact ⟨fun st => ⟨⟨rfl, rfl, rfl, rfl, rfl⟩, rfl⟩⟩
theorem Quiet.closureOf (v) : Quiet (closureOf v) := by
  unfold Dyon.closureOf
  refine .bind (.derefE _) fun _ => ?_
  split
  · refine .bind .get fun s => ?_
    split
    · exact .pure _
    · exact .panic _
  · exact .bind .get fun _ => .errT _
theorem Quiet.lazyCheck (x l) : Quiet (lazyCheck x l) := by
  unfold Dyon.lazyCheck; exact .ite (.pure _) (.bind (.derefE _) fun _ => .pure _)
theorem Quiet.incSlot [FloatOps] (i) : Quiet (incSlot i) := by unfold Dyon.incSlot; quiet
theorem Quiet.accSum [FloatOps] (a d) : Quiet (accSum a d) := by unfold Dyon.accSum; quiet
theorem Quiet.accProd [FloatOps] (a d) : Quiet (accProd a d) := by unfold Dyon.accProd; quiet
theorem Quiet.accSumVec4 [FloatOps] (a d) : Quiet (accSumVec4 a d) := by
  unfold Dyon.accSumVec4; quiet
theorem Quiet.accProdVec4 [FloatOps] (a d) : Quiet (accProdVec4 a d) := by
  unfold Dyon.accProdVec4; quiet
theorem Quiet.accMin (i a d) : Quiet (accMin i a d) := by unfold Dyon.accMin; quiet
theorem Quiet.accMax (i a d) : Quiet (accMax i a d) := by unfold Dyon.accMax; quiet
theorem Quiet.accAny (i a d) : Quiet (accAny i a d) := by unfold Dyon.accAny; quiet
theorem Quiet.accAll (i a d) : Quiet (accAll i a d) := by unfold Dyon.accAll; quiet
theorem Quiet.accSift (a d) : Quiet (accSift a d) := by unfold Dyon.accSift; quiet
theorem Quiet.forStepN [FloatOps] (k : ForKind) (i a x) : Quiet (k.step i a x) := by
  unfold ForKind.step
  split
  · exact .pure _
  · exact .fail _
  · exact .accSift ..
  · refine .bind (.derefE _) fun d => ?_
    split
    · exact .accSum ..
    · exact .accProd ..
    · exact .accSumVec4 ..
    · exact .accProdVec4 ..
    · exact .accMin ..
    · exact .accMax ..
    · exact .accAny ..
    · exact .accAll ..
    · exact .pure _
theorem Quiet.forStepIn [FloatOps] (k : ForInKind) (i a x) : Quiet (k.step i a x) := by
  unfold ForInKind.step
  split
  · exact .pure _
  · exact .pure _
  · exact .pure _
  · exact .fail _
  · exact .accSift ..
  · refine .bind (.derefE _) fun d => ?_
    split
    · exact .accSum ..
    · exact .accProd ..
    · exact .bind (.slotE _) fun _ => .accMin ..
    · exact .bind (.slotE _) fun _ => .accMax ..
    · exact .bind (.slotE _) fun _ => .accAny ..
    · exact .bind (.slotE _) fun _ => .accAll ..
    · exact .pure _
theorem Quiet.inE (c f) : Quiet (inE c f) := by
  unfold Dyon.inE
  split
  · refine .bind .relIndex fun rel => .bind .get fun s => ?_
    split
    · exact .panic _
    · split
      · exact .panic _
      · exact .bind ⟨fun st => ⟨⟨rfl, rfl, rfl, rfl, rfl⟩, rfl⟩⟩ fun _ => .pure _
  · exact .errT _

end Dyon
