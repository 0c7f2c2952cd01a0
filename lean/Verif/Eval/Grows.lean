import Verif.Eval.FrameAll

/-!
# What evaluation never takes back

Lemmas: whatever is evaluated, closures that have been made and threads that have been
started stay as they are, and channel numbers are not used twice.
-/

namespace Dyon

/-- Closures and threads are only added. -/
structure Added (a b : St) : Prop where
  closures : a.closures <+: b.closures
  jobs : a.jobs <+: b.jobs
  nchans : a.nchans ≤ b.nchans
  time : a.time ≤ b.time

theorem Added.rfl {a : St} : Added a a := ⟨List.prefix_rfl, List.prefix_rfl, Nat.le_refl _, Nat.le_refl _⟩
theorem Added.trans {a b d : St} (h : Added a b) (h' : Added b d) : Added a d :=
  ⟨h.1.trans h'.1, h.2.trans h'.2, h.3.trans h'.3, h.4.trans h'.4⟩

/-- The action only adds closures and threads, also when it ends in an error. -/
structure Grows {α} (m : EM α) : Prop where
  run : ∀ st, wp m (fun _ s => Added st s) (fun s => Added st s) st

theorem Grows.of_still {α} {m : EM α} (h : ∀ st, wp m (fun _ s => s.closures = st.closures ∧ s.jobs = st.jobs ∧
    s.nchans = st.nchans ∧ s.time = st.time) (fun s => s.closures = st.closures ∧ s.jobs = st.jobs ∧
    s.nchans = st.nchans ∧ s.time = st.time) st) : Grows m :=
  ⟨fun st => wp_mono (h st) (fun _ _ h => ⟨h.1 ▸ List.prefix_rfl, h.2.1 ▸ List.prefix_rfl, h.2.2.1.ge, h.2.2.2.ge⟩)
    fun _ h => ⟨h.1 ▸ List.prefix_rfl, h.2.1 ▸ List.prefix_rfl, h.2.2.1.ge, h.2.2.2.ge⟩⟩

theorem Grows.pure {α} (a : α) : Grows (pure a : EM α) := ⟨fun _ => .rfl⟩
theorem Grows.errT {α} (m) : Grows (errT m : EM α) := ⟨fun _ => .rfl⟩
theorem Grows.fail {α} (m) : Grows (EM.fail m : EM α) := ⟨fun _ => .rfl⟩
theorem Grows.panic {α} (m) : Grows (EM.panic m : EM α) := ⟨fun _ => trivial⟩
theorem Grows.timeout {α} : Grows (EM.timeout : EM α) := ⟨fun _ => trivial⟩
theorem Grows.errExpected {α} (v ty) : Grows (errExpected v ty : EM α) := ⟨fun _ => .rfl⟩
theorem Grows.errExpected2 {α} (v ty) : Grows (errExpected2 v ty : EM α) := ⟨fun _ => .rfl⟩
theorem Grows.errIndices {α} : Grows (errIndices : EM α) := ⟨fun _ => .rfl⟩
theorem Grows.errBounds {α} (c x) : Grows (errBounds c x : EM α) := ⟨fun _ => .rfl⟩
theorem Grows.get : Grows EM.get := ⟨fun _ => .rfl⟩
theorem Grows.relIndex : Grows relIndex := ⟨fun _ => .rfl⟩
theorem Grows.slotE (i) : Grows (slotE i) := by
  constructor; intro st; simp only [wp, Dyon.slotE]; cases st.stack[i]? <;> first | exact .rfl | trivial
theorem Grows.lastCall : Grows lastCall := by
  constructor; intro st; simp only [wp, Dyon.lastCall]
  cases st.calls.getLast? <;> first | exact .rfl | trivial
theorem Grows.readE (p) : Grows (readE p) := by
  constructor; intro st; simp only [wp, Dyon.readE]
  cases readPlace st.stack p <;> first | exact .rfl | trivial
theorem Grows.cloneE (n v) : Grows (cloneE n v) := by
  constructor; intro st; simp only [wp, Dyon.cloneE]
  cases deepClone st.stack n v <;> first | exact .rfl | trivial
theorem Grows.liftOp (r) : Grows (liftOp r) := by
  constructor; intro st; cases r <;> exact .rfl
theorem Grows.writeE (p v) : Grows (writeE p v) := by
  constructor; intro st; simp only [wp, Dyon.writeE]
  cases readPlace st.stack p
  · trivial
  · exact ⟨List.prefix_rfl, List.prefix_rfl, Nat.le_refl _, Nat.le_refl _⟩
theorem Grows.recvE (c ch) : Grows (recvE c ch) := by
  constructor; intro st; simp only [wp, Dyon.recvE]
  cases (sync c st).queues ch <;> exact ⟨List.prefix_rfl, List.prefix_rfl, Nat.le_refl _, Nat.le_succ _⟩
theorem Grows.pushE (v) : Grows (pushE v) := ⟨fun _ => ⟨List.prefix_rfl, List.prefix_rfl, Nat.le_refl _, Nat.le_refl _⟩⟩
theorem Grows.pushLocal (a b) : Grows (pushLocal a b) :=
  ⟨fun _ => ⟨List.prefix_rfl, List.prefix_rfl, Nat.le_refl _, Nat.le_refl _⟩⟩
theorem Grows.pushCurrent (a b) : Grows (pushCurrent a b) :=
  ⟨fun _ => ⟨List.prefix_rfl, List.prefix_rfl, Nat.le_refl _, Nat.le_refl _⟩⟩
theorem Grows.truncStack (n) : Grows (truncStack n) :=
  ⟨fun _ => ⟨List.prefix_rfl, List.prefix_rfl, Nat.le_refl _, Nat.le_refl _⟩⟩
theorem Grows.truncLocals (n) : Grows (truncLocals n) :=
  ⟨fun _ => ⟨List.prefix_rfl, List.prefix_rfl, Nat.le_refl _, Nat.le_refl _⟩⟩
theorem Grows.truncCurrents (n) : Grows (truncCurrents n) :=
  ⟨fun _ => ⟨List.prefix_rfl, List.prefix_rfl, Nat.le_refl _, Nat.le_refl _⟩⟩
theorem Grows.popE : Grows popE := by
  constructor; intro st; simp only [wp, Dyon.popE]
  cases st.stack.getLast? <;> first | exact ⟨List.prefix_rfl, List.prefix_rfl, Nat.le_refl _, Nat.le_refl _⟩ | trivial
theorem Grows.pushFn (a b d e f g) : Grows (pushFn a b d e f g) :=
  ⟨fun _ => ⟨List.prefix_rfl, List.prefix_rfl, Nat.le_refl _, Nat.le_refl _⟩⟩
theorem Grows.bind {α β} {m : EM α} {f : α → EM β} (hm : Grows m) (hf : ∀ a, Grows (f a)) :
    Grows (m >>= f) := by
  constructor; intro st
  refine wp_bind (wp_mono (hm.run st) (fun a s hs => ?_) fun s hs => hs)
  exact wp_mono ((hf a).run s) (fun _ t ht => hs.trans ht) fun t ht => hs.trans ht
theorem Grows.ite {α} {p : Prop} [Decidable p] {a b : EM α} (ha : Grows a) (hb : Grows b) :
    Grows (if p then a else b) := by split <;> assumption

/-- Cuts the goal that an action only adds into pieces. -/
macro "grows" : tactic => `(tactic| repeat' first
  | assumption
  | exact Grows.pure _
  | exact Grows.errT _
  | exact Grows.fail _
  | exact Grows.panic _
  | exact Grows.errExpected _ _
  | exact Grows.errExpected2 _ _
  | exact Grows.errIndices
  | exact Grows.errBounds _ _
  | exact Grows.get
  | exact Grows.relIndex
  | exact Grows.slotE _
  | exact Grows.lastCall
  | exact Grows.readE _
  | exact Grows.writeE _ _
  | exact Grows.cloneE _ _
  | exact Grows.liftOp _
  | exact Grows.recvE _ _
  | exact Grows.pushE _
  | exact Grows.popE
  | exact Grows.timeout
  | exact Grows.truncStack _
  | exact Grows.truncLocals _
  | exact Grows.truncCurrents _
  | exact Grows.pushLocal _ _
  | exact Grows.pushCurrent _ _
  | refine Grows.bind ?_ fun _ => ?_
  | refine Grows.ite ?_ ?_
  | split)

theorem Grows.derefE (v) : Grows (derefE v) := by unfold Dyon.derefE; grows
theorem Grows.prevSlot (a b) : Grows (prevSlot a b) := by unfold Dyon.prevSlot; grows
theorem Grows.computedSlot (a b) : Grows (computedSlot a b) := by unfold Dyon.computedSlot; grows
theorem Grows.indexNumber (a b) : Grows (indexNumber a b) := by
  unfold Dyon.indexNumber; have := @Grows.prevSlot; split <;> grows <;> exact this _ _
theorem Grows.indexNext (a b d) : Grows (indexNext a b d) := by
  unfold Dyon.indexNext; have := @Grows.prevSlot; split <;> grows <;> exact this _ _
theorem Grows.indexLast (a b d e) : Grows (indexLast a b d e) := by
  unfold Dyon.indexLast
  split
  · exact .ite (.pure _) (.bind (.prevSlot _ _) fun _ => .pure _)
  · exact .pure _
theorem Grows.lookupIndices (c id last) (p l) : Grows (lookupIndices c id last p l) := by
  induction l generalizing p with
  | nil => exact Grows.errIndices
  | cons i l ih =>
    rw [Dyon.lookupIndices]
    refine .bind (.indexNumber _ _) fun o => ?_
    cases o with
    | none => exact Grows.errIndices
    | some x =>
      refine .bind (.readE _) fun v => ?_
      split
      · split
        · exact .errBounds _ _
        · refine .ite (.indexLast _ _ _ _) (.bind (.indexNext _ _ _) fun o => ?_)
          cases o with
          | none => exact Grows.errIndices
          | some q => exact ih q
      · exact .panic _
theorem Grows.objectKey (a b d) : Grows (objectKey a b d) := by
  unfold Dyon.objectKey; have := @Grows.computedSlot; split <;> grows <;> exact this _ _
theorem Grows.lookupObject (p kvs prop sl j i l) : Grows (lookupObject p kvs prop sl j i l) := by
  unfold Dyon.lookupObject
  refine .bind (.objectKey _ _ _) fun _ => ?_
  grows
theorem Grows.lookupIndex (c p xs x j l) : Grows (lookupIndex c p xs x j l) := by
  unfold Dyon.lookupIndex; grows
theorem Grows.lookupArray (c p xs prop sl j l) : Grows (lookupArray c p xs prop sl j l) := by
  unfold Dyon.lookupArray
  split
  · exact .lookupIndex ..
  · refine .bind (.computedSlot _ _) fun id => .bind (.slotE _) fun v => ?_
    split
    · exact .lookupIndex ..
    · exact .bind (.lookupIndices ..) fun _ => .pure _
    · exact .errT _
  · exact .errT _
theorem Grows.itemLookup (c p prop sl j i l) : Grows (itemLookup c p prop sl j i l) := by
  unfold Dyon.itemLookup
  refine .bind (.readE _) fun v => ?_
  split
  · exact .lookupObject ..
  · exact .lookupArray ..
  · exact .errT _
theorem Grows.propagate (m t) : Grows (propagate m t) := by
  unfold Dyon.propagate; grows
theorem Grows.tryVal (v) : Grows (tryVal v) := by
  unfold Dyon.tryVal; split
  · exact .errT _
  · exact .pure _
  · exact .propagate ..
theorem Grows.itemWalk (c sl side i l t p j) : Grows (itemWalk c sl side i l t p j) := by
  induction l generalizing i t p j with
  | nil => unfold Dyon.itemWalk; grows
  | cons x l ih =>
    unfold Dyon.itemWalk
    refine .bind (.itemLookup ..) fun q => .ite (.bind (.readE _) fun v => ?_) (ih ..)
    split
    · exact .errT _
    · exact .bind (.writeE _ _) fun _ => ih ..
    · exact .bind (.propagate ..) fun _ => .pure _
theorem Grows.refSlot (id) : Grows (refSlot id) := by unfold Dyon.refSlot; grows
theorem Grows.slotOf (c it call) : Grows (slotOf c it call) := by unfold Dyon.slotOf; grows
theorem Grows.targetOf (a) : Grows (targetOf a) := by unfold Dyon.targetOf; grows
theorem Grows.noneR : Grows noneR := .pure _
theorem Grows.assignTo [FloatOps] [VecMath] (op p b) : Grows (assignTo op p b) := by
  unfold Dyon.assignTo
  refine .bind (.derefE _) fun d => .bind (.readE _) fun n => .ite (.panic _) (.ite (.panic _) ?_)
  split
  · exact .bind (.writeE _ _) fun _ => .noneR
  · exact .errT _
  · exact .panic _
theorem Grows.shallow (a) : Grows (shallow a) := by unfold Dyon.shallow; grows
theorem Grows.storeAt (x v) : Grows (storeAt x v) := by
  unfold Dyon.storeAt
  split
  · exact .bind (.writeE _ _) fun _ => .noneR
  · exact .panic _
theorem Grows.cloneAll (n vs) : Grows (cloneAll n vs) := by
  induction vs with
  | nil => exact .pure _
  | cons v vs ih => exact .bind (.cloneE _ _) fun _ => .bind ih fun _ => .pure _
theorem Grows.notify (c n i st) : Grows (notify c n i st) := by
  unfold Dyon.notify
  refine .bind .get fun s => .ite (.bind (.cloneAll _ _) fun msg => ?_) (.pure _)
  exact ⟨fun st => ⟨List.prefix_rfl, List.prefix_rfl, by first | exact Nat.le_refl _ | exact Nat.le_succ _, by first | exact Nat.le_refl _ | exact Nat.le_succ _⟩⟩
theorem Grows.closureOf (v) : Grows (closureOf v) := by
  unfold Dyon.closureOf
  refine .bind (.derefE _) fun _ => ?_
  split
  · refine .bind .get fun s => ?_
    split
    · exact .pure _
    · exact .panic _
  · exact .bind .get fun _ => .errT _
theorem Grows.lazyCheck (x l) : Grows (lazyCheck x l) := by
  unfold Dyon.lazyCheck; exact .ite (.pure _) (.bind (.derefE _) fun _ => .pure _)
theorem Grows.incSlot [FloatOps] (i) : Grows (incSlot i) := by unfold Dyon.incSlot; grows
theorem Grows.accSum [FloatOps] (a d) : Grows (accSum a d) := by unfold Dyon.accSum; grows
theorem Grows.accProd [FloatOps] (a d) : Grows (accProd a d) := by unfold Dyon.accProd; grows
theorem Grows.accSumVec4 [FloatOps] (a d) : Grows (accSumVec4 a d) := by
  unfold Dyon.accSumVec4; grows
theorem Grows.accProdVec4 [FloatOps] (a d) : Grows (accProdVec4 a d) := by
  unfold Dyon.accProdVec4; grows
theorem Grows.accMin (i a d) : Grows (accMin i a d) := by unfold Dyon.accMin; grows
theorem Grows.accMax (i a d) : Grows (accMax i a d) := by unfold Dyon.accMax; grows
theorem Grows.accAny (i a d) : Grows (accAny i a d) := by unfold Dyon.accAny; grows
theorem Grows.accAll (i a d) : Grows (accAll i a d) := by unfold Dyon.accAll; grows
theorem Grows.accSift (a d) : Grows (accSift a d) := by unfold Dyon.accSift; grows
theorem Grows.forStepN [FloatOps] (k : ForKind) (i a x) : Grows (k.step i a x) := by
  unfold ForKind.step
  split
  · exact .pure _
  · exact .fail _
  · exact .accSift ..
  · refine .bind (.derefE _) fun d => ?_
    split
    · exact .accSum ..
    · exact .accProd ..
    · exact .accSumVec4 ..
    · exact .accProdVec4 ..
    · exact .accMin ..
    · exact .accMax ..
    · exact .accAny ..
    · exact .accAll ..
    · exact .pure _
theorem Grows.forStepIn [FloatOps] (k : ForInKind) (i a x) : Grows (k.step i a x) := by
  unfold ForInKind.step
  split
  · exact .pure _
  · exact .pure _
  · exact .pure _
  · exact .fail _
  · exact .accSift ..
  · refine .bind (.derefE _) fun d => ?_
    split
    · exact .accSum ..
    · exact .accProd ..
    · exact .bind (.slotE _) fun _ => .accMin ..
    · exact .bind (.slotE _) fun _ => .accMax ..
    · exact .bind (.slotE _) fun _ => .accAny ..
    · exact .bind (.slotE _) fun _ => .accAll ..
    · exact .pure _
theorem Grows.inE (c f) : Grows (inE c f) := by
  unfold Dyon.inE
  split
  · refine .bind .relIndex fun rel => .bind .get fun s => ?_
    split
    · exact .panic _
    · split
      · exact .panic _
      · exact .bind ⟨fun st => ⟨List.prefix_rfl, List.prefix_rfl, by first | exact Nat.le_refl _ | exact Nat.le_succ _, by first | exact Nat.le_refl _ | exact Nat.le_succ _⟩⟩ fun _ => .pure _
  · exact .errT _


theorem Grows.jp {α β} {p : Prop} [Decidable p] {x y : EM β} {j : β → EM α} (hx : Grows x) (hy : Grows y)
    (h : ∀ u, Grows (j u)) : Grows (if p then x >>= j else y >>= j) := by
  split
  · exact .bind hx h
  · exact .bind hy h

theorem Grows.jp1 {α} {p : Prop} [Decidable p] (x y : EM Unit) {j : Unit → EM α} (hx : Grows x) (hy : Grows y)
    (h : ∀ u, Grows (j u)) : Grows (if p then x >>= j else y >>= j) := .jp hx hy h

theorem Grows.loopN {σ α} {n : Nat} {f : σ → EM (σ ⊕ α)} (hf : ∀ s, Grows (f s)) (s : σ) : Grows (loopN n f s) := by
  induction n generalizing s with
  | zero => exact .timeout
  | succ n ih =>
    refine .bind (hf s) ?_
    rintro (s' | a)
    · exact ih s'
    · exact .pure _

theorem Grows.scope1 {α} {a : EM (Bool × α)} (h : Grows a) : Grows (scope1 a) := by
  unfold Dyon.scope1
  exact .bind .get fun _ => .bind h fun _ => by grows
theorem Grows.scope2 {α} {a : EM (Bool × α)} (h : Grows a) : Grows (scope2 a) := by
  unfold Dyon.scope2
  exact .bind .get fun _ => .bind h fun _ => by grows
theorem Grows.scope3 {α} {a : EM (Bool × α)} (h : Grows a) : Grows (scope3 a) := by
  unfold Dyon.scope3
  exact .bind .get fun _ => .bind h fun _ => by grows

/-- The evaluator only adds closures and threads. -/
def GrowsEv (ev : Evl) : Prop := ∀ e side, Grows (ev e side)

section
variable {ev : Evl} (hev : GrowsEv ev)
include hev

theorem grows_wantK {β} {e side msg} {r : Option Val → EM β} {k : Val → EM β} (hr : ∀ x, Grows (r x))
    (hk : ∀ x, Grows (k x)) : Grows (wantK ev e side msg r k) := by
  refine .bind (hev _ _) ?_
  rintro ⟨_ | x, _ | _ | _ | _⟩ <;> first | exact .errT _ | apply hr | apply hk

theorem grows_want {e side msg} {k : Val → EM R} (hk : ∀ x, Grows (k x)) : Grows (want ev e side msg k) :=
  grows_wantK hev (fun _ => .pure _) hk

theorem grows_seqs (es : List Expr) (x) : Grows (seqs ev es x) := by
  induction es generalizing x with
  | nil => exact .pure _
  | cons e es ih =>
    refine .bind (hev _ _) ?_
    rintro ⟨_ | x, _ | _ | _ | _⟩ <;> first | exact .pure _ | apply ih

theorem grows_block (es : List Expr) : Grows (block ev es) := .scope3 (grows_seqs hev _ _)

theorem grows_lazyArgs (b msg inv args) {k : EM R} (hk : Grows k) : Grows (lazyArgs ev b msg inv args k) := by
  induction args generalizing inv with
  | nil => exact hk
  | cons a as ih =>
    refine .bind (hev _ _) ?_
    rintro ⟨_ | x, _ | _ | _ | _⟩ <;> first | exact .errT _ | exact .pure _ | skip
    · exact .ite (ih _) (.errT _)
    · refine .bind (.lazyCheck _ _) ?_
      rintro (_ | y)
      · exact .bind (.pushE _) fun _ => ih _
      · exact .pure _

omit hev in
theorem grows_vecNext (limit) {a k : EM R} (ha : Grows a) (hk : Grows k) : Grows (vecArgs.vecNext limit a k) := by
  refine .bind .get fun s => ?_
  cases limit with
  | none => exact ha
  | some st => exact .ite hk ha

theorem grows_vecArgs (side msg limit args) {k : EM R} (hk : Grows k) : Grows (vecArgs ev side msg limit args k) := by
  induction args with
  | nil => exact hk
  | cons a as ih =>
    refine .bind (hev _ _) ?_
    rintro ⟨_ | x, _ | _ | _ | _⟩ <;> first | exact .errT _ | exact .pure _ | skip
    · exact grows_vecNext _ ih hk
    · exact .bind (.pushE _) fun _ => grows_vecNext _ ih hk

theorem grows_wantNum {β} (e msg) {r : Option Val → EM β} {k : F64 → EM β} (hr : ∀ x, Grows (r x))
    (hk : ∀ x, Grows (k x)) : Grows (wantNum ev e msg r k) := by
  refine grows_wantK hev hr fun x => .bind (.derefE _) fun d => ?_
  cases d <;> first | exact .errExpected _ _ | apply hk

theorem grows_wantStart {β} (e) {r : Option Val → EM β} {k : F64 → EM β} (hr : ∀ x, Grows (r x))
    (hk : ∀ x, Grows (k x)) : Grows (wantStart ev e r k) := by
  cases e with
  | none => exact hk _
  | some e => exact grows_wantNum hev _ _ hr hk

section
variable [FloatOps]

omit hev in
theorem grows_countRound {σ} (st lc stop) {f : σ → F64 → EM (Round σ)} (hf : ∀ s x, Grows (f s x)) (s : σ) :
    Grows (countRound st lc stop f s) := by
  refine .bind (.slotE _) fun v => ?_
  cases v <;> first | exact .errExpected _ _ | skip
  refine .ite (.bind (hf _ _) fun r => ?_) (.pure _)
  cases r
  · exact .bind (.incSlot _) fun _ => .bind (.truncStack _) fun _ => .bind (.truncLocals _) fun _ => .pure _
  · exact .pure _
  · exact .pure _

theorem grows_countLoop {σ} (n name start stop) (s₀ : σ) {f : σ → F64 → EM (Round σ)} (hf : ∀ s x, Grows (f s x)) :
    Grows (countLoop n ev name start stop s₀ f) :=
  .scope2 (grows_wantStart hev _ (fun _ => .pure _) fun _ => grows_wantNum hev _ _ (fun _ => .pure _) fun _ =>
    .bind .get fun _ => .bind (.pushLocal _ _) fun _ => .bind (.pushE _) fun _ =>
    .loopN (fun s => grows_countRound _ _ _ hf s) _)

omit hev [FloatOps] in
theorem grows_chanRound {σ} (c ch st lc) {f : σ → Nat → EM (Round σ)} (hf : ∀ s x, Grows (f s x)) (s : σ) :
    Grows (chanRound c ch st lc f s) := by
  refine .bind (hf _ _) fun r => ?_
  cases r
  · refine .bind (.recvE _ _) ?_
    rintro (_ | v)
    · exact .pure _
    · exact .bind (.writeE _ _) fun _ => .bind (.truncStack _) fun _ => .bind (.truncLocals _) fun _ => .pure _
  · exact .pure _
  · exact .pure _

omit [FloatOps] in
theorem grows_chanLoop {σ} (c n name iter) (e₀ s₀ : σ) {f : σ → Nat → EM (Round σ)} (hf : ∀ s x, Grows (f s x)) :
    Grows (chanLoop c n ev name iter e₀ s₀ f) := by
  refine .scope2 (grows_wantK hev (fun _ => .pure _) fun x => .bind (.derefE _) fun d => ?_)
  cases d <;> first | exact .errExpected _ _ | skip
  refine .bind (.recvE _ _) ?_
  rintro (_ | v)
  · exact .pure _
  · exact .bind .get fun _ => .bind (.pushLocal _ _) fun _ => .bind (.pushE _) fun _ =>
      .loopN (fun s => grows_chanRound _ _ _ _ hf s) _

omit [FloatOps] in
theorem grows_bodyRound {σ} (body label) {step : σ → Option Val → EM (σ × Bool)} (hs : ∀ s x, Grows (step s x)) (s : σ) :
    Grows (bodyRound ev body label step s) := by
  refine .bind (grows_block hev _) ?_
  rintro ⟨x, _ | _ | _ | _⟩
  · exact .bind (hs _ _) fun _ => .pure _
  · exact .pure _
  · exact .pure _
  · exact .pure _

omit [FloatOps] in
theorem grows_linkItems (label items l) : Grows (linkItems ev label items l) := by
  induction items generalizing l with
  | nil => exact .pure _
  | cons e es ih =>
    refine .bind (hev _ _) ?_
    rintro ⟨_ | x, _ | _ | _ | _⟩ <;> first | exact .pure _ | skip
    · exact ih _
    · refine .bind (.derefE _) fun d => ?_
      cases linkPush l d with
      | ok l' => exact ih _
      | error m => exact .errT _

theorem grows_linkForN (n l name start stop body label) : Grows (linkForN n ev l name start stop body label) := by
  induction n generalizing l name start stop body label with
  | zero => exact .timeout
  | succ n ih =>
    rw [linkForN]
    refine grows_countLoop hev _ _ _ _ _ fun l _ => ?_
    split
    · exact grows_linkItems hev _ _ _
    · exact .bind (ih ..) fun _ => .pure _
    · exact .panic _
    · exact .panic _

omit [FloatOps] in
theorem grows_linkForIn (c n l name iter body label) : Grows (linkForIn c n ev l name iter body label) := by
  induction n generalizing l name iter body label with
  | zero => exact .timeout
  | succ n ih =>
    rw [linkForIn]
    refine grows_chanLoop hev _ _ _ _ _ _ fun l _ => ?_
    split
    · exact grows_linkItems hev _ _ _
    · exact .bind (ih ..) fun _ => .pure _
    · exact .panic _
    · exact .panic _

end
end

theorem Grows.gbind {α β} {a : GM α} {f : α → GM β} (ha : Grows a) (hf : ∀ x, Grows (f x)) : Grows (gbind a f) := by
  refine .bind ha ?_
  rintro (x | x)
  · exact .pure _
  · exact hf _

theorem Grows.gpure {α} (a : α) : Grows (gpure a) := .pure _

/-- Cuts a goal about grab into pieces. -/
macro "grab_grows" : tactic => `(tactic| repeat' first
  | assumption
  | exact Grows.gpure _
  | (refine Grows.gbind ?_ fun _ => ?_))

mutual
theorem grows_grabExpr {ev : Evl} (hev : GrowsEv ev) (n : Nat) (side level) :
    (e : Expr) → Grows (grabExpr n ev side level e)
  | .grab l e => by
    simp only [grabExpr]
    refine .ite ?_ (.gpure _)
    exact grows_wantK hev (fun _ => .pure _) fun v => .bind (.cloneE _ _) fun _ => .gpure _
  | .ret e => by
    have := grows_grabExpr hev n side level e
    simp only [grabExpr]; grab_grows
  | .try_ e => by
    have := grows_grabExpr hev n side level e
    simp only [grabExpr]; grab_grows
  | .retVoid => by simp only [grabExpr]; grab_grows
  | .brk l => by simp only [grabExpr]; grab_grows
  | .cont l => by simp only [grabExpr]; grab_grows
  | .const v => by simp only [grabExpr]; grab_grows
  | .closure args cur r f e => by
    have := grows_grabExpr hev n side (level + 1) e
    simp only [grabExpr]; grab_grows
  | .item it => by
    have := grows_grabItem hev n side level it
    simp only [grabExpr]; grab_grows
  | .block es => by
    have := grows_grabList hev n side level es
    simp only [grabExpr]; grab_grows
  | .assign op l r => by
    have := grows_grabExpr hev n side level l
    have := grows_grabExpr hev n side level r
    simp only [grabExpr]; grab_grows
  | .ite c t elifs els => by
    have := grows_grabExpr hev n side level c
    have := grows_grabList hev n side level t
    have := grows_grabConds hev n side level elifs
    have := grows_grabBlocks hev n side level elifs
    have := grows_grabOptList hev n side level els
    simp only [grabExpr]; grab_grows
  | .go name args => by
    have := grows_grabList hev n side level args
    simp only [grabExpr]; grab_grows
  | .call f name args => by
    have := grows_grabList hev n side level args
    simp only [grabExpr]; grab_grows
  | .callClosure it args => by
    have := grows_grabItem hev n side level it
    have := grows_grabList hev n side level args
    simp only [grabExpr]; grab_grows
  | .forN k name start stop body label => by
    have := grows_grabOpt hev n side level start
    have := grows_grabExpr hev n side level stop
    have := grows_grabList hev n side level body
    simp only [grabExpr]; grab_grows
  | .vec4 args => by
    have := grows_grabList hev n side level args
    simp only [grabExpr]; grab_grows
  | .mat4 args => by
    have := grows_grabList hev n side level args
    simp only [grabExpr]; grab_grows
  | .link items => by
    have := grows_grabList hev n side level items
    simp only [grabExpr]; grab_grows
  | .object kvs => by
    have := grows_grabKVs hev n side level kvs
    simp only [grabExpr]; grab_grows
  | .array items => by
    have := grows_grabList hev n side level items
    simp only [grabExpr]; grab_grows
  | .arrayFill f k => by
    have := grows_grabExpr hev n side level f
    have := grows_grabExpr hev n side level k
    simp only [grabExpr]; grab_grows
  | .for_ i c s b label => by
    have := grows_grabExpr hev n side level i
    have := grows_grabExpr hev n side level c
    have := grows_grabExpr hev n side level s
    have := grows_grabList hev n side level b
    simp only [grabExpr]; grab_grows
  | .forIn k name iter body label => by
    have := grows_grabExpr hev n side level iter
    have := grows_grabList hev n side level body
    simp only [grabExpr]; grab_grows
  | .swizzle sel e => by
    have := grows_grabExpr hev n side level e
    simp only [grabExpr]; grab_grows
  | .tryExpr e => by
    have := grows_grabExpr hev n side level e
    simp only [grabExpr]; grab_grows
  | .in_ f => by simp only [grabExpr]; grab_grows
theorem grows_grabList {ev : Evl} (hev : GrowsEv ev) (n : Nat) (side level) :
    (es : List Expr) → Grows (grabList n ev side level es)
  | [] => by simp only [grabList]; grab_grows
  | e :: es => by
    have := grows_grabExpr hev n side level e
    have := grows_grabList hev n side level es
    simp only [grabList]; grab_grows
theorem grows_grabKVs {ev : Evl} (hev : GrowsEv ev) (n : Nat) (side level) :
    (es : List (String × Expr)) → Grows (grabKVs n ev side level es)
  | [] => by simp only [grabKVs]; grab_grows
  | (k, e) :: es => by
    have := grows_grabExpr hev n side level e
    have := grows_grabKVs hev n side level es
    simp only [grabKVs]; grab_grows
theorem grows_grabConds {ev : Evl} (hev : GrowsEv ev) (n : Nat) (side level) :
    (es : List (Expr × List Expr)) →
      Grows (grabConds n ev side level es)
  | [] => by simp only [grabConds]; grab_grows
  | (c, b) :: es => by
    have := grows_grabExpr hev n side level c
    have := grows_grabConds hev n side level es
    simp only [grabConds]; grab_grows
theorem grows_grabBlocks {ev : Evl} (hev : GrowsEv ev) (n : Nat) (side level) :
    (es : List (Expr × List Expr)) →
      Grows (grabBlocks n ev side level es)
  | [] => by simp only [grabBlocks]; grab_grows
  | (c, b) :: es => by
    have := grows_grabList hev n side level b
    have := grows_grabBlocks hev n side level es
    simp only [grabBlocks]; grab_grows
theorem grows_grabOptList {ev : Evl} (hev : GrowsEv ev) (n : Nat) (side level) :
    (es : Option (List Expr)) →
      Grows (grabOptList n ev side level es)
  | none => by simp only [grabOptList]; grab_grows
  | some es => by
    have := grows_grabList hev n side level es
    simp only [grabOptList]; grab_grows
theorem grows_grabOpt {ev : Evl} (hev : GrowsEv ev) (n : Nat) (side level) :
    (es : Option Expr) → Grows (grabOpt n ev side level es)
  | none => by simp only [grabOpt]; grab_grows
  | some es => by
    have := grows_grabExpr hev n side level es
    simp only [grabOpt]; grab_grows
theorem grows_grabItem {ev : Evl} (hev : GrowsEv ev) (n : Nat) (side level) :
    (it : Item) → Grows (grabItem n ev side level it)
  | .mk name sid cur t ids tids => by
    have := grows_grabIds hev n side level ids
    simp only [grabItem]; grab_grows
theorem grows_grabIds {ev : Evl} (hev : GrowsEv ev) (n : Nat) (side level) :
    (ids : List Id) → Grows (grabIds n ev side level ids)
  | [] => by simp only [grabIds]; grab_grows
  | .str s :: r => by
    have := grows_grabIds hev n side level r
    simp only [grabIds]; grab_grows
  | .num x :: r => by
    have := grows_grabIds hev n side level r
    simp only [grabIds]; grab_grows
  | .expr e :: r => by
    have := grows_grabExpr hev n side level e
    have := grows_grabIds hev n side level r
    simp only [grabIds]; grab_grows
end


/-- The external functions only add closures and threads. -/
structure GrowsExt (c : ECfg) : Prop where
  void : ∀ f, Grows (c.voidFn f)
  ret : ∀ f, Grows (c.retFn f)

section
variable {ev : Evl} (hev : GrowsEv ev)
include hev

theorem grows_pushIds {β} {r : Option Val → EM β} (hr : ∀ x, Grows (r x)) (ids) {k : EM β} (hk : Grows k) :
    Grows (pushIds ev r ids k) := by
  induction ids with
  | nil => exact hk
  | cons i is ih =>
    cases i with
    | str s => exact ih
    | num s => exact ih
    | expr e => exact grows_wantK hev hr fun x => .bind (.pushE _) fun _ => ih

theorem grows_itemE (c it side) : Grows (itemE c ev it side) := by
  refine .bind .lastCall fun call => .bind (.slotOf ..) fun id₀ => .bind (.refSlot _) fun id => .ite (.ite ?_ (.pure _)) ?_
  · exact .bind (.slotE _) fun _ => .tryVal _
  · exact .bind .get fun s => .scope1 (grows_pushIds hev (fun _ => .pure _) _ (.itemWalk ..))

theorem grows_assignE [FloatOps] [VecMath] (op l r) : Grows (assignE ev op l r) := by
  refine .ite ?_ ?_
  · cases l <;> first | exact .errT _ | skip
    refine grows_want hev fun x => .bind (.shallow _) fun v => .ite ?_ (grows_want hev fun _ => .storeAt ..)
    unfold declare
    exact .bind .get fun _ => .bind (.pushLocal _ _) fun _ =>
      .jp1 _ (pure ()) (.pushCurrent _ _) (.pure _) fun _ => .bind (.pushE _) fun _ => .pure _
  · exact grows_want hev fun b => grows_want hev fun a => .bind (.targetOf _) fun _ => .assignTo ..

end

theorem Grows.pushCurrents (l) : Grows (pushCurrents l) := by
  induction l with
  | nil => exact .pure _
  | cons a l ih =>
    refine .bind .get fun s => ?_
    split
    · exact .bind (.pushLocal _ _) fun _ => .bind (.pushE _) fun _ => ih
    · exact .errT _

theorem Grows.pushArgLocals (st i l) : Grows (pushArgLocals st i l) := by
  induction l generalizing i with
  | nil => exact .pure _
  | cons a l ih => exact .bind (.pushLocal _ _) fun _ => ih _

theorem Grows.popFn (a) : Grows (popFn a) := by
  constructor
  intro st
  simp only [wp, Dyon.popFn]
  cases st.calls.getLast? with
  | none => trivial
  | some call =>
    simp only
    by_cases h : call.fnName = a
    · simp only [h, if_true]
      exact ⟨List.prefix_rfl, List.prefix_rfl, Nat.le_refl _, Nat.le_refl _⟩
    · simp only [h, if_false]

theorem Grows.errCaller {α} (m) : Grows (errCaller m : EM α) := .bind .lastCall fun _ => .errT _

theorem Grows.callResult (r name x) : Grows (callResult r name x) := by
  cases r with
  | false => cases x <;> first | exact .pure _ | exact .errCaller _
  | true =>
    cases x with
    | none =>
      refine .bind .popE fun v => ?_
      cases v <;> first | exact .errCaller _ | exact .pure _
    | some v =>
      cases v <;> first
        | exact .errCaller _
        | exact ⟨fun _ => ⟨List.prefix_rfl, List.prefix_rfl, Nat.le_refl _, Nat.le_refl _⟩⟩

theorem grows_enter (name rname index file returns args currents st lc cu) {a : EM Unit} {b : EM R}
    (ha : Grows a) (hb : Grows b) : Grows (enter name rname index file returns args currents st lc cu a b) := by
  refine .bind (.pushCurrents _) fun _ => .bind ha fun _ => .bind (.pushFn ..) fun _ => ?_
  refine .jp1 _ (pure ()) (.pushLocal _ _) (.pure _) fun _ => .bind (.pushArgLocals ..) fun _ => .bind hb fun r => ?_
  unfold bodyFlow
  split
  · exact .errT _
  · exact .errT _
  · exact .errT _
  · exact .errT _
  · exact .bind (.popFn _) fun _ => .callResult ..

theorem Grows.inModule {α} (k : Nat) {a : EM α} (h : Grows a) : Grows (inModule k a) := by
  constructor
  intro st
  have := h.run { st with module := k }
  simp only [wp, Dyon.inModule] at *
  cases hm : a { st with module := k } <;> simp only [hm] at * <;> first | trivial | exact ⟨this.1, this.2, this.3, this.4⟩

section
variable {ev : Evl} (hev : GrowsEv ev)
include hev

theorem grows_callLoaded (c n loader f name args) : Grows (callLoaded c n ev loader f name args) := by
  rw [callLoaded]
  refine .jp (.pure _) .relIndex fun rel => .bind .get fun s => ?_
  cases callIndex f rel with
  | none => exact .panic _
  | some idx =>
    show Grows (match (c.modules s.module)[idx]? with | none => _ | some fn => _)
    cases (c.modules s.module)[idx]? with
    | none => exact .panic _
    | some fn =>
      refine .jp1 _ (pure ()) (.pushE _) (.pure _) fun _ => .bind .get fun s => ?_
      exact grows_lazyArgs hev _ _ _ _ (grows_enter _ _ _ _ _ _ _ _ _ _ (.notify ..) (grows_block hev _))

theorem grows_callE {c} (hx : GrowsExt c) (n loader f name args) : Grows (callE c n ev loader f name args) := by
  cases f with
  | none => exact .errT _
  | loaded f => exact grows_callLoaded hev ..
  | void f => exact grows_lazyArgs hev _ _ _ _ (.bind (hx.void f) fun _ => .pure _)
  | ret f => exact grows_lazyArgs hev _ _ _ _ (.bind (hx.ret f) fun _ => .pure _)
  | lazy f inv => exact grows_lazyArgs hev _ _ _ _ (.bind (hx.ret f) fun _ => .pure _)
  | binop f =>
    rcases args with _ | ⟨l, _ | ⟨r, _⟩⟩
    · exact .panic _
    · exact .panic _
    · exact grows_want hev fun x => grows_want hev fun y => .bind (.derefE _) fun _ => .bind (.derefE _) fun _ =>
        .bind (.liftOp _) fun _ => .pure _
  | unop f =>
    rcases args with _ | ⟨l, _⟩
    · exact .panic _
    · exact grows_want hev fun x => .bind (.derefE _) fun _ => .bind (.liftOp _) fun _ => .pure _

theorem grows_callClosureE (c it args) : Grows (callClosureE c ev it args) := by
  refine .bind (grows_itemE hev _ _ _) ?_
  rintro ⟨_ | x, _ | _ | _ | _⟩ <;> first | exact .errT _ | exact .pure _ | skip
  refine .bind (.closureOf _) fun f => .ite (.errT _) ?_
  refine .jp1 _ (pure ()) (.pushE _) (.pure _) fun _ => .bind .get fun s => ?_
  exact grows_lazyArgs hev _ _ _ _ (grows_enter _ _ _ _ _ _ _ _ _ _ (.pure _) (.inModule _ (hev _ _)))

theorem grows_linkLit (items l) : Grows (linkLit ev items l) := by
  induction items generalizing l with
  | nil => exact .pure _
  | cons e es ih =>
    refine .bind (hev _ _) ?_
    rintro ⟨_ | x, _ | _ | _ | _⟩ <;> first | exact .pure _ | skip
    · exact ih _
    · refine .bind (.derefE _) fun d => ?_
      cases linkPush l d with
      | ok l' => exact ih _
      | error m => exact .errT _

theorem grows_objectE (kvs acc) : Grows (objectE ev kvs acc) := by
  induction kvs generalizing acc with
  | nil => exact .pure _
  | cons kv kvs ih => exact grows_want hev fun x => .ite (.errT _) (ih _)

theorem grows_arrayE (es acc) : Grows (arrayE ev es acc) := by
  induction es generalizing acc with
  | nil => exact .pure _
  | cons e es ih => exact grows_want hev fun x => ih _

theorem grows_elifsE (els elifs) : Grows (elifsE ev els elifs) := by
  induction elifs with
  | nil =>
    cases els with
    | none => exact .pure _
    | some b => exact grows_block hev _
  | cons e es ih =>
    refine grows_want hev fun x => .bind (.derefE _) fun d => ?_
    cases d <;> first | exact .errT _ | skip
    rename_i b _
    cases b
    · exact ih
    · exact grows_block hev _

theorem grows_iteE (c t elifs els) : Grows (iteE ev c t elifs els) := by
  refine grows_want hev fun x => .bind (.derefE _) fun d => ?_
  cases d <;> first | exact .errT _ | skip
  rename_i b _
  cases b
  · exact grows_elifsE hev _ _
  · exact grows_block hev _

theorem grows_forE (n i c s b label) : Grows (forE n ev i c s b label) := by
  have hstep : ∀ (k : EM (Unit ⊕ (Bool × R))), Grows k → Grows (forStep ev s k) := by
    intro k hk
    refine .bind (hev _ _) ?_
    rintro ⟨_ | x, _ | _ | _ | _⟩ <;> first | exact .errT _ | exact .pure _ | exact hk
  refine .scope2 (.bind (hev _ _) ?_)
  rintro ⟨_ | x, _ | _ | _ | _⟩ <;> first | exact .errT _ | exact .pure _ | skip
  refine .bind .get fun st => .loopN (fun u => ?_) _
  refine grows_wantK hev (fun _ => .pure _) fun v => ?_
  cases v <;> first | exact .errT _ | skip
  rename_i v _
  cases v
  · exact .pure _
  · refine .bind (grows_block hev _) ?_
    rintro ⟨x, _ | _ | l | l⟩
    · exact hstep _ (.bind (.truncStack _) fun _ => .bind (.truncLocals _) fun _ => .pure _)
    · exact .pure _
    · exact .pure _
    · show Grows (match onContinue label l with | none => _ | some f => _)
      cases onContinue label l with
      | none => exact hstep _ (.pure _)
      | some f => exact .pure _

theorem grows_goArgs (n args acc) {k : List Val → EM R} (hk : ∀ a, Grows (k a)) : Grows (goArgs n ev args acc k) := by
  induction args generalizing acc with
  | nil => exact hk _
  | cons a as ih => exact grows_want hev fun x => .bind (.cloneE _ _) fun v => ih _

theorem grows_tryExprE (e) : Grows (tryExprE ev e) := by
  constructor
  intro st
  have h := (hev e .right).run st
  simp only [wp, tryExprE] at *
  cases hm : ev e .right st with
  | ok r s =>
    simp only [hm] at h
    obtain ⟨_ | x, _ | _ | _ | _⟩ := r <;> exact h
  | err m s => simp only [hm] at h; exact ⟨h.1, h.2, h.3, h.4⟩
  | panic w => trivial
  | timeout => trivial

omit hev in
theorem Grows.popNum : Grows popNum := .bind .popE fun v => .bind (.derefE _) fun d => by
  split
  · exact .pure _
  · exact .errExpected2 _ _
omit hev in
theorem Grows.popVec : Grows popVec := .bind .popE fun v => .bind (.derefE _) fun d => by
  split
  · exact .pure _
  · exact .errExpected2 _ _
omit hev in
theorem Grows.pushComps [FloatOps] (v sel) : Grows (pushComps v sel) := by
  induction sel with
  | nil => exact .pure _
  | cons i is ih =>
    unfold Dyon.pushComps
    split
    · exact .bind (.pushE _) fun _ => ih
    · exact .panic _

theorem grows_closureE (n args cur r f e) : Grows (closureE n ev args cur r f e) := by
  refine .bind .relIndex fun rel => .bind (grows_grabExpr hev _ _ _ _) ?_
  rintro (x | e')
  · exact .pure _
  · exact .bind .get fun s => .bind
      ⟨fun st => ⟨List.prefix_append _ _, List.prefix_rfl, Nat.le_refl _, Nat.le_refl _⟩⟩ fun _ => .pure _

theorem grows_evalStep [FloatOps] [VecMath] {c} (hx : GrowsExt c) (n e side) : Grows (evalStep c n ev e side) := by
  cases e with
  | link items => exact .ite (.pure _) (.scope3 (grows_linkLit hev _ _))
  | object kvs => exact grows_objectE hev _ _
  | array items => exact grows_arrayE hev _ _
  | arrayFill f k =>
    refine grows_want hev fun x => grows_want hev fun y => .bind (.derefE _) fun _ => .bind (.derefE _) fun d => ?_
    cases d <;> first | exact .errT _ | exact .pure _
  | block es => exact grows_block hev _
  | ret e => exact grows_want hev fun x => .pure _
  | retVoid => exact .pure _
  | brk l => exact .pure _
  | cont l => exact .pure _
  | go name args =>
    exact .bind .lastCall fun call => .bind .get fun s => grows_goArgs hev _ _ _ fun _ =>
      .bind .lastCall fun _ => .bind .get fun _ => .bind
      ⟨fun st => ⟨List.prefix_rfl, List.prefix_append _ _, Nat.le_refl _, Nat.le_refl _⟩⟩ fun _ => .pure _
  | call f name args => exact grows_callE hev hx _ _ _ _ _
  | item it => exact grows_itemE hev _ _ _
  | assign op l r => exact grows_assignE hev _ _ _
  | vec4 args =>
    exact .bind .get fun s => grows_vecArgs hev _ _ _ _ (.bind .popNum fun _ => .bind .popNum fun _ =>
      .bind .popNum fun _ => .bind .popNum fun _ => .pure _)
  | mat4 args => exact grows_vecArgs hev _ _ _ _ (.bind .popVec fun _ => .bind .popVec fun _ =>
      .bind .popVec fun _ => .bind .popVec fun _ => .pure _)
  | for_ i cnd s b l => exact grows_forE hev _ _ _ _ _ _
  | forN k name start stop body label =>
    cases k <;> first
      | exact .bind (grows_linkForN hev _ _ _ _ _ _ _) fun _ => .pure _
      | exact .bind (grows_countLoop hev _ _ _ _ _ fun s x => grows_bodyRound hev _ _ (fun _ _ => .forStepN ..) _)
          fun _ => .pure _
  | forIn k name iter body label =>
    cases k <;> first
      | exact .bind (grows_linkForIn hev _ _ _ _ _ _ _) fun _ => .pure _
      | exact .bind (grows_chanLoop hev _ _ _ _ _ _ fun s x => grows_bodyRound hev _ _ (fun _ _ => .forStepIn ..) _)
          fun _ => .pure _
  | ite cnd t elifs els => exact grows_iteE hev _ _ _ _
  | const v => exact .pure _
  | try_ e => exact grows_want hev fun x => .bind (.derefE _) fun _ => .tryVal _
  | swizzle sel e =>
    refine grows_wantK hev (fun _ => .pure _) fun x => .bind (.derefE _) fun d => ?_
    cases d <;> first | exact .errExpected _ _ | exact .bind (.pushComps _ _) fun _ => .pure _
  | closure args cur r f e => exact grows_closureE hev ..
  | callClosure it args => exact grows_callClosureE hev _ _ _
  | grab l e => exact .errT _
  | tryExpr e => exact grows_tryExprE hev _
  | in_ f => exact .inE ..

end

/-- Whatever is evaluated, closures and threads are only added. -/
theorem grows_eval [FloatOps] [VecMath] {c : ECfg} (hx : GrowsExt c) (n : Nat) : GrowsEv (eval c n) := by
  induction n with
  | zero => exact fun _ _ => .timeout
  | succ n ih => exact fun e s => grows_evalStep ih hx n e s

end Dyon
