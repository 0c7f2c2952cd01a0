import Verif.Eval.Wp

/-!
# What evaluation does to the stacks

Lemmas for C23: evaluation of a well-formed program restores the stacks.
-/

namespace Dyon

/-- As `Same`, with `n` more values on the stack. -/
structure Grown (n : Nat) (a b : St) : Prop where
  module : b.module = a.module
  calls : b.calls = a.calls
  locals : b.locals = a.locals
  currents : b.currents = a.currents
  stack : b.stack.length = a.stack.length + n

theorem Grown.ext {n} {a b : St} (h : Grown n a b) : Ext a b :=
  ⟨h.1, h.2, h.3 ▸ List.prefix_rfl, h.4 ▸ List.prefix_rfl, by have := h.5; omega⟩
theorem Grown.same {a b : St} (h : Grown 0 a b) : Same a b := ⟨h.1, h.2, h.3, h.4, by simpa using h.5⟩
theorem Same.grown {a b : St} (h : Same a b) : Grown 0 a b := ⟨h.1, h.2, h.3, h.4, by simpa using h.5⟩
theorem Grown.trans {n m} {a b d : St} (h : Grown n a b) (h' : Grown m b d) : Grown (n + m) a d :=
  ⟨h'.1.trans h.1, h'.2.trans h.2, h'.3.trans h.3, h'.4.trans h.4, by have := h.5; have := h'.5; omega⟩
theorem Grown.push {a : St} (v : Val) : Grown 1 a { a with stack := a.stack ++ [v] } :=
  ⟨rfl, rfl, rfl, rfl, by simp⟩
theorem Ext.push {a : St} (v : Val) : Ext a { a with stack := a.stack ++ [v] } := (Grown.push v).ext
theorem Ext.pushLocal {a : St} (x) : Ext a { a with locals := a.locals ++ [x] } :=
  ⟨by rfl, by rfl, List.prefix_append _ _, List.prefix_rfl, le_rfl⟩
theorem Ext.pushCurrent {a : St} (x) : Ext a { a with currents := a.currents ++ [x] } :=
  ⟨by rfl, by rfl, List.prefix_rfl, List.prefix_append _ _, le_rfl⟩

variable {c : ECfg} {va ra : Nat → Nat}

/-- What is known about callees in a state. -/
abbrev kOf (c : ECfg) (va ra : Nat → Nat) (s : St) : Ctx := ctxAt c va ra s.module s.rel

theorem Same.kOf {a b : St} (h : Same a b) : kOf c va ra b = kOf c va ra a := by
  simp only [Dyon.kOf, h.module, h.rel]
theorem Ext.kOf {a b : St} (h : Ext a b) : kOf c va ra b = kOf c va ra a := by
  simp only [Dyon.kOf, h.module, h.rel]

/-- What an error leaves. -/
def Err (c : ECfg) (va ra : Nat → Nat) (st : St) : St → Prop :=
  fun s => ExtE st s ∧ ClosuresWF c va ra s

/-- What evaluating `e` in `st` gives. -/
structure PostR (c : ECfg) (va ra : Nat → Nat) (e : Expr) (st : St) (r : R) (s : St) : Prop where
  inv : ClosuresWF c va ra s
  ext : Ext st s
  value : ∀ v, r.1 = some v → r.2 = .cont → Same st s
  quiet : r.2 ≠ .ret → e.leaves = false → Same st s
  valued : r.1 = none → r.2 = .cont → Valued (kOf c va ra st) e = false
  swizzle : e.isSwizzle = true → r.2 = .cont → r.1 = none ∧ Grown e.width st s

/-- The evaluator of sub-expressions behaves. -/
def Good (c : ECfg) (va ra : Nat → Nat) (ev : Evl) : Prop :=
  ∀ e side st, ClosuresWF c va ra st → e.WF (kOf c va ra st) →
    wp (ev e side) (PostR c va ra e st) (Err c va ra st) st

variable {ev : Evl} {α β : Type} {st st0 : St}

theorem Err.mono {a b s : St} (h : ExtE a b) (h' : Err c va ra b s) : Err c va ra a s :=
  ⟨h.trans h'.1, h'.2⟩

theorem ClosuresWF.of_eq {a b : St} (h : ClosuresWF c va ra a) (he : b.closures = a.closures) :
    ClosuresWF c va ra b := by simpa only [ClosuresWF, he] using h

theorem wp_quiet {m : EM α} {f : α → EM β} {Q} (hq : Quiet m) (h0 : ExtE st0 st)
    (hi : ClosuresWF c va ra st)
    (h : ∀ a s, Same st s → ClosuresWF c va ra s → wp (f a) Q (Err c va ra st0) s) :
    wp (m >>= f) Q (Err c va ra st0) st :=
  wp_bind (wp_mono (hq.run st) (fun a s hs => h a s hs.1 (hi.of_eq hs.2))
    fun _ hs => ⟨h0.trans hs.1.extE, hi.of_eq hs.2⟩)

theorem wp_quiet' {m : EM α} {Q} (hq : Quiet m) (h0 : ExtE st0 st) (hi : ClosuresWF c va ra st)
    (h : ∀ a s, Same st s → ClosuresWF c va ra s → Q a s) : wp m Q (Err c va ra st0) st :=
  wp_mono (hq.run st) (fun a s hs => h a s hs.1 (hi.of_eq hs.2))
    fun _ hs => ⟨h0.trans hs.1.extE, hi.of_eq hs.2⟩

theorem wp_ev (hev : Good c va ra ev) {e side} {f : R → EM β} {Q} (h0 : ExtE st0 st)
    (hi : ClosuresWF c va ra st) (hw : e.WF (kOf c va ra st))
    (h : ∀ r s, PostR c va ra e st r s → wp (f r) Q (Err c va ra st0) s) :
    wp (ev e side >>= f) Q (Err c va ra st0) st :=
  wp_bind (wp_mono (hev e side st hi hw) h fun _ hs => hs.mono h0)

theorem wp_wantK (hev : Good c va ra ev) {e side msg} {r : Option Val → EM β} {k : Val → EM β} {Q}
    (h0 : ExtE st0 st) (hi : ClosuresWF c va ra st) (hw : e.WF (kOf c va ra st))
    (hr : ∀ x s, Ext st s → ClosuresWF c va ra s → wp (r x) Q (Err c va ra st0) s)
    (hk : ∀ x s, Same st s → ClosuresWF c va ra s → wp (k x) Q (Err c va ra st0) s) :
    wp (wantK ev e side msg r k) Q (Err c va ra st0) st := by
  refine wp_ev hev h0 hi hw ?_
  rintro ⟨_ | x, _ | _ | _ | _⟩ s hp
  case none.ret => exact hr _ _ hp.ext hp.inv
  case some.ret => exact hr _ _ hp.ext hp.inv
  case some.cont => exact hk _ _ (hp.value _ rfl rfl) hp.inv
  all_goals exact wp_errT ⟨h0.trans hp.ext.extE, hp.inv⟩

/-! ## Scopes -/

theorem wp_scope1 {m : EM (Bool × α)} {Q : α → St → Prop} {E}
    (h : wp m (fun r s => if r.1 then Q r.2 { s with stack := s.stack.take st.stack.length }
      else Q r.2 s) E st) : wp (scope1 m) Q E st := by
  refine wp_bind (wp_get (wp_bind (wp_mono h ?_ fun _ h => h)))
  rintro ⟨_ | _, a⟩ s h
  · exact h
  · exact h

theorem wp_scope2 {m : EM (Bool × α)} {Q : α → St → Prop} {E}
    (h : wp m (fun r s => if r.1 then Q r.2 { s with
      stack := s.stack.take st.stack.length, locals := s.locals.take st.locals.length }
      else Q r.2 s) E st) : wp (scope2 m) Q E st := by
  refine wp_bind (wp_get (wp_bind (wp_mono h ?_ fun _ h => h)))
  rintro ⟨_ | _, a⟩ s h
  · exact h
  · exact h

theorem wp_scope3 {m : EM (Bool × α)} {Q : α → St → Prop} {E}
    (h : wp m (fun r s => if r.1 then Q r.2 { s with
      stack := s.stack.take st.stack.length, locals := s.locals.take st.locals.length,
      currents := s.currents.take st.currents.length }
      else Q r.2 s) E st) : wp (scope3 m) Q E st := by
  refine wp_bind (wp_get (wp_bind (wp_mono h ?_ fun _ h => h)))
  rintro ⟨_ | _, a⟩ s h
  · exact h
  · exact h

theorem wp_loopN {σ α} {n : Nat} {f : σ → EM (σ ⊕ α)} {Q E} (J : σ → St → Prop)
    (hf : ∀ s st, J s st → wp (f s) (fun r st' => match r with
      | .inl s' => J s' st'
      | .inr a => Q a st') E st) {s : σ} (hs : J s st) : wp (loopN n f s) Q E st := by
  induction n generalizing s st with
  | zero => exact wp_timeout
  | succ n ih =>
    refine wp_bind (wp_mono (hf s st hs) ?_ fun _ h => h)
    rintro (s' | a) st' h
    · exact ih h
    · exact h

/-! ## Blocks -/

theorem wp_seqs (hev : Good c va ra ev) {es : List Expr} {x : Option Val} (h0 : ExtE st0 st)
    (hi : ClosuresWF c va ra st) (hw : WFs (kOf c va ra st) es) :
    wp (seqs ev es x) (fun r s => r.1 = true ∧ ClosuresWF c va ra s ∧ Ext st s ∧
      (r.2.1 = none → r.2.2 = .cont → ValuedLast (kOf c va ra st) es = false))
      (Err c va ra st0) st := by
  induction es generalizing st x with
  | nil => exact wp_pure ⟨rfl, hi, .rfl, fun _ _ => by simp [ValuedLast]⟩
  | cons e es ih =>
    rw [WFs] at hw
    refine wp_ev hev h0 hi hw.1 ?_
    rintro ⟨x, _ | _ | _ | _⟩ s hp
    · by_cases hes : es = []
      · subst hes
        refine wp_pure ⟨rfl, hp.inv, hp.ext, fun h1 h2 => ?_⟩
        simpa [ValuedLast] using hp.valued h1 h2
      · refine wp_mono (ih (h0.trans hp.ext.extE) hp.inv (by rw [hp.ext.kOf]; exact hw.2)) ?_
          fun _ h => h
        rintro r t ⟨h1, h2, h3, h4⟩
        refine ⟨h1, h2, hp.ext.trans h3, fun h5 h6 => ?_⟩
        have := h4 h5 h6
        rw [hp.ext.kOf] at this
        cases es with
        | nil => simp at hes
        | cons e' es => simpa [ValuedLast] using this
    all_goals exact wp_pure ⟨rfl, hp.inv, hp.ext, fun _ h => by cases h⟩

theorem wp_block (hev : Good c va ra ev) {es : List Expr} (h0 : ExtE st0 st)
    (hi : ClosuresWF c va ra st) (hw : WFs (kOf c va ra st) es) :
    wp (block ev es) (fun r s => ClosuresWF c va ra s ∧ Same st s ∧
      (r.1 = none → r.2 = .cont → ValuedLast (kOf c va ra st) es = false))
      (Err c va ra st0) st := by
  refine wp_scope3 (wp_mono (wp_seqs hev h0 hi hw) ?_ fun _ h => h)
  rintro ⟨b, r⟩ s ⟨rfl, h2, h3, h4⟩
  exact ⟨h2, h3.cut3, h4⟩

/-! ## Numbers -/

theorem wp_wantNum (hev : Good c va ra ev) {e msg} {r : Option Val → EM β} {k : F64 → EM β} {Q}
    (h0 : ExtE st0 st) (hi : ClosuresWF c va ra st) (hw : e.WF (kOf c va ra st))
    (hr : ∀ x s, Ext st s → ClosuresWF c va ra s → wp (r x) Q (Err c va ra st0) s)
    (hk : ∀ x s, Same st s → ClosuresWF c va ra s → wp (k x) Q (Err c va ra st0) s) :
    wp (wantNum ev e msg r k) Q (Err c va ra st0) st := by
  refine wp_wantK hev h0 hi hw hr fun x s hs hi' => ?_
  refine wp_quiet (.derefE _) (h0.trans hs.extE) hi' fun d t ht hi'' => ?_
  split
  · exact hk _ _ (hs.trans ht) hi''
  · exact wp_errExpected ⟨h0.trans (hs.trans ht).extE, hi''⟩

theorem wp_wantStart (hev : Good c va ra ev) {e} {r : Option Val → EM β} {k : F64 → EM β} {Q}
    (h0 : ExtE st0 st) (hi : ClosuresWF c va ra st) (hw : WFopt (kOf c va ra st) e)
    (hr : ∀ x s, Ext st s → ClosuresWF c va ra s → wp (r x) Q (Err c va ra st0) s)
    (hk : ∀ x s, Same st s → ClosuresWF c va ra s → wp (k x) Q (Err c va ra st0) s) :
    wp (wantStart ev e r k) Q (Err c va ra st0) st := by
  cases e with
  | none => exact hk _ _ .rfl hi
  | some e => rw [WFopt] at hw; exact wp_wantNum hev h0 hi hw hr hk

/-! ## Loops -/

/-- What one round of a loop leaves. -/
def RoundPost {σ} (c : ECfg) (va ra : Nat → Nat) (J : σ → Prop) (st : St) (r : Round σ) (s : St) :
    Prop :=
  ClosuresWF c va ra s ∧ (match r with
    | .go a => J a ∧ Same st s
    | .stop a f => J a ∧ Same st s ∧ f ≠ .ret
    | .exit r => Ext st s ∧ r.2 = .ret)

/-- What a loop leaves. -/
def LoopPost {σ} (c : ECfg) (va ra : Nat → Nat) (J : σ → Prop) (st : St) (a : σ × R) (s : St) :
    Prop :=
  ClosuresWF c va ra s ∧ Ext st s ∧ (a.2.2 ≠ .ret → Same st s ∧ J a.1 ∧ a.2.1 = none)

/-- The state in a loop: one more local, one more value. -/
structure InLoop (name : String) (a b : St) : Prop where
  module : b.module = a.module
  calls : b.calls = a.calls
  locals : b.locals = a.locals ++ [(name, a.stack.length)]
  currents : b.currents = a.currents
  stack : b.stack.length = a.stack.length + 1

theorem InLoop.ext {name} {a b : St} (h : InLoop name a b) : Ext a b :=
  ⟨h.1, h.2, h.3 ▸ List.prefix_append _ _, h.4 ▸ List.prefix_rfl, by have := h.5; omega⟩
theorem InLoop.same {name} {a b d : St} (h : InLoop name a b) (h' : Same b d) : InLoop name a d :=
  ⟨h'.1.trans h.1, h'.2.trans h.2, h'.3.trans h.3, h'.4.trans h.4, h'.5.trans h.5⟩
theorem InLoop.cut2 {name} {a b : St} (h : InLoop name a b) : Same a { b with
    stack := b.stack.take a.stack.length, locals := b.locals.take a.locals.length } :=
  ⟨h.1, h.2, by simp [h.3], h.4, by simp [h.5]⟩
theorem InLoop.self {name} {a b : St} (h : InLoop name a b) : { b with
    stack := b.stack.take (a.stack.length + 1), locals := b.locals.take (a.locals.length + 1) } = b := by
  have h1 : b.stack.take (a.stack.length + 1) = b.stack := by rw [← h.5, List.take_length]
  have h2 : b.locals.take (a.locals.length + 1) = b.locals := by
    rw [List.take_of_length_le]; simp [h.3]
  rw [h1, h2]

theorem wp_countLoop [FloatOps] (hev : Good c va ra ev) {σ} {n name start stop} {s₀ : σ}
    {round : σ → F64 → EM (Round σ)} (J : σ → Prop) (h0 : ExtE st0 st)
    (hi : ClosuresWF c va ra st) (hs : WFopt (kOf c va ra st) start)
    (hw : stop.WF (kOf c va ra st)) (hJ : J s₀)
    (hround : ∀ a x s, J a → Ext st s → ClosuresWF c va ra s →
      wp (round a x) (RoundPost c va ra J s) (Err c va ra s) s) :
    wp (countLoop n ev name start stop s₀ round) (LoopPost c va ra J st) (Err c va ra st0) st := by
  refine wp_scope2 (wp_wantStart hev h0 hi hs (fun x s hs hi => ?_) fun a s hs hi => ?_)
  · exact wp_pure ⟨hi, hs, fun h => absurd rfl h⟩
  refine wp_wantNum hev (h0.trans hs.extE) hi (by rw [hs.kOf]; exact hw) (fun x s' hs' hi => ?_)
    fun b s' hs' hi => ?_
  · exact wp_pure ⟨hi, hs.transExt hs', fun h => absurd rfl h⟩
  have hs := hs.trans hs'
  refine wp_bind (wp_get (wp_bind (wp_modify (wp_bind (wp_modify ?_)))))
  refine wp_loopN (fun a t => J a ∧ InLoop name s' t ∧ ClosuresWF c va ra t) ?_
    ⟨hJ, ⟨rfl, rfl, rfl, rfl, by simp⟩, hi⟩
  rintro a t ⟨hJ, hl, hi⟩
  have h0t : ExtE st0 t := h0.trans (hs.transE hl.ext.extE)
  refine wp_quiet (.slotE _) h0t hi fun v t1 ht1 hi => ?_
  have hl1 := hl.same ht1
  have h0t : ExtE st0 t1 := h0t.trans ht1.extE
  split
  · rename_i v _
    refine wp_ite (fun _ => ?_) fun _ => ?_
    · refine wp_bind (wp_mono (hround a v t1 hJ (hs.transExt hl1.ext) hi) ?_ fun _ h => h.mono h0t)
      rintro (a' | ⟨a', f⟩ | r) t2 ⟨hi, hr⟩
      · refine wp_quiet (.incSlot _) (h0t.trans hr.2.extE) hi fun _ t3 ht3 hi => ?_
        have hl3 := (hl1.same hr.2).same ht3
        refine wp_bind (wp_modify (wp_bind (wp_modify (wp_pure ?_))))
        refine ⟨hr.1, ?_, hi⟩
        have := hl3.self
        simp only at this ⊢
        rw [this]; exact hl3
      · refine wp_pure ⟨hi, ?_, fun _ => ⟨?_, hr.1, rfl⟩⟩
        · rw [← hs.5, ← hs.3]; exact hs.transExt (hl1.same hr.2.1).cut2.ext
        · rw [← hs.5, ← hs.3]; exact hs.trans (hl1.same hr.2.1).cut2
      · refine wp_pure ⟨hi, hs.transExt (hl1.ext.trans hr.1), fun h => absurd hr.2 h⟩
    · refine wp_pure ⟨hi, ?_, fun _ => ⟨?_, hJ, rfl⟩⟩
      · rw [← hs.5, ← hs.3]; exact hs.transExt hl1.cut2.ext
      · rw [← hs.5, ← hs.3]; exact hs.trans hl1.cut2
  · exact wp_errExpected ⟨h0t, hi⟩

theorem wp_chanLoop (hev : Good c va ra ev) {σ} {n name iter} {e₀ s₀ : σ}
    {round : σ → Nat → EM (Round σ)} (J : σ → Prop) (h0 : ExtE st0 st)
    (hi : ClosuresWF c va ra st) (hw : iter.WF (kOf c va ra st)) (hJ : J s₀) (hJ' : J e₀)
    (hround : ∀ a x s, J a → Ext st s → ClosuresWF c va ra s →
      wp (round a x) (RoundPost c va ra J s) (Err c va ra s) s) :
    wp (chanLoop c n ev name iter e₀ s₀ round) (LoopPost c va ra J st) (Err c va ra st0) st := by
  refine wp_scope2 (wp_wantK hev h0 hi hw (fun x s hs hi => ?_) fun a s hs hi => ?_)
  · exact wp_pure ⟨hi, hs, fun h => absurd rfl h⟩
  refine wp_quiet (.derefE _) (h0.trans hs.extE) hi fun d s' hs' hi => ?_
  have hs := hs.trans hs'
  have h0s : ExtE st0 s' := h0.trans hs.extE
  split
  · rename_i ch
    refine wp_quiet (.recvE _ _) h0s hi fun o s1 hs1 hi => ?_
    have hs := hs.trans hs1
    cases o with
    | none => exact wp_pure ⟨hi, hs.ext, fun _ => ⟨hs, hJ', rfl⟩⟩
    | some v =>
      refine wp_bind (wp_get (wp_bind (wp_modify (wp_bind (wp_modify ?_)))))
      refine wp_loopN (fun a t => J a ∧ InLoop name s1 t ∧ ClosuresWF c va ra t) ?_
        ⟨hJ, ⟨rfl, rfl, rfl, rfl, by simp⟩, hi⟩
      rintro a t ⟨hJ, hl, hi⟩
      have h0t : ExtE st0 t := h0.trans (hs.transE hl.ext.extE)
      refine wp_bind (wp_mono (hround a _ t hJ (hs.transExt hl.ext) hi) ?_ fun _ h => h.mono h0t)
      rintro (a' | ⟨a', f⟩ | r) t2 ⟨hi, hr⟩
      · refine wp_quiet (.recvE _ _) (h0t.trans hr.2.extE) hi fun o t3 ht3 hi => ?_
        have hl3 := (hl.same hr.2).same ht3
        cases o with
        | none =>
          refine wp_pure ⟨hi, ?_, fun _ => ⟨?_, hr.1, rfl⟩⟩
          · rw [← hs.5, ← hs.3]; exact hs.transExt hl3.cut2.ext
          · rw [← hs.5, ← hs.3]; exact hs.trans hl3.cut2
        | some v =>
          refine wp_quiet (.writeE _ _) (h0.trans (hs.transE hl3.ext.extE)) hi
            fun _ t4 ht4 hi => ?_
          have hl4 := hl3.same ht4
          refine wp_bind (wp_modify (wp_bind (wp_modify (wp_pure ?_))))
          refine ⟨hr.1, ?_, hi⟩
          have := hl4.self
          simp only at this ⊢
          rw [this]; exact hl4
      · refine wp_pure ⟨hi, ?_, fun _ => ⟨?_, hr.1, rfl⟩⟩
        · rw [← hs.5, ← hs.3]; exact hs.transExt (hl.same hr.2.1).cut2.ext
        · rw [← hs.5, ← hs.3]; exact hs.trans (hl.same hr.2.1).cut2
      · refine wp_pure ⟨hi, hs.transExt (hl.ext.trans hr.1), fun h => absurd hr.2 h⟩
  · exact wp_errExpected ⟨h0s, hi⟩

theorem onBreak_ne {label l} : onBreak label l ≠ .ret := by
  unfold onBreak; split <;> (try split) <;> simp
theorem onContinue_ne {label l f} (h : onContinue label l = some f) : f ≠ .ret := by
  unfold onContinue at h; split at h <;> (try split at h) <;> simp_all
  rintro rfl; cases h

theorem wp_bodyRound (hev : Good c va ra ev) {σ} {body label}
    {step : σ → Option Val → EM (σ × Bool)} {a : σ} (J : σ → Prop)
    (hi : ClosuresWF c va ra st) (hw : WFs (kOf c va ra st) body) (hJ : J a)
    (hq : ∀ a x, Quiet (step a x))
    (hstep : ∀ a x st, J a → wp (step a x) (fun r _ => J r.1) (fun _ => True) st) :
    wp (bodyRound ev body label step a) (RoundPost c va ra J st) (Err c va ra st) st := by
  refine wp_bind (wp_mono (wp_block hev .rfl hi hw) ?_ fun _ h => h)
  rintro ⟨x, _ | _ | l | l⟩ s ⟨hi, hs, _⟩
  · refine wp_bind (wp_mono (wp_and (wp_quiet' (Q := fun _ t => Same s t ∧ ClosuresWF c va ra t)
      (hq a x) hs.extE hi fun a s h1 h2 => ⟨h1, h2⟩)
      (hstep a x s hJ)) ?_ fun _ h => h.1)
    rintro ⟨a', b⟩ t ⟨⟨h1, h2⟩, h3⟩
    cases b
    · exact wp_pure ⟨h2, h3, hs.trans h1⟩
    · exact wp_pure ⟨h2, h3, hs.trans h1, by simp⟩
  · exact wp_pure ⟨hi, hs.ext, rfl⟩
  · exact wp_pure ⟨hi, hJ, hs, onBreak_ne⟩
  · refine wp_pure ?_
    cases ho : onContinue label l with
    | none => exact ⟨hi, hJ, hs⟩
    | some f => exact ⟨hi, hJ, hs, onContinue_ne ho⟩

theorem forKind_step_isSome [FloatOps] {k : ForKind} {ind acc x} (hk : k ≠ .forN) :
    wp (k.step ind acc x) (fun r _ => acc.isSome → r.1.isSome) (fun _ => True) st := by
  unfold ForKind.step
  split
  · exact absurd rfl hk
  · exact wp_fail trivial
  · unfold accSift; split
    · exact wp_pure (by simp)
    · exact wp_panic
  · refine wp_bind (wp_mono ((Quiet.derefE _).run st) (fun d s _ => ?_) fun _ _ => trivial)
    split
    all_goals try exact wp_pure (fun h => h)
    · unfold accSum; split
      · exact wp_pure (by simp)
      · exact wp_errExpected trivial
    · unfold accProd; split
      · exact wp_pure (by simp)
      · exact wp_errExpected trivial
    · unfold accSumVec4; split
      · exact wp_pure (by simp)
      · exact wp_errExpected trivial
    · unfold accProdVec4; split
      · exact wp_pure (by simp)
      · exact wp_errExpected trivial
    · unfold accMin; split
      · exact wp_ite (fun _ => wp_pure (by simp)) fun _ => wp_pure (by simp)
      · exact wp_errExpected trivial
    · unfold accMax; split
      · exact wp_ite (fun _ => wp_pure (by simp)) fun _ => wp_pure (by simp)
      · exact wp_errExpected trivial
    · unfold accAny; split
      · exact wp_ite (fun _ => wp_pure (by simp)) fun _ => wp_pure (by simp)
      · exact wp_errExpected trivial
    · unfold accAll; split
      · exact wp_ite (fun _ => wp_pure (by simp)) fun _ => wp_pure (by simp)
      · exact wp_errExpected trivial

theorem wp_linkItems (hev : Good c va ra ev) {label items l} (hi : ClosuresWF c va ra st)
    (hw : WFs (kOf c va ra st) items) (hl : ∀ e ∈ items, e.leaves = false) :
    wp (linkItems ev label items l) (RoundPost c va ra (fun _ => True) st) (Err c va ra st) st := by
  suffices ∀ s, Same st s → ClosuresWF c va ra s →
      wp (linkItems ev label items l) (RoundPost c va ra (fun _ => True) st) (Err c va ra st) s
    from this st .rfl hi
  induction items generalizing l with
  | nil => exact fun s hs hi => wp_pure ⟨hi, trivial, hs⟩
  | cons e es ih =>
    intro s hs hi
    rw [WFs] at hw
    have ih := fun l => ih (l := l) hw.2 fun e he => hl e (List.mem_cons_of_mem _ he)
    have hle := hl e (by simp)
    refine wp_ev hev hs.extE hi (by rw [hs.kOf]; exact hw.1) ?_
    rintro ⟨x, f⟩ t hp
    by_cases hf : f = .ret
    · subst hf
      cases x <;> exact wp_pure ⟨hp.inv, hs.transExt hp.ext, rfl⟩
    · have hst := hs.trans (hp.quiet hf hle)
      rcases x with _ | x <;> rcases f with _ | _ | f | f
      · exact ih _ _ hst hp.inv
      · exact absurd rfl hf
      · exact wp_pure ⟨hp.inv, trivial, hst, onBreak_ne⟩
      · refine wp_pure ?_
        cases ho : onContinue label f with
        | none => exact ⟨hp.inv, trivial, hst⟩
        | some f => exact ⟨hp.inv, trivial, hst, onContinue_ne ho⟩
      · refine wp_quiet (.derefE _) hst.extE hp.inv fun d u hu hi => ?_
        split
        · exact ih _ _ (hst.trans hu) hi
        · exact wp_errT ⟨(hst.trans hu).extE, hi⟩
      · exact absurd rfl hf
      · exact wp_pure ⟨hp.inv, trivial, hst, onBreak_ne⟩
      · refine wp_pure ?_
        cases ho : onContinue label f with
        | none => exact ⟨hp.inv, trivial, hst⟩
        | some f => exact ⟨hp.inv, trivial, hst, onContinue_ne ho⟩

theorem roundPost_linkNested {label r s} (h : LoopPost c va ra (fun _ => True) st r s) :
    RoundPost c va ra (fun _ => True) st (linkNested label r) s := by
  obtain ⟨l, x, f⟩ := r
  obtain ⟨hi, hx, hn⟩ := h
  by_cases hf : f = .ret
  · subst hf; cases x <;> exact ⟨hi, hx, rfl⟩
  · obtain ⟨hs, -, hx⟩ := hn hf
    simp only at hx
    subst hx
    rcases f with _ | _ | f | f
    · exact ⟨hi, trivial, hs⟩
    · exact absurd rfl hf
    · exact ⟨hi, trivial, hs, onBreak_ne⟩
    · simp only [linkNested]
      cases ho : onContinue label f with
      | none => exact ⟨hi, trivial, hs⟩
      | some f => exact ⟨hi, trivial, hs, onContinue_ne ho⟩

theorem wp_linkForN [FloatOps] (hev : Good c va ra ev) {n l name start stop body label}
    (h0 : ExtE st0 st) (hi : ClosuresWF c va ra st)
    (hw : (Expr.forN .linkFor name start stop body label).WF (kOf c va ra st)) :
    wp (linkForN n ev l name start stop body label) (LoopPost c va ra (fun _ => True) st)
      (Err c va ra st0) st := by
  induction n generalizing l name start stop body label st st0 with
  | zero => exact wp_timeout
  | succ n ih =>
    rw [Expr.WF] at hw
    rw [linkForN]
    refine wp_countLoop hev _ h0 hi hw.1 hw.2.1 trivial fun a x s _ hs hi => ?_
    have hb := hw.2.2.1
    have hlb := hw.2.2.2 rfl
    rw [← hs.kOf] at hb
    split
    · rw [WFs, Expr.WF] at hb
      rw [linkBody] at hlb
      exact wp_linkItems hev hi hb.1 hlb
    · rw [WFs] at hb
      exact wp_bind (wp_mono (ih .rfl hi hb.1) (fun r t h => wp_pure (roundPost_linkNested h))
        fun _ h => h)
    · exact wp_panic
    · exact wp_panic

theorem wp_linkForIn (hev : Good c va ra ev) {n l name iter body label}
    (h0 : ExtE st0 st) (hi : ClosuresWF c va ra st)
    (hw : (Expr.forIn .link name iter body label).WF (kOf c va ra st)) :
    wp (linkForIn c n ev l name iter body label) (LoopPost c va ra (fun _ => True) st)
      (Err c va ra st0) st := by
  induction n generalizing l name iter body label st st0 with
  | zero => exact wp_timeout
  | succ n ih =>
    rw [Expr.WF] at hw
    rw [linkForIn]
    refine wp_chanLoop hev _ h0 hi hw.1 trivial trivial fun a x s _ hs hi => ?_
    have hb := hw.2.1
    have hlb := hw.2.2 rfl
    rw [← hs.kOf] at hb
    split
    · rw [WFs, Expr.WF] at hb
      rw [linkBody] at hlb
      exact wp_linkItems hev hi hb.1 hlb
    · rw [WFs] at hb
      exact wp_bind (wp_mono (ih .rfl hi hb.1) (fun r t h => wp_pure (roundPost_linkNested h))
        fun _ h => h)
    · exact wp_panic
    · exact wp_panic

end Dyon
