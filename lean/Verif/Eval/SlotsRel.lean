import Verif.Eval.Slots
import Verif.Eval.TryProps
import Verif.Eval.PlaceLemmas

/-!
# Evaluation by slot and by name agree: combinators

Lemmas for C24.
-/

namespace Dyon

variable {lost : Option String} {c : ECfg} {va ra : Nat → Nat} {ev ev' : Evl} {α β : Type} {st st0 : St} {Γ : Env}

/-- Two computations give the same result, and every closure stays resolved. -/
def Rel (c : ECfg) (va ra : Nat → Nat) (m m' : EM α) (st : St) : Prop :=
  m' st = m st ∧ wp m (fun _ s => ClosRes c va ra s) (ClosRes c va ra) st

/-- What is known of the parameters of callees in a state. -/
abbrev arOf (c : ECfg) (s : St) : Int → Nat := arAt c s.module s.rel

theorem Same.arOf {a b : St} (h : Same a b) : arOf c b = arOf c a := by
  simp only [Dyon.arOf, h.module, h.rel]
theorem Ext.arOf {a b : St} (h : Ext a b) : arOf c b = arOf c a := by
  simp only [Dyon.arOf, h.module, h.rel]

/-- An expression that ends without `return`, `break` or `continue` leaves the stacks as they
were, but for the variable it declares. -/
structure LeftBy (Δ : Env) (a b : St) : Prop where
  calls : b.calls = a.calls
  locals : b.locals = a.locals ++ slotsOf a.stack.length Δ
  stack : b.stack.length = a.stack.length + Δ.length

theorem decl_cases (e : Expr) : decl e = [] ∨ ∃ x, decl e = [some x] := by
  unfold decl
  split
  · split
    · exact .inr ⟨_, rfl⟩
    · exact .inl rfl
  · exact .inl rfl

theorem LeftBy.aligned {Δ a b} (h : LeftBy Δ a b) (hd : Δ = [] ∨ ∃ x, Δ = [some x])
    (ha : Aligned Γ a) : Aligned (Γ ++ Δ) b := by
  rcases hd with rfl | ⟨x, rfl⟩
  · simpa using ha.of_eq h.calls (by simpa [slotsOf] using h.locals) h.stack
  · exact ha.pushNamed h.calls h.locals h.stack

/-- The two evaluators of sub-expressions agree on resolved expressions. -/
def Agrees (c : ECfg) (va ra : Nat → Nat) (ev ev' : Evl) : Prop :=
  ∀ e side st Γ, ClosuresWF c va ra st → ClosRes c va ra st → e.WF (kOf c va ra st) →
    e.Res (kOf c va ra st) (arOf c st) Γ [] → Aligned Γ st →
    Rel c va ra (ev e side) (ev' e side) st ∧
    wp (ev e side) (fun r s => r.2 = .cont → e.isSwizzle = false → LeftBy (decl e) st s)
      (fun _ => True) st

theorem Rel.refl {m : EM α} (h : wp m (fun _ s => ClosRes c va ra s) (ClosRes c va ra) st) :
    Rel c va ra m m st := ⟨rfl, h⟩

theorem Rel.of_eq {m m' a a' : EM α} {s : St} (h : Rel c va ra a a' s) (h1 : m st = a s)
    (h2 : m' st = a' s) : Rel c va ra m m' st := by
  refine ⟨by rw [h1, h2]; exact h.1, ?_⟩
  have := h.2
  unfold wp at *
  rw [h1]; exact this

theorem rel_pure {a : α} (h : ClosRes c va ra st) : Rel c va ra (pure a) (pure a) st := .refl h
theorem rel_errT {msg} (h : ClosRes c va ra st) : Rel c va ra (errT msg : EM α) (errT msg) st := .refl h
theorem rel_panic {msg} : Rel c va ra (EM.panic msg : EM α) (EM.panic msg) st := .refl trivial
theorem rel_timeout : Rel c va ra (EM.timeout : EM α) EM.timeout st := .refl trivial

theorem Rel.quiet {m : EM α} (hq : Quiet m) (h : ClosRes c va ra st) : Rel c va ra m m st := by
  refine .refl (wp_mono (hq.run st) (fun _ s hs => ?_) fun s hs => ?_)
  · simpa only [ClosRes, hs.2] using h
  · simpa only [ClosRes, hs.2] using h

theorem rel_bind {m m' : EM α} {f f' : α → EM β} {P : α → St → Prop} {E}
    (hm : Rel c va ra m m' st) (hw : wp m P E st)
    (hf : ∀ a s, P a s → ClosRes c va ra s → Rel c va ra (f a) (f' a) s) :
    Rel c va ra (m >>= f) (m' >>= f') st := by
  obtain ⟨h1, h2⟩ := hm
  have hb : wp (m >>= f) (fun _ s => ClosRes c va ra s) (ClosRes c va ra) st := by
    refine wp_bind ?_
    unfold wp at h2 hw ⊢
    cases hx : m st <;> simp_all
    exact (hf _ _ hw h2).2
  refine ⟨?_, hb⟩
  show EM.bind m' f' st = EM.bind m f st
  simp only [EM.bind, h1]
  unfold wp at h2 hw
  cases hx : m st <;> simp_all
  exact (hf _ _ hw h2).1

theorem rel_get {f f' : St → EM β} (h : Rel c va ra (f st) (f' st) st) :
    Rel c va ra (EM.get >>= f) (EM.get >>= f') st := h.of_eq rfl rfl

theorem rel_modify {g : St → St} {f f' : Unit → EM β} (h : Rel c va ra (f ()) (f' ()) (g st)) :
    Rel c va ra (EM.modify g >>= f) (EM.modify g >>= f') st := h.of_eq rfl rfl

theorem rel_push {x} {f f' : Unit → EM β}
    (h : Rel c va ra (f ()) (f' ()) { st with stack := st.stack ++ [x] }) :
    Rel c va ra (pushE x >>= f) (pushE x >>= f') st := rel_modify h

theorem rel_quiet {m : EM α} {f f' : α → EM β} (hq : Quiet m) (hi : ClosuresWF c va ra st)
    (hc : ClosRes c va ra st)
    (hf : ∀ a s, Same st s → ClosuresWF c va ra s → ClosRes c va ra s → Rel c va ra (f a) (f' a) s) :
    Rel c va ra (m >>= f) (m >>= f') st :=
  rel_bind (P := fun _ s => Same st s ∧ ClosuresWF c va ra s) (E := fun _ => True) (.quiet hq hc)
    (wp_mono (hq.run st) (fun _ s hs => ⟨hs.1, hi.of_eq hs.2⟩) fun _ _ => trivial)
    fun a s h hc => hf a s h.1 h.2 hc

theorem rel_ev' (hg : Good c va ra ev) (ha : Agrees c va ra ev ev') {e side} {f f' : R → EM β}
    (hi : ClosuresWF c va ra st) (hc : ClosRes c va ra st) (hw : e.WF (kOf c va ra st))
    (hr : e.Res (kOf c va ra st) (arOf c st) Γ []) (hal : Aligned Γ st)
    (h : ∀ r s, PostR c va ra e st r s → ClosRes c va ra s →
      (r.2 = .cont → e.isSwizzle = false → LeftBy (decl e) st s) → Rel c va ra (f r) (f' r) s) :
    Rel c va ra (ev e side >>= f) (ev' e side >>= f') st :=
  rel_bind (ha e side st Γ hi hc hw hr hal).1
    (wp_and (hg e side st hi hw) (ha e side st Γ hi hc hw hr hal).2)
    fun r s hp hc => h r s hp.1 hc hp.2

theorem rel_ev (hg : Good c va ra ev) (ha : Agrees c va ra ev ev') {e side} {f f' : R → EM β}
    (hi : ClosuresWF c va ra st) (hc : ClosRes c va ra st) (hw : e.WF (kOf c va ra st))
    (hr : e.Res (kOf c va ra st) (arOf c st) Γ []) (hal : Aligned Γ st)
    (h : ∀ r s, PostR c va ra e st r s → ClosRes c va ra s →
      (r.2 = .cont → e.isSwizzle = false → Aligned (Γ ++ decl e) s) → Rel c va ra (f r) (f' r) s) :
    Rel c va ra (ev e side >>= f) (ev' e side >>= f') st :=
  rel_ev' hg ha hi hc hw hr hal fun r s hp hc hl =>
    h r s hp hc fun h1 h2 => (hl h1 h2).aligned (decl_cases e) hal

theorem rel_wantK (hg : Good c va ra ev) (ha : Agrees c va ra ev ev') {e side msg}
    {r r' : Option Val → EM β} {k k' : Val → EM β}
    (hi : ClosuresWF c va ra st) (hc : ClosRes c va ra st) (hw : e.WF (kOf c va ra st))
    (hr : e.Res (kOf c va ra st) (arOf c st) Γ []) (hal : Aligned Γ st)
    (hret : ∀ x s, ClosRes c va ra s → Rel c va ra (r x) (r' x) s)
    (hk : ∀ x s, Same st s → ClosuresWF c va ra s → ClosRes c va ra s → Rel c va ra (k x) (k' x) s) :
    Rel c va ra (wantK ev e side msg r k) (wantK ev' e side msg r' k') st := by
  refine rel_ev hg ha hi hc hw hr hal ?_
  rintro ⟨_ | x, _ | _ | _ | _⟩ s hp hc -
  case none.ret => exact hret _ _ hc
  case some.ret => exact hret _ _ hc
  case some.cont => exact hk _ _ (hp.value _ rfl rfl) hp.inv hc
  all_goals exact rel_errT hc

theorem rel_want (hg : Good c va ra ev) (ha : Agrees c va ra ev ev') {e side msg}
    {k k' : Val → EM R}
    (hi : ClosuresWF c va ra st) (hc : ClosRes c va ra st) (hw : e.WF (kOf c va ra st))
    (hr : e.Res (kOf c va ra st) (arOf c st) Γ []) (hal : Aligned Γ st)
    (hk : ∀ x s, Same st s → ClosuresWF c va ra s → ClosRes c va ra s → Rel c va ra (k x) (k' x) s) :
    Rel c va ra (want ev e side msg k) (want ev' e side msg k') st :=
  rel_wantK hg ha hi hc hw hr hal (fun _ _ h => rel_pure h) hk

theorem rel_scope1 {m m' : EM (Bool × α)} (h : Rel c va ra m m' st) :
    Rel c va ra (scope1 m) (scope1 m') st := by
  refine rel_get (rel_bind (P := fun _ _ => True) (E := fun _ => True) h
    (by unfold wp; split <;> trivial) ?_)
  rintro ⟨_ | _, a⟩ s - hc
  · exact rel_pure hc
  · exact rel_modify (rel_pure hc)

theorem rel_scope2 {m m' : EM (Bool × α)} (h : Rel c va ra m m' st) :
    Rel c va ra (scope2 m) (scope2 m') st := by
  refine rel_get (rel_bind (P := fun _ _ => True) (E := fun _ => True) h
    (by unfold wp; split <;> trivial) ?_)
  rintro ⟨_ | _, a⟩ s - hc
  · exact rel_pure hc
  · exact rel_modify (rel_modify (rel_pure hc))

theorem rel_scope3 {m m' : EM (Bool × α)} (h : Rel c va ra m m' st) :
    Rel c va ra (scope3 m) (scope3 m') st := by
  refine rel_get (rel_bind (P := fun _ _ => True) (E := fun _ => True) h
    (by unfold wp; split <;> trivial) ?_)
  rintro ⟨_ | _, a⟩ s - hc
  · exact rel_pure hc
  · exact rel_modify (rel_modify (rel_modify (rel_pure hc)))

theorem wp_true {m : EM α} : wp m (fun _ _ => True) (fun _ => True) st := by
  unfold wp; split <;> trivial

/-- Mapping the result. -/
theorem rel_map {m m' : EM α} {f : α → β} (h : Rel c va ra m m' st) :
    Rel c va ra (m >>= fun a => pure (f a)) (m' >>= fun a => pure (f a)) st :=
  rel_bind h wp_true fun _ _ _ hc => rel_pure hc

theorem rel_loopN {σ α} {n : Nat} {f f' : σ → EM (σ ⊕ α)} (J : σ → St → Prop)
    (hf : ∀ s st, J s st → ClosRes c va ra st → Rel c va ra (f s) (f' s) st ∧
      wp (f s) (fun r st' => match r with
        | .inl s' => J s' st'
        | .inr _ => True) (fun _ => True) st) {s : σ} (hs : J s st) (hc : ClosRes c va ra st) :
    Rel c va ra (loopN n f s) (loopN n f' s) st := by
  induction n generalizing s st with
  | zero => exact rel_timeout
  | succ n ih =>
    obtain ⟨h1, h2⟩ := hf s st hs hc
    refine rel_bind h1 h2 ?_
    rintro (s' | a) st' h hc
    · exact ih h hc
    · exact rel_pure hc

/-! ## Blocks -/

theorem rel_seqs (hg : Good c va ra ev) (ha : Agrees c va ra ev ev') {es : List Expr}
    {x : Option Val} (hi : ClosuresWF c va ra st) (hc : ClosRes c va ra st)
    (hw : WFs (kOf c va ra st) es) (hr : RSeq (kOf c va ra st) (arOf c st) es Γ [])
    (hal : Aligned Γ st) : Rel c va ra (seqs ev es x) (seqs ev' es x) st := by
  induction es generalizing st x Γ with
  | nil => exact rel_pure hc
  | cons e es ih =>
    rw [WFs] at hw
    rw [RSeq] at hr
    refine rel_ev hg ha hi hc hw.1 hr.1 hal ?_
    rintro ⟨x, _ | _ | _ | _⟩ s hp hc hal'
    · exact ih hp.inv hc (by rw [hp.ext.kOf]; exact hw.2)
        (by rw [hp.ext.kOf, hp.ext.arOf]; exact hr.2.2) (hal' rfl hr.2.1)
    all_goals exact rel_pure hc

theorem rel_block (hg : Good c va ra ev) (ha : Agrees c va ra ev ev') {es : List Expr}
    (hi : ClosuresWF c va ra st) (hc : ClosRes c va ra st)
    (hw : WFs (kOf c va ra st) es) (hr : RSeq (kOf c va ra st) (arOf c st) es Γ [])
    (hal : Aligned Γ st) : Rel c va ra (block ev es) (block ev' es) st :=
  rel_scope3 (rel_seqs hg ha hi hc hw hr hal)

/-! ## Numbers -/

theorem rel_wantNum (hg : Good c va ra ev) (ha : Agrees c va ra ev ev') {e msg}
    {r r' : Option Val → EM β} {k k' : F64 → EM β}
    (hi : ClosuresWF c va ra st) (hc : ClosRes c va ra st) (hw : e.WF (kOf c va ra st))
    (hr : e.Res (kOf c va ra st) (arOf c st) Γ []) (hal : Aligned Γ st)
    (hret : ∀ x s, ClosRes c va ra s → Rel c va ra (r x) (r' x) s)
    (hk : ∀ x s, Same st s → ClosuresWF c va ra s → ClosRes c va ra s → Rel c va ra (k x) (k' x) s) :
    Rel c va ra (wantNum ev e msg r k) (wantNum ev' e msg r' k') st := by
  refine rel_wantK hg ha hi hc hw hr hal hret fun x s hs hi hc => ?_
  refine rel_quiet (.derefE _) hi hc fun d t ht hi hc => ?_
  split
  · exact hk _ _ (hs.trans ht) hi hc
  · exact .quiet (.errExpected ..) hc

theorem rel_wantStart (hg : Good c va ra ev) (ha : Agrees c va ra ev ev') {e}
    {r r' : Option Val → EM β} {k k' : F64 → EM β}
    (hi : ClosuresWF c va ra st) (hc : ClosRes c va ra st) (hw : WFopt (kOf c va ra st) e)
    (hr : ROpt (kOf c va ra st) (arOf c st) e Γ []) (hal : Aligned Γ st)
    (hret : ∀ x s, ClosRes c va ra s → Rel c va ra (r x) (r' x) s)
    (hk : ∀ x s, Same st s → ClosuresWF c va ra s → ClosRes c va ra s → Rel c va ra (k x) (k' x) s) :
    Rel c va ra (wantStart ev e r k) (wantStart ev' e r' k') st := by
  cases e with
  | none => exact hk _ _ .rfl hi hc
  | some e =>
    rw [WFopt] at hw
    rw [ROpt] at hr
    exact rel_wantNum hg ha hi hc hw hr hal hret hk

/-! ## Loops -/

theorem rel_countLoop [FloatOps] (hg : Good c va ra ev) (ha : Agrees c va ra ev ev') {σ}
    {n name start stop} {s₀ : σ} {round round' : σ → F64 → EM (Round σ)}
    (hi : ClosuresWF c va ra st) (hc : ClosRes c va ra st)
    (hs : WFopt (kOf c va ra st) start) (hw : stop.WF (kOf c va ra st))
    (hrs : ROpt (kOf c va ra st) (arOf c st) start Γ [])
    (hr : stop.Res (kOf c va ra st) (arOf c st) Γ []) (hal : Aligned Γ st)
    (hround : ∀ a x s, Ext st s → ClosuresWF c va ra s →
      wp (round a x) (RoundPost c va ra (fun _ => True) s) (Err c va ra s) s)
    (hrel : ∀ a x s, Ext st s → Aligned (Γ ++ [some name]) s → ClosuresWF c va ra s →
      ClosRes c va ra s → Rel c va ra (round a x) (round' a x) s) :
    Rel c va ra (countLoop n ev name start stop s₀ round)
      (countLoop n ev' name start stop s₀ round') st := by
  refine rel_scope2 (rel_wantStart hg ha hi hc hs hrs hal (fun _ _ h => rel_pure h)
    fun a s hs hi hc => ?_)
  refine rel_wantNum hg ha hi hc (by rw [hs.kOf]; exact hw) (by rw [hs.kOf, hs.arOf]; exact hr)
    (hal.same hs) (fun _ _ h => rel_pure h) fun b s' hs' hi hc => ?_
  have hs := hs.trans hs'
  refine rel_get (rel_modify (rel_modify ?_))
  refine rel_loopN (fun _ t => InLoop name s' t ∧ ClosuresWF c va ra t) ?_
    ⟨⟨rfl, rfl, rfl, rfl, by simp⟩, hi⟩ hc
  rintro a t ⟨hl, hi⟩ hc
  constructor
  · refine rel_quiet (.slotE _) hi hc fun v t1 ht1 hi hc => ?_
    have hl1 := hl.same ht1
    split
    · rename_i v _
      split
      · refine rel_bind (hrel a v t1 (hs.transExt hl1.ext) ((hal.same hs).inLoop hl1) hi hc)
          (hround a v t1 (hs.transExt hl1.ext) hi) ?_
        rintro (a' | ⟨a', f⟩ | r) t2 ⟨hi, hr⟩ hc
        · exact rel_quiet (.incSlot _) hi hc fun _ t3 ht3 hi hc =>
            rel_modify (rel_modify (rel_pure hc))
        · exact rel_pure hc
        · exact rel_pure hc
      · exact rel_pure hc
    · exact .quiet (.errExpected ..) hc
  · refine wp_bind (wp_mono ((Quiet.slotE _).run t) (fun v t1 ht1 => ?_) fun _ _ => trivial)
    have hl1 := hl.same ht1.1
    have hi := hi.of_eq ht1.2
    split
    · rename_i v _
      refine wp_ite (fun _ => ?_) fun _ => wp_pure trivial
      refine wp_bind (wp_mono (hround a v t1 (hs.transExt hl1.ext) hi) ?_ fun _ _ => trivial)
      rintro (a' | ⟨a', f⟩ | r) t2 ⟨hi, hr⟩
      · refine wp_bind (wp_mono ((Quiet.incSlot _).run t2) (fun v t3 ht3 => ?_) fun _ _ => trivial)
        have hl3 := (hl1.same hr.2).same ht3.1
        refine wp_bind (wp_modify (wp_bind (wp_modify (wp_pure ?_))))
        refine ⟨?_, hi.of_eq ht3.2⟩
        have := hl3.self
        simp only at this ⊢
        rw [this]; exact hl3
      · exact wp_pure trivial
      · exact wp_pure trivial
    · exact wp_errExpected trivial

theorem rel_chanLoop (hg : Good c va ra ev) (ha : Agrees c va ra ev ev') {σ}
    {n name iter} {e₀ s₀ : σ} {round round' : σ → Nat → EM (Round σ)}
    (hi : ClosuresWF c va ra st) (hc : ClosRes c va ra st) (hw : iter.WF (kOf c va ra st))
    (hr : iter.Res (kOf c va ra st) (arOf c st) Γ []) (hal : Aligned Γ st)
    (hround : ∀ a x s, Ext st s → ClosuresWF c va ra s →
      wp (round a x) (RoundPost c va ra (fun _ => True) s) (Err c va ra s) s)
    (hrel : ∀ a x s, Ext st s → Aligned (Γ ++ [some name]) s → ClosuresWF c va ra s →
      ClosRes c va ra s → Rel c va ra (round a x) (round' a x) s) :
    Rel c va ra (chanLoop c n ev name iter e₀ s₀ round)
      (chanLoop (c.named lost) n ev' name iter e₀ s₀ round') st := by
  refine rel_scope2 (rel_wantK hg ha hi hc hw hr hal (fun _ _ h => rel_pure h)
    fun x s hs hi hc => ?_)
  refine rel_quiet (.derefE _) hi hc fun d s' hs' hi hc => ?_
  have hs := hs.trans hs'
  split
  · rename_i ch
    refine rel_quiet (.recvE c _) hi hc fun o s1 hs1 hi hc => ?_
    have hs := hs.trans hs1
    cases o with
    | none => exact rel_pure hc
    | some v =>
      refine rel_get (rel_modify (rel_modify ?_))
      refine rel_loopN (fun _ t => InLoop name s1 t ∧ ClosuresWF c va ra t) ?_
        ⟨⟨rfl, rfl, rfl, rfl, by simp⟩, hi⟩ hc
      rintro a t ⟨hl, hi⟩ hc
      constructor
      · refine rel_bind (hrel a _ t (hs.transExt hl.ext) ((hal.same hs).inLoop hl) hi hc)
          (hround a _ t (hs.transExt hl.ext) hi) ?_
        rintro (a' | ⟨a', f⟩ | r) t2 ⟨hi, hr⟩ hc
        · refine rel_quiet (.recvE c _) hi hc fun o t3 ht3 hi hc => ?_
          cases o with
          | none => exact rel_pure hc
          | some v =>
            exact rel_quiet (.writeE _ _) hi hc fun _ t4 ht4 hi hc =>
              rel_modify (rel_modify (rel_pure hc))
        · exact rel_pure hc
        · exact rel_pure hc
      · refine wp_bind (wp_mono (hround a _ t (hs.transExt hl.ext) hi) ?_ fun _ _ => trivial)
        rintro (a' | ⟨a', f⟩ | r) t2 ⟨hi, hr⟩
        · refine wp_bind (wp_mono ((Quiet.recvE c _).run t2) (fun o t3 ht3 => ?_) fun _ _ => trivial)
          have hl3 := (hl.same hr.2).same ht3.1
          have hi := hi.of_eq ht3.2
          cases o with
          | none => exact wp_pure trivial
          | some v =>
            refine wp_bind (wp_mono ((Quiet.writeE _ _).run t3) (fun _ t4 ht4 => ?_)
              fun _ _ => trivial)
            have hl4 := hl3.same ht4.1
            refine wp_bind (wp_modify (wp_bind (wp_modify (wp_pure ?_))))
            refine ⟨?_, hi.of_eq ht4.2⟩
            have := hl4.self
            simp only at this ⊢
            rw [this]; exact hl4
        · exact wp_pure trivial
        · exact wp_pure trivial
  · exact .quiet (.errExpected ..) hc

theorem rel_bodyRound (hg : Good c va ra ev) (ha : Agrees c va ra ev ev') {σ} {body label}
    {step : σ → Option Val → EM (σ × Bool)} {a : σ}
    (hi : ClosuresWF c va ra st) (hc : ClosRes c va ra st) (hw : WFs (kOf c va ra st) body)
    (hr : RSeq (kOf c va ra st) (arOf c st) body Γ []) (hal : Aligned Γ st)
    (hq : ∀ a x, Quiet (step a x)) :
    Rel c va ra (bodyRound ev body label step a) (bodyRound ev' body label step a) st := by
  refine rel_bind (rel_block hg ha hi hc hw hr hal) (wp_block hg .rfl hi hw) ?_
  rintro ⟨x, _ | _ | l | l⟩ s ⟨hi, hs, _⟩ hc
  · exact rel_quiet (hq _ _) hi hc fun _ _ _ _ hc => rel_pure hc
  all_goals exact rel_pure hc

theorem rel_linkItems (hg : Good c va ra ev) (ha : Agrees c va ra ev ev') {label items l}
    (hi : ClosuresWF c va ra st) (hc : ClosRes c va ra st) (hw : WFs (kOf c va ra st) items)
    (hr : RSeq (kOf c va ra st) (arOf c st) items Γ []) (hal : Aligned Γ st) :
    Rel c va ra (linkItems ev label items l) (linkItems ev' label items l) st := by
  induction items generalizing st l Γ with
  | nil => exact rel_pure hc
  | cons e es ih =>
    rw [WFs] at hw
    rw [RSeq] at hr
    refine rel_ev hg ha hi hc hw.1 hr.1 hal ?_
    rintro ⟨_ | x, _ | _ | _ | _⟩ s hp hc hal'
    case none.cont =>
      exact ih hp.inv hc (by rw [hp.ext.kOf]; exact hw.2)
        (by rw [hp.ext.kOf, hp.ext.arOf]; exact hr.2.2) (hal' rfl hr.2.1)
    case some.cont =>
      refine rel_quiet (.derefE _) hp.inv hc fun d u hu hi hc => ?_
      have hx := hp.ext.transSame hu
      split
      · exact ih hi hc (by rw [hx.kOf]; exact hw.2)
          (by rw [hx.kOf, hx.arOf]; exact hr.2.2) ((hal' rfl hr.2.1).same hu)
      · exact rel_errT hc
    all_goals exact rel_pure hc

theorem rel_linkForN [FloatOps] (hg : Good c va ra ev) (ha : Agrees c va ra ev ev')
    {n l name start stop body label} (hi : ClosuresWF c va ra st) (hc : ClosRes c va ra st)
    (hw : (Expr.forN .linkFor name start stop body label).WF (kOf c va ra st))
    (hr : (Expr.forN .linkFor name start stop body label).Res (kOf c va ra st) (arOf c st) Γ [])
    (hal : Aligned Γ st) :
    Rel c va ra (linkForN n ev l name start stop body label)
      (linkForN n ev' l name start stop body label) st := by
  induction n generalizing l name start stop body label st Γ with
  | zero => exact rel_timeout
  | succ n ih =>
    rw [Expr.WF] at hw
    rw [Expr.Res] at hr
    rw [linkForN, linkForN]
    refine rel_countLoop hg ha hi hc hw.1 hw.2.1 hr.1 hr.2.1 hal ?_ ?_
    · intro a x s hs hi
      have hb := hw.2.2.1
      have hlb := hw.2.2.2 rfl
      rw [← hs.kOf] at hb
      split
      · rw [WFs, Expr.WF] at hb
        rw [linkBody] at hlb
        exact wp_linkItems hg hi hb.1 hlb
      · rw [WFs] at hb
        exact wp_bind (wp_mono (wp_linkForN hg .rfl hi hb.1)
          (fun r t h => wp_pure (roundPost_linkNested h)) fun _ h => h)
      · exact wp_panic
      · exact wp_panic
    · intro a x s hs hal hi hc
      have hb := hw.2.2.1
      have hrb := hr.2.2
      rw [← hs.kOf] at hb
      rw [← hs.kOf, ← hs.arOf] at hrb
      split
      · rw [WFs, Expr.WF] at hb
        rw [RSeq, Expr.Res] at hrb
        exact rel_linkItems hg ha hi hc hb.1 hrb.1 hal
      · rw [WFs] at hb
        rw [RSeq] at hrb
        exact rel_map (ih hi hc hb.1 hrb.1 hal)
      · exact rel_panic
      · exact rel_panic

theorem rel_linkForIn (hg : Good c va ra ev) (ha : Agrees c va ra ev ev')
    {n l name iter body label} (hi : ClosuresWF c va ra st) (hc : ClosRes c va ra st)
    (hw : (Expr.forIn .link name iter body label).WF (kOf c va ra st))
    (hr : (Expr.forIn .link name iter body label).Res (kOf c va ra st) (arOf c st) Γ [])
    (hal : Aligned Γ st) :
    Rel c va ra (linkForIn c n ev l name iter body label)
      (linkForIn (c.named lost) n ev' l name iter body label) st := by
  induction n generalizing l name iter body label st Γ with
  | zero => exact rel_timeout
  | succ n ih =>
    rw [Expr.WF] at hw
    rw [Expr.Res] at hr
    rw [linkForIn, linkForIn]
    refine rel_chanLoop hg ha hi hc hw.1 hr.1 hal ?_ ?_
    · intro a x s hs hi
      have hb := hw.2.1
      have hlb := hw.2.2 rfl
      rw [← hs.kOf] at hb
      split
      · rw [WFs, Expr.WF] at hb
        rw [linkBody] at hlb
        exact wp_linkItems hg hi hb.1 hlb
      · rw [WFs] at hb
        exact wp_bind (wp_mono (wp_linkForIn hg .rfl hi hb.1)
          (fun r t h => wp_pure (roundPost_linkNested h)) fun _ h => h)
      · exact wp_panic
      · exact wp_panic
    · intro a x s hs hal hi hc
      have hb := hw.2.1
      have hrb := hr.2
      rw [← hs.kOf] at hb
      rw [← hs.kOf, ← hs.arOf] at hrb
      split
      · rw [WFs, Expr.WF] at hb
        rw [RSeq, Expr.Res] at hrb
        exact rel_linkItems hg ha hi hc hb.1 hrb.1 hal
      · rw [WFs] at hb
        rw [RSeq] at hrb
        exact rel_map (ih hi hc hb.1 hrb.1 hal)
      · exact rel_panic
      · exact rel_panic

end Dyon
