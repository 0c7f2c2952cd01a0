import Verif.Eval.LocalCalm

/-!
# Evaluation stays within reach: combinators

Lemmas for C77.
-/

namespace Dyon.Loc

variable {rd : Prop} {c : ECfg} {va ra : Nat → Nat} {P : Nat → Prop} {ev : Evl} {α β : Type} {st st0 : St}

/-- Evaluation has gone from `a` to `b`: everything reachable is still in `P` and the slots outside
have kept their values. -/
structure Lk (c : ECfg) (va ra : Nat → Nat) (P : Nat → Prop) (a b : St) : Prop where
  ext : Ext a b
  wf : ClosuresWF c va ra b
  inv : Inv P b
  kept : Kept P a b

/-- Evaluation has gone from `a` to the error state `s`. -/
structure LErr (c : ECfg) (va ra : Nat → Nat) (P : Nat → Prop) (a s : St) : Prop where
  ext : ExtE a s
  wf : ClosuresWF c va ra s
  tame : Tame P s
  kept : Kept P a s

theorem Lk.rfl {a : St} (hw : ClosuresWF c va ra a) (hi : Inv P a) : Lk c va ra P a a :=
  ⟨.rfl, hw, hi, .rfl⟩
theorem Lk.trans {a b d : St} (h : Lk c va ra P a b) (h' : Lk c va ra P b d) : Lk c va ra P a d :=
  ⟨h.ext.trans h'.ext, h'.wf, h'.inv, h.kept.trans h'.kept⟩
theorem Lk.err {a b : St} (h : Lk c va ra P a b) : LErr c va ra P a b :=
  ⟨h.ext.extE, h.wf, h.inv.toTame, h.kept⟩
theorem Lk.errTrans {a b d : St} (h : Lk c va ra P a b) (h' : LErr c va ra P b d) :
    LErr c va ra P a d := ⟨h.ext.extE.trans h'.ext, h'.wf, h'.tame, h.kept.trans h'.kept⟩
theorem LErr.trans {a b d : St} (h : LErr c va ra P a b) (h' : LErr c va ra P b d) :
    LErr c va ra P a d := ⟨h.ext.trans h'.ext, h'.wf, h'.tame, h.kept.trans h'.kept⟩
theorem Lk.kOf {a b : St} (h : Lk c va ra P a b) : kOf c va ra b = kOf c va ra a := h.ext.kOf

theorem Lk.calm {a b d : St} (h : Lk c va ra P a b) (h' : Cm P b d) : Lk c va ra P a d :=
  ⟨h.ext.transSame h'.same, h.wf.of_eq h'.closures, h'.inv h.inv, h.kept.trans h'.kept⟩

theorem Lk.ge {a b : St} (h : Lk c va ra P a b) {i : Nat} (hi : b.stack.length ≤ i) : P i :=
  h.inv.slot_ge hi

theorem Lk.push {a b : St} (h : Lk c va ra P a b) {v : Val} (hv : Within P v) :
    Lk c va ra P a { b with stack := b.stack ++ [v] } where
  ext := h.ext.trans (Ext.push v)
  wf := h.wf
  inv := ⟨h.inv.toTame.push hv, fun i hi => by have := h.inv.fresh i hi; simp; omega,
    h.inv.base, h.inv.locals⟩
  kept := h.kept.trans (.push h.inv)

theorem Lk.pushLocal {a b : St} (h : Lk c va ra P a b) {x : String × Nat} (hx : P x.2) :
    Lk c va ra P a { b with locals := b.locals ++ [x] } where
  ext := h.ext.trans (Ext.pushLocal x)
  wf := h.wf
  inv := ⟨⟨h.inv.slots, h.inv.closures, h.inv.queues, h.inv.currents⟩, h.inv.fresh, by
    have := h.inv.base; simp only [St.base, List.length_append] at *; omega, by
    intro y hy
    have hb := h.inv.base
    simp only [St.base] at hy hb
    rw [List.drop_append_of_le_length hb] at hy
    rcases List.mem_append.1 hy with hy | hy
    · exact h.inv.locals y hy
    · rw [List.mem_singleton] at hy; exact hy ▸ hx⟩
  kept := h.kept

theorem Lk.pushCurrent {a b : St} (h : Lk c va ra P a b) {x : String × Nat} (hx : P x.2) :
    Lk c va ra P a { b with currents := b.currents ++ [x] } where
  ext := h.ext.trans (Ext.pushCurrent x)
  wf := h.wf
  inv := ⟨⟨h.inv.slots, h.inv.closures, h.inv.queues, fun y hy => by
    rcases List.mem_append.1 hy with hy | hy
    · exact h.inv.currents y hy
    · rw [List.mem_singleton] at hy; exact hy ▸ hx⟩, h.inv.fresh, h.inv.base, h.inv.locals⟩
  kept := h.kept

theorem prefix_take_of_le {α} {l m : List α} {n : Nat} (h : l <+: m) (hn : l.length ≤ n) :
    l <+: m.take n := by
  obtain ⟨r, rfl⟩ := h
  rw [List.take_append]
  rw [List.take_of_length_le hn]
  exact List.prefix_append _ _

theorem Lk.cutStack {a b : St} {n : Nat} (ha : Inv P a) (h : Lk c va ra P a b)
    (hn : a.stack.length ≤ n) : Lk c va ra P a { b with stack := b.stack.take n } where
  ext := ⟨h.ext.1, h.ext.2, h.ext.3, h.ext.4, by have := h.ext.5; simp; omega⟩
  wf := h.wf
  inv := ⟨h.inv.toTame.take n, fun i hi => by
    have := ha.fresh i hi; have := h.ext.5; simp; omega, h.inv.base, h.inv.locals⟩
  kept := h.kept.take ha hn

theorem Lk.cutLocals {a b : St} {n : Nat} (ha : Inv P a) (h : Lk c va ra P a b)
    (hn : a.locals.length ≤ n) : Lk c va ra P a { b with locals := b.locals.take n } where
  ext := ⟨h.ext.1, h.ext.2, prefix_take_of_le h.ext.3 hn, h.ext.4, h.ext.5⟩
  wf := h.wf
  inv := ⟨⟨h.inv.slots, h.inv.closures, h.inv.queues, h.inv.currents⟩, h.inv.fresh, by
    have h1 := ha.base
    have h2 := ext_base h.ext
    have h3 := h.inv.base
    simp only [St.base, List.length_take] at *
    omega, by
    intro y hy
    apply h.inv.locals
    simp only [St.base] at hy ⊢
    rw [List.drop_take] at hy
    exact List.mem_of_mem_take hy⟩
  kept := h.kept

theorem Lk.cutCurrents {a b : St} {n : Nat} (h : Lk c va ra P a b)
    (hn : a.currents.length ≤ n) : Lk c va ra P a { b with currents := b.currents.take n } where
  ext := ⟨h.ext.1, h.ext.2, h.ext.3, prefix_take_of_le h.ext.4 hn, h.ext.5⟩
  wf := h.wf
  inv := ⟨⟨h.inv.slots, h.inv.closures, h.inv.queues,
    fun y hy => h.inv.currents y (List.mem_of_mem_take hy)⟩, h.inv.fresh, h.inv.base, h.inv.locals⟩
  kept := h.kept

/-- The evaluator of sub-expressions stays within reach. -/
def Loc (rd : Prop) (c : ECfg) (va ra : Nat → Nat) (P : Nat → Prop) (ev : Evl) : Prop :=
  ∀ e side st, ClosuresWF c va ra st → Inv P st → e.WF (kOf c va ra st) → EIn P e →
    wq rd P (ev e side) (fun r s => Lk c va ra P st s ∧ RIn P r) (LErr c va ra P st) st

/-- The action, run during an evaluation that began in `st0`, stays within reach and its result has
the property `Q`. -/
structure Ok (rd : Prop) (c : ECfg) (va ra : Nat → Nat) (P : Nat → Prop) (st0 : St) (Q : α → Prop) (m : EM α) :
    Prop where
  run : ∀ s, Lk c va ra P st0 s →
    wq rd P m (fun a t => Lk c va ra P st0 t ∧ Q a) (LErr c va ra P st0) s

section
variable {Q : α → Prop} {R : β → Prop}

theorem Ok.calm {m : EM α} (h : Calm rd P Q m) : Ok rd c va ra P st0 Q m :=
  ⟨fun s hs => wq_mono (h.run s hs.inv) (fun _ _ ht => ⟨hs.calm ht.1, ht.2⟩) fun _ ht =>
    (hs.calm ht).err⟩
theorem Ok.pure {a : α} (h : Q a) : Ok rd c va ra P st0 Q (pure a : EM α) := .calm (.pure h)
theorem Ok.errT {m} : Ok rd c va ra P st0 Q (errT m : EM α) := .calm .errT
theorem Ok.fail {m} : Ok rd c va ra P st0 Q (EM.fail m : EM α) := .calm .fail
theorem Ok.panic {m} : Ok rd c va ra P st0 Q (EM.panic m : EM α) := .calm .panic
theorem Ok.timeout : Ok rd c va ra P st0 Q (EM.timeout : EM α) := ⟨fun _ _ => wq_timeout⟩
theorem Ok.errExpected {v ty} : Ok rd c va ra P st0 Q (errExpected v ty : EM α) := .calm .errExpected
theorem Ok.bind {m : EM α} {f : α → EM β} (hm : Ok rd c va ra P st0 Q m)
    (hf : ∀ a, Q a → Ok rd c va ra P st0 R (f a)) : Ok rd c va ra P st0 R (m >>= f) :=
  ⟨fun s hs => wq_bind (wq_mono (hm.run s hs) (fun a t ht => (hf a ht.2).run t ht.1) fun _ h => h)⟩
theorem Ok.mono {m : EM α} {Q' : α → Prop} (hm : Ok rd c va ra P st0 Q m) (h : ∀ a, Q a → Q' a) :
    Ok rd c va ra P st0 Q' m :=
  ⟨fun s hs => wq_mono (hm.run s hs) (fun _ _ ht => ⟨ht.1, h _ ht.2⟩) fun _ h => h⟩
theorem Ok.ite {p : Prop} [Decidable p] {a b : EM α} (ha : p → Ok rd c va ra P st0 Q a)
    (hb : ¬p → Ok rd c va ra P st0 Q b) : Ok rd c va ra P st0 Q (if p then a else b) := by
  split
  · exact ha ‹_›
  · exact hb ‹_›
theorem Ok.get {f : St → EM β} (h : ∀ s, Lk c va ra P st0 s → Ok rd c va ra P st0 R (f s))
    (ht : ∀ g s, Lk c va ra P st0 s → f (other P g s) = f s := by
      intros; simp only [other_length, other_calls, other_locals, other_currents, other_module,
        other_closures, other_jobs, other_senders, other_nchans, other_time, other_rel]) :
    Ok rd c va ra P st0 R (EM.get >>= f) :=
  ⟨fun s hs => wq_get ((h s hs).run s hs) fun g _ => ht g s hs⟩
theorem Ok.pushE {v} (h : Within P v) : Ok rd c va ra P st0 (fun _ => True) (pushE v) :=
  ⟨fun _ hs => wq_modify ⟨hs.push h, trivial⟩ fun _ => by simp [other, over_push (hs.ge le_rfl)]⟩
theorem Ok.pushLocal {n i} (h : P i) : Ok rd c va ra P st0 (fun _ => True) (pushLocal n i) :=
  ⟨fun _ hs => wq_modify ⟨hs.pushLocal h, trivial⟩⟩
theorem Ok.pushCurrent {n i} (h : P i) : Ok rd c va ra P st0 (fun _ => True) (pushCurrent n i) :=
  ⟨fun _ hs => wq_modify ⟨hs.pushCurrent h, trivial⟩⟩

/-- The start of an evaluation. -/
theorem Ok.truncStack {n} (h0 : Inv P st0) (hn : st0.stack.length ≤ n) :
    Ok rd c va ra P st0 (fun _ => True) (truncStack n) := 
  ⟨fun _ hs => wq_modify ⟨hs.cutStack h0 hn, trivial⟩ fun _ => by simp [other, over_take]⟩
theorem Ok.truncLocals {n} (h0 : Inv P st0) (hn : st0.locals.length ≤ n) :
    Ok rd c va ra P st0 (fun _ => True) (truncLocals n) := 
  ⟨fun _ hs => wq_modify ⟨hs.cutLocals h0 hn, trivial⟩⟩
theorem Ok.truncCurrents {n} (hn : st0.currents.length ≤ n) :
    Ok rd c va ra P st0 (fun _ => True) (truncCurrents n) := 
  ⟨fun _ hs => wq_modify ⟨hs.cutCurrents hn, trivial⟩⟩

theorem Ok.sub1 (hev : Loc rd c va ra P ev) {e side} (hw : e.WF (Dyon.kOf c va ra st0)) (hc : EIn P e) :
    Ok rd c va ra P st0 (RIn P) (ev e side) :=
  ⟨fun s hs => wq_mono (hev e side s hs.wf hs.inv (by rw [hs.kOf]; exact hw) hc)
    (fun _ _ ht => ⟨hs.trans ht.1, ht.2⟩) fun _ ht => hs.errTrans ht⟩

/-- Starting a new evaluation within one. -/
theorem Ok.sub {m : EM α} (h : ∀ s, Lk c va ra P st0 s → Ok rd c va ra P s Q m) :
    Ok rd c va ra P st0 Q m :=
  ⟨fun s hs => wq_mono ((h s hs).run s (.rfl hs.wf hs.inv)) (fun _ _ ht => ⟨hs.trans ht.1, ht.2⟩)
    fun _ ht => hs.errTrans ht⟩

theorem Ok.wantK (hev : Loc rd c va ra P ev) {e side msg} {r : Option Val → EM β} {k : Val → EM β}
    (hw : e.WF (Dyon.kOf c va ra st0)) (hc : EIn P e)
    (hr : ∀ x f, RIn P (x, f) → Ok rd c va ra P st0 R (r x))
    (hk : ∀ x, Within P x → Ok rd c va ra P st0 R (k x)) :
    Ok rd c va ra P st0 R (wantK ev e side msg r k) := by
  refine .bind (.sub1 hev hw hc) fun x hx => ?_
  obtain ⟨_ | x, _ | _ | _ | _⟩ := x
  case none.ret => exact hr _ _ hx
  case some.ret => exact hr _ _ hx
  case some.cont => exact hk _ hx.val
  all_goals exact .errT

theorem RIn.of {x : Option Val} {f f'} (h : RIn P (x, f)) : RIn P (x, f') := fun v hv => h v hv

theorem Ok.want (hev : Loc rd c va ra P ev) {e side msg} {k : Val → EM Dyon.R}
    (hw : e.WF (Dyon.kOf c va ra st0)) (hc : EIn P e)
    (hk : ∀ x, Within P x → Ok rd c va ra P st0 (RIn P) (k x)) :
    Ok rd c va ra P st0 (RIn P) (want ev e side msg k) :=
  .wantK hev hw hc (fun _ _ h => .pure h.of) hk

theorem Ok.scope1 {m : EM (Bool × α)} (h0 : Inv P st0) (h : Ok rd c va ra P st0 (fun r => Q r.2) m) :
    Ok rd c va ra P st0 Q (scope1 m) := by
  refine .get fun s hs => .bind h fun r hr => .ite (fun _ => ?_) fun _ => .pure hr
  exact .bind (.truncStack h0 hs.ext.5) fun _ _ => .pure hr

theorem Ok.scope2 {m : EM (Bool × α)} (h0 : Inv P st0) (h : Ok rd c va ra P st0 (fun r => Q r.2) m) :
    Ok rd c va ra P st0 Q (scope2 m) := by
  refine .get fun s hs => .bind h fun r hr => .ite (fun _ => ?_) fun _ => .pure hr
  exact .bind (.truncStack h0 hs.ext.5) fun _ _ => .bind (.truncLocals h0 hs.ext.3.length_le)
    fun _ _ => .pure hr

theorem Ok.scope3 {m : EM (Bool × α)} (h0 : Inv P st0) (h : Ok rd c va ra P st0 (fun r => Q r.2) m) :
    Ok rd c va ra P st0 Q (scope3 m) := by
  refine .get fun s hs => .bind h fun r hr => .ite (fun _ => ?_) fun _ => .pure hr
  exact .bind (.truncStack h0 hs.ext.5) fun _ _ => .bind (.truncLocals h0 hs.ext.3.length_le)
    fun _ _ => .bind (.truncCurrents hs.ext.4.length_le) fun _ _ => .pure hr

theorem Ok.loopN {σ} {n : Nat} {f : σ → EM (σ ⊕ α)} (J : σ → Prop)
    (hf : ∀ a, J a → Ok rd c va ra P st0 (fun r => match r with
      | .inl a' => J a'
      | .inr b => Q b) (f a)) {a : σ} (ha : J a) : Ok rd c va ra P st0 Q (loopN n f a) := by
  induction n generalizing a with
  | zero => exact .timeout
  | succ n ih =>
    refine .bind (hf a ha) fun r hr => ?_
    cases r with
    | inl a' => exact ih hr
    | inr b => exact .pure hr

end

/-! ## Blocks -/

theorem Ok.seqs (hev : Loc rd c va ra P ev) {es : List Expr} {x : Option Val}
    (hw : WFs (Dyon.kOf c va ra st0) es) (hc : EsIn P es) (hx : RIn P (x, .cont)) :
    Ok rd c va ra P st0 (fun r => RIn P r.2) (seqs ev es x) := by
  induction es generalizing x with
  | nil => exact .pure hx
  | cons e es ih =>
    rw [WFs] at hw
    rw [EsIn] at hc
    refine .bind (.sub1 hev hw.1 hc.1) fun r hr => ?_
    obtain ⟨x, _ | _ | _ | _⟩ := r
    · exact ih hw.2 hc.2 hr
    all_goals exact .pure hr

theorem Ok.block (hev : Loc rd c va ra P ev) {es : List Expr} (h0 : Inv P st0)
    (hw : WFs (Dyon.kOf c va ra st0) es) (hc : EsIn P es) :
    Ok rd c va ra P st0 (RIn P) (block ev es) :=
  .scope3 h0 (.seqs hev hw hc .none)

/-! ## Loops -/

theorem Ok.wantNum (hev : Loc rd c va ra P ev) {R : β → Prop} {e msg} {r : Option Val → EM β}
    {k : F64 → EM β} (hw : e.WF (Dyon.kOf c va ra st0)) (hc : EIn P e)
    (hr : ∀ x f, RIn P (x, f) → Ok rd c va ra P st0 R (r x)) (hk : ∀ x, Ok rd c va ra P st0 R (k x)) :
    Ok rd c va ra P st0 R (wantNum ev e msg r k) := by
  refine .wantK hev hw hc hr fun x hx => .bind (.calm (.derefE hx)) fun d _ => ?_
  split
  · exact hk _
  · exact .errExpected

theorem Ok.wantStart (hev : Loc rd c va ra P ev) {R : β → Prop} {e} {r : Option Val → EM β}
    {k : F64 → EM β} (hw : WFopt (Dyon.kOf c va ra st0) e) (hc : OptIn P e)
    (hr : ∀ x f, RIn P (x, f) → Ok rd c va ra P st0 R (r x)) (hk : ∀ x, Ok rd c va ra P st0 R (k x)) :
    Ok rd c va ra P st0 R (wantStart ev e r k) := by
  cases e with
  | none => exact hk _
  | some e => rw [WFopt] at hw; rw [OptIn] at hc; exact .wantNum hev hw hc hr hk

/-- What a round asks for is within reach. -/
def RoundIn {σ} (P : Nat → Prop) (J : σ → Prop) : Round σ → Prop
  | .go a => J a
  | .stop a _ => J a
  | .exit r => RIn P r

/-- What a loop gives is within reach. -/
def LoopIn {σ} (P : Nat → Prop) (J : σ → Prop) (a : σ × R) : Prop := J a.1 ∧ RIn P a.2

theorem Ok.countLoop [FloatOps] (hev : Loc rd c va ra P ev) {σ} {n name start stop} {s₀ : σ}
    {round : σ → F64 → EM (Round σ)} (J : σ → Prop) (h0 : Inv P st0)
    (hs : WFopt (Dyon.kOf c va ra st0) start) (hw : stop.WF (Dyon.kOf c va ra st0))
    (hsc : OptIn P start) (hwc : EIn P stop) (hJ : J s₀)
    (hround : ∀ a x, J a → Ok rd c va ra P st0 (RoundIn P J) (round a x)) :
    Ok rd c va ra P st0 (LoopIn P J) (countLoop n ev name start stop s₀ round) := by
  refine .scope2 h0 (.wantStart hev hs hsc (fun x f h => .pure ⟨hJ, h.of⟩) fun a =>
    .wantNum hev hw hwc (fun x f h => .pure ⟨hJ, h.of⟩) fun b => ?_)
  refine .get fun s hs => ?_
  have hp : P (s.stack.length + 1 - 1) := hs.ge (by omega)
  refine .bind (.pushLocal (hs.ge le_rfl)) fun _ _ => .bind (.pushE within_ofF64) fun _ _ => ?_
  refine .loopN J (fun a ha => ?_) hJ
  unfold countRound
  refine .bind (.calm (.slotE hp)) fun v _ => ?_
  split
  · refine .ite (fun _ => .bind (hround a _ ha) fun r hr => ?_) fun _ => .pure ⟨ha, .none⟩
    cases r with
    | go a' =>
      exact .bind (.calm (.incSlot hp)) fun _ _ => .bind (.truncStack h0 (by have := hs.ext.5; omega))
        fun _ _ => .bind (.truncLocals h0 (by have := hs.ext.3.length_le; omega)) fun _ _ => .pure hr
    | stop a' f => exact .pure ⟨hr, .none⟩
    | exit r => exact .pure ⟨ha, hr⟩
  · exact .errExpected

theorem Ok.chanLoop (hev : Loc rd c va ra P ev) (hA : ∀ t ch, ∀ v ∈ c.arrive t ch, Within P v)
    {σ} {n name iter} {e₀ s₀ : σ}
    {round : σ → Nat → EM (Round σ)} (J : σ → Prop) (h0 : Inv P st0)
    (hw : iter.WF (Dyon.kOf c va ra st0)) (hwc : EIn P iter) (hJ : J s₀) (hJ' : J e₀)
    (hround : ∀ a x, J a → P x → Ok rd c va ra P st0 (RoundIn P J) (round a x)) :
    Ok rd c va ra P st0 (LoopIn P J) (chanLoop c n ev name iter e₀ s₀ round) := by
  refine .scope2 h0 (.wantK hev hw hwc (fun x f h => .pure ⟨hJ, h.of⟩) fun a ha =>
    .bind (.calm (.derefE ha)) fun d _ => ?_)
  split
  · refine .bind (.calm (.recvE hA)) fun o ho => ?_
    cases o with
    | none => exact .pure ⟨hJ', .none⟩
    | some v =>
      refine .get fun s hs => ?_
      have hp : P (s.stack.length + 1 - 1) := hs.ge (by omega)
      refine .bind (.pushLocal (hs.ge le_rfl)) fun _ _ => .bind (.pushE (ho v rfl)) fun _ _ => ?_
      refine .loopN J (fun a ha => ?_) hJ
      unfold chanRound
      refine .bind (hround a _ ha hp) fun r hr => ?_
      cases r with
      | go a' =>
        refine .bind (.calm (.recvE hA)) fun o ho => ?_
        cases o with
        | none => exact .pure ⟨hr, .none⟩
        | some v =>
          exact .bind (.calm (.writeE (p := ⟨_, []⟩) hp (ho v rfl))) fun _ _ =>
            .bind (.truncStack h0 (by have := hs.ext.5; omega)) fun _ _ =>
            .bind (.truncLocals h0 (by have := hs.ext.3.length_le; omega)) fun _ _ => .pure hr
      | stop a' f => exact .pure ⟨hr, .none⟩
      | exit r => exact .pure ⟨ha, hr⟩
  · exact .errExpected

theorem Ok.bodyRound (hev : Loc rd c va ra P ev) {σ} {body label}
    {step : σ → Option Val → EM (σ × Bool)} {a : σ} (J : σ → Prop) (h0 : Inv P st0)
    (hw : WFs (Dyon.kOf c va ra st0) body) (hc : EsIn P body) (hJ : J a)
    (hstep : ∀ a x, J a → AIn P x → Calm rd P (fun r => J r.1) (step a x)) :
    Ok rd c va ra P st0 (RoundIn P J) (bodyRound ev body label step a) := by
  refine .bind (.block hev h0 hw hc) fun r hr => ?_
  obtain ⟨x, _ | _ | l | l⟩ := r
  · refine .bind (.calm (hstep a x hJ fun v hv => hr v hv)) fun r hr => ?_
    obtain ⟨a', b⟩ := r
    cases b <;> exact .pure hr
  · exact .pure hr
  · exact .pure hJ
  · refine .pure ?_
    cases onContinue label l <;> exact hJ

theorem Ok.linkItems (hev : Loc rd c va ra P ev) {label items l}
    (hw : WFs (Dyon.kOf c va ra st0) items) (hc : EsIn P items) :
    Ok rd c va ra P st0 (RoundIn P fun _ => True) (linkItems ev label items l) := by
  induction items generalizing l with
  | nil => exact .pure trivial
  | cons e es ih =>
    rw [WFs] at hw
    rw [EsIn] at hc
    refine .bind (.sub1 hev hw.1 hc.1) fun r hr => ?_
    have ih := fun l => ih (l := l) hw.2 hc.2
    obtain ⟨_ | x, _ | _ | l | l⟩ := r
    · exact ih _
    · exact .pure hr
    · exact .pure trivial
    · refine .pure ?_; cases onContinue label l <;> trivial
    · refine .bind (.calm (.derefE hr.val)) fun d _ => ?_
      split
      · exact ih _
      · exact .errT
    · exact .pure hr
    · exact .pure trivial
    · refine .pure ?_; cases onContinue label l <;> trivial

theorem roundIn_linkNested {label} {r : List Link.Scalar × R} (h : RIn P r.2) :
    RoundIn P (fun _ => True) (linkNested label r) := by
  obtain ⟨l, x, f⟩ := r
  rcases f with _ | _ | f | f <;> cases x <;> simp only [linkNested] <;>
    first | trivial | exact h | (split <;> trivial) | skip

theorem Ok.linkForN [FloatOps] (hev : Loc rd c va ra P ev) {n l name start stop body label}
    (h0 : Inv P st0) (hw : (Expr.forN .linkFor name start stop body label).WF (Dyon.kOf c va ra st0))
    (hc : EIn P (.forN .linkFor name start stop body label)) :
    Ok rd c va ra P st0 (LoopIn P fun _ => True) (linkForN n ev l name start stop body label) := by
  induction n generalizing l name start stop body label st0 with
  | zero => exact .timeout
  | succ n ih =>
    rw [Expr.WF] at hw
    rw [EIn] at hc
    rw [Dyon.linkForN]
    refine .countLoop hev _ h0 hw.1 hw.2.1 hc.1 hc.2.1 trivial fun a x _ => ?_
    have hb := hw.2.2.1
    have hcb := hc.2.2
    split
    · rw [WFs, Expr.WF] at hb
      rw [EsIn, EIn] at hcb
      exact .linkItems hev hb.1 hcb.1
    · rw [WFs] at hb
      rw [EsIn] at hcb
      exact .bind (ih h0 hb.1 hcb.1) fun r hr => .pure (roundIn_linkNested hr.2)
    · exact .panic
    · exact .panic

theorem Ok.linkForIn (hev : Loc rd c va ra P ev) (hA : ∀ t ch, ∀ v ∈ c.arrive t ch, Within P v)
    {n l name iter body label}
    (h0 : Inv P st0) (hw : (Expr.forIn .link name iter body label).WF (Dyon.kOf c va ra st0))
    (hc : EIn P (.forIn .link name iter body label)) :
    Ok rd c va ra P st0 (LoopIn P fun _ => True) (linkForIn c n ev l name iter body label) := by
  induction n generalizing l name iter body label st0 with
  | zero => exact .timeout
  | succ n ih =>
    rw [Expr.WF] at hw
    rw [EIn] at hc
    rw [Dyon.linkForIn]
    refine .chanLoop hev hA _ h0 hw.1 hc.1 trivial trivial fun a x _ _ => ?_
    have hb := hw.2.1
    have hcb := hc.2
    split
    · rw [WFs, Expr.WF] at hb
      rw [EsIn, EIn] at hcb
      exact .linkItems hev hb.1 hcb.1
    · rw [WFs] at hb
      rw [EsIn] at hcb
      exact .bind (ih h0 hb.1 hcb.1) fun r hr => .pure (roundIn_linkNested hr.2)
    · exact .panic
    · exact .panic

/-! ## Items -/

theorem Ok.slotOf {it : Item} {call : CallRec} (hn : c.byName = true)
    (hcall : ∀ s, Lk c va ra P st0 s → call.localLen = s.base) :
    Ok rd c va ra P st0 P (slotOf c it call) := by
  refine .get fun s hs => ?_
  simp only [hn, if_true]
  split
  · rename_i h
    rw [hcall s hs] at h
    exact .pure (hs.inv.locals _ (findLast_mem h))
  · split
    · exact .panic
    · exact .ite (fun _ => .errT) fun _ => .errT

theorem Ok.lastCall : Ok rd c va ra P st0 (fun call => ∀ s, Lk c va ra P st0 s → call.localLen = s.base)
    lastCall := by
  refine ⟨fun s hs => ⟨?_, fun _ g _ => ?_⟩⟩
  case refine_2 =>
    simp only [Dyon.lastCall, other_calls]
    cases s.calls.getLast? <;> rfl
  simp only [wp, Dyon.lastCall]
  cases hc : s.calls.getLast? with
  | none => trivial
  | some call =>
    refine ⟨hs, fun t ht => ?_⟩
    rw [ext_base ht.ext, ← ext_base hs.ext]
    simp [St.base, hc]

theorem Ok.pushIds (hev : Loc rd c va ra P ev) {R : β → Prop} {r : Option Val → EM β} {ids} {k : EM β}
    (hw : WFids (Dyon.kOf c va ra st0) ids) (hc : IdsIn P ids)
    (hr : ∀ x f, RIn P (x, f) → Ok rd c va ra P st0 R (r x)) (hk : Ok rd c va ra P st0 R k) :
    Ok rd c va ra P st0 R (pushIds ev r ids k) := by
  induction ids with
  | nil => exact hk
  | cons i is ih =>
    cases i with
    | str x => rw [WFids] at hw; rw [IdsIn] at hc; exact ih hw hc; all_goals simp
    | num x => rw [WFids] at hw; rw [IdsIn] at hc; exact ih hw hc; all_goals simp
    | expr e =>
      rw [WFids] at hw
      rw [IdsIn] at hc
      exact .wantK hev hw.1 hc.1 hr fun x hx => .bind (.pushE hx) fun _ _ => ih hw.2 hc.2

theorem Ok.itemE (hev : Loc rd c va ra P ev) (hn : c.byName = true) {it side} (h0 : Inv P st0)
    (hw : WFitem (Dyon.kOf c va ra st0) it) (hc : ItemIn P it) :
    Ok rd c va ra P st0 (RIn P) (itemE c ev it side) := by
  have hw : WFids (Dyon.kOf c va ra st0) it.ids := by
    cases it; simpa only [WFitem, Item.ids] using hw
  have hc : IdsIn P it.ids := by cases it; simpa only [ItemIn, Item.ids] using hc
  refine .bind .lastCall fun call hcall => .bind (.slotOf hn hcall) fun id₀ hid₀ =>
    .bind (.calm (.refSlot hid₀)) fun id hid => .ite (fun _ => .ite (fun _ => ?_) fun _ => ?_)
    fun _ => ?_
  · exact .bind (.calm (.slotE hid)) fun v hv => .calm (.tryVal hv)
  · exact .pure (.some (within_ref.2 hid))
  · refine .get fun s hs => .scope1 h0 (.pushIds hev hw hc (fun x f h => .pure h.of) ?_)
    exact .calm (.itemWalk (p := ⟨id, []⟩) hid fun i hi => hs.ge hi)

/-! ## Arguments -/

theorem Ok.lazyArgs (hev : Loc rd c va ra P ev) {b msg inv args} {k : EM R}
    (hw : WFs (Dyon.kOf c va ra st0) args) (hc : EsIn P args)
    (hk : Ok rd c va ra P st0 (RIn P) k) : Ok rd c va ra P st0 (RIn P) (lazyArgs ev b msg inv args k) := by
  induction args generalizing inv with
  | nil => exact hk
  | cons a as ih =>
    rw [WFs] at hw
    rw [EsIn] at hc
    refine .bind (.sub1 hev hw.1 hc.1) fun r hr => ?_
    obtain ⟨_ | x, _ | _ | _ | _⟩ := r
    case none.cont => exact .ite (fun _ => ih hw.2 hc.2) fun _ => .errT
    case none.ret => exact .pure hr
    case some.ret => exact .pure hr
    case some.cont =>
      refine .bind (.calm (.lazyCheck hr.val)) fun o ho => ?_
      cases o with
      | none => exact .bind (.pushE hr.val) fun _ _ => ih hw.2 hc.2
      | some r => exact .pure (.some (ho r rfl))
    all_goals exact .errT

/-- Arguments of a host function: `st` is the state before them. -/
theorem wq_lazyArgs_ext (hg : Good c va ra ev) (hev : Loc rd c va ra P ev) {msg inv args} {k : EM R}
    (hw : WFs (Dyon.kOf c va ra st0) args) (hc : EsIn P args) (hst : Lk c va ra P st0 st)
    (hk : ∀ s, Grown args.length st s → Lk c va ra P st0 s →
      wq rd P k (fun r t => Lk c va ra P st0 t ∧ RIn P r) (LErr c va ra P st0) s) :
    wq rd P (Dyon.lazyArgs ev false msg inv args k) (fun r t => Lk c va ra P st0 t ∧ RIn P r)
      (LErr c va ra P st0) st := by
  suffices ∀ n s inv, Grown n st s → Lk c va ra P st0 s →
      (∀ s, Grown (n + args.length) st s → Lk c va ra P st0 s →
        wq rd P k (fun r t => Lk c va ra P st0 t ∧ RIn P r) (LErr c va ra P st0) s) →
      wq rd P (Dyon.lazyArgs ev false msg inv args k) (fun r t => Lk c va ra P st0 t ∧ RIn P r)
        (LErr c va ra P st0) s from
    this 0 st inv Same.rfl.grown hst (by simpa using hk)
  clear hk
  induction args with
  | nil => exact fun n s inv hs hl hk => hk s hs hl
  | cons a as ih =>
    intro n s inv hs hl hk
    rw [WFs] at hw
    rw [EsIn] at hc
    refine wq_bind (wq_mono (wq_and (hg a .right s hl.wf (by rw [hl.kOf]; exact hw.1))
      ((Ok.sub1 hev hw.1 hc.1).run s hl)) ?_ fun _ h => h.2)
    rintro ⟨_ | x, _ | _ | _ | _⟩ t ⟨hp, ht, hr⟩
    case none.ret => exact wq_pure ⟨ht, hr⟩
    case some.ret => exact wq_pure ⟨ht, hr⟩
    case some.cont =>
      refine wq_bind (wq_mono (wq_and ((Quiet.lazyCheck ..).run t) ((Calm.lazyCheck hr.val).run t ht.inv))
        ?_ fun _ h => (ht.calm h.2).err)
      rintro o u ⟨hu, hcm, ho⟩
      cases o with
      | none =>
        refine wq_bind (wq_modify (ht := fun _ => by
          simp [other, over_push ((ht.calm hcm).ge le_rfl)]) (ih hw.2 hc.2 (n + 0 + 0 + 1) _ _
          (((hs.trans (hp.value _ rfl rfl).grown).trans hu.1.grown).trans (Grown.push x))
          ((ht.calm hcm).push hr.val) fun s hs hl => hk s ?_ hl))
        have : n + 0 + 0 + 1 + as.length = n + (a :: as).length := by simp; omega
        rwa [this] at hs
      | some r => exact wq_pure ⟨ht.calm hcm, .some (ho r rfl)⟩
    all_goals exact wq_errT ht.err

/-- Dropping the last value. -/
theorem Lk.pop {n : Nat} {s : St} (h0 : Inv P st0) (hst : Lk c va ra P st0 st)
    (hs : Lk c va ra P st0 s) (hg : Grown (n + 1) st s) :
    Lk c va ra P st0 { s with stack := s.stack.dropLast } ∧
      Grown n st { s with stack := s.stack.dropLast } := by
  have h5 := hg.5
  have h6 := hst.ext.5
  refine ⟨?_, hg.1, hg.2, hg.3, hg.4, by simp; omega⟩
  rw [List.dropLast_eq_take]
  exact hs.cutStack h0 (by omega)

theorem wq_popE {f : Val → EM β} {Q : β → St → Prop} {E : St → Prop} {n : Nat} {s : St}
    (h0 : Inv P st0) (hst : Lk c va ra P st0 st) (hs : Lk c va ra P st0 s) (hg : Grown (n + 1) st s)
    (h : ∀ v s, Grown n st s → Lk c va ra P st0 s → Within P v → wq rd P (f v) Q E s) :
    wq rd P (popE >>= f) Q E s := by
  have hne : s.stack ≠ [] := by
    intro h; have := hg.5; rw [h] at this; simp at this
  have hlt : s.stack.length - 1 < s.stack.length := by
    have := List.length_pos_of_ne_nil hne; omega
  refine wq_bind ?_
  have hp := Lk.pop h0 hst hs hg
  refine ⟨?_, fun _ g _ => ?_⟩
  case refine_2 =>
    have : (over P g s.stack).getLast? = s.stack.getLast? := by
      rw [List.getLast?_eq_getElem?, List.getLast?_eq_getElem?, over_length,
        over_in (hst.ge (by have := hg.5; omega))]
    simp only [popE, other, this]
    cases s.stack.getLast? <;> simp [Ev.onSt, other, over_dropLast]
  simp only [wp, popE, List.getLast?_eq_some_getLast hne]
  refine h _ _ hp.2 hp.1 ?_
  refine hs.inv.slots (s.stack.length - 1) _ ?_ (hst.ge (by have := hg.5; omega))
  rw [List.getLast_eq_getElem]
  exact List.getElem?_eq_getElem hlt

end Dyon.Loc
