import Verif.Eval.TryProps

/-!
# Specification of counting loops, and the main lemma

`Visits` describes consecutive rounds of a loop: the index of each round and what the body
did.  `loopN_visits` runs the rounds in the model.
-/

namespace Dyon

/-- What the body of a loop did in one round: `continue`, no value, or the value `x`, which
is `d` after following a reference. -/
inductive Mark where
  | skipped
  | nothing
  | value (x d : Val)

/-- A `break` or `continue` with label `l` is meant for the loop labelled `label`: it has no
label, or the label of the loop. -/
def Targets (label l : Option String) : Prop := l = none ∨ l = label

/-- The result of the body in a state, as a mark. -/
inductive Marked (label : Option String) (s : St) : R → Mark → Prop
  | skipped (x l) : Targets label l → Marked label s (x, .contLoop l) .skipped
  | nothing : Marked label s (none, .cont) .nothing
  | value (x d) : Spec.deref s.stack x = some d → Marked label s (some x, .cont) (.value x d)

/-- The state with the counter in slot `h` set to `i`. -/
def setCounter (h : Nat) (i : F64) (s : St) : St := { s with stack := s.stack.set h (.ofF64 i) }

/-- The loop variable is the top of the stack, in slot `h`, it is `i`, and `lc` names are
visible. -/
structure AtIndex (h lc : Nat) (i : F64) (s : St) : Prop where
  stack : s.stack.length = h + 1
  locals : s.locals.length = lc
  counter : s.stack[h]? = some (.ofF64 i)

/-- `Visits run label h lc stop i es st i' st'`: the rounds `es` of a loop from index `i` in
state `st` to index `i'` in state `st'`.  In every round the index is below `stop`, `run`
(the body) leaves the stacks and the counter in slot `h` as they are, and the next round
has the index plus one. -/
inductive Visits [FloatOps] (run : EM R) (label : Option String) (h lc : Nat) (stop : F64) :
    F64 → List (Val × Mark) → St → F64 → St → Prop
  | nil (i st) : Visits run label h lc stop i [] st i st
  | cons {i st r s m es i' st'} : F64.lt i stop = true → run st = .ok r s → Marked label s r m →
      AtIndex h lc i s →
      Visits run label h lc stop (FloatOps.add i F64.one) es
        (setCounter h (FloatOps.add i F64.one) s) i' st' →
      Visits run label h lc stop i ((.ofF64 i, m) :: es) st i' st'

/-- The bounds of a loop: `start` (0 if it is left out) and `stop` are evaluated in this
order. -/
structure Bounds [FloatOps] [VecMath] (c : ECfg) (n : Nat) (start : Option Expr) (stop : Expr)
    (st : St) (a b : F64) (s : St) : Prop where
  run : ∃ s₀, (match start with
      | none => a = F64.zero ∧ s₀ = st
      | some e => ∃ x sec, eval c n e .right st = .ok (some x, .cont) s₀ ∧
          Spec.deref s₀.stack x = some (.f64 a sec)) ∧
    ∃ x sec, eval c n stop .right s₀ = .ok (some x, .cont) s ∧
      Spec.deref s.stack x = some (.f64 b sec)

/-- The state at the start of the loop: the loop variable is declared. -/
def enterLoop (name : String) (a : F64) (s : St) : St :=
  { s with locals := s.locals ++ [(name, s.stack.length)], stack := s.stack ++ [.ofF64 a] }

/-- The state after the loop: stack and locals are cut back to their lengths in `st`. -/
def leaveLoop (st s : St) : St :=
  { s with stack := s.stack.take st.stack.length, locals := s.locals.take st.locals.length }

/-! ## Lemmas -/

section
variable [FloatOps]

theorem AtIndex.enter (name : String) (a : F64) (s : St) :
    AtIndex s.stack.length (s.locals.length + 1) a (enterLoop name a s) :=
  ⟨by simp [enterLoop], by simp [enterLoop], by simp [enterLoop]⟩

theorem AtIndex.set {h lc i j s} (hs : AtIndex h lc i s) : AtIndex h lc j (setCounter h j s) :=
  ⟨by simpa [setCounter] using hs.stack, hs.locals, by
    have := hs.stack; simp [setCounter, this]⟩

/-- The accumulator after some rounds. -/
inductive Folds (k : ForKind) : List (Val × Mark) → Option Val → Option Val → Prop
  | nil (a) : Folds k [] a a
  | skipped {i es a b} : Folds k es a b → Folds k ((i, .skipped) :: es) a b
  | nothing {i es a a' b} : (∀ s, k.step i a none s = .ok (a', false) s) → Folds k es a' b →
      Folds k ((i, .nothing) :: es) a b
  | value {i x d es a a' b} : (∀ s, Spec.deref s.stack x = some d →
      k.step i a (some x) s = .ok (a', false) s) → Folds k es a' b →
      Folds k ((i, .value x d) :: es) a b

omit [FloatOps] in
theorem onContinue_target {label l} (h : Targets label l) : onContinue label l = none := by
  obtain rfl | rfl := h
  · rfl
  · cases l <;> simp [onContinue]

theorem bodyRound_skipped {σ ev body label} {step : σ → Option Val → EM (σ × Bool)} {a st x l s}
    (hb : block ev body st = .ok (x, .contLoop l) s) (ht : Targets label l) :
    bodyRound ev body label step a st = .ok (.go a) s := by
  rw [bodyRound, EM.bind_ok hb]
  simp only [onContinue_target ht]
  rfl

theorem bodyRound_value {σ ev body label} {step : σ → Option Val → EM (σ × Bool)} {a st x s a' b t}
    (hb : block ev body st = .ok (x, .cont) s) (hs : step a x s = .ok (a', b) t) :
    bodyRound ev body label step a st = .ok (if b then .stop a' .cont else .go a') t := by
  rw [bodyRound, EM.bind_ok hb]
  simp only
  rw [EM.bind_ok hs]
  rfl

theorem slotE_ok {i : Nat} {v : Val} {s : St} (h : s.stack[i]? = some v) : slotE i s = .ok v s := by
  simp only [slotE, h]

theorem countRound_go {σ h lc stop i st s a a'} {round : σ → F64 → EM (Round σ)}
    (hst : AtIndex h lc i st) (hi : F64.lt i stop = true) (hr : round a i st = .ok (.go a') s)
    (hs : AtIndex h lc i s) :
    countRound (h + 1) lc stop round a st =
      .ok (.inl a') (setCounter h (FloatOps.add i F64.one) s) := by
  have hslot : ∀ {s}, AtIndex h lc i s → slotE (h + 1 - 1) s = .ok (.f64 i none) s :=
    fun hs => slotE_ok hs.counter
  have hw : writeE ⟨h, []⟩ (.ofF64 (FloatOps.add i F64.one)) s =
      .ok () (setCounter h (FloatOps.add i F64.one) s) := by
    have : readPlace s.stack ⟨h, []⟩ = some (.ofF64 i) := by simp [readPlace, hs.counter, Val.atPath]
    simp only [writeE, this, setCounter, writePlace, hs.counter]
    rfl
  have hinc : incSlot (h + 1 - 1) s = .ok () (setCounter h (FloatOps.add i F64.one) s) := by
    rw [incSlot, EM.bind_ok (hslot hs)]
    exact hw
  rw [countRound, EM.bind_ok (hslot hst)]
  simp only [hi, if_true]
  rw [EM.bind_ok hr]
  simp only
  rw [EM.bind_ok hinc]
  have hs' : AtIndex h lc (FloatOps.add i F64.one) (setCounter h (FloatOps.add i F64.one) s) := hs.set
  have h1 : truncStack (h + 1) (setCounter h (FloatOps.add i F64.one) s) =
      .ok () (setCounter h (FloatOps.add i F64.one) s) := by
    simp only [truncStack, EM.modify]
    rw [List.take_of_length_le (by rw [hs'.stack])]
  have h2 : truncLocals lc (setCounter h (FloatOps.add i F64.one) s) =
      .ok () (setCounter h (FloatOps.add i F64.one) s) := by
    simp only [truncLocals, EM.modify]
    rw [List.take_of_length_le (by rw [hs'.locals])]
  rw [EM.bind_ok h1, EM.bind_ok h2]
  rfl

theorem countRound_stop {σ h lc stop i st s a a' f} {round : σ → F64 → EM (Round σ)}
    (hst : AtIndex h lc i st) (hi : F64.lt i stop = true)
    (hr : round a i st = .ok (.stop a' f) s) :
    countRound (h + 1) lc stop round a st = .ok (.inr (true, (a', (none, f)))) s := by
  rw [countRound, EM.bind_ok (slotE_ok (i := h + 1 - 1) hst.counter)]
  simp only [Val.ofF64, hi, if_true]
  rw [EM.bind_ok hr]
  rfl

theorem countRound_exit {σ h lc stop i st s a r} {round : σ → F64 → EM (Round σ)}
    (hst : AtIndex h lc i st) (hi : F64.lt i stop = true)
    (hr : round a i st = .ok (.exit r) s) :
    countRound (h + 1) lc stop round a st = .ok (.inr (false, (a, r))) s := by
  rw [countRound, EM.bind_ok (slotE_ok (i := h + 1 - 1) hst.counter)]
  simp only [Val.ofF64, hi, if_true]
  rw [EM.bind_ok hr]
  rfl

theorem countRound_err {σ h lc stop i st s a m} {round : σ → F64 → EM (Round σ)}
    (hst : AtIndex h lc i st) (hi : F64.lt i stop = true)
    (hr : round a i st = .err m s) :
    countRound (h + 1) lc stop round a st = .err m s := by
  rw [countRound, EM.bind_ok (slotE_ok (i := h + 1 - 1) hst.counter)]
  simp only [Val.ofF64, hi, if_true]
  rw [EM.bind_err hr]

theorem countRound_end {σ h lc stop i st} {a : σ} {round : σ → F64 → EM (Round σ)}
    (hst : AtIndex h lc i st) (hi : F64.lt i stop = false) :
    countRound (h + 1) lc stop round a st = .ok (.inr (true, (a, (none, .cont)))) st := by
  rw [countRound, EM.bind_ok (slotE_ok (i := h + 1 - 1) hst.counter)]
  simp only [Val.ofF64, hi, Bool.false_eq_true, if_false]
  rfl

theorem loopN_inl {σ α m st s} {a a' : σ} {f : σ → EM (σ ⊕ α)} (h : f a st = .ok (.inl a') s) :
    loopN (m + 1) f a st = loopN m f a' s := by
  rw [loopN, EM.bind_ok h]
theorem loopN_inr {σ α m st s} {a : σ} {r : α} {f : σ → EM (σ ⊕ α)} (h : f a st = .ok (.inr r) s) :
    loopN (m + 1) f a st = .ok r s := by
  rw [loopN, EM.bind_ok h]; rfl
theorem loopN_err {σ α m st s e} {a : σ} {f : σ → EM (σ ⊕ α)} (h : f a st = .err e s) :
    loopN (m + 1) f a st = .err e s := by
  rw [loopN, EM.bind_err h]

/-- The rounds of `Visits` in the model. -/
theorem loopN_visits {k : ForKind} {ev body label h lc stop i es st i' st' a a' m}
    (hv : Visits (block ev body) label h lc stop i es st i' st') (hst : AtIndex h lc i st)
    (hf : Folds k es a a') :
    loopN (m + es.length) (countRound (h + 1) lc stop fun s ind =>
        bodyRound ev body label (k.step (.ofF64 ind)) s) a st =
      loopN m (countRound (h + 1) lc stop fun s ind => bodyRound ev body label (k.step (.ofF64 ind)) s) a' st'
    ∧ AtIndex h lc i' st' := by
  induction hv generalizing a with
  | nil i st => cases hf; exact ⟨rfl, hst⟩
  | @cons i st r s mk es i' st' hlt hrun hmk hs _ ih =>
    have key : ∃ a1, bodyRound ev body label (k.step (.ofF64 i)) a st = .ok (.go a1) s ∧ Folds k es a1 a' := by
      cases hmk with
      | skipped x l ht => cases hf with | skipped hf => exact ⟨_, bodyRound_skipped hrun ht, hf⟩
      | nothing => cases hf with | nothing h1 hf => exact ⟨_, bodyRound_value hrun (h1 s), hf⟩
      | value x d hd => cases hf with | value h1 hf => exact ⟨_, bodyRound_value hrun (h1 s hd), hf⟩
    obtain ⟨a1, hb, hf1⟩ := key
    obtain ⟨h1, h2⟩ := ih hs.set hf1
    refine ⟨?_, h2⟩
    rw [List.length_cons, ← Nat.add_assoc, loopN_inl (countRound_go hst hlt hb hs), h1]

variable [VecMath]

theorem wantNum_ok {β ev e msg st x s a sec} {r : Option Val → EM β} {k : F64 → EM β}
    (h : ev e .right st = .ok (some x, .cont) s) (hx : Spec.deref s.stack x = some (.f64 a sec)) :
    wantNum ev e msg r k st = k a s := by
  rw [wantNum, wantK, EM.bind_ok h]
  simp only
  rw [EM.bind_ok (derefE_ok hx)]

theorem bounds_run {β c n start stop st a b s} (hb : Bounds c n start stop st a b s)
    {r : Option Val → EM β} {msg} {k : F64 → F64 → EM β} :
    wantStart (eval c n) start r (fun a => wantNum (eval c n) stop msg r (k a)) st = k a b s := by
  obtain ⟨s₀, h1, x, sec, h2, h3⟩ := hb.run
  cases start with
  | none =>
    obtain ⟨rfl, rfl⟩ := h1
    exact wantNum_ok h2 h3
  | some e =>
    obtain ⟨y, sy, h4, h5⟩ := h1
    rw [wantStart, wantNum_ok h4 h5, wantNum_ok h2 h3]

theorem countLoop_run {σ c n fuel name start stop st a b s} {s₀ : σ} {round : σ → F64 → EM (Round σ)}
    (hb : Bounds c n start stop st a b s) :
    countLoop fuel (eval c n) name start stop s₀ round st =
      (match loopN fuel (countRound (s.stack.length + 1) (s.locals.length + 1) b round) s₀
          (enterLoop name a s) with
        | .ok (true, r) s' => .ok r (leaveLoop st s')
        | .ok (false, r) s' => .ok r s'
        | .err e s' => .err e s'
        | .panic w => .panic w
        | .timeout => .timeout) := by
  unfold countLoop scope2
  show EM.bind EM.get _ st = _
  simp only [EM.bind, EM.get]
  have := bounds_run (β := Bool × (σ × R)) hb (r := fun x => pure (false, (s₀, (x, .ret))))
    (msg := "Expected number from for end")
    (k := fun a b => do
      let s ← EM.get
      pushLocal name s.stack.length
      pushE (.ofF64 a)
      loopN fuel (countRound (s.stack.length + 1) (s.locals.length + 1) b round) s₀)
  show EM.bind _ _ st = _
  simp only [EM.bind]
  rw [this, show (EM.get >>= fun s => do
      pushLocal name s.stack.length
      pushE (.ofF64 a)
      loopN fuel (countRound (s.stack.length + 1) (s.locals.length + 1) b round) s₀) s =
    loopN fuel (countRound (s.stack.length + 1) (s.locals.length + 1) b round) s₀
      (enterLoop name a s) from rfl]
  cases loopN fuel (countRound (s.stack.length + 1) (s.locals.length + 1) b round) s₀
          (enterLoop name a s) with
  | ok r t =>
    obtain ⟨_ | _, r⟩ := r
    · rfl
    · rfl
  | err e t => rfl
  | panic w => rfl
  | timeout => rfl

/-- The loop ends after some rounds. -/
theorem forN_run {c n name start stop st a b s label body} {k : ForKind} {i es s' acc flag r t}
    (hb : Bounds c n start stop st a b s)
    (hv : Visits (block (eval c n) body) label s.stack.length (s.locals.length + 1) b a es
      (enterLoop name a s) i s') (hf : Folds k es k.init acc) (hn : es.length < n)
    (hend : AtIndex s.stack.length (s.locals.length + 1) i s' →
      countRound (s.stack.length + 1) (s.locals.length + 1) b
      (fun s ind => bodyRound (eval c n) body label (k.step (.ofF64 ind)) s) acc s' = .ok (.inr (flag, r)) t) :
    forNLoop n (eval c n) k name start stop body label st =
      .ok (accResult r) (if flag then leaveLoop st t else t) := by
  obtain ⟨m, hm⟩ : ∃ m, n = (m + 1) + es.length := ⟨n - es.length - 1, by omega⟩
  obtain ⟨h1, h2⟩ := loopN_visits (m := m + 1) hv (AtIndex.enter _ _ _) hf
  have h3 := countLoop_run (fuel := n) (s₀ := k.init) (name := name)
    (round := fun s ind => bodyRound (eval c n) body label (k.step (.ofF64 ind)) s) hb
  rw [← hm] at h1
  rw [h1, loopN_inr (hend h2)] at h3
  cases flag <;> (rw [forNLoop, EM.bind_ok h3]; rfl)

/-- The loop fails after some rounds. -/
theorem forN_err {c n name start stop st a b s label body} {k : ForKind} {i es s' acc e t}
    (hb : Bounds c n start stop st a b s)
    (hv : Visits (block (eval c n) body) label s.stack.length (s.locals.length + 1) b a es
      (enterLoop name a s) i s') (hf : Folds k es k.init acc) (hn : es.length < n)
    (hend : AtIndex s.stack.length (s.locals.length + 1) i s' →
      countRound (s.stack.length + 1) (s.locals.length + 1) b
      (fun s ind => bodyRound (eval c n) body label (k.step (.ofF64 ind)) s) acc s' = .err e t) :
    forNLoop n (eval c n) k name start stop body label st = .err e t := by
  obtain ⟨m, hm⟩ : ∃ m, n = (m + 1) + es.length := ⟨n - es.length - 1, by omega⟩
  obtain ⟨h1, h2⟩ := loopN_visits (m := m + 1) hv (AtIndex.enter _ _ _) hf
  have h3 := countLoop_run (fuel := n) (s₀ := k.init) (name := name)
    (round := fun s ind => bodyRound (eval c n) body label (k.step (.ofF64 ind)) s) hb
  rw [← hm] at h1
  rw [h1, loopN_err (hend h2)] at h3
  rw [forNLoop, EM.bind_err h3]

end
end Dyon
