import Verif.Eval.SenderProps

/-!
# C21: channel loops
-/

namespace Dyon

/-! ## Specification -/

/-- The message `v` is in the loop variable, which is the top of the stack, in slot `h`. -/
structure AtMsg (h lc : Nat) (v : Val) (s : St) : Prop where
  stack : s.stack.length = h + 1
  locals : s.locals.length = lc
  msg : s.stack[h]? = some v

/-- The state after taking message `v` from channel `ch`, where `rest` are the messages
behind it, into slot `h`. -/
def takeMsg (c : ECfg) (h ch : Nat) (v : Val) (rest : List Val) (s : St) : St :=
  { sync c s with
    queues := upd (sync c s).queues ch rest
    stack := s.stack.set h v }

/-- `Takes Q c run label h lc ch v es st v' st'`: the rounds `es` of a loop over channel
`ch`, from message `v` in state `st` to message `v'` in state `st'`.  In every round `run`
(the body) leaves the stacks and the loop variable as they are and the states before and
after it are related by `Q`; then the next message is the first one waiting. -/
inductive Takes (Q : St → St → Prop) (c : ECfg) (run : EM R) (label : Option String)
    (h lc ch : Nat) : Val → List (Val × Mark) → St → Val → St → Prop
  | nil (v st) : Takes Q c run label h lc ch v [] st v st
  | cons {v st r s m w rest es v' st'} : run st = .ok r s → Q st s → Marked label s r m →
      AtMsg h lc v s → (sync c s).queues ch = w :: rest →
      Takes Q c run label h lc ch w es (takeMsg c h ch w rest s) v' st' →
      Takes Q c run label h lc ch v ((v, m) :: es) st v' st'

/-- The counting loop with the same accumulator. -/
def ForInKind.toN : ForInKind → ForKind
  | .forIn => .forN
  | .sum => .sum
  | .prod => .prod
  | .min => .min
  | .max => .max
  | .any => .any
  | .all => .all
  | .sift => .sift
  | .link => .linkFor

/-- The rounds that count: `sum` and `prod` ignore rounds without value. -/
def ForInKind.kept (k : ForInKind) (es : List (Val × Mark)) : List (Val × Mark) :=
  if k = .sum ∨ k = .prod then es.filter fun e => match e.2 with | .nothing => false | _ => true
  else es

/-- The state at the first round: the first message is taken and the variable declared. -/
def enterMsg (c : ECfg) (name : String) (ch : Nat) (v : Val) (rest : List Val) (s : St) : St :=
  { sync c s with
    queues := upd (sync c s).queues ch rest
    locals := s.locals ++ [(name, s.stack.length)]
    stack := s.stack ++ [v] }

/-! ## Lemmas -/

section
variable [FloatOps]

theorem step_in {k : ForInKind} {h a x v s} (hv : s.stack[h]? = some v) :
    k.step h a (some x) s = k.toN.step v a (some x) s := by
  have hslot : slotE h s = .ok v s := slotE_ok hv
  have hd : ∀ {d t} , derefE x s = .ok d t → t = s := by
    intro d t hd
    unfold derefE at hd
    split at hd
    · unfold slotE at hd
      split at hd
      · cases hd; rfl
      · cases hd
    · cases hd; rfl
  have key : ∀ (f : Val → Val → EM (Option Val × Bool)),
      (do let d ← derefE x; let ind ← slotE h; f ind d) s = (do let d ← derefE x; f v d) s := by
    intro f
    cases hx : derefE x s with
    | ok d t =>
      obtain rfl := hd hx
      rw [EM.bind_ok hx, EM.bind_ok hx, EM.bind_ok hslot]
    | err e t => rw [EM.bind_err hx, EM.bind_err hx]
    | panic w =>
      show EM.bind _ _ s = EM.bind _ _ s
      simp only [EM.bind, hx]
    | timeout =>
      show EM.bind _ _ s = EM.bind _ _ s
      simp only [EM.bind, hx]
  cases k with
  | min => exact key fun ind d => accMin ind a d
  | max => exact key fun ind d => accMax ind a d
  | any => exact key fun ind d => accAny ind a d
  | all => exact key fun ind d => accAll ind a d
  | forIn => rfl
  | sum => rfl
  | prod => rfl
  | sift => rfl
  | link => rfl

theorem folds_kept {k : ForInKind} {v m es a a' ev body label st r s h}
    (hrun : block ev body st = .ok r s) (hmk : Marked label s r m) (hv : s.stack[h]? = some v)
    (hf : Folds k.toN (k.kept ((v, m) :: es)) a a') :
    ∃ a1, bodyRound ev body label (k.step h) a st = .ok (.go a1) s ∧
      Folds k.toN (k.kept es) a1 a' := by
  have hkept : ∀ {m}, m ≠ .nothing → k.kept ((v, m) :: es) = (v, m) :: k.kept es := by
    intro m hm
    unfold ForInKind.kept
    split
    · cases m <;> first | exact absurd rfl hm | rfl
    · rfl
  cases hmk with
  | skipped x l ht =>
    rw [hkept (by simp)] at hf
    cases hf with | skipped hf => exact ⟨_, bodyRound_skipped hrun ht, hf⟩
  | value x d hd =>
    rw [hkept (by simp)] at hf
    cases hf with
    | value h1 hf => exact ⟨_, bodyRound_value hrun ((step_in hv).trans (h1 s hd)), hf⟩
  | nothing =>
    by_cases hk : k = .sum ∨ k = .prod
    · refine ⟨a, bodyRound_value (b := false) hrun ?_, ?_⟩
      · obtain rfl | rfl := hk <;> rfl
      · unfold ForInKind.kept at hf ⊢
        rw [if_pos hk] at hf ⊢
        exact hf
    · have : k.kept ((v, .nothing) :: es) = (v, .nothing) :: k.kept es := by
        unfold ForInKind.kept; rw [if_neg hk, if_neg hk]
      rw [this] at hf
      cases hf with
      | nothing h1 hf =>
        cases k with
        | forIn =>
          have := h1 s
          cases this
          exact ⟨_, bodyRound_value (b := false) hrun rfl, hf⟩
        | sum => exact absurd (.inl rfl) hk
        | prod => exact absurd (.inr rfl) hk
        | min => exact absurd (h1 s) (by rintro ⟨⟩)
        | max => exact absurd (h1 s) (by rintro ⟨⟩)
        | any => exact absurd (h1 s) (by rintro ⟨⟩)
        | all => exact absurd (h1 s) (by rintro ⟨⟩)
        | sift => exact absurd (h1 s) (by rintro ⟨⟩)
        | link => exact absurd (h1 s) (by rintro ⟨⟩)

omit [FloatOps] in
theorem recvE_some {c ch s w rest} (h : (sync c s).queues ch = w :: rest) :
    recvE c ch s = .ok (some w) { sync c s with queues := upd (sync c s).queues ch rest } := by
  simp only [recvE, h]
omit [FloatOps] in
theorem recvE_none {c ch s} (h : (sync c s).queues ch = []) : recvE c ch s = .ok none (sync c s) := by
  simp only [recvE, h]

omit [FloatOps] in
theorem AtMsg.take {c h lc ch v w rest s} (hs : AtMsg h lc v s) :
    AtMsg h lc w (takeMsg c h ch w rest s) :=
  ⟨by simpa [takeMsg] using hs.stack, hs.locals, by have := hs.stack; simp [takeMsg, this]⟩

omit [FloatOps] in
theorem chanRound_go {σ c ch h lc v w rest st s} {a a' : σ} {round : σ → Nat → EM (Round σ)}
    (hr : round a h st = .ok (.go a') s) (hs : AtMsg h lc v s)
    (hq : (sync c s).queues ch = w :: rest) :
    chanRound c ch (h + 1) lc round a st = .ok (.inl a') (takeMsg c h ch w rest s) := by
  rw [chanRound, EM.bind_ok (show round a (h + 1 - 1) st = _ from hr)]
  simp only
  rw [EM.bind_ok (recvE_some hq)]
  simp only
  have hw : writeE ⟨h, []⟩ w { sync c s with queues := upd (sync c s).queues ch rest } =
      .ok () (takeMsg c h ch w rest s) := by
    have : readPlace s.stack ⟨h, []⟩ = some v := by simp [readPlace, hs.msg, Val.atPath]
    simp only [writeE, sync, this, takeMsg, writePlace, hs.msg]
    rfl
  have hs' : AtMsg h lc w (takeMsg c h ch w rest s) := hs.take
  have h1 : truncStack (h + 1) (takeMsg c h ch w rest s) = .ok () (takeMsg c h ch w rest s) := by
    simp only [truncStack, EM.modify]
    rw [List.take_of_length_le (by rw [hs'.stack])]
  have h2 : truncLocals lc (takeMsg c h ch w rest s) = .ok () (takeMsg c h ch w rest s) := by
    simp only [truncLocals, EM.modify]
    rw [List.take_of_length_le (by rw [hs'.locals])]
  rw [EM.bind_ok (show writeE ⟨h + 1 - 1, []⟩ w _ = _ from hw), EM.bind_ok h1, EM.bind_ok h2]
  rfl

omit [FloatOps] in
theorem chanRound_last {σ c ch h lc st s} {a a' : σ} {round : σ → Nat → EM (Round σ)}
    (hr : round a h st = .ok (.go a') s) (hq : (sync c s).queues ch = []) :
    chanRound c ch (h + 1) lc round a st = .ok (.inr (true, (a', (none, .cont)))) (sync c s) := by
  rw [chanRound, EM.bind_ok (show round a (h + 1 - 1) st = _ from hr)]
  simp only
  rw [EM.bind_ok (recvE_none hq)]
  rfl

omit [FloatOps] in
theorem chanRound_stop {σ c ch h lc st s f} {a a' : σ} {round : σ → Nat → EM (Round σ)}
    (hr : round a h st = .ok (.stop a' f) s) :
    chanRound c ch (h + 1) lc round a st = .ok (.inr (true, (a', (none, f)))) s := by
  rw [chanRound, EM.bind_ok (show round a (h + 1 - 1) st = _ from hr)]
  rfl

omit [FloatOps] in
theorem chanRound_exit {σ c ch h lc st s r} {a : σ} {round : σ → Nat → EM (Round σ)}
    (hr : round a h st = .ok (.exit r) s) :
    chanRound c ch (h + 1) lc round a st = .ok (.inr (false, (a, r))) s := by
  rw [chanRound, EM.bind_ok (show round a (h + 1 - 1) st = _ from hr)]
  rfl

omit [FloatOps] in
theorem chanRound_err {σ c ch h lc st s m} {a : σ} {round : σ → Nat → EM (Round σ)}
    (hr : round a h st = .err m s) : chanRound c ch (h + 1) lc round a st = .err m s := by
  rw [chanRound, EM.bind_err (show round a (h + 1 - 1) st = _ from hr)]

theorem loopN_takes {Q c} {k : ForInKind} {ev body label h lc ch v es st v' st' a a' m}
    (ht : Takes Q c (block ev body) label h lc ch v es st v' st') (hst : AtMsg h lc v st)
    (hf : Folds k.toN (k.kept es) a a') :
    loopN (m + es.length) (chanRound c ch (h + 1) lc fun s slot =>
        bodyRound ev body label (k.step slot) s) a st =
      loopN m (chanRound c ch (h + 1) lc fun s slot => bodyRound ev body label (k.step slot) s) a' st'
    ∧ AtMsg h lc v' st' := by
  induction ht generalizing a with
  | nil v st =>
    have : k.kept [] = [] := by unfold ForInKind.kept; split <;> rfl
    rw [this] at hf
    cases hf; exact ⟨rfl, hst⟩
  | @cons v st r s mk w rest es v' st' hrun _ hmk hs hq _ ih =>
    obtain ⟨a1, hb, hf1⟩ := folds_kept hrun hmk hs.msg hf
    obtain ⟨h1, h2⟩ := ih hs.take hf1
    refine ⟨?_, h2⟩
    rw [List.length_cons, ← Nat.add_assoc, loopN_inl (chanRound_go (round := fun s slot =>
      bodyRound ev body label (k.step slot) s) hb hs hq), h1]

variable [VecMath]

/-- The channel of a loop: the iterator is evaluated to a channel, in state `s`. -/
structure Channel (c : ECfg) (n : Nat) (iter : Expr) (st : St) (ch : Nat) (s : St) : Prop where
  run : ∃ x, eval c n iter .right st = .ok (some x, .cont) s ∧ Spec.deref s.stack x = some (.inTy ch)

omit [FloatOps] [VecMath] in
theorem EM.bind_panic {α β w} {m : EM α} {f : α → EM β} {st} (h : m st = .panic w) :
    (m >>= f) st = .panic w := by
  show EM.bind _ _ st = _
  simp only [EM.bind, h]
omit [FloatOps] [VecMath] in
theorem EM.bind_timeout {α β} {m : EM α} {f : α → EM β} {st} (h : m st = .timeout) :
    (m >>= f) st = .timeout := by
  show EM.bind _ _ st = _
  simp only [EM.bind, h]

theorem chanLoop_none {σ c n fuel name iter st ch s} {e s₀ : σ} {round : σ → Nat → EM (Round σ)}
    (hc : Channel c n iter st ch s) (hq : (sync c s).queues ch = []) :
    chanLoop c fuel (eval c n) name iter e s₀ round st = .ok (e, (none, .cont)) (sync c s) := by
  obtain ⟨x, h1, h2⟩ := hc.run
  unfold chanLoop scope2
  rw [EM.bind_ok (show EM.get st = .ok st st from rfl)]
  refine (EM.bind_ok (a := (false, (e, ((none : Option Val), Flow.cont)))) (s := sync c s) ?_).trans rfl
  rw [wantK, EM.bind_ok h1]
  simp only
  rw [EM.bind_ok (derefE_ok h2)]
  simp only
  rw [EM.bind_ok (recvE_none hq)]
  rfl

theorem chanLoop_run {σ c n fuel name iter st ch s v rest} {e s₀ : σ} {round : σ → Nat → EM (Round σ)}
    (hc : Channel c n iter st ch s) (hq : (sync c s).queues ch = v :: rest) :
    chanLoop c fuel (eval c n) name iter e s₀ round st =
      (match loopN fuel (chanRound c ch (s.stack.length + 1) (s.locals.length + 1) round) s₀
          (enterMsg c name ch v rest s) with
        | .ok (true, r) s' => .ok r (leaveLoop st s')
        | .ok (false, r) s' => .ok r s'
        | .err e s' => .err e s'
        | .panic w => .panic w
        | .timeout => .timeout) := by
  obtain ⟨x, h1, h2⟩ := hc.run
  unfold chanLoop scope2
  rw [EM.bind_ok (show EM.get st = .ok st st from rfl)]
  have hin : wantK (eval c n) iter .right "Expected in-type from for iter"
        (fun x => pure (false, (s₀, (x, Flow.ret)))) (fun x => do
      match ← derefE x with
      | .inTy ch =>
        match ← recvE c ch with
        | none => pure (false, (e, ((none : Option Val), Flow.cont)))
        | some v => do
          let s ← EM.get
          pushLocal name s.stack.length
          pushE v
          loopN fuel (chanRound c ch (s.stack.length + 1) (s.locals.length + 1) round) s₀
      | x => errExpected x "in") st =
      loopN fuel (chanRound c ch (s.stack.length + 1) (s.locals.length + 1) round) s₀
          (enterMsg c name ch v rest s) := by
    rw [wantK, EM.bind_ok h1]
    simp only
    rw [EM.bind_ok (derefE_ok h2)]
    simp only
    rw [EM.bind_ok (recvE_some hq)]
    rfl
  cases hl : loopN fuel (chanRound c ch (s.stack.length + 1) (s.locals.length + 1) round) s₀
          (enterMsg c name ch v rest s) with
  | ok r t =>
    rw [hl] at hin
    obtain ⟨_ | _, r⟩ := r
    · exact (EM.bind_ok hin).trans rfl
    · exact (EM.bind_ok hin).trans rfl
  | err e t => rw [hl] at hin; exact (EM.bind_err hin).trans rfl
  | panic w => rw [hl] at hin; exact EM.bind_panic hin
  | timeout => rw [hl] at hin; exact EM.bind_timeout hin

/-! ## Properties -/

/-- A channel loop has evaluated the channel `ch`, has run the rounds `es` and is about to
run its body with message `v` in state `s'`. -/
structure ChanRan (Q : St → St → Prop) (c : ECfg) (n : Nat) (name : String) (iter : Expr)
    (body : List Expr) (label : Option String) (st : St) (ch : Nat) (es : List (Val × Mark))
    (h lc : Nat) (v : Val) (s' : St) : Prop where
  run : ∃ s w rest, Channel c n iter st ch s ∧ (sync c s).queues ch = w :: rest ∧
    h = s.stack.length ∧ lc = s.locals.length + 1 ∧
    Takes Q c (eval c (n + 1) (.block body) .right) label h lc ch w es (enterMsg c name ch w rest s) v s'
  fuel : es.length < n

theorem ChanRan.ok {Q c n} {k : ForInKind} {name iter body label st ch es h lc v s' acc}
    (hr : ChanRan Q c n name iter body label st ch es h lc v s') (hf : Folds k.toN (k.kept es) k.toN.init acc)
    (hk : k ≠ .link) {flag r t}
    (hend : chanRound c ch (h + 1) lc (fun s slot => bodyRound (eval c n) body label (k.step slot) s)
      acc s' = .ok (.inr (flag, r)) t) (side : Side) :
    eval c (n + 1) (.forIn k name iter body label) side st =
      .ok (accResult r) (if flag then leaveLoop st t else t) := by
  obtain ⟨s, w, rest, hc, hq, rfl, rfl, ht⟩ := hr.run
  obtain ⟨m, hm⟩ : ∃ m, n = (m + 1) + es.length := ⟨n - es.length - 1, by have := hr.fuel; omega⟩
  have hst : AtMsg s.stack.length (s.locals.length + 1) w (enterMsg c name ch w rest s) :=
    ⟨by simp [enterMsg], by simp [enterMsg], by simp [enterMsg]⟩
  have hi : k.init = k.toN.init := by cases k <;> rfl
  rw [← hi] at hf
  obtain ⟨h1, h2⟩ := loopN_takes (m := m + 1) ht hst hf
  have h3 := chanLoop_run (fuel := n) (name := name) (e := (none : Option Val)) (s₀ := k.init) (round := fun s slot =>
    bodyRound (eval c n) body label (k.step slot) s) hc hq
  rw [← hm] at h1
  rw [show loopN n _ _ _ = _ from h1, loopN_inr hend] at h3
  have h4 : eval c (n + 1) (.forIn k name iter body label) side st =
      forInLoop c n (eval c n) k name iter body label st := by
    cases k <;> first | rfl | exact absurd rfl hk
  rw [h4]
  cases flag <;> (rw [forInLoop, EM.bind_ok h3]; rfl)

theorem ChanRan.err {Q c n} {k : ForInKind} {name iter body label st ch es h lc v s' acc}
    (hr : ChanRan Q c n name iter body label st ch es h lc v s') (hf : Folds k.toN (k.kept es) k.toN.init acc)
    (hk : k ≠ .link) {m t}
    (hend : chanRound c ch (h + 1) lc (fun s slot => bodyRound (eval c n) body label (k.step slot) s)
      acc s' = .err m t) (side : Side) :
    eval c (n + 1) (.forIn k name iter body label) side st = .err m t := by
  obtain ⟨s, w, rest, hc, hq, rfl, rfl, ht⟩ := hr.run
  obtain ⟨m', hm⟩ : ∃ m, n = (m + 1) + es.length := ⟨n - es.length - 1, by have := hr.fuel; omega⟩
  have hst : AtMsg s.stack.length (s.locals.length + 1) w (enterMsg c name ch w rest s) :=
    ⟨by simp [enterMsg], by simp [enterMsg], by simp [enterMsg]⟩
  have hi : k.init = k.toN.init := by cases k <;> rfl
  rw [← hi] at hf
  obtain ⟨h1, h2⟩ := loopN_takes (m := m' + 1) ht hst hf
  have h3 := chanLoop_run (fuel := n) (name := name) (e := (none : Option Val)) (s₀ := k.init) (round := fun s slot =>
    bodyRound (eval c n) body label (k.step slot) s) hc hq
  rw [← hm] at h1
  rw [show loopN n _ _ _ = _ from h1, loopN_err hend] at h3
  have h4 : eval c (n + 1) (.forIn k name iter body label) side st =
      forInLoop c n (eval c n) k name iter body label st := by
    cases k <;> first | rfl | exact absurd rfl hk
  rw [h4, forInLoop, EM.bind_err h3]

theorem folds_snoc {k : ForKind} {es a b} (h : Folds k es a b) {e b'} (h' : Folds k [e] b b') :
    Folds k (es ++ [e]) a b' := by
  induction h with
  | nil _ => exact h'
  | skipped _ ih => exact .skipped (ih h')
  | nothing h1 _ ih => exact .nothing h1 (ih h')
  | value h1 _ ih => exact .value h1 (ih h')

theorem folds_split {k : ForKind} {es es' a b} (h : Folds k (es ++ es') a b) :
    ∃ b', Folds k es a b' ∧ Folds k es' b' b := by
  induction es generalizing a with
  | nil => exact ⟨a, .nil _, h⟩
  | cons e es ih =>
    cases h with
    | skipped h => obtain ⟨b', h1, h2⟩ := ih h; exact ⟨b', .skipped h1, h2⟩
    | nothing hs h => obtain ⟨b', h1, h2⟩ := ih h; exact ⟨b', .nothing hs h1, h2⟩
    | value hs h => obtain ⟨b', h1, h2⟩ := ih h; exact ⟨b', .value hs h1, h2⟩

omit [FloatOps] [VecMath] in
theorem kept_append (k : ForInKind) (es es' : List (Val × Mark)) :
    k.kept (es ++ es') = k.kept es ++ k.kept es' := by
  unfold ForInKind.kept
  split <;> simp

/-- **C21.** When no message is waiting after the round of message `v`, the loop ends with
the fold of all its rounds. -/
theorem C21_end {Q c n} {k : ForInKind} {name iter body label st ch es h lc v s' r s m} (side : Side)
    (hr : ChanRan Q c n name iter body label st ch es h lc v s')
    (hb : eval c (n + 1) (.block body) .right s' = .ok r s) (hm : Marked label s r m)
    (hs : AtMsg h lc v s) (hq : (sync c s).queues ch = [])
    (ht : Typed k.toN (k.kept (es ++ [(v, m)]))) :
    ∃ x, LoopValue k.toN (k.kept (es ++ [(v, m)])) x ∧
      eval c (n + 1) (.forIn k name iter body label) side st =
        .ok (x, .cont) (leaveLoop st (sync c s)) := by
  have hk : k ≠ .link := by rintro rfl; exact ht.elim
  obtain ⟨x, hf, hL⟩ := folds_typed ht
  rw [kept_append] at hf
  obtain ⟨y, h1, h2⟩ := folds_split hf
  obtain ⟨z, hz, hf⟩ := folds_kept (es := []) (k := k) hb hm hs.msg h2
  have : k.kept [] = [] := by unfold ForInKind.kept; split <;> rfl
  rw [this] at hf
  cases hf
  exact ⟨x, hL, hr.ok h1 hk (flag := true) (chanRound_last hz hq) side⟩

/-- **C21.** Without a message the body does not run.  (The loop has no value then, also
`sum`, `any` and the others: see `C21_empty_no_value`.) -/
theorem C21_empty {c n} {k : ForInKind} {name iter body label st ch s} (side : Side) (hk : k ≠ .link)
    (hc : Channel c n iter st ch s) (hq : (sync c s).queues ch = []) :
    eval c (n + 1) (.forIn k name iter body label) side st = .ok (none, .cont) (sync c s) := by
  have h4 : eval c (n + 1) (.forIn k name iter body label) side st =
      forInLoop c n (eval c n) k name iter body label st := by
    cases k <;> first | rfl | exact absurd rfl hk
  rw [h4, forInLoop, EM.bind_ok (chanLoop_none hc hq)]
  rfl

/-- **C21.** `break` meant for this loop ends it with the fold of the rounds before. -/
theorem C21_break {Q c n} {k : ForInKind} {name iter body label st ch es h lc v s' x l t} (side : Side)
    (hr : ChanRan Q c n name iter body label st ch es h lc v s') (ht : Typed k.toN (k.kept es))
    (hb : eval c (n + 1) (.block body) .right s' = .ok (x, .brk l) t) (hl : Targets label l) :
    ∃ y, LoopValue k.toN (k.kept es) y ∧ eval c (n + 1) (.forIn k name iter body label) side st =
      .ok (y, .cont) (leaveLoop st t) := by
  have hk : k ≠ .link := by rintro rfl; exact ht.elim
  obtain ⟨y, hf, hL⟩ := folds_typed ht
  refine ⟨y, hL, hr.ok hf hk (flag := true) (r := (y, (none, .cont))) (chanRound_stop ?_) side⟩
  rw [bodyRound, EM.bind_ok (show block _ _ _ = _ from hb)]
  obtain rfl | rfl := hl
  · rfl
  · cases l <;> simp [onBreak] <;> rfl

/-- **C21.** `return` leaves the loop with the returned value. -/
theorem C21_return {Q c n} {k : ForInKind} {name iter body label st ch es h lc v s' x t} (side : Side)
    (hr : ChanRan Q c n name iter body label st ch es h lc v s') (ht : Typed k.toN (k.kept es))
    (hb : eval c (n + 1) (.block body) .right s' = .ok (x, .ret) t) :
    eval c (n + 1) (.forIn k name iter body label) side st = .ok (x, .ret) t := by
  have hk : k ≠ .link := by rintro rfl; exact ht.elim
  obtain ⟨y, hf, hL⟩ := folds_typed ht
  refine hr.ok hf hk (flag := false) (r := (y, (x, .ret))) (chanRound_exit ?_) side
  rw [bodyRound, EM.bind_ok (show block _ _ _ = _ from hb)]
  rfl

/-- **C21.** An error in the body is the error of the loop. -/
theorem C21_body_fails {Q c n} {k : ForInKind} {name iter body label st ch es h lc v s' e t} (side : Side)
    (hr : ChanRan Q c n name iter body label st ch es h lc v s') (ht : Typed k.toN (k.kept es))
    (hb : eval c (n + 1) (.block body) .right s' = .err e t) :
    eval c (n + 1) (.forIn k name iter body label) side st = .err e t := by
  have hk : k ≠ .link := by rintro rfl; exact ht.elim
  obtain ⟨y, hf, hL⟩ := folds_typed ht
  refine hr.err hf hk (chanRound_err ?_) side
  rw [bodyRound, EM.bind_err (show block _ _ _ = _ from hb)]

/-- **C21.** `any` ends with the first message for which the body is true, which is the
witness. -/
theorem C21_any_true {Q c n} {name iter body label st ch es h lc v s' x sec t} (side : Side)
    (hr : ChanRan Q c n name iter body label st ch es h lc v s')
    (ht : Typed .any es)
    (hb : eval c (n + 1) (.block body) .right s' = .ok (some x, .cont) t)
    (hx : Spec.deref t.stack x = some (.bool true sec)) (hs : AtMsg h lc v t) :
    eval c (n + 1) (.forIn .any name iter body label) side st =
      .ok (some (.bool true (withIndex sec v)), .cont) (leaveLoop st t) := by
  obtain ⟨y, hf, hL⟩ := folds_typed ht
  refine hr.ok (k := .any) hf (by simp) (flag := true)
    (r := (some (.bool true (withIndex sec v)), (none, .cont))) (chanRound_stop ?_) side
  refine bodyRound_value (b := true) hb ((step_in hs.msg).trans ?_)
  exact step_ok (k := .any) (by simp) (by simp) (by simp) hx
    (by simp only [accAny, addSecret_eq, if_true]; rfl)

/-- **C21.** `all` ends with the first message for which the body is false, which is the
witness. -/
theorem C21_all_false {Q c n} {name iter body label st ch es h lc v s' x sec t} (side : Side)
    (hr : ChanRan Q c n name iter body label st ch es h lc v s')
    (ht : Typed .all es)
    (hb : eval c (n + 1) (.block body) .right s' = .ok (some x, .cont) t)
    (hx : Spec.deref t.stack x = some (.bool false sec)) (hs : AtMsg h lc v t) :
    eval c (n + 1) (.forIn .all name iter body label) side st =
      .ok (some (.bool false (withIndex sec v)), .cont) (leaveLoop st t) := by
  obtain ⟨y, hf, hL⟩ := folds_typed ht
  refine hr.ok (k := .all) hf (by simp) (flag := true)
    (r := (some (.bool false (withIndex sec v)), (none, .cont))) (chanRound_stop ?_) side
  refine bodyRound_value (b := true) hb ((step_in hs.msg).trans ?_)
  exact step_ok (k := .all) (by simp) (by simp) (by simp) hx
    (by simp only [accAll, addSecret_eq, Bool.false_eq_true, if_false]; rfl)

omit [FloatOps] [VecMath] in
/-- The rounds of a loop take the messages in order. -/
theorem takes_in_order {c run label h lc ch v es st v' st'}
    (ht : Takes (fun s t => s.queues ch <+: t.queues ch) c run label h lc ch v es st v' st') :
    ∃ later, v :: st.queues ch ++ later = es.map Prod.fst ++ v' :: st'.queues ch := by
  induction ht with
  | nil v st => exact ⟨[], by simp⟩
  | @cons v st r s m w rest es v' st' _ hQ _ _ hq _ ih =>
    obtain ⟨later, hl⟩ := ih
    obtain ⟨more, hmore⟩ := hQ
    refine ⟨more ++ c.arrive s.time ch ++ later, ?_⟩
    have h1 : (takeMsg c h ch w rest s).queues ch = rest := by simp [takeMsg, upd]
    rw [h1] at hl
    have h2 : s.queues ch ++ c.arrive s.time ch = w :: rest := hq
    rw [← hmore, List.append_assoc] at h2
    simp only [List.map_cons, List.cons_append, ← hl]
    congr 1
    have : st.queues ch ++ (more ++ c.arrive s.time ch ++ later) =
        (st.queues ch ++ (more ++ c.arrive s.time ch)) ++ later := by simp
    rw [this, h2]; simp

/-- **C21.** If the body does not take messages from the channel itself, the rounds get the
messages in the order they were sent: those waiting when the loop started, then those that
came later; none is lost, repeated or passed over. -/
theorem C21_in_order {c n name iter body label st ch es h lc v s'}
    (hr : ChanRan (fun s t => s.queues ch <+: t.queues ch) c n name iter body label st ch es h lc v s') :
    ∃ s later, Channel c n iter st ch s ∧
      (sync c s).queues ch ++ later = es.map Prod.fst ++ v :: s'.queues ch := by
  obtain ⟨s, w, rest, hc, hq, rfl, rfl, ht⟩ := hr.run
  obtain ⟨later, h⟩ := takes_in_order ht
  refine ⟨s, later, hc, ?_⟩
  rw [hq, ← h]
  simp [enterMsg, upd]

/-- Finding: `sum` over a channel where nothing is waiting has no value, although `sum` over
an empty range is 0. -/
theorem C21_empty_no_value :
    eval (Demo.cfg []) 9 (.forIn .sum "v" (.const (.inTy 0)) [Demo.var "v" 1] none) .right Demo.inside =
      .ok (none, .cont) (sync (Demo.cfg []) Demo.inside) ∧
    ∃ s, eval (Demo.cfg []) 9 (.forN .sum "v" none (Demo.num 0) [Demo.var "v" 1] none) .right Demo.inside =
      .ok (some (.ofF64 F64.zero), .cont) s :=
  ⟨rfl, _, rfl⟩

/-! ## Examples -/

/-- A state where two messages are waiting in channel 0. -/
def Demo.waiting : St :=
  { Demo.inside with queues := fun ch => if ch = 0 then [.str "a", .str "b"] else [] }

/-- The loop `for v in ch { v }` after its first round, with message "b", and the end of
its second round. -/
example : ∃ s' t, ChanRan (fun s t => s.queues 0 <+: t.queues 0) (Demo.cfg []) 9 "v" (.const (.inTy 0))
      [Demo.var "v" 1] none Demo.waiting 0 [(.str "a", .value (.ref 1) (.str "a"))] 1 1 (.str "b") s' ∧
    eval (Demo.cfg []) 10 (.block [Demo.var "v" 1]) .right s' = .ok (some (.ref 1), .cont) t ∧
    Marked none t (some (.ref 1), .cont) (.value (.ref 1) (.str "b")) ∧ AtMsg 1 1 (.str "b") t ∧
    (sync (Demo.cfg []) t).queues 0 = [] ∧
    Typed ForInKind.forIn.toN (ForInKind.forIn.kept
      ([(.str "a", .value (.ref 1) (.str "a"))] ++ [(.str "b", .value (.ref 1) (.str "b"))])) := by
  refine ⟨_, _, ⟨⟨Demo.waiting, .str "a", [.str "b"], ⟨_, rfl, rfl⟩, rfl, rfl, rfl,
    .cons (r := (some (.ref 1), .cont)) (s := enterMsg (Demo.cfg []) "v" 0 (.str "a") [.str "b"] Demo.waiting)
      rfl (List.prefix_refl _) (.value _ _ rfl) ⟨rfl, rfl, rfl⟩ rfl (.nil _ _)⟩, by decide⟩,
    rfl, .value _ _ rfl, ⟨rfl, rfl, rfl⟩, rfl, trivial⟩

end

/-! ## C17: the recorded indices

A loop that finds a witness records its index with `withIndex` (`C19_any_true`,
`C19_all_false`, `FirstBest` for `min` and `max`, `C21_any_true`), on top of what the body
recorded. -/

/-- The secret recorded by nested loops with the given witnesses, outermost first. -/
def nestSecret : List Val → Option (List Val)
  | [] => none
  | i :: inner => withIndex (nestSecret inner) i

theorem nestSecret_eq {i is} : nestSecret (i :: is) = some (i :: is).reverse := by
  induction is generalizing i with
  | nil => rfl
  | cons j js ih =>
    rw [nestSecret, ih]
    simp [withIndex]

/-- **C17.** `why` gives the witnesses of nested loops, outermost first. -/
theorem C17_nested_why (c : Cfg) (st : Stack) (a i : Val) (is : List Val)
    (ha : Denotes st a (.bool true (nestSecret (i :: is)))) :
    Lib.why c (st ++ [a]) = .ok (.array (i :: is)) st := by
  rw [nestSecret_eq] at ha
  rw [(C17_why c st a _ ha).1 _ rfl]
  simp

/-- **C17.** `where` gives the positions of a number in nested loops, outermost first. -/
theorem C17_nested_where (c : Cfg) (st : Stack) (a i : Val) (is : List Val) (x : F64)
    (hx : F64.isNaN x = false) (ha : Denotes st a (.f64 x (nestSecret (i :: is)))) :
    Lib.where' c (st ++ [a]) = .ok (.array (i :: is)) st := by
  rw [nestSecret_eq] at ha
  rw [(C17_where c st a _ ha).1 _ _ rfl hx]
  simp

section
variable [FloatOps] [VecMath]

/-- `any i 1 { any j 1 { true } }` records both indices, which are 0. -/
example : ∃ v s, eval (Demo.cfg []) 9 (.forN .any "i" none (Demo.num 1)
      [.forN .any "j" none (Demo.num 1) [Demo.bool true] none] none) .right Demo.inside =
      .ok (some v, .cont) s ∧ Denotes s.stack v (.bool true (nestSecret [.ofF64 F64.zero, .ofF64 F64.zero])) :=
  ⟨_, _, rfl, .inr ⟨by simp, rfl⟩⟩

end
end Dyon
