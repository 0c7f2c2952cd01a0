import Verif.Eval.Demo

/-!
# C23, C25–C28: scopes, `try`, `?`, short circuit, lazy invariants

`Same a b` (in `WF`): the call stack, the local names, the current objects and the module
are equal in `a` and `b`, and the variable stack has the same length.
`eval c n` is the evaluator with fuel `n`; all theorems are for every `n`.
-/

namespace Dyon

section
variable [FloatOps] [VecMath]
variable {c : ECfg} {va ra : Nat → Nat}

/-! ## C23 Scopes restore the stacks -/

/-- **C23** A block leaves all stacks as they were, whichever way it is left: falling
through, `return`, `break` or `continue`. -/
theorem C23_block (hE : ExtFns c va ra) (hM : ModulesWF c va ra) {n es side st r s}
    (hi : ClosuresWF c va ra st) (hw : WFs (kOf c va ra st) es)
    (h : eval c n (.block es) side st = .ok r s) : Same st s := by
  cases n with
  | zero => cases h
  | succ n =>
    have := wp_block (st0 := st) (Good.eval hE hM n) .rfl hi hw
    rw [wp, show block (eval c n) es st = _ from h] at this
    exact this.2.1

/-- **C23** A call leaves all stacks as they were when it comes back to the caller, for
every callee and every loader mode. -/
theorem C23_call (hE : ExtFns c va ra) (hM : ModulesWF c va ra) {n f name args side st r s}
    (hi : ClosuresWF c va ra st) (hw : (Expr.call f name args).WF (kOf c va ra st))
    (h : eval c n (.call f name args) side st = .ok r s) (hr : r.2 ≠ .ret) : Same st s := by
  have := Good.eval hE hM n (.call f name args) side st hi hw
  rw [wp, h] at this
  exact this.quiet hr rfl

/-- **C23** A call of a closure leaves all stacks as they were. -/
theorem C23_callClosure (hE : ExtFns c va ra) (hM : ModulesWF c va ra) {n it args side st r s}
    (hi : ClosuresWF c va ra st) (hw : (Expr.callClosure it args).WF (kOf c va ra st))
    (h : eval c n (.callClosure it args) side st = .ok r s) (hr : r.2 ≠ .ret) : Same st s := by
  have := Good.eval hE hM n (.callClosure it args) side st hi hw
  rw [wp, h] at this
  exact this.quiet hr rfl

/-- **C23** A counting loop leaves all stacks as they were, however it ends, except that a
`return` through it leaves the cleaning to the block around it. -/
theorem C23_countingLoop (hE : ExtFns c va ra) (hM : ModulesWF c va ra)
    {n k name start stop body label side st r s} (hi : ClosuresWF c va ra st)
    (hw : (Expr.forN k name start stop body label).WF (kOf c va ra st))
    (h : eval c n (.forN k name start stop body label) side st = .ok r s) (hr : r.2 ≠ .ret) :
    Same st s := by
  have := Good.eval hE hM n (.forN k name start stop body label) side st hi hw
  rw [wp, h] at this
  exact this.quiet hr rfl

/-- **C23** A loop over a channel leaves all stacks as they were. -/
theorem C23_channelLoop (hE : ExtFns c va ra) (hM : ModulesWF c va ra)
    {n k name iter body label side st r s} (hi : ClosuresWF c va ra st)
    (hw : (Expr.forIn k name iter body label).WF (kOf c va ra st))
    (h : eval c n (.forIn k name iter body label) side st = .ok r s) (hr : r.2 ≠ .ret) :
    Same st s := by
  have := Good.eval hE hM n (.forIn k name iter body label) side st hi hw
  rw [wp, h] at this
  exact this.quiet hr rfl

/-- **C23** Every expression that gives a value leaves all stacks as they were. -/
theorem C23_value (hE : ExtFns c va ra) (hM : ModulesWF c va ra) {n e side st v s}
    (hi : ClosuresWF c va ra st) (hw : e.WF (kOf c va ra st))
    (h : eval c n e side st = .ok (some v, .cont) s) : Same st s := by
  have := Good.eval hE hM n e side st hi hw
  rw [wp, h] at this
  exact this.value v rfl rfl

/-- **C23** Nothing is ever taken from the stacks below the start of an expression, so
that what an expression leaves behind is removed by the block around it. -/
theorem C23_nothing_taken (hE : ExtFns c va ra) (hM : ModulesWF c va ra) {n e side st r s}
    (hi : ClosuresWF c va ra st) (hw : e.WF (kOf c va ra st))
    (h : eval c n e side st = .ok r s) : Ext st s := by
  have := Good.eval hE hM n e side st hi hw
  rw [wp, h] at this
  exact this.ext

/-- **C23** (partial: the general `for` loop) The variable and local stacks are restored.
Current objects declared in the initialiser stay, see `C23_for_leaks_current`. -/
theorem C23_for_partial (hE : ExtFns c va ra) (hM : ModulesWF c va ra)
    {n i cnd stp b label side st r s} (hi : ClosuresWF c va ra st)
    (hw : (Expr.for_ i cnd stp b label).WF (kOf c va ra st))
    (h : eval c n (.for_ i cnd stp b label) side st = .ok r s) (hr : r.2 ≠ .ret) :
    s.stack.length = st.stack.length ∧ s.locals = st.locals ∧ s.calls = st.calls := by
  cases n with
  | zero => cases h
  | succ n =>
    have := wp_forE (st0 := st) (n := n) (i := i) (cnd := cnd) (stp := stp) (b := b) (label := label)
      (Good.eval hE hM n) .rfl hi hw
    rw [wp, show forE n (eval c n) i cnd stp b label st = _ from h] at this
    exact ⟨this.stack hr, this.locals hr, this.ext.calls⟩

/-! ### Calls from outside -/

omit [FloatOps] [VecMath] in
theorem wp_any {α β} {m : EM α} {f : α → EM β} {Q : β → St → Prop} {st}
    (h : ∀ a s, wp (f a) Q (fun _ => True) s) : wp (m >>= f) Q (fun _ => True) st := by
  apply wp_bind
  unfold wp
  split
  · exact h _ _
  · trivial
  · trivial

omit [FloatOps] [VecMath] in
theorem enter_cont {name rname index file returns args currents a b d note body st} :
    wp (enter name rname index file returns args currents a b d note body)
      (fun r _ => r.2 = .cont) (fun _ => True) st := by
  have hc : ∀ x s, wp (callResult returns rname x) (fun r _ => r.2 = .cont) (fun _ => True) s := by
    intro x s
    cases returns
    · cases x
      · exact wp_pure rfl
      · exact wp_errCaller trivial
    · cases x with
      | none =>
        refine wp_any fun v t => ?_
        cases v <;> first | exact wp_pure rfl | exact wp_errCaller trivial
      | some v => cases v <;> first | exact wp_errCaller trivial | exact (rfl : Flow.cont = Flow.cont)
  have hrest : ∀ s, wp (do
      pushArgLocals a 0 args
      let r ← body
      bodyFlow r.2 do
        popFn name
        callResult returns rname r.1) (fun r _ => r.2 = .cont) (fun _ => True) s := by
    intro s
    refine wp_any fun _ s => wp_any fun r s => ?_
    unfold bodyFlow
    split <;> first | exact wp_errT trivial | exact wp_any fun _ s => hc _ s
  unfold enter
  refine wp_any fun _ s => wp_any fun _ s => wp_any fun _ s => ?_
  cases returns
  · exact hrest s
  · exact wp_any fun _ s => hrest s

theorem lazyArgs_cont {n b msg} {k : EM R} (hk : ∀ st, wp k (fun r _ => r.2 = .cont) (fun _ => True) st) :
    ∀ (vs : List Val) inv st, wp (lazyArgs (eval c n) b msg inv (vs.map Expr.const) k)
      (fun r _ => r.2 = .cont) (fun _ => True) st
  | [], _, st => hk st
  | v :: vs, inv, st => by
    cases n with
    | zero => exact trivial
    | succ n =>
      refine wp_bind (wp_pure (a := (some v, Flow.cont)) ?_)
      simp only
      refine wp_any fun r s => ?_
      cases r with
      | some r => exact wp_pure rfl
      | none => exact wp_any fun _ s => lazyArgs_cont hk vs _ s

/-- A call with values as arguments comes back normally. -/
theorem callE_cont {n loader f name} {vs : List Val} {st} :
    wp (callE c n (eval c n) loader f name (vs.map Expr.const)) (fun r _ => r.2 = .cont)
      (fun _ => True) st := by
  have hw : ∀ {e : Val} {k : Val → EM R} {s}, (∀ s x, wp (k x) (fun r _ => r.2 = .cont) (fun _ => True) s) →
      wp (want (eval c n) (.const e) .right noValue k) (fun r _ => r.2 = .cont) (fun _ => True) s := by
    intro e k s h
    cases n with
    | zero => exact trivial
    | succ n => exact wp_bind (wp_pure (a := (some e, Flow.cont)) (h _ _))
  cases f with
  | none => exact wp_errT trivial
  | void f => exact lazyArgs_cont (fun s => wp_any fun _ s => wp_pure rfl) _ _ _
  | ret f => exact lazyArgs_cont (fun s => wp_any fun _ s => wp_pure rfl) _ _ _
  | lazy f inv => exact lazyArgs_cont (fun s => wp_any fun _ s => wp_pure rfl) _ _ _
  | binop f =>
    match vs with
    | [] => trivial
    | [_] => trivial
    | _ :: _ :: _ =>
      exact hw fun s x => hw fun s y => wp_any fun _ s => wp_any fun _ s => wp_any fun _ s => wp_pure rfl
  | unop f =>
    match vs with
    | [] => trivial
    | _ :: _ => exact hw fun s x => wp_any fun _ s => wp_any fun _ s => wp_pure rfl
  | loaded f =>
    show wp (callLoaded c n (eval c n) loader f name (vs.map Expr.const)) _ _ st
    unfold callLoaded
    have key : ∀ rel s, wp (do
        let s ← EM.get
        match callIndex f rel with
        | none => EM.panic "index out of bounds"
        | some idx =>
          match (c.modules s.module)[idx]? with
          | none => EM.panic "index out of bounds"
          | some fn => do
            if fn.returns then pushE .ret else pure ()
            let s ← EM.get
            lazyArgs (eval c n) true noValue' fn.lazyInv (vs.map Expr.const) <|
              enter name fn.name idx fn.file fn.returns fn.args fn.currents s.stack.length
                s.locals.length s.currents.length (notify c n idx s.stack.length)
                (block (eval c n) fn.body)) (fun r _ => r.2 = .cont) (fun _ => True) s := by
      intro rel s
      refine wp_any fun s0 s => ?_
      cases callIndex f rel with
      | none => trivial
      | some idx =>
        simp only
        cases (c.modules s0.module)[idx]? with
        | none => trivial
        | some fn =>
          simp only
          have : ∀ s, wp (do
              let s ← EM.get
              lazyArgs (eval c n) true noValue' fn.lazyInv (vs.map Expr.const) <|
                enter name fn.name idx fn.file fn.returns fn.args fn.currents s.stack.length
                  s.locals.length s.currents.length (notify c n idx s.stack.length)
                  (block (eval c n) fn.body)) (fun r _ => r.2 = .cont) (fun _ => True) s :=
            fun s => wp_any fun _ s => lazyArgs_cont (fun s => enter_cont) _ _ _
          split
          · exact wp_any fun _ s => this s
          · exact this s
    cases loader
    · exact wp_any fun _ s => key _ s
    · exact wp_any fun _ s => key _ s

theorem WFs_const {k : Ctx} (vs : List Val) : WFs k (vs.map Expr.const) := by
  induction vs with
  | nil => trivial
  | cons v vs ih => exact ⟨trivial, ih⟩

/-- **C23** A call from outside (`Runtime::call`) with values leaves all stacks as they
were: for a loaded function with any arguments, for an external function with as many as
it takes. -/
theorem C23_call_from_outside (hE : ExtFns c va ra) (hM : ModulesWF c va ra)
    {n f name m st r s} {vs : List Val} (hi : ClosuresWF c va ra st)
    (hw : (Expr.call f name (vs.map Expr.const)).WF (ctxAt c va ra m st.rel))
    (h : callOutside c n f name (vs.map Expr.const) m st = .ok r s) : Same st s := by
  have h1 := wp_callE (n := n) (loader := true) (st0 := { st with module := m }) hE hM
    (Good.eval hE hM n) .rfl (hi.of_eq (b := { st with module := m }) rfl) hw
  have h2 := callE_cont (c := c) (n := n) (loader := true) (f := f) (name := name) (vs := vs)
    (st := { st with module := m })
  have hx : wp (inModule m (callE c n (eval c n) true f name (vs.map Expr.const)))
      (fun _ s => Same st s) (fun _ => True) st := by
    refine wp_inModule (wp_mono (wp_and h1 h2) (fun r s hp => ?_) fun _ _ => trivial)
    have := hp.1.same (by rw [hp.2]; simp)
    exact ⟨rfl, this.calls, this.locals, this.currents, this.stack⟩
  unfold callOutside at h
  unfold wp at hx
  cases hm : inModule m (callE c n (eval c n) true f name (vs.map Expr.const)) st <;>
    rw [hm] at h hx <;> simp only at h hx
  · cases h
    exact ⟨hx.1, by rw [hx.calls]; simp, hx.3, hx.4, hx.5⟩
  all_goals cases h

/-- **C23** Running a program leaves all stacks as they were (empty, normally). -/
theorem C23_run (hE : ExtFns c va ra) (hM : ModulesWF c va ra) {n m st s}
    (hi : ClosuresWF c va ra st) (h : run c n m st = .ok () s) : Same st s := by
  unfold run at h
  cases hff : findFunction c m "main" 0 with
  | loaded f =>
    rw [hff] at h
    simp only at h
    cases hf : (c.modules m)[f.toNat]? with
    | none => rw [hf] at h; cases h
    | some fn =>
      rw [hf] at h
      simp only at h
      by_cases hargs : fn.args.isEmpty
      · rw [if_pos hargs] at h
        have hw : (Expr.call (.loaded f) "main" ([].map Expr.const)).WF
            (kOf c va ra { st with module := m }) := by simp [Expr.WF, WFs]
        have h1 := wp_callE (n := n) (loader := false) (st0 := { st with module := m }) hE hM
          (Good.eval hE hM n) .rfl (hi.of_eq (b := { st with module := m }) rfl) hw
        have h2 := callE_cont (c := c) (n := n) (loader := false) (f := .loaded f) (name := "main")
          (vs := []) (st := { st with module := m })
        have hx : wp (inModule m (do
          let _ ← callE c n (eval c n) false (.loaded f) "main" []
          pure ())) (fun _ s => Same st s) (fun _ => True) st := by
          refine wp_inModule (wp_bind (wp_mono (wp_and h1 h2) (fun r s hp => ?_) fun _ _ => trivial))
          have := hp.1.same (by rw [hp.2]; simp)
          exact wp_pure ⟨rfl, this.calls, this.locals, this.currents, this.stack⟩
        rw [wp, h] at hx
        exact hx
      · rw [if_neg hargs] at h; cases h
  | _ => rw [hff] at h; cases h

/-- The hypotheses hold for the demo program. -/
example {n s} (h : run (Demo.cfg Demo.prog) n 0 Demo.empty = .ok () s) :
    s.stack = [] ∧ s.locals = [] ∧ s.currents = [] ∧ s.calls = [] := by
  have := C23_run (Demo.ext _) Demo.modules (Demo.closures _) h
  exact ⟨List.length_eq_zero_iff.1 this.stack, this.locals, this.currents, this.calls⟩

end
end Dyon
