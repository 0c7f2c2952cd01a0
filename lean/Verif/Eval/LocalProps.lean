import Verif.Eval.LocalLib
import Verif.Eval.LocalResolve
import Verif.Eval.ClosureProps

/-!
# C77: a called function changes only what it can reach

`Reach s roots i`: slot `i` of the variable stack can be got at from the slots `roots`, the
current objects, the values grabbed by closures and the waiting messages, by following references.
`C77_expr` is about the evaluation of any expression, `C77_call` about a call of a function:
what the function cannot reach from its arguments keeps its value, however deep the calls go and
whether the call succeeds or fails.
-/

namespace Dyon

open Loc

/-! ## Specification -/

/-- The slots in `S` are all that can be got at: `S` holds the roots, the slots of current
objects and the slots that closures and waiting messages refer to, and everything that slots in
`S` refer to. -/
structure Shut (s : St) (roots S : Nat → Prop) : Prop where
  roots : ∀ i, roots i → S i
  currents : ∀ x ∈ s.currents, S x.2
  closures : ∀ cl ∈ s.closures, EIn S cl.body
  messages : ∀ ch, ∀ v ∈ s.queues ch, ∀ j, HasRef j v → S j
  refs : ∀ i v, s.stack[i]? = some v → S i → ∀ j, HasRef j v → S j

/-- Slot `i` can be reached: it is in all such sets. -/
def Reach (s : St) (roots : Nat → Prop) (i : Nat) : Prop := ∀ S, Shut s roots S → S i

/-- A program over external functions that keep to what they can reach, whose variables are in
scope and whose constants hold no references (references are never written in source text). -/
structure Sound (c : ECfg) (va ra : Nat → Nat) : Prop where
  slots : c.byName = false
  ext : ExtFns c va ra
  still : ExtStill c
  reach : ∀ P, ExtLocal c va ra P
  grows : GrowsExt c
  arrive : ∀ t ch, ∀ v ∈ c.arrive t ch, ∀ i, ¬ HasRef i v
  wf : ModulesWF c va ra
  inScope : ModulesScoped c va ra
  consts : ModulesIn c fun _ => False

/-- A state between expressions of a running function whose variables are `Γ`. -/
structure Settled (c : ECfg) (va ra : Nat → Nat) (Γ : Env) (s : St) : Prop where
  wf : ClosuresWF c.resolve va ra s
  res : ClosRes c.resolve va ra s
  aligned : Aligned Γ s

/-- Roots of a running function: its variables and what is above the stack. -/
def ownSlots (s : St) (i : Nat) : Prop :=
  s.stack.length ≤ i ∨ ∃ call, s.calls.getLast? = some call ∧ ∃ x ∈ s.locals.drop call.localLen, x.2 = i

/-! ## Proofs -/

section
variable {c : ECfg} {va ra : Nat → Nat} {P : Nat → Prop}

theorem Shut.tame {s : St} {roots : Nat → Prop} (h : Shut s roots P) : Tame P s :=
  ⟨h.refs, h.closures, h.messages, h.currents⟩

variable [FloatOps] [VecMath]

omit [FloatOps] [VecMath] in
theorem extFns_named (h : ExtFns c va ra) {lost} : ExtFns (c.named lost) va ra := ⟨h.void, h.ret⟩
omit [FloatOps] [VecMath] in
theorem extLocal_named (h : ExtLocal c va ra P) {lost} : ExtLocal (c.resolve.named lost) va ra P :=
  ⟨h.void, h.ret, h.binop, h.unop⟩

omit [FloatOps] [VecMath] in
theorem extBlind_named (h : ExtBlind c va ra P) {lost} : ExtBlind (c.resolve.named lost) va ra P :=
  ⟨h.void, h.ret⟩

/-- The evaluator by name on a program with slots. -/
theorem Sound.locIf {rd : Prop} (h : Sound c va ra) (hR : rd → ExtBlind c va ra P) (n : Nat) :
    Loc rd (c.resolve.named none) va ra P (eval (c.resolve.named none) n) :=
  Loc.eval (c := c.resolve.named none) rfl (fun t ch v hv i hi => absurd hi (h.arrive t ch v hv i)) (extLocal_named (h.reach P))
    (fun hr => extBlind_named (hR hr)) (extFns_named (extFns_resolve h.ext)) (modulesWF_resolve h.wf)
    (modulesIn_resolve h.consts fun _ h => h.elim) n

/-- What it can reach, it leaves. -/
theorem Sound.loc (h : Sound c va ra) (n : Nat) (e : Expr) (side : Side) (s : St)
    (hc : ClosuresWF (c.resolve.named none) va ra s) (hi : Inv P s)
    (hw : e.WF (kOf (c.resolve.named none) va ra s)) (he : EIn P e) :
    wp (eval (c.resolve.named none) n e side)
      (fun r t => Lk (c.resolve.named none) va ra P s t ∧ RIn P r)
      (LErr (c.resolve.named none) va ra P s) s :=
  (h.locIf (rd := False) (fun h => h.elim) n e side s hc hi hw he).1

/-- **C77.** Evaluating an expression of a running function leaves every slot as it is that
cannot be reached from the variables of the function, the current objects, closures and waiting
messages. -/
theorem C77_expr (hS : Sound c va ra) {Γ : Env} {s : St} (hs : Settled c va ra Γ s) {e : Expr}
    (hw : e.WF (kOf c.resolve va ra s)) (hr : e.Res (kOf c.resolve va ra s) (arOf c.resolve s) Γ [])
    (hc : EIn (fun _ => False) e) (n : Nat) (side : Side) {i : Nat} (hi : ¬ Reach s (ownSlots s) i) :
    wp (eval c.resolve n e side) (fun _ t => t.stack[i]? = s.stack[i]?)
      (fun t => t.stack[i]? = s.stack[i]?) s := by
  unfold Reach at hi
  push Not at hi
  obtain ⟨S, hS', hiS⟩ := hi
  have h1 := (Agrees.eval (c := c.resolve) (lost := none) hS.slots (extFns_resolve hS.ext) (extStill_resolve hS.still)
    (modulesWF_resolve hS.wf) (modulesRes_resolve hS.inScope) n e side s Γ hs.wf hs.res hw hr
    hs.aligned).1.1
  obtain ⟨call, hcall, hlen, -, -⟩ := hs.aligned
  have hbase : s.base = call.localLen := by simp [St.base, hcall]
  have hinv : Inv S s := ⟨hS'.tame, fun j hj => by
      by_contra hlt
      exact hj (hS'.roots j (.inl (by omega))), by rw [hbase]; exact hlen, fun x hx =>
      hS'.roots _ (.inr ⟨call, hcall, x, by rw [hbase] at hx; exact hx, rfl⟩)⟩
  have h2 := hS.loc n e side s hs.wf hinv hw (eIn_mono (fun _ h => h.elim) e hc)
  unfold wp at h2 ⊢
  rw [← h1]
  cases hx : eval (c.resolve.named none) n e side s <;> rw [hx] at h2
  · exact h2.1.kept i hiS
  · exact h2.kept i hiS
  all_goals trivial

omit [FloatOps] [VecMath] in
/-- The end of a call: the slots above those of the callers are given up. -/
theorem wp_endCall {S : Nat → Prop} {name rname : String} {idx : Nat} {file : Option String}
    {returns : Bool} {st lc cu : Nat} {body : EM R} {calls : List CallRec} {b : St}
    {Q : R → Prop} (hbody : wp body (fun r t => Lk c va ra S b t ∧ Q r) (LErr c va ra S b) b)
    {i : Nat} (hiS : ¬ S i) (hbl : st ≤ b.stack.length) (hi : i + (if returns then 1 else 0) < st)
    (hcalls : b.calls = calls ++ [⟨name, idx, file, st, lc, cu⟩]) :
    wp (body >>= fun r => bodyFlow r.2 do
        popFn name
        callResult returns rname r.1) (fun _ t => t.stack[i]? = b.stack[i]?)
      (fun t => t.stack[i]? = b.stack[i]?) b := by
  refine wp_bind (wp_mono hbody (fun r t ⟨ht, _⟩ => ?_) fun t ht => ht.kept i hiS)
  have hti := ht.kept i hiS
  have hpop : wp (do popFn name; callResult returns rname r.1)
      (fun _ t => t.stack[i]? = b.stack[i]?) (fun t => t.stack[i]? = b.stack[i]?) t := by
    refine wp_bind ?_
    have hcl : t.calls.getLast? = some ⟨name, idx, file, st, lc, cu⟩ := by
      rw [ht.ext.calls, hcalls]; simp
    simp only [wp, popFn, hcl, if_true]
    have htl : st ≤ t.stack.length := hbl.trans ht.ext.5
    have hcut : (t.stack.take st)[i]? = b.stack[i]? := by
      rw [List.getElem?_take_of_lt (by omega)]; exact hti
    have hdrop : returns = true → (t.stack.take st).dropLast[i]? = b.stack[i]? := by
      intro hr'
      simp only [hr', if_true] at hi
      rw [List.dropLast_eq_take, List.getElem?_take_of_lt (by simp; omega)]
      exact hcut
    cases hfr : returns with
    | false =>
      cases r.1 with
      | none => exact hcut
      | some v => exact wp_errCaller hcut
    | true =>
      cases r.1 with
      | some v => cases v <;> first | exact wp_errCaller hcut | exact hdrop hfr
      | none =>
        refine wp_bind ?_
        unfold wp popE
        simp only
        cases hl : (t.stack.take st).getLast? with
        | none => trivial
        | some v =>
          simp only
          cases v <;> first | exact wp_errCaller (hdrop hfr) | exact hdrop hfr
  unfold bodyFlow
  split
  · exact wp_errT hti
  · exact wp_errT hti
  · exact wp_errT hti
  · exact wp_errT hti
  · exact hpop

theorem argLen_argsTo {c : ECfg} (hE : ExtFns c va ra) (hM : ModulesWF c va ra)
    {n args vs s u} (hi : ClosuresWF c va ra s) (hw : WFs (kOf c va ra s) args)
    (h : ArgsTo c n args vs s u) : argLen args = vs.length := by
  induction h with
  | nil => rfl
  | @cons a as v vs s t u hv _ ih =>
    rw [WFs] at hw
    have hg := Good.eval hE hM n a .right s hi hw.1
    rw [wp, hv] at hg
    have hs := hg.value v rfl rfl
    have hk : kOf c va ra { t with stack := t.stack ++ [v] } = kOf c va ra s := by
      simp only [kOf, St.rel, hs.module, hs.calls]
    have hsw : a.isSwizzle = false := by
      by_contra h
      have := (hg.swizzle (by simpa using h) rfl).1
      simp at this
    have := ih hg.inv (by rw [hk]; exact hw.2)
    simp only [argLen, List.map_cons, List.sum_cons, width_one hsw, List.length_cons] at this ⊢
    omega

theorem argsTo_wf {c : ECfg} (hE : ExtFns c va ra) (hM : ModulesWF c va ra)
    {n args vs s u} (hi : ClosuresWF c va ra s) (hw : WFs (kOf c va ra s) args)
    (h : ArgsTo c n args vs s u) : ClosuresWF c va ra u := by
  induction h with
  | nil => exact hi
  | @cons a as v vs s t u hv _ ih =>
    rw [WFs] at hw
    have hg := Good.eval hE hM n a .right s hi hw.1
    rw [wp, hv] at hg
    have hs := hg.value v rfl rfl
    have hk : kOf c va ra { t with stack := t.stack ++ [v] } = kOf c va ra s := by
      simp only [kOf, St.rel, hs.module, hs.calls]
    exact ih hg.inv (by rw [hk]; exact hw.2)

/-- The start of the body of a call: the slots of the call are within what it can reach, and
the body keeps to what it can reach. -/
structure AtBody (c : ECfg) (va ra : Nat → Nat) (s u b : St) (name : String) (returns : Bool)
    (st : Nat) (body : EM R) : Prop where
  slot : st = s.stack.length + (if returns then 1 else 0)
  len : st ≤ b.stack.length
  calls : ∃ calls idx file lc cu, b.calls = calls ++ [⟨name, idx, file, st, lc, cu⟩]
  below : ∀ i, i < s.stack.length → b.stack[i]? = u.stack[i]?
  body : ∀ (rd : Prop) S, Shut b (fun j => s.stack.length ≤ j) S → (rd → ExtBlind c va ra S) →
    wq rd S body (fun r t => Lk (c.resolve.named none) va ra S b t ∧ RIn S r)
      (LErr (c.resolve.named none) va ra S b) b

/-- A call of a loaded function from its body on. -/
theorem call_body (hS : Sound c va ra) {Γ : Env} {s : St} (hs : Settled c va ra Γ s) {n : Nat} {f : Int}
    {name : String} {args : List Expr} (hw : (Expr.call (.loaded f) name args).WF (kOf c.resolve va ra s))
    (hr : (Expr.call (.loaded f) name args).Res (kOf c.resolve va ra s) (arOf c.resolve s) Γ [])
    {idx : Nat} {fn : Func} {vs : List Val} {refs : List Nat} {u w b : St}
    (h : CallRun c.resolve n f name args s idx fn vs refs u w b) (side : Side) :
    eval c.resolve (n + 1) (.call (.loaded f) name args) side s =
      (block (eval (c.resolve.named none) n) fn.body >>= fun r => bodyFlow r.2 do
        popFn name
        callResult fn.returns fn.name r.1) b ∧
    AtBody c va ra s u b name fn.returns (withReturn fn.returns s).stack.length
      (block (eval (c.resolve.named none) n) fn.body) := by
  have hg := Good.eval (extFns_resolve hS.ext) (modulesWF_resolve hS.wf) n
  have ha := Agrees.eval (c := c.resolve) (lost := none) hS.slots (extFns_resolve hS.ext)
    (extStill_resolve hS.still) (modulesWF_resolve hS.wf) (modulesRes_resolve hS.inScope) n
  simp only [Expr.WF] at hw
  simp only [Expr.Res] at hr
  -- the state with the return slot
  have hidx : callIndex f s.rel = some idx := callIndex_eq h.index
  have hret : (kOf c.resolve va ra s).rets f = fn.returns := by
    simp only [kOf, ctxAt, hidx, h.func]
  have har : arOf c.resolve s f = fn.args.length := by simp only [arOf, arAt, hidx, h.func]
  generalize hs1 : withReturn fn.returns s = s1 at *
  have hg1 : Grown (if fn.returns then 1 else 0) s s1 := by
    subst hs1
    unfold withReturn
    cases fn.returns
    · exact Same.rfl.grown
    · exact Grown.push _
  have hwf1 : ClosuresWF c.resolve va ra s1 := by
    subst hs1; unfold withReturn; cases fn.returns <;> exact hs.wf
  have hres1 : ClosRes c.resolve va ra s1 := by
    subst hs1; unfold withReturn; cases fn.returns <;> exact hs.res
  have hpre : callPre (kOf c.resolve va ra s) (.loaded f) =
      List.replicate (if fn.returns then 1 else 0) none := by
    rw [← hret]
    simp only [callPre]; cases (kOf c.resolve va ra s).rets f <;> rfl
  -- the state after the arguments
  have hargs := h.args
  rw [hs1] at hargs
  obtain ⟨l1, l2, l3, l4, l5, l6⟩ := C29_slots (extFns_resolve hS.ext) (modulesWF_resolve hS.wf) hwf1
    (by rw [hg1.ext.kOf]; exact hw.1) hargs
  have hlen : argLen args = vs.length := argLen_argsTo (extFns_resolve hS.ext)
    (modulesWF_resolve hS.wf) hwf1 (by rw [hg1.ext.kOf]; exact hw.1) hargs
  have hgu : Grown fn.args.length s1 u := ⟨l5, l3, l2, l4, by rw [l1, ← hlen, hr.2.1, har]⟩
  have hwfu : ClosuresWF c.resolve va ra u := argsTo_wf (extFns_resolve hS.ext)
    (modulesWF_resolve hS.wf) hwf1 (by rw [hg1.ext.kOf]; exact hw.1) hargs
  have hresu : ClosRes c.resolve va ra u := by
    have hk := rel_lazyArgs_loaded (c := c.resolve) hg ha (msg := noValue') (inv := fn.lazyInv)
      (k := (pure (none, .cont) : EM R)) (k' := pure (none, .cont)) hwf1 hres1
      (by rw [hg1.ext.kOf]; exact hw.1) h.strict
      (by rw [hg1.ext.kOf, hg1.ext.arOf, ← hpre]; exact hr.1) (hs.aligned.grown hg1)
      (by rw [hg1.ext.kOf]; exact hr.2.2) (fun t _ _ hc => rel_pure hc)
    have := hk.2
    unfold wp at this
    rw [lazyArgs_run h.strict hargs] at this
    exact this
  -- the body by name
  obtain ⟨hbody, -⟩ := (modulesWF_resolve hS.wf) _ _ _ h.func
  obtain ⟨hfresh, hbres⟩ := (modulesRes_resolve hS.inScope) _ _ _ h.func
  have hrun := h.run side
  rw [hs1] at hrun
  have hrel := rel_enter (c := c.resolve) (va := va) (ra := ra) (name := name) (rname := fn.name)
    (index := idx) (file := fn.file) (returns := fn.returns) (args := fn.args) (currents := fn.currents)
    (note := notify c.resolve n idx s1.stack.length) (note' := notify c.resolve n idx s1.stack.length)
    (body := block (eval c.resolve n) fn.body)
    (body' := block (eval (c.resolve.named none) n) fn.body)
    (b := s.stack.length) hg1.stack hgu hwfu hresu (.notify ..) rfl hfresh
    (fun t hm hrel hal hi hc => by
      have e1 : kOf c.resolve va ra t = ctxAt c.resolve va ra s.module idx := by
        simp only [kOf, hm, hrel, hg1.module]
      have e2 : arOf c.resolve t = arAt c.resolve s.module idx := by
        simp only [arOf, hm, hrel, hg1.module]
      exact rel_block hg ha hi hc (by rw [e1]; exact hbody) (by rw [e1, e2]; exact hbres) hal)
  have hnote := h.note
  rw [hs1] at hnote
  have hst := enter_start (name := name) (rname := fn.name) (idx := idx) (file := fn.file)
    (returns := fn.returns) (args := fn.args) (st := s1.stack.length) (lc := s1.locals.length)
    (cu := s1.currents.length) (body := block (eval (c.resolve.named none) n) fn.body) h.currents hnote
  have hstart := h.start
  rw [hs1] at hstart
  obtain ⟨b1, b2, b3⟩ := h.body
  rw [hs1] at b2 b3
  have elc : s.locals.length = s1.locals.length := by rw [hg1.locals]
  have ecu : s.currents.length = s1.currents.length := by rw [hg1.currents]
  rw [elc, ecu] at hstart hrun b2
  rw [← hstart] at hst
  have hkey : eval c.resolve (n + 1) (.call (.loaded f) name args) side s =
      (block (eval (c.resolve.named none) n) fn.body >>= fun r => bodyFlow r.2 do
        popFn name
        callResult fn.returns fn.name r.1) b := by
    rw [hrun, ← hrel.1, hst]
  -- reach
  have hst1 : s.stack.length ≤ s1.stack.length := by have := hg1.stack; omega
  have hul : s1.stack.length ≤ u.stack.length := by rw [l1]; omega
  have hbl : s1.stack.length ≤ b.stack.length := by rw [b1]; simp; omega
  have hbase : b.base = s1.locals.length := by simp [St.base, b2]
  have hinv : ∀ S, Shut b (fun j => s.stack.length ≤ j) S → Inv S b := by
    intro S hb
    refine ⟨hb.tame, fun j hj => ?_, ?_, fun x hx => hb.roots _ ?_⟩
    · by_contra hlt
      exact hj (hb.roots j (by show s.stack.length ≤ j; omega))
    · rw [hbase, b3, l2]; simp
    · rw [hbase, b3, l2, List.append_assoc, List.drop_left] at hx
      show s.stack.length ≤ x.2
      rcases List.mem_append.1 hx with hx | hx
      · obtain ⟨p, -, rfl⟩ := List.mem_map.1 hx
        show s.stack.length ≤ u.stack.length + p.2
        omega
      · unfold paramLocals at hx
        rcases List.mem_append.1 hx with hx | hx
        · split at hx
          · rename_i hr'
            simp only [List.mem_singleton] at hx
            subst hx
            have := hg1.stack
            simp only [hr', if_true] at this
            show s.stack.length ≤ s1.stack.length - 1
            omega
          · cases hx
        · obtain ⟨p, -, rfl⟩ := List.mem_map.1 hx
          show s.stack.length ≤ s1.stack.length + p.2
          omega
  have hbm : b.module = s.module := by
    have := (notify_keeps hnote).2.2.2.2
    subst hstart
    simp only [bodyState]
    rw [this]
    show u.module = _
    rw [l5, hg1.module]
  have hwfb : ClosuresWF c.resolve va ra b := by
    subst hstart
    have := wp_mono ((Quiet.notify c.resolve n idx s1.stack.length).run (withCurrents fn.currents refs u))
      (fun _ t h => h) (fun t h => h)
    unfold wp at this
    rw [hnote] at this
    exact hwfu.of_eq this.2
  have hkb : kOf (c.resolve.named none) va ra b = ctxAt c.resolve va ra s.module idx := by
    have : b.rel = idx := by simp [St.rel, b2]
    simp only [kOf, hbm, this]
    rfl
  refine ⟨hkey, ?_⟩
  try rw [hs1]
  refine ⟨hg1.stack, hbl, ⟨_, _, _, _, _, b2⟩, fun i hi => ?_, fun rd S hb hR => ?_⟩
  · rw [b1, List.getElem?_append_left (by omega)]
  · have hcons := modulesIn_resolve (Q := S) hS.consts (fun _ h => h.elim) _ _ _ h.func
    exact (Ok.block (hS.locIf hR n) (hinv S hb) (by rw [hkb]; exact hbody) hcons).run b (.rfl hwfb (hinv S hb))

/-- **C77.** A called function changes only what it can reach: `s` is the state before the call,
`u` the state after the arguments, `b` the state at the start of the body.  A slot of the callers
that cannot be reached from the slots of the call (return value, arguments, references to
current objects), the current objects, closures and waiting messages is after the call, and
at an error in it, as it was when the arguments had been evaluated. -/
theorem C77_call (hS : Sound c va ra) {Γ : Env} {s : St} (hs : Settled c va ra Γ s) {n : Nat} {f : Int}
    {name : String} {args : List Expr} (hw : (Expr.call (.loaded f) name args).WF (kOf c.resolve va ra s))
    (hr : (Expr.call (.loaded f) name args).Res (kOf c.resolve va ra s) (arOf c.resolve s) Γ [])
    {idx : Nat} {fn : Func} {vs : List Val} {refs : List Nat} {u w b : St}
    (h : CallRun c.resolve n f name args s idx fn vs refs u w b) (side : Side) {i : Nat}
    (hi : i < s.stack.length) (hreach : ¬ Reach b (fun j => s.stack.length ≤ j) i) :
    wp (eval c.resolve (n + 1) (.call (.loaded f) name args) side)
      (fun _ t => t.stack[i]? = u.stack[i]?) (fun t => t.stack[i]? = u.stack[i]?) s := by
  unfold Reach at hreach
  push Not at hreach
  obtain ⟨S, hb, hiS⟩ := hreach
  obtain ⟨hkey, hat⟩ := call_body hS hs hw hr h side
  obtain ⟨_, _, _, _, _, b2⟩ := hat.calls
  have hgoal := wp_endCall (rname := fn.name) (returns := fn.returns)
    (hat.body False S hb fun h => h.elim).1 hiS hat.len (i := i) (by have := hat.slot; omega) b2
  rw [hat.below i hi] at hgoal
  unfold wp at hgoal ⊢
  rw [hkey]
  exact hgoal

theorem argsTo_closures {c : ECfg} (hx : GrowsExt c) {n args vs s u} (h : ArgsTo c n args vs s u) :
    s.closures <+: u.closures := by
  induction h with
  | nil => exact List.prefix_rfl
  | @cons a as v vs s t u hv _ ih =>
    have := (grows_eval hx n a .right).run s
    rw [wp, hv] at this
    exact this.closures.trans ih

/-- A call of a closure from its body on. -/
theorem closure_body (hS : Sound c va ra) {Γ : Env} {s : St} (hs : Settled c va ra Γ s) {n : Nat}
    {it : Item} {args : List Expr} (hw : (Expr.callClosure it args).WF (kOf c.resolve va ra s))
    (hr : (Expr.callClosure it args).Res (kOf c.resolve va ra s) (arOf c.resolve s) Γ [])
    {cl : Clo} {vs : List Val} {refs : List Nat} {s1 u b : St}
    (h : CloRun c.resolve n it args s cl vs refs s1 u b) (side : Side) :
    eval c.resolve (n + 1) (.callClosure it args) side s =
      (inModule cl.module (eval (c.resolve.named none) n cl.body .right) >>= fun r => bodyFlow r.2 do
        popFn it.name
        callResult true it.name r.1) b ∧
    AtBody c va ra s u b it.name true (s.stack.length + 1)
      (inModule cl.module (eval (c.resolve.named none) n cl.body .right)) := by
  have hE := extFns_resolve hS.ext
  have hM := modulesWF_resolve hS.wf
  have hg := Good.eval hE hM n
  have ha := Agrees.eval (c := c.resolve) (lost := none) hS.slots hE
    (extStill_resolve hS.still) hM (modulesRes_resolve hS.inScope) n
  simp only [Expr.WF] at hw
  simp only [Expr.Res] at hr
  -- the closure
  obtain ⟨x, id, hx, hd, hcl⟩ := h.closure
  have hgi := Good.eval hE hM (n + 1) (.item it) .right s hs.wf (by simp only [Expr.WF]; exact hw.1)
  rw [wp, hx] at hgi
  have hsame := hgi.value x rfl rfl
  have hwf0 : ClosuresWF c.resolve va ra s1 := hgi.inv
  have hres0 : ClosRes c.resolve va ra s1 := by
    have := (Agrees.eval (c := c.resolve) (lost := none) hS.slots hE
      (extStill_resolve hS.still) hM (modulesRes_resolve hS.inScope) (n + 1) (.item it) .right s Γ
      hs.wf hs.res (by simp only [Expr.WF]; exact hw.1) (by simp only [Expr.Res]; exact hr.1) hs.aligned).1.2
    rw [wp, hx] at this
    exact this
  have hmem := List.mem_of_getElem? hcl
  have hfb := hwf0 cl hmem
  obtain ⟨hfr, hfresh, hfres⟩ := hres0 cl hmem
  rw [hfr] at hfres
  have hrun := h.run side
  have hargs := h.args
  have hstart := h.start
  rw [hfr] at hrun hargs hstart
  -- the state with the return slot
  generalize hs2 : withReturn true s1 = s2 at *
  have hg1 : Grown 1 s s2 := by subst hs2; exact hsame.grown.trans (Grown.push _)
  have hwf1 : ClosuresWF c.resolve va ra s2 := by subst hs2; exact hwf0
  have hres1 : ClosRes c.resolve va ra s2 := by subst hs2; exact hres0
  -- the state after the arguments
  obtain ⟨l1, l2, l3, l4, l5, l6⟩ := C29_slots hE hM hwf1 (by rw [hg1.ext.kOf]; exact hw.2) hargs
  have hlen : argLen args = vs.length := argLen_argsTo hE hM hwf1 (by rw [hg1.ext.kOf]; exact hw.2) hargs
  have hgu : Grown cl.args.length s2 u := ⟨l5, l3, l2, l4, by rw [l1, ← hlen, h.count]⟩
  have hwfu : ClosuresWF c.resolve va ra u := argsTo_wf hE hM hwf1 (by rw [hg1.ext.kOf]; exact hw.2) hargs
  have hresu : ClosRes c.resolve va ra u := by
    have hk := rel_lazyArgs_loaded (c := c.resolve) hg ha (msg := noValue') (inv := [])
      (k := (pure (none, .cont) : EM R)) (k' := pure (none, .cont)) hwf1 hres1
      (by rw [hg1.ext.kOf]; exact hw.2) (by simp)
      (by rw [hg1.ext.kOf, hg1.ext.arOf]; exact hr.2.2) (hs.aligned.grown hg1)
      (by rw [hg1.ext.kOf]; exact hr.2.1) (fun t _ _ hc => rel_pure hc)
    have := hk.2
    unfold wp at this
    rw [lazyArgs_run (by simp) hargs] at this
    exact this
  -- the body by name
  have elc : s1.locals.length = s2.locals.length := by subst hs2; rfl
  have ecu : s1.currents.length = s2.currents.length := by subst hs2; rfl
  have hrel := rel_enter (c := c.resolve) (va := va) (ra := ra) (name := it.name) (rname := it.name)
    (index := cl.relative) (file := cl.file) (returns := true) (args := cl.args) (currents := cl.currents)
    (note := pure ()) (note' := pure ())
    (body := inModule cl.module (eval c.resolve n cl.body .right))
    (body' := inModule cl.module (eval (c.resolve.named none) n cl.body .right))
    (b := s.stack.length) hg1.stack hgu hwfu hresu (.pure _) rfl hfresh
    (fun t hm hrel hal hi hc => by
      refine rel_inModule ?_
      have e0 : ({ t with module := cl.module } : St).rel = cl.relative := hrel
      have e1 : kOf c.resolve va ra { t with module := cl.module } = ctxAt c.resolve va ra cl.module cl.relative := by
        simp only [kOf, e0]
      have e2 : arOf c.resolve { t with module := cl.module } = arAt c.resolve cl.module cl.relative := by
        simp only [arOf, e0]
      exact (ha cl.body .right { t with module := cl.module } _ hi hc (by rw [e1]; exact hfb)
        (by rw [e1, e2]; exact hfres) (hal.of_eq rfl rfl rfl)).1)
  have hst := enter_start (name := it.name) (rname := it.name) (idx := cl.relative) (file := cl.file)
    (returns := true) (args := cl.args) (st := s2.stack.length) (lc := s2.locals.length)
    (cu := s2.currents.length) (note := pure ()) (w := withCurrents cl.currents refs u)
    (body := inModule cl.module (eval (c.resolve.named none) n cl.body .right)) h.currents rfl
  rw [elc, ecu] at hstart hrun
  rw [← hstart] at hst
  have hkey : eval c.resolve (n + 1) (.callClosure it args) side s =
      (inModule cl.module (eval (c.resolve.named none) n cl.body .right) >>= fun r => bodyFlow r.2 do
        popFn it.name
        callResult true it.name r.1) b := by
    rw [hrun, ← hrel.1, hst]
  -- reach
  have b1 : b.stack = u.stack ++ refs.map .ref := by subst hstart; rfl
  have b2 : b.calls = u.calls ++ [⟨it.name, cl.relative, cl.file, s2.stack.length, s2.locals.length, s2.currents.length⟩] := by
    subst hstart; rfl
  have hst1 : s2.stack.length = s.stack.length + 1 := hg1.stack
  have hul : s2.stack.length ≤ u.stack.length := by rw [l1]; omega
  have hbl : s2.stack.length ≤ b.stack.length := by rw [b1]; simp; omega
  have hbase : b.base = s2.locals.length := by simp [St.base, b2]
  have hlb : b.locals = (withCurrents cl.currents refs u).locals ++ paramLocals true cl.args s2.stack.length := by
    subst hstart; rfl
  have hinv : ∀ S, Shut b (fun j => s.stack.length ≤ j) S → Inv S b := by
    intro S hb
    refine ⟨hb.tame, fun j hj => ?_, ?_, fun x hx => hb.roots _ ?_⟩
    · by_contra hlt
      exact hj (hb.roots j (by show s.stack.length ≤ j; omega))
    · rw [hbase, hlb]; simp only [withCurrents]; rw [l2]; simp
    · rw [hbase, hlb] at hx
      simp only [withCurrents] at hx
      rw [l2, List.append_assoc, List.drop_left] at hx
      show s.stack.length ≤ x.2
      rcases List.mem_append.1 hx with hx | hx
      · obtain ⟨p, -, rfl⟩ := List.mem_map.1 hx
        show s.stack.length ≤ u.stack.length + p.2
        omega
      · unfold paramLocals at hx
        rcases List.mem_append.1 hx with hx | hx
        · simp only [if_true, List.mem_singleton] at hx
          subst hx
          show s.stack.length ≤ s2.stack.length - 1
          omega
        · obtain ⟨p, -, rfl⟩ := List.mem_map.1 hx
          show s.stack.length ≤ s2.stack.length + p.2
          omega
  have hwfb : ClosuresWF c.resolve va ra b := by subst hstart; exact hwfu
  have hclo : cl ∈ b.closures := by
    have h1 : s2.closures = s1.closures := by subst hs2; rfl
    have h2 : b.closures = u.closures := by subst hstart; rfl
    rw [h2]
    exact (argsTo_closures (c := c.resolve) ⟨hS.grows.void, hS.grows.ret⟩ hargs).subset (h1 ▸ hmem)
  refine ⟨hkey, rfl, by omega, ⟨_, _, _, _, _, hst1 ▸ b2⟩, fun i hi => ?_, fun rd S hb hR => ?_⟩
  · rw [b1, List.getElem?_append_left (by omega)]
  have hinv := hinv S hb
  · have hk : kOf (c.resolve.named none) va ra { b with module := cl.module } = ctxAt c.resolve va ra cl.module cl.relative := by
      have : ({ b with module := cl.module } : St).rel = cl.relative := by simp [St.rel, b2]
      simp only [kOf, this]
      rfl
    refine wq_inModule (wq_mono (hS.locIf hR n cl.body .right { b with module := cl.module } hwfb
      ⟨⟨hinv.slots, hinv.closures, hinv.queues, hinv.currents⟩, hinv.fresh, hinv.base, hinv.locals⟩
      (by rw [hk]; exact hfb) (hb.closures cl hclo)) ?_ ?_)
    · rintro r u ⟨hu, hr⟩
      have := hu.inv
      exact ⟨⟨⟨rfl, hu.ext.2, hu.ext.3, hu.ext.4, hu.ext.5⟩, hu.wf,
        ⟨⟨this.slots, this.closures, this.queues, this.currents⟩, this.fresh, this.base, this.locals⟩,
        hu.kept⟩, hr⟩
    · intro u hu
      have := hu.tame
      exact ⟨⟨rfl, hu.ext.2, hu.ext.3, hu.ext.4, hu.ext.5⟩, hu.wf,
        ⟨this.slots, this.closures, this.queues, this.currents⟩, hu.kept⟩

/-- **C77.** The same for a call of a closure: `s1` is the state in which the closure has been
looked up. -/
theorem C77_closure (hS : Sound c va ra) {Γ : Env} {s : St} (hs : Settled c va ra Γ s) {n : Nat}
    {it : Item} {args : List Expr} (hw : (Expr.callClosure it args).WF (kOf c.resolve va ra s))
    (hr : (Expr.callClosure it args).Res (kOf c.resolve va ra s) (arOf c.resolve s) Γ [])
    {cl : Clo} {vs : List Val} {refs : List Nat} {s1 u b : St}
    (h : CloRun c.resolve n it args s cl vs refs s1 u b) (side : Side) {i : Nat}
    (hi : i < s.stack.length) (hreach : ¬ Reach b (fun j => s.stack.length ≤ j) i) :
    wp (eval c.resolve (n + 1) (.callClosure it args) side)
      (fun _ t => t.stack[i]? = u.stack[i]?) (fun t => t.stack[i]? = u.stack[i]?) s := by
  unfold Reach at hreach
  push Not at hreach
  obtain ⟨S, hb, hiS⟩ := hreach
  obtain ⟨hkey, hat⟩ := closure_body hS hs hw hr h side
  obtain ⟨_, _, _, _, _, b2⟩ := hat.calls
  have hgoal := wp_endCall (rname := it.name) (returns := true)
    (hat.body False S hb fun h => h.elim).1 hiS hat.len (i := i) (by simp only [if_true]; omega) b2
  rw [hat.below i hi] at hgoal
  unfold wp at hgoal ⊢
  rw [hkey]
  exact hgoal

/-- **C77.** A call whose slots hold no references, without current objects, closures and waiting
messages, changes nothing of its callers. -/
theorem C77_plain (hS : Sound c va ra) {Γ : Env} {s : St} (hs : Settled c va ra Γ s) {n : Nat} {f : Int}
    {name : String} {args : List Expr} (hw : (Expr.call (.loaded f) name args).WF (kOf c.resolve va ra s))
    (hr : (Expr.call (.loaded f) name args).Res (kOf c.resolve va ra s) (arOf c.resolve s) Γ [])
    {idx : Nat} {fn : Func} {vs : List Val} {refs : List Nat} {u w b : St}
    (h : CallRun c.resolve n f name args s idx fn vs refs u w b) (side : Side)
    (hcur : b.currents = []) (hclo : b.closures = []) (hq : ∀ ch, b.queues ch = [])
    (hargs : ∀ i v, s.stack.length ≤ i → b.stack[i]? = some v → ∀ j, ¬ HasRef j v) :
    wp (eval c.resolve (n + 1) (.call (.loaded f) name args) side)
      (fun _ t => ∀ i < s.stack.length, t.stack[i]? = u.stack[i]?)
      (fun t => ∀ i < s.stack.length, t.stack[i]? = u.stack[i]?) s := by
  have key : ∀ i, i < s.stack.length → wp (eval c.resolve (n + 1) (.call (.loaded f) name args) side)
      (fun _ t => t.stack[i]? = u.stack[i]?) (fun t => t.stack[i]? = u.stack[i]?) s := by
    intro i hi
    refine C77_call hS hs hw hr h side hi fun hreach => ?_
    have := hreach (fun j => s.stack.length ≤ j) ⟨fun _ h => h, by simp [hcur], by simp [hclo],
      by simp [hq], fun i v hv hi j hj => absurd hj (hargs i v hi hv j)⟩
    exact absurd hi (Nat.not_lt.2 this)
  unfold wp at key ⊢
  cases hx : eval c.resolve (n + 1) (.call (.loaded f) name args) side s <;> simp only [hx] at key ⊢ <;>
    first | exact key | trivial

end

/-! ## Examples -/

namespace Demo
variable [FloatOps] [VecMath]

/-- `fn main() { x := [1] y := [2] f(mut x) }  fn f(mut a) { push(mut a, 3) }` -/
def reachProg : List Func :=
  [fn "main" [] false
    [decl "x" (.array [num 1]), decl "y" (.array [num 2]), .call (.loaded 1) "f" [name "x"]],
   fn "f" ["a"] false [.call (.void (lib .push)) "push" [name "a", num 3]]]

theorem reach_sound : Sound (cfg reachProg) libArity libArity where
  slots := rfl
  ext := ext _
  still := still _
  reach P := extLocal_std _ _ _
  grows := growsExt_std _ _ _
  arrive t ch v hv := by cases hv
  wf := by
    intro m idx f h
    match idx, h with
    | 0, h =>
      cases h
      simp [WFs, Expr.WF, WFopt, WFitem, WFids, decl, num, name, fn]
    | 1, h =>
      cases h
      simp [WFs, Expr.WF, WFopt, WFitem, WFids, num, name, fn]
      rfl
  inScope := by
    intro m idx f h
    match idx, h with
    | 0, h =>
      cases h
      constructor
      · intro x hx; cases hx
      · simp [SSeq, Expr.Scoped, SOpt, SItem, SIds, SArgs, SAll, decl, num, name, fn,
          fnEnv, declName, Item.ids, Item.name, Expr.isSwizzle, Expr.adds, Dyon.decl, callPre,
          vecArgsOk, Valued, argLen, Expr.width, arAt, callIndex, cfg, stdCfg, reachProg]
    | 1, h =>
      cases h
      constructor
      · intro x hx; cases hx
      · simp [SSeq, Expr.Scoped, SItem, SIds, SArgs, SAll, SElifs, SOptSeq, num, name, fn, fnEnv,
          Expr.isSwizzle, Expr.adds, Dyon.decl, callPre]
  consts := by
    intro m idx f h
    match idx, h with
    | 0, h =>
      cases h
      simp [EsIn, EIn, ItemIn, IdsIn, decl, num, name, fn, within_f64_none, Val.ofF64]
    | 1, h =>
      cases h
      simp [EsIn, EIn, ItemIn, IdsIn, num, name, fn, within_f64_none, Val.ofF64]

/-- `main` before the call of `f`. -/
def beforeF : St :=
  { empty with
    stack := [.array [.ofF64 (F64.ofNat 1)], .array [.ofF64 (F64.ofNat 2)]]
    locals := [("x", 0), ("y", 1)]
    calls := [⟨"main", 0, some "demo.dyon", 0, 0, 0⟩] }

theorem beforeF_settled : Settled (cfg reachProg) libArity libArity [some "x", some "y"] beforeF where
  wf cl h := by cases h
  res cl h := by cases h
  aligned := by
    refine ⟨_, rfl, Nat.zero_le _, Nat.le_refl _, fun n => ?_⟩
    by_cases h1 : n = "y"
    · subst h1; rfl
    by_cases h2 : n = "x"
    · subst h2; rfl
    simp [beforeF, findLast, dist, distR, Ne.symm h1, Ne.symm h2]

/-- `f(mut x)` leaves `y` alone. -/
example (side : Side) : wp (eval (cfg reachProg).resolve 10 (.call (.loaded 1) "f" [var "x" 2]) side)
    (fun _ t => t.stack[1]? = some (.array [.ofF64 (F64.ofNat 2)]))
    (fun t => t.stack[1]? = some (.array [.ofF64 (F64.ofNat 2)])) beforeF := by
  have h : ∃ fn u w b, CallRun (cfg reachProg).resolve 9 1 "f" [var "x" 2] beforeF 1 fn [.ref 0] [] u w b ∧
      u.stack = beforeF.stack ++ [.ref 0] ∧ b.stack = beforeF.stack ++ [.ref 0] ∧ b.currents = [] ∧
      b.closures = [] ∧ (∀ ch, b.queues ch = []) :=
    ⟨_, _, _, _, ⟨rfl, rfl, fun _ h => absurd h (by simp [Func.resolve, fn]), .cons rfl .nil, .nil, rfl, rfl⟩,
      rfl, rfl, rfl, rfl, fun _ => rfl⟩
  obtain ⟨fn, u, w, b, h, hu, hb, h1, h2, h3⟩ := h
  have := C77_call reach_sound beforeF_settled (by simp [Expr.WF, WFs, var, WFitem, WFids])
    (by simp [Expr.Res, var, callPre, RArgs, RItem, RIds, vecArgsOk, Valued, argLen, Expr.width, arOf, arAt, callIndex, Expr.isSwizzle]; exact ⟨rfl, rfl⟩) h side (i := 1) (by decide) ?_
  · rw [hu] at this
    exact this
  · intro hr
    have := hr (fun j => j ≠ 1) ⟨?_, by simp [h1], by simp [h2], by simp [h3], ?_⟩
    · exact this rfl
    · intro i hi; have : 2 ≤ i := hi; omega
    · intro i v hv hi j hj
      rw [hb] at hv
      match i, hv, hi with
      | 0, hv, _ =>
        cases hv
        cases hj with
        | array hx hj => simp only [List.mem_singleton] at hx; subst hx; exact (within_f64_none (P := fun _ => False) j hj).elim
      | 2, hv, _ => cases hv; cases hj; exact Nat.zero_ne_one

end Demo

end Dyon
