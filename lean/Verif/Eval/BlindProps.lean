import Verif.Eval.LocalProps
import Verif.Data.Write

/-!
# C80: what a called function cannot reach does not matter

The counterpart of C77: evaluation in two states that agree on everything but the values of slots
that cannot be reached gives the same outcome — the same value, the same error text, the same
panic, or no result in both — and final states that again agree on everything but these
slots.  Two slots that cannot be reached may hold any values, except that the mark of a result
still to come (`Variable::Return`) is in both states or in neither: the operator `?` looks for this
mark below the running call (see `C80_mark_matters`).
-/

namespace Dyon

open Loc

/-! ## Specification -/

/-- The states differ at most in the values of the slots outside `S`, and marks of results
still to come are in the same slots. -/
structure AgreeOn (S : Nat → Prop) (a b : St) : Prop where
  rest : { b with stack := a.stack } = a
  length : b.stack.length = a.stack.length
  inside : ∀ i, S i → b.stack[i]? = a.stack[i]?
  marks : ∀ i : Nat, b.stack[i]? = some Val.ret ↔ a.stack[i]? = some Val.ret

/-- The same outcome, in states that agree on `S`. -/
def SameOutcome (S : Nat → Prop) : Ev R → Ev R → Prop
  | .ok x a, .ok y b => y = x ∧ AgreeOn S a b
  | .err x a, .err y b => y = x ∧ AgreeOn S a b
  | .panic x, .panic y => y = x
  | .timeout, .timeout => True
  | _, _ => False

/-- The functions of the host do not look at what their arguments, the current objects, closures and waiting
messages do not lead to. -/
def HostBlind (c : ECfg) (va ra : Nat → Nat) : Prop := ∀ P, ExtBlind c va ra P

/-! ## Reach is closed -/

/-- In all sets of a family. -/
abbrev All (F : (Nat → Prop) → Prop) (i : Nat) : Prop := ∀ S, F S → S i

section
variable {F : (Nat → Prop) → Prop}

mutual
theorem eIn_all : (e : Expr) → (∀ S, F S → EIn S e) → EIn (All F) e
  | .link items => fun h => by simp only [EIn] at *; exact esIn_all items h
  | .object kvs => fun h => by simp only [EIn] at *; exact kvsIn_all kvs h
  | .array items => fun h => by simp only [EIn] at *; exact esIn_all items h
  | .arrayFill f n => fun h => by
    simp only [EIn] at *; exact ⟨eIn_all f fun S hS => (h S hS).1, eIn_all n fun S hS => (h S hS).2⟩
  | .ret e => fun h => by simp only [EIn] at *; exact eIn_all e h
  | .block es => fun h => by simp only [EIn] at *; exact esIn_all es h
  | .go _ args => fun h => by simp only [EIn] at *; exact esIn_all args h
  | .call _ _ args => fun h => by simp only [EIn] at *; exact esIn_all args h
  | .item it => fun h => by simp only [EIn] at *; exact itemIn_all it h
  | .assign _ l r => fun h => by
    simp only [EIn] at *; exact ⟨eIn_all l fun S hS => (h S hS).1, eIn_all r fun S hS => (h S hS).2⟩
  | .vec4 args => fun h => by simp only [EIn] at *; exact esIn_all args h
  | .mat4 args => fun h => by simp only [EIn] at *; exact esIn_all args h
  | .for_ i c s b _ => fun h => by
    simp only [EIn] at *
    exact ⟨eIn_all i fun S hS => (h S hS).1, eIn_all c fun S hS => (h S hS).2.1,
      eIn_all s fun S hS => (h S hS).2.2.1, esIn_all b fun S hS => (h S hS).2.2.2⟩
  | .forN _ _ start stop body _ => fun h => by
    simp only [EIn] at *
    exact ⟨optIn_all start fun S hS => (h S hS).1, eIn_all stop fun S hS => (h S hS).2.1,
      esIn_all body fun S hS => (h S hS).2.2⟩
  | .forIn _ _ iter body _ => fun h => by
    simp only [EIn] at *
    exact ⟨eIn_all iter fun S hS => (h S hS).1, esIn_all body fun S hS => (h S hS).2⟩
  | .ite c t elifs els => fun h => by
    simp only [EIn] at *
    exact ⟨eIn_all c fun S hS => (h S hS).1, esIn_all t fun S hS => (h S hS).2.1,
      elifsIn_all elifs fun S hS => (h S hS).2.2.1, optListIn_all els fun S hS => (h S hS).2.2.2⟩
  | .const v => fun h => by simp only [EIn] at *; exact fun i hi S hS => h S hS i hi
  | .try_ e => fun h => by simp only [EIn] at *; exact eIn_all e h
  | .swizzle _ e => fun h => by simp only [EIn] at *; exact eIn_all e h
  | .closure _ _ _ _ e => fun h => by simp only [EIn] at *; exact eIn_all e h
  | .callClosure it args => fun h => by
    simp only [EIn] at *
    exact ⟨itemIn_all it fun S hS => (h S hS).1, esIn_all args fun S hS => (h S hS).2⟩
  | .grab _ e => fun h => by simp only [EIn] at *; exact eIn_all e h
  | .tryExpr e => fun h => by simp only [EIn] at *; exact eIn_all e h
  | .retVoid => fun _ => by rw [EIn]; trivial
  | .brk _ => fun _ => by rw [EIn]; trivial
  | .cont _ => fun _ => by rw [EIn]; trivial
  | .in_ _ => fun _ => by rw [EIn]; trivial
theorem esIn_all : (es : List Expr) → (∀ S, F S → EsIn S es) → EsIn (All F) es
  | [] => fun _ => by rw [EsIn]; trivial
  | e :: es => fun h => by
    simp only [EsIn] at *; exact ⟨eIn_all e fun S hS => (h S hS).1, esIn_all es fun S hS => (h S hS).2⟩
theorem kvsIn_all : (es : List (String × Expr)) → (∀ S, F S → KvsIn S es) → KvsIn (All F) es
  | [] => fun _ => by rw [KvsIn]; trivial
  | (_, e) :: es => fun h => by
    simp only [KvsIn] at *; exact ⟨eIn_all e fun S hS => (h S hS).1, kvsIn_all es fun S hS => (h S hS).2⟩
theorem elifsIn_all : (es : List (Expr × List Expr)) → (∀ S, F S → ElifsIn S es) → ElifsIn (All F) es
  | [] => fun _ => by rw [ElifsIn]; trivial
  | (c, b) :: es => fun h => by
    simp only [ElifsIn] at *
    exact ⟨eIn_all c fun S hS => (h S hS).1, esIn_all b fun S hS => (h S hS).2.1,
      elifsIn_all es fun S hS => (h S hS).2.2⟩
theorem optListIn_all : (o : Option (List Expr)) → (∀ S, F S → OptListIn S o) → OptListIn (All F) o
  | none => fun _ => by rw [OptListIn]; trivial
  | some es => fun h => by simp only [OptListIn] at *; exact esIn_all es h
theorem optIn_all : (o : Option Expr) → (∀ S, F S → OptIn S o) → OptIn (All F) o
  | none => fun _ => by rw [OptIn]; trivial
  | some e => fun h => by simp only [OptIn] at *; exact eIn_all e h
theorem itemIn_all : (it : Item) → (∀ S, F S → ItemIn S it) → ItemIn (All F) it
  | .mk _ _ _ _ ids _ => fun h => by simp only [ItemIn] at *; exact idsIn_all ids h
theorem idsIn_all : (ids : List Id) → (∀ S, F S → IdsIn S ids) → IdsIn (All F) ids
  | [] => fun _ => by rw [IdsIn]; trivial
  | .expr e :: r => fun h => by
    simp only [IdsIn] at *; exact ⟨eIn_all e fun S hS => (h S hS).1, idsIn_all r fun S hS => (h S hS).2⟩
  | .str _ :: r => fun h => by simp only [IdsIn] at *; exact idsIn_all r h
  | .num _ :: r => fun h => by simp only [IdsIn] at *; exact idsIn_all r h
end

/-- What can be reached is itself such a set. -/
theorem shut_reach (s : St) (roots : Nat → Prop) : Shut s roots (Reach s roots) where
  roots i hi S hS := hS.roots i hi
  currents x hx S hS := hS.currents x hx
  closures cl hcl := eIn_all (F := Shut s roots) cl.body fun S hS => hS.closures cl hcl
  messages ch v hv j hj S hS := hS.messages ch v hv j hj
  refs i v hv hi j hj S hS := hS.refs i v hv (hi S hS) j hj

end

/-! ## Proofs -/

theorem AgreeOn.is_other {S : Nat → Prop} {a b : St} (h : AgreeOn S a b) :
    ∃ g : Nat → Val, (∀ i, g i ≠ .ret) ∧ b = other S g a := by
  classical
  refine ⟨fun i => if b.stack[i]?.getD .ret = .ret then .option none else b.stack[i]?.getD .ret,
    fun i => ?_, ?_⟩
  · simp only
    split
    · simp
    · assumption
  · have hst : b.stack = over S (fun i =>
        if b.stack[i]?.getD .ret = .ret then .option none else b.stack[i]?.getD .ret) a.stack := by
      apply List.ext_getElem?
      intro i
      rw [over_get?]
      cases ha : a.stack[i]? with
      | none =>
        rw [List.getElem?_eq_none_iff, ← h.length] at ha
        rw [List.getElem?_eq_none_iff.2 ha]
        rfl
      | some v =>
        simp only [Option.map_some]
        split
        · rename_i hv
          rcases hv with hv | hv
          · rw [h.inside i hv, ha]
          · subst hv
            exact (h.marks i).2 ha
        · rename_i hv
          push Not at hv
          have hlt : i < b.stack.length := by
            rw [h.length]; exact (List.getElem?_eq_some_iff.1 ha).1
          rw [List.getElem?_eq_getElem hlt]
          have : b.stack[i] ≠ .ret := by
            intro hr
            have := (h.marks i).1 (by rw [List.getElem?_eq_getElem hlt, hr])
            rw [ha] at this
            exact hv.2 (Option.some.inj this)
          simp [this]
    have hr := h.rest
    unfold other
    rw [← hst]
    conv_rhs => rw [← hr]

theorem agreeOn_other {S : Nat → Prop} {g : Nat → Val} (hg : ∀ i, g i ≠ .ret) (a : St) :
    AgreeOn S a (other S g a) := ⟨rfl, other_length, fun _ hi => over_in hi, fun _ => over_ret hg⟩

theorem sameOutcome_onSt {S : Nat → Prop} {g : Nat → Val} (hg : ∀ i, g i ≠ .ret) (r : Ev R) :
    SameOutcome S r (r.onSt (other S g)) := by
  cases r
  · exact ⟨rfl, agreeOn_other hg _⟩
  · exact ⟨rfl, agreeOn_other hg _⟩
  · rfl
  · trivial

/-- The end of a call does not look below the slots of the call. -/
theorem blind_endCall {c : ECfg} {va ra : Nat → Nat} {S : Nat → Prop} {name rname : String} {idx : Nat}
    {file : Option String} {returns : Bool} {st lc cu : Nat} {body : EM R} {calls : List CallRec} {b : St}
    {Q : R → Prop} (hbody : wq True S body (fun r t => Lk c va ra S b t ∧ Q r) (LErr c va ra S b) b)
    (hbl : st ≤ b.stack.length) (hret : returns = true → S (st - 1))
    (hcalls : b.calls = calls ++ [⟨name, idx, file, st, lc, cu⟩]) :
    Blind S (body >>= fun r => bodyFlow r.2 do
        popFn name
        callResult returns rname r.1) b := by
  refine (wq_bind (Q := fun _ _ => True) (E := fun _ => True) (wq_mono hbody (fun r t ⟨ht, _⟩ => ?_)
    fun _ _ => trivial)).2 trivial
  have hpop : wq True S (do popFn name; callResult returns rname r.1) (fun _ _ => True)
      (fun _ => True) t := by
    refine wq_bind ?_
    have hcl : t.calls.getLast? = some ⟨name, idx, file, st, lc, cu⟩ := by
      rw [ht.ext.calls, hcalls]; simp
    have htl : st ≤ t.stack.length := hbl.trans ht.ext.5
    refine ⟨?_, fun _ g _ => by
      simp only [popFn, other_calls, hcl, if_true, Ev.onSt, other, over_take]⟩
    simp only [wp, popFn, hcl, if_true]
    cases hfr : returns with
    | false =>
      cases r.1 with
      | none => exact wq_pure trivial
      | some v => exact wq_errCaller trivial
    | true =>
      cases r.1 with
      | some v =>
        cases v
        case ret => exact wq_errCaller trivial
        all_goals exact ⟨trivial, fun _ g _ => by simp only [callResult, Ev.onSt, other, over_dropLast]⟩
      | none =>
        refine wq_bind ⟨?_, fun _ g _ => ?_⟩
        · unfold wp popE
          simp only
          cases hl : (t.stack.take st).getLast? with
          | none => trivial
          | some v =>
            simp only
            cases v
            case ret => exact wq_errCaller trivial
            all_goals exact wq_pure trivial
        · have : (over S g (t.stack.take st)).getLast? = (t.stack.take st).getLast? := by
            rw [List.getLast?_eq_getElem?, List.getLast?_eq_getElem?, over_length, over_in]
            have := hret hfr
            simpa [Nat.min_eq_left htl] using this
          simp only [popE, other, this]
          cases (t.stack.take st).getLast? <;> simp [Ev.onSt, other, over_dropLast]
  unfold bodyFlow
  split
  · exact wq_errT trivial
  · exact wq_errT trivial
  · exact wq_errT trivial
  · exact wq_errT trivial
  · exact hpop

section
variable {c : ECfg} {va ra : Nat → Nat} [FloatOps] [VecMath]

/-- **C80.** The outcome of an expression depends only on what can be reached: evaluated in two states
of a running function that agree on what can be reached from its variables, the current objects,
closures and waiting messages, it has the same outcome, and the final states agree again. -/
theorem C80_expr (hS : Sound c va ra) (hB : HostBlind c va ra) {Γ : Env} {s s' : St}
    (hs : Settled c va ra Γ s) (hag : AgreeOn (Reach s (ownSlots s)) s s') {e : Expr}
    (hw : e.WF (kOf c.resolve va ra s)) (hr : e.Res (kOf c.resolve va ra s) (arOf c.resolve s) Γ [])
    (hc : EIn (fun _ => False) e) (n : Nat) (side : Side) :
    SameOutcome (Reach s (ownSlots s)) (eval c.resolve n e side s) (eval c.resolve n e side s') := by
  have hS' := shut_reach s (ownSlots s)
  generalize Reach s (ownSlots s) = S at hag hS'
  obtain ⟨g, hg, rfl⟩ := hag.is_other
  have key : ∀ t, Settled c va ra Γ t → e.WF (kOf c.resolve va ra t) →
      e.Res (kOf c.resolve va ra t) (arOf c.resolve t) Γ [] →
      eval (c.resolve.named none) n e side t = eval c.resolve n e side t := fun t ht hw hr =>
    (Agrees.eval (c := c.resolve) (lost := none) hS.slots (extFns_resolve hS.ext)
      (extStill_resolve hS.still) (modulesWF_resolve hS.wf) (modulesRes_resolve hS.inScope) n e side t Γ
      ht.wf ht.res hw hr ht.aligned).1.1
  have h1 := key s hs hw hr
  have h2 := key (other S g s) ⟨hs.wf, hs.res, by
    obtain ⟨call, h1, h2, h3, h4⟩ := hs.aligned
    exact ⟨call, h1, h2, by rw [other_length]; exact h3, by rw [other_length]; exact h4⟩⟩ hw hr
  obtain ⟨call, hcall, hlen, -, -⟩ := hs.aligned
  have hbase : s.base = call.localLen := by simp [St.base, hcall]
  have hinv : Inv S s := ⟨hS'.tame, fun j hj => by
      by_contra hlt
      exact hj (hS'.roots j (.inl (by omega))), by rw [hbase]; exact hlen, fun x hx =>
      hS'.roots _ (.inr ⟨call, hcall, x, by rw [hbase] at hx; exact hx, rfl⟩)⟩
  have h3 := (hS.locIf (rd := True) (fun _ => hB S) n e side s hs.wf hinv hw
    (eIn_mono (fun _ h => h.elim) e hc)).2 trivial g hg
  rw [← h1, ← h2, h3]
  exact sameOutcome_onSt hg _

/-- **C80.** The outcome of a call depends only on what the function can reach: two calls of the same function
(`s` and `s'` are the states before them, `b` and `b'` the states at the start of the body)
have the same outcome if the states at the start of the body agree on what can be reached from
the slots of the call, the current objects, closures and waiting messages. -/
theorem C80_call (hS : Sound c va ra) (hB : HostBlind c va ra) {Γ Γ' : Env} {s s' : St}
    (hs : Settled c va ra Γ s) (hs' : Settled c va ra Γ' s') {n : Nat} {f f' : Int} {name : String}
    {args args' : List Expr}
    (hw : (Expr.call (.loaded f) name args).WF (kOf c.resolve va ra s))
    (hr : (Expr.call (.loaded f) name args).Res (kOf c.resolve va ra s) (arOf c.resolve s) Γ [])
    (hw' : (Expr.call (.loaded f') name args').WF (kOf c.resolve va ra s'))
    (hr' : (Expr.call (.loaded f') name args').Res (kOf c.resolve va ra s') (arOf c.resolve s') Γ' [])
    {idx : Nat} {fn : Func} {vs vs' : List Val} {refs refs' : List Nat} {u w b u' w' b' : St}
    (h : CallRun c.resolve n f name args s idx fn vs refs u w b)
    (h' : CallRun c.resolve n f' name args' s' idx fn vs' refs' u' w' b')
    (hag : AgreeOn (Reach b fun j => s.stack.length ≤ j) b b') (side side' : Side) :
    SameOutcome (Reach b fun j => s.stack.length ≤ j)
      (eval c.resolve (n + 1) (.call (.loaded f) name args) side s)
      (eval c.resolve (n + 1) (.call (.loaded f') name args') side' s') := by
  have hb := shut_reach b fun j => s.stack.length ≤ j
  generalize (Reach b fun j => s.stack.length ≤ j) = S at hag hb
  obtain ⟨g, hg, rfl⟩ := hag.is_other
  obtain ⟨hkey, hat⟩ := call_body hS hs hw hr h side
  obtain ⟨hkey', -⟩ := call_body hS hs' hw' hr' h' side'
  obtain ⟨_, _, _, _, _, b2⟩ := hat.calls
  have := blind_endCall (rname := fn.name) (returns := fn.returns)
    (hat.body True S hb fun _ => hB S) hat.len (fun hr => hb.roots _ (by
      have := hat.slot; simp only [hr, if_true] at this; simp only [hr]; show s.stack.length ≤ _; omega)) b2 g hg
  rw [hkey, hkey', this]
  exact sameOutcome_onSt hg _

/-- **C80.** The same for calls of closures. -/
theorem C80_closure (hS : Sound c va ra) (hB : HostBlind c va ra) {Γ Γ' : Env} {s s' : St}
    (hs : Settled c va ra Γ s) (hs' : Settled c va ra Γ' s') {n : Nat} {it it' : Item}
    {args args' : List Expr} (hname : it'.name = it.name)
    (hw : (Expr.callClosure it args).WF (kOf c.resolve va ra s))
    (hr : (Expr.callClosure it args).Res (kOf c.resolve va ra s) (arOf c.resolve s) Γ [])
    (hw' : (Expr.callClosure it' args').WF (kOf c.resolve va ra s'))
    (hr' : (Expr.callClosure it' args').Res (kOf c.resolve va ra s') (arOf c.resolve s') Γ' [])
    {cl : Clo} {vs vs' : List Val} {refs refs' : List Nat} {s1 u b s1' u' b' : St}
    (h : CloRun c.resolve n it args s cl vs refs s1 u b)
    (h' : CloRun c.resolve n it' args' s' cl vs' refs' s1' u' b')
    (hag : AgreeOn (Reach b fun j => s.stack.length ≤ j) b b') (side side' : Side) :
    SameOutcome (Reach b fun j => s.stack.length ≤ j)
      (eval c.resolve (n + 1) (.callClosure it args) side s)
      (eval c.resolve (n + 1) (.callClosure it' args') side' s') := by
  have hb := shut_reach b fun j => s.stack.length ≤ j
  generalize (Reach b fun j => s.stack.length ≤ j) = S at hag hb
  obtain ⟨g, hg, rfl⟩ := hag.is_other
  obtain ⟨hkey, hat⟩ := closure_body hS hs hw hr h side
  obtain ⟨hkey', -⟩ := closure_body hS hs' hw' hr' h' side'
  obtain ⟨_, _, _, _, _, b2⟩ := hat.calls
  have := blind_endCall (rname := it.name) (returns := true)
    (hat.body True S hb fun _ => hB S) hat.len (fun hr => hb.roots _ (by
      show s.stack.length ≤ _; omega)) b2 g hg
  rw [hkey, hkey', hname, this]
  exact sameOutcome_onSt hg _

end

section
variable {c : ECfg} {va ra : Nat → Nat} [FloatOps] [VecMath]

/-- **C80.** A function called without references, where no current objects, closures and waiting
messages are around, has the same outcome whatever the variables of its callers hold. -/
theorem C80_plain (hS : Sound c va ra) (hB : HostBlind c va ra) {Γ Γ' : Env} {s s' : St}
    (hs : Settled c va ra Γ s) (hs' : Settled c va ra Γ' s') {n : Nat} {f f' : Int} {name : String}
    {args args' : List Expr}
    (hw : (Expr.call (.loaded f) name args).WF (kOf c.resolve va ra s))
    (hr : (Expr.call (.loaded f) name args).Res (kOf c.resolve va ra s) (arOf c.resolve s) Γ [])
    (hw' : (Expr.call (.loaded f') name args').WF (kOf c.resolve va ra s'))
    (hr' : (Expr.call (.loaded f') name args').Res (kOf c.resolve va ra s') (arOf c.resolve s') Γ' [])
    {idx : Nat} {fn : Func} {vs vs' : List Val} {refs refs' : List Nat} {u w b u' w' b' : St}
    (h : CallRun c.resolve n f name args s idx fn vs refs u w b)
    (h' : CallRun c.resolve n f' name args' s' idx fn vs' refs' u' w' b')
    (hcur : b.currents = []) (hclo : b.closures = []) (hq : ∀ ch, b.queues ch = [])
    (hargs : ∀ i v, s.stack.length ≤ i → b.stack[i]? = some v → ∀ j, ¬ HasRef j v)
    (hag : AgreeOn (fun i => s.stack.length ≤ i) b b') (side side' : Side) :
    SameOutcome (fun i => s.stack.length ≤ i)
      (eval c.resolve (n + 1) (.call (.loaded f) name args) side s)
      (eval c.resolve (n + 1) (.call (.loaded f') name args') side' s') := by
  have hreach : (Reach b fun j => s.stack.length ≤ j) = fun i => s.stack.length ≤ i := by
    funext i
    refine propext ⟨fun h => h _ ⟨fun _ h => h, by simp [hcur], by simp [hclo],
      by simp [hq], fun i v hv hi j hj => absurd hj (hargs i v hi hv j)⟩, fun h S hS => hS.roots i h⟩
  have := C80_call hS hB hs hs' hw hr hw' hr' h h' (by rw [hreach]; exact hag) side side'
  rwa [hreach] at this

end

/-! ## The library -/

section
variable [Data.Lex] [Data.Show]

theorem writeV_over {P : Nat → Prop} {g : Nat → Val} {st : Stack} (hs : Slots P st) :
    ∀ n esc v, Loc.Within P v → Data.writeV (over P g st) n esc v = Data.writeV st n esc v := by
  intro n
  induction n with
  | zero => intros; rfl
  | succ n ih =>
    intro esc v hv
    have hlist : ∀ xs : List Val, (∀ x ∈ xs, Loc.Within P x) →
        Data.writeList (Data.writeV (over P g st) n true) xs = Data.writeList (Data.writeV st n true) xs := by
      intro xs hx
      induction xs with
      | nil => rfl
      | cons x xs ihx =>
        simp only [Data.writeList, ih true x (hx x (.head _)), ihx fun y hy => hx y (.tail _ hy)]
    have hent : ∀ xs : List (String × Val), (∀ x ∈ xs, Loc.Within P x.2) →
        Data.writeEntries (Data.writeV (over P g st) n true) xs =
          Data.writeEntries (Data.writeV st n true) xs := by
      intro xs hx
      induction xs with
      | nil => rfl
      | cons x xs ihx =>
        obtain ⟨k, x⟩ := x
        simp only [Data.writeEntries, ih true x (hx _ (.head _)), ihx fun y hy => hx y (.tail _ hy)]
    cases v <;> simp only [Data.writeV]
    case ref i =>
      rw [over_in (within_ref.1 hv)]
      cases hi : st[i]? with
      | none => rfl
      | some u => exact ih esc u (hs i u hi (within_ref.1 hv))
    case object kvs => rw [hent kvs fun x hx => fun j hj => hv j (.object hx hj)]
    case array xs => rw [hlist xs (within_array.1 hv)]
    case option o =>
      cases o with
      | none => rfl
      | some v => simp only [ih true v (within_some.1 hv)]
    case resErr v t => simp only [ih true v (within_err.1 hv)]
    case resOk v => simp only [ih true v (within_ok.1 hv)]

/-- **C80.** The text of a value does not depend on slots it does not lead to. -/
theorem C80_text (P : Nat → Prop) (n : Nat) (esc : Bool) :
    WriteBlind P fun st v => String.ofList ((Data.writeV st n esc v).getD []) := by
  intro g st v hs hv
  simp only [writeV_over hs n esc v hv]

/-- **C80.** The modelled library, with `unwrap` printing its error value with `write_variable`, looks only at
what can be reached. -/
theorem C80_library [FloatOps] [VecMath] (n fuel : Nat) (esc : Bool) (modules : Nat → List Func) :
    HostBlind (stdCfg (fun st v => String.ofList ((Data.writeV st n esc v).getD [])) fuel modules)
      libArity libArity := fun P => extBlind_std (C80_text P n esc) fuel modules

end

/-! ## Examples -/

namespace Demo
variable [FloatOps] [VecMath]

theorem reach_blind : HostBlind (cfg reachProg) libArity libArity :=
  fun _ => extBlind_std (fun _ _ _ _ _ => rfl) _ _

/-- `main` before the call of `f`, with any `y`. -/
def beforeF' (y : Val) : St := { beforeF with stack := [.array [.ofF64 (F64.ofNat 1)], y] }

theorem beforeF'_settled (y : Val) :
    Settled (cfg reachProg) libArity libArity [some "x", some "y"] (beforeF' y) where
  wf cl h := by cases h
  res cl h := by cases h
  aligned := beforeF_settled.aligned

/-- `f(mut x)` does the same whatever `y` is. -/
example (side : Side) (y : Val) (hy : y ≠ .ret) : ∃ S, S 0 ∧ S 2 ∧
    SameOutcome S (eval (cfg reachProg).resolve 10 (.call (.loaded 1) "f" [var "x" 2]) side beforeF)
      (eval (cfg reachProg).resolve 10 (.call (.loaded 1) "f" [var "x" 2]) side (beforeF' y)) := by
  have h : ∀ y, ∃ fn u w b, CallRun (cfg reachProg).resolve 9 1 "f" [var "x" 2] (beforeF' y) 1 fn [.ref 0] [] u w b ∧
      fn = (reachProg[1]).resolve (ctxAt (cfg reachProg) libArity libArity 0 1) ∧ b = { beforeF' y with
        stack := [.array [.ofF64 (F64.ofNat 1)], y, .ref 0]
        locals := [("x", 0), ("y", 1), ("a", 2)]
        calls := [⟨"main", 0, some "demo.dyon", 0, 0, 0⟩, ⟨"f", 1, some "demo.dyon", 2, 2, 0⟩] } := fun y =>
    ⟨_, _, _, _, ⟨rfl, rfl, fun _ h => absurd h (by simp [Func.resolve, fn]), .cons rfl .nil, .nil, rfl, rfl⟩,
      rfl, rfl⟩
  obtain ⟨fn, u, w, b, h1, hf1, hb1⟩ := h (.array [.ofF64 (F64.ofNat 2)])
  obtain ⟨fn', u', w', b', h2, hf2, hb2⟩ := h y
  subst hf1 hf2 hb1 hb2
  refine ⟨Reach _ fun j => beforeF.stack.length ≤ j, fun S hS => ?_, fun S hS => hS.roots 2 (by decide),
    C80_call reach_sound reach_blind beforeF_settled (beforeF'_settled y)
      (by simp [Expr.WF, WFs, var, WFitem, WFids])
      (by simp [Expr.Res, var, callPre, RArgs, RItem, RIds, vecArgsOk, Valued, argLen, Expr.width, arOf, arAt, callIndex, Expr.isSwizzle]; exact ⟨rfl, rfl⟩)
      (by simp [Expr.WF, WFs, var, WFitem, WFids])
      (by simp [Expr.Res, var, callPre, RArgs, RItem, RIds, vecArgsOk, Valued, argLen, Expr.width, arOf, arAt, callIndex, Expr.isSwizzle]; exact ⟨rfl, rfl⟩)
      h1 h2 ⟨rfl, rfl, fun i hi => ?_, fun i => ?_⟩ side side⟩
  · exact hS.refs 2 (.ref 0) rfl (hS.roots 2 (by decide)) 0 .ref
  · have hi1 : i ≠ 1 := by
      refine hi (fun j => j ≠ 1) ⟨?_, by rintro x ⟨⟩, by rintro x ⟨⟩, by rintro ch x ⟨⟩, ?_⟩
      · intro i hi; have : 2 ≤ i := hi; omega
      · intro i v hv hi j hj
        match i, hv, hi with
        | 0, hv, _ =>
          cases hv
          cases hj with
          | array hx hj => simp only [List.mem_singleton] at hx; subst hx; exact (within_f64_none (P := fun _ => False) j hj).elim
        | 2, hv, _ => cases hv; cases hj; exact Nat.zero_ne_one
    match i, hi1 with
    | 0, _ => rfl
    | i + 2, _ => rfl
  · match i with
    | 0 => rfl
    | 1 => simp [hy]
    | i + 2 => rfl

/-- A function `f` without `->` at the bottom of the stack but for one slot `v` of its caller. -/
def callerSlot (v : Val) : St := { empty with stack := [v], calls := [⟨"f", 1, none, 1, 0, 0⟩] }

/-- **C80.** The mark of a result still to come does matter: `?` takes the mark of the caller for one of its own. -/
theorem C80_mark_matters :
    (∀ i, Reach (callerSlot .ret) (ownSlots (callerSlot .ret)) i →
      (callerSlot (.str "")).stack[i]? = (callerSlot .ret).stack[i]?) ∧
    (∃ m, eval (cfg reachProg).resolve 10 (.try_ (.const (.resErr (.str "no") []))) .right (callerSlot .ret) =
      .ok (some (.resErr (.str "no") m), .ret) (callerSlot .ret)) ∧
    ∃ m, eval (cfg reachProg).resolve 10 (.try_ (.const (.resErr (.str "no") []))) .right (callerSlot (.str "")) =
      .err m (callerSlot (.str "")) := by
  have h : ∀ i, Reach (callerSlot .ret) (ownSlots (callerSlot .ret)) i → i ≠ 0 := by
    intro i hi
    refine hi (fun i => i ≠ 0) ⟨?_, by rintro x ⟨⟩, by rintro x ⟨⟩, by rintro ch x ⟨⟩, ?_⟩
    · rintro i (hi | ⟨call, hc, x, hx, rfl⟩)
      · have : 1 ≤ i := hi; omega
      · cases hc; cases hx
    · intro i v hv hi
      match i, hv, hi with
      | i + 1, hv, _ => cases hv
  refine ⟨fun i hi => ?_, ⟨_, rfl⟩, ⟨_, rfl⟩⟩
  obtain ⟨j, rfl⟩ := Nat.exists_eq_succ_of_ne_zero (h i hi)
  rfl

/-- In `f`, an expression does the same whatever the slot of the caller holds. -/
example (v : Val) (hv : v ≠ .ret) (n : Nat) : ∃ S, S 1 ∧
    SameOutcome S (eval (cfg reachProg).resolve n (.array [str "a"]) .right (callerSlot (.str "")))
      (eval (cfg reachProg).resolve n (.array [str "a"]) .right (callerSlot v)) := by
  refine ⟨Reach (callerSlot (.str "")) (ownSlots (callerSlot (.str ""))), fun S hS => hS.roots 1 (.inl (by decide)),
    C80_expr (Γ := []) (s := callerSlot (.str "")) (s' := callerSlot v) (e := .array [str "a"]) reach_sound reach_blind ⟨by rintro _ ⟨⟩, by rintro _ ⟨⟩,
      ⟨_, rfl, Nat.zero_le _, Nat.zero_le _, fun n => rfl⟩⟩ ⟨rfl, rfl, fun i hi => ?_, fun i => ?_⟩
      (by simp [Expr.WF, WFs, str]) (by simp [Expr.Res, RAll, str, Expr.isSwizzle]) (by
        rw [EIn, EsIn, EsIn, str, EIn]; exact ⟨(fun _ h => by cases h), trivial⟩) n .right⟩
  · have : i ≠ 0 := by
      refine hi (fun i => i ≠ 0) ⟨?_, by rintro x ⟨⟩, by rintro x ⟨⟩, by rintro ch x ⟨⟩, ?_⟩
      · rintro i (hi | ⟨call, hc, x, hx, rfl⟩)
        · have : 1 ≤ i := hi; omega
        · cases hc; cases hx
      · intro i v hv hi
        match i, hv, hi with
        | i + 1, hv, _ => cases hv
    obtain ⟨j, rfl⟩ := Nat.exists_eq_succ_of_ne_zero this
    rfl
  · match i with
    | 0 => simp [callerSlot, hv]
    | i + 1 => rfl

/-- `y` and `f := \\(a) = [a]` are there. -/
def withClo (y : Val) : St :=
  { empty with
    stack := [y, .closure 0], locals := [("y", 0), ("f", 1)], calls := [⟨"main", 0, none, 0, 0, 0⟩]
    closures := [⟨["a"], [], true, "demo.dyon", .array [var "a" 1], 0, 0⟩] }

theorem withClo_settled (y : Val) : Settled (cfg reachProg) libArity libArity [some "y", some "f"] (withClo y) where
  wf cl h := by
    simp only [withClo, List.mem_singleton] at h
    subst h
    simp [Expr.WF, WFs, var, WFitem, WFids]
  res cl h := by
    simp only [withClo, List.mem_singleton] at h
    subst h
    refine ⟨rfl, (fun x hx => by cases hx), ?_⟩
    simp [Expr.Res, RAll, var, RItem, RIds, Expr.isSwizzle]
    rfl
  aligned := by
    refine ⟨_, rfl, Nat.zero_le _, Nat.le_refl _, fun n => ?_⟩
    by_cases h1 : n = "f"
    · subst h1; rfl
    by_cases h2 : n = "y"
    · subst h2; rfl
    simp [withClo, findLast, dist, distR, Ne.symm h1, Ne.symm h2]

/-- `\\f("b")` does the same whatever `y` is. -/
example (y : Val) (hy : y ≠ .ret) (side : Side) : ∃ S, S 2 ∧
    SameOutcome S
      (eval (cfg reachProg).resolve 10 (.callClosure (.mk "f" (some 1) false false [] []) [str "b"]) side (withClo (.str "")))
      (eval (cfg reachProg).resolve 10 (.callClosure (.mk "f" (some 1) false false [] []) [str "b"]) side (withClo y)) := by
  have h : ∀ y, ∃ u b, CloRun (cfg reachProg).resolve 9 (.mk "f" (some 1) false false [] []) [str "b"] (withClo y)
      ⟨["a"], [], true, "demo.dyon", .array [var "a" 1], 0, 0⟩ [.str "b"] [] (withClo y) u b ∧
      b = { withClo y with
        stack := [y, .closure 0, .ret, .str "b"]
        locals := [("y", 0), ("f", 1), ("return", 2), ("a", 3)]
        calls := [⟨"main", 0, none, 0, 0, 0⟩, ⟨"f", 0, some "demo.dyon", 3, 2, 0⟩] } := fun y =>
    ⟨_, _, ⟨⟨.ref 1, 0, rfl, rfl, rfl⟩, rfl, .cons rfl .nil, .nil, rfl⟩, rfl⟩
  obtain ⟨u, b, h1, hb1⟩ := h (.str "")
  obtain ⟨u', b', h2, hb2⟩ := h y
  subst hb1 hb2
  refine ⟨Reach _ fun j => (withClo (.str "")).stack.length ≤ j, fun S hS => ?_,
    C80_closure reach_sound reach_blind (withClo_settled _) (withClo_settled y) rfl
      (by simp [Expr.WF, WFs, var, str, WFitem, WFids])
      (by simp [Expr.Res, str, RArgs, RItem, RIds, vecArgsOk, Valued, Expr.isSwizzle]; rfl)
      (by simp [Expr.WF, WFs, var, str, WFitem, WFids])
      (by simp [Expr.Res, str, RArgs, RItem, RIds, vecArgsOk, Valued, Expr.isSwizzle]; rfl)
      h1 h2 ⟨rfl, rfl, fun i hi => ?_, fun i => ?_⟩ side side⟩
  · exact hS.roots 2 (by decide)
  · have : i ≠ 0 := by
      refine hi (fun i => i ≠ 0) ⟨?_, by rintro x ⟨⟩, ?_, by rintro ch x ⟨⟩, ?_⟩
      · intro i hi; have : 2 ≤ i := hi; omega
      · intro cl hcl
        simp only [withClo, List.mem_singleton] at hcl
        subst hcl
        simp [EIn, EsIn, var, ItemIn, IdsIn]
      · intro i v hv hi j hj
        match i, hv, hi with
        | 1, hv, _ => cases hv; cases hj
        | 2, hv, _ => cases hv; cases hj
        | 3, hv, _ => cases hv; cases hj
    obtain ⟨j, rfl⟩ := Nat.exists_eq_succ_of_ne_zero this
    rfl
  · match i with
    | 0 => simp [hy]
    | i + 1 => rfl


end Demo

end Dyon
