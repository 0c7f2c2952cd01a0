import Verif.Host.Call
import Verif.Host.EmbedProps
import Verif.Eval.CallProps
import Verif.Eval.DynProps

/-!
# C73: the host calls functions of a program
-/

namespace Dyon

/-! ## Specification -/

namespace Spec

/-- The function a host call runs: the last one with that name.  It has as many parameters as
there are arguments, and no current objects, and nothing listens to its calls. -/
structure HostFn (c : ECfg) (m idx : Nat) (fn : Func) (k : Call) (s : St) : Prop where
  named : LastNamed c m k.name idx fn
  arity : fn.args.length = k.args.length
  currents : fn.currents = []
  unheard : (s.senders m idx).1 = false

/-- The state in which the body of the function starts: the arguments are on the stack, above a
place for the result, and have the names of the parameters. -/
def hostStart (s : St) (m idx : Nat) (fn : Func) (k : Call) : St :=
  let base := s.stack.length + if fn.returns then 1 else 0
  { s with
    module := m
    stack := s.stack ++ (if fn.returns then [.ret] else []) ++ k.args
    locals := s.locals ++ ((if fn.returns then [("return", s.stack.length)] else []) ++
      fn.args.zipIdx.map fun p => (p.1, base + p.2))
    calls := s.calls ++ [⟨k.name, idx, some fn.file, base, s.locals.length, s.currents.length⟩] }

/-- The state after the call, when the body has ended in `t`: the stacks are as before the call,
everything else is as the body left it. -/
def hostBack (s t : St) : St :=
  { t with
    module := s.module, calls := s.calls, locals := s.locals, currents := s.currents
    stack := t.stack.take s.stack.length }

/-- The result of the function, from what its body gave: the value of the body or the value
assigned to `return`. -/
inductive Gave (s t : St) : Option Val → Val → Prop
  | value {v} (h : v ≠ .ret) : Gave s t (some v) v
  | assigned {v} (h : t.stack[s.stack.length]? = some v) (hv : v ≠ .ret) : Gave s t none v

/-- A call built up with `arg`. -/
def callWith [FloatOps] (name : String) (xs : List ((t : HTy) × t.T)) : Call :=
  xs.foldl (fun k x => k.arg x.1 x.2) (.new name)

/-- What the host adds to a call: a value of a host type, a vector or an object of its own. -/
inductive HostArg where
  | val (t : HTy) (x : t.T)
  | vec4 (v : Vec4)
  | rust (o : Nat)

/-- A call built up with `arg`, `vec4` and `rust`. -/
def callOf [FloatOps] (name : String) (xs : List HostArg) : Call :=
  xs.foldl (fun k x => match x with
    | .val t x => k.arg t x
    | .vec4 v => k.vec4 v
    | .rust o => k.rust o) (.new name)

end Spec

open Spec

section
variable [FloatOps] [VecMath] {c : ECfg} {va ra : Nat → Nat} {s t : St} {n m idx : Nat} {fn : Func}
  {k : Call}

/-! ## Lemmas -/

theorem argsTo_const (vs : List Val) (s : St) :
    ArgsTo c (n + 1) (vs.map Expr.const) vs s { s with stack := s.stack ++ vs } := by
  induction vs generalizing s with
  | nil => simpa using ArgsTo.nil
  | cons v vs ih =>
    refine .cons (show eval c (n + 1) (.const v) .right s = .ok (some v, .cont) s from rfl) ?_
    simpa using ih { s with stack := s.stack ++ [v] }

theorem hostRun (hM : ModulesWF c va ra) (h : HostFn c m idx fn k s) :
    CallRun c (n + 1) ((idx : Int) - s.rel) k.name (k.args.map Expr.const) { s with module := m }
      idx fn k.args [] { withReturn fn.returns { s with module := m } with
        stack := (withReturn fn.returns { s with module := m }).stack ++ k.args }
      { withReturn fn.returns { s with module := m } with
        stack := (withReturn fn.returns { s with module := m }).stack ++ k.args }
      (hostStart s m idx fn k) where
  index := by
    have : St.rel { s with module := m } = s.rel := rfl
    rw [this]; omega
  func := h.named.at_
  strict := (hM m idx fn h.named.at_).2
  args := argsTo_const _ _
  currents := by rw [h.currents]; exact .nil
  note := by
    have hs : ∀ (u : St), u.module = m → u.senders = s.senders → ∀ l, notify c (n + 1) idx l u = .ok () u := by
      intro u h1 h2 l
      unfold notify
      refine (EM.bind_ok (show EM.get u = .ok u u from rfl)).trans ?_
      rw [h1, h2, h.unheard]
      rfl
    rw [h.currents]
    have : withCurrents [] [] { withReturn fn.returns { s with module := m } with
        stack := (withReturn fn.returns { s with module := m }).stack ++ k.args } =
        { withReturn fn.returns { s with module := m } with
        stack := (withReturn fn.returns { s with module := m }).stack ++ k.args } := by
      simp [withCurrents]
    rw [this]
    refine hs _ ?_ ?_ _ <;> (cases fn.returns <;> rfl)
  start := by
    unfold hostStart bodyState paramLocals
    cases fn.returns <;> simp [withReturn]

theorem hostStart_same (hE : ExtFns c va ra) (hM : ModulesWF c va ra) (hi : ClosuresWF c va ra s)
    (h : HostFn c m idx fn k s) {r}
    (hb : eval c n (.block fn.body) .right (hostStart s m idx fn k) = .ok r t) :
    Same (hostStart s m idx fn k) t := by
  refine C23_block hE hM (hi.of_eq (b := hostStart s m idx fn k) rfl) ?_ hb
  have hk : kOf c va ra (hostStart s m idx fn k) = ctxAt c va ra m idx := by
    simp [kOf, hostStart, St.rel]
  rw [hk]
  exact (hM m idx fn h.named.at_).1

/-- The call by position, as `Runtime::call` makes it. -/
theorem callOutside_value (hE : ExtFns c va ra) (hM : ModulesWF c va ra) (hi : ClosuresWF c va ra s)
    (h : HostFn c m idx fn k s) (hr : fn.returns = true) {x fl v}
    (hb : eval c (n + 2) (.block fn.body) .right (hostStart s m idx fn k) = .ok (x, fl) t)
    (hf : fl = .cont ∨ fl = .ret) (hg : Gave s t x v) :
    callOutside c (n + 1) (.loaded idx) k.name (k.args.map Expr.const) m s =
      .ok (some v, .cont) (hostBack s t) := by
  have hsame := hostStart_same hE hM hi h hb
  have hrun := hostRun (n := n) hM h
  have hlen : s.stack.length < t.stack.length := by
    rw [hsame.stack]; simp [hostStart, hr]
  have key : eval c (n + 2) (.call (.loaded ((idx : Int) - s.rel)) k.name (k.args.map Expr.const)) .right
      { s with module := m } = .ok (some v, .cont) (afterCall true (s.stack.length + 1) s.locals.length
        s.currents.length s.calls t) := by
    cases hg with
    | value hv =>
      have := C29_value .right hrun hr hb hf hsame.calls hv
      rw [hr] at this
      simpa [withReturn] using this
    | assigned hs hv =>
      have := C29_assigned .right hrun hr hb hf hsame.calls hs hv
      rw [hr] at this
      simpa [withReturn] using this
  rw [callOutside_direct, key]
  simp only [backIn, afterCall, hostBack, if_true, hsame.locals, hsame.currents]
  have : (t.stack.take (s.stack.length + 1)).dropLast = t.stack.take s.stack.length := by
    rw [List.dropLast_eq_take, List.length_take, Nat.min_eq_left hlen, List.take_take,
      Nat.succ_sub_one, Nat.min_eq_left (Nat.le_succ _)]
  simp [hostStart, this]

theorem callOutside_void (hE : ExtFns c va ra) (hM : ModulesWF c va ra) (hi : ClosuresWF c va ra s)
    (h : HostFn c m idx fn k s) (hr : fn.returns = false) {fl}
    (hb : eval c (n + 2) (.block fn.body) .right (hostStart s m idx fn k) = .ok (none, fl) t)
    (hf : fl = .cont ∨ fl = .ret) :
    callOutside c (n + 1) (.loaded idx) k.name (k.args.map Expr.const) m s =
      .ok (none, .cont) (hostBack s t) := by
  have hsame := hostStart_same hE hM hi h hb
  have key := C29_void .right (hostRun (n := n) hM h) hr hb hf hsame.calls
  rw [hr] at key
  rw [callOutside_direct, key]
  simp [backIn, afterCall, hostBack, hsame.locals, hsame.currents, hostStart, withReturn]

theorem callStr_last (h : LastNamed c m k.name idx fn) {a : List Val} {s : St} :
    callStr c n k.name a m s =
      (callOutside c n (.loaded idx) k.name (a.map Expr.const) m >>= fun _ => pure ()) s := by
  rw [callStr, findFunction_last h]

theorem callStrRet_last (h : LastNamed c m k.name idx fn) {a : List Val} {s : St} :
    callStrRet c n k.name a m s =
      (callOutside c n (.loaded idx) k.name (a.map Expr.const) m >>= fun r => match r with
        | (some v, .cont) => pure v
        | _ => errT "Expected something") s := by
  rw [callStrRet, findFunction_last h]
  rfl

/-! ## Properties -/

omit [VecMath] in
/-- **C73** The arguments of a call are the given values, in the given order. -/
theorem C73_args (name : String) (xs : List ((t : HTy) × t.T)) :
    (callWith name xs).name = name ∧ (callWith name xs).args = xs.map fun x => pushVar x.1 x.2 := by
  have : ∀ (xs : List ((t : HTy) × t.T)) (k : Call),
      (xs.foldl (fun k x => k.arg x.1 x.2) k).name = k.name ∧
      (xs.foldl (fun k x => k.arg x.1 x.2) k).args = k.args ++ xs.map fun x => pushVar x.1 x.2 := by
    intro xs
    induction xs with
    | nil => intro k; simp
    | cons x xs ih => intro k; simpa [Call.arg] using ih (k.arg x.1 x.2)
  simpa [callWith, Call.new] using this xs (.new name)

omit [VecMath] in
/-- **C73** With `arg`, `vec4` and `rust` in any order, the call has all arguments in that order. -/
theorem C73_args_all (name : String) (xs : List HostArg) :
    (callOf name xs).name = name ∧ (callOf name xs).args = xs.map fun x => match x with
      | .val t x => pushVar t x
      | .vec4 v => .vec4 v
      | .rust o => .rustObject o := by
  have : ∀ (xs : List HostArg) (k : Call) (r : Call), r = xs.foldl (fun k x => match x with
        | .val t x => k.arg t x
        | .vec4 v => k.vec4 v
        | .rust o => k.rust o) k →
      r.name = k.name ∧ r.args = k.args ++ xs.map fun x => match x with
        | .val t x => pushVar t x
        | .vec4 v => .vec4 v
        | .rust o => .rustObject o := by
    intro xs
    induction xs with
    | nil => intro k r h; subst h; simp
    | cons x xs ih =>
      intro k r h
      obtain ⟨h1, h2⟩ := ih _ r h
      cases x <;> exact ⟨h1, by rw [h2]; simp [Call.arg, Call.vec4, Call.rust]⟩
  obtain ⟨h1, h2⟩ := this xs (.new name) (callOf name xs) rfl
  exact ⟨h1, h2.trans (List.nil_append _)⟩

omit [FloatOps] [VecMath] in
/-- **C73** In the body the `i`-th parameter names the `i`-th argument: the innermost variable
with its name is the place that holds the argument. -/
theorem C73_param (h : HostFn c m idx fn k s) {i : Nat} {a : String} {v : Val}
    (ha : fn.args[i]? = some a) (hu : ∀ j, i < j → fn.args[j]? ≠ some a) (hv : k.args[i]? = some v) :
    ∃ slot, Innermost a (hostStart s m idx fn k).locals slot ∧
      (hostStart s m idx fn k).stack[slot]? = some v := by
  refine ⟨s.stack.length + (if fn.returns then 1 else 0) + (0 + i), ?_, ?_⟩
  · have := innermost_zipIdx (post := []) (k := s.stack.length + if fn.returns then 1 else 0)
      (by simp) ha hu (s.locals ++ if fn.returns then [("return", s.stack.length)] else []) 0
    simpa [hostStart] using this
  · simp only [hostStart, Nat.zero_add]
    rw [List.getElem?_append_right (by cases fn.returns <;> simp)]
    rw [← hv]
    congr 1
    cases fn.returns <;> simp <;> omega

/-- **C73** `run_ret` gives the result of the function, converted to the type the host asks for;
the stacks are as before the call.  For every program, every state of the run-time and every
body that ends. -/
theorem C73_run_ret (hE : ExtFns c va ra) (hM : ModulesWF c va ra) (hi : ClosuresWF c va ra s)
    (h : HostFn c m idx fn k s) (hr : fn.returns = true) {x fl v}
    (hb : eval c (n + 2) (.block fn.body) .right (hostStart s m idx fn k) = .ok (x, fl) t)
    (hf : fl = .cont ∨ fl = .ret) (hg : Gave s t x v) (ty : HTy) :
    k.runRet c (n + 1) ty m s =
      (Pop.get (hostBack s t).stack (popVar (hostBack s t).stack (stackTrace s.calls) (n + 1) ty) v).toEv
        (hostBack s t) := by
  rw [Call.runRet]
  refine (EM.bind_ok (a := v) (s := hostBack s t) ?_).trans rfl
  rw [callStrRet_last h.named]
  exact EM.bind_ok (callOutside_value hE hM hi h hr hb hf hg)

/-- **C73** If the result is a value of the type the host asks for, `run_ret` gives that value. -/
theorem C73_value [LawfulF32] (hE : ExtFns c va ra) (hM : ModulesWF c va ra) (hi : ClosuresWF c va ra s)
    (h : HostFn c m idx fn k s) (hr : fn.returns = true) {x fl} (ty : HTy) (y : ty.T) (hy : Fits ty y)
    (hb : eval c (n + 2) (.block fn.body) .right (hostStart s m idx fn k) = .ok (x, fl) t)
    (hf : fl = .cont ∨ fl = .ret) (hg : Gave s t x (pushVar ty y)) :
    k.runRet c (n + 1) ty m s = .ok y (hostBack s t) := by
  rw [C73_run_ret hE hM hi h hr hb hf hg,
    Pop.get_of (pushVar_not_ref ty y hy) (C43_round_trip _ _ _ ty y hy)]
  rfl

/-- **C73** If the result is not of the kind the host asks for, `run_ret` gives an error that names
both kinds; the stacks are as before. -/
theorem C73_wrong_kind (hE : ExtFns c va ra) (hM : ModulesWF c va ra) (hi : ClosuresWF c va ra s)
    (h : HostFn c m idx fn k s) (hr : fn.returns = true) {x fl v}
    (hb : eval c (n + 2) (.block fn.body) .right (hostStart s m idx fn k) = .ok (x, fl) t)
    (hf : fl = .cont ∨ fl = .ret) (hg : Gave s t x v) (hv : ∀ i, v ≠ .ref i)
    (ty : HTy) (kind name : String) (hk : ty.kind = some (kind, name)) (hw : v.typeofVar ≠ kind) :
    k.runRet c (n + 1) ty m s =
      .err (stackTrace s.calls ++ "\nExpected `" ++ name ++ "`, found `" ++ v.typeofVar ++ "`") (hostBack s t) := by
  rw [C73_run_ret hE hM hi h hr hb hf hg]
  have := C43_wrong_kind (hostBack s t).stack (stackTrace s.calls) (n + 1) ty v kind name hk hw
  have hget : ∀ {α} (f : Val → Pop α), Pop.get (hostBack s t).stack f v = f v := by
    intro α f
    cases v <;> first | exact absurd rfl (hv _) | rfl
  rw [hget, this]
  rfl

/-- **C73** `run_vec4` gives the vector that is the result; another result is an error. -/
theorem C73_vec4 (hE : ExtFns c va ra) (hM : ModulesWF c va ra) (hi : ClosuresWF c va ra s)
    (h : HostFn c m idx fn k s) (hr : fn.returns = true) {x fl v}
    (hb : eval c (n + 2) (.block fn.body) .right (hostStart s m idx fn k) = .ok (x, fl) t)
    (hf : fl = .cont ∨ fl = .ret) (hg : Gave s t x v) (hv : ∀ i, v ≠ .ref i) :
    (∀ u, v = .vec4 u → k.runVec4 c (n + 1) m s = .ok u (hostBack s t)) ∧
    (v.typeofVar ≠ "vec4" → k.runVec4 c (n + 1) m s =
      .err (stackTrace s.calls ++ "\nExpected `vec4`, found `" ++ v.typeofVar ++ "`") (hostBack s t)) := by
  have he : k.runVec4 c (n + 1) m s = k.runRet c (n + 1) .vec4 m s := rfl
  constructor
  · rintro u rfl
    rw [he, C73_run_ret hE hM hi h hr hb hf hg]
    rfl
  · intro hw
    rw [he, C73_wrong_kind hE hM hi h hr hb hf hg hv .vec4 "vec4" "vec4" rfl hw]
    simp [String.append_assoc]

/-- **C73** `run` runs the function, whether it gives a value or not; the stacks are as before. -/
theorem C73_run (hE : ExtFns c va ra) (hM : ModulesWF c va ra) (hi : ClosuresWF c va ra s)
    (h : HostFn c m idx fn k s) {x fl}
    (hb : eval c (n + 2) (.block fn.body) .right (hostStart s m idx fn k) = .ok (x, fl) t)
    (hf : fl = .cont ∨ fl = .ret)
    (hx : if fn.returns then ∃ v, Gave s t x v else x = none) :
    k.run c (n + 1) m s = .ok () (hostBack s t) := by
  rw [Call.run, callStr_last h.named]
  cases hr : fn.returns with
  | true =>
    rw [hr, if_pos rfl] at hx
    obtain ⟨v, hg⟩ := hx
    exact EM.bind_ok (callOutside_value hE hM hi h hr hb hf hg)
  | false =>
    rw [hr, if_neg (by simp)] at hx
    subst hx
    exact EM.bind_ok (callOutside_void hE hM hi h hr hb hf)

/-- **C73** `run_ret` of a function without a result is an error. -/
theorem C73_no_result (hE : ExtFns c va ra) (hM : ModulesWF c va ra) (hi : ClosuresWF c va ra s)
    (h : HostFn c m idx fn k s) (hr : fn.returns = false) {fl}
    (hb : eval c (n + 2) (.block fn.body) .right (hostStart s m idx fn k) = .ok (none, fl) t)
    (hf : fl = .cont ∨ fl = .ret) (ty : HTy) :
    k.runRet c (n + 1) ty m s =
      .err (stackTrace s.calls ++ "\nExpected something") (hostBack s t) := by
  have : callStrRet c (n + 1) k.name k.args m s =
      .err (stackTrace s.calls ++ "\nExpected something") (hostBack s t) := by
    rw [callStrRet_last h.named, EM.bind_ok (callOutside_void hE hM hi h hr hb hf)]
    simp [errT, hostBack, String.append_assoc]
  rw [Call.runRet, EM.bind_err this]

/-- **C73** An error in the function is the error of the call.  The run-time is back in its own
module and call. -/
theorem C73_fails (hM : ModulesWF c va ra) (h : HostFn c m idx fn k s) {e}
    (hb : eval c (n + 2) (.block fn.body) .right (hostStart s m idx fn k) = .err e t) (ty : HTy) :
    k.run c (n + 1) m s = .err e (backIn s t) ∧ k.runRet c (n + 1) ty m s = .err e (backIn s t) := by
  have key := C29_body_fails .right (hostRun (n := n) hM h) hb
  have hc : callOutside c (n + 1) (.loaded idx) k.name (k.args.map Expr.const) m s = .err e (backIn s t) := by
    rw [callOutside_direct, key]
  constructor
  · rw [Call.run, callStr_last h.named, EM.bind_err hc]
  · have : callStrRet c (n + 1) k.name k.args m s = .err e (backIn s t) := by
      rw [callStrRet_last h.named, EM.bind_err hc]
    rw [Call.runRet, EM.bind_err this]

omit [FloatOps] [VecMath] in
theorem ofFind {name} (h : ∃ fn ∈ c.modules m, fn.name = name) :
    ∃ i : Nat, findFunction c m name 0 = .loaded i := by
  obtain ⟨fn, hfn, hname⟩ := h
  obtain ⟨i, hi⟩ := lastIdx_isSome (p := fun f : Func => decide (f.name = name)) hfn (by simp [hname])
  exact ⟨i, by simp [findFunction, hi]⟩

theorem callOutside_back (hE : ExtFns c va ra) (hM : ModulesWF c va ra) (hi : ClosuresWF c va ra s)
    {i : Nat} {name : String} {vs : List Val} :
    wp (callOutside c n (.loaded i) name (vs.map Expr.const) m)
      (fun _ t => t.calls = s.calls ∧ t.module = s.module ∧ ClosuresWF c va ra t)
      (fun t => t.calls = s.calls ∧ t.module = s.module ∧ ClosuresWF c va ra t) s := by
  have hw := wp_callE (c := c) (va := va) (ra := ra) (st := { s with module := m })
      (st0 := { s with module := m }) (n := n) (loader := true) (f := .loaded i) (name := name)
      (args := vs.map Expr.const) hE hM (Good.eval hE hM n) .rfl
      (hi.of_eq (b := { s with module := m }) rfl) ⟨WFs_const _, trivial⟩
  have hc := callE_cont (c := c) (n := n) (loader := true) (f := .loaded i) (name := name) (vs := vs)
    (st := { s with module := m })
  unfold wp at hw hc
  unfold wp callOutside inModule
  cases hx : callE c n (eval c n) true (.loaded i) name (vs.map Expr.const) { s with module := m } with
  | ok r t =>
    rw [hx] at hw hc
    have := (hw.same (by rw [hc]; simp)).calls
    exact ⟨by simp [this], rfl, hw.inv⟩
  | err e t =>
    rw [hx] at hw
    obtain ⟨h1, h2⟩ := hw
    have h3 := h1.calls
    exact ⟨by simpa using (List.prefix_iff_eq_take.1 h3).symm, rfl, h2⟩
  | panic => trivial
  | timeout => trivial

/-- **C73** After a call, whether it has failed or not, the run-time is in the same module and
call as before it, and the next call can be made: what the theorems above assume of the state
holds again.  For every function and any number of arguments. -/
theorem C73_again (hE : ExtFns c va ra) (hM : ModulesWF c va ra) (hi : ClosuresWF c va ra s)
    (hf : ∃ fn ∈ c.modules m, fn.name = k.name) (ty : HTy) :
    (∀ t, (k.run c n m s = .ok () t ∨ ∃ e, k.run c n m s = .err e t) →
      t.calls = s.calls ∧ t.module = s.module ∧ ClosuresWF c va ra t) ∧
    (∀ t, ((∃ x, k.runRet c n ty m s = .ok x t) ∨ ∃ e, k.runRet c n ty m s = .err e t) →
      t.calls = s.calls ∧ t.module = s.module ∧ ClosuresWF c va ra t) := by
  obtain ⟨i, hi'⟩ := ofFind hf
  have hb := callOutside_back (n := n) (m := m) (i := i) (name := k.name) (vs := k.args) hE hM hi
  have h1 : wp (k.run c n m) (fun _ t => t.calls = s.calls ∧ t.module = s.module ∧ ClosuresWF c va ra t)
      (fun t => t.calls = s.calls ∧ t.module = s.module ∧ ClosuresWF c va ra t) s := by
    rw [Call.run, callStr, hi']
    exact wp_bind (wp_mono hb (fun _ _ h => h) fun _ h => h)
  have h2 : wp (k.runRet c n ty m)
      (fun _ t => t.calls = s.calls ∧ t.module = s.module ∧ ClosuresWF c va ra t)
      (fun t => t.calls = s.calls ∧ t.module = s.module ∧ ClosuresWF c va ra t) s := by
    rw [Call.runRet, callStrRet, hi']
    refine wp_bind (wp_bind (wp_mono hb (fun r t h => ?_) fun _ h => h))
    have hp : ∀ v, wp (popResult n ty v)
        (fun _ t => t.calls = s.calls ∧ t.module = s.module ∧ ClosuresWF c va ra t)
        (fun t => t.calls = s.calls ∧ t.module = s.module ∧ ClosuresWF c va ra t) t := by
      intro v
      unfold wp popResult
      cases Pop.get t.stack (popVar t.stack (stackTrace t.calls) n ty) v <;>
        first | exact h | trivial
    obtain ⟨_ | v, _ | _ | _ | _⟩ := r <;> first | exact h | exact hp _
  unfold wp at h1 h2
  constructor
  · rintro t (h | ⟨e, h⟩) <;> (rw [h] at h1; exact h1)
  · rintro t (⟨x, h⟩ | ⟨e, h⟩) <;> (rw [h] at h2; exact h2)

omit [FloatOps] [VecMath] in
theorem lastIdx_none {α} {p : α → Bool} {xs : List α} (h : ∀ x ∈ xs, p x = false) :
    lastIdx p xs = none := by
  induction xs with
  | nil => rfl
  | cons x xs ih => rw [lastIdx, ih fun y hy => h y (by simp [hy])]; simp [h x (by simp)]

omit [FloatOps] [VecMath] in
theorem mem_of_lookup {α} {name : String} {x : α} {l : List (String × α)} (h : l.lookup name = some x) :
    (name, x) ∈ l := by
  induction l with
  | nil => cases h
  | cons p l ih =>
    obtain ⟨a, b⟩ := p
    rw [List.lookup_cons] at h
    cases hx : name == a with
    | true =>
      rw [hx] at h
      cases h
      have := eq_of_beq hx
      subst this
      simp
    | false => rw [hx] at h; exact List.mem_cons_of_mem _ (ih h)

/-- **C73** A name that is no function is an error, and nothing has changed. -/
theorem C73_unknown (hf : ∀ fn ∈ c.modules m, fn.name ≠ k.name) (hx : ∀ p ∈ c.extNames m, p.1 ≠ k.name)
    (ty : HTy) :
    k.run c n m s = .err ("Could not find function `" ++ k.name ++ "`") s ∧
    k.runRet c n ty m s = .err ("Could not find function `" ++ k.name ++ "`") s := by
  have : findFunction c m k.name 0 = .none := by
    unfold findFunction
    rw [lastIdx_none fun f hm => by simpa using hf f hm]
    simp only
    cases hl : (c.extNames m).reverse.lookup k.name with
    | none => rfl
    | some f => exact absurd rfl (hx _ (List.mem_reverse.1 (mem_of_lookup hl)))
  constructor
  · rw [Call.run, callStr, this]; rfl
  · have h2 : callStrRet c n k.name k.args m s =
        .err ("Could not find function `" ++ k.name ++ "`") s := by
      rw [callStrRet, this]; rfl
    rw [Call.runRet, EM.bind_err h2]

/-! ## Findings -/

/-- Finding: `run` does not find a function of the host, although `run_ret` does (see the example
below). -/
theorem C73_run_host_function (hf : ∀ fn ∈ c.modules m, fn.name ≠ k.name)
    (hx : ∀ p ∈ c.extNames m, ∀ i, p.2 ≠ .loaded i) :
    k.run c n m s = .err ("Could not find function `" ++ k.name ++ "`") s := by
  have : ∀ i, findFunction c m k.name 0 ≠ .loaded i := by
    intro i
    unfold findFunction
    rw [lastIdx_none fun f hm => by simpa using hf f hm]
    simp only
    cases hl : (c.extNames m).reverse.lookup k.name with
    | none => simp
    | some f => exact hx _ (List.mem_reverse.1 (mem_of_lookup hl)) i
  rw [Call.run, callStr]
  cases hff : findFunction c m k.name 0 with
  | loaded i => exact absurd hff (this i)
  | _ => rfl

/-- Finding: a function that should give a result and gives none, called by the host, is not an
error but a crash of the host. -/
theorem C73_missing_crashes (hE : ExtFns c va ra) (hM : ModulesWF c va ra) (hi : ClosuresWF c va ra s)
    (h : HostFn c m idx fn k s) (hs : s.calls = []) (hr : fn.returns = true) {fl}
    (hb : eval c (n + 2) (.block fn.body) .right (hostStart s m idx fn k) = .ok (none, fl) t)
    (hf : fl = .cont ∨ fl = .ret) (hn : t.stack[s.stack.length]? = some .ret) (ty : HTy) :
    k.run c (n + 1) m s = .panic "Call stack is empty" ∧
    k.runRet c (n + 1) ty m s = .panic "Call stack is empty" := by
  have hsame := hostStart_same hE hM hi h hb
  have hd := (hostRun (n := n) hM h).done .right hb hf hsame.calls
  have key : eval c (n + 2) (.call (.loaded ((idx : Int) - s.rel)) k.name (k.args.map Expr.const)) .right
      { s with module := m } = .panic "Call stack is empty" := by
    rw [hd, hr, callResult]
    have hl : (withReturn true { s with module := m }).stack.length = s.stack.length + 1 := by
      simp [withReturn]
    have hg : (t.stack.take (s.stack.length + 1)).getLast? = some .ret := by
      rw [List.getLast?_take]; simp [hn]
    have hw : (withReturn true { s with module := m }).calls = [] := by simp [withReturn, hs]
    rw [hl]
    refine (EM.bind_ok (a := .ret) (s := { t with
      calls := [], stack := (t.stack.take (s.stack.length + 1)).dropLast
      locals := t.locals.take s.locals.length, currents := t.currents.take s.currents.length })
      (by simp [popE, hg, hw])).trans ?_
    rfl
  have hc : callOutside c (n + 1) (.loaded idx) k.name (k.args.map Expr.const) m s =
      .panic "Call stack is empty" := by
    rw [callOutside_direct, key]
  constructor
  · rw [Call.run, callStr_last h.named]
    show EM.bind _ _ _ = _
    rw [EM.bind, hc]
  · rw [Call.runRet]
    show EM.bind _ _ _ = _
    have : callStrRet c (n + 1) k.name k.args m s = .panic "Call stack is empty" := by
      rw [callStrRet_last h.named]
      show EM.bind _ _ _ = _
      rw [EM.bind, hc]
    rw [EM.bind, this]

end

namespace Demo
section
variable [FloatOps] [VecMath]

/-- `unwrap(none())` -/
def fails : Expr := .call (.ret (lib .unwrap)) "unwrap" [.const (.option none)]

/-- `fn f(a, b) -> { return clone(b) }`, `fn g(x: 'return) -> { return x }`, `fn h() -> {}` -/
def hostProg : List Func :=
  [fn "f" ["a", "b"] true [.ret (.call (.ret (lib .clone)) "clone" [name "b"])],
   fn "g" ["x"] true [.ret (name "x")],
   fn "h" [] true []]

/-- `fn first() {}`, `fn main() { unwrap(none()) }`, `fn third() -> { return "third" }` -/
def runProg : List Func :=
  [fn "first" [] false [],
   fn "main" [] false [fails],
   fn "third" [] true [.ret (str "third")]]

/-- The same without the third function. -/
def shortProg : List Func := [fn "first" [] false [], fn "main" [] false [fails]]

/-- `fn set() { ~ x := "a"; unwrap(none()) }`, `fn get() ~ x -> { return clone(x) }` -/
def currentProg : List Func :=
  [fn "set" [] false [declCur "x" (str "a"), fails],
   ⟨"get", "demo.dyon", [], [], ["x"], true, [.ret (.call (.ret (lib .clone)) "clone" [name "x"])]⟩]

/-- The state after a call or a run, unless it crashed. -/
def after {α} : Ev α → Option St
  | .ok _ s => some s
  | .err _ s => some s
  | _ => none

/-- The value of a call, if it gives one. -/
def value {α} : Ev α → Option α
  | .ok x _ => some x
  | _ => none

theorem hostProg_wf : ModulesWF (cfg hostProg) libArity libArity := by
  intro m idx f h
  match idx, h with
  | 0, h => cases h; exact ⟨by simp [WFs, Expr.WF, WFitem, WFids, fn, name, lib]; rfl, by simp [fn]⟩
  | 1, h => cases h; exact ⟨by simp [WFs, Expr.WF, WFitem, WFids, fn, name], by simp [fn]⟩
  | 2, h => cases h; exact ⟨by simp [WFs, fn], by simp [fn]⟩

/-- `f("x", "y")` -/
def fxy : Call := callWith "f" [⟨.string, "x"⟩, ⟨.string, "y"⟩]

theorem fxy_fn : HostFn (cfg hostProg).resolve 0 0
    ((hostProg[0]).resolve (ctxAt (cfg hostProg) (fun _ => 0) (fun _ => 0) 0 0)) fxy empty where
  named := ⟨rfl, rfl, fun j f hj h => by
    match j, h with
    | 1, h => cases h; exact (by decide : "g" ≠ "f")
    | 2, h => cases h; exact (by decide : "h" ≠ "f")⟩
  arity := rfl
  currents := rfl
  unheard := rfl

/-- The hypotheses of the theorems are met: `f("x", "y")` gives `"y"`, and the stacks are as
before. -/
example [LawfulF32] : ∃ t, fxy.runRet (cfg hostProg).resolve 10 .string 0 empty =
    .ok "y" (hostBack empty t) :=
  ⟨_, C73_value (va := libArity) (ra := libArity) (n := 9) (t := _) (extFns_resolve (ext _)) (modulesWF_resolve hostProg_wf)
    (fun _ h => by cases h) fxy_fn rfl .string "y" trivial (x := some (.str "y")) (fl := .ret) rfl (.inr rfl)
    (.value (by simp))⟩

/-- `run_ret` calls functions of the host, too. -/
example : value ((Call.new "clone" |>.arg .string "x").runRet
    { cfg [] with extNames := fun _ => [("clone", .ret (lib .clone))] } 10 .string 0 empty) = some "x" := rfl

/-- `f("x", "y")` gives a string: as a number or a vector it is an error. -/
example : (∃ t, fxy.runRet (cfg hostProg).resolve 10 .f64 0 empty =
      .err "\nExpected `number`, found `string`" (hostBack empty t)) ∧
    ∃ t, fxy.runVec4 (cfg hostProg).resolve 10 0 empty =
      .err "\nExpected `vec4`, found `string`" (hostBack empty t) :=
  ⟨⟨_, C73_wrong_kind (va := libArity) (ra := libArity) (n := 9) (t := _) (extFns_resolve (ext _)) (modulesWF_resolve hostProg_wf)
    (fun _ h => by cases h) fxy_fn rfl (x := some (.str "y")) (fl := .ret) rfl (.inr rfl) (.value (by simp)) (by simp)
    .f64 "number" "number" rfl (by decide)⟩,
   ⟨_, (C73_vec4 (va := libArity) (ra := libArity) (n := 9) (t := _) (extFns_resolve (ext _)) (modulesWF_resolve hostProg_wf)
    (fun _ h => by cases h) fxy_fn rfl (x := some (.str "y")) (fl := .ret) rfl (.inr rfl) (.value (by simp)) (by simp)).2 (by decide)⟩⟩

/-- A call with arguments of all sorts. -/
example : (callOf "f" [.rust 3, .val .string "x", .vec4 ⟨0, 0, 0, 0⟩]).args = [.rustObject 3, .str "x", .vec4 ⟨0, 0, 0, 0⟩] := rfl

/-- `h` should give a result: the host crashes. -/
example : (Call.new "h").run (cfg hostProg).resolve 10 0 empty = .panic "Call stack is empty" := rfl

set_option maxHeartbeats 4000000 in
/-- Finding: the number of arguments is not checked.  In `f("x")` the second parameter names the
first argument. -/
theorem C73_few_arguments :
    value (((Call.new "f").arg .string "x").runRet (cfg hostProg).resolve 10 .string 0 empty) =
      some "x" := rfl

set_option maxHeartbeats 4000000 in
/-- Finding: a function that returns its argument (`fn g(x: 'return) -> { return x }`) gives the
host a reference into the part of the stack that is gone: the host crashes. -/
theorem C73_returned_argument :
    ((Call.new "g").arg .string "x").runRet (cfg hostProg).resolve 10 .string 0 empty =
      .panic "index out of bounds" := rfl

set_option maxHeartbeats 4000000 in
/-- Finding: after a failed `run` the run-time believes to be inside of `main`.  The next `run`
on it runs another function (the third one, whose number is twice the one of `main`) without an
error. -/
theorem C73_run_again :
    ∃ e s, run (cfg runProg).resolve 10 0 empty = .err e s ∧
      (∃ t, run (cfg runProg).resolve 10 0 s = .ok () t) := ⟨_, _, rfl, _, rfl⟩

set_option maxHeartbeats 4000000 in
/-- Finding: the same without a third function is a crash. -/
theorem C73_run_again_crash :
    ∃ e s, run (cfg shortProg).resolve 10 0 empty = .err e s ∧
      run (cfg shortProg).resolve 10 0 s = .panic "index out of bounds" :=
  ⟨_, _, rfl, rfl⟩

set_option maxHeartbeats 4000000 in
/-- Finding: the current objects of a failed call are found by later calls.  `get` alone is an
error, after the failed `set` it gives the value of the dead variable. -/
theorem C73_stale_current :
    value ((Call.new "get").runRet (cfg currentProg).resolve 10 .string 0 empty) = none ∧
    (∃ e, (Call.new "set").run (cfg currentProg).resolve 10 0 empty = .err e
      { empty with stack := [.str "a"], locals := [("x", 0)], currents := [("x", 0)] }) ∧
    value ((Call.new "get").runRet (cfg currentProg).resolve 10 .string 0
      { empty with stack := [.str "a"], locals := [("x", 0)], currents := [("x", 0)] }) = some "a" :=
  ⟨rfl, ⟨_, rfl⟩, rfl⟩

end
end Demo
end Dyon
