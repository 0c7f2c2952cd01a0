import Verif.Eval.ResolveAll
import Verif.Eval.Demo

/-!
# C24: the slots computed before a run are the variables a search by name finds

`c.resolve` is a program whose functions went through `get_locals`; running it reads every
variable at a fixed distance from the end of the stack.  `c.resolve.named` is the same program,
reading every variable by searching the locals of the running call for its name, last
declaration first.
-/

namespace Dyon

variable {lost : Option String} {c : ECfg} {va ra : Nat → Nat} {st : St}

section
variable [FloatOps] [VecMath]

theorem extFns_resolve (h : ExtFns c va ra) : ExtFns c.resolve va ra := by
  have e : ∀ s, ClosuresWF c.resolve va ra s ↔ ClosuresWF c va ra s := fun s => by
    simp only [ClosuresWF, ctxAt_resolve]
  constructor
  · intro f st h1 h2
    have := h.void f st h1 ((e _).1 h2)
    simp only [e]
    exact this
  · intro f st h1 h2
    have := h.ret f st h1 ((e _).1 h2)
    simp only [e]
    exact this

theorem extStill_resolve (h : ExtStill c) : ExtStill c.resolve := ⟨h.void, h.ret⟩

theorem grown_consts {vals : List Val} {s : St} :
    Grown vals.length s { s with stack := s.stack ++ vals } :=
  ⟨rfl, rfl, rfl, rfl, by simp⟩

theorem rel_lazyArgs_const {n msg inv} {vals : List Val} {k k' : EM R}
    (hinv : ∀ l ∈ inv, l = []) (hi : ClosuresWF c va ra st)
    (hc : ClosRes c va ra st)
    (hk : ∀ s, Grown (argLen (vals.map Expr.const)) st s → ClosuresWF c va ra s →
      ClosRes c va ra s → Rel c va ra k k' s) :
    Rel c va ra (lazyArgs (eval c n) true msg inv (vals.map Expr.const) k)
      (lazyArgs (eval (c.named lost) n) true msg inv (vals.map Expr.const) k') st := by
  induction vals generalizing st inv with
  | nil => exact hk _ Same.rfl.grown hi hc
  | cons v vs ih =>
    cases n with
    | zero => exact rel_timeout
    | succ n =>
      refine rel_bind (P := fun a s => a = (some v, .cont) ∧ s = st) (E := fun _ => True)
        (rel_pure (a := (some v, Flow.cont)) hc) ⟨rfl, rfl⟩ ?_
      rintro _ _ ⟨rfl, rfl⟩ hc
      refine rel_quiet (.lazyCheck ..) hi hc fun o u hu hi hc => ?_
      cases o with
      | some r => exact rel_pure hc
      | none =>
        refine rel_push (ih (fun l hl => hinv l (List.mem_of_mem_tail hl)) hi hc
          fun s hs hi hc => hk s ?_ hi hc)
        have := (hu.grown.trans (Grown.push v)).trans hs
        rw [Nat.zero_add] at this
        simpa [argLen, Expr.width, Nat.add_comm] using this

/-- Calling a function of a program with values. -/
theorem rel_callLoaded_const (hb : c.byName = false) (hE : ExtFns c va ra) (hS : ExtStill c)
    (hM : ModulesWF c va ra) (hR : ModulesRes c va ra) {n loader f name} {vals : List Val}
    (hi : ClosuresWF c va ra st) (hc : ClosRes c va ra st) (hl : loader = true → st.rel = 0)
    (hlen : vals.length = arOf c st f) :
    Rel c va ra (callLoaded c n (eval c n) loader f name (vals.map Expr.const))
      (callLoaded (c.named lost) n (eval (c.named lost) n) loader f name (vals.map Expr.const)) st :=
  rel_callLoaded' hM hR (Good.eval hE hM n) (Agrees.eval hb hE hS hM hR n) hi hc hl
    (by rw [← hlen]; simp [argLen, Expr.width, Function.comp_def])
    fun _ _ _ _ _ hinv _ hi hc hk => rel_lazyArgs_const hinv hi hc hk

omit [FloatOps] [VecMath] in
theorem EM.bind_congr {α β} {m m' : EM α} {f : α → EM β} (h : m st = m' st) :
    (m >>= f) st = (m' >>= f) st := by
  show EM.bind m f st = EM.bind m' f st
  unfold EM.bind
  rw [h]

omit [FloatOps] [VecMath] in
theorem lastIdx_spec {α} {p : α → Bool} {xs : List α} {i} (h : lastIdx p xs = some i) :
    ∃ x, xs[(i : Nat)]? = some x ∧ p x = true := by
  induction xs generalizing i with
  | nil => cases h
  | cons x xs ih =>
    rw [lastIdx] at h
    cases hl : lastIdx p xs with
    | some j => rw [hl] at h; cases h; simpa using ih hl
    | none =>
      rw [hl] at h
      simp only at h
      split at h
      · cases h; exact ⟨x, rfl, by assumption⟩
      · cases h

omit [FloatOps] [VecMath] in
theorem lastIdx_isSome {α} {p : α → Bool} {xs : List α} {x} (hx : x ∈ xs) (h : p x = true) :
    ∃ i, lastIdx p xs = some i := by
  induction xs with
  | nil => cases hx
  | cons y xs ih =>
    rw [lastIdx]
    cases hl : lastIdx p xs with
    | some j => exact ⟨_, rfl⟩
    | none =>
      rcases List.mem_cons.1 hx with rfl | hx
      · exact ⟨0, by simp [h]⟩
      · obtain ⟨i, hi⟩ := ih hx; rw [hl] at hi; cases hi

omit [FloatOps] [VecMath] in
/-- The function a name stands for in a module that declares it. -/
theorem findFunction_resolve {m name} (h : ∃ fn ∈ c.modules m, fn.name = name) :
    ∃ i fn, (c.modules m)[(i : Nat)]? = some fn ∧ fn.name = name ∧
      findFunction c.resolve m name 0 = .loaded i := by
  obtain ⟨fn, hfn, hname⟩ := h
  obtain ⟨j, hj⟩ := List.getElem?_of_mem hfn
  have hmem : fn.resolve (ctxAt c (fun _ => 0) (fun _ => 0) m j) ∈ c.resolve.modules m :=
    List.mem_of_getElem? (i := j) (by rw [resolve_getElem?, hj]; rfl)
  obtain ⟨i, hi⟩ := lastIdx_isSome (p := fun f : Func => decide (f.name = name)) hmem
    (by simp [Func.resolve, hname])
  obtain ⟨fn', h1, h2⟩ := lastIdx_spec hi
  rw [resolve_getElem?] at h1
  cases hx : (c.modules m)[i]? with
  | none => rw [hx] at h1; cases h1
  | some fn'' =>
    rw [hx] at h1
    cases h1
    refine ⟨i, fn'', hx, of_decide_eq_true h2, ?_⟩
    simp only [findFunction, hi]
    simp

/-- No function is running, and the closures there are were made by the program. -/
structure Ready (c : ECfg) (va ra : Nat → Nat) (st : St) : Prop where
  calls : st.calls = []
  wf : ClosuresWF c.resolve va ra st
  res : ClosRes c.resolve va ra st

omit [FloatOps] [VecMath] in
theorem Ready.empty (h1 : st.calls = []) (h2 : st.closures = []) : Ready c va ra st :=
  ⟨h1, fun cl h => by simp [h2] at h, fun cl h => by simp [h2] at h⟩

/-- **C24.** A program runs the same whether its variables are read at the slots computed
before the run or searched for by name: same result, same error, same state.  For every program
whose variables are in scope and that has a function `main`, from every state in which no
function is running.  Partial: `ModulesScoped` leaves out the programs of
`C24_closure_statement`, `C24_return_in_argument` and `C24_argument_current`, for which it fails,
and declarations in the step of a `for` loop. -/
theorem C24_run_partial (hb : c.byName = false) (hE : ExtFns c va ra) (hS : ExtStill c)
    (hM : ModulesWF c va ra) (hR : ModulesScoped c va ra) (n m : Nat)
    (hmain : ∃ fn ∈ c.modules m, fn.name = "main") (hst : Ready c va ra st) :
    run c.resolve n m st = run (c.resolve.named lost) n m st := by
  obtain ⟨i, fn, hfn, -, hf⟩ := findFunction_resolve hmain
  have hf' : findFunction (c.resolve.named lost) m "main" 0 = .loaded i := hf
  have hm : (c.resolve.named lost).modules = c.resolve.modules := rfl
  unfold run
  rw [hf, hf', hm]
  simp only [Int.toNat_natCast, resolve_getElem?, hfn, Option.map_some]
  by_cases he : fn.args.isEmpty = true
  · have he' : (fn.resolve (ctxAt c (fun _ => 0) (fun _ => 0) m i)).args.isEmpty = true := he
    rw [if_pos he', if_pos he']
    have hrel : ({ st with module := m } : St).rel = 0 := by simp [St.rel, hst.calls]
    have h := rel_callLoaded_const (lost := lost) (c := c.resolve) (va := va) (ra := ra)
      (st := { st with module := m }) (n := n) (loader := false) (f := i) (name := "main")
      (vals := []) hb (extFns_resolve hE) (extStill_resolve hS) (modulesWF_resolve hM)
      (modulesRes_resolve hR) hst.wf hst.res (fun h => by cases h)
      (by
        have : fn.args = [] := by simpa using he
        show _ = arAt c.resolve m _ i
        rw [arAt_resolve, hrel]
        simp [arAt, callIndex, hfn, this])
    exact (rel_inModule (rel_bind h wp_true fun _ _ _ hc => rel_pure hc)).1.symm
  · have he' : ¬ (fn.resolve (ctxAt c (fun _ => 0) (fun _ => 0) m i)).args.isEmpty = true := he
    rw [if_neg he', if_neg he']

/-- A call from the host: `Runtime::call_str` or `Runtime::call_str_ret`. -/
structure HostCall where
  wantsValue : Bool
  name : String
  args : List Val

/-- Makes the call. -/
def HostCall.run (c : ECfg) (n m : Nat) (h : HostCall) : EM (Option Val) :=
  if h.wantsValue then do
    let v ← callStrRet c n h.name h.args m
    pure (some v)
  else do
    callStr c n h.name h.args m
    pure none

/-- Any number of calls, one after the other, as long as the host does not crash.  The results
of all of them. -/
def session (c : ECfg) (n m : Nat) : List HostCall → St → List (Ev (Option Val))
  | [], _ => []
  | h :: hs, st => match h.run c n m st with
    | .ok v st' => .ok v st' :: session c n m hs st'
    | .err e st' => .err e st' :: session c n m hs st'
    | r => [r]

theorem rel_callOutside (hb : c.byName = false) (hE : ExtFns c va ra) (hS : ExtStill c)
    (hM : ModulesWF c va ra) (hR : ModulesScoped c va ra) {n m : Nat} {name : String}
    {args : List Val} {i : Nat} {fn} (hst : Ready c va ra st) (hfn : (c.modules m)[i]? = some fn)
    (hlen : fn.args.length = args.length) :
    callOutside (c.resolve.named lost) n (.loaded i) name (args.map Expr.const) m st =
      callOutside c.resolve n (.loaded i) name (args.map Expr.const) m st ∧
    wp (callOutside c.resolve n (.loaded i) name (args.map Expr.const) m)
      (fun _ => Ready c va ra) (Ready c va ra) st := by
  have hrel : ({ st with module := m } : St).rel = 0 := by simp [St.rel, hst.calls]
  have h := rel_inModule (m := m) (st := st) (rel_callLoaded_const (lost := lost) (c := c.resolve) (va := va) (ra := ra)
      (st := { st with module := m }) (n := n) (loader := true) (f := i) (name := name)
      (vals := args) hb (extFns_resolve hE) (extStill_resolve hS) (modulesWF_resolve hM)
      (modulesRes_resolve hR) hst.wf hst.res (fun _ => hrel)
      (by
        show _ = arAt c.resolve m _ i
        rw [arAt_resolve, hrel]
        simp [arAt, callIndex, hfn, hlen]))
  have hw := wp_inModule (Q := fun _ s => ClosuresWF c.resolve va ra s)
    (E := fun s => ClosuresWF c.resolve va ra s) (st := st) (m := m)
    (wp_mono (wp_callE (c := c.resolve) (va := va) (ra := ra) (st := { st with module := m })
      (st0 := { st with module := m }) (n := n) (loader := true) (f := .loaded i) (name := name)
      (args := args.map Expr.const) (extFns_resolve hE) (modulesWF_resolve hM)
      (Good.eval (extFns_resolve hE) (modulesWF_resolve hM) n) (.rfl) hst.wf
      ⟨WFs_const _, trivial⟩) (fun _ s h => h.inv) fun s h => h.2)
  obtain ⟨h1, h2⟩ := h
  unfold callOutside wp
  have h1' : inModule m (callE (c.resolve.named lost) n (eval (c.resolve.named lost) n) true (.loaded i) name
      (args.map Expr.const)) st = inModule m (callE c.resolve n (eval c.resolve n) true (.loaded i)
      name (args.map Expr.const)) st := h1
  rw [h1']
  refine ⟨rfl, ?_⟩
  have h2' : wp (inModule m (callE c.resolve n (eval c.resolve n) true (.loaded i)
      name (args.map Expr.const))) (fun _ s => ClosRes c.resolve va ra s) (ClosRes c.resolve va ra)
      st := h2
  unfold wp at h2' hw
  cases hx : inModule m (callE c.resolve n (eval c.resolve n) true (.loaded i) name
      (args.map Expr.const)) st with
  | ok r s => rw [hx] at h2' hw; simp only [hx]; exact ⟨by simp [hst.calls], hw, h2'⟩
  | err r s => rw [hx] at h2' hw; simp only [hx]; exact ⟨by simp [hst.calls], hw, h2'⟩
  | panic => simp only [hx]
  | timeout => simp only [hx]

theorem hostCall_same (hb : c.byName = false) (hE : ExtFns c va ra) (hS : ExtStill c)
    (hM : ModulesWF c va ra) (hR : ModulesScoped c va ra) {n m : Nat} {h : HostCall}
    (hst : Ready c va ra st) (hfn : ∃ fn ∈ c.modules m, fn.name = h.name)
    (hlen : ∀ fn ∈ c.modules m, fn.name = h.name → fn.args.length = h.args.length) :
    h.run (c.resolve.named lost) n m st = h.run c.resolve n m st ∧
    wp (h.run c.resolve n m) (fun _ => Ready c va ra) (Ready c va ra) st := by
  obtain ⟨i, fn, hi, hname, hf⟩ := findFunction_resolve hfn
  have hf' : findFunction (c.resolve.named lost) m h.name 0 = .loaded i := hf
  have key := rel_callOutside (lost := lost) hb hE hS hM hR (n := n) (name := h.name) hst hi
    (hlen fn (List.mem_of_getElem? hi) hname)
  unfold HostCall.run callStrRet callStr
  rw [hf, hf']
  cases h.wantsValue with
  | true =>
    simp only [if_true]
    refine ⟨EM.bind_congr (EM.bind_congr key.1), ?_⟩
    refine wp_bind (wp_bind (wp_mono key.2 ?_ fun _ h => h))
    rintro ⟨_ | v, _ | _ | _ | _⟩ s hs <;> exact hs
  | false =>
    simp only [Bool.false_eq_true, if_false]
    exact ⟨EM.bind_congr (EM.bind_congr key.1),
      wp_bind (wp_bind (wp_mono key.2 (fun _ _ h => h) fun _ h => h))⟩

/-- **C24.** Any number of calls of functions of the program from the host gives the same
results whether variables are read at their slots or searched for by name.  Partial as
`C24_run_partial`. -/
theorem C24_session_partial (hb : c.byName = false) (hE : ExtFns c va ra) (hS : ExtStill c)
    (hM : ModulesWF c va ra) (hR : ModulesScoped c va ra) (n m : Nat) (calls : List HostCall)
    (hfn : ∀ h ∈ calls, ∃ fn ∈ c.modules m, fn.name = h.name)
    (hlen : ∀ h ∈ calls, ∀ fn ∈ c.modules m, fn.name = h.name → fn.args.length = h.args.length)
    (hst : Ready c va ra st) :
    session c.resolve n m calls st = session (c.resolve.named lost) n m calls st := by
  induction calls generalizing st with
  | nil => rfl
  | cons h hs ih =>
    have key := hostCall_same (lost := lost) hb hE hS hM hR (n := n) hst (hfn h (by simp)) (hlen h (by simp))
    have ih := fun s => ih (st := s) (fun x hx => hfn x (by simp [hx])) fun x hx => hlen x (by simp [hx])
    unfold session
    rw [key.1]
    have k2 := key.2
    unfold wp at k2
    cases hx : h.run c.resolve n m st with
    | ok v s => rw [hx] at k2; simp only; rw [ih s k2]
    | err v s => rw [hx] at k2; simp only; rw [ih s k2]
    | panic => rfl
    | timeout => rfl

/-- **C24.** A thread started with `go` computes the same either way.  Partial as
`C24_run_partial`. -/
theorem C24_thread_partial (hb : c.byName = false) (hE : ExtFns c va ra) (hS : ExtStill c)
    (hM : ModulesWF c va ra) (hR : ModulesScoped c va ra) (n : Nat) (j : Job) (w : St) {f : Int}
    {vals : List Val} (hf : j.f = .loaded f) (hargs : j.args = vals.map Expr.const)
    (hlen : vals.length = arAt c j.module j.call.index f)
    (hwf : ClosuresWF c.resolve va ra w) (hres : ClosRes c.resolve va ra w) :
    runJob c.resolve n j (jobState w j) = runJob (c.resolve.named lost) n j (jobState w j) := by
  have h := rel_callLoaded_const (lost := lost) (c := c.resolve) (va := va) (ra := ra)
      (st := jobState w j) (n := n) (loader := false) (f := f) (name := j.name)
      (vals := vals) hb (extFns_resolve hE) (extStill_resolve hS) (modulesWF_resolve hM)
      (modulesRes_resolve hR) hwf hres (fun h => by cases h)
      (by rw [arOf, arAt_resolve, hlen]; rfl)
  unfold runJob
  rw [hf, hargs]
  have h1 : callE (c.resolve.named lost) n (eval (c.resolve.named lost) n) false (.loaded f) j.name
      (vals.map Expr.const) (jobState w j) = callE c.resolve n (eval c.resolve n) false (.loaded f)
      j.name (vals.map Expr.const) (jobState w j) := h.1
  exact EM.bind_congr h1.symm

end

/-! ## Programs -/

namespace Demo
section
variable [FloatOps] [VecMath]

/-- A variable before its slot is known. -/
def name (n : String) : Expr := .item (.mk n none false false [] [])

/-- The program `Demo.prog` before the slots are computed. -/
def src : List Func :=
  [fn "main" [] true
    [decl "x" (.tryExpr (.call (.loaded 1) "f" [str "a"])),
     .forN .forN "i" none (num 2) [.forN .forN "j" none (num 2) [.brk (some "outer")] none]
       (some "outer"),
     declCur "y" (str "c"),
     .block [decl "z" (name "x"), .call (.void (lib .clear)) "clear" [name "z"]],
     .ret (name "x")],
   fn "f" ["a"] true
    [.ite (.call (.binop 4) "equal" [name "a", str "a"]) [.ret (str "yes")] [] none,
     .call (.ret (lib .unwrap)) "unwrap" [name "a"]]]

/-- `get_locals` computes the slots written into `Demo.prog`. -/
theorem src_resolved : (cfg src).resolve.modules 0 = prog := by
  simp [ECfg.resolve, resolveAll, cfg, stdCfg, src, prog, Func.resolve, fn, fnEnv, getSeq,
    getLocals, decl, declCur, str, num, name, var, getArgs, getAll, getOpt, getItem, getIds,
    getElifs, getOptSeq, cutTo, declName, Item.ids, Item.name, callPre, dist, distR, ctxAt,
    callIndex]

theorem src_scoped : ModulesScoped (cfg src) libArity libArity := by
  intro m idx f h
  match idx, h with
  | 0, h =>
    cases h
    constructor
    · intro x hx; cases hx
    · simp [SSeq, Expr.Scoped, SOpt, SItem, SIds, SArgs, SAll, decl, declCur, str, num, name, fn,
        fnEnv, declName, Item.ids, Item.name, Expr.isSwizzle, Expr.adds, Dyon.decl, callPre,
        vecArgsOk, Valued, argLen, Expr.width, arAt, callIndex, cfg, stdCfg, src]
  | 1, h =>
    cases h
    constructor
    · intro x hx; cases hx
    · simp [SSeq, Expr.Scoped, SItem, SIds, SArgs, SAll, SElifs, SOptSeq, str, name, fn, fnEnv,
        Expr.isSwizzle, Expr.adds, Dyon.decl, callPre]

theorem src_wf : ModulesWF (cfg src) libArity libArity := by
  intro m idx f h
  match idx, h with
  | 0, h =>
    cases h
    simp [WFs, Expr.WF, WFopt, WFitem, WFids, decl, declCur, str, num, name, fn]
    rfl
  | 1, h =>
    cases h
    simp [WFs, Expr.WF, WFopt, WFitem, WFids, WFelifs, WFoptList, str, name, fn]
    rfl

theorem still (p : List Func) : ExtStill (cfg p) := by
  constructor
  · intro f st
    show wp (libVoid (fun _ _ => "value") 100 f) _ _ st
    unfold wp libVoid
    cases libRun (fun _ _ => "value") 100 f st <;> trivial
  · intro f st
    show wp (libRet (fun _ _ => "value") 100 f) _ _ st
    unfold wp libRet
    cases libRun (fun _ _ => "value") 100 f st with
    | ok r s => cases r <;> trivial
    | _ => trivial

/-- The hypotheses of `C24_run_partial` are met. -/
example (n : Nat) : run (cfg src).resolve n 0 empty = run (cfg src).resolve.named n 0 empty :=
  C24_run_partial rfl (ext _) (still _) src_wf src_scoped n 0 ⟨_, List.mem_cons_self, rfl⟩
    (.empty rfl rfl)

/-- The hypotheses of `C24_session_partial` are met: `main()` twice, then `f("b")`. -/
example (n : Nat) :
    session (cfg src).resolve n 0 [⟨false, "main", []⟩, ⟨true, "main", []⟩, ⟨true, "f", [.str "b"]⟩]
      empty =
    session (cfg src).resolve.named n 0
      [⟨false, "main", []⟩, ⟨true, "main", []⟩, ⟨true, "f", [.str "b"]⟩] empty := by
  refine C24_session_partial rfl (ext _) (still _) src_wf src_scoped n 0 _ ?_ ?_ (.empty rfl rfl)
  · intro h hh
    simp only [List.mem_cons, List.not_mem_nil, or_false] at hh
    rcases hh with rfl | rfl | rfl
    · exact ⟨_, List.mem_cons_self, rfl⟩
    · exact ⟨_, List.mem_cons_self, rfl⟩
    · exact ⟨_, List.mem_cons_of_mem _ List.mem_cons_self, rfl⟩
  · intro h hh f hf
    simp only [List.mem_cons, List.not_mem_nil, or_false] at hh
    have hf : f ∈ src := hf
    simp only [src, List.mem_cons, List.not_mem_nil, or_false] at hf
    rcases hh with rfl | rfl | rfl <;> rcases hf with rfl | rfl <;> simp [fn]

/-- A thread running `f("a")`. -/
example (n : Nat) (w : St) (hw : w.closures = []) :
    let j : Job := ⟨0, [.str "a"], ⟨"main", 0, none, 0, 0, 0⟩, .loaded 1, "f", [.const (.ref 0)]⟩
    runJob (cfg src).resolve n j (jobState w j) = runJob (cfg src).resolve.named n j (jobState w j) :=
  C24_thread_partial rfl (ext _) (still _) src_wf src_scoped n _ w (vals := [.ref 0]) rfl rfl rfl
    (fun cl h => by simp [hw] at h) (fun cl h => by simp [hw] at h)

/-- `fn main() -> { x := "a"; \(y) = y; return x }` -/
def closureStatement : List Func :=
  [fn "main" [] true
    [decl "x" (str "a"), .closure ["y"] [] true "demo.dyon" (name "y"), .ret (name "x")]]

/-- `fn main() -> { g := \(y) = clone(y); return = "a"; return \g(return) }` -/
def returnInArgument : List Func :=
  [fn "main" [] true
    [decl "g" (.closure ["y"] [] true "demo.dyon" (.call (.ret (lib .clone)) "clone" [name "y"])),
     .assign .set (name "return") (str "a"),
     .ret (.callClosure (.mk "g" none false false [] []) [name "return"])]]

/-- `fn main() -> { ~ x := "c"; return f("a") }  fn f(x) ~ x -> { return clone(x) }` -/
def argumentCurrent : List Func :=
  [fn "main" [] true [declCur "x" (str "c"), .ret (.call (.loaded 1) "f" [str "a"])],
   ⟨"f", "demo.dyon", ["x"], [], ["x"], true, [.ret (.call (.ret (lib .clone)) "clone" [name "x"])]⟩]

end
end Demo

section
variable [FloatOps] [VecMath]
open Demo

/-- The value of a call from the host, if it gives one. -/
def Ev.value {α} : Ev α → Option α
  | .ok v _ => some v
  | _ => none

/-- **C24** fails for a closure that is a statement but not the last one: `get_locals` leaves
the parameters of the closure on its stack, so the variables after it are read too deep.  The
program reads its variable by name, and crashes when it reads it at its slot. -/
theorem C24_closure_statement :
    (∃ v, (callStrRet (cfg closureStatement).resolve.named 10 "main" [] 0 empty).value = some v) ∧
    callStrRet (cfg closureStatement).resolve 10 "main" [] 0 empty =
      .panic "attempt to subtract with overflow" :=
  ⟨⟨_, rfl⟩, rfl⟩

set_option maxHeartbeats 4000000 in
/-- **C24** fails for `return` read in an argument of a closure call: `get_locals` takes the
slot of the result of the closure for it. -/
theorem C24_return_in_argument :
    (callStrRet (cfg returnInArgument).resolve.named 10 "main" [] 0 empty).value = some (.str "a") ∧
    (callStrRet (cfg returnInArgument).resolve 10 "main" [] 0 empty).value = none :=
  ⟨rfl, rfl⟩

/-- **C24** fails for a current object with the name of a parameter: `get_locals` takes the
current object, a search by name finds the parameter. -/
theorem C24_argument_current :
    (callStrRet (cfg argumentCurrent).resolve.named 10 "main" [] 0 empty).value = some (.str "a") ∧
    (callStrRet (cfg argumentCurrent).resolve 10 "main" [] 0 empty).value = some (.str "c") :=
  ⟨rfl, rfl⟩

end
end Dyon
