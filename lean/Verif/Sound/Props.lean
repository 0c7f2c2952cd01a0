import Verif.Sound.Resolved
import Verif.Eval.DynProps

/-!
# C81: what is typed runs

Programs of functions whose bodies declare and assign variables, branch, loop and return expressions of the declared type, by the rules of
`Sound/Typing.lean`: called with arguments of the declared types they give a value of the declared type.
-/

namespace Dyon.Sound

open Ty (HasTy Definite NoAdHoc)

variable [FloatOps] [VecMath] {c : ECfg} {va ra : Nat → Nat} {S : Nat → Option Sign}

omit [FloatOps] [VecMath] in
theorem length_of {ts : List Ty} {vs : List Val} (h : List.Forall₂ HasTy ts vs) : ts.length = vs.length := by
  induction h with
  | nil => rfl
  | cons _ _ ih => simp [ih]

omit [FloatOps] [VecMath] in
/-- The last function with the name is the one that is called. -/
theorem finds {m i : Nat} {fn : Func} {name : String} (hi : (c.modules m)[i]? = some fn) (hname : fn.name = name)
    (hlast : ∀ j g, i < j → (c.modules m)[j]? = some g → g.name ≠ name) : findFunction c.resolve m name 0 = .loaded i := by
  unfold findFunction
  rw [lastIdx_last (i := i) (x := fn.resolve (ctxAt c (fun _ => 0) (fun _ => 0) m i)) (by rw [resolve_getElem?, hi]; rfl)
    (decide_eq_true hname)]
  · simp
  · intro j y hj hy
    rw [resolve_getElem?] at hy
    cases hx : (c.modules m)[j]? with
    | none => rw [hx] at hy; cases hy
    | some g =>
      rw [hx] at hy
      cases hy
      exact decide_eq_false (hlast j g hj hx)

/-- A call from outside. -/
theorem outside (hb : c.byName = false) (hE : ExtFns c va ra) (hX : ExtStill c) (hM : ModulesWF c va ra)
    (hR : ModulesScoped c va ra) {m n i : Nat} {name : String} {fn : Func} {σ : Sign} {args : List Val} {s : St} (hs : Ready c va ra s)
    (hq : ∀ a b, (s.senders a b).1 = false) (hS : TypedModule c m S) (hi : (c.modules m)[i]? = some fn) (hσ : S i = some σ)
    (ha : List.Forall₂ HasTy (σ.params.map (·.2)) args) :
    callOutside c.resolve n (.loaded i) name (args.map Expr.const) m s = .timeout ∨
    ∃ x, callOutside c.resolve n (.loaded i) name (args.map Expr.const) m s = .ok (x, .cont) s ∧ Gave σ.ret x := by
  obtain ⟨fn', hfn', T⟩ := hS i σ hσ
  rw [hi] at hfn'
  cases hfn'
  have hlen : fn.args.length = args.length := by
    rw [T.names, List.length_map, ← List.length_map (·.2), length_of ha]
  have key := (rel_callOutside (lost := none) hb hE hX hM hR (n := n) (name := name) hs hi hlen).1
  rw [← key]
  exact outside_named (c := c.resolve.named none) rfl (typed_named none hS) hq hσ ha

/-- **C81.** The host calls the function `name` of a program of typed functions with arguments of the declared types.  The
call ends with a value of the declared type, and nothing else of the state has changed, or it does not end: it does not stop
with an error, and it does not crash.  (`timeout` is what the model gives when it has not come to the end after `n` steps
into the depth.)  Partial: functions whose statements are `x := e`, assignments to such variables, calls of functions that give nothing, `if`,
blocks, `for i n`, `for` and `loop` with `break` and `continue`, and `return` on every way to the end or an expression at the end, where
expressions are literals (numbers, strings, booleans, `vec4`, `mat4`, links), variables, calls and operators, `if`, and the loops `∑`, `∏`,
`min`, `max`, `any`, `all`, `∑vec4` and `∏vec4` with one expression as body, of types without parts. -/
theorem C81_runs_partial (hb : c.byName = false) (hE : ExtFns c va ra) (hX : ExtStill c) (hM : ModulesWF c va ra)
    (hR : ModulesScoped c va ra) {m n i : Nat} {name : String} {fn : Func} {σ : Sign} {T : Ty} {args : List Val} {s : St} (hs : Ready c va ra s)
    (hq : ∀ a b, (s.senders a b).1 = false) (hS : TypedModule c m S) (hi : (c.modules m)[i]? = some fn) (hname : fn.name = name)
    (hlast : ∀ j g, i < j → (c.modules m)[j]? = some g → g.name ≠ name) (hσ : S i = some σ) (hT : σ.ret = some T)
    (ha : List.Forall₂ HasTy (σ.params.map (·.2)) args) :
    callStrRet c.resolve n name args m s = .timeout ∨
    ∃ v, callStrRet c.resolve n name args m s = .ok v s ∧ HasTy T v := by
  have h := outside (name := name) (n := n) hb hE hX hM hR hs hq hS hi hσ ha
  unfold callStrRet
  rw [finds hi hname hlast]
  rw [hT] at h
  rcases h with h | ⟨x, h, hx⟩
  · left
    show EM.bind _ _ s = _
    simp only [EM.bind, h]
  · cases hx with
    | value ty =>
      refine .inr ⟨_, ?_, ty⟩
      show EM.bind _ _ s = _
      simp only [EM.bind, h]
      rfl

/-- **C81.** The same when the host asks for nothing back: the function may give a value or nothing.  The call ends and nothing of the state has
changed, or it does not end: no error, no crash.  Partial: for the functions of `C81_runs_partial`. -/
theorem C81_calls_partial (hb : c.byName = false) (hE : ExtFns c va ra) (hX : ExtStill c) (hM : ModulesWF c va ra)
    (hR : ModulesScoped c va ra) {m n i : Nat} {name : String} {fn : Func} {σ : Sign} {args : List Val} {s : St} (hs : Ready c va ra s)
    (hq : ∀ a b, (s.senders a b).1 = false) (hS : TypedModule c m S) (hi : (c.modules m)[i]? = some fn) (hname : fn.name = name)
    (hlast : ∀ j g, i < j → (c.modules m)[j]? = some g → g.name ≠ name) (hσ : S i = some σ)
    (ha : List.Forall₂ HasTy (σ.params.map (·.2)) args) :
    callStr c.resolve n name args m s = .timeout ∨ callStr c.resolve n name args m s = .ok () s := by
  have h := outside (name := name) (n := n) hb hE hX hM hR hs hq hS hi hσ ha
  unfold callStr
  rw [finds hi hname hlast]
  rcases h with h | ⟨x, h, hx⟩
  · left
    show EM.bind _ _ s = _
    simp only [EM.bind, h]
  · right
    show EM.bind _ _ s = _
    simp only [EM.bind, h]
    rfl

omit [FloatOps] [VecMath] in
theorem inModule_timeout {m : Nat} {a : EM R} {s : St} (h : inModule m a s = .timeout) :
    inModule m (do let _ ← a; pure ()) s = .timeout := by
  unfold inModule at h ⊢
  have ha : a { s with module := m } = .timeout := by
    cases ha : a { s with module := m } <;> rw [ha] at h <;> first | rfl | cases h
  have e : (do let _ ← a; pure () : EM Unit) { s with module := m } = .timeout := by
    show EM.bind a _ _ = _
    simp only [EM.bind, ha]
  simp only [e]

omit [FloatOps] [VecMath] in
theorem inModule_ok {m : Nat} {a : EM R} {s : St} {x : R} (h : inModule m a s = .ok x s) :
    inModule m (do let _ ← a; pure ()) s = .ok () s := by
  unfold inModule at h ⊢
  cases ha : a { s with module := m } with
  | ok y s' =>
    rw [ha] at h
    simp only [Ev.ok.injEq] at h
    have e : (do let _ ← a; pure () : EM Unit) { s with module := m } = .ok () s' := by
      show EM.bind a _ _ = _
      simp only [EM.bind, ha]
      rfl
    simp only [e, h.2]
  | _ => rw [ha] at h; cases h

/-- **C81.** A program of typed functions with a `main` without arguments runs to its end, or it does not end: no error, no crash.  Partial: for
the functions of `C81_runs_partial`. -/
theorem C81_main_partial (hb : c.byName = false) (hE : ExtFns c va ra) (hX : ExtStill c) (hM : ModulesWF c va ra)
    (hR : ModulesScoped c va ra) {m n i : Nat} {fn : Func} {σ : Sign} {s : St} (hs : Ready c va ra s)
    (hq : ∀ a b, (s.senders a b).1 = false) (hS : TypedModule c m S) (hi : (c.modules m)[i]? = some fn) (hname : fn.name = "main")
    (hlast : ∀ j g, i < j → (c.modules m)[j]? = some g → g.name ≠ "main") (hσ : S i = some σ) (hp : σ.params = []) :
    run c.resolve n m s = .timeout ∨ run c.resolve n m s = .ok () s := by
  rw [C24_run_partial (lost := none) hb hE hX hM hR n m ⟨fn, List.mem_of_getElem? hi, hname⟩ hs]
  obtain ⟨fn', hfn', T⟩ := hS i σ hσ
  rw [hi] at hfn'
  cases hfn'
  have hf : findFunction (c.resolve.named none) m "main" 0 = .loaded i := finds hi hname hlast
  have hm : (c.resolve.named none).modules = c.resolve.modules := rfl
  unfold run
  rw [hf, hm]
  simp only [Int.toNat_natCast, resolve_getElem?, hi, Option.map_some]
  rw [if_pos (by simp [Func.resolve, T.names, hp])]
  have h := loaded_named (c := c.resolve.named none) (n := n) (name := "main") (args := []) rfl (typed_named none hS) false (.inr hs.calls)
    hq hσ (by rw [hp]; exact .nil)
  rcases h with h | ⟨x, h, -⟩
  · exact .inl (inModule_timeout h)
  · exact .inr (inModule_ok h)

/-! ## Operators -/

omit [FloatOps] [VecMath] in
theorem Flat.definite {t : Ty} (h : Flat t) : Definite t := by cases h <;> constructor

omit [FloatOps] [VecMath] in
theorem Flat.noAdHoc {t : Ty} (h : Flat t) : NoAdHoc t := by cases h <;> constructor

/-- A binary operator gives what the type checker computes for it. -/
theorem gives_binop {k : Nat} (op : BinFn) (hc : ∀ a b, c.binopFn k a b = op.run a b) {s t r : Ty} (hs : Flat s) (ht : Flat t)
    (hr : refinePrelude [some s, some t] op.ext = .found r) : HostGives c (.binop k) [s, t] r :=
  .binop fun a b ha hb => by
    rw [hc]
    exact C79_operator_accepted_partial op hs.definite ht.definite hs.noAdHoc ht.noAdHoc hr
      (by rintro - ⟨s', t', rfl, -⟩; cases hs) a b ha hb

/-- So does a unary one. -/
theorem gives_unop [Data.Lex] [TextOps] {k : Nat} (op : UnFn) (hc : ∀ a, c.unopFn k a = op.run a) {s r : Ty} (hs : Flat s)
    (hr : refinePrelude [some s] op.ext = .found r) : HostGives c (.unop k) [s] r :=
  .unop fun a ha => by
    rw [hc]
    exact C79_unary_accepted_partial op hs.definite hs.noAdHoc hr a ha

/-! ## A program -/

namespace Demo
open Dyon.Demo (name num str fn cfg empty ext still)

/-- ```
fn half(x: f64) -> f64 { return x / 2 }
fn down(x: f64, b: bool) -> f64 {
    y := x - 1
    x := y
    return if y < 1 { half(x) } else { down(y, !b) }
}
``` -/
def prog : List Func :=
  [fn "half" ["x"] true [.ret (.call (.binop 9) "div" [name "x", num 2])],
   fn "down" ["x", "b"] true [.assign .assign (name "y") (.call (.binop 7) "sub" [name "x", num 1]),
     .assign .assign (name "x") (name "y"),
     .ret (.ite (.call (.binop 0) "less" [name "y", num 1])
     [.call (.loaded (-1)) "half" [name "x"]] []
     (some [.call (.loaded 0) "down" [name "y", .call (.unop 0) "not" [name "b"]]]))]]

/-- The declared types. -/
def signs : Nat → Option Sign
  | 0 => some ⟨[("x", .f64)], some .f64⟩
  | 1 => some ⟨[("x", .f64), ("b", .bool)], some .f64⟩
  | _ => none

theorem number (k : Nat) {R Γ} : Typing R Γ (num k) .f64 := .const .f64 ⟨_, _, rfl⟩

theorem typed [Data.Lex] [TextOps] : TypedModule (cfg prog) 0 signs := by
  have hd : HostGives (cfg prog) (.binop 9) [.f64, .f64] .f64 := gives_binop .div (fun _ _ => rfl) .f64 .f64 (by with_unfolding_all rfl)
  have hl : HostGives (cfg prog) (.binop 0) [.f64, .f64] .bool := gives_binop .less (fun _ _ => rfl) .f64 .f64 (by with_unfolding_all rfl)
  have hm : HostGives (cfg prog) (.binop 7) [.f64, .f64] .f64 := gives_binop .sub (fun _ _ => rfl) .f64 .f64 (by with_unfolding_all rfl)
  have hn : HostGives (cfg prog) (.unop 0) [.bool] .bool := gives_unop .not (fun _ => rfl) .bool (by with_unfolding_all rfl)
  have ff : ∀ t ∈ [Ty.f64, Ty.f64], Flat t := by simp; exact .f64
  have fb : ∀ t ∈ [Ty.bool], Flat t := by simp; exact .bool
  intro j σ h
  match j, h with
  | 0, h =>
    cases h
    refine ⟨_, rfl, rfl, by simp [fn], rfl, rfl, rfl, by simp; exact .f64, by simp; exact .f64, .returns (.stmt (.ret rfl .call ?_) .nil)⟩
    exact .call (.host ff .f64 hd) (.cons (.var (by simp)) (.cons (number 2) .nil))
  | 1, h =>
    cases h
    refine ⟨_, rfl, rfl, by simp [fn], rfl, rfl, rfl, by simp; exact .f64, by simp; exact ⟨.f64, .bool⟩, .returns (.decl (U := .f64) .f64 ?_
      (.decl (U := .f64) .f64 (.var (by simp [extend])) (.stmt (.ret rfl (.ite .call .call) ?_) .nil)))⟩
    · exact .call (.host ff .f64 hm) (.cons (.var (by simp)) (.cons (number 1) .nil))
    refine .ite (.call (.host ff .bool hl) (.cons (.var (by simp [extend])) (.cons (number 1) .nil))) ?_ ?_
    · exact .call (.own (j := 0) (σ := ⟨[("x", .f64)], some .f64⟩) rfl rfl rfl) (.cons (.var (by simp [extend])) .nil)
    · refine .call (.own (j := 1) (σ := ⟨[("x", .f64), ("b", .bool)], some .f64⟩) rfl rfl rfl) (.cons (.var (by simp [extend])) (.cons ?_ .nil))
      exact .call (.host fb .bool hn) (.cons (.var (by simp [extend])) .nil)

theorem inScope : ModulesScoped (cfg prog) libArity libArity := by
  intro m idx f h
  match idx, h with
  | 0, h =>
    cases h
    constructor
    · intro x hx; cases hx
    · simp [SSeq, Expr.Scoped, SItem, SIds, SArgs, SAll, SElifs, SOptSeq, str, num, name, fn, fnEnv,
        Expr.isSwizzle, Expr.adds, Dyon.decl, callPre]
  | 1, h =>
    cases h
    constructor
    · intro x hx; cases hx
    · simp [SSeq, Expr.Scoped, SItem, SIds, SArgs, SAll, SElifs, SOptSeq, str, num, name, fn, fnEnv,
        Expr.isSwizzle, Expr.adds, Dyon.decl, callPre, prog, arAt, callIndex, cfg, stdCfg, argLen, Valued, Expr.width, vecArgsOk, declName, Item.ids, Item.name]

theorem wf : ModulesWF (cfg prog) libArity libArity := by
  intro m idx f h
  match idx, h with
  | 0, h =>
    cases h
    simp [WFs, Expr.WF, WFopt, WFitem, WFids, num, name, fn]
  | 1, h =>
    cases h
    simp [WFs, Expr.WF, WFopt, WFitem, WFids, WFelifs, WFoptList, num, name, fn]

/-- The hypotheses of `C81_runs_partial` are met: `down(7, true)`. -/
example [Data.Lex] [TextOps] (n : Nat) :
    callStrRet (cfg prog).resolve n "down" [.ofF64 (F64.ofNat 7), .bool true none] 0 empty = .timeout ∨
    ∃ v, callStrRet (cfg prog).resolve n "down" [.ofF64 (F64.ofNat 7), .bool true none] 0 empty = .ok v empty ∧
      HasTy .f64 v :=
  C81_runs_partial (i := 1) rfl (ext _) (still _) wf inScope (.empty rfl rfl) (fun _ _ => rfl) typed rfl rfl
    (fun j g hj hg => by
      match j, hj with
      | j + 2, _ => cases hg) rfl rfl
    (.cons ⟨_, _, rfl⟩ (.cons ⟨_, _, rfl⟩ .nil))

end Demo

/-! ## A program with loops -/

namespace DemoLoops
open Dyon.Demo (name num str fn cfg empty ext still)
open Demo (number)

/-- ```
fn total(n: f64) -> f64 {
    t := 0
    'a: for i n {
        if n < i { break 'a } else if i < 1 { continue }
        u := t
        t += i
        if u < 1 { t = u } else { t *= 2 }
    }
    for j := 0; j < n; j += 1 {
        loop { if t < 100 { t += 1 } else { break } }
        if t < 1 { return total(t) }
    }
    return t + 0
}
``` -/
def body : List Expr :=
  [.assign .assign (name "t") (num 0),
   .forN .forN "i" none (name "n") [
     .ite (.call (.binop 0) "less" [name "n", name "i"]) [.brk (some "a")]
       [(.call (.binop 0) "less" [name "i", num 1], [.cont none])] none,
     .assign .assign (name "u") (name "t"),
     .assign .add (name "t") (name "i"),
     .ite (.call (.binop 0) "less" [name "u", num 1]) [.assign .set (name "t") (name "u")] []
       (some [.assign .mul (name "t") (num 2)])] (some "a"),
   .for_ (.assign .assign (name "j") (num 0)) (.call (.binop 0) "less" [name "j", name "n"]) (.assign .add (name "j") (num 1)) [
     .for_ (.block []) (.const (.bool true none)) (.block []) [
       .ite (.call (.binop 0) "less" [name "t", num 100]) [.assign .add (name "t") (num 1)] [] (some [.brk none])] none,
     .ite (.call (.binop 0) "less" [name "t", num 1]) [.ret (.call (.loaded 0) "total" [name "t"])] [] none] none,
   .ret (.call (.binop 6) "add" [name "t", num 0])]

/-- The program. -/
def prog : List Func := [fn "total" ["n"] true body]

/-- The declared types. -/
def signs : Nat → Option Sign
  | 0 => some ⟨[("n", .f64)], some .f64⟩
  | _ => none

theorem typed [Data.Lex] [TextOps] : TypedModule (cfg prog) 0 signs := by
  have hl : HostGives (cfg prog) (.binop 0) [.f64, .f64] .bool := gives_binop .less (fun _ _ => rfl) .f64 .f64 (by with_unfolding_all rfl)
  have ha : HostGives (cfg prog) (.binop 6) [.f64, .f64] .f64 := gives_binop .add (fun _ _ => rfl) .f64 .f64 (by with_unfolding_all rfl)
  have ff : ∀ t ∈ [Ty.f64, Ty.f64], Flat t := by simp; exact .f64
  have less : ∀ {Γ a b}, Typing (Gives (cfg prog) signs 0) Γ a .f64 → Typing (Gives (cfg prog) signs 0) Γ b .f64 →
      Typing (Gives (cfg prog) signs 0) Γ (.call (.binop 0) "less" [a, b]) .bool :=
    fun h1 h2 => .call (.host ff .bool hl) (.cons h1 (.cons h2 .nil))
  intro j σ h
  match j, h with
  | 0, h =>
    cases h
    refine ⟨_, rfl, rfl, by simp [fn], rfl, rfl, rfl, by simp; exact .f64, by simp; exact .f64, .returns ?_⟩
    refine .decl (U := .f64) .f64 (number 0) (.stmt (b := false) (b' := true) (.count (b := false) (by simp) (.var (by simp [extend])) ?_)
      (.stmt (b := false) (b' := true) (.loop (b := false) (b' := false) (.decl (U := .f64) .f64 (number 0)) .call ?_ ?_ ?_)
        (.stmt (b := true) (b' := false) (.ret rfl .call ?_) .nil)))
    · refine .stmt (b := false) (b' := false) (.cond (b := true) (b' := false) (less (.var (by simp [extend])) (.var (by simp [extend])))
        (.stmt (b := true) (b' := false) (.brk (by simp)) .nil)
        (.elif (b := true) (b' := false) (less (.var (by simp [extend])) (number 1)) (.stmt (b := true) (b' := false) (.next (by simp)) .nil) .none))
        (.decl (U := .f64) .f64 (.var (by simp [extend])) (.stmt (b := false) (b' := false) (.set (U := .f64) (V := .f64) (by simp) (by simp [extend])
          (.var (by simp [extend])) (.num (by simp)) (fun h => by cases h)) (.stmt (b := false) (b' := false) (.cond (b := false) (b' := false)
          (less (.var (by simp [extend])) (number 1))
          (.stmt (b := false) (b' := false) (.set (U := .f64) (by simp) (by simp [extend]) (.var (by simp [extend])) (.set .f64) (fun h => by cases h)) .nil)
          (.els (.stmt (b := false) (b' := false) (.set (U := .f64) (V := .f64) (by simp) (by simp [extend]) (number 2) (.num (by simp)) (fun h => by cases h)) .nil))) .nil)))
    · exact less (.var (by simp [extend])) (.var (by simp [extend]))
    · exact .set (U := .f64) (V := .f64) (by simp) (by simp [extend]) (number 1) (.num (by simp)) (fun h => by cases h)
    · refine .stmt (b := false) (b' := false) (.loop (b := false) (b' := false) (.stmt (.block .nil)) .const (.const .bool ⟨_, _, rfl⟩) (.block .nil) ?_)
        (.stmt (b := false) (b' := false) (.cond (b := true) (b' := false) (less (.var (by simp [extend])) (number 1)) (.stmt (b := true) (b' := false) (.ret rfl .call ?_) .nil) .none) .nil)
      · exact .stmt (b := false) (b' := false) (.cond (b := false) (b' := true) (less (.var (by simp [extend])) (number 100))
          (.stmt (b := false) (b' := false) (.set (U := .f64) (V := .f64) (by simp) (by simp [extend]) (number 1) (.num (by simp)) (fun h => by cases h)) .nil)
          (.els (.stmt (b := true) (b' := false) (.brk (by simp)) .nil))) .nil
      · exact .call (.own (j := 0) (σ := ⟨[("n", .f64)], some .f64⟩) rfl rfl rfl) (.cons (.var (by simp [extend])) .nil)
    · exact .call (.host ff .f64 ha) (.cons (.var (by simp [extend])) (.cons (number 0) .nil))

theorem inScope : ModulesScoped (cfg prog) libArity libArity := by
  intro m idx f h
  match idx, h with
  | 0, h =>
    cases h
    constructor
    · intro x hx; cases hx
    · simp [SSeq, Expr.Scoped, SItem, SIds, SArgs, SAll, SElifs, SOptSeq, SOpt, str, num, name, fn, fnEnv, body,
        Expr.isSwizzle, Expr.adds, Dyon.decl, callPre, prog, arAt, callIndex, cfg, stdCfg, argLen, Valued, Expr.width, vecArgsOk, declName, Item.ids, Item.name]

theorem wf : ModulesWF (cfg prog) libArity libArity := by
  intro m idx f h
  match idx, h with
  | 0, h =>
    cases h
    simp [WFs, Expr.WF, WFopt, WFitem, WFids, WFelifs, WFoptList, num, name, fn, body]

/-- The hypotheses of `C81_runs_partial` are met by a program with loops and assignments: `total(7)`. -/
example [Data.Lex] [TextOps] (n : Nat) :
    callStrRet (cfg prog).resolve n "total" [.ofF64 (F64.ofNat 7)] 0 empty = .timeout ∨
    ∃ v, callStrRet (cfg prog).resolve n "total" [.ofF64 (F64.ofNat 7)] 0 empty = .ok v empty ∧ HasTy .f64 v :=
  C81_runs_partial (i := 0) rfl (ext _) (still _) wf inScope (.empty rfl rfl) (fun _ _ => rfl) typed rfl rfl
    (fun j g hj hg => by
      match j, hj with
      | j + 1, _ => cases hg) rfl rfl
    (.cons ⟨_, _, rfl⟩ .nil)

end DemoLoops

/-! ## A program with `main` -/

namespace DemoMain
open Dyon.Demo (name num str fn cfg empty ext still)
open Demo (number)

/-- ```
twice(x: f64) -> f64 {
    y := x * 2
    y + 0
}
fn count(n: f64) {
    if n < 1 { return }
    t := twice(n)
    for i n { t += i }
    count(n - 1)
}
fn main() { count(3) }
``` -/
def prog : List Func :=
  [fn "twice" ["x"] true [.assign .assign (name "y") (.call (.binop 8) "mul" [name "x", num 2]), .call (.binop 6) "add" [name "y", num 0]],
   fn "count" ["n"] false [.ite (.call (.binop 0) "less" [name "n", num 1]) [.retVoid] [] none,
     .assign .assign (name "t") (.call (.loaded (-1)) "twice" [name "n"]),
     .forN .forN "i" none (name "n") [.assign .add (name "t") (name "i")] none,
     .call (.loaded 0) "count" [.call (.binop 7) "sub" [name "n", num 1]]],
   fn "main" [] false [.call (.loaded (-1)) "count" [num 3]]]

/-- The declared types. -/
def signs : Nat → Option Sign
  | 0 => some ⟨[("x", .f64)], some .f64⟩
  | 1 => some ⟨[("n", .f64)], none⟩
  | 2 => some ⟨[], none⟩
  | _ => none

theorem typed [Data.Lex] [TextOps] : TypedModule (cfg prog) 0 signs := by
  have hl : HostGives (cfg prog) (.binop 0) [.f64, .f64] .bool := gives_binop .less (fun _ _ => rfl) .f64 .f64 (by with_unfolding_all rfl)
  have ha : HostGives (cfg prog) (.binop 6) [.f64, .f64] .f64 := gives_binop .add (fun _ _ => rfl) .f64 .f64 (by with_unfolding_all rfl)
  have hs : HostGives (cfg prog) (.binop 7) [.f64, .f64] .f64 := gives_binop .sub (fun _ _ => rfl) .f64 .f64 (by with_unfolding_all rfl)
  have hm : HostGives (cfg prog) (.binop 8) [.f64, .f64] .f64 := gives_binop .mul (fun _ _ => rfl) .f64 .f64 (by with_unfolding_all rfl)
  have ff : ∀ t ∈ [Ty.f64, Ty.f64], Flat t := by simp; exact .f64
  intro j σ h
  match j, h with
  | 0, h =>
    cases h
    refine ⟨_, rfl, rfl, by simp [fn], rfl, rfl, rfl, by simp; exact .f64, by simp; exact .f64, .value ?_⟩
    exact .decl (V := .f64) .f64 (.call (.host ff .f64 hm) (.cons (.var (by simp)) (.cons (number 2) .nil)))
      (.here .call (.call (.host ff .f64 ha) (.cons (.var (by simp [extend])) (.cons (number 0) .nil))))
  | 1, h =>
    cases h
    refine ⟨_, rfl, rfl, by simp [fn], rfl, rfl, rfl, by simp, by simp; exact .f64, .nothing (b := false) ?_⟩
    refine .stmt (b := false) (b' := false) (.cond (b := true) (b' := false)
      (.call (.host ff .bool hl) (.cons (.var (by simp)) (.cons (number 1) .nil))) (.stmt (b := true) (b' := false) (.retVoid rfl) .nil) .none)
      (.decl (U := .f64) .f64 (.call (.own (j := 0) (σ := ⟨[("x", .f64)], some .f64⟩) rfl rfl rfl) (.cons (.var (by simp)) .nil)) ?_)
    refine .stmt (b := false) (b' := false) (.count (b := false) (by simp) (.var (by simp [extend])) ?_)
      (.stmt (b := false) (b' := false) (.call (.own (j := 1) (σ := ⟨[("n", .f64)], none⟩) rfl rfl rfl) ?_) .nil)
    · exact .stmt (b := false) (b' := false) (.set (U := .f64) (V := .f64) (by simp) (by simp [extend]) (.var (by simp [extend]))
        (.num (by simp)) (fun h => by cases h)) .nil
    · exact .cons (.call (.host ff .f64 hs) (.cons (.var (by simp [extend])) (.cons (number 1) .nil))) .nil
  | 2, h =>
    cases h
    refine ⟨_, rfl, rfl, by simp [fn], rfl, rfl, rfl, by simp, by simp, .nothing (b := false) ?_⟩
    exact .stmt (b := false) (b' := false) (.call (.own (j := 1) (σ := ⟨[("n", .f64)], none⟩) rfl rfl rfl) (.cons (number 3) .nil)) .nil

theorem inScope : ModulesScoped (cfg prog) libArity libArity := by
  intro m idx f h
  match idx, h with
  | 0, h | 1, h | 2, h =>
    cases h
    constructor
    · intro x hx; cases hx
    · simp [SSeq, Expr.Scoped, SItem, SIds, SArgs, SAll, SElifs, SOptSeq, SOpt, str, num, name, fn, fnEnv,
        Expr.isSwizzle, Expr.adds, Dyon.decl, callPre, prog, arAt, callIndex, cfg, stdCfg, argLen, Valued, Expr.width, vecArgsOk, declName, Item.ids, Item.name]

theorem wf : ModulesWF (cfg prog) libArity libArity := by
  intro m idx f h
  match idx, h with
  | 0, h | 1, h | 2, h =>
    cases h
    simp [WFs, Expr.WF, WFopt, WFitem, WFids, WFelifs, WFoptList, num, name, fn]

/-- The hypotheses of `C81_main_partial` are met. -/
example [Data.Lex] [TextOps] (n : Nat) : run (cfg prog).resolve n 0 empty = .timeout ∨ run (cfg prog).resolve n 0 empty = .ok () empty :=
  C81_main_partial (i := 2) rfl (ext _) (still _) wf inScope (.empty rfl rfl) (fun _ _ => rfl) typed rfl rfl
    (fun j g hj hg => by
      match j, hj with
      | j + 3, _ => cases hg) rfl rfl

/-- The hypotheses of `C81_calls_partial` are met: `count(5)`. -/
example [Data.Lex] [TextOps] (n : Nat) :
    callStr (cfg prog).resolve n "count" [.ofF64 (F64.ofNat 5)] 0 empty = .timeout ∨
    callStr (cfg prog).resolve n "count" [.ofF64 (F64.ofNat 5)] 0 empty = .ok () empty :=
  C81_calls_partial (i := 1) rfl (ext _) (still _) wf inScope (.empty rfl rfl) (fun _ _ => rfl) typed rfl rfl
    (fun j g hj hg => by
      match j, hj with
      | 2, _ => cases hg; decide
      | j + 3, _ => cases hg) rfl (.cons ⟨_, _, rfl⟩ .nil)

/-- A function of the host that takes a number and gives nothing, as `print` does. -/
example : HostDoes { cfg prog with voidFn := fun _ s => .ok () { s with stack := s.stack.dropLast } } (.void 0) [.f64] :=
  .void fun s base args h ha => by
    cases ha with
    | cons _ ha =>
      cases ha
      simp [h]

end DemoMain

namespace DemoCollect
open Dyon.Demo (name num str fn cfg empty ext still)
open Demo (number)

/-- ```
fn f(n: f64) -> link {
    s := ∑ i n { i * 2 }
    p := ∑vec4 i [1, n) { (i, s, 0, 1) }
    m := mat4 { p; p; p; (1, 2, 3, 4) }
    return link { s ", " any i n { i < s } }
}
``` -/
def prog : List Func :=
  [fn "f" ["n"] true
    [.assign .assign (name "s") (.forN .sum "i" none (name "n") [.call (.binop 8) "mul" [name "i", num 2]] none),
     .assign .assign (name "p") (.forN .sumVec4 "i" (some (num 1)) (name "n") [.vec4 [name "i", name "s", num 0, num 1]] none),
     .assign .assign (name "m") (.mat4 [name "p", name "p", name "p", .vec4 [num 1, num 2, num 3, num 4]]),
     .ret (.link [name "s", str ", ", .forN .any "i" none (name "n") [.call (.binop 0) "less" [name "i", name "s"]] none])]]

/-- The declared types. -/
def signs : Nat → Option Sign
  | 0 => some ⟨[("n", .f64)], some .link⟩
  | _ => none

theorem typed [Data.Lex] [TextOps] : TypedModule (cfg prog) 0 signs := by
  have hl : HostGives (cfg prog) (.binop 0) [.f64, .f64] .bool := gives_binop .less (fun _ _ => rfl) .f64 .f64 (by with_unfolding_all rfl)
  have hm : HostGives (cfg prog) (.binop 8) [.f64, .f64] .f64 := gives_binop .mul (fun _ _ => rfl) .f64 .f64 (by with_unfolding_all rfl)
  have ff : ∀ t ∈ [Ty.f64, Ty.f64], Flat t := by simp; exact .f64
  intro j σ h
  match j, h with
  | 0, h =>
    cases h
    refine ⟨_, rfl, rfl, by simp [fn], rfl, rfl, rfl, by simp; exact .link, by simp; exact .f64, .returns ?_⟩
    refine .decl (U := .f64) .f64 (.fold .sum (by simp) (.var (by simp))
      (.call (.host ff .f64 hm) (.cons (.var (by simp [extend])) (.cons (number 2) .nil)))) ?_
    refine .decl (U := .vec4) .vec4 (.fold .sumVec4 (fun a h => by cases h; exact number 1) (.var (by simp [extend]))
      (.vec4 (.cons (.var (by simp [extend])) (.cons (.var (by simp [extend])) (.cons (number 0) (.cons (number 1) .nil)))))) ?_
    refine .decl (U := .mat4) .mat4 (.mat4 (.cons (.var (by simp [extend])) (.cons (.var (by simp [extend])) (.cons (.var (by simp [extend]))
      (.cons (.vec4 (.cons (number 1) (.cons (number 2) (.cons (number 3) (.cons (number 4) .nil))))) .nil))))) ?_
    refine .stmt (b := true) (b' := false) (.ret rfl .link (.link (ts := [.f64, .str, .bool]) (.cons (.var (by simp [extend]))
      (.cons (.const .str (by simp [Ty.HasTy])) (.cons (.fold .any (by simp) (.var (by simp [extend]))
      (.call (.host ff .bool hl) (.cons (.var (by simp [extend])) (.cons (.var (by simp [extend])) .nil)))) .nil))) (by simp [Linked]))) .nil

theorem inScope : ModulesScoped (cfg prog) libArity libArity := by
  intro m idx f h
  match idx, h with
  | 0, h =>
    cases h
    constructor
    · intro x hx; cases hx
    · simp [SSeq, Expr.Scoped, SItem, SIds, SArgs, SAll, SElifs, SOptSeq, SOpt, str, num, name, fn, fnEnv,
        Expr.isSwizzle, Expr.adds, Dyon.decl, callPre, prog, arAt, callIndex, cfg, stdCfg, argLen, Valued, Expr.width, vecArgsOk, declName, Item.ids, Item.name]

theorem wf : ModulesWF (cfg prog) libArity libArity := by
  intro m idx f h
  match idx, h with
  | 0, h =>
    cases h
    simp [WFs, Expr.WF, WFopt, WFitem, WFids, WFelifs, WFoptList, num, name, fn, str, vecArgsOk, Valued, fits, Expr.width]

/-- The hypotheses of `C81_runs_partial` are met by a function with loops that give values, vectors, a matrix and a link. -/
example [Data.Lex] [TextOps] (n : Nat) :
    callStrRet (cfg prog).resolve n "f" [.ofF64 (F64.ofNat 3)] 0 empty = .timeout ∨
    ∃ v, callStrRet (cfg prog).resolve n "f" [.ofF64 (F64.ofNat 3)] 0 empty = .ok v empty ∧ Ty.HasTy .link v :=
  C81_runs_partial (i := 0) rfl (ext _) (still _) wf inScope (.empty rfl rfl) (fun _ _ => rfl) typed rfl rfl
    (fun j g hj hg => by
      match j, hj with
      | j + 1, _ => cases hg) rfl rfl (.cons ⟨_, _, rfl⟩ .nil)

end DemoCollect
end Dyon.Sound
