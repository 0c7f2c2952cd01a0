import Verif.Eval.StdLib

/-!
# Small programs used in examples

The programs are written as syntax trees with the slots the loader computes.
-/

namespace Dyon.Demo

/-- Variable with the slot counted from the end of the stack. -/
def var (n : String) (s : Nat) : Expr := .item (.mk n (some s) false false [] [])
/-- `n := e` -/
def decl (n : String) (e : Expr) : Expr := .assign .assign (.item (.mk n none false false [] [])) e
/-- `~ n := e` -/
def declCur (n : String) (e : Expr) : Expr :=
  .assign .assign (.item (.mk n none true false [] [])) e
/-- A string. -/
def str (s : String) : Expr := .const (.str s)
/-- A number. -/
def num (n : Nat) : Expr := .const (.ofF64 (F64.ofNat n))
/-- A boolean. -/
def bool (b : Bool) : Expr := .const (.bool b none)
/-- A function without lazy invariants. -/
def fn (name : String) (args : List String) (returns : Bool) (body : List Expr) : Func :=
  ⟨name, "demo.dyon", args, [], [], returns, body⟩
/-- A run-time without anything on the stacks. -/
def empty : St := ⟨[], [], [], [], 0, [], [], fun _ _ => (false, []), fun _ => [], 0, 0⟩

/-- The program
```
fn main() -> {
    x := try f("a")
    'outer: for i 2 { for j 2 { break 'outer } }
    ~ y := "c"
    { z := x; clear(mut z) }
    return x
}
fn f(a) -> {
    if a == "a" { return "yes" }
    unwrap(a)
}
``` -/
def prog : List Func :=
  [fn "main" [] true
    [decl "x" (.tryExpr (.call (.loaded 1) "f" [str "a"])),
     .forN .forN "i" none (num 2) [.forN .forN "j" none (num 2) [.brk (some "outer")] none]
       (some "outer"),
     declCur "y" (str "c"),
     .block [decl "z" (var "x" 2), .call (.void (lib .clear)) "clear" [var "z" 1]],
     .ret (var "x" 2)],
   fn "f" ["a"] true
    [.ite (.call (.binop 4) "equal" [var "a" 1, str "a"]) [.ret (str "yes")] [] none,
     .call (.ret (lib .unwrap)) "unwrap" [var "a" 1]]]

section
variable [FloatOps] [VecMath]

/-- The configuration of the program. -/
def cfg (p : List Func) : ECfg := stdCfg (fun _ _ => "value") 100 fun _ => p

theorem ext (p : List Func) : ExtFns (cfg p) libArity libArity := libExtFns _ _ _ rfl rfl

theorem modules : ModulesWF (cfg prog) libArity libArity := by
  intro m idx f h
  match idx, h with
  | 0, h =>
    cases h
    simp [WFs, Expr.WF, WFopt, WFitem, WFids, decl, declCur, str, num, var, fn]
    rfl
  | 1, h =>
    cases h
    simp [WFs, Expr.WF, WFopt, WFitem, WFids, WFelifs, WFoptList, str, var, fn]
    rfl

theorem closures (p : List Func) : ClosuresWF (cfg p) libArity libArity empty := by
  intro cl h; cases h

end

end Dyon.Demo
