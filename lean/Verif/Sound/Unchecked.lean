import Verif.Sound.Findings

/-!
# C81, findings: what the type checker does not look at

An accepted file in which each function fails for a type that was not compared.
-/

namespace Dyon.Sound.Unchecked

open Front (Src FnSrc FnArg Cst TySrc BodySrc ModSrc FileSrc)
open Check (built arena)
open Check.EndDemo (nd okNodes okNodes_of isOk)
open Lost (one box it)

/-- An equation whose sides the kernel evaluates to the same. -/
local macro "kernel_rfl" : tactic => `(tactic| run_tac do
  let g ← Lean.Elab.Tactic.getMainGoal
  let some (_, a, _) := (← Lean.instantiateMVars (← g.getType)).eq? | throwError "not an equation"
  g.assign (← Lean.Meta.mkEqRefl a))

variable [FloatOps] [VecMath] [Data.Lex] [TextOps]

/-- A number. -/
def n (k : Nat) : Src := one (.num (F64.ofNat k))

/-- `"a"` -/
def a : Src := one (.text "a")

/-- `x` -/
def x : Src := .item (.mk false "x" false [])

/-- `fn name() -> f64 { .. }` -/
def func (name : String) (t : TySrc) (es : List Src) : FnSrc := { name := name, body := .returns (some t) es [] }

/-- The file. -/
def file : List FnSrc :=
  [func "changed" .f64 [.assign x .assign (n 1), .assign x .set a, .ret (n 2)],
   func "scaled" .f64 [.assign x .assign a, .assign x .mul a, .ret (n 2)],
   func "matrix" .mat4 [.ret (one (.mat4 (n 0) (some (n 1)) (some (n 2)) (some (n 3))))],
   func "total" .f64 [.ret (one (.forN .sum none [.upto "i" (n 1)] [a]))],
   func "count" .f64 [.forN .forN none [.upto "i" a] [.assign x .assign (n 1)], .ret (n 1)],
   func "linked" .link [.ret (one (.link [one (.vec4 (n 0) (some (n 1)) (some (n 2)) (some (n 3)))]))]]

/-- No functions of the host. -/
def env : Check.Env := ⟨(⟨fun _ => none, [], []⟩ : Mod.Prelude).addExternals [], fun _ => none⟩

/-- The program of the file. -/
def program : ECfg :=
  match (ModSrc.load (.host []) "unchecked.dyon" { fns := file }).build with
  | .ok m => (stdCfg (fun _ _ => "value") 100 (fun _ => [])).withModules fun _ => m
  | .error _ => stdCfg (fun _ _ => "value") 100 (fun _ => [])

/-- A literal where the grammar has a sum. -/
def lit (t : Ty) : Check.Tr := box .expr [nd .expr [] (some t) []]

/-- `x op e` -/
def set (op : AssignOp) (t : Ty) : Check.Tr := .mk { kind := .assign, op := some op } [] [box .left [it "x"], box .right [lit t]]

/-- A number as a row of a matrix. -/
def row (k : Check.Kind) : Check.Tr := nd k [] (some .vec4) [lit .f64]

/-- A `vec4` literal. -/
def vec : Check.Tr := nd .vec4 [] (some .vec4) [box .x [lit .f64], box .y [lit .f64], box .z [lit .f64], box .w [lit .f64]]

/-- A function with these statements. -/
def fnTr (f : String) (t : Ty) (es : List Check.Tr) : Check.Tr := nd .fn [f] (some t) [box .block (es.map fun e => box .expr [e])]

/-- `return e` for an operand `e`. -/
def retTr (e : Check.Tr) : Check.Tr := box .ret [box .expr [box .expr [e]]]

/-- The nodes of the file. -/
def trees : List Check.Tr :=
  [fnTr "changed" .f64 [set .assign .f64, set .set .str, box .ret [lit .f64]],
   fnTr "scaled" .f64 [set .assign .str, set .mul .str, box .ret [lit .f64]],
   fnTr "matrix" .mat4 [retTr (nd .mat4 [] (some .mat4) [row .ex, row .ey, row .ez, row .ew])],
   fnTr "total" .f64 [retTr (nd .sum ["i"] (some .f64) [box .end' [lit .f64], box .block [box .expr [lit .str]]])],
   fnTr "count" .f64 [nd .forN ["i"] (some .void) [box .end' [lit .str], box .block [box .expr [set .assign .f64]]], box .ret [lit .f64]],
   fnTr "linked" .link [retTr (nd .link [] (some .link) [box .linkItem [box .expr [box .expr [vec]]]])]]

/-- A call of the function stops with an error that ends in this text (before it is where the program was). -/
def failsWith (f text : String) : Bool :=
  match callStrRet program.resolve 14 f [] 0 Demo.empty with
  | .err m _ => text.toList.isSuffixOf m.toList
  | _ => false

set_option maxRecDepth 100000 in
/-- **Finding (C81).** The file
```
fn changed() -> f64 { x := 1  x = "a"  return 2 }
fn scaled() -> f64 { x := "a"  x *= "a"  return 2 }
fn matrix() -> mat4 { return mat4 {0; 1; 2; 3} }
fn total() -> f64 { return ∑ i 1 { "a" } }
fn count() -> f64 { for i "a" { x := 1 }  return 1 }
fn linked() -> link { return link { (0, 1, 2, 3) } }
```
passes all checks, and every one of its functions stops with an error about types or, `scaled`, panics.  (After the types are known only functions,
`if`, `go`, `+=`, `-=`, unused results and swizzles are looked at, lifetime/typecheck.rs:658-785; assignments with other operators, the rows of matrices, the bodies
and ranges of loops and the items of links are not.)  So a theorem from accepted texts to runs, like `Small.C81_text_partial`, cannot hold
for these. -/
theorem C81_unchecked :
    ∃ ns1 ns2 out, built (file.map FnSrc.tree) = .ok trees ∧ (arena trees).linkAll = .ok ns1 ∧ ns1.linkFns env = .ok ns2 ∧
      ns2.requiresMut = none ∧ ns2.checkLifetimes = .accept ∧ ns2.typecheck env 12 = .accept out ∧
      failsWith "changed" "Expected assigning to text" = true ∧
      callStrRet program.resolve 14 "scaled" [] 0 Demo.empty = .panic "not implemented" ∧
      failsWith "matrix" "Expected `vec4`, found `number`" = true ∧
      failsWith "total" "Expected `number`, found `string`" = true ∧
      failsWith "count" "Expected `number`, found `string`" = true ∧
      failsWith "linked" "Expected `bool`, `f64` or `str`" = true := by
  obtain ⟨ns1, h2, h3⟩ := linked_ok (okNodes_of (x := linked env trees) (by decide +kernel))
  refine ⟨ns1, _, _, rfl, h2, h3, by decide +kernel, by decide +kernel,
    Check.Demo.accept_of (by decide +kernel), ?_, ?_, ?_, ?_, ?_, ?_⟩
  · kernel_rfl
  · kernel_rfl
  · kernel_rfl
  · kernel_rfl
  · kernel_rfl
  · kernel_rfl

end Dyon.Sound.Unchecked
