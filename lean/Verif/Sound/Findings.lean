import Verif.Sound.Resolved
import Verif.Front.RunProps
import Verif.Check.EndProps

/-!
# C81, findings: accepted programs that go wrong

Programs that the checks of variables, calls, `mut`, lifetimes and types accept, and whose run breaks what their types
say.
-/

namespace Dyon.Sound

open Front (Src FnSrc FnArg Cst TySrc BodySrc ModSrc FileSrc)
open Check (built arena)
open Check.EndDemo (nd okNodes okNodes_of isOk)
open Check.TextDemo (v)

/-- An equation whose sides the kernel evaluates to the same. -/
local macro "kernel_rfl" : tactic => `(tactic| run_tac do
  let g ← Lean.Elab.Tactic.getMainGoal
  let some (_, a, _) := (← Lean.instantiateMVars (← g.getType)).eq? | throwError "not an equation"
  g.assign (← Lean.Meta.mkEqRefl a))

/-- What the checker makes of the nodes before it checks types. -/
def linked (env : Check.Env) (trees : List Check.Tr) : Except Unit Check.Nodes :=
  match (arena trees).linkAll with
  | .error _ => .error ()
  | .ok ns => match ns.linkFns env with
    | .error _ => .error ()
    | .ok ns => .ok ns

theorem linked_ok {env : Check.Env} {trees : List Check.Tr} {ns : Check.Nodes} (h : linked env trees = .ok ns) : ∃ ns1,
    (arena trees).linkAll = .ok ns1 ∧ ns1.linkFns env = .ok ns := by
  unfold linked at h
  split at h
  · cases h
  · rename_i ns1 h2
    split at h
    · cases h
    · rename_i ns2 h3
      cases h
      exact ⟨ns1, h2, h3⟩

namespace Lost
variable [FloatOps] [VecMath] [Data.Lex] [TextOps]

/-- `l op r` with an operator of products -/
def product (l : Src) (op : Syn.BinOp) (r : Src) : Src := .add (.mk (.plain l) [(op, .plain r)]) []

/-- `fn both(x: bool, y: bool) -> bool { return x && y }` -/
def both : FnSrc :=
  { name := "both", args := [{ name := "x", ty := some .bool }, { name := "y", ty := some .bool }],
    body := .returns (some .bool) [.ret (product (v "x") .andAlso (v "y"))] [] }

/-- An expression without operators, as the grammar has it: a sum of one product of one factor, syntax.txt:238-246. -/
def one (e : Src) : Src := .add (.mk (.plain e) []) []

/-- `fn no() -> bool { return false }` -/
def no : FnSrc := { name := "no", body := .returns (some .bool) [.ret (one (.bool false))] [] }

/-- `fn neither() -> bool { return !both(no(), true) }` -/
def neither : FnSrc :=
  { name := "neither",
    body := .returns (some .bool) [.ret (one (.not (.call (.plain none "both"
      [one (.call (.plain none "no" [])), one (.bool true)]))))] [] }

/-- The file. -/
def file : List FnSrc := [both, no, neither]

/-- What the host declares of `&&` and `!`, module.rs:211-227, 359-371. -/
def table : List Mod.External :=
  [⟨[], "and_also", .ret (lib .andAlso), ⟨[.default, .default], [.bool, .bool], .any, lazySigs, [[.variable (.bool false none)]]⟩⟩,
   ⟨[], "not", .unop 0, ⟨[.default], [.any], .any, UnFn.not.ext, []⟩⟩]

/-- What the checker knows of them. -/
def env : Check.Env := ⟨(⟨fun _ => none, [], []⟩ : Mod.Prelude).addExternals table, fun _ => none⟩

/-- The program of the file with the functions. -/
def program : ECfg :=
  match (ModSrc.load (.host table) "both.dyon" { fns := file }).build with
  | .ok m => (stdCfg (fun _ _ => "value") 100 (fun _ => [])).withModules fun _ => m
  | .error _ => stdCfg (fun _ _ => "value") 100 (fun _ => [])

/-- A node that only has children. -/
def box (k : Check.Kind) (ts : List Check.Tr) : Check.Tr := nd k [] none ts

/-- A variable. -/
def it (x : String) : Check.Tr := nd .item [x] none []

/-- The nodes of the file. -/
def trees : List Check.Tr :=
  [nd .fn ["both"] (some .bool) [nd .arg ["x"] (some .bool) [], nd .arg ["y"] (some .bool) [],
     box .block [box .expr [box .ret [box .expr [nd .call ["and_also"] none
       [box .callArg [box .expr [it "x"]], box .callArg [box .expr [it "y"]]]]]]]],
   nd .fn ["no"] (some .bool) [box .block [box .expr [box .ret [box .expr [nd .expr [] (some .bool) []]]]]],
   nd .fn ["neither"] (some .bool) [box .block [box .expr [box .ret [box .expr [box .expr
     [nd .call ["not"] none [box .callArg [nd .call ["both"] none
       [box .callArg [box .expr [box .expr [nd .call ["no"] none []]]],
        box .callArg [box .expr [nd .expr [] (some .bool) []]]]]]]]]]]]]

theorem trees_built : built (file.map FnSrc.tree) = .ok trees := rfl

/-- **Finding (C81).** The file
`fn both(x: bool, y: bool) -> bool { return x && y }  fn no() -> bool { return false }
fn neither() -> bool { return !both(no(), true) }`
passes all checks, of variables, calls, `mut`, lifetimes and types.  When the host calls `both(false, true)` it gets a reference
to a slot of the stack that is gone, not a boolean; when it calls `neither()`, the program panics.  (`call_lazy` gives back the first
operand of `&&` as it is, runtime/mod.rs:1404-1411, while the checks take the result for a new value.) -/
theorem C81_reference_lost :
    ∃ ns1 ns2 out, built (file.map FnSrc.tree) = .ok trees ∧ (arena trees).linkAll = .ok ns1 ∧ ns1.linkFns env = .ok ns2 ∧
      ns2.requiresMut = none ∧ ns2.checkLifetimes = .accept ∧ ns2.typecheck env 12 = .accept out ∧
      callStrRet program.resolve 20 "both" [.bool false none, .bool true none] 0 Demo.empty = .ok (.ref 1) Demo.empty ∧
      ¬ Ty.HasTy .bool (.ref 1) ∧
      callStrRet program.resolve 12 "neither" [] 0 Demo.empty = .panic "index out of bounds" := by
  obtain ⟨ns1, h2, h3⟩ := linked_ok (okNodes_of (x := linked env trees) (by decide +kernel))
  refine ⟨ns1, _, _, trees_built, h2, h3, by decide +kernel, by decide +kernel,
    Check.Demo.accept_of (by decide +kernel), rfl, (by rintro ⟨_, _, h⟩; cases h), ?_⟩
  kernel_rfl

end Lost

namespace Wrong
variable [FloatOps] [VecMath] [Data.Lex] [TextOps]
open Lost (one box)

/-- `fn secret() -> sec[bool] { return !true }` -/
def secret : FnSrc := { name := "secret", body := .returns (some .secBool) [.ret (one (.not (.bool true)))] [] }

/-- `fn source() -> sec[f64] { return explain_where(1, "why") }` -/
def source : FnSrc :=
  { name := "source", body := .returns (some .secF64)
      [.ret (one (.call (.plain none "explain_where" [one (.num (F64.ofNat 1)), one (.text "why")])))] [] }

/-- `fn either() -> sec[f64] { return if false { source() } else { 2 } }` -/
def either : FnSrc :=
  { name := "either", body := .returns (some .secF64)
      [.ret (.ite (one (.bool false)) [one (.call (.plain none "source" []))] [] (some [one (.num (F64.ofNat 2))]))] [] }

/-- `fn last(x: bool) -> f64 { if x { return 1 }  "a" }` -/
def last : FnSrc :=
  { name := "last", args := [{ name := "x", ty := some .bool }], body := .returns (some .f64)
      [.ite (one (v "x")) [.ret (one (.num (F64.ofNat 1)))] [] none, one (.text "a")] [] }

/-- The file. -/
def file : List FnSrc := [secret, source, either, last]

/-- What the host declares of `!` and `explain_where`, module.rs:359-371, 648-652. -/
def table : List Mod.External :=
  [⟨[], "not", .unop 0, ⟨[.default], [.any], .any, UnFn.not.ext, []⟩⟩,
   ⟨[], "explain_where", .ret (lib .explainWhere), ⟨[.default, .default], [.f64, .any], .secret .f64, [], []⟩⟩]

/-- What the checker knows of them. -/
def env : Check.Env := ⟨(⟨fun _ => none, [], []⟩ : Mod.Prelude).addExternals table, fun _ => none⟩

/-- The program of the file with the functions. -/
def program : ECfg :=
  match (ModSrc.load (.host table) "wrong.dyon" { fns := file }).build with
  | .ok m => (stdCfg (fun _ _ => "value") 100 (fun _ => [])).withModules fun _ => m
  | .error _ => stdCfg (fun _ _ => "value") 100 (fun _ => [])

/-- A literal where the grammar has a sum, below the node of its place. -/
def lit (k : Check.Kind) (t : Ty) : Check.Tr := box k [box .expr [nd .expr [] (some t) []]]

/-- A function with the type of its result, and its body. -/
def func (f : String) (t : Ty) (b : Check.Tr) : Check.Tr := nd .fn [f] (some t) [box .block [box .expr [b]]]

/-- The nodes of the file. -/
def trees : List Check.Tr :=
  [func "secret" (.secret .bool) (box .ret [box .expr [box .expr [nd .call ["not"] none [nd .callArg [] (some .bool) []]]]]),
   func "source" (.secret .f64) (box .ret [box .expr [box .expr [nd .call ["explain_where"] none [lit .callArg .f64, lit .callArg .str]]]]),
   func "either" (.secret .f64) (box .ret [box .if' [lit .cond .bool,
     box .trueBlock [box .expr [box .expr [box .expr [nd .call ["source"] none []]]]],
     box .elseBlock [lit .expr .f64]]]),
   nd .fn ["last"] (some .f64) [nd .arg ["x"] (some .bool) [], box .block
     [box .expr [box .if' [box .cond [box .expr [box .expr [nd .item ["x"] none []]]],
       box .trueBlock [box .expr [lit .ret .f64]]]], lit .expr .str]]]

set_option maxRecDepth 100000 in
/-- **Finding (C81).** The file
`fn secret() -> sec[bool] { return !true }  fn source() -> sec[f64] { return explain_where(1, "why") }
fn either() -> sec[f64] { return if false { source() } else { 2 } }  fn last(x: bool) -> f64 { if x { return 1 }  "a" }`
passes all checks, and
* `secret()` gives a boolean without a secret: of the two signatures of `!` the checker takes the first, `sec[bool] -> sec[bool]`,
  for a literal (arguments without a node below them are left out of the comparison, lifetime/typecheck/refine.rs:145-150);
* `either()` gives a number without a secret: the types of the two blocks of an `if` are compared in the direction in which `f64` goes with
  `sec[f64]` (lifetime/typecheck.rs:897-899);
* `last(false)` gives a string: where there is a `return` the last expression of the body is not compared with the declared type
  (lifetime/typecheck.rs:679-690). -/
theorem C81_types_lost :
    ∃ ns1 ns2 out, built (file.map FnSrc.tree) = .ok trees ∧ (arena trees).linkAll = .ok ns1 ∧ ns1.linkFns env = .ok ns2 ∧
      ns2.requiresMut = none ∧ ns2.checkLifetimes = .accept ∧ ns2.typecheck env 12 = .accept out ∧
      (callStrRet program.resolve 12 "secret" [] 0 Demo.empty = .ok (.bool false none) Demo.empty ∧
        ¬ Ty.HasTy (.secret .bool) (.bool false none)) ∧
      (callStrRet program.resolve 12 "either" [] 0 Demo.empty = .ok (.f64 (F64.ofNat 2) none) Demo.empty ∧
        ¬ Ty.HasTy (.secret .f64) (.f64 (F64.ofNat 2) none)) ∧
      callStrRet program.resolve 12 "last" [.bool false none] 0 Demo.empty = .ok (.str "a") Demo.empty ∧ ¬ Ty.HasTy .f64 (.str "a") := by
  obtain ⟨ns1, h2, h3⟩ := linked_ok (okNodes_of (x := linked env trees) (by decide +kernel))
  refine ⟨ns1, _, _, rfl, h2, h3, by decide +kernel, by decide +kernel,
    Check.Demo.accept_of (by decide +kernel), ⟨by kernel_rfl, ?_⟩, ⟨by kernel_rfl, ?_⟩, by kernel_rfl, ?_⟩
  · rintro ⟨-, ⟨_, _, h⟩ | ⟨_, _, h⟩⟩ <;> cases h
  · generalize F64.ofNat 2 = x
    rintro ⟨-, ⟨_, _, h⟩ | ⟨_, _, h⟩⟩ <;> cases h
  · rintro ⟨_, _, h⟩; cases h

end Wrong
end Dyon.Sound
