import Verif.Sound.Findings

/-!
# A small language

Functions with declared types whose body is a row of declarations `x := e` and early returns `if c { return e }`, and a `return e`, where
the expressions are literals, variables, calls, operators and `if`, as text.
`Ex.src` says how an expression of it is written (`Front/Source.lean`), `Ex.tr` which nodes the checker has for it and
`Ex.expr` what is evaluated.  The theorems of this file: the parser's reports of the text become these nodes and this program.
-/

namespace Dyon.Sound.Small

open Front (Src FnSrc FnArg Cst TySrc)
open Check (Tr addPart addParts callsAll nests namedAll built)
open Check.EndDemo (nd)
open Lost (box one)
open Syn (BinOp)

/-- Types without parts. -/
inductive Ft where
  | f64 | bool | str | vec4 | mat4 | link
deriving DecidableEq

/-- How a type is written. -/
def Ft.src : Ft → TySrc
  | .f64 => .f64
  | .bool => .bool
  | .str => .str
  | .vec4 => .vec4
  | .mat4 => .mat4
  | .link => .link

/-- The type. -/
def Ft.ty (t : Ft) : Ty := t.src.ty

/-- Expressions. -/
inductive Ex where
  | num (x : F64)
  | bool (b : Bool)
  | text (s : String)
  | var (x : String)
  | call (f : String) (args : List Ex)
  /-- `if c { a } else { b }` -/
  | ite (c a b : Ex)
  /-- `-e` -/
  | neg (e : Ex)
  /-- `l^r` -/
  | pow (l r : Ex)
  /-- `l * r` and so on -/
  | mul (op : BinOp) (l r : Ex)
  /-- `l + r` and so on -/
  | add (op : BinOp) (l r : Ex)
  /-- `l < r` and so on -/
  | cmp (op : BinOp) (l r : Ex)

/-- Statements before the last. -/
inductive Stm where
  /-- `x := e` -/
  | decl (x : String) (e : Ex)
  /-- `if c { return e }` -/
  | guard (c e : Ex)

/-- Functions. -/
structure Fn where
  name : String
  params : List (String × Ft)
  ret : Ft
  stms : List Stm := []
  /-- `return e` -/
  body : Ex

/-! ## Text -/

/-- Something that may be an operand; where a whole expression is expected, it is a sum of one product of one factor. -/
def atomic (operand : Bool) (s : Src) : Src := if operand then s else one s

/-- Something that may be an operand in parentheses only. -/
def compound (operand : Bool) (s : Src) : Src := if operand then .paren s else s

mutual
/-- How an expression is written: as an operand of a sum, product or power, or where an expression is expected.  (Comparisons
in comparisons are in parentheses; parentheses are not in the tree.) -/
def Ex.src (operand : Bool) : Ex → Src
  | .num x => atomic operand (.num x)
  | .bool b => atomic operand (.bool b)
  | .text s => atomic operand (.text s)
  | .var x => atomic operand (.item (.mk false x false []))
  | .call f args => atomic operand (.call (.plain none f (srcs args)))
  | .ite c a b => compound operand (.ite (c.src false) [a.src false] [] (some [b.src false]))
  | .neg e => compound operand (.add (.mk (.neg (.mk (.plain (e.src true)) [])) []) [])
  | .pow l r => compound operand (.add (.mk (.pow (l.src true) (r.src true)) []) [])
  | .mul op l r => compound operand (.add (.mk (.plain (l.src true)) [(op, .plain (r.src true))]) [])
  | .add op l r => compound operand (.add (.mk (.plain (l.src true)) []) [(op, .mk (.plain (r.src true)) [])])
  | .cmp op l r => compound operand (.compare (l.src false) op (r.src false))
/-- Arguments. -/
def srcs : List Ex → List Src
  | [] => []
  | e :: es => e.src false :: srcs es
end

/-- How a declaration is written. -/
def letSrc (q : String × Ex) : Src := .assign (.item (.mk false q.1 false [])) .assign (q.2.src false)

/-- How an early return is written. -/
def guardSrc (c e : Ex) : Src := .ite (c.src false) [.ret (e.src false)] [] none

/-- How a statement is written. -/
def Stm.src : Stm → Src
  | .decl x e => letSrc (x, e)
  | .guard c e => guardSrc c e

/-- How a function is written. -/
def Fn.src (f : Fn) : FnSrc :=
  { name := f.name, args := f.params.map fun p => { name := p.1, ty := some p.2.src },
    body := .returns (some f.ret.src) (f.stms.map Stm.src ++ [.ret (f.body.src false)]) [] }

/-! ## Nodes -/

/-- The node of something that may be an operand. -/
def atomicTr (operand : Bool) (t : Tr) : Tr := if operand then t else box .expr [t]

/-- The node of something else. -/
def compoundTr (operand : Bool) (t : Tr) : Tr := if operand then box .expr [t] else t

/-- An operator. -/
def opTr (op : BinOp) (l r : Tr) : Tr := nd .call [Syn.callName op] none [box .callArg [l], box .callArg [r]]

mutual
/-- The nodes of an expression: as an operand, with the node around it; or where an expression is expected. -/
def Ex.tr (operand : Bool) : Ex → Tr
  | .num _ => atomicTr operand (nd .expr [] (some .f64) [])
  | .bool _ => atomicTr operand (nd .expr [] (some .bool) [])
  | .text _ => atomicTr operand (nd .expr [] (some .str) [])
  | .var x => atomicTr operand (box .expr [nd .item [x] none []])
  | .call f args => atomicTr operand (box .expr [nd .call [f] none (argTrs args)])
  | .ite c a b => compoundTr operand (box .if' [box .cond [c.tr false], box .trueBlock [box .expr [a.tr false]],
      box .elseBlock [box .expr [b.tr false]]])
  | .neg e => compoundTr operand (box .expr [nd .call ["neg"] none [box .callArg [e.tr true]]])
  | .pow l r => compoundTr operand (box .expr [opTr .pow (l.tr true) (r.tr true)])
  | .mul op l r => compoundTr operand (box .expr [opTr op (l.tr true) (r.tr true)])
  | .add op l r => compoundTr operand (opTr op (box .expr [l.tr true]) (box .expr [r.tr true]))
  | .cmp op l r => compoundTr operand (opTr op (box .expr [l.tr false]) (box .expr [r.tr false]))
/-- The nodes of arguments. -/
def argTrs : List Ex → List Tr
  | [] => []
  | e :: es => box .callArg [e.tr false] :: argTrs es
end

/-- The node of a parameter. -/
def argTr (p : String × Ft) : Tr := nd .arg [p.1] (some p.2.ty) []

/-- The node of a declaration with nodes for the right side. -/
def asgTr (x : String) (t : Tr) : Tr :=
  .mk { kind := .assign, op := some .assign } [] [box .left [nd .item [x] none []], box .right [t]]

/-- The node of the statement. -/
def letTr (q : String × Ex) : Tr := box .expr [asgTr q.1 (q.2.tr false)]

/-- The node of an early return with nodes for the condition and the result. -/
def guardBox (tc te : Tr) : Tr := box .expr [box .if' [box .cond [tc], box .trueBlock [box .expr [box .ret [te]]]]]

/-- The nodes of a statement. -/
def Stm.tr : Stm → Tr
  | .decl x e => letTr (x, e)
  | .guard c e => guardBox (c.tr false) (e.tr false)

/-- The node of the body of a function. -/
def Fn.block (f : Fn) : Tr := box .block (f.stms.map Stm.tr ++ [box .expr [box .ret [f.body.tr false]]])

/-- The nodes of a function. -/
def Fn.tr (f : Fn) : Tr := nd .fn [f.name] (some f.ret.ty) (f.params.map argTr ++ [f.block])

/-! ## Meaning -/

mutual
/-- What is evaluated, where `find` gives the functions that called names stand for. -/
def Ex.expr (find : String → FnIndex) : Ex → Expr
  | .num x => .const (.ofF64 x)
  | .bool b => .const (.ofBool b)
  | .text s => .const (.str s)
  | .var x => .item (.mk x none false false [] [])
  | .call f args => .call (find f) f (exprs find args)
  | .ite c a b => .ite (c.expr find) [a.expr find] [] (some [b.expr find])
  | .neg e => .call (find "neg") "neg" [e.expr find]
  | .pow l r => .call (find "pow") "pow" [l.expr find, r.expr find]
  | .mul op l r | .add op l r | .cmp op l r => .call (find (Syn.callName op)) (Syn.callName op) [l.expr find, r.expr find]
/-- Arguments. -/
def exprs (find : String → FnIndex) : List Ex → List Expr
  | [] => []
  | e :: es => e.expr find :: exprs find es
end

/-- What is evaluated for a declaration. -/
def letExpr (find : String → FnIndex) (q : String × Ex) : Expr :=
  .assign .assign (.item (.mk q.1 none false false [] [])) (q.2.expr find)

/-- What is evaluated for a statement. -/
def Stm.expr (find : String → FnIndex) : Stm → Expr
  | .decl x e => letExpr find (x, e)
  | .guard c e => .ite (c.expr find) [.ret (e.expr find)] [] none

/-- The function that runs. -/
def Fn.func (file : String) (find : String → FnIndex) (f : Fn) : Func :=
  { name := f.name, file := file, args := f.params.map (·.1), lazyInv := [], currents := [], returns := true,
    body := f.stms.map (Stm.expr find) ++ [.ret (f.body.expr find)] }

mutual
theorem expr_looked (find : String → FnIndex) : ∀ e : Ex, (e.expr fun _ => .none).looked find = e.expr find
  | .num x | .bool x | .text x | .var x => by simp [Ex.expr, Expr.looked, lookedItem, lookedIds]
  | .call f args => by simp [Ex.expr, Expr.looked, exprs_looked find args]
  | .ite c a b => by
    simp [Ex.expr, Expr.looked, lookedList, lookedElifs, lookedOptList, expr_looked find c, expr_looked find a, expr_looked find b]
  | .neg e => by simp [Ex.expr, Expr.looked, lookedList, expr_looked find e]
  | .pow l r | .mul _ l r | .add _ l r | .cmp _ l r => by
    simp [Ex.expr, Expr.looked, lookedList, expr_looked find l, expr_looked find r]
theorem exprs_looked (find : String → FnIndex) : ∀ es : List Ex, lookedList find (exprs (fun _ => .none) es) = exprs find es
  | [] => rfl
  | e :: es => by simp [exprs, lookedList, expr_looked find e, exprs_looked find es]
end

section
variable [FloatOps] [Data.Lex]

/-! ## The text means the program -/

theorem isMut_src (e : Ex) : Front.Spec.isMut (e.src false) = false := by
  cases e <;> simp [Ex.src, atomic, compound, one, Front.Spec.isMut]

theorem isMut_srcs : ∀ (es : List Ex), (srcs es).map Front.Spec.isMut = List.replicate es.length false
  | [] => rfl
  | e :: es => by simp [srcs, isMut_src, isMut_srcs es, List.replicate_succ]

theorem nameWith_plain (f : String) (n : Nat) : Front.Spec.nameWith f (List.replicate n false) = f := by
  simp [Front.Spec.nameWith]

mutual
theorem src_expr (file : String) : ∀ (e : Ex) (operand : Bool), Front.Spec.expr file (e.src operand) = some (e.expr fun _ => .none)
  | .num x, w => by
    cases w <;> simp [Ex.src, atomic, one, Front.Spec.expr, Front.Spec.product, Front.Spec.operand, Front.Spec.addRest, Front.Spec.mulRest, Ex.expr]
  | .bool x, w => by
    cases w <;> simp [Ex.src, atomic, one, Front.Spec.expr, Front.Spec.product, Front.Spec.operand, Front.Spec.addRest, Front.Spec.mulRest, Ex.expr]
  | .text x, w => by
    cases w <;> simp [Ex.src, atomic, one, Front.Spec.expr, Front.Spec.product, Front.Spec.operand, Front.Spec.addRest, Front.Spec.mulRest, Ex.expr]
  | .var x, w => by
    cases w <;> simp [Ex.src, atomic, one, Front.Spec.expr, Front.Spec.product, Front.Spec.operand, Front.Spec.addRest, Front.Spec.mulRest, Ex.expr,
      Front.Spec.item, Front.Spec.ids, Front.Spec.tries]
  | .call f args, w => by
    have h := srcs_exprs file args
    cases w <;> simp [Ex.src, atomic, one, Front.Spec.expr, Front.Spec.product, Front.Spec.operand, Front.Spec.addRest, Front.Spec.mulRest, Ex.expr,
      Front.Spec.callee, Front.Spec.inside, Front.Spec.bare, isMut_srcs, nameWith_plain, Front.Spec.app, h]
  | .ite c a b, w => by
    have h1 := src_expr file c false
    have h2 := src_expr file a false
    have h3 := src_expr file b false
    cases w <;> simp [Ex.src, compound, Front.Spec.expr, Ex.expr,
      Front.Spec.exprs, Front.Spec.elseIfs, Front.Spec.otherwise, h1, h2, h3]
  | .neg e, w => by
    have h1 := src_expr file e true
    cases w <;> simp [Ex.src, compound, Front.Spec.expr, Front.Spec.product, Front.Spec.operand, Front.Spec.addRest, Front.Spec.mulRest, Ex.expr,
      Front.Spec.app, h1]
  | .pow l r, w => by
    have h1 := src_expr file l true
    have h2 := src_expr file r true
    cases w <;> simp [Ex.src, compound, Front.Spec.expr, Front.Spec.product, Front.Spec.operand, Front.Spec.addRest, Front.Spec.mulRest, Ex.expr,
      Front.Spec.app, h1, h2]
  | .mul op l r, w => by
    have h1 := src_expr file l true
    have h2 := src_expr file r true
    cases w <;> simp [Ex.src, compound, Front.Spec.expr, Front.Spec.product, Front.Spec.operand, Front.Spec.addRest, Front.Spec.mulRest, Ex.expr,
      Front.Spec.app, h1, h2]
  | .add op l r, w => by
    have h1 := src_expr file l true
    have h2 := src_expr file r true
    cases w <;> simp [Ex.src, compound, Front.Spec.expr, Front.Spec.product, Front.Spec.operand, Front.Spec.addRest, Front.Spec.mulRest, Ex.expr,
      Front.Spec.app, h1, h2]
  | .cmp op l r, w => by
    have h1 := src_expr file l false
    have h2 := src_expr file r false
    cases w <;> simp [Ex.src, compound, Front.Spec.expr, Ex.expr, Front.Spec.app, h1, h2]
theorem srcs_exprs (file : String) : ∀ (es : List Ex), Front.Spec.exprs file (srcs es) = some (exprs (fun _ => .none) es)
  | [] => rfl
  | e :: es => by simp [srcs, Front.Spec.exprs, exprs, src_expr file e false, srcs_exprs file es]
end

theorem upToLast_nil {α} : ∀ {ls : List (List α)}, (∀ l ∈ ls, l = []) → Front.Spec.upToLast ls = []
  | [], _ => rfl
  | a :: r, h => by
    rw [Front.Spec.upToLast, upToLast_nil (fun l hl => h l (by simp [hl])), h a (by simp)]
    simp

theorem body_exprs (file : String) (e : Ex) : ∀ qs : List Stm, Front.Spec.exprs file (qs.map Stm.src ++ [.ret (e.src false)]) =
    some (qs.map (Stm.expr fun _ => .none) ++ [.ret (e.expr fun _ => .none)])
  | [] => by simp [Front.Spec.exprs, Front.Spec.expr, src_expr]
  | .decl x e' :: qs => by
    simp [Front.Spec.exprs, Front.Spec.expr, src_expr, body_exprs file e qs, Stm.src, Stm.expr, letSrc, letExpr, Front.Spec.item, Front.Spec.ids,
      Front.Spec.tries]
  | .guard c e' :: qs => by
    simp [Front.Spec.exprs, Front.Spec.expr, src_expr, body_exprs file e qs, Stm.src, Stm.expr, guardSrc, Front.Spec.elseIfs, Front.Spec.otherwise]

/-- The function that is meant. -/
theorem fn_func (file : String) (f : Fn) : Front.Spec.fn file f.src = some (f.func file fun _ => .none) := by
  have hc : ∀ ps : List (String × Ft), ((ps.map fun p => ({ name := p.1, ty := some p.2.src } : FnArg)).mapM fun a =>
      a.lazy.mapM (Front.Spec.lazy file)) = some (ps.map fun _ => []) := by
    intro ps
    induction ps with
    | nil => rfl
    | cons p ps ih =>
      rw [List.map_cons, List.mapM_cons, ih]
      simp
  have hm : (f.params.map fun p => ({ name := p.1, ty := some p.2.src } : FnArg)).map (·.mutable) =
      List.replicate f.params.length false := by
    rw [List.map_map, List.eq_replicate_iff]
    simp
  have hu : Front.Spec.upToLast (List.replicate f.params.length ([] : List Lazy)) = [] := upToLast_nil (by simp)
  simp only [Front.Spec.fn, Fn.src, hc, hm, nameWith_plain, Front.Spec.body, body_exprs]
  simp [Fn.func, Front.Spec.returns, hu]

omit [FloatOps] [Data.Lex] in
theorem body_looked (find : String → FnIndex) (e : Ex) : ∀ qs : List Stm,
    lookedList find (qs.map (Stm.expr fun _ => .none) ++ [.ret (e.expr fun _ => .none)]) = qs.map (Stm.expr find) ++ [.ret (e.expr find)]
  | [] => by simp [lookedList, Expr.looked, expr_looked]
  | .decl x e' :: qs => by simp [lookedList, Expr.looked, expr_looked, body_looked find e qs, Stm.expr, letExpr, lookedItem, lookedIds]
  | .guard c e' :: qs => by
    simp [lookedList, Expr.looked, expr_looked, body_looked find e qs, Stm.expr, lookedElifs, lookedOptList]

omit [FloatOps] [Data.Lex] in
theorem func_looked (file : String) (find : String → FnIndex) (f : Fn) :
    (f.func file fun _ => .none).looked find = f.func file find := by
  simp [Func.looked, Fn.func, body_looked]

end

end Dyon.Sound.Small
