import Verif.Eval.Ast

/-!
# C38: chains of operators

Models `BinOpSeq::into_expression` of `src/ast/mod.rs` (what is executed) and the
rewriting of operator nodes in `check_core`, `src/lifetime/mod.rs` (what is checked).
-/

namespace Dyon.Syn

/-- `enum BinOp`, ast/mod.rs:2177-2210. -/
inductive BinOp where
  | add | sub | mul | dot | cross | div | rem | pow | orElse | andAlso
  | less | lessOrEqual | greater | greaterOrEqual | equal | notEqual
deriving DecidableEq, Repr

/-! ## The executed program -/

/-- The function an operator calls, ast/mod.rs:3205-3222 with the names of lib.rs:55-71. -/
def callName : BinOp → String
  | .add => "add"
  | .sub => "sub"
  | .mul => "mul"
  | .div => "div"
  | .rem => "rem"
  | .pow => "pow"
  | .dot => "dot"
  | .cross => "cross"
  | .andAlso => "and_also"
  | .orElse => "or_else"
  | .less => "less"
  | .lessOrEqual => "less_or_equal"
  | .greater => "greater"
  | .greaterOrEqual => "greater_or_equal"
  | .equal => "equal"
  | .notEqual => "not_equal"

/-- `BinOpExpression::into_expression`, ast/mod.rs:3196-3226. -/
def binCall (op : BinOp) (left right : Expr) : Expr := .call .none (callName op) [left, right]

/-- `BinOpSeq::into_expression`, ast/mod.rs:2157-2173, on the reversed lists (`pop` takes
the last element). `none` is a panic. -/
def seqRev : List Expr → List BinOp → Option Expr
  | [e], _ => some e
  | last :: items, op :: ops => (seqRev items ops).map fun l => binCall op l last
  | _, _ => none

/-- `BinOpSeq::into_expression`, ast/mod.rs:2157-2173. -/
def intoExpression (items : List Expr) (ops : List BinOp) : Option Expr := seqRev items.reverse ops.reverse

/-! ## The checked program -/

/-- A node of the checker, lifetime/node.rs:8-49: the fields the rewriting reads and
writes. -/
structure CNode where
  kind : String
  names : List String
  binops : List BinOp
  parent : Option Nat
  children : List Nat

/-- `nodes[i].parent = p`. -/
def setParent (i : Nat) (p : Option Nat) (nodes : List CNode) : List CNode :=
  nodes.modify i fun n => { n with parent := p }

/-- The loop of lifetime/mod.rs:50-82 over `n` from `q + 1` down to 2: pushes one node
per operator. Result: the nodes and `parent`. -/
def pushNest (i : Nat) (kind : String) (cs : List Nat) (bs : List BinOp) :
    Nat → Option Nat → List CNode → Option (List CNode × Option Nat)
  | 0, parent, nodes => some (nodes, parent)
  | q + 1, parent, nodes => do
    let id := nodes.length
    let right ← cs[q + 2]?
    let b ← bs[q + 1]?
    let nodes := setParent right (some id) nodes
    let nodes := nodes ++ [{
      kind := kind
      names := []
      binops := [b]
      parent := parent
      children := [if q = 0 then i else id + 1, right] }]
    pushNest i kind cs bs q (some id) nodes

/-- The search of lifetime/mod.rs:91-96: the first child `i` becomes `new`. -/
def replaceFirst (i new : Nat) : List Nat → List Nat
  | [] => []
  | c :: cs => if c = i then new :: cs else c :: replaceFirst i new cs

/-- One round of the first loop of `check_core`, lifetime/mod.rs:43-101. -/
def nestChain (nodes : List CNode) (i : Nat) : Option (List CNode) := do
  let nd ← nodes[i]?
  if nd.binops.length ≤ 1 then return nodes
  let newChild := nodes.length
  let (nodes, parent) ← pushNest i nd.kind nd.children nd.binops (nd.children.length - 2) nd.parent nodes
  let nodes := nodes.modify i fun n => { n with children := n.children.take 2, binops := n.binops.take 1 }
  let nodes := match nd.parent with
    | some old => nodes.modify old fun n => { n with children := replaceFirst i newChild n.children }
    | none => nodes
  return setParent i parent nodes

/-- The first loop of `check_core`, lifetime/mod.rs:43-101. -/
def nestChains (nodes : List CNode) : Option (List CNode) :=
  (List.range nodes.length).foldlM nestChain nodes

/-- The function an operator is checked as, lifetime/mod.rs:117-134. -/
def checkName : BinOp → String
  | .add => "add"
  | .sub => "sub"
  | .mul => "mul"
  | .div => "div"
  | .rem => "rem"
  | .pow => "pow"
  | .dot => "dot"
  | .cross => "cross"
  | .andAlso => "and_also"
  | .orElse => "or_else"
  | .less => "less"
  | .lessOrEqual => "less_or_equal"
  | .greater => "greater"
  | .greaterOrEqual => "greater_or_equal"
  | .equal => "equal"
  | .notEqual => "not_equal"

/-- `Node::rewrite_binop`, lifetime/node.rs:66-121. -/
def rewriteBinop (i : Nat) (name : String) (oldLeft oldRight : Nat) (nodes : List CNode) : List CNode :=
  let nodes := nodes.modify i fun n => { n with kind := "call", names := n.names ++ [name], binops := [] }
  let left := nodes.length
  let right := left + 1
  let nodes := nodes ++ [⟨"call_arg", [], [], some i, [oldLeft]⟩, ⟨"call_arg", [], [], some i, [oldRight]⟩]
  let nodes := setParent oldRight (some right) (setParent oldLeft (some left) nodes)
  nodes.modify i fun n => { n with children := [left, right] }

/-- One round of the second loop of `check_core`, lifetime/mod.rs:104-136, as far as binary
operators are concerned. -/
def callChain (nodes : List CNode) (i : Nat) : List CNode :=
  match nodes[i]? with
  | some ⟨_, _, [b], _, [l, r]⟩ => rewriteBinop i (checkName b) l r nodes
  | _ => nodes

/-- The second loop of `check_core`, lifetime/mod.rs:104-145, as far as binary operators are
concerned: unary operators and the removal of `add` and `mul` nodes with one child
(`Node::simplify`) are not modelled. -/
def callChains (nodes : List CNode) : List CNode := (List.range nodes.length).foldl callChain nodes

end Dyon.Syn
