import Verif.Eval.Ast
import Verif.Module.Model

/-!
# Nodes of the checker, `src/lifetime/node.rs` and `src/lifetime/kind.rs`

The checker works on an arena of nodes that point to their parent and children.  Left out:
the ranges in the source (errors carry the index of the node instead) and the binary operators,
which are calls when the checks modelled here run (`Verif/Syntax/Chain.lean`).  An index outside
the arena reads the default node; `convert_meta_data` and the rewrites only make indices inside.
-/

namespace Dyon.Check

/-- `enum Kind`, kind.rs:2-106. -/
inductive Kind where
  | ns | uses | use | fn | arg | current | block | expr | add | mul | pow | val | call | callArg
  | assign | left | right | item | itemExtra | ret | object | array | arrayItem | arrayFill | fill
  | n | keyValue | for | forN | forIn | sum | sumIn | sumVec4 | prod | prodIn | prodVec4 | min
  | minIn | max | maxIn | sift | siftIn | any | anyIn | all | allIn | vec4UnLoop | start | end'
  | init | cond | iter | elseIfCond | elseIfBlock | step | compare | if' | trueBlock | elseBlock
  | loop | id | brk | cont | norm | not | neg | vec4 | x | y | z | w | mat4 | ex | ey | ez | ew
  | type | arr | opt | res | retType | returnVoid | go | swizzle | sw0 | sw1 | sw2 | sw3 | link
  | linkFor | linkIn | linkItem | closure | callClosure | closureType | clArg | clRet | grab
  | tryExpr | in' | ty | tyArg | tyRet
deriving DecidableEq, Repr, Inhabited

/-- `Kind::is_decl_loop`, kind.rs:220-228. -/
def Kind.isDeclLoop : Kind → Bool
  | .forN | .sum | .prod | .sumVec4 | .prodVec4 | .min | .max | .sift | .any | .all | .linkFor => true
  | _ => false

/-- `Kind::is_in_loop`, kind.rs:230-238. -/
def Kind.isInLoop : Kind → Bool
  | .forIn | .sumIn | .prodIn | .minIn | .maxIn | .anyIn | .allIn | .siftIn | .linkIn => true
  | _ => false

/-- `Kind::is_decl_un_loop`, kind.rs:240-243. -/
def Kind.isDeclUnLoop : Kind → Bool
  | .vec4UnLoop => true
  | _ => false

/-- `Kind::is_block`, kind.rs:245-249. -/
def Kind.isBlock : Kind → Bool
  | .block | .elseIfBlock | .trueBlock | .elseBlock => true
  | _ => false

/-- `struct Node`, node.rs:12-48. -/
structure Node where
  kind : Kind
  «alias» : Option String := none
  names : List String := []
  ty : Option Ty := none
  mutable : Bool := false
  tryFlag : Bool := false
  grabLevel : Nat := 0
  parent : Option Nat := none
  children : List Nat := []
  lifetime : Option String := none
  declaration : Option Nat := none
  op : Option AssignOp := none
  lts : List Mod.Lt := []
deriving Inhabited

/-- `Node::name`, node.rs:51-57. -/
def Node.name (n : Node) : Option String := n.names.head?

/-- `Node::item_ids`, node.rs:172-174. -/
def Node.itemIds (n : Node) : Bool := n.kind = .item && !n.children.isEmpty

/-- The arena. -/
abbrev Nodes := List Node

/-- `nodes[i]`. -/
def Nodes.at (ns : Nodes) (i : Nat) : Node := ns.getD i default

/-- `Node::find_child_by_kind`, node.rs:163-170. -/
def Nodes.child (ns : Nodes) (i : Nat) (k : Kind) : Option Nat :=
  (ns.at i).children.find? fun c => (ns.at c).kind = k

/-- Every parent is stored before its children, normalize.rs:3-7 (what `tree_mem_sort` is for). -/
def Nodes.Normal (ns : Nodes) : Prop := ∀ i p, (ns.at i).parent = some p → p < i

end Dyon.Check
