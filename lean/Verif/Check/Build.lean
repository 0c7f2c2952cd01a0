import Verif.Check.Resolve
import Verif.Front.Convert

/-!
# The nodes of the checker made from the syntax tree, `src/lifetime/node.rs:392-683` and
`src/lifetime/mod.rs:40-189`

Before the checks run, the reports of the parser become nodes, operators become calls, and names
get the `mut` of the arguments.  The code does this on the arena, by pushing nodes and changing
indices; here it is done on trees, and the arena is any arrangement of the tree that
`normalize::fix` may produce (`Arranged`).  (`Verif/Syntax/ChainProps.lean` has the pushing and
changing of indices for sequences of operators, C38.)
-/

namespace Dyon.Check

open Front (L S F B Cst)
open Syn (BinOp)

/-- A node with its children in place of their indices; `parent` and `children` of the node are not
used. `ops` is the field `binops`. -/
inductive Tr where
  | mk (n : Node) (ops : List BinOp) (kids : List Tr)
deriving Inhabited

/-- The node without its children. -/
def Tr.node : Tr → Node
  | .mk n _ _ => n

/-- The children. -/
def Tr.kids : Tr → List Tr
  | .mk _ _ ks => ks

/-- Why no nodes are made: an unknown kind (node.rs:409), a level below one (node.rs:671-674), or a
panic (`unwrap` at node.rs:416, 493-675 and mod.rs:158, 172). -/
inductive BuildErr where
  | unknownKind
  | grabLevel
  | panic
deriving DecidableEq

/-- `Kind::new`, kind.rs:109-218. -/
def kindOf : L → Option Kind
  | .fn => some .fn
  | .arg => some .arg
  | .current => some .current
  | .block => some .block
  | .expr => some .expr
  | .add => some .add
  | .mul => some .mul
  | .pow => some .pow
  | .val => some .val
  | .call => some .call
  | .callArg => some .callArg
  | .namedCall => some .call
  | .assign => some .assign
  | .left => some .left
  | .right => some .right
  | .item => some .item
  | .itemExtra => some .itemExtra
  | .ret => some .ret
  | .object => some .object
  | .array => some .array
  | .arrayItem => some .arrayItem
  | .arrayFill => some .arrayFill
  | .fill => some .fill
  | .n => some .n
  | .keyValue => some .keyValue
  | .for' => some .for
  | .loop => some .loop
  | .forN .forN => some .forN
  | .forN .sum => some .sum
  | .forN .sumVec4 => some .sumVec4
  | .forN .prod => some .prod
  | .forN .prodVec4 => some .prodVec4
  | .forN .min => some .min
  | .forN .max => some .max
  | .forN .sift => some .sift
  | .forN .any => some .any
  | .forN .all => some .all
  | .forN .linkFor => some .linkFor
  | .forIn .forIn => some .forIn
  | .forIn .sum => some .sumIn
  | .forIn .prod => some .prodIn
  | .forIn .min => some .minIn
  | .forIn .max => some .maxIn
  | .forIn .sift => some .siftIn
  | .forIn .any => some .anyIn
  | .forIn .all => some .allIn
  | .forIn .link => some .linkIn
  | .start => some .start
  | .end' => some .end'
  | .vec4UnLoop => some .vec4UnLoop
  | .init => some .init
  | .cond => some .cond
  | .iter => some .iter
  | .elseIfCond => some .elseIfCond
  | .elseIfBlock => some .elseIfBlock
  | .step => some .step
  | .compare => some .compare
  | .if' => some .if'
  | .trueBlock => some .trueBlock
  | .elseBlock => some .elseBlock
  | .id => some .id
  | .brk => some .brk
  | .cont => some .cont
  | .norm => some .norm
  | .not => some .not
  | .neg => some .neg
  | .vec4 => some .vec4
  | .x => some .x
  | .y => some .y
  | .z => some .z
  | .w => some .w
  | .mat4 => some .mat4
  | .ex => some .ex
  | .ey => some .ey
  | .ez => some .ez
  | .ew => some .ew
  | .type => some .type
  | .retType => some .retType
  | .arr => some .arr
  | .opt => some .opt
  | .res => some .res
  | .thr => none
  | .adHocTy => none
  | .closureType => some .closureType
  | .clArg => some .clArg
  | .clRet => some .clRet
  | .go => some .go
  | .swizzle => some .swizzle
  | .sw0 => some .sw0
  | .sw1 => some .sw1
  | .sw2 => some .sw2
  | .sw3 => some .sw3
  | .link => some .link
  | .linkItem => some .linkItem
  | .closure => some .closure
  | .callClosure => some .callClosure
  | .namedCallClosure => some .callClosure
  | .grab => some .grab
  | .tryExpr => some .tryExpr
  | .in' => some .in'
  | .ty => some .ty
  | .tyArg => some .tyArg
  | .tyRet => some .tyRet

/-- The type a node starts with, node.rs:423-455. -/
def startTy : Kind → Option Ty
  | .array | .arrayFill => some (.array .any)
  | .vec4 | .vec4UnLoop | .ex | .ey | .ez | .ew => some .vec4
  | .mat4 => some .mat4
  | .in' => some (.inTy (.array .any))
  | .object => some .object
  | .sift | .siftIn => some (.array .any)
  | .sum | .sumIn | .prod | .prodIn => some .f64
  | .swizzle => some .f64
  | .link | .linkFor => some .link
  | .any | .anyIn | .all | .allIn => some (.secret .bool)
  | .min | .minIn | .max | .maxIn => some (.secret .f64)
  | .for | .forN => some .void
  | _ => none

/-- A string inside a node, node.rs:490-534. -/
def addStr (n : Node) : S → String → Node
  | .alias, s => { n with «alias» := some s }
  | .name, s => { n with names := n.names ++ [s] }
  | .word, s => match n.names with
    | [] => { n with names := [if n.kind = .callClosure then s else s.push '_'] }
    | w :: ws => { n with names := (w.push '_' ++ s) :: ws }
  | .lifetime, s => { n with lifetime := some s }
  | .text, _ => { n with ty := some .str }
  | .color, _ => { n with ty := some .vec4 }
  | .tyVar, s => { n with names := n.names ++ [s] }
  | _, _ => n

/-- A truth value inside a node, apart from operators, node.rs:537-596. -/
def addBool (n : Node) : B → Bool → Node
  | .asg o, _ => { n with op := some o }
  | .mut, v => { n with mutable := v }
  | .try', v | .tryItem, v => { n with tryFlag := v }
  | .bool, _ => { n with ty := some .bool }
  | .returns, v => { n with ty := some (if v then .any else .void) }
  | .returnVoid, _ => { n with kind := .returnVoid }
  | _, _ => n

/-- An operator inside a node, node.rs:597-660. -/
def addOp : B → List BinOp
  | .dot => [.dot]
  | .x => [.cross]
  | .times => [.mul]
  | .div => [.div]
  | .rem => [.rem]
  | .pow => [.pow]
  | .andAlso => [.andAlso]
  | .plus => [.add]
  | .minus => [.sub]
  | .orElse => [.orElse]
  | .less => [.less]
  | .lessOrEqual => [.lessOrEqual]
  | .greater => [.greater]
  | .greaterOrEqual => [.greaterOrEqual]
  | .equal => [.equal]
  | .notEqual => [.notEqual]
  | _ => []

/-- A number inside a node, node.rs:664-680. -/
def addNum (n : Node) : F → F64 → Except BuildErr Node
  | .num, _ => .ok { n with ty := some .f64 }
  | .grabLevel, x =>
    if F64.lt x F64.one then .error .grabLevel else .ok { n with grabLevel := Front.toU16 x }
  | _, _ => .ok n

section
variable [FloatOps] [Data.Lex]

/-- `Type::from_meta_data` on the parts of a node, node.rs:414-415, 444-445. -/
def tyOf (kids : List Cst) : Option Ty :=
  match Front.convs "" kids with
  | .ok ps => match Front.readTy none ps with
    | .ok t => some t
    | .error _ => none
  | .error _ => none

mutual
/-- One report, node.rs:399-681: what it adds to the node that is open.  The loop over the list of
reports, with the indices of the open nodes in `parents`, is written as a recursion over the tree
that the list is; `skip` is not going into the tree of a type. -/
def addPart : Node × List BinOp × List Tr → Cst → Except BuildErr (Node × List BinOp × List Tr)
  | (n, ops, ks), .str l s => .ok (addStr n l s, ops, ks)
  | (n, ops, ks), .num l x => do .ok (← addNum n l x, ops, ks)
  | (n, ops, ks), .bool l b => .ok (addBool n l b, ops ++ addOp l, ks)
  | (n, ops, ks), .node l kids => match kindOf l with
    | none => .error .unknownKind
    | some k =>
      match (if k = .type ∨ k = .retType then tyOf kids else none) with
      | some t => .ok ({ n with ty := some t }, ops, ks)
      | none => match (if k = .tyArg ∨ k = .tyRet then tyOf kids else none) with
        | some t => .ok (n, ops, ks ++ [.mk { kind := k, ty := some t } [] []])
        | none => do
          let (n', ops', ks') ← addParts ({ kind := k, ty := startTy k }, [], []) kids
          .ok (n, ops, ks ++ [.mk n' ops' ks'])
/-- The reports of a node in order. -/
def addParts : Node × List BinOp × List Tr → List Cst → Except BuildErr (Node × List BinOp × List Tr)
  | o, [] => .ok o
  | o, t :: ts => do addParts (← addPart o t) ts
end

/-- `convert_meta_data`, node.rs:392-683: a file is a list of nodes.  A string, number, truth value
or type outside of nodes is a panic (`parents.last().unwrap()`). -/
def rawFile : List Cst → Except BuildErr (List Tr)
  | [] => .ok []
  | .node l kids :: r => do
    let (_, _, ks) ← addPart (default, [], []) (.node l kids)
    if ks.isEmpty then .error .panic else .ok (ks ++ (← rawFile r))
  | _ :: _ => .error .panic

end

/-! ## Operators become calls -/

/-- The nodes pushed for the operators after the first, lifetime/mod.rs:50-82: each has the
sequence before it as left child. -/
def nestRest (k : Kind) : Tr → List BinOp → List Tr → Tr
  | acc, b :: bs, r :: rs => nestRest k (.mk { kind := k } [b] [acc, r]) bs rs
  | acc, _, _ => acc

/-- One round of the loop of lifetime/mod.rs:43-101: the node itself keeps the first operator and two
children.  Between the children there is one operator each (grammar). -/
def nestNode (n : Node) : List BinOp → List Tr → Tr
  | b :: b' :: bs, l :: r :: rs => nestRest n.kind (.mk n [b] [l, r]) (b' :: bs) rs
  | ops, kids => .mk n ops kids

mutual
/-- The loop of lifetime/mod.rs:43-101. -/
def Tr.nest : Tr → Tr
  | .mk n ops kids => nestNode n ops (nests kids)
/-- The loop of lifetime/mod.rs:43-101, on children. -/
def nests : List Tr → List Tr
  | [] => []
  | t :: ts => t.nest :: nests ts
end

/-- `nodes[ch].kind = Kind::CallArg`, node.rs:62-63. -/
def Tr.asArg : Tr → Tr
  | .mk n ops kids => .mk { n with kind := .callArg } ops kids

/-- The function that a unary operator calls, lifetime/mod.rs:106-111. -/
def unName : Kind → Option String
  | .norm => some "norm"
  | .not => some "not"
  | .neg => some "neg"
  | _ => none

/-- `Node::rewrite_unop`, node.rs:59-64, `Node::rewrite_binop`, node.rs:66-121, and
`Node::simplify`, node.rs:123-141, as used by one round of the loop of lifetime/mod.rs:104-145.  (The
code goes through the nodes from parents to children; the kind of the child of a unary operator,
which is `expr` by the grammar, is the only thing that a round changes and another one reads.) -/
def callNode (n : Node) (ops : List BinOp) : List Tr → Tr
  | [k] => match unName n.kind with
    | some f => .mk { n with kind := .call, names := n.names ++ [f] } ops [k.asArg]
    | none => if n.kind = .add ∨ n.kind = .mul then k else .mk n ops [k]
  | [l, r] => match ops with
    | [b] => .mk { n with kind := .call, names := n.names ++ [Syn.checkName b] } []
        [.mk { kind := .callArg } [] [l], .mk { kind := .callArg } [] [r]]
    | _ => .mk n ops [l, r]
  | kids => .mk n ops kids

mutual
/-- The loop of lifetime/mod.rs:104-145. -/
def Tr.calls : Tr → Tr
  | .mk n ops kids => callNode n ops (callsAll kids)
/-- The loop of lifetime/mod.rs:104-145, on children. -/
def callsAll : List Tr → List Tr
  | [] => []
  | t :: ts => t.calls :: callsAll ts
end

/-! ## Names with `mut` -/

/-- Whether a node is an argument, lifetime/mod.rs:169, 178. -/
def Tr.isArg (t : Tr) : Bool := t.node.kind = .arg || t.node.kind = .callArg

/-- The loop over the arguments, lifetime/mod.rs:174-185. -/
def mutList : Bool → List Bool → String → String
  | _, [], s => s
  | first, m :: ms, s => mutList false ms ((if first then s else s.push ',') ++ if m then "mut" else "_")

/-- The name with the arguments that are `mut`, lifetime/mod.rs:168-188. -/
def mutNode (n : Node) (kids : List Tr) : Except BuildErr Node :=
  if kids.any fun k => k.isArg && k.node.mutable then
    match n.name with
    | none => .error .panic
    | some name => .ok { n with names := [
        (mutList true ((kids.filter Tr.isArg).map (·.node.mutable)) (name.push '(')).push ')'] }
  else .ok n

/-- The first child that is an item gets `__` and the words behind its name, if it has no
properties, lifetime/mod.rs:157-163.  `none` if there is no item. -/
def wordItem (word : String) : List Tr → Option (List Tr)
  | [] => none
  | .mk n ops kids :: ts =>
    if n.kind = .item then
      some (.mk (if kids.isEmpty then { n with names := match n.names with
        | [] => []
        | x :: xs => (x ++ "__" ++ word) :: xs } else n) ops kids :: ts)
    else (wordItem word ts).map (.mk n ops kids :: ·)

/-- One round of the loop of lifetime/mod.rs:150-189. -/
def nameNode (n : Node) (ops : List BinOp) (kids : List Tr) : Except BuildErr Tr :=
  if n.kind = .fn ∨ n.kind = .call then do .ok (.mk (← mutNode n kids) ops kids)
  else if n.kind = .callClosure then do
    let kids ← match n.name with
      | none => .ok kids
      | some word => match wordItem word kids with
        | none => .error .panic
        | some kids => .ok kids
    .ok (.mk (← mutNode n kids) ops kids)
  else .ok (.mk n ops kids)

mutual
/-- The loop of lifetime/mod.rs:150-189. -/
def Tr.named : Tr → Except BuildErr Tr
  | .mk n ops kids => do nameNode n ops (← namedAll kids)
/-- The loop of lifetime/mod.rs:150-189, on children. -/
def namedAll : List Tr → Except BuildErr (List Tr)
  | [] => .ok []
  | t :: ts => do .ok ((← t.named) :: (← namedAll ts))
end

/-- The nodes of a file when the checks start, lifetime/mod.rs:40-189. -/
def built [FloatOps] [Data.Lex] (cs : List Cst) : Except BuildErr (List Tr) := do
  namedAll (callsAll (nests (← rawFile cs)))

/-! ## The arena -/

mutual
/-- The node with index `i` and parent `p` is the root of a tree.  As `normalize::fix` promises
(normalize.rs:3-7), no child is stored before its parent and children are sorted. -/
inductive Laid (ns : Nodes) : Option Nat → Nat → Tr → Prop
  | mk {p i n ops kids cs} : ns.at i = { n with parent := p, children := cs } →
      LaidAll ns i cs kids → Laid ns p i (.mk n ops kids)
/-- The nodes with these indices and the parent `p` are the roots of trees. -/
inductive LaidAll (ns : Nodes) : Nat → List Nat → List Tr → Prop
  | nil {p} : LaidAll ns p [] []
  | cons {p c cs t ts} : p < c → (∀ c' ∈ cs, c < c') → Laid ns (some p) c t → LaidAll ns p cs ts →
      LaidAll ns p (c :: cs) (t :: ts)
end

/-- The roots of a file, in the order of the file. -/
inductive Roots (ns : Nodes) : List Nat → List Tr → Prop
  | nil : Roots ns [] []
  | cons {i is t ts} : (∀ i' ∈ is, i < i') → Laid ns none i t → Roots ns is ts → Roots ns (i :: is) (t :: ts)

/-- The node is a root or below a root. -/
inductive Below (ns : Nodes) (roots : List Nat) : Nat → Prop
  | root {i} : i ∈ roots → Below ns roots i
  | child {p c} : Below ns roots p → c ∈ (ns.at p).children → Below ns roots c

/-- A node that `Node::simplify` leaves behind, node.rs:123-141: an `add` or `mul` without parent and
children. -/
structure Dropped (n : Node) : Prop where
  kind : n.kind = .add ∨ n.kind = .mul
  parent : n.parent = none
  children : n.children = []
  op : n.op = none
  declaration : n.declaration = none

/-- The arena is an arrangement of the trees.  It may hold other nodes, which
`Node::simplify` leaves behind. -/
structure Arranged (ns : Nodes) (ts : List Tr) : Prop where
  roots : ∃ is, Roots ns is ts ∧ ∀ i < ns.length, Below ns is i ∨ Dropped (ns.at i)
  back : ∀ p c, c ∈ (ns.at p).children → (ns.at c).parent = some p
  parent : ∀ c p, (ns.at c).parent = some p → p < c ∧ c ∈ (ns.at p).children

end Dyon.Check
