import Verif.Check.Calls
import Verif.Lifetime.Model

/-!
# The lifetime checks, `src/lifetime/mod.rs:744-1091`, and `Node::lifetime`

`compare_lifetimes` and the walk along the annotations of arguments are modelled in
`Verif/Lifetime/Model.lean`.
-/

namespace Dyon.Check

/-- Outcome of computing a lifetime. -/
inductive LtOut where
  | done (r : Lt.LtRes)
  | crash
  /-- the computation does not end -/
  | endless
deriving DecidableEq

/-- Names and annotations of the arguments of a function: `arg_names` only has the arguments of
functions, not those of closures, lifetime/mod.rs:745-757. -/
def Nodes.sig (ns : Nodes) (f : Nat) : List Lt.Arg :=
  if (ns.at f).kind = .fn then
    (ns.args f).map fun a => ⟨(ns.at a).name.getD "", (ns.at a).lifetime⟩
  else []

/-- `arg_lifetime`, lt.rs:73-107.  The walk visits an argument at most once unless it goes round
in a cycle, so more steps than arguments means that it does not end. -/
def Nodes.argLifetime (ns : Nodes) (a : Nat) : LtOut :=
  match (ns.at a).lifetime with
  | none => .done (.ok (.arg [a]))
  | some lt =>
    if lt == "return" then .done (.ok (.ret [a]))
    else match (ns.at a).parent with
    | none => .crash
    | some f =>
      let id := fun i => (ns.args f).getD i 0
      match Lt.walk (ns.sig f) ((ns.sig f).length + 1) lt [] with
      | .done (.ret l) => .done (.ok (.ret (a :: l.map id)))
      | .done (.arg l) => .done (.ok (.arg (a :: l.map id)))
      | .done _ => .crash
      | .crash => .crash
      | .running => .endless

/-- `Node::has_lifetime`, node.rs:188-199. -/
def Node.hasLifetime (n : Node) : Bool :=
  match n.kind with
  | .pow | .sum | .sumIn | .prod | .prodIn | .sumVec4 | .min | .minIn | .max | .maxIn | .any | .anyIn
  | .all | .allIn | .linkIn | .vec4 | .mat4 | .vec4UnLoop | .swizzle | .assign | .for | .forN | .forIn
  | .link | .linkFor | .closure | .callClosure | .grab | .tryExpr | .norm | .in' => false
  | .add | .mul | .compare => n.children.length == 1
  | _ => true

/-- Where the annotation of an argument of a host function leads to. -/
inductive Leads where
  | toReturn | nowhere | crash | endless
deriving DecidableEq

/-- The inner loop of node.rs:225-242, with a limit of steps. -/
def leadsTo (lts : List Mod.Lt) : Nat → Mod.Lt → Leads
  | 0, _ => .endless
  | _ + 1, .default => .nowhere
  | _ + 1, .ret => .toReturn
  | n + 1, .arg x => match lts[x]? with
    | some lt => leadsTo lts n lt
    | none => .crash

/-- The loop `'args` of node.rs:222-246: whether an argument may be part of the result. -/
def returnsArg (lts : List Mod.Lt) : List Mod.Lt → Leads
  | [] => .nowhere
  | lt :: rest => match leadsTo lts (lts.length + 1) lt with
    | .nowhere => returnsArg lts rest
    | r => r

/-- What the match of node.rs:258-375 does with a child. -/
inductive Rule where
  | take | skip | callArg | unimplemented
deriving DecidableEq

/-- The match of node.rs:258-375. -/
def rule (parent child : Kind) : Rule :=
  match child with
  | .iter | .start | .end' | .arg | .current | .compare | .cond | .elseIfCond | .n => .skip
  | .item => if parent = .callClosure then .skip else .take
  | .callArg => if parent = .call ∨ parent = .callClosure ∨ parent = .callArg then .callArg
    else .unimplemented
  | .link | .linkFor | .linkIn | .linkItem | .returnVoid | .swizzle | .loop | .go | .for | .forN | .forIn
  | .brk | .cont | .sift | .siftIn | .sumVec4 | .sum | .sumIn | .prod | .prodIn | .prodVec4 | .min | .minIn
  | .max | .maxIn | .any | .anyIn | .all | .allIn | .vec4UnLoop | .vec4 | .mat4 | .assign | .object
  | .keyValue | .val | .add | .mul | .call | .in' | .closure | .callClosure | .grab | .tryExpr | .norm
  | .left | .right | .expr | .ret | .array | .arrayItem | .arrayFill | .pow | .block | .if' | .trueBlock
  | .elseIfBlock | .elseBlock | .fill => .take
  | _ => .unimplemented

/-- Whether the argument number `k` of a call to the function `decl` may be part of the result,
node.rs:346-369. -/
def Nodes.partOfResult (ns : Nodes) (decl : Option Nat) (k : Nat) : Except LtOut Bool :=
  match decl with
  | none => .ok true
  | some d => match (ns.args d)[k]? with
    | none => .ok true
    | some a => match ns.argLifetime a with
      | .done (.ok (.ret _)) => .ok true
      | .done _ => .ok false
      | r => .error r

/-- `min` after another lifetime, node.rs:381-386; `none`: "failed to unify". -/
def longer (min : Option Lt.Lifetime) (l : Lt.Lifetime) : Option Lt.Lifetime :=
  match min with
  | none => some l
  | some m => match Lt.partialCmp m l with
    | some .lt => some l
    | none => none
    | some _ => some m

/-- The loop over the children, node.rs:254-388. `k` is `call_arg_ind`. -/
def Nodes.unite (ns : Nodes) (life : Nat → LtOut) (n : Node) :
    Option Lt.Lifetime → Nat → List Nat → LtOut
  | min, _, [] => .done (match min with | some l => .ok l | none => .err .none)
  | min, k, c :: cs =>
    let take (k : Nat) : LtOut :=
      match life c with
      | .done (.ok l) => match longer min l with
        | some m => ns.unite life n (some m) k cs
        | none => .done (.err .failedToUnify)
      | .done (.err .none) => ns.unite life n min k cs
      | r => r
    match rule n.kind (ns.at c).kind with
    | .skip => ns.unite life n min k cs
    | .unimplemented => .crash
    | .take => take k
    | .callArg => match ns.partOfResult n.declaration k with
      | .ok true => take (k + 1)
      | .ok false => ns.unite life n min (k + 1) cs
      | .error r => r

/-- `Node::lifetime`, node.rs:201-389.  A child that is not stored after its parent (a cycle) is
taken as a crash; normalised arenas have none. -/
def Nodes.lifetime (ns : Nodes) (i : Nat) : LtOut :=
  let n := ns.at i
  let parts := ns.unite (fun c => if i < c ∧ c < ns.length then ns.lifetime c else .crash) n none 0 n.children
  if !n.hasLifetime then .done (.err .none)
  else if n.kind = .item then
    match n.declaration with
    | some d => match (ns.at d).kind with
      | .arg => ns.argLifetime d
      | .current => .done (.ok (.cur d))
      | _ => .done (.ok (.loc d))
    | none => if n.name = some "return" then .done (.ok (.ret [])) else parts
  else if n.kind = .call ∧ n.declaration = none ∧ n.lts ≠ [] then
    match returnsArg n.lts n.lts with
    | .toReturn => parts
    | .nowhere => .done (.err .none)
    | .crash => .crash
    | .endless => .endless
  else parts
termination_by ns.length - i

/-! ## The checks -/

/-- Outcome of a check: accepted, an error at a node, a crash, or no end. -/
inductive Outcome where
  | accept
  | reject (node : Nat) (msg : String)
  | crash
  | endless
deriving DecidableEq

/-- The outcome of one check and then others. -/
def Outcome.and (a : Outcome) (b : Outcome) : Outcome :=
  match a with
  | .accept => b
  | a => a

/-- The same check for all elements of a list, up to the first error. -/
def checkAll {α : Type} (f : α → Outcome) : List α → Outcome
  | [] => .accept
  | x :: xs => (f x).and (checkAll f xs)

/-- What `compare_lifetimes` reads of the nodes. -/
def Nodes.info (ns : Nodes) : List Lt.NodeInfo := ns.map fun n => ⟨n.name, n.parent⟩

/-- `compare_lifetimes` with the error reported at the node `i`. -/
def Nodes.compare (ns : Nodes) (i : Nat) (l r : LtOut) : Outcome :=
  match l, r with
  | .crash, _ => .crash
  | .endless, _ => .endless
  | _, .crash => .crash
  | _, .endless => .endless
  | .done l, .done r => match Lt.compareLifetimes ns.info l r with
    | .accept => .accept
    | .reject m => .reject i m
    | .crash => .crash

/-- The assignments with an item on the left: the assignment, the item and the right side,
lifetime/mod.rs:272-329. An assignment without left or right side, which the grammar does not have,
is left out. -/
def Nodes.assigns (ns : Nodes) (op : AssignOp → Bool) : List (Nat × Nat × Nat) :=
  (List.range ns.length).filterMap fun a => do
    let o ← (ns.at a).op
    if op o then
      let l ← (ns.at a).children[0]?
      let it ← (ns.at l).children[0]?
      let r ← (ns.at a).children[1]?
      some (a, it, r)
    else none

/-- "Check the lifetime of mutated locals", lifetime/mod.rs:819-830. -/
def Nodes.checkMutated (ns : Nodes) : Outcome :=
  checkAll (fun (_, it, r) => ns.compare r (ns.lifetime it) (ns.lifetime r)) (ns.assigns (· = .set))

/-- "Check the lifetime of declared locals" and "of assigned locals", lifetime/mod.rs:832-850. -/
def Nodes.checkDeclared (ns : Nodes) : Outcome :=
  (checkAll (fun (_, it, r) => ns.compare r (.done (.ok (.loc it))) (ns.lifetime r))
    ((ns.assigns (· = .assign)).filter fun (_, it, _) => !(ns.at it).itemIds)).and
  (checkAll (fun (_, it, r) => match (ns.at it).declaration with
      | some d => ns.compare r (.done (.ok (.loc d))) (ns.lifetime r)
      | none => .accept)
    ((ns.assigns (· = .assign)).filter fun (_, it, _) => (ns.at it).itemIds))

/-- "Check the lifetime of returned values", lifetime/mod.rs:852-858. -/
def Nodes.checkReturns (ns : Nodes) : Outcome :=
  checkAll (fun i => match (ns.at i).children.head? with
      | some r => ns.compare r (.done (.ok (.ret []))) (ns.lifetime r)
      | none => .crash)
    ((List.range ns.length).filter fun i => (ns.at i).kind = .ret)

/-- Whether the node is the expression of a function `f(..) = expr`, `math_expr`,
lifetime/mod.rs:228-244. -/
def Nodes.isMathExpr (ns : Nodes) (i : Nat) : Bool :=
  (ns.at i).kind = .expr &&
    match (ns.at i).parent with
    | some p => (ns.at p).kind = .fn || (ns.at p).kind = .closure
    | none => true

/-- "Check the lifetime of expressions that are mathematically declared",
lifetime/mod.rs:860-865. -/
def Nodes.checkMath (ns : Nodes) : Outcome :=
  checkAll (fun i => ns.compare i (.done (.ok (.ret []))) (ns.lifetime i))
    ((List.range ns.length).filter ns.isMathExpr)

/-- "Check that no function argument has lifetime `'return` while the function does not return
anything", lifetime/mod.rs:867-887. -/
def Nodes.checkVoid (ns : Nodes) : Outcome :=
  checkAll (fun f => match (ns.at f).ty with
      | some .void => checkAll (fun a =>
          if (ns.at a).lifetime = some "return" then .reject a "but function does not return" else .accept)
          (ns.args f)
      | _ => .accept)
    ns.functions

/-- `end_of_blocks`, lifetime/mod.rs:246-270: the last expression of a block. -/
def Nodes.endOfBlock (ns : Nodes) (i : Nat) : Option Nat :=
  match (ns.at i).parent with
  | none => none
  | some p =>
    if (match (ns.at i).kind, (ns.at i).children with
      | .expr, [c] => !(ns.at c).hasLifetime
      | _, _ => false) then none
    else if (ns.at p).kind.isBlock && (ns.at p).children.getLast? == some i then some p
    else none

/-- "Check the lifetime of expressions at end of blocks", lifetime/mod.rs:889-897. -/
def Nodes.checkBlocks (ns : Nodes) : Outcome :=
  checkAll (fun i => match ns.endOfBlock i with
      | some p => ns.compare i (.done (.ok (.loc p))) (ns.lifetime i)
      | none => .accept)
    (List.range ns.length)

/-- "Check that calls do not have arguments with shorter lifetime than the call",
lifetime/mod.rs:899-913. -/
def Nodes.checkCallArgs (ns : Nodes) : Outcome :=
  checkAll (fun c => checkAll (fun a => ns.compare a (.done (.ok (.loc c))) (ns.lifetime a)) (ns.callArgs c))
    ns.calls

/-- "Check that `go` functions does not have lifetime constraints", lifetime/mod.rs:915-964. -/
def Nodes.checkGo (ns : Nodes) : Outcome :=
  checkAll (fun c => match (ns.at c).parent with
      | none => .accept
      | some p =>
        if (ns.at p).kind ≠ .go then .accept
        else match (ns.at c).declaration with
        | some f => checkAll (fun a =>
            if (ns.at a).lifetime.isSome then .reject c "Can not use `go`" else .accept) (ns.args f)
        | none => checkAll (fun (lt, _) =>
            if lt = .default then .accept else .reject c "Can not use `go`")
            ((ns.at c).lts.zip (ns.callArgs c)))
    ns.calls

/-- `map_arg_call_arg_index`, lifetime/mod.rs:969-990: the child of a call that the argument number
`i` is in. -/
def Nodes.argChild (ns : Nodes) (i : Nat) : List Nat → Nat → Nat → Nat
  | [], _, k => k
  | c :: cs, j, k => if i < j + ns.width c then k else ns.argChild i cs (j + ns.width c) (k + 1)

/-- `is_reference`, lifetime/mod.rs:991-1015: going down the first children one gets to an item. -/
def Nodes.isRef (ns : Nodes) (n : Nat) : Bool :=
  match (ns.at n).kind with
  | .item => true
  | .call => false
  | _ => match (ns.at n).children with
    | [] => false
    | c :: _ => if n < c ∧ c < ns.length then ns.isRef c else false
termination_by ns.length - n

/-- The comparison of two arguments of a call, lifetime/mod.rs:1042-1053, 1081-1086. The lifetime
annotation gives the *number* of the argument on the left, which is used as index of a child. -/
def Nodes.compareArgs (ns : Nodes) (c ind i : Nat) : Outcome :=
  match (ns.at c).children[ind]?, (ns.at c).children[i]? with
  | some l, some r => ns.compare r (ns.lifetime l) (ns.lifetime r)
  | _, _ => .crash

/-- The check of the argument number `i` (the child `a`) of the declaration `f` against the call
`c`, lifetime/mod.rs:1026-1054. -/
def Nodes.checkParam (ns : Nodes) (c f : Nat) (i a : Nat) : Outcome :=
  match (ns.at a).lifetime with
  | none => .accept
  | some lt =>
    let i := ns.argChild i (ns.at c).children 0 0
    match ns.argLifetime a with
    | .crash => .crash
    | .endless => .endless
    | .done _ =>
      match (ns.at c).children[i]? with
      | none => .crash
      | some r =>
        if !ns.isRef r then .reject r "Requires reference to variable"
        else if lt == "return" then .accept
        else match Lt.argIndex (ns.sig f) lt with
          | some ind => ns.compareArgs c ind i
          | none => .crash

/-- The check of the annotation number `i` of a host function, lifetime/mod.rs:1064-1088. -/
def Nodes.checkHostParam (ns : Nodes) (c : Nat) (i : Nat) (lt : Mod.Lt) : Outcome :=
  let i := ns.argChild i (ns.at c).children 0 0
  match (ns.at c).children[i]? with
  | none => .crash
  | some r => match lt with
    | .default => .accept
    | .ret => if ns.isRef r then .accept else .reject r "Requires reference to variable"
    | .arg ind => if ns.isRef r then ns.compareArgs c ind i else .reject r "Requires reference to variable"

/-- "Check that calls satisfy the lifetime constraints of arguments", lifetime/mod.rs:966-1091. The
position of a parameter is the one among all children of the function. -/
def Nodes.checkConstraints (ns : Nodes) : Outcome :=
  checkAll (fun c => match (ns.at c).declaration with
      | some f => checkAll (fun (a, i) => if (ns.at a).kind = .arg then ns.checkParam c f i a else .accept)
          (ns.at f).children.zipIdx
      | none => checkAll (fun (lt, i) => ns.checkHostParam c i lt) (ns.at c).lts.zipIdx)
    ns.calls

/-- The checks of the annotations of functions, lifetime/mod.rs:757-816. -/
def Nodes.checkSignatures (ns : Nodes) : Outcome :=
  checkAll (fun f => match Lt.checkSignature (ns.sig f) with
      | .ok => .accept
      | .missing lt => .reject f ("Could not find argument `" ++ lt ++ "`")
      | .cyclic lt => .reject f ("Cyclic lifetime for `" ++ lt ++ "`")
      | .crash => .crash)
    ns.functions

/-- All lifetime checks in order, lifetime/mod.rs:744-1091. -/
def Nodes.checkLifetimes (ns : Nodes) : Outcome :=
  ns.checkSignatures.and <| ns.checkMutated.and <| ns.checkDeclared.and <| ns.checkReturns.and <|
  ns.checkMath.and <| ns.checkVoid.and <| ns.checkBlocks.and <| ns.checkCallArgs.and <| ns.checkGo.and
  ns.checkConstraints

end Dyon.Check
