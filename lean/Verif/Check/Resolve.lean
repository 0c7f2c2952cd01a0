import Verif.Check.Node

/-!
# Linking items to their declaration, `src/lifetime/mod.rs:281-470`
-/

namespace Dyon.Check

/-- Why the checker refuses an item, lifetime/mod.rs:397-403, 430-435, 474-479, and the panics
of 443, 446. -/
inductive ScopeErr where
  | grabbedVariable (i : Nat)
  | grabbedArgument (i : Nat)
  | notFound (i : Nat)
  | panic (i : Nat)
deriving DecidableEq

/-- Whether a node is a loop that declares the name, lifetime/mod.rs:364-375. -/
def Node.bindsLoop (n : Node) (name : String) : Bool :=
  (n.kind.isDeclLoop || n.kind.isDeclUnLoop || n.kind.isInLoop) && n.names.contains name

/-- The item that the statement `j` declares, if it is a `:=`, lifetime/mod.rs:383-396.  An
assignment without left side, which the grammar does not have, is skipped here. -/
def Nodes.stmtItem (ns : Nodes) (j : Nat) : Option Nat := do
  let a ← (ns.at j).children.head?
  if (ns.at a).op = some .assign then
    let l ← (ns.at a).children.head?
    (ns.at l).children.head?
  else none

/-- The item that the statement `j` declares under a name: not a property or an element,
lifetime/mod.rs:388-405. -/
def Nodes.stmtDecl (ns : Nodes) (name : String) (j : Nat) : Option Nat :=
  match ns.stmtItem j with
  | some it => if (ns.at it).name = some name && !(ns.at it).itemIds then some it else none
  | none => none

/-- The nearest declaration among the children before `child`, lifetime/mod.rs:377-407.  The
binary search for `child` is the search for its first occurrence (children are sorted). -/
def Nodes.localBefore (ns : Nodes) (name : String) (parent child : Nat) : Option Nat :=
  ((ns.at parent).children.takeWhile (· ≠ child)).reverse.findSome? (ns.stmtDecl name)

/-- The first argument or current object with a name, lifetime/mod.rs:423-439, 457-469. -/
def Nodes.param (ns : Nodes) (name : String) (f : Nat) : Option Nat :=
  (ns.at f).children.find? fun j =>
    ((ns.at j).kind = .arg || (ns.at j).kind = .current) && (ns.at j).name = some name

/-- How the search for a declaration ends. -/
inductive Search where
  | found (j : Nat)
  | err (e : ScopeErr)
  | top (p : Nat)

/-- The grab level inside a node, lifetime/mod.rs:412-417. -/
def Node.grabs (n : Node) (grab : Nat) : Nat :=
  if n.kind = .grab then (if n.grabLevel = 0 then 1 else n.grabLevel) else grab

/-- `'search: loop`, lifetime/mod.rs:363-445.  A parent that is not stored before its child
(a cycle) is taken as a panic; normalised arenas have none. -/
def Nodes.search (ns : Nodes) (i : Nat) (name : String) (child parent grab : Nat) : Search :=
  if (ns.at parent).bindsLoop name then .found parent
  else if !(ns.at parent).children.contains child then .err (.panic i)
  else match ns.localBefore name parent child with
  | some it => if grab > 0 then .err (.grabbedVariable i) else .found it
  | none => match (ns.at parent).parent with
    | none => .top parent
    | some p =>
      if p < parent then
        let grab := (ns.at p).grabs grab
        if (ns.at p).kind = .closure then
          if grab = 0 then .top p
          else if (ns.param name p).isSome then .err (.grabbedArgument i)
          else ns.search i name parent p (grab - 1)
        else ns.search i name parent p grab
      else .err (.panic i)
termination_by parent

/-- The declaration of the item `i`, lifetime/mod.rs:350-482; `none` for `return`.  An item
without name, which the grammar does not have, is a panic at the start. -/
def Nodes.resolve (ns : Nodes) (i : Nat) : Except ScopeErr (Option Nat) :=
  match (ns.at i).name with
  | none => .error (.panic i)
  | some name =>
    if name = "return" then .ok none
    else match (ns.at i).parent with
    | none => .error (.panic i)
    | some p => match ns.search i name i p 0 with
      | .found j => .ok (some j)
      | .err e => .error e
      | .top t =>
        if (ns.at t).kind ≠ .fn ∧ (ns.at t).kind ≠ .closure then .error (.panic i)
        else match ns.param name t with
        | some j => .ok (some j)
        | none => .error (.notFound i)

/-- Whether a node is `name := ..` or `item := ..`, with a child on the left,
lifetime/mod.rs:277-291. -/
def Nodes.isDeclare (ns : Nodes) (a : Nat) : Bool :=
  (ns.at a).op = some .assign &&
    match (ns.at a).children.head? with
    | some l => !(ns.at l).children.isEmpty
    | none => false

/-- The item on the left of an assignment. -/
def Nodes.leftItem (ns : Nodes) (a : Nat) : Option Nat := do
  let l ← (ns.at a).children.head?
  (ns.at l).children.head?

/-- The items that declare locals, `locals`, lifetime/mod.rs:272-292. -/
def Nodes.locals (ns : Nodes) : List Nat :=
  ((List.range ns.length).filter ns.isDeclare).filterMap fun a =>
    (ns.leftItem a).filter fun it => !(ns.at it).itemIds

/-- The items that are not declarations, `items`, lifetime/mod.rs:331-339.  (The binary search
in `locals` is membership: `locals` is sorted.) -/
def Nodes.items (ns : Nodes) : List Nat :=
  (List.range ns.length).filter fun i => (ns.at i).kind = .item && !ns.locals.contains i

/-- `nodes[i].declaration = Some(j)`. -/
def Nodes.setDecl (ns : Nodes) (i j : Nat) : Nodes :=
  ns.modify i fun n => { n with declaration := some j }

/-- The loop over the items, lifetime/mod.rs:349-483. -/
def Nodes.linkItems (ns : Nodes) : List Nat → Except ScopeErr Nodes
  | [] => .ok ns
  | i :: is =>
    match ns.resolve i with
    | .error e => .error e
    | .ok none => ns.linkItems is
    | .ok (some j) => (ns.setDecl i j).linkItems is

/-- Linking all items of the file. -/
def Nodes.linkAll (ns : Nodes) : Except ScopeErr Nodes := ns.linkItems ns.items

end Dyon.Check
