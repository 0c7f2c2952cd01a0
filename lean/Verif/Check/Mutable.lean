import Verif.Check.Resolve

/-!
# Checks of mutability, `src/lifetime/mod.rs:315-329, 1093-1142`
-/

namespace Dyon.Check

/-- The assignments other than `:=` with the item they change, `mutated_locals`,
lifetime/mod.rs:315-329.  An assignment without left item is a panic there; the grammar has
none, and here it is left out. -/
def Nodes.mutated (ns : Nodes) : List Nat :=
  ((List.range ns.length).filter fun a =>
    match (ns.at a).op with
    | some op => op ≠ .assign
    | none => false).filterMap ns.leftItem

/-- Whether an item means an argument or current object that is not `mut`,
lifetime/mod.rs:1095-1098, 1131-1134. -/
def Nodes.immutable (ns : Nodes) (i : Nat) : Bool :=
  match (ns.at i).declaration with
  | some d => ((ns.at d).kind = .arg || (ns.at d).kind = .current) && !(ns.at d).mutable
  | none => false

/-- `reference`, lifetime/mod.rs:1109-1123: the item of a `mut` call argument. -/
def Nodes.reference (ns : Nodes) (n : Nat) : Option Nat :=
  if (ns.at n).kind = .item then some n
  else match (ns.at n).children.head? with
  | none => none
  | some m => if (ns.at m).kind = .item then some m else none

/-- The `mut` arguments of calls, lifetime/mod.rs:1107, 1125-1128. -/
def Nodes.mutArgs (ns : Nodes) : List Nat :=
  ((List.range ns.length).filter fun c => (ns.at c).kind = .call).flatMap fun c =>
    (ns.at c).children.filter fun n => (ns.at n).kind = .callArg && (ns.at n).mutable

/-- The two checks of mutability, lifetime/mod.rs:1093-1142: the item of "Requires `mut ..`", if
there is one. -/
def Nodes.requiresMut (ns : Nodes) : Option Nat :=
  (ns.mutated.find? ns.immutable).or
    ((ns.mutArgs.filterMap ns.reference).find? ns.immutable)

end Dyon.Check
