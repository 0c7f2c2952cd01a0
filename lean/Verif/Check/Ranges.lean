import Verif.Check.Resolve

/-!
# Loops whose range is not written, `src/lifetime/mod.rs:341-347, 485-521`
-/

namespace Dyon.Check

/-- The loops without range, `inferred`, lifetime/mod.rs:341-347. -/
def Nodes.openLoops (ns : Nodes) : List Nat :=
  (List.range ns.length).filter fun n => (ns.at n).kind.isDeclLoop && (ns.child n .end').isNone

/-- Whether going outwards from a node one comes to an index without passing anything but
values, expressions and sums and products of one term, lifetime/mod.rs:497-511.  A parent that is
not stored before its child ends the walk; normalised arenas have none. -/
def Nodes.indexAlone (ns : Nodes) (ch : Nat) : Bool :=
  match (ns.at ch).parent with
  | none => false
  | some p =>
    if p < ch then
      match (ns.at p).kind with
      | .id => true
      | .val | .expr => ns.indexAlone p
      | .mul | .add => if (ns.at p).children.length > 1 then false else ns.indexAlone p
      | _ => false
    else false
termination_by ch

/-- Whether a use of the loop variable is an index, lifetime/mod.rs:488-512. -/
def Nodes.rangeFound (ns : Nodes) (inf : Nat) (name : String) : Bool :=
  ns.items.any fun i =>
    (ns.at i).declaration = some inf && (ns.at i).name = some name && ns.indexAlone i

/-- `Report ranges that can not be inferred`: the first loop of which no range is found,
lifetime/mod.rs:485-521. -/
def Nodes.ranges (ns : Nodes) : Except Nat Unit :=
  match ns.openLoops.find? fun inf => (ns.at inf).names.any fun x => !ns.rangeFound inf x with
  | some inf => .error inf
  | none => .ok ()

end Dyon.Check
