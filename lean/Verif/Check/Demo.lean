import Verif.Check.Node

/-!
# Small arenas for the examples
-/

namespace Dyon.Check.Demo

/-- A tree of nodes. -/
inductive T where
  | mk (n : Node) (kids : List T)

mutual
/-- Number of nodes. -/
def T.size : T → Nat
  | .mk _ kids => 1 + T.sizes kids

/-- Number of nodes. -/
def T.sizes : List T → Nat
  | [] => 0
  | t :: ts => t.size + T.sizes ts
end

/-- The indices of trees stored one after another from `i` on. -/
def T.starts (i : Nat) : List T → List Nat
  | [] => []
  | t :: ts => i :: T.starts (i + t.size) ts

mutual
/-- The arena of a tree stored from index `i` on, parents before children. -/
def T.flat (parent : Option Nat) (i : Nat) : T → Nodes
  | .mk n kids => { n with parent := parent, children := T.starts (i + 1) kids } ::
      T.flats (some i) (i + 1) kids

/-- The arenas of trees stored from index `i` on. -/
def T.flats (parent : Option Nat) (i : Nat) : List T → Nodes
  | [] => []
  | t :: ts => t.flat parent i ++ T.flats parent (i + t.size) ts
end

/-- A node without further information. -/
def nd (k : Kind) (kids : List T) : T := .mk { kind := k } kids

/-- A function. -/
def fn (name : String) (kids : List T) : T := .mk { kind := .fn, names := [name] } kids

/-- An argument. -/
def arg (name : String) : T := .mk { kind := .arg, names := [name] } []

/-- An argument `name: mut`. -/
def argMut (name : String) : T := .mk { kind := .arg, names := [name], mutable := true } []

/-- The use of a variable. -/
def item (name : String) : T := .mk { kind := .item, names := [name] } []

/-- The use of a property. -/
def prop (name id : String) : T :=
  .mk { kind := .item, names := [name] } [.mk { kind := .id, names := [id] } []]

/-- A statement `left op right`. -/
def stmt (op : AssignOp) (l : T) (r : T) : T :=
  nd .expr [.mk { kind := .assign, op := some op } [nd .left [l], nd .right [nd .expr [r]]]]

/-- A statement `name := right`. -/
def decl (name : String) (r : T) : T := stmt .assign (item name) r

/-- A literal. -/
def val (ty : Ty) : T := .mk { kind := .val, ty := some ty } []

/-- A loop `for name n { .. }`. -/
def forN (name : String) (body : List T) : T :=
  nd .expr [.mk { kind := .forN, names := [name] } [nd .end' [nd .expr [val .f64]], nd .block body]]

/-- A closure `\(args) = body`. -/
def closure (args : List String) (body : T) : T :=
  .mk { kind := .closure } (args.map arg ++ [nd .expr [body]])

/-- `(grab '<level> name)`. -/
def grab (level : Nat) (name : String) : T :=
  .mk { kind := .grab, grabLevel := level } [nd .expr [item name]]

/-- A call. -/
def call (name : String) (args : List T) : T :=
  nd .expr [.mk { kind := .call, names := [name] } (args.map fun a => nd .callArg [a])]

/-- The arena of a file. -/
def file (ts : List T) : Nodes := T.flats none 0 ts

end Dyon.Check.Demo
