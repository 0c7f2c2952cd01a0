import Verif.File.Web

/-!
# Grammars in values

`syntax(name, text)` and `meta(syntax, name, text)`, dyon_std/mod.rs:1743-1789.  The parser of piston_meta is external, as in
`loadMeta`.  The grammar is a Rust object with a lock of its own; locking it is left out, since no function holds the lock of a
grammar for longer.
-/

namespace Dyon.File

section
variable (c : Cfg) {Syntax : Type}

/-- `syntax__in_string`, mod.rs:1743-1755: the grammar that is put into a new Rust object, or the error value. -/
def syntaxFn (rules : String → Except String Syntax) : SM (Except String Syntax) := do
  let t ← Lib.popText c
  let name ← Lib.popText c
  match rules t with
  | .ok r => pure (.ok r)
  | .error e => pure (.error ("When parsing meta syntax in `" ++ name ++ "`:\n" ++ e))

/-- A text of an argument, with another message than `popText`: mod.rs:1758-1767. -/
def popStr : SM String := do
  let v ← popV
  match ← getV v with
  | .str s => pure s
  | x => SM.fail (expected c x "str")

/-- `meta__syntax_in_string`, mod.rs:1757-1789, with `parse_syntax_data`, meta.rs:15-58.  `obj` gives the grammar in a Rust object. -/
def metaFn (parse : Syntax → String → Except String (List Text.MetaTok)) (obj : Nat → Option Syntax) : SM Val := do
  let t ← popStr c
  let name ← popStr c
  let v ← popV
  match ← getV v with
  | .rustObject o => match obj o with
    | some r => match parse r t with
      | .error e => pure (.resErr (.str ("When parsing data in `" ++ name ++ "`:\n" ++ e)) [])
      | .ok ts => pure (.resOk (.array (ts.map Text.metaVal)))
    | none => SM.fail (expected c (.rustObject o) "Syntax")
  | x => SM.fail (expected c x "Syntax")

end

end Dyon.File
