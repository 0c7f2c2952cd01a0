import Verif.Check.Calls

/-!
# The text that says which function was not found

When a call names no known function, or a function of the file with another number of parameters,
the checker lists functions with similar names, lifetime/mod.rs:1157-1193.  Positions in a text
are numbers of bytes in Rust; cutting a text inside a character panics.  `none` stands for this
panic.
-/

namespace Dyon.Check

/-- `&text[..k]`: the characters in the first `k` bytes.  Rust panics if the text is shorter or a
character is cut (`str::index`). -/
def sliceTo : List Char → Nat → Option (List Char)
  | _, 0 => some []
  | [], _ + 1 => none
  | c :: cs, k + 1 => if c.utf8Size ≤ k + 1 then (sliceTo cs (k + 1 - c.utf8Size)).map (c :: ·) else none

/-- The name to look for, lifetime/mod.rs:1162-1167: the *number of characters* before the first
`(`, less one, is used as a number of bytes.  (`mut_pos - 1` with `mut_pos = 0` panics in a debug
build; in a release build it is a number beyond the end, which panics as well.) -/
def searchName (name : String) : Option String :=
  match name.toList.findIdx? (· = '(') with
  | some 0 => none
  | some (k + 1) => (sliceTo name.toList k).map String.ofList
  | none => some name

/-- The loop over one of the maps, lifetime/mod.rs:1170-1177, 1178-1185: `keys` are the names in
the order in which the map gives them. -/
def suggestLoop (search : String) : List String → Bool → String → Bool × String
  | [], found, text => (found, text)
  | f :: fs, found, text =>
    if search.toList.isPrefixOf f.toList then suggestLoop search fs true (text ++ "- " ++ f ++ "\n")
    else suggestLoop search fs found text

/-- `suggestions`, lifetime/mod.rs:1157-1193.  `own` and `host` are the keys of the two maps in
any order. -/
def suggestions (name : String) (own host : List String) : Option String :=
  match searchName name with
  | none => none
  | some search =>
    let r := suggestLoop search own false "\n\nDid you mean:\n"
    let r := suggestLoop search host r.1 r.2
    some (if r.1 then r.2 else "")

/-- The message for a call that is refused, lifetime/mod.rs:671-673, 683-688, 692-695, 700-704;
`none` if making the message panics.  `expected` is the number of parameters of the function of
the file, `lts` that of the function of the host. -/
inductive Refused where
  /-- no function of this name behind the alias -/
  | alias (al name : String)
  /-- a function of the host has another number of parameters -/
  | host (name : String) (expected found : Nat)
  /-- no function of this name -/
  | unknown (name : String)
  /-- a function of the file has another number of parameters -/
  | file (name : String) (expected found : Nat)

/-- The text, lifetime/mod.rs:671-673, 683-688, 692-695, 700-704. -/
def Refused.text (own host : List String) : Refused → Option String
  | .alias al name => some ("Could not find function `" ++ al ++ "::" ++ name ++ "`")
  | .host name e n => some (name ++ ": Expected " ++ toString e ++ " arguments, found " ++ toString n)
  | .unknown name => (suggestions name own host).map fun s => "Could not find function `" ++ name ++ "`" ++ s
  | .file name e n =>
    (suggestions name own host).map fun s => name ++ ": Expected " ++ toString e ++ " arguments, found " ++ toString n ++ s

/-- Which of the messages a refused call gets: the same decisions as `Nodes.linkCall`,
lifetime/mod.rs:660-704. -/
def Nodes.refused (env : Env) (look : Mod.Map Nat) (ns : Nodes) (c : Nat) : Option Refused :=
  match (ns.at c).name with
  | none => none
  | some name =>
    match (ns.at c).alias with
    | some al => match env.aliases.get al name with
      | some (.loaded _) => none
      | _ => some (.alias al name)
    | none => match look name with
      | none => match env.prelude.functions name with
        | some i => match env.prelude.list[i]? with
          | some d => if d.lts.length ≠ ns.argCount c then some (.host name d.lts.length (ns.argCount c)) else none
          | none => none
        | none => some (.unknown name)
      | some i => match ns.functions[i]? with
        | some f => if (ns.args f).length ≠ ns.argCount c then some (.file name (ns.args f).length (ns.argCount c)) else none
        | none => none

end Dyon.Check
