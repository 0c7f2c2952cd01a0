import Verif.Data.Write

/-!
# Syntax trees: `src/dyon_std/meta.rs`

`piston_meta` (the parser) is external; its tokens are `MetaTok`.
-/

namespace Dyon.Text

open Dyon.Data (Show writeBool)

/-- `piston_meta::MetaData`. -/
inductive MetaData where
  | bool (name : String) (val : Bool)
  | string (name : String) (val : String)
  | f64 (name : String) (val : F64)
  | startNode (name : String)
  | endNode (name : String)
deriving Repr

/-- `Range<MetaData>`; the offset and the length as numbers. -/
structure MetaTok where
  offset : F64
  length : F64
  data : MetaData
deriving Repr

/-- The loop of `parse_syntax_data`, meta.rs:25-56. -/
def metaVal (t : MetaTok) : Val :=
  .array ([.ofF64 t.offset, .ofF64 t.length] ++
    match t.data with
    | .bool name val => [.str "bool", .str name, .ofBool val]
    | .string name val => [.str "str", .str name, .str val]
    | .f64 name val => [.str "f64", .str name, .ofF64 val]
    | .startNode name => [.str "start", .str name]
    | .endNode name => [.str "end", .str name])

/-- The string in `arr[2]`, if there is one; `none` if the index is out of range (a crash).
meta.rs:186-208 -/
def kind : Val → Option (Option String)
  | .array arr => match arr[(2 : Nat)]? with
    | none => none
    | some (.str t) => some (some t)
    | some _ => some none
  | _ => some none

/-- The kinds of all entries. -/
def kinds : List Val → Option (List (Option String))
  | [] => some []
  | v :: vs => match kind v, kinds vs with
    | some k, some ks => some (k :: ks)
    | _, _ => none

/-- The variables of the loop, meta.rs:214-221; `started` is `i != 0`. -/
structure Json where
  out : List Char
  indent : Nat
  first : Bool
  started : Bool
deriving Repr

variable [Show]

/-- `name`, meta.rs:240-244. -/
def metaName (arr : List Val) : Option String :=
  match arr[(3 : Nat)]? with
  | none => none
  | some (.str t) => some t
  | some _ => some ""

/-- A value, meta.rs:256-274: nothing if `arr[4]` is of another kind, a crash if it is missing. -/
def metaValue (arr : List Val) (name : String) (f : Val → Option (List Char)) : Option (List Char) :=
  match arr[(4 : Nat)]? with
  | none => none
  | some v => match f v with
    | some t => some (Show.string name ++ ':' :: t)
    | none => some []

/-- The text of a boolean value. -/
def asBool : Val → Option (List Char)
  | .bool b _ => some (writeBool b)
  | _ => none
/-- The text of a number. -/
def asF64 : Val → Option (List Char)
  | .f64 x _ => some (Show.f64 x)
  | _ => none
/-- The text of a string. -/
def asStr : Val → Option (List Char)
  | .str s => some (Show.string s)
  | _ => none

/-- What is written for an entry after the indention, meta.rs:239-278. -/
def metaText : Val → Option (List Char)
  | .array arr => match metaName arr with
    | none => none
    | some name => match arr[(2 : Nat)]? with
      | some (.str t) =>
        if t = "start" then some (Show.string name ++ ":{".toList)
        else if t = "end" then some ['}']
        else if t = "bool" then metaValue arr name asBool
        else if t = "f64" then metaValue arr name asF64
        else if t = "str" then metaValue arr name asStr
        else some []
      | _ => some []
  | _ => some []

/-- One round of the loop, meta.rs:222-279.  `none` is a crash; `indent -= 1` below zero is
one (with overflow checks). -/
def jsonStep (s : Json) (d : Val) : Option Json :=
  match kind d with
  | none => none
  | some k =>
    if k = some "end" ∧ s.indent = 0 then none
    else
      let indent := if k = some "end" then s.indent - 1 else s.indent
      let sep : List Char := if !s.first && !decide (k = some "end") then [',', '\n'] else if s.started then ['\n'] else []
      match metaText d with
      | none => none
      | some t => some
        { out := s.out ++ (sep ++ (List.replicate indent ' ' ++ t))
          indent := if k = some "start" then indent + 1 else indent
          first := decide (k = some "start")
          started := true }

/-- The loop. -/
def jsonLoop : List Val → Json → Option Json
  | [], s => some s
  | d :: ds, s => match jsonStep s d with
    | none => none
    | some s => jsonLoop ds s

/-- The difference of the numbers of starts and ends, meta.rs:218-220. -/
def startIndent (ks : List (Option String)) : Nat :=
  max (ks.count (some "start")) (ks.count (some "end")) - min (ks.count (some "start")) (ks.count (some "end"))

/-- `json_from_meta_data`, meta.rs:185-282. -/
def jsonFromMeta (data : List Val) : Option (List Char) :=
  match kinds data with
  | none => none
  | some ks => match jsonLoop data { out := [], indent := startIndent ks, first := true, started := false } with
    | none => none
    | some s => some (s.out ++ ['\n'])

end Dyon.Text
