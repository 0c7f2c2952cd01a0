import Verif.Data.Load

/-!
# Writing values as text: `write_variable`, `src/write.rs`

The text of numbers (Rust's `{}`), `piston_meta::json::write_string` and the text of closures
are parameters (`Show`).
-/

namespace Dyon.Data

/-- What is external. -/
class Show where
  /-- `write!(w, "{}", x)` of an `f64` -/
  f64 : F64 → List Char
  /-- `write!(w, "{}", x)` of an `f32` -/
  f32 : F32 → List Char
  /-- `json::write_string` -/
  string : String → List Char
  /-- `write_closure` -/
  closure : Nat → List Char

variable [Lex] [Show]

/-- `v[2] != 0.0` -/
def nonzero (x : F32) : Bool := !F32.feq x F32.zero

/-- `Variable::Vec4`, write.rs:33-45. -/
def writeVec4 (v : Vec4) : List Char :=
  '(' :: (Show.f32 v.x ++ (", ".toList ++ (Show.f32 v.y ++
    if nonzero v.z || nonzero v.w then
      ", ".toList ++ (Show.f32 v.z ++
        if nonzero v.w then ", ".toList ++ (Show.f32 v.w ++ [')']) else [')'])
    else [')'])))

/-- `Variable::Mat4`, write.rs:46-67: rows separated by `;`. -/
def writeRow (a b c d : F32) : List Char :=
  Show.f32 a ++ ',' :: (Show.f32 b ++ ',' :: (Show.f32 c ++ ',' :: Show.f32 d))

/-- `Variable::Mat4`, write.rs:46-67. -/
def writeMat4 (m : Mat4) : List Char :=
  "mat4 {".toList ++ (writeRow m.c0.x m.c1.x m.c2.x m.c3.x ++ ("; ".toList ++
    (writeRow m.c0.y m.c1.y m.c2.y m.c3.y ++ ("; ".toList ++
    (writeRow m.c0.z m.c1.z m.c2.z m.c3.z ++ ("; ".toList ++
    (writeRow m.c0.w m.c1.w m.c2.w m.c3.w ++ ['}'])))))))

/-- The text of a boolean. -/
def writeBool (b : Bool) : List Char := if b then "true".toList else "false".toList

/-- An item of a link: `slice.block.var(i)` is a boolean, a number or a string. -/
def writeScalar (esc : Bool) : Link.Scalar → List Char
  | .bool b => writeBool b
  | .f64 x => Show.f64 x
  | .str s => if esc then Show.string s else s.toList

/-- `Variable::Link`, write.rs:74-97: the items in order, each followed by a space if
strings are escaped. -/
def writeLink (esc : Bool) (l : List Link.Scalar) : List Char :=
  if esc then "link { ".toList ++ ((l.map fun x => writeScalar true x ++ [' ']).flatten ++ ['}'])
  else (l.map (writeScalar false)).flatten

/-- The key of an object, write.rs:102-107. -/
def writeKey (k : String) : List Char :=
  if k.toList.all fun c => Lex.isAlnum c || c == '_' then k.toList ++ ": ".toList
  else Show.string k ++ ": ".toList

/-- `, ` between the parts, write.rs:109-111 and 120-122. -/
def joinComma : List (List Char) → List Char
  | [] => []
  | [t] => t
  | t :: u :: ts => t ++ (", ".toList ++ joinComma (u :: ts))

/-- The values of an array in turn. -/
def writeList (w : Val → Option (List Char)) : List Val → Option (List (List Char))
  | [] => some []
  | v :: vs => match w v, writeList w vs with
    | some t, some ts => some (t :: ts)
    | _, _ => none

/-- The entries of an object in turn. -/
def writeEntries (w : Val → Option (List Char)) : List (String × Val) → Option (List (List Char))
  | [] => some []
  | (k, v) :: vs => match w v, writeEntries w vs with
    | some t, some ts => some ((writeKey k ++ t) :: ts)
    | _, _ => none

/-- `write_variable`, write.rs:13-157.  `esc` is `EscapeString::Json`; `stk` is the variable
stack.  `none` when the fuel is used up or a reference is outside the stack (a crash).
Writing itself does not fail. -/
def writeV (stk : List Val) : Nat → Bool → Val → Option (List Char)
  | 0, _, _ => none
  | n + 1, esc, v => match v with
    | .str s => some (if esc then Show.string s else s.toList)
    | .f64 x _ => some (Show.f64 x)
    | .vec4 v => some (writeVec4 v)
    | .mat4 m => some (writeMat4 m)
    | .bool b _ => some (writeBool b)
    | .ref i => match stk[i]? with
      | some v => writeV stk n esc v
      | none => none
    | .link l => some (writeLink esc l)
    | .object kvs => (writeEntries (writeV stk n true) kvs).map fun ts => '{' :: (joinComma ts ++ ['}'])
    | .array vs => (writeList (writeV stk n true) vs).map fun ts => '[' :: (joinComma ts ++ [']'])
    | .option none => some "none()".toList
    | .option (some v) => (writeV stk n true v).map fun t => "some(".toList ++ (t ++ [')'])
    | .resErr v _ => (writeV stk n true v).map fun t => "err(".toList ++ (t ++ [')'])
    | .resOk v => (writeV stk n true v).map fun t => "ok(".toList ++ (t ++ [')'])
    | .thread _ => some "_thread".toList
    | .ret => some "_return".toList
    | .unsafeRef _ => some "_unsafe_ref".toList
    | .rustObject _ => some "_rust_object".toList
    | .closure id => some (Show.closure id)
    | .inTy _ => some "_in".toList

end Dyon.Data
