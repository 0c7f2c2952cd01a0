import Verif.Builtin.Stack
import Verif.Data.Load

/-!
# Model of the library functions on text, objects and colours

`src/dyon_std/mod.rs:961-964` (`parse_number`, `trim`, `trim_left`, `trim_right`), `988-1013`
(`str__color`), `1038-1064` (`typeof`), `2031-2070` (`has`, `keys`, `chars`) and `2086`
(`is_nan`).

Texts are lists of characters where they are taken apart.  An object, a hash map in the code, is a
list of keys and values: the order of `keys` is the order of this list, and nothing is known about
it.  What a character is (`char::is_whitespace`), reading a number (`str::parse::<f64>`) and the
arithmetic of a colour component are parameters.
-/

namespace Dyon

/-- `str::parse::<f64>` and `(clamp(x) * 255.0) as usize`, mod.rs:991-998. -/
class TextOps where
  parse : List Char → Option F64
  byte : F32 → Nat
  /-- `clamp` gives a number between 0 and 1 or no number, which becomes 0. -/
  byte_le : ∀ x, byte x ≤ 255

namespace Lib
variable (c : Cfg)

/-- `rt.pop::<Arc<String>>()`, runtime/mod.rs:388-391 and embed.rs:92-100. -/
def popText : SM String := do
  let v ← popV
  let w ← getV v
  match w with
  | .str s => pure s
  | x => SM.fail (expected c x "string")

/-- `str::trim_start`. -/
def trimStart [Data.Lex] (s : List Char) : List Char := s.dropWhile Data.Lex.isWs

/-- `str::trim_end`. -/
def trimEnd [Data.Lex] (s : List Char) : List Char := (s.reverse.dropWhile Data.Lex.isWs).reverse

/-- `str::trim`. -/
def trimBoth [Data.Lex] (s : List Char) : List Char := trimEnd (trimStart s)

/-- `trim`, mod.rs:962. -/
def trim [Data.Lex] : SM Val := do
  let s ← popText c
  pure (.str (String.ofList (trimBoth s.toList)))

/-- `trim_left`, mod.rs:963. -/
def trimLeft [Data.Lex] : SM Val := do
  let s ← popText c
  pure (.str (String.ofList (trimStart s.toList)))

/-- `trim_right`, mod.rs:964. -/
def trimRight [Data.Lex] : SM Val := do
  let s ← popText c
  pure (.str (String.ofList (trimEnd s.toList)))

/-- `parse_number`, mod.rs:961. -/
def parseNumber [Data.Lex] [TextOps] : SM Val := do
  let s ← popText c
  pure (.option ((TextOps.parse (trimBoth s.toList)).map Val.ofF64))

/-- `is_nan`, mod.rs:2086, with `f64::pop_var`, embed.rs. -/
def isNan : SM Val := do
  let v ← popV
  let w ← getV v
  match w with
  | .f64 x _ => pure (.ofBool x.isNaN)
  | x => SM.fail (expected c x "number")

/-- `has`, mod.rs:2031-2042. -/
def has : SM Val := do
  let v ← popV
  let w ← getV v
  match w with
  | .str key =>
    let v ← popV
    let w ← getV v
    match w with
    | .object kvs => pure (.ofBool ((kvs.map Prod.fst).contains key))
    | x => SM.fail (expected c x "object")
  | x => SM.fail (expected c x "str")

/-- `keys`, mod.rs:2044-2050. -/
def keys : SM Val := do
  let v ← popV
  let w ← getV v
  match w with
  | .object kvs => pure (.array (kvs.map fun kv => .str kv.1))
  | x => SM.fail (expected c x "object")

/-- `chars`, mod.rs:2052-2068. -/
def chars : SM Val := do
  let v ← popV
  let w ← getV v
  match w with
  | .str s => pure (.array (s.toList.map fun ch => .str (String.ofList [ch])))
  | x => SM.fail (expected c x "str")

/-- `typeof`, mod.rs:1038-1064; the names are those of `Variable::typeof_var` (lib.rs:253-276). -/
def typeof' : SM Val := do
  let v ← popV
  let w ← getV v
  pure (.str w.typeofVar)

/-- `map`, mod.rs:999-1000. -/
def hexDigits : List Char :=
  ['0', '1', '2', '3', '4', '5', '6', '7', '8', '9', 'a', 'b', 'c', 'd', 'e', 'f']

/-- `map[r >> 4]`, `map[r & 0xf]`, mod.rs:1001-1009; outside of the table the code panics. -/
def hexByte (n : Nat) : Option (List Char) := do
  let a ← hexDigits[n / 16]?
  let b ← hexDigits[n % 16]?
  some [a, b]

/-- The text of a colour, mod.rs:988-1013. -/
def colorText [TextOps] (v : Vec4) : Option (List Char) := do
  let r := TextOps.byte v.x
  let g := TextOps.byte v.y
  let b := TextOps.byte v.z
  let a := TextOps.byte v.w
  let rs ← hexByte r
  let gs ← hexByte g
  let bs ← hexByte b
  if a ≠ 255 then do
    let as ← hexByte a
    some ('#' :: rs ++ gs ++ bs ++ as)
  else some ('#' :: rs ++ gs ++ bs)

/-- `str__color`, mod.rs:988-1013. -/
def strColor [TextOps] : SM Val := do
  let v ← popVec4 c
  match colorText v with
  | some t => pure (.str (String.ofList t))
  | none => SM.panic

end Lib
end Dyon
