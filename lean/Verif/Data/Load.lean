import Verif.Value
import Verif.Float

/-!
# The data loader: `src/dyon_std/data.rs`

The reader is the rest of the text (`ReadToken`).  The crates `read_token`, `read_color` and
the Unicode tables are parameters (`Lex`).  Source positions in error messages are left out.
-/

namespace Dyon.Data

/-- What is external: Unicode character classes, string and number tokens of `read_token`,
`read_color::rgb_maybe_a`. A token is given by its length in characters. -/
class Lex where
  /-- `char::is_whitespace` -/
  isWs : Char → Bool
  /-- `char::is_alphanumeric` -/
  isAlnum : Char → Bool
  /-- `ReadToken::string` -/
  string : List Char → Option Nat
  /-- `ReadToken::parse_string` of a token -/
  parseString : List Char → Except String String
  /-- `ReadToken::number` -/
  number : List Char → Option Nat
  /-- `ReadToken::parse_number` of a token -/
  parseNumber : List Char → Except String F64
  /-- `read_color::rgb_maybe_a` -/
  rgba : List Char → Option (Nat × Nat × Nat × Option Nat)
  /-- `f32::from(c) / 255.0` -/
  channel : Nat → F32
  /-- White space among the ASCII characters. -/
  ws_ascii : ∀ c : Char, c.toNat < 128 → isWs c = (c == ' ' || (decide (9 ≤ c.toNat) && decide (c.toNat ≤ 13)))
  /-- Letters and digits among the ASCII characters. -/
  alnum_ascii : ∀ c : Char, c.toNat < 128 → isAlnum c = c.isAlphanum
  /-- White space is not alphanumeric. -/
  alnum_ws : ∀ c, isAlnum c = true → isWs c = false
  /-- Tokens are not empty and inside the text. -/
  string_len : ∀ s n, string s = some n → 0 < n ∧ n ≤ s.length
  number_len : ∀ s n, number s = some n → 0 < n ∧ n ≤ s.length

variable [Lex]

/-- Outcome of reading: a value and the rest of the text, an error, or not finished within
the fuel. -/
inductive Res (α : Type) where
  | ok (a : α) (rest : List Char)
  | err (msg : String)
  | running
deriving Repr

/-- `read.tag(..)` followed by `consume`. -/
def tag (t : String) (s : List Char) : Option (List Char) :=
  if t.toList.isPrefixOf s then some (s.drop t.length) else none

/-- `read.until_any(..)` followed by `consume`: up to one of the characters. -/
def untilAny (cs : List Char) (s : List Char) : List Char := s.dropWhile fun c => !cs.contains c

/-- `read.whitespace()` followed by `consume`. -/
def skipWs (s : List Char) : List Char := s.dropWhile Lex.isWs

/-- `SEPS`, data.rs:46. -/
def seps : List Char := ['(', ')', '{', '}', '[', ']', ',', '.', ':', ';', '\n', '"', '\\']

/-- `read.until_any_or_whitespace(SEPS)`. -/
def rawWord (s : List Char) : List Char := s.takeWhile fun c => !seps.contains c && !Lex.isWs c

/-- A `*` that does not close the comment, data.rs:357-363. -/
def starPart (s : List Char) : List Char :=
  match tag "*/" s with
  | some _ => s
  | none => match tag "*" s with
    | some r => untilAny ['*', '/'] r
    | none => s

/-- After the recursive call, data.rs:365-377: `s1` is before and `s2` after the call. -/
def slashPart (s1 s2 : List Char) : List Char :=
  if s2.length < s1.length then untilAny ['*', '/'] s2
  else match tag "/" s1 with
    | some r => untilAny ['*', '/'] r
    | none => s1

/-- The loop of `multi_line_comment`, data.rs:354-382; `mlc` is the recursive call. -/
def mlcLoop (mlc : List Char → Option (List Char)) : Nat → List Char → Option (List Char)
  | 0, _ => none
  | n + 1, s =>
    match mlc (starPart s) with
    | none => none
    | some s2 =>
      if (slashPart (starPart s) s2).length = s.length then some (slashPart (starPart s) s2)
      else mlcLoop mlc n (slashPart (starPart s) s2)

/-- `multi_line_comment`, data.rs:348-388, `none` when the fuel is used up. -/
def mlcN : Nat → List Char → Option (List Char)
  | 0, _ => none
  | n + 1, s => match tag "/*" s with
    | none => some s
    | some r => match mlcLoop (mlcN n) n (untilAny ['*', '/'] r) with
      | none => none
      | some t => some ((tag "*/" t).getD t)

/-- `opt_w`, data.rs:327-346, `none` when the fuel is used up. -/
def optWN : Nat → List Char → Option (List Char)
  | 0, _ => none
  | n + 1, s =>
    let s1 := skipWs s
    let s2 := match tag "//" s1 with
      | some r => untilAny ['\n'] r
      | none => s1
    match mlcN (s2.length + 1) s2 with
    | none => none
    | some s3 => if s3.length = s.length then some s3 else optWN n s3

/-- `opt_w` with enough fuel (`C35_opt_w`). -/
def optW (s : List Char) : List Char := (optWN (s.length + 1) s).getD []

/-- `comma`, data.rs:391-400. -/
def comma (s : List Char) : Bool × List Char :=
  match tag "," (optW s) with
  | some r => (true, optW r)
  | none => (false, optW (optW s))

/-- Insertion into a hash map: replaces the value of an existing key. -/
def insertKey (k : String) (v : Val) (kvs : List (String × Val)) : List (String × Val) :=
  if kvs.any fun kv => kv.1 == k then kvs.map fun kv => if kv.1 == k then (k, v) else kv
  else kvs ++ [(k, v)]

/-- The key of an object, data.rs:165-196: what it is and the rest. -/
def readKey (s : List Char) : Res String :=
  match Lex.string s with
  | some n => match Lex.parseString (s.take n) with
    | .ok k => .ok k (s.drop n)
    | .error e => .err e
  | none =>
    if (rawWord s).length = 0 then .err "Expected key"
    else .ok (String.ofList (rawWord s)) (s.drop (rawWord s).length)

/-- `object`, data.rs:148-213, after `{`; `ex` reads a value. -/
def objectLoop (ex : List Char → Res Val) : Nat → List (String × Val) → Bool → List Char → Res Val
  | 0, _, _, _ => .running
  | n + 1, acc, wasComma, s =>
    let s := optW s
    match tag "}" s with
    | some r => .ok (.object acc) r
    | none =>
      if !acc.isEmpty && !wasComma then .err "Expected `,`"
      else match readKey s with
        | .err e => .err e
        | .running => .running
        | .ok k r => match tag ":" (optW r) with
          | none => .err "Expected `:`"
          | some r => match ex (optW r) with
            | .err e => .err e
            | .running => .running
            | .ok v r =>
              objectLoop ex n (insertKey k v acc) (comma r).1 (comma r).2

/-- `array`, data.rs:215-234, after `[`. -/
def arrayLoop (ex : List Char → Res Val) : Nat → List Val → Bool → List Char → Res Val
  | 0, _, _, _ => .running
  | n + 1, acc, wasComma, s =>
    let s := optW s
    match tag "]" s with
    | some r => .ok (.array acc) r
    | none =>
      if !acc.isEmpty && !wasComma then .err "Expected `,`"
      else match ex s with
        | .err e => .err e
        | .running => .running
        | .ok v r => arrayLoop ex n (acc ++ [v]) (comma r).1 (comma r).2

/-- What `Link::push` takes, link.rs:252-282; the packing is C01 to C03. -/
def toScalar : Val → Option Link.Scalar
  | .bool b _ => some (.bool b)
  | .f64 x _ => some (.f64 x)
  | .str s => some (.str s)
  | _ => none

/-- The loop of `link`, data.rs:251-263.  `Link::push` adds the
items of a link. -/
def linkLoop (ex : List Char → Res Val) : Nat → List Link.Scalar → List Char → Res Val
  | 0, _, _ => .running
  | n + 1, acc, s =>
    let s := optW s
    match tag "}" s with
    | some r => .ok (.link acc) r
    | none => match ex s with
      | .err e => .err e
      | .running => .running
      | .ok (.link l) r => linkLoop ex n (acc ++ l) r
      | .ok v r => match toScalar v with
        | none => .err "Expected `bool`, `f64` or `str`"
        | some x => linkLoop ex n (acc ++ [x]) r

/-- `link`, data.rs:236-265, after `link`. -/
def linkE (ex : List Char → Res Val) (n : Nat) (s : List Char) : Res Val :=
  match tag "{" (optW s) with
  | none => .err "Expected `{`"
  | some r => linkLoop ex n [] (optW r)

/-- A number token and its value: `none` if there is no token. -/
def numberTok (s : List Char) : Option (Res F64) :=
  match Lex.number s with
  | none => none
  | some n => some (match Lex.parseNumber (s.take n) with
    | .ok x => .ok x (s.drop n)
    | .error e => .err e)

variable [FloatOps]

/-- The end of `vec4`, data.rs:317-323. -/
def vec4End (x y z w : F64) (s : List Char) : Res Val :=
  match tag ")" (optW s) with
  | some r => .ok (.vec4 ⟨FloatOps.toF32 x, FloatOps.toF32 y, FloatOps.toF32 z, FloatOps.toF32 w⟩) r
  | none => .err "Expected `)`"

/-- The optional third and fourth component, data.rs:291-316. -/
def vec4Rest (x y : F64) (s : List Char) : Res Val :=
  match comma s with
  | (false, s) => vec4End x y F64.zero F64.zero s
  | (true, s) => match numberTok s with
    | none => vec4End x y F64.zero F64.zero s
    | some (.ok z r) => match numberTok (comma r).2 with
      | none => vec4End x y z F64.zero (comma r).2
      | some (.ok w r) => vec4End x y z w r
      | some (.err e) => .err e
      | some .running => .running
    | some (.err e) => .err e
    | some .running => .running

/-- `vec4`, data.rs:267-324, after `(`. -/
def vec4E (s : List Char) : Res Val :=
  match numberTok s with
  | none => .err "Expected x component"
  | some (.err e) => .err e
  | some .running => .running
  | some (.ok x r) => match numberTok (comma r).2 with
    | none => .err "Expected y component"
    | some (.err e) => .err e
    | some .running => .running
    | some (.ok y r) => vec4Rest x y r

/-- The colour, data.rs:64-86, after `#`.  The text of the colour is not consumed. -/
def colorE (s : List Char) : Res Val :=
  match Lex.rgba (rawWord s) with
  | some (r, g, b, a) =>
    .ok (.vec4 ⟨Lex.channel r, Lex.channel g, Lex.channel b, Lex.channel (a.getD 255)⟩) s
  | none => .err "Expected hex color in format `FFFFFF`or `FFFFFFFF`"

/-- `some(..)`, data.rs:133-144, after `some(`. -/
def someE (ex : List Char → Res Val) (s : List Char) : Res Val :=
  match ex (optW s) with
  | .err e => .err e
  | .running => .running
  | .ok v r => match tag ")" (optW r) with
    | some r => .ok (.option (some v)) r
    | none => .err "Expected `)`"

/-- The words, data.rs:119-145. -/
def wordE (ex : List Char → Res Val) (s : List Char) : Res Val :=
  match tag "false" s with
  | some r => .ok (.ofBool false) r
  | none => match tag "true" s with
    | some r => .ok (.ofBool true) r
    | none => match tag "none()" s with
      | some r => .ok (.option none) r
      | none => match tag "some(" s with
        | some r => someE ex r
        | none => .err "Reached end of file"

/-- Strings, numbers and words, data.rs:92-145. -/
def scalarE (ex : List Char → Res Val) (s : List Char) : Res Val :=
  match Lex.string s with
  | some n => match Lex.parseString (s.take n) with
    | .ok t => .ok (.str t) (s.drop n)
    | .error e => .err e
  | none => match numberTok s with
    | some (.ok x r) => .ok (.ofF64 x) r
    | some (.err e) => .err e
    | some .running => .running
    | none => wordE ex s

/-- `expr`, data.rs:48-146.  The sharing of equal strings is left out. -/
def expr : Nat → List Char → Res Val
  | 0, _ => .running
  | n + 1, s =>
    match tag "{" s with
    | some r => objectLoop (expr n) n [] false r
    | none => match tag "[" s with
      | some r => arrayLoop (expr n) n [] false r
      | none => match tag "(" s with
        | some r => vec4E r
        | none => match tag "#" s with
          | some r => colorE r
          | none => match tag "link" s with
            | some r => linkE (expr n) n r
            | none => scalarE (expr n) s

/-- `load_data`, data.rs:35-40.  What follows the value is ignored. -/
def loadData (n : Nat) (data : List Char) : Res Val := expr n (optW data)

end Dyon.Data
