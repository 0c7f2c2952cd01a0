import Batteries.Data.List.Basic

/-!
# The formatter: `fmt`, `src/write.rs`

Numbers of tabs are integers without bounds: more than 2^31 nested brackets are left out.
-/

namespace Dyon.Text

/-- `enum Comment`, write.rs:892-899. -/
inductive Comment where
  | none
  | first
  | activeLine
  | terminated (b : Bool)
  | activeMulti (b : Bool) (c : Comment)
deriving Repr, DecidableEq

/-- `Comment::is_active`, write.rs:902-909. -/
def Comment.isActive : Comment → Bool
  | .activeLine => true
  | .activeMulti _ _ => true
  | _ => false

/-- `Comment::is_terminated`, write.rs:911-913. -/
def Comment.isTerminated : Comment → Bool
  | .terminated b => b
  | _ => false

/-- `Comment::is_none`, write.rs:915-917. -/
def Comment.isNone : Comment → Bool
  | .none => true
  | _ => false

/-- `Comment::advance`, write.rs:919-938. -/
def Comment.advance : Comment → Char → Comment
  | .none, ch => if ch = '/' then .first else .none
  | .first, ch => if ch = '/' then .activeLine else if ch = '*' then .activeMulti false .none else .none
  | .activeLine, ch => if ch = '\n' then .terminated true else .activeLine
  | .terminated false, _ => .terminated true
  | .terminated true, _ => .none
  | .activeMulti false s, ch =>
    if !s.isNone then .activeMulti false (s.advance ch)
    else if ch = '*' then .activeMulti true .none
    else .activeMulti false (s.advance ch)
  | .activeMulti true _, ch => if ch = '/' then .terminated false else .activeMulti false .none

/-- The local variables of `fmt`, write.rs:942-948. -/
structure Fmt where
  res : List Char := []
  tabs : Int := 0
  newline : Bool := false
  comment : Comment := .none
  string : Bool := false
  stringEscape : Bool := false
deriving Repr

/-- `for _ in 0..tabs * tab {res.push(' ')}` -/
def spaces (n : Int) : List Char := List.replicate n.toNat ' '

/-- Opening bracket. -/
def opens (ch : Char) : Bool := ch == '[' || ch == '{' || ch == '('
/-- Closing bracket. -/
def closes (ch : Char) : Bool := ch == ']' || ch == '}' || ch == ')'

/-- The part outside of strings and comments, write.rs:973-1003. -/
def fmtCode (tab : Int) (s : Fmt) (ch : Char) : Fmt :=
  if ch = '\n' ∨ ch = ' ' then s
  else
    let tabs := if closes ch then s.tabs - 1 else s.tabs
    let addNewline := s.newline || closes ch
    let res := if addNewline then s.res ++ '\n' :: spaces (tabs * tab) else s.res
    let tabs := if opens ch then tabs + 1 else tabs
    let res := if addNewline && ch == ' ' then res else res ++ [ch]
    let res := if ch = ':' then res ++ [' '] else res
    { s with res, tabs, newline := opens ch || ch == ',' }

/-- The state of comments moves on, write.rs:965-969. -/
def fmtComment (s : Fmt) (ch : Char) : Fmt :=
  if (s.comment.advance ch).isTerminated then { s with newline := true, comment := .none }
  else { s with comment := s.comment.advance ch }

/-- In a comment or outside, write.rs:970-1004. -/
def fmtActive (tab : Int) (s : Fmt) (ch : Char) : Fmt :=
  if s.comment.isActive then { s with res := s.res ++ [ch] } else fmtCode tab s ch

/-- Outside of strings, write.rs:965-1004. -/
def fmtOutside (tab : Int) (s : Fmt) (ch : Char) : Fmt := fmtActive tab (fmtComment s ch) ch

/-- After the quotes, write.rs:960-1004. -/
def fmtRest (tab : Int) (s : Fmt) (ch : Char) : Fmt :=
  if s.string then { s with res := s.res ++ [ch] } else fmtOutside tab s ch

/-- The body of the loop of `fmt`, write.rs:949-1005. -/
def fmtStep (tab : Int) (s : Fmt) (ch : Char) : Fmt :=
  if ch = '"' then
    if s.stringEscape then fmtRest tab { s with stringEscape := false } ch
    else { s with string := !s.string, res := s.res ++ [ch] }
  else if ch = '\\' ∧ s.string = true then fmtRest tab { s with stringEscape := true } ch
  else fmtRest tab s ch

/-- `fmt`, write.rs:941-1008. -/
def fmt (tab : Int) (text : List Char) : List Char := (text.foldl (fmtStep tab) {}).res

end Dyon.Text
