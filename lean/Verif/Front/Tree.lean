import Verif.Syntax.Chain
import Verif.Syntax.Infer
import Verif.Syntax.Unloop
import Verif.Eval.Fold
import Verif.Data.Load
import Verif.Types.Model

/-!
# The syntax tree `piston_meta` makes of a file

`piston_meta` interprets the rules of `assets/syntax.txt` and reports a well nested list of
events: a node starts, a node ends, a named string, a named number, a named truth value.  The
list is written here as a tree.  That the rules are interpreted as they read is trusted.

A name of the rules is a constructor, so that the file has the name in its comment only where
it differs.
-/

namespace Dyon.Front

open Syn (BinOp)

/-- Names of nodes, `:"name"` behind a rule in syntax.txt:1-212. -/
inductive L where
  | fn | arg | current | block | expr | add | mul | pow | val | call | callArg | namedCall
  | assign | left | right | item | itemExtra
  /-- `return` -/
  | ret
  | object | array | arrayItem | arrayFill | fill | n | keyValue
  /-- `for` -/
  | for'
  | loop
  | forN (k : ForKind) | forIn (k : ForInKind)
  | start
  /-- `end` -/
  | end'
  | vec4UnLoop | init | cond | iter | elseIfCond | elseIfBlock | step | compare
  /-- `if` -/
  | if'
  | trueBlock | elseBlock | id
  /-- `break` -/
  | brk
  /-- `continue` -/
  | cont
  | norm | not | neg | vec4 | x | y | z | w | mat4 | ex | ey | ez | ew
  | type | retType | arr | opt | res | thr | adHocTy | closureType | clArg | clRet
  | go | swizzle | sw0 | sw1 | sw2 | sw3 | link | linkItem | closure | callClosure
  | namedCallClosure | grab | tryExpr
  /-- `in` -/
  | in'
  | ty | tyArg | tyRet
deriving DecidableEq, Repr

/-- Names of strings in syntax.txt:1-212. -/
inductive S where
  | name | alias | tyVar | lifetime | label | key | text | color | id | word | adHoc
deriving DecidableEq, Repr

/-- Names of numbers in syntax.txt:1-212. -/
inductive F where
  | num | id | grabLevel
deriving DecidableEq, Repr

/-- Names of truth values in syntax.txt:1-212. -/
inductive B where
  | returns | «mut»
  /-- `ok(_)` -/
  | okLazy
  /-- `err(_)` -/
  | errLazy
  /-- `some(_)` -/
  | someLazy
  | returnVoid | bool | current | tryItem | tryId
  /-- `try` -/
  | try'
  /-- `:=`, `=`, `+=` and so on -/
  | asg (o : AssignOp)
  /-- the operators apart from `x`: `*`, `/`, `+` and so on -/
  | dot | times | div | rem | pow | plus | minus | orElse | andAlso
  | less | lessOrEqual | greater | greaterOrEqual | equal | notEqual
  | four | three | two | x | y | z | w
  | any | secBool | f64 | secF64 | str | vec4 | mat4 | link | optAny | resAny | arrAny | objAny
  | thrAny | inAny
deriving DecidableEq, Repr

/-- The tree. -/
inductive Cst where
  | node (l : L) (kids : List Cst)
  | str (l : S) (s : String)
  | num (l : F) (x : F64)
  | bool (l : B) (b : Bool)

end Dyon.Front
