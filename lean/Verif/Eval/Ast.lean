import Verif.Value

/-!
# The syntax tree of `src/ast/mod.rs` as far as the evaluator looks at it

Source ranges, type annotations, the source text of functions and the caches of an item
are left out.  The eleven counting loops share one node with a kind, as do the nine
channel loops.  `Expression::Call` and the nodes `get_locals` turns it into (`CallVoid`,
`CallReturn`, `CallBinOp`, `CallUnOp`, `CallLazy`, `CallLoaded`, ast/mod.rs:1559-1607) are
one node: both evaluate through the same function chosen by the function index
(runtime/mod.rs:1710-1733 and 594-616).
-/

namespace Dyon

/-- `enum Lazy`, ast/mod.rs:809-818. -/
inductive Lazy where
  | variable (v : Val)
  | unwrapOk
  | unwrapErr
  | unwrapSome
deriving Repr

/-- `enum FnIndex`, lib.rs:341-357: what a call calls.  External functions, fn pointers in
the code, are numbers into the tables of `Cfg`. -/
inductive FnIndex where
  | none
  | loaded (i : Int)
  | void (f : Nat)
  | ret (f : Nat)
  | binop (f : Nat)
  | unop (f : Nat)
  | lazy (f : Nat) (inv : List (List Lazy))
deriving Repr

/-- `enum AssignOp`, ast/mod.rs:3399-3417. -/
inductive AssignOp where
  | assign | set | add | sub | mul | div | rem | pow
deriving DecidableEq, Repr

/-- Which counting loop a node is, ast/mod.rs:1086-1126. -/
inductive ForKind where
  | forN | sum | sumVec4 | prod | prodVec4 | min | max | sift | any | all | linkFor
deriving DecidableEq, Repr

/-- Which channel loop a node is, ast/mod.rs:1083-1116. -/
inductive ForInKind where
  | forIn | sum | prod | min | max | sift | any | all | link
deriving DecidableEq, Repr

mutual
/-- `enum Expression`, ast/mod.rs:1040-1144. -/
inductive Expr where
  | link (items : List Expr)
  | object (kvs : List (String × Expr))
  | array (items : List Expr)
  | arrayFill (fill n : Expr)
  | ret (e : Expr)
  | retVoid
  | brk (label : Option String)
  | cont (label : Option String)
  | block (es : List Expr)
  | go (name : String) (args : List Expr)
  | call (f : FnIndex) (name : String) (args : List Expr)
  | item (it : Item)
  | assign (op : AssignOp) (left right : Expr)
  | vec4 (args : List Expr)
  | mat4 (args : List Expr)
  | for_ (init cond step : Expr) (body : List Expr) (label : Option String)
  | forN (k : ForKind) (name : String) (start : Option Expr) (stop : Expr) (body : List Expr)
      (label : Option String)
  | forIn (k : ForInKind) (name : String) (iter : Expr) (body : List Expr)
      (label : Option String)
  | ite (cond : Expr) (thn : List Expr) (elifs : List (Expr × List Expr))
      (els : Option (List Expr))
  | const (v : Val)
  | try_ (e : Expr)
  | swizzle (sel : List Nat) (e : Expr)
  | closure (args currents : List String) (returns : Bool) (file : String) (e : Expr)
  | callClosure (it : Item) (args : List Expr)
  | grab (level : Nat) (e : Expr)
  | tryExpr (e : Expr)
  | in_ (f : FnIndex)
/-- `struct Item`, ast/mod.rs:2313-2336; `sid` is `static_stack_id`. -/
inductive Item where
  | mk (name : String) (sid : Option Nat) (current tryFlag : Bool) (ids : List Id)
      (tryIds : List Nat)
/-- `enum Id`, ast/mod.rs:2269-2277. -/
inductive Id where
  | str (s : String)
  | num (x : F64)
  | expr (e : Expr)
end

namespace Item
/-- Field. -/
def name : Item → String | mk n .. => n
/-- Field. -/
def sid : Item → Option Nat | mk _ s .. => s
/-- Field. -/
def current : Item → Bool | mk _ _ c .. => c
/-- Field. -/
def tryFlag : Item → Bool | mk _ _ _ t .. => t
/-- Field. -/
def ids : Item → List Id | mk _ _ _ _ i _ => i
/-- Field. -/
def tryIds : Item → List Nat | mk _ _ _ _ _ t => t
end Item

/-- `struct Function`, ast/mod.rs:365-393; `senders` lives in the run-time state. -/
structure Func where
  name : String
  file : String
  args : List String
  lazyInv : List (List Lazy)
  currents : List String
  returns : Bool
  body : List Expr

/-- Number of values an argument puts on the stack (`Call::arg_len`, ast/mod.rs:2914-2926,
`CallClosure::arg_len`, 3103-3115): a swizzle pushes its components. -/
def Expr.width : Expr → Nat
  | .swizzle sel _ => sel.length
  | _ => 1

end Dyon
