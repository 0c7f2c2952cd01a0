import Verif.Eval.Resolve

/-!
# The functions that calls stand for

`Call::get_locals` of `src/ast/mod.rs` looks every called name up before a function runs for the
first time.  The conversion (`Front/Convert.lean`) leaves the callee open.
-/

namespace Dyon

mutual
/-- `self.f_index = f_index` in `Call::get_locals`, ast/mod.rs:2850-2874, for every call in an
expression; the traversal is the one of `Expression::get_locals`, 1545-1688.  `find` is the
lookup, by name or by alias and name.  Simplified: the channel of `in f`, which has a lookup of its
own (4647-4671, `Check/In.lean`), stays as it is. -/
def Expr.looked (find : String → FnIndex) : Expr → Expr
  | .link items => .link (lookedList find items)
  | .object kvs => .object (lookedKvs find kvs)
  | .array items => .array (lookedList find items)
  | .arrayFill f n => .arrayFill (f.looked find) (n.looked find)
  | .ret e => .ret (e.looked find)
  | .retVoid => .retVoid
  | .brk l => .brk l
  | .cont l => .cont l
  | .block es => .block (lookedList find es)
  | .go n args => .go n (lookedList find args)
  | .call _ n args => .call (find n) n (lookedList find args)
  | .item it => .item (lookedItem find it)
  | .assign op l r => .assign op (l.looked find) (r.looked find)
  | .vec4 args => .vec4 (lookedList find args)
  | .mat4 args => .mat4 (lookedList find args)
  | .for_ i c s b l => .for_ (i.looked find) (c.looked find) (s.looked find) (lookedList find b) l
  | .forN k n start stop b l => .forN k n (lookedOpt find start) (stop.looked find) (lookedList find b) l
  | .forIn k n iter b l => .forIn k n (iter.looked find) (lookedList find b) l
  | .ite c t ei e => .ite (c.looked find) (lookedList find t) (lookedElifs find ei) (lookedOptList find e)
  | .const v => .const v
  | .try_ e => .try_ (e.looked find)
  | .swizzle sel e => .swizzle sel (e.looked find)
  | .closure args cur r file e => .closure args cur r file (e.looked find)
  | .callClosure it args => .callClosure (lookedItem find it) (lookedList find args)
  | .grab l e => .grab l (e.looked find)
  | .tryExpr e => .tryExpr (e.looked find)
  | .in_ f => .in_ f
/-- Expressions in order, ast/mod.rs:1032-1034, 2892-2894. -/
def lookedList (find : String → FnIndex) : List Expr → List Expr
  | [] => []
  | e :: es => e.looked find :: lookedList find es
/-- Keys and values, ast/mod.rs:1874-1878. -/
def lookedKvs (find : String → FnIndex) : List (String × Expr) → List (String × Expr)
  | [] => []
  | (k, e) :: es => (k, e.looked find) :: lookedKvs find es
/-- Else-if branches, ast/mod.rs:4545-4556. -/
def lookedElifs (find : String → FnIndex) : List (Expr × List Expr) → List (Expr × List Expr)
  | [] => []
  | (c, b) :: r => (c.looked find, lookedList find b) :: lookedElifs find r
/-- The else branch, ast/mod.rs:4557-4560. -/
def lookedOptList (find : String → FnIndex) : Option (List Expr) → Option (List Expr)
  | none => none
  | some es => some (lookedList find es)
/-- The start of a counting loop, ast/mod.rs:4270-4273. -/
def lookedOpt (find : String → FnIndex) : Option Expr → Option Expr
  | none => none
  | some e => some (e.looked find)
/-- `Item::get_locals`, ast/mod.rs:2451-2474. -/
def lookedItem (find : String → FnIndex) : Item → Item
  | .mk n sid cur t ids tids => .mk n sid cur t (lookedIds find ids) tids
/-- `Id::get_locals`, ast/mod.rs:2291-2309. -/
def lookedIds (find : String → FnIndex) : List Id → List Id
  | [] => []
  | .str s :: r => .str s :: lookedIds find r
  | .num x :: r => .num x :: lookedIds find r
  | .expr e :: r => .expr (e.looked find) :: lookedIds find r
end

/-- `Function::get_locals`, ast/mod.rs:519-540, as far as callees are concerned. -/
def Func.looked (find : String → FnIndex) (fn : Func) : Func := { fn with body := lookedList find fn.body }

end Dyon
