import Verif.Eval.Ast

/-!
# C40: unrolled vector loops

Models `replace::number` of `src/ast/replace.rs` and `Vec4UnLoop::into_expression` of
`src/ast/mod.rs`: `vec4 i e` becomes a vector literal whose components are copies of `e`
with numbers in place of `i`.
-/

namespace Dyon.Syn

/-- Whether a statement counts as a declaration of the name: "Check for declaration of
same name", replace.rs:125-137, 331-345. Any assignment whose left side is an item with
the name counts, whatever its operator and properties. -/
def assigns (name : String) : Expr → Bool
  | .assign _ (.item it) _ => it.name = name
  | _ => false

mutual
/-- `replace::number`, replace.rs:15-297: puts the number `v` in place of an item. The calls
`get_locals` makes later (`CallVoid` and so on) do not exist yet. -/
def number (name : String) (v : F64) : Expr → Expr
  | .link items => .link (numberList name v items)
  | .item (.mk n sid cur t ids tids) =>
    if n = name then .const (.ofF64 v) else .item (.mk n sid cur t (numberIds name v ids) tids)
  | .block es => .block (numberBlock name v es)
  | .assign op l r => .assign op (number name v l) (number name v r)
  | .object kvs => .object (numberKVs name v kvs)
  | .call f n args => .call f n (numberList name v args)
  | .array items => .array (numberList name v items)
  | .arrayFill fill n => .arrayFill (number name v fill) (number name v n)
  | .ret e => .ret (number name v e)
  | .retVoid => .retVoid
  | .brk l => .brk l
  | .cont l => .cont l
  | .go n args => .go n (numberList name v args)
  | .vec4 args => .vec4 (numberList name v args)
  | .mat4 args => .mat4 (numberList name v args)
  | .for_ init cond step body label =>
    if assigns name init then .for_ (numberRight name v init) cond step body label
    else .for_ (number name v init) (number name v cond) (number name v step) (numberBlock name v body) label
  | .forN k n start stop body label =>
    if n = name then .forN k n start stop body label
    else .forN k n (numberOpt name v start) (number name v stop) (numberBlock name v body) label
  | .forIn k n iter body label => .forIn k n (number name v iter) (numberBlock name v body) label
  | .ite cond thn elifs els =>
    .ite (number name v cond) (numberBlock name v thn) (numberElifs name v elifs) (numberOptBlock name v els)
  | .const w => .const w
  | .try_ e => .try_ (number name v e)
  | .swizzle sel e => .swizzle sel (number name v e)
  | .closure args cur r f e => .closure args cur r f e
  | .callClosure it args => .callClosure it (numberList name v args)
  | .grab l e => .grab l (number name v e)
  | .tryExpr e => .tryExpr (number name v e)
  | .in_ f => .in_ f
/-- The loops over items and arguments, replace.rs:20-23, 301-303. -/
def numberList (name : String) (v : F64) : List Expr → List Expr
  | [] => []
  | e :: es => number name v e :: numberList name v es
/-- replace.rs:62-65. -/
def numberKVs (name : String) (v : F64) : List (String × Expr) → List (String × Expr)
  | [] => []
  | (k, e) :: es => (k, number name v e) :: numberKVs name v es
/-- replace.rs:33-40. -/
def numberIds (name : String) (v : F64) : List Id → List Id
  | [] => []
  | .expr e :: r => .expr (number name v e) :: numberIds name v r
  | .str s :: r => .str s :: numberIds name v r
  | .num x :: r => .num x :: numberIds name v r
/-- An assignment whose left side stays, replace.rs:129-134, 335-340. -/
def numberRight (name : String) (v : F64) : Expr → Expr
  | .assign op l r => .assign op l (number name v r)
  | e => e
/-- `number_block`, replace.rs:324-353: after a declaration the rest is copied. -/
def numberBlock (name : String) (v : F64) : List Expr → List Expr
  | [] => []
  | e :: es => if assigns name e then numberRight name v e :: es else number name v e :: numberBlock name v es
/-- replace.rs:252-259. -/
def numberElifs (name : String) (v : F64) : List (Expr × List Expr) → List (Expr × List Expr)
  | [] => []
  | (c, b) :: es => (number name v c, numberBlock name v b) :: numberElifs name v es
/-- replace.rs:265-268. -/
def numberOptBlock (name : String) (v : F64) : Option (List Expr) → Option (List Expr)
  | none => none
  | some b => some (numberBlock name v b)
/-- replace.rs:362-365. -/
def numberOpt (name : String) (v : F64) : Option Expr → Option Expr
  | none => none
  | some e => some (number name v e)
end

/-- `Vec4UnLoop::into_expression`, ast/mod.rs:3731-3753. -/
def unloop (len : Nat) (name : String) (e : Expr) : Expr :=
  .vec4 [number name (F64.ofNat 0) e, number name (F64.ofNat 1) e,
    if len > 2 then number name (F64.ofNat 2) e else .const (.ofF64 F64.zero),
    if len > 3 then number name (F64.ofNat 3) e else .const (.ofF64 F64.zero)]

end Dyon.Syn
