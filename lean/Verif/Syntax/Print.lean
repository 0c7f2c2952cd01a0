import Verif.Syntax.Chain

/-!
# C39: the printer of expressions

Models `write_expr` of `src/write.rs` and what it calls: the text a closure is printed as.

The text is a list of tokens, not of characters: white space other than the line breaks of
a block is left out, a name is one token whatever it is spelled like, and a constant
(`write_variable`, modelled in `Verif.Data.Write`) is one token.  Printing two different
expressions as the same tokens means printing them as the same characters.
-/

namespace Dyon.Syn

/-- What is written.  `bin .sub` is the character `-`, whether it subtracts or negates. -/
inductive Tok where
  | name (s : String)
  | lit (v : Val)
  | bin (op : BinOp)
  | asg (op : AssignOp)
  | lp | rp | lb | rb | lc | rc
  | comma | semi | dot | colon | quest | bang | bar | tilde | backslash | eq | nl
  | kw (s : String)
  | label (s : String)
  | level (n : Nat)
  | key (s : String)
  | sw (sel : List Nat)

/-- `BinOp::precedence`, ast/mod.rs:2250-2266. -/
def precedence : BinOp → Nat
  | .less | .lessOrEqual | .greater | .greaterOrEqual | .equal | .notEqual => 0
  | .orElse => 1
  | .andAlso => 2
  | .add | .sub => 1
  | .mul | .dot | .cross | .div | .rem => 2
  | .pow => 3

/-- The names of `standard_binop`, write.rs:781-799. -/
def opNamed : String → Option BinOp
  | "dot" => some .dot
  | "cross" => some .cross
  | "add" => some .add
  | "sub" => some .sub
  | "mul" => some .mul
  | "div" => some .div
  | "rem" => some .rem
  | "pow" => some .pow
  | "and_also" => some .andAlso
  | "or_else" => some .orElse
  | "less" => some .less
  | "less_or_equal" => some .lessOrEqual
  | "greater" => some .greater
  | "greater_or_equal" => some .greaterOrEqual
  | "equal" => some .equal
  | "not_equal" => some .notEqual
  | _ => none

/-- `standard_binop`, write.rs:773-800. -/
def standardBinop (name : String) (args : List Expr) : Option BinOp :=
  if args.length = 2 then opNamed name else none

/-- The first `match` of `binop_needs_parens`, write.rs:422-442.  The node kinds `Call`,
`CallBinOp`, `CallLazy` and `CallReturn` are the calls with these function indices. -/
def operandOp : Expr → Option BinOp
  | .call .none name args => standardBinop name args
  | .call (.binop _) name args => standardBinop name args
  | .call (.lazy _ _) name args => standardBinop name args
  | .call (.ret _) name args => standardBinop name args
  | _ => none

/-- The second `match` of `binop_needs_parens`, write.rs:443-450. -/
def precParens (p q : Nat) (right : Bool) : Bool :=
  if p = 3 then true
  else if p = 2 ∧ (q = 1 ∨ q = 0) then true
  else if p = 2 ∧ q = 2 ∧ right then true
  else if p = 1 ∧ q = 1 ∧ right then true
  else if p = 1 ∧ q = 0 then true
  else false

/-- `binop_needs_parens`, write.rs:419-451. -/
def needsParens (op : BinOp) (e : Expr) (right : Bool) : Bool :=
  match operandOp e with
  | some q => precParens (precedence op) (precedence q) right
  | none => false

/-- The parentheses of `write_binop`, write.rs:464-478. -/
def paren (b : Bool) (ts : List Tok) : List Tok := if b then .lp :: ts ++ [.rp] else ts

/-- The loops that write `", "` between arguments, e.g. write.rs:586-591. -/
def commas : List (List Tok) → List Tok
  | [] => []
  | [t] => t
  | t :: ts => t ++ .comma :: commas ts

/-- The statements of `write_block` with more than one statement, write.rs:407-411. -/
def lines : List (List Tok) → List Tok
  | [] => []
  | t :: ts => t ++ .nl :: lines ts

/-- `write_block`, write.rs:390-417, given the printed statements. -/
def blockToks : List (List Tok) → List Tok
  | [] => [.lc, .rc]
  | [t] => .lc :: t ++ [.rc]
  | ts => .lc :: .nl :: lines ts ++ [.rc]

/-- `write_call`, write.rs:569-595, and `write_norm`, `write_not`, `write_neg`,
`write_binop` it calls, given the printed arguments. -/
def callToks (name : String) (args : List Expr) (ts : List (List Tok)) : List Tok :=
  match args, ts with
  | [_], [t] =>
    if name = "norm" then .bar :: t ++ [.bar]
    else if name = "not" then .bang :: t
    else if name = "neg" then .bin .sub :: t
    else .name name :: .lp :: t ++ [.rp]
  | [l, r], [tl, tr] =>
    match opNamed name with
    | some op => paren (needsParens op l false) tl ++ .bin op :: paren (needsParens op r true) tr
    | none => .name name :: .lp :: commas [tl, tr] ++ [.rp]
  | _, ts => .name name :: .lp :: commas ts ++ [.rp]

/-- `num == 0.0` of write.rs:669 for a constant. -/
def isZeroConst : Expr → Bool
  | .const (.f64 x _) => x == F64.zero || x == BitVec.ofNat 64 (2 ^ 63)
  | _ => false

/-- `n` of `write_vec4`, write.rs:665-676. -/
def vecShown (args : List Expr) : Nat := (args.reverse.dropWhile isZeroConst).length

/-- `write_vec4`, write.rs:677-688, given the printed components. -/
def vecToks : List (List Tok) → List Tok
  | [t] => .lp :: t ++ [.comma, .rp]
  | ts => .lp :: commas ts ++ [.rp]

/-- The rows of `write_mat4`, write.rs:699-707. -/
def semis : List (List Tok) → List Tok
  | [] => []
  | [t] => t
  | t :: ts => t ++ .semi :: semis ts

/-- `write_mat4`, write.rs:697-709. -/
def matToks : List (List Tok) → List Tok
  | [t] => .kw "mat4" :: .lc :: t ++ [.semi, .rc]
  | ts => .kw "mat4" :: .lc :: semis ts ++ [.rc]

/-- The words of write.rs:259-352. -/
def forWord : ForKind → String
  | .forN => "for"
  | .sum => "sum"
  | .sumVec4 => "sum_vec4"
  | .prod => "prod"
  | .prodVec4 => "prod_vec4"
  | .min => "min"
  | .max => "max"
  | .sift => "sift"
  | .any => "any"
  | .all => "all"
  | .linkFor => "link"

/-- The words of write.rs:264-357. -/
def forInWord : ForInKind → String
  | .forIn => "for"
  | .sum => "sum"
  | .prod => "prod"
  | .min => "min"
  | .max => "max"
  | .sift => "sift"
  | .any => "any"
  | .all => "all"
  | .link => "link"

/-- The test of `write_for` for `loop`, write.rs:744-760. -/
def isLoop : Expr → Expr → Expr → Bool
  | .block [], .const (.bool true _), .block [] => true
  | _, _, _ => false

/-- The arguments of `write_closure`, write.rs:183-188 with `write_arg`, 194-196; types are
not modelled. -/
def argToks (args : List String) : List Tok :=
  commas (args.map fun a => [Tok.name a, .colon, .kw "type"])

mutual
/-- `write_expr`, write.rs:198-376.  The name of an `in` expression (`in_expr.name`) is not
part of the model's node. -/
def printE : Expr → List Tok
  | .link items => .kw "link" :: .lc :: (printAll items).flatten ++ [.rc]
  | .object kvs => .lc :: commas (printKVs kvs) ++ [.rc]
  | .array items => .lb :: commas (printAll items) ++ [.rb]
  | .arrayFill fill n => .lb :: printE fill ++ .comma :: printE n ++ [.rb]
  | .ret e => .kw "return" :: printE e
  | .retVoid => [.kw "return"]
  | .brk none => [.kw "break"]
  | .brk (some l) => [.kw "break", .label l]
  | .cont none => [.kw "continue"]
  | .cont (some l) => [.kw "continue", .label l]
  | .block es => blockToks (printAll es)
  | .go name args => .kw "go" :: callToks name args (printAll args)
  | .call _ name args => callToks name args (printAll args)
  | .item it => printItem it
  | .assign op l r => printE l ++ .asg op :: printE r
  | .vec4 args => vecToks ((printAll args).take (vecShown args))
  | .mat4 args => matToks (printAll args)
  | .for_ init cond step body _ =>
    if isLoop init cond step then .kw "loop" :: blockToks (printAll body)
    else .kw "for" :: printE init ++ .semi :: printE cond ++ .semi :: printE step ++ blockToks (printAll body)
  | .forN k name start stop body _ =>
    .kw (forWord k) :: .name name :: printRange start (printE stop) ++ blockToks (printAll body)
  | .forIn k name iter body _ =>
    .kw (forInWord k) :: .name name :: .kw "in" :: printE iter ++ blockToks (printAll body)
  | .ite cond thn elifs els =>
    .kw "if" :: printE cond ++ blockToks (printAll thn) ++ printElifs elifs ++ printElse els
  | .const v => [.lit v]
  | .try_ e => printE e ++ [.quest]
  | .swizzle sel e => .sw sel :: printE e
  | .closure args _ _ _ e => .backslash :: .lp :: argToks args ++ .rp :: .eq :: printE e
  | .callClosure it args => .backslash :: printItem it ++ .lp :: commas (printAll args) ++ [.rp]
  | .grab l e => .lp :: .kw "grab" :: (if l = 1 then [] else [.level l]) ++ printE e ++ [.rp]
  | .tryExpr e => .lp :: .kw "try" :: printE e ++ [.rp]
  | .in_ _ => [.kw "in"]
/-- Each of several expressions. -/
def printAll : List Expr → List (List Tok)
  | [] => []
  | e :: es => printE e :: printAll es
/-- The members of `write_obj`, write.rs:553-564: a key is one token, quoted or not. -/
def printKVs : List (String × Expr) → List (List Tok)
  | [] => []
  | (k, e) :: kvs => (.key k :: .colon :: printE e) :: printKVs kvs
/-- `write_for_n` up to the block, write.rs:809-818. -/
def printRange : Option Expr → List Tok → List Tok
  | none, stop => stop
  | some start, stop => .lb :: printE start ++ .comma :: stop ++ [.rp]
/-- The `else if` branches of `write_if`, write.rs:847-856. -/
def printElifs : List (Expr × List Expr) → List Tok
  | [] => []
  | (c, b) :: rest => .kw "else" :: .kw "if" :: printE c ++ blockToks (printAll b) ++ printElifs rest
/-- The `else` branch of `write_if`, write.rs:857-860. -/
def printElse : Option (List Expr) → List Tok
  | none => []
  | some b => .kw "else" :: blockToks (printAll b)
/-- `write_item`, write.rs:502-529. -/
def printItem : Item → List Tok
  | .mk name _ current _ ids tryIds =>
    (if current then [.tilde, .name name] else [.name name]) ++ printIds tryIds 0 ids
/-- The loop of `write_item`, write.rs:514-527. -/
def printIds (tryIds : List Nat) : Nat → List Id → List Tok
  | _, [] => []
  | i, d :: ds => printId d ++ (if i ∈ tryIds then [.quest] else []) ++ printIds tryIds (i + 1) ds
/-- One id, write.rs:515-523. -/
def printId : Id → List Tok
  | .str s => [.dot, .name s]
  | .num x => [.lb, .lit (.f64 x none), .rb]
  | .expr e => .lb :: printE e ++ [.rb]
end

end Dyon.Syn
