import Verif.Front.Convert

/-!
# C68: the program text, what the grammar makes of it, and what it means

`Src` is the text of an expression as a reader groups it with the rules of `assets/syntax.txt`;
spaces, comments and the spelling of tokens are gone.  `Src.tree` is what the rules report to
`piston_meta` for it, read off the rules.  `Src.expr` says which program it is, without looking at
the reports: a specification for the conversion.

The types are a little more permissive than the rules: the three rules `expr`, `arg_expr` and
`lexpr` are one type, so are the operators of sums and products, and `(a, , , d)` is a vector.
-/

namespace Dyon.Front

open Syn (BinOp callName)

/-! ## Types, syntax.txt:151-177 -/

/-- Types as they are written. -/
inductive TySrc where
  | any | bool | f64 | str | vec4 | mat4 | link | opt | res | secBool | secF64 | arr | obj | thr | in'
  | optOf (t : TySrc) | resOf (t : TySrc) | arrOf (t : TySrc) | thrOf (t : TySrc) | inOf (t : TySrc)
  | closure (args : List TySrc) (ret : TySrc)
  | adHoc (name : String) (t : Option TySrc)

mutual
/-- What rules 100 and 101 report. -/
def TySrc.tree : TySrc → List Cst
  | .any => [.bool .any true]
  | .bool => [.bool .bool true]
  | .f64 => [.bool .f64 true]
  | .str => [.bool .str true]
  | .vec4 => [.bool .vec4 true]
  | .mat4 => [.bool .mat4 true]
  | .link => [.bool .link true]
  | .opt => [.bool .optAny true]
  | .res => [.bool .resAny true]
  | .secBool => [.bool .secBool true]
  | .secF64 => [.bool .secF64 true]
  | .arr => [.bool .arrAny true]
  | .obj => [.bool .objAny true]
  | .thr => [.bool .thrAny true]
  | .in' => [.bool .inAny true]
  | .optOf t => [.node .opt t.tree]
  | .resOf t => [.node .res t.tree]
  | .arrOf t => [.node .arr t.tree]
  | .thrOf t => [.node .thr t.tree]
  | .inOf t => [.node .in' t.tree]
  | .closure args ret => [.node .closureType (TySrc.trees args ++ [.node .clRet ret.tree])]
  | .adHoc n none => [.str .adHoc n]
  | .adHoc n (some t) => [.str .adHoc n, .node .adHocTy t.tree]
/-- The arguments of a closure. -/
def TySrc.trees : List TySrc → List Cst
  | [] => []
  | t :: ts => .node .clArg t.tree :: TySrc.trees ts
end

mutual
/-- The type that is meant. -/
def TySrc.ty : TySrc → Ty
  | .any => .any
  | .bool => .bool
  | .f64 => .f64
  | .str => .str
  | .vec4 => .vec4
  | .mat4 => .mat4
  | .link => .link
  | .opt => .option .any
  | .res => .result .any
  | .secBool => .secret .bool
  | .secF64 => .secret .f64
  | .arr => .array .any
  | .obj => .object
  | .thr => .thread .any
  | .in' => .inTy .any
  | .optOf t => .option t.ty
  | .resOf t => .result t.ty
  | .arrOf t => .array t.ty
  | .thrOf t => .thread t.ty
  | .inOf t => .inTy t.ty
  | .closure args ret => .closure (TySrc.tys args) ret.ty
  | .adHoc n none => .adHoc n .object
  | .adHoc n (some t) => .adHoc n t.ty
/-- The types of arguments. -/
def TySrc.tys : List TySrc → List Ty
  | [] => []
  | t :: ts => t.ty :: TySrc.tys ts
end

/-! ## Expressions, syntax.txt:30-150, 180-212 -/

/-- An argument of a closure, rule 6. -/
structure ClArg where
  name : String
  ty : Option TySrc := none

/-- A current object behind `~`, rule 11. -/
structure Cur where
  mutable : Bool := false
  name : String
  ty : Option TySrc := none

mutual
/-- An expression, rules 13 to 15. -/
inductive Src where
  | in_ («alias» : Option String) (name : String)
  | closure (args : List ClArg) (currents : List Cur) (e : Src)
  | object (kvs : List (String × Src))
  | array (items : List Src)
  /-- `[fill; n]` -/
  | arrayFill (fill n : Src)
  | forIn (k : ForInKind) (label : Option String) (name : String) (iter : Src) (body : List Src)
  | forN (k : ForKind) (label : Option String) (vars : List Var) (body : List Src)
  | for_ (label : Option String) (init cond step : Src) (body : List Src)
  | loop (label : Option String) (body : List Src)
  | ite (cond : Src) (thn : List Src) (elifs : List (Src × List Src)) (els : Option (List Src))
  | brk (label : Option String)
  | cont (label : Option String)
  | block (es : List Src)
  | assign (l : Src) (op : AssignOp) (r : Src)
  | compare (l : Src) (op : BinOp) (r : Src)
  | ret (e : Src)
  | retVoid
  /-- sums of products -/
  | add (first : Prod') (rest : List (BinOp × Prod'))
  /-- `mat4 {x; y; z; w}`; a row `a, b, c, d` is written as a vector -/
  | mat4 (x : Src) (y z w : Option Src)
  | vec4 (x : Src) (y z w : Option Src)
  | link (items : List Src)
  | grab (level : Option F64) (e : Src)
  | tryExpr (e : Src)
  | paren (e : Src)
  | not (e : Src)
  | norm (e : Src)
  | text (s : String)
  | num (x : F64)
  | bool (b : Bool)
  | color (s : String)
  | go (c : Callee)
  | call (c : Callee)
  | callClosure (it : ItemSrc) (args : List Src)
  | namedCallClosure (it : ItemSrc) (args : List (String × Src))
  | item (it : ItemSrc)
  /-- `vec4 i e`, `vec3 i e`, `vec2 i e` by the number of components that are not zero -/
  | unloop (len : Fin 3) (name : String) (e : Src)
  /-- `e?` -/
  | try_ (e : Src)
  /-- `mut x` as an argument -/
  | mutItem (it : ItemSrc)
  /-- `xyz e` as an argument -/
  | swizzle (a b : Fin 4) (c d : Option (Fin 4)) (e : Src)
/-- A product, rule 206. -/
inductive Prod' where
  | mk (first : Opd) (rest : List (BinOp × Opd))
/-- A factor, rules 29, 205, 15. -/
inductive Opd where
  | neg (p : Prod')
  | pow (l r : Src)
  | plain (e : Src)
/-- A variable with properties, rules 31 and 32. -/
inductive ItemSrc where
  | mk (current : Bool) (name : String) (tryItem : Bool) (ids : List IdSrc)
/-- `[e]` or `.name`, with `?` behind it. -/
inductive IdSrc where
  | str (s : String) (t : Bool)
  | num (x : F64) (t : Bool)
  | expr (e : Src) (t : Bool)
/-- A variable of a counting loop, rules 35 and 61. -/
inductive Var where
  | plain (name : String)
  | upto (name : String) (stop : Src)
  | range (name : String) (start stop : Src)
/-- A call, rules 45 and 46. -/
inductive Callee where
  | plain («alias» : Option String) (name : String) (args : List Src)
  | named («alias» : Option String) (word : String) (args : List (String × Src))
end

/-! ## What the rules report -/

/-- A string that may be missing. -/
def strOpt (l : S) : Option String → List Cst
  | none => []
  | some s => [.str l s]

/-- `?"~":"current"` and so on. -/
def flag (l : B) : Bool → List Cst
  | false => []
  | true => [.bool l true]

/-- The token of an operator, rules 51, 200 to 205. -/
def opTok : BinOp → B
  | .add => .plus
  | .sub => .minus
  | .mul => .times
  | .dot => .dot
  | .cross => .x
  | .div => .div
  | .rem => .rem
  | .pow => .pow
  | .orElse => .orElse
  | .andAlso => .andAlso
  | .less => .less
  | .lessOrEqual => .lessOrEqual
  | .greater => .greater
  | .greaterOrEqual => .greaterOrEqual
  | .equal => .equal
  | .notEqual => .notEqual

/-- The letter of a component, rule 92. -/
def swTok : Fin 4 → B
  | 0 => .x
  | 1 => .y
  | 2 => .z
  | 3 => .w

/-- A component that may be missing, rule 91. -/
def swOpt (l : L) : Option (Fin 4) → List Cst
  | none => []
  | some i => [.node l [.bool (swTok i) true]]

/-- The number behind `vec`, rule 90. -/
def lenTok : Fin 3 → B
  | 0 => .two
  | 1 => .three
  | 2 => .four

/-- A type that may be missing. -/
def tyOpt (l : L) : Option TySrc → List Cst
  | none => []
  | some t => [.node l t.tree]

/-- Rule 6. -/
def ClArg.tree (a : ClArg) : Cst := .node .arg (.str .name a.name :: tyOpt .type a.ty)

/-- Rule 11. -/
def Cur.tree (c : Cur) : Cst :=
  .node .current (flag .mut c.mutable ++ .str .name c.name :: tyOpt .type c.ty)

mutual
/-- What the rules report for an expression, inside the node that the expression has. -/
def Src.tree : Src → List Cst
  | .in_ a n => [.node .in' (strOpt .alias a ++ [.str .name n])]
  | .closure args cur e =>
    [.node .closure (args.map ClArg.tree ++ cur.map Cur.tree ++ [.node .expr e.tree])]
  | .object kvs => [.node .object (treeKVs kvs)]
  | .array items => [.node .array (trees .arrayItem items)]
  | .arrayFill fill n => [.node .arrayFill [.node .fill fill.tree, .node .n n.tree]]
  | .forIn k label n iter body =>
    [.node (.forIn k) (strOpt .label label ++
      [.str .name n, .node .iter iter.tree, .node .block (trees .expr body)])]
  | .forN k label vars body =>
    [.node (.forN k) (strOpt .label label ++ treeVars vars ++ [.node .block (trees .expr body)])]
  | .for_ label init cond step body =>
    [.node .for' (strOpt .label label ++ [.node .init init.tree, .node .cond cond.tree,
      .node .step step.tree, .node .block (trees .expr body)])]
  | .loop label body => [.node .loop (strOpt .label label ++ [.node .block (trees .expr body)])]
  | .ite cond thn elifs els =>
    [.node .if' (.node .cond cond.tree :: .node .trueBlock (trees .expr thn) ::
      treeElifs elifs ++ treeElse els)]
  | .brk label => [.node .brk (strOpt .label label)]
  | .cont label => [.node .cont (strOpt .label label)]
  | .block es => [.node .block (trees .expr es)]
  | .assign l op r =>
    [.node .assign [.node .left l.tree, .bool (.asg op) true, .node .right r.tree]]
  | .compare l op r =>
    [.node .compare [.node .expr l.tree, .bool (opTok op) true, .node .expr r.tree]]
  | .ret e => [.node .ret e.tree]
  | .retVoid => [.bool .returnVoid true]
  | .add first rest => [.node .add (.node .expr [.node .mul first.tree] :: treeAdd rest)]
  | .mat4 x y z w => [.node .mat4 (.node .ex x.tree :: treeOpt .ey y ++ treeOpt .ez z ++ treeOpt .ew w)]
  | .vec4 x y z w => [.node .vec4 (.node .x x.tree :: treeOpt .y y ++ treeOpt .z z ++ treeOpt .w w)]
  | .link items => [.node .link (trees .linkItem items)]
  | .grab none e => [.node .grab [.node .expr e.tree]]
  | .grab (some level) e => [.node .grab [.num .grabLevel level, .node .expr e.tree]]
  | .tryExpr e => [.node .tryExpr [.node .expr e.tree]]
  | .paren e => e.tree
  | .not e => [.node .not [.node .expr e.tree]]
  | .norm e => [.node .norm [.node .expr e.tree]]
  | .text s => [.str .text s]
  | .num x => [.num .num x]
  | .bool b => [.bool .bool b]
  | .color s => [.str .color s]
  | .go c => [.node .go [c.tree]]
  | .call c => [c.tree]
  | .callClosure it args => [.node .callClosure (it.tree :: trees .callArg args)]
  | .namedCallClosure it args => [.node .namedCallClosure (it.tree :: treeWords args)]
  | .item it => [it.tree]
  | .unloop len n e => [.node .vec4UnLoop [.bool (lenTok len) true, .str .name n, .node .expr e.tree]]
  | .try_ e => e.tree ++ [.bool .try' true]
  | .mutItem it => [.bool .mut true, it.tree]
  | .swizzle a b c d e =>
    [.node .swizzle (.node .sw0 [.bool (swTok a) true] :: .node .sw1 [.bool (swTok b) true] ::
      swOpt .sw2 c ++ swOpt .sw3 d ++ [.node .expr e.tree])]
/-- Expressions, each in a node of its own. -/
def trees (l : L) : List Src → List Cst
  | [] => []
  | e :: es => .node l e.tree :: trees l es
/-- Rule 19. -/
def treeKVs : List (String × Src) → List Cst
  | [] => []
  | (k, e) :: r => .node .keyValue [.str .key k, .node .val e.tree] :: treeKVs r
/-- Rule 61. -/
def treeVars : List Var → List Cst
  | [] => []
  | v :: vs => v.tree ++ treeVars vs
/-- Rule 61. -/
def Var.tree : Var → List Cst
  | .plain n => [.str .name n]
  | .upto n b => [.str .name n, .node .end' b.tree]
  | .range n a b => [.str .name n, .node .start a.tree, .node .end' b.tree]
/-- Rule 44. -/
def treeElifs : List (Src × List Src) → List Cst
  | [] => []
  | (c, b) :: r => .node .elseIfCond c.tree :: .node .elseIfBlock (trees .expr b) :: treeElifs r
/-- Rule 44. -/
def treeElse : Option (List Src) → List Cst
  | none => []
  | some b => [.node .elseBlock (trees .expr b)]
/-- An expression that may be missing. -/
def treeOpt (l : L) : Option Src → List Cst
  | none => []
  | some e => [.node l e.tree]
/-- Rule 208 after the first summand. -/
def treeAdd : List (BinOp × Prod') → List Cst
  | [] => []
  | (op, p) :: r => .bool (opTok op) true :: .node .expr [.node .mul p.tree] :: treeAdd r
/-- Rule 206. -/
def Prod'.tree : Prod' → List Cst
  | .mk first rest => first.tree :: treeMul rest
/-- Rule 206 after the first factor. -/
def treeMul : List (BinOp × Opd) → List Cst
  | [] => []
  | (op, o) :: r => .bool (opTok op) true :: o.tree :: treeMul r
/-- Rules 29, 205 and 15. -/
def Opd.tree : Opd → Cst
  | .neg p => .node .neg [.node .expr [.node .mul p.tree]]
  | .pow l r => .node .pow [.node .expr l.tree, .bool .pow true, .node .expr r.tree]
  | .plain e => .node .expr e.tree
/-- Rule 31. -/
def ItemSrc.tree : ItemSrc → Cst
  | .mk cur n t [] => .node .item (flag .current cur ++ .str .name n :: flag .tryItem t)
  | .mk cur n t (i :: ids) =>
    .node .item (flag .current cur ++ .str .name n :: flag .tryItem t ++
      [.node .itemExtra (treeIds (i :: ids))])
/-- Rule 32. -/
def treeIds : List IdSrc → List Cst
  | [] => []
  | i :: r => i.tree ++ treeIds r
/-- Rule 32. -/
def IdSrc.tree : IdSrc → List Cst
  | .str s t => .str .id s :: flag .tryId t
  | .num x t => .num .id x :: flag .tryId t
  | .expr e t => .node .id e.tree :: flag .tryId t
/-- Rules 45 and 46. -/
def Callee.tree : Callee → Cst
  | .plain a n args => .node .call (strOpt .alias a ++ .str .name n :: trees .callArg args)
  | .named a w args => .node .namedCall (strOpt .alias a ++ .str .word w :: treeWords args)
/-- Arguments with words, rules 9 and 46. -/
def treeWords : List (String × Src) → List Cst
  | [] => []
  | (w, e) :: r => .str .word w :: .node .callArg e.tree :: treeWords r
end

/-! ## Functions, syntax.txt:12-35 -/

/-- A condition behind `=>` on an argument, rule 5. -/
inductive LazySrc where
  | ok | err | some
  | expr (e : Src)

/-- An argument of a function, rule 5. -/
structure FnArg where
  mutable : Bool := false
  name : String
  lifetime : Option String := none
  ty : Option TySrc := none
  lazy : List LazySrc := []

/-- What a function gives back and does, rule 3.  The extra types behind the block are any reports:
the conversion skips them. -/
inductive BodySrc where
  /-- `{ .. }` -/
  | block (es : List Src) (tys : List (List Cst))
  /-- `-> { .. }` and `-> t { .. }` -/
  | returns (ty : Option TySrc) (es : List Src) (tys : List (List Cst))
  /-- `= e` -/
  | expr (e : Src)

/-- A function, rule 3. -/
structure FnSrc where
  name : String
  args : List FnArg := []
  currents : List Cur := []
  body : BodySrc

/-- Rule 5. -/
def LazySrc.tree : LazySrc → Cst
  | .ok => .bool .okLazy true
  | .err => .bool .errLazy true
  | .some => .bool .someLazy true
  | .expr e => .node .grab [.node .expr e.tree]

/-- Rule 5. -/
def FnArg.tree (a : FnArg) : Cst :=
  .node .arg (flag .mut a.mutable ++ .str .name a.name :: strOpt .lifetime a.lifetime ++ tyOpt .type a.ty ++
    a.lazy.map LazySrc.tree)

/-- Rule 3 behind the arguments and current objects. -/
def BodySrc.tree : BodySrc → List Cst
  | .block es tys => .bool .returns false :: .node .block (trees .expr es) :: tys.map (.node .ty)
  | .returns ty es tys =>
    .bool .returns true :: tyOpt .retType ty ++ .node .block (trees .expr es) :: tys.map (.node .ty)
  | .expr e => [.node .expr e.tree]

/-- Rule 3. -/
def FnSrc.tree (f : FnSrc) : Cst :=
  .node .fn (.str .name f.name :: f.args.map FnArg.tree ++ f.currents.map Cur.tree ++ f.body.tree)

/-! ## What is meant -/

namespace Spec

/-- A call of a function with a plain name. -/
def app (name : String) (args : List Expr) : Expr := .call .none name args

/-- The argument is passed as `mut x`. -/
def isMut : Src → Bool
  | .mutItem _ => true
  | .paren e => isMut e
  | .try_ e => isMut e
  | _ => false

/-- The name of a function with its `mut` arguments: `f(mut,_)`. -/
def nameWith (name : String) (muts : List Bool) : String :=
  if true ∈ muts then name ++ "(" ++ ",".intercalate (muts.map fun m => if m then "mut" else "_") ++ ")"
  else name

/-- The name of a function behind an alias. -/
def inside : Option String → String → String
  | none, name => name
  | some a, name => a ++ "::" ++ name

/-- The name of a function called with words: `a__b_c` for `a(b: .., c: ..)`. -/
def wordName (word : String) (words : List String) : String :=
  words.foldl (fun n w => n ++ "_" ++ w) (word ++ "_")

/-- The alias in front of a called name. -/
def via : Callee → Option String
  | .plain a _ _ | .named a _ _ => a

/-- The called name without the alias in front. -/
def bare : Callee → String
  | .plain _ n args => nameWith n (args.map isMut)
  | .named _ w args => nameWith (wordName w (args.map (·.1))) (args.map fun x => isMut x.2)

/-- Words joined by `_`; words are not empty. -/
def joined : List String → String
  | [] => ""
  | w :: ws => ws.foldl (fun n w => if n = "" then w else n ++ "_" ++ w) w

/-- Which properties have a `?`, counted from `k`. -/
def tries (k : Nat) : List IdSrc → List Nat
  | [] => []
  | .str _ t :: r | .num _ t :: r | .expr _ t :: r => (if t then [k] else []) ++ tries (k + 1) r

/-- A call of a closure with words looks for the name followed by `__` and the words, in the
variable or in the property at the end if that is a name. -/
def closureItem (words : String) : Item → Item
  | .mk n sid cur t ids tids => match ids.getLast? with
    | none => .mk (n ++ "__" ++ words) sid cur t ids tids
    | some (.str s) => .mk n sid cur t (ids.dropLast ++ [.str (s ++ "__" ++ words)]) tids
    | some _ => .mk n sid cur t ids tids

variable [FloatOps] [Data.Lex]

mutual
/-- The program that an expression is; none if a colour is not one or the range of a loop is
not to be found. -/
def expr (file : String) : Src → Option Expr
  | .in_ _ _ => some (.in_ .none)
  | .closure args cur e => do
    some (.closure (args.map (·.name)) (cur.map (·.name)) true file (← expr file e))
  | .object kvs => do some (.object (← pairs file kvs))
  | .array items => do some (.array (← exprs file items))
  | .arrayFill fill n => do some (.arrayFill (← expr file fill) (← expr file n))
  | .forIn k label n iter body => do
    some (.forIn k n (← expr file iter) (← exprs file body) label)
  | .forN k label vs body => do Syn.createForN k label (← vars file vs) (← exprs file body)
  | .for_ label init cond step body => do
    some (.for_ (← expr file init) (← expr file cond) (← expr file step) (← exprs file body) label)
  | .loop label body => do
    some (.for_ (.block []) (.const (.ofBool true)) (.block []) (← exprs file body) label)
  | .ite cond thn elifs els => do
    some (.ite (← expr file cond) (← exprs file thn) (← elseIfs file elifs) (← otherwise file els))
  | .brk label => some (.brk label)
  | .cont label => some (.cont label)
  | .block es => do some (.block (← exprs file es))
  | .assign l op r => do some (.assign op (← expr file l) (← expr file r))
  | .compare l op r => do some (app (callName op) [← expr file l, ← expr file r])
  | .ret e => do some (.ret (← expr file e))
  | .retVoid => some .retVoid
  | .add first rest => do addRest file (← product file first) rest
  | .mat4 x y z w => do
    some (.mat4 [← expr file x, ← orElse file (.const (.vec4 ⟨0, one32, 0, 0⟩)) y,
      ← orElse file (.const (.vec4 ⟨0, 0, one32, 0⟩)) z,
      ← orElse file (.const (.vec4 ⟨0, 0, 0, one32⟩)) w])
  | .vec4 x y z w => do
    let zero : Expr := .const (.ofF64 F64.zero)
    some (.vec4 [← expr file x, ← orElse file zero y, ← orElse file zero z, ← orElse file zero w])
  | .link items => do some (.link (← exprs file items))
  | .grab level e => do some (foldGrab ((level.map fun x => min x.toUsize 65535).getD 1) (← expr file e))
  | .tryExpr e => do some (.tryExpr (← expr file e))
  | .paren e => expr file e
  | .not e => do some (app "not" [← expr file e])
  | .norm e => do some (app "norm" [← expr file e])
  | .text s => some (.const (.str s))
  | .num x => some (.const (.ofF64 x))
  | .bool b => some (.const (.ofBool b))
  | .color s => do
    let (r, g, b, a) ← Data.Lex.rgba s.toList
    some (.const (.vec4 ⟨Data.Lex.channel r, Data.Lex.channel g, Data.Lex.channel b, Data.Lex.channel (a.getD 255)⟩))
  | .go c => do
    let (_, args) ← callee file c
    some (.go (bare c) args)
  | .call c => do
    let (name, args) ← callee file c
    some (app name args)
  | .callClosure it args => do some (.callClosure (← item file it) (← exprs file args))
  | .namedCallClosure it args => do
    some (.callClosure (closureItem (joined (args.map (·.1))) (← item file it)) (← worded file args))
  | .item it => do some (.item (← item file it))
  | .unloop len n e => do some (Syn.unloop (len + 2) n (← expr file e))
  | .try_ e => do some (.try_ (← expr file e))
  | .mutItem it => do some (.item (← item file it))
  | .swizzle a b c d e => do
    some (.swizzle (([some a, some b, c, d].filterMap id).map (·.val)) (← expr file e))
/-- Expressions in order. -/
def exprs (file : String) : List Src → Option (List Expr)
  | [] => some []
  | e :: es => do some ((← expr file e) :: (← exprs file es))
/-- Keys and values in order. -/
def pairs (file : String) : List (String × Src) → Option (List (String × Expr))
  | [] => some []
  | (k, e) :: es => do some ((k, ← expr file e) :: (← pairs file es))
/-- Arguments without their words. -/
def worded (file : String) : List (String × Src) → Option (List Expr)
  | [] => some []
  | (_, e) :: es => do some ((← expr file e) :: (← worded file es))
/-- Variables of a counting loop with start and end. -/
def vars (file : String) : List Var → Option (List (String × Option Expr × Option Expr))
  | [] => some []
  | v :: vs => do some ((← var file v) :: (← vars file vs))
/-- A variable of a counting loop with start and end. -/
def var (file : String) : Var → Option (String × Option Expr × Option Expr)
  | .plain n => some (n, none, none)
  | .upto n b => do some (n, none, some (← expr file b))
  | .range n a b => do some (n, some (← expr file a), some (← expr file b))
/-- `else if`. -/
def elseIfs (file : String) : List (Src × List Src) → Option (List (Expr × List Expr))
  | [] => some []
  | (c, b) :: r => do some ((← expr file c, ← exprs file b) :: (← elseIfs file r))
/-- `else`. -/
def otherwise (file : String) : Option (List Src) → Option (Option (List Expr))
  | none => some none
  | some b => do some (some (← exprs file b))
/-- A component, or what stands for it if it is not written. -/
def orElse (file : String) (d : Expr) : Option Src → Option Expr
  | none => some d
  | some e => expr file e
/-- Summands from the left to the right. -/
def addRest (file : String) (l : Expr) : List (BinOp × Prod') → Option Expr
  | [] => some l
  | (op, p) :: r => do addRest file (app (callName op) [l, ← product file p]) r
/-- A product. -/
def product (file : String) : Prod' → Option Expr
  | .mk first rest => do mulRest file (← operand file first) rest
/-- Factors from the left to the right. -/
def mulRest (file : String) (l : Expr) : List (BinOp × Opd) → Option Expr
  | [] => some l
  | (op, o) :: r => do mulRest file (app (callName op) [l, ← operand file o]) r
/-- A factor. -/
def operand (file : String) : Opd → Option Expr
  | .neg p => do some (app "neg" [← product file p])
  | .pow l r => do some (app "pow" [← expr file l, ← expr file r])
  | .plain e => expr file e
/-- A variable with properties. -/
def item (file : String) : ItemSrc → Option Item
  | .mk cur n t is => do some (.mk n none cur t (← ids file is) (tries 0 is))
/-- Properties in order. -/
def ids (file : String) : List IdSrc → Option (List Id)
  | [] => some []
  | i :: r => do some ((← id' file i) :: (← ids file r))
/-- A property. -/
def id' (file : String) : IdSrc → Option Id
  | .str s _ => some (.str s)
  | .num x _ => some (.num x)
  | .expr e _ => do some (.expr (← expr file e))
/-- The name and the arguments of a call. -/
def callee (file : String) : Callee → Option (String × List Expr)
  | .plain a n args => do
    some (inside a (bare (.plain a n args)), ← exprs file args)
  | .named a w args => do
    some (inside a (bare (.named a w args)), ← worded file args)
end

/-- A condition on an argument; none if its value is not known before the program runs. -/
def lazy (file : String) : LazySrc → Option Lazy
  | .ok => some .unwrapOk
  | .err => some .unwrapErr
  | .some => some .unwrapSome
  | .expr e => do some (.variable (← preExpr (← expr file e)))

/-- The list up to its last element that is not empty. -/
def upToLast {α : Type} : List (List α) → List (List α)
  | [] => []
  | a :: r => if a.isEmpty && (upToLast r).isEmpty then [] else a :: upToLast r

/-- The statements of a function. -/
def body (file : String) : BodySrc → Option (List Expr)
  | .block es _ | .returns _ es _ => exprs file es
  | .expr e => do some [.ret (← expr file e)]

/-- The function gives something back. -/
def returns : BodySrc → Bool
  | .block _ _ => false
  | .returns _ _ _ | .expr _ => true

/-- The function that is meant. -/
def fn (file : String) (f : FnSrc) : Option Func := do
  let conds ← f.args.mapM fun a => a.lazy.mapM (lazy file)
  some {
    name := nameWith f.name (f.args.map (·.mutable))
    file := file
    args := f.args.map (·.name)
    lazyInv := upToLast conds
    currents := f.currents.map (·.name)
    returns := returns f.body
    body := ← body file f.body }

end Spec

end Dyon.Front
