import Verif.Front.Tree

/-!
# From the syntax tree to the program, `from_meta_data` in `src/ast/mod.rs` and `src/ty.rs`

Every `from_meta_data` goes through the parts of a node from the first to the last.  A part is a
string, number, truth value or a node; a node is converted by the function for its name.  A part
that the function of the surrounding node does not expect, or that could not be converted, is put
into `ignored`, and then the file is not loaded (`check_ignored_meta_data`, lib.rs:721-760); the
function itself may go on or fail, which makes no difference to a load that fails anyway.  So a
failure is `err` here, at the first place.  `panic` is a panic of the thread that loads.

`assemble` is what each function makes of its converted parts.  The model converts the parts
before looking at whether they are expected; the code the other way around.

Left out: source ranges, the types of arguments.  Namespaces and imports are in `Front/Head.lean`.  The
name of a call with an alias is written `alias::name` (`Expr.call` has no alias); the name behind
`in` is dropped, as in `Expr.in_`.
-/

namespace Dyon.Front

open Syn (BinOp)

/-- Why a file is not loaded. -/
inductive Bad where
  | err
  | panic
deriving DecidableEq, Repr

/-- Result of a conversion. -/
abbrev Cv := Except Bad

/-- `x.ok_or(())?`. -/
def want {α} : Option α → Cv α
  | some a => .ok a
  | none => .error .err

/-- What a node is converted to. -/
inductive Made where
  /-- an expression -/
  | expr (e : Expr)
  /-- `struct Block`, ast/mod.rs:976-982 -/
  | block (es : List Expr)
  /-- `struct Item`, ast/mod.rs:2313-2336 -/
  | item (it : Item)
  /-- `struct Call`, ast/mod.rs:2647-2656, with the alias of `struct CallInfo`, 2578-2585 -/
  | call (via : Option String) (name : String) (args : List Expr)
  /-- a key and its value, ast/mod.rs:1829-1864 -/
  | kv (k : String) (e : Expr)
  /-- `struct Sw`, ast/mod.rs:3841-3846 -/
  | sw (i : Nat)
  /-- `struct Arg` and its lazy invariants, ast/mod.rs:826-838 -/
  | arg (name : String) (mutable : Bool) (lazy : List Lazy)
  /-- `struct Current`, ast/mod.rs:921-928 -/
  | current (name : String)
  /-- `struct Grab`, ast/mod.rs:650-659 -/
  | grab (level : Nat) (e : Expr)
  /-- `enum Type`, ty.rs:12-60 -/
  | ty (t : Ty)
  /-- `struct Function`, ast/mod.rs:365-393 -/
  | fn (f : Func)
  /-- what is not kept -/
  | skip

/-- A part of a node.  The first truth value of an argument is `mut` if it is passed so
(`peek`, ast/mod.rs:2702-2709). -/
inductive Part where
  | str (l : S) (s : String)
  | num (l : F) (x : F64)
  | bool (l : B) (b : Bool)
  | node (l : L) (muts : Bool) (v : Made)
  /-- `item_extra`: its parts are read as parts of the item, ast/mod.rs:2406-2410 -/
  | extra (ps : List Part)

section
variable [FloatOps] [Data.Lex]

/-! ## Types -/

/-- The types without parts, ty.rs:482-520, 565-568, 577-580. -/
def tyName : B → Option Ty
  | .any => some .any
  | .bool => some .bool
  | .secBool => some (.secret .bool)
  | .f64 => some .f64
  | .secF64 => some (.secret .f64)
  | .str => some .str
  | .vec4 => some .vec4
  | .mat4 => some .mat4
  | .link => some .link
  | .optAny => some (.option .any)
  | .resAny => some (.result .any)
  | .arrAny => some (.array .any)
  | .objAny => some .object
  | .thrAny => some (.thread .any)
  | .inAny => some (.inTy .any)
  | _ => none

/-- `Type::from_meta_data`, ty.rs:468-597: `ty` is what was read so far. -/
def readTy (ty : Option Ty) : List Part → Cv Ty
  | [] => want ty
  | .bool l _ :: r => match tyName l with
    | some t => readTy (some t) r
    | none => .error .err
  | .node .opt _ (.ty t) :: r => readTy (some (.option t)) r
  | .node .res _ (.ty t) :: r => readTy (some (.result t)) r
  | .node .arr _ (.ty t) :: r => readTy (some (.array t)) r
  | .node .thr _ (.ty t) :: r => readTy (some (.thread t)) r
  | .node .in' _ (.ty t) :: r => readTy (some (.inTy t)) r
  | .node .closureType _ (.ty t) :: r => readTy (some t) r
  | .str .adHoc s :: .node .adHocTy _ (.ty t) :: r => readTy (some (.adHoc s t)) r
  | .str .adHoc s :: r => readTy (some (.adHoc s .object)) r
  | _ => .error .err

/-- The type of closures, ty.rs:540-561: arguments, then one result. -/
def readClosureTy (args : List Ty) : List Part → Cv Ty
  | .node .clArg _ (.ty t) :: r => readClosureTy (args ++ [t]) r
  | [.node .clRet _ (.ty t)] => .ok (.closure args t)
  | _ => .error .err

/-! ## Expressions -/

/-- The loop over the arguments, ast/mod.rs:479-486, 2725-2732, 2807-2814: `first` is whether no
argument is written yet. -/
def mutArgs (first : Bool) : List Bool → String → String
  | [], s => s
  | m :: ms, s => mutArgs false ms ((if first then s else s.push ',') ++ if m then "mut" else "_")

/-- `mut` in names: `(mut,_)` behind the name if an argument is mutable,
ast/mod.rs:475-489, 2721-2735, 2803-2816. -/
def mutName (name : String) (mutable : List Bool) : String :=
  if mutable.any id then mutArgs true mutable (name ++ "(") ++ ")" else name

/-- The name of a call with its alias. -/
def aliased (a : Option String) (name : String) : String :=
  match a with
  | some a => a ++ "::" ++ name
  | none => name

/-- A node inside an expression, ast/mod.rs:1172-1435. -/
def altNode : L → Made → Option Expr
  | .ret, .expr e => some (.ret e)
  | .block, .block es => some (.block es)
  | .item, .item it => some (.item it)
  | .call, .call a name args => some (.call .none (aliased a name) args)
  | .namedCall, .call a name args => some (.call .none (aliased a name) args)
  | .grab, .grab level e => some (foldGrab level e)
  | .link, .expr e | .object, .expr e | .array, .expr e | .arrayFill, .expr e | .brk, .expr e
  | .cont, .expr e | .add, .expr e | .not, .expr e | .mul, .expr e | .compare, .expr e
  | .norm, .expr e | .vec4, .expr e | .mat4, .expr e | .vec4UnLoop, .expr e | .go, .expr e
  | .assign, .expr e | .for', .expr e | .forN _, .expr e | .loop, .expr e | .if', .expr e
  | .swizzle, .expr e | .closure, .expr e | .callClosure, .expr e | .namedCallClosure, .expr e
  | .tryExpr, .expr e | .in', .expr e | .forIn _, .expr e => some e
  | _, _ => none

/-- `#FFFFFF`, ast/mod.rs:1263-1275. -/
def color (s : String) : Option Val :=
  (Data.Lex.rgba s.toList).map fun (r, g, b, a) =>
    .vec4 ⟨Data.Lex.channel r, Data.Lex.channel g, Data.Lex.channel b, Data.Lex.channel (a.getD 255)⟩

/-- One part of an expression, ast/mod.rs:1169-1440: `acc` is `result`. -/
def altPart (acc : Option Expr) : Part → Cv (Option Expr)
  | .bool .mut _ => .ok acc
  | .bool .returnVoid _ => .ok (some .retVoid)
  | .bool .bool b => .ok (some (.const (.ofBool b)))
  | .bool .try' _ => match acc with
    | some e => .ok (some (.try_ e))
    | none => .error .panic
  | .str .text s => .ok (some (.const (.str s)))
  | .str .color s => match color s with
    | some v => .ok (some (.const v))
    | none => .error .err
  | .num .num x => .ok (some (.const (.ofF64 x)))
  | .node l _ v => match altNode l v with
    | some e => .ok (some e)
    | none => .error .err
  | _ => .error .err

/-- `Expression::from_meta_data`, ast/mod.rs:1153-1445. -/
def readExpr (acc : Option Expr) : List Part → Cv Expr
  | [] => want acc
  | p :: r => do
    let acc ← altPart acc p
    readExpr acc r

/-- The nodes with the name `l` that hold one expression each, nothing else being expected:
`Block`, ast/mod.rs:994-1013, `Link`, 1710-1729, `Array`, 1901-1920. -/
def exprs (l : L) : List Part → Cv (List Expr)
  | [] => .ok []
  | .node k _ (.expr e) :: r => if k = l then do .ok (e :: (← exprs l r)) else .error .err
  | _ => .error .err

/-- The pairs of an object, ast/mod.rs:1788-1807. -/
def kvs : List Part → Cv (List (String × Expr))
  | [] => .ok []
  | .node .keyValue _ (.kv k e) :: r => do .ok ((k, e) :: (← kvs r))
  | _ => .error .err

/-- The operator of a name, ast/mod.rs:2089-2137. -/
def binOp : B → Option BinOp
  | .dot => some .dot
  | .x => some .cross
  | .times => some .mul
  | .div => some .div
  | .rem => some .rem
  | .plus => some .add
  | .minus => some .sub
  | .orElse => some .orElse
  | .pow => some .pow
  | .andAlso => some .andAlso
  | .less => some .less
  | .lessOrEqual => some .lessOrEqual
  | .greater => some .greater
  | .greaterOrEqual => some .greaterOrEqual
  | .equal => some .equal
  | .notEqual => some .notEqual
  | _ => none

/-- `BinOpSeq::from_meta_data`, ast/mod.rs:2057-2143. -/
def readSeq (items : List Expr) (ops : List BinOp) : List Part → Cv (List Expr × List BinOp)
  | [] => .ok (items, ops)
  | .node .neg _ (.expr e) :: r => readSeq (items ++ [e]) ops r
  | .node .pow _ (.expr e) :: r => readSeq (items ++ [e]) ops r
  | .node .expr _ (.expr e) :: r => readSeq (items ++ [e]) ops r
  | .bool l _ :: r => match binOp l with
    | some op => readSeq items (ops ++ [op]) r
    | none => .error .err
  | _ => .error .err

/-- A sequence of operators as an expression, ast/mod.rs:2144-2173. -/
def seqExpr (ps : List Part) : Cv Made := do
  let (items, ops) ← readSeq [] [] ps
  if items.isEmpty then .error .err
  else match Syn.intoExpression items ops with
    | some e => .ok (.expr e)
    | none => .error .panic

/-- What is read of an item. -/
structure ItemP where
  name : Option String := none
  current : Bool := false
  tryFlag : Bool := false
  ids : List Id := []
  tryIds : List Nat := []

/-- One part of an item, ast/mod.rs:2397-2433, apart from `item_extra`. -/
def itemPart (p : ItemP) : Part → Cv ItemP
  | .str .name s => .ok { p with name := some s }
  | .bool .current _ => .ok { p with current := true }
  | .bool .tryItem _ => .ok { p with tryFlag := true }
  | .str .id s => .ok { p with ids := p.ids ++ [.str s] }
  | .num .id x => .ok { p with ids := p.ids ++ [.num x] }
  | .node .id _ (.expr e) => .ok { p with ids := p.ids ++ [.expr e] }
  | .bool .tryId _ =>
    if p.ids.isEmpty then .error .panic
    else .ok { p with tryIds := p.tryIds ++ [p.ids.length - 1] }
  | _ => .error .err

/-- The parts of an item in order. -/
def itemParts (p : ItemP) : List Part → Cv ItemP
  | [] => .ok p
  | .extra ps :: r => do
    let p ← ps.foldlM itemPart p
    itemParts p r
  | q :: r => do
    let p ← itemPart p q
    itemParts p r

/-- `Item::from_meta_data`, ast/mod.rs:2377-2449. -/
def readItem (ps : List Part) : Cv Made := do
  let p ← itemParts {} ps
  let name ← want p.name
  .ok (.item (.mk name none p.current p.tryFlag p.ids p.tryIds))

/-- What is read of a call. -/
structure CallP where
  «alias» : Option String := none
  name : Option String := none
  /-- the name put together from words -/
  words : String := ""
  item : Option Item := none
  args : List Expr := []
  mutable : List Bool := []

/-- One part of a call with names (`call`), words (`named`) or an item in front (`closure`),
ast/mod.rs:2693-2717, 2772-2802, 2961-2982, 3015-3042.  Words of a call of a function are joined
as `a_` and `_b`, those of a call of a closure by `_`. -/
def callPart (named closure : Bool) (p : CallP) : Part → Cv CallP
  | .str .alias s => if closure then .error .err else .ok { p with «alias» := some s }
  | .str .name s => if closure || named then .error .err else .ok { p with name := some s }
  | .str .word s =>
    if !named then .error .err
    else if p.words.isEmpty then .ok { p with words := if closure then s else s ++ "_" }
    else .ok { p with words := p.words ++ "_" ++ s }
  | .node .item _ (.item it) => if closure then .ok { p with item := some it } else .error .err
  | .node .callArg m (.expr e) => .ok { p with args := p.args ++ [e], mutable := p.mutable ++ [m] }
  | _ => .error .err

/-- The parts of a call in order. -/
def callParts (named closure : Bool) (ps : List Part) : Cv CallP :=
  ps.foldlM (callPart named closure) {}

/-- `Call::from_meta_data`, ast/mod.rs:2674-2750. -/
def readCall (ps : List Part) : Cv Made := do
  let p ← callParts false false ps
  let name ← want p.name
  .ok (.call p.alias (mutName name p.mutable) p.args)

/-- `Call::named_from_meta_data`, ast/mod.rs:2753-2831. -/
def readNamedCall (ps : List Part) : Cv Made := do
  let p ← callParts true false ps
  .ok (.call p.alias (mutName p.words p.mutable) p.args)

/-- `CallClosure::from_meta_data`, ast/mod.rs:2943-2993. -/
def readCallClosure (ps : List Part) : Cv Made := do
  let p ← callParts false true ps
  let it ← want p.item
  .ok (.expr (.callClosure it p.args))

/-- `__name` behind the last property if it is a string, ast/mod.rs:3051-3059. -/
def renameLast (name : String) : List Id → List Id
  | [] => []
  | [.str s] => [.str (s ++ "__" ++ name)]
  | i :: r => i :: renameLast name r

/-- The item of a call of a closure with words, ast/mod.rs:3044-3060. -/
def renameItem (name : String) : Item → Item
  | .mk n sid cur t ids tids =>
    if ids.isEmpty then .mk (n ++ "__" ++ name) sid cur t ids tids
    else .mk n sid cur t (renameLast name ids) tids

/-- `CallClosure::named_from_meta_data`, ast/mod.rs:2996-3069. -/
def readNamedCallClosure (ps : List Part) : Cv Made := do
  let p ← callParts true true ps
  let it ← want p.item
  .ok (.expr (.callClosure (renameItem p.words it) p.args))

/-- One step of the search for the last expression with a name. -/
def lastStep (l : L) (acc : Option Expr) : Part → Option Expr
  | .node k _ (.expr e) => if k = l then some e else acc
  | _ => acc

/-- The last node with a name; ends with an error at a part that `ok` does not expect.
`let mut x = None; loop { .. x = Some(val) .. }`. -/
def last (l : L) (ps : List Part) : Option Expr := ps.foldl (lastStep l) none

/-- One step of the search for the last block with a name. -/
def lastBlockStep (l : L) (acc : Option (List Expr)) : Part → Option (List Expr)
  | .node k _ (.block es) => if k = l then some es else acc
  | _ => acc

/-- The last block with a name. -/
def lastBlock (l : L) (ps : List Part) : Option (List Expr) := ps.foldl (lastBlockStep l) none

/-- One step of the search for the last string with a name. -/
def lastStrStep (l : S) (acc : Option String) : Part → Option String
  | .str k s => if k = l then some s else acc
  | _ => acc

/-- The last string with a name. -/
def lastStr (l : S) (ps : List Part) : Option String := ps.foldl (lastStrStep l) none

/-- The last component of a swizzle with a name. -/
def lastSw (l : L) (ps : List Part) : Option Nat :=
  ps.foldl (fun acc p => match p with
    | .node k _ (.sw i) => if k = l then some i else acc
    | _ => acc) none

/-- A part is among the strings, truth values and nodes. -/
def among (ss : List S) (bs : List B) (ls : List L) : Part → Bool
  | .str l _ => l ∈ ss
  | .bool l _ => l ∈ bs
  | .node l _ _ => l ∈ ls
  | _ => false

/-- `ignored` stays empty: all parts are among the strings, truth values and nodes. -/
def only (ss : List S) (bs : List B) (ls : List L) (ps : List Part) : Cv Unit :=
  if ps.all (among ss bs ls) then .ok () else .error .err

/-- `Norm` and `UnOpExpression`, ast/mod.rs:3130-3179, 3234-3281. -/
def readUnop (name : String) (ps : List Part) : Cv Made := do
  only [] [] [.expr] ps
  let e ← want (last .expr ps)
  .ok (.expr (.call .none name [e]))

/-- The operator of an assignment, ast/mod.rs:3316-3339. -/
def lastAsg (ps : List Part) : Option AssignOp :=
  ps.foldl (fun acc p => match p with
    | .bool (.asg o) _ => some o
    | _ => acc) none

/-- `Assign::from_meta_data`, ast/mod.rs:3298-3369. -/
def readAssign (ps : List Part) : Cv Made := do
  only [] [.asg .assign, .asg .set, .asg .add, .asg .sub, .asg .mul, .asg .div, .asg .rem, .asg .pow]
    [.left, .right] ps
  let op ← want (lastAsg ps)
  let l ← want (last .left ps)
  let r ← want (last .right ps)
  .ok (.expr (.assign op l r))

/-- `1.0` as `f32`. -/
def one32 : F32 := 0x3f800000#32

/-- `Mat4::from_meta_data`, ast/mod.rs:3447-3519. -/
def readMat4 (ps : List Part) : Cv Made := do
  only [] [] [.ex, .ey, .ez, .ew] ps
  let x ← want (last .ex ps)
  .ok (.expr (.mat4 [x, (last .ey ps).getD (.const (.vec4 ⟨0, one32, 0, 0⟩)),
    (last .ez ps).getD (.const (.vec4 ⟨0, 0, one32, 0⟩)),
    (last .ew ps).getD (.const (.vec4 ⟨0, 0, 0, one32⟩))]))

/-- `Vec4::from_meta_data`, ast/mod.rs:3551-3614. -/
def readVec4 (ps : List Part) : Cv Made := do
  only [] [] [.x, .y, .z, .w] ps
  let x ← want (last .x ps)
  let zero : Expr := .const (.ofF64 F64.zero)
  .ok (.expr (.vec4 [x, (last .y ps).getD zero, (last .z ps).getD zero, (last .w ps).getD zero]))

/-- The length of an unrolled loop, ast/mod.rs:3688, 3693-3701. -/
def lastLen (ps : List Part) : Nat :=
  ps.foldl (fun acc p => match p with
    | .bool .four _ => 4
    | .bool .three _ => 3
    | .bool .two _ => 2
    | _ => acc) 4

/-- `Vec4UnLoop::from_meta_data`, ast/mod.rs:3675-3729. -/
def readUnloop (ps : List Part) : Cv Made := do
  only [.name] [.four, .three, .two] [.expr] ps
  let name ← want (lastStr .name ps)
  let e ← want (last .expr ps)
  .ok (.expr (Syn.unloop (lastLen ps) name e))

/-- `Sw::from_meta_data`, ast/mod.rs:3850-3892. -/
def readSw (ind : Option Nat) : List Part → Cv Made
  | [] => do .ok (.sw (← want ind))
  | .bool .x _ :: r => readSw (some 0) r
  | .bool .y _ :: r => readSw (some 1) r
  | .bool .z _ :: r => readSw (some 2) r
  | .bool .w _ :: r => readSw (some 3) r
  | _ => .error .err

/-- `Swizzle::from_meta_data`, ast/mod.rs:3774-3832; the components that are there, as
`Expr.swizzle` has them. -/
def readSwizzle (ps : List Part) : Cv Made := do
  only [] [] [.sw0, .sw1, .sw2, .sw3, .expr] ps
  let a ← want (lastSw .sw0 ps)
  let b ← want (lastSw .sw1 ps)
  let e ← want (last .expr ps)
  .ok (.expr (.swizzle (a :: b :: (lastSw .sw2 ps).toList ++ (lastSw .sw3 ps).toList) e))

/-- `For::from_meta_data`, ast/mod.rs:3913-3978. -/
def readFor (ps : List Part) : Cv Made := do
  only [.label] [] [.init, .cond, .step, .block] ps
  let init ← want (last .init ps)
  let cond ← want (last .cond ps)
  let step ← want (last .step ps)
  let body ← want (lastBlock .block ps)
  .ok (.expr (.for_ init cond step body (lastStr .label ps)))

/-- `Loop::from_meta_data` and `into_expression`, ast/mod.rs:4297-4356. -/
def readLoop (ps : List Part) : Cv Made := do
  only [.label] [] [.block] ps
  let body ← want (lastBlock .block ps)
  .ok (.expr (.for_ (.block []) (.const (.ofBool true)) (.block []) body (lastStr .label ps)))

/-- `ForIn::from_meta_data`, ast/mod.rs:4024-4079. -/
def readForIn (k : ForInKind) (ps : List Part) : Cv Made := do
  only [.name, .label] [] [.iter, .block] ps
  let name ← want (lastStr .name ps)
  let iter ← want (last .iter ps)
  let body ← want (lastBlock .block ps)
  .ok (.expr (.forIn k name iter body (lastStr .label ps)))

/-- The names of a counting loop with the ranges that follow them, ast/mod.rs:4158-4193. -/
def indices : List Part → Cv (List (String × Option Expr × Option Expr))
  | [] => .ok []
  | .node .block _ (.block _) :: r => indices r
  | .str .label _ :: r => indices r
  | .str .name n :: .node .start _ (.expr a) :: .node .end' _ (.expr b) :: r => do
    .ok ((n, some a, some b) :: (← indices r))
  | .str .name n :: .node .start _ (.expr a) :: r => do .ok ((n, some a, none) :: (← indices r))
  | .str .name n :: .node .end' _ (.expr b) :: r => do .ok ((n, none, some b) :: (← indices r))
  | .str .name n :: r => do .ok ((n, none, none) :: (← indices r))
  | _ => .error .err

/-- `ForN::from_meta_data`, ast/mod.rs:4144-4202. -/
def readForN (k : ForKind) (ps : List Part) : Cv Made := do
  let ix ← indices ps
  let body ← want (lastBlock .block ps)
  .ok (.expr (← want (Syn.createForN k (lastStr .label ps) ix body)))

/-- The expressions with a name in order. -/
def allOf (l : L) : List Part → List Expr
  | [] => []
  | .node k _ (.expr e) :: r => if k = l then e :: allOf l r else allOf l r
  | _ :: r => allOf l r

/-- The blocks with a name in order. -/
def blocksOf (l : L) : List Part → List (List Expr)
  | [] => []
  | .node k _ (.block es) :: r => if k = l then es :: blocksOf l r else blocksOf l r
  | _ :: r => blocksOf l r

/-- `If::from_meta_data`, ast/mod.rs:4468-4533; conditions and blocks of `else if` are paired
(runtime/mod.rs:2722-2737 goes through both lists together). -/
def readIf (ps : List Part) : Cv Made := do
  only [] [] [.cond, .trueBlock, .elseIfCond, .elseIfBlock, .elseBlock] ps
  let cond ← want (last .cond ps)
  let thn ← want (lastBlock .trueBlock ps)
  .ok (.expr (.ite cond thn ((allOf .elseIfCond ps).zip (blocksOf .elseIfBlock ps))
    (lastBlock .elseBlock ps)))

/-- `x as u16`. -/
def toU16 (x : F64) : Nat := min x.toUsize 65535

/-- The level of a grab, ast/mod.rs:688-690. -/
def lastLevel (ps : List Part) : Option Nat :=
  ps.foldl (fun acc p => match p with
    | .num .grabLevel x => some (toU16 x)
    | _ => acc) none

/-- `Grab::from_meta_data`, ast/mod.rs:671-713. -/
def readGrab (ps : List Part) : Cv Made := do
  only [] [] [.expr] (ps.filter fun p => match p with
    | .num .grabLevel _ => false
    | _ => true)
  let e ← want (last .expr ps)
  .ok (.grab ((lastLevel ps).getD 1) e)

/-- What is read of an argument. -/
structure ArgP where
  name : Option String := none
  mutable : Bool := false
  lazy : List Lazy := []

/-- One part of an argument, ast/mod.rs:863-896. -/
def argPart (p : ArgP) : Part → Cv ArgP
  | .bool .mut b => .ok { p with mutable := b }
  | .str .name s => .ok { p with name := some s }
  | .str .lifetime _ => .ok p
  | .node .type _ (.ty _) => .ok p
  | .node .grab _ (.grab _ e) => match preExpr e with
    | some v => .ok { p with lazy := p.lazy ++ [.variable v] }
    | none => .error .err
  | .bool .okLazy _ => .ok { p with lazy := p.lazy ++ [.unwrapOk] }
  | .bool .errLazy _ => .ok { p with lazy := p.lazy ++ [.unwrapErr] }
  | .bool .someLazy _ => .ok { p with lazy := p.lazy ++ [.unwrapSome] }
  | _ => .error .err

/-- `Arg::from_meta_data`, ast/mod.rs:843-915. -/
def readArg (ps : List Part) : Cv Made := do
  let p ← ps.foldlM argPart ({} : ArgP)
  .ok (.arg (← want p.name) p.mutable p.lazy)

/-- `Current::from_meta_data`, ast/mod.rs:932-972. -/
def readCurrent (ps : List Part) : Cv Made := do
  only [.name] [.mut] [.type] ps
  .ok (.current (← want (lastStr .name ps)))

/-- The arguments in order. -/
def argsOf : List Part → List (String × Bool × List Lazy)
  | [] => []
  | .node .arg _ (.arg n m lz) :: r => (n, m, lz) :: argsOf r
  | _ :: r => argsOf r

/-- The current objects in order. -/
def currentsOf : List Part → List String
  | [] => []
  | .node .current _ (.current n) :: r => n :: currentsOf r
  | _ :: r => currentsOf r

/-- Whether there is a result, ast/mod.rs:435-440, 451, 590-595, 601: `ret` is `Some(Void)`,
`Some` of another type, or `None`. -/
def lastRet (ps : List Part) : Option Bool :=
  ps.foldl (fun acc p => match p with
    | .bool .returns b => some b
    | .node .retType _ (.ty _) => some true
    | .node .expr _ (.expr _) => some true
    | _ => acc) none

/-- `Closure::from_meta_data`, ast/mod.rs:564-624. -/
def readClosure (file : String) (ps : List Part) : Cv Made := do
  only [] [.returns] [.arg, .current, .retType, .expr] ps
  let ret ← want (lastRet ps)
  let e ← want (last .expr ps)
  .ok (.expr (.closure ((argsOf ps).map (·.1)) (currentsOf ps) ret file e))

/-- `while let Some(true) = lazy_inv.last().map(|lz| lz.is_empty()) { lazy_inv.pop(); }`,
ast/mod.rs:491-494. -/
def trimLazy (l : List (List Lazy)) : List (List Lazy) := (l.reverse.dropWhile List.isEmpty).reverse

/-- The statements of a function, ast/mod.rs:465-474. -/
def bodyOf (ps : List Part) : Cv (List Expr) := match last .expr ps with
  | some e => .ok [.ret e]
  | none => want (lastBlock .block ps)

/-- `Function::from_meta_data`, ast/mod.rs:397-513. -/
def readFn (file : String) (ps : List Part) : Cv Made := do
  only [.name] [.returns] [.arg, .current, .retType, .block, .expr, .ty] ps
  let name ← want (lastStr .name ps)
  let body ← bodyOf ps
  let args := argsOf ps
  let ret ← want (lastRet ps)
  .ok (.fn {
    name := mutName name (args.map (·.2.1))
    file := file
    args := args.map (·.1)
    lazyInv := trimLazy (args.map (·.2.2))
    currents := currentsOf ps
    returns := ret
    body := body })

/-! ## All nodes -/

/-- What the function for the name of a node makes of its parts. -/
def assemble (file : String) (l : L) (ps : List Part) : Cv Made :=
  match l with
  | .expr | .val | .callArg | .left | .right | .ret | .arrayItem | .fill | .n | .start | .end'
  | .init | .cond | .iter | .elseIfCond | .step | .id | .x | .y | .z | .w | .ex | .ey | .ez | .ew
  | .linkItem => do .ok (.expr (← readExpr none ps))
  | .block | .trueBlock | .elseIfBlock | .elseBlock => do .ok (.block (← exprs .expr ps))
  | .link => do .ok (.expr (.link (← exprs .linkItem ps)))
  | .array => do .ok (.expr (.array (← exprs .arrayItem ps)))
  | .object => do .ok (.expr (.object (← kvs ps)))
  | .keyValue => do
    only [.key] [] [.val] ps
    .ok (.kv (← want (lastStr .key ps)) (← want (last .val ps)))
  | .arrayFill => do
    only [] [] [.fill, .n] ps
    .ok (.expr (.arrayFill (← want (last .fill ps)) (← want (last .n ps))))
  | .add | .mul | .pow | .compare => seqExpr ps
  | .not => readUnop "not" ps
  | .neg => readUnop "neg" ps
  | .norm => readUnop "norm" ps
  | .item => readItem ps
  | .itemExtra => .ok .skip
  | .call => readCall ps
  | .namedCall => readNamedCall ps
  | .callClosure => readCallClosure ps
  | .namedCallClosure => readNamedCallClosure ps
  | .go => match ps.getLast? with
    -- the run looks for the name alone, runtime/mod.rs:965
    | some (.node _ _ (.call _ name args)) => do
      only [] [] [.call, .namedCall] ps
      .ok (.expr (.go name args))
    | _ => .error .err
  | .assign => readAssign ps
  | .vec4 => readVec4 ps
  | .mat4 => readMat4 ps
  | .vec4UnLoop => readUnloop ps
  | .sw0 | .sw1 | .sw2 | .sw3 => readSw none ps
  | .swizzle => readSwizzle ps
  | .for' => readFor ps
  | .loop => readLoop ps
  | .forN k => readForN k ps
  | .forIn k => readForIn k ps
  | .brk => do
    only [.label] [] [] ps
    .ok (.expr (.brk (lastStr .label ps)))
  | .cont => do
    only [.label] [] [] ps
    .ok (.expr (.cont (lastStr .label ps)))
  | .if' => readIf ps
  | .grab => readGrab ps
  | .tryExpr => do
    only [] [] [.expr] ps
    .ok (.expr (.tryExpr (← want (last .expr ps))))
  | .in' => match readTy none ps with
    -- the name stands for a type and for an expression, ty.rs:583, ast/mod.rs:4587-4626
    | .ok t => .ok (.ty t)
    | .error _ => do
      only [.alias, .name] [] [] ps
      let _ ← want (lastStr .name ps)
      .ok (.expr (.in_ .none))
  | .type | .retType | .arr | .opt | .res | .thr | .adHocTy | .clArg | .clRet =>
    do .ok (.ty (← readTy none ps))
  | .closureType => do .ok (.ty (← readClosureTy [] ps))
  | .arg => readArg ps
  | .current => readCurrent ps
  | .closure => readClosure file ps
  | .fn => readFn file ps
  | .ty | .tyArg | .tyRet => .ok .skip

/-- `peek.meta_bool("mut").is_ok()`, ast/mod.rs:2706. -/
def startsMut : List Cst → Bool
  | .bool .mut _ :: _ => true
  | _ => false

mutual
/-- One part. -/
def conv (file : String) : Cst → Cv Part
  | .str l s => .ok (.str l s)
  | .num l x => .ok (.num l x)
  | .bool l b => .ok (.bool l b)
  | .node l kids =>
    -- skipped unread, ast/mod.rs:452-456
    if l = .ty then .ok (.node l false .skip)
    else do
      let ps ← convs file kids
      if l = .itemExtra then .ok (.extra ps)
      else .ok (.node l (startsMut kids) (← assemble file l ps))
/-- All parts of a node in order. -/
def convs (file : String) : List Cst → Cv (List Part)
  | [] => .ok []
  | t :: ts => do
    let p ← conv file t
    let ps ← convs file ts
    .ok (p :: ps)
end

/-- `Expression::from_meta_data` of a node with these parts. -/
def toExpr (file : String) (kids : List Cst) : Cv Expr := do
  let ps ← convs file kids
  readExpr none ps

/-- The functions of a file, `convert`, ast/mod.rs:44-54. -/
def toFns (file : String) : List Cst → Cv (List Func)
  | [] => .ok []
  | .node .fn kids :: r => do
    let ps ← convs file kids
    match ← readFn file ps with
    | .fn f => do .ok (f :: (← toFns file r))
    | _ => .error .err
  | _ :: _ => .error .err

end

end Dyon.Front
