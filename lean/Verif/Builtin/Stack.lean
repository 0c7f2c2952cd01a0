import Verif.Builtin.Ops

/-!
# Model of the library functions that work on the variable stack

`src/dyon_std/mod.rs:17-37, 302-532, 590-628, 640-919, 1585-1716` and
`Variable::deep_clone`, `src/lib.rs:279-320`.

A function pops its arguments from the variable stack (bottom-first list), so its result
is a value and the new stack, an error message and the new stack, or a Rust panic.
`running` stands for a deep clone that has not ended within the given fuel: the code
recurses through references without a check for cycles.
The stack trace that prefixes some error messages and the text printer for values
(`write_variable`) are parameters (`Cfg`).
-/

namespace Dyon

/-- `Runtime::stack`, bottom first. -/
abbrev Stack := List Val

/-- Result of a library function. -/
inductive Out (α : Type) where
  | ok (a : α) (st : Stack)
  | err (msg : String) (st : Stack)
  | panic
  | running
deriving Repr

/-- State monad over the stack with errors and panics. -/
def SM (α : Type) := Stack → Out α

namespace SM
/-- Result without effect. -/
protected def pure {α} (a : α) : SM α := fun st => .ok a st
/-- Sequencing. -/
protected def bind {α β} (m : SM α) (f : α → SM β) : SM β := fun st =>
  match m st with
  | .ok a st' => f a st'
  | .err e st' => .err e st'
  | .panic => .panic
  | .running => .running
instance : Monad SM where
  pure := SM.pure
  bind := SM.bind
/-- `return Err(msg)`. -/
def fail {α} (msg : String) : SM α := fun st => .err msg st
/-- A Rust panic. -/
def panic {α} : SM α := fun _ => .panic
end SM

/-- What the functions need besides the stack: the stack trace (`Runtime::stack_trace`),
the printer `write_variable` and the fuel for deep clones. -/
structure Cfg where
  trace : String
  write : Stack → Val → String
  fuel : Nat

/-- `rt.stack.pop().expect(TINVOTS)`. -/
def popV : SM Val := fun st =>
  match st.getLast? with
  | some v => .ok v st.dropLast
  | none => .panic

/-- `Runtime::get`, runtime/mod.rs:509-511: follows one reference.  An index outside the
stack panics. -/
def getV (v : Val) : SM Val := fun st =>
  match v with
  | .ref i => match st[i]? with
    | some w => .ok w st
    | none => .panic
  | v => .ok v st

/-- `Runtime::expected`, runtime/mod.rs:497-505. -/
def expected (c : Cfg) (v : Val) (ty : String) : String :=
  c.trace ++ "\nExpected `" ++ ty ++ "`, found `" ++ v.typeofVar ++ "`"

/-! ## Deep clone -/

/-- Result of `deep_clone`. -/
inductive DC (α : Type) where
  | ok (a : α)
  | panic
  | running
deriving Repr

mutual
/-- `Variable::deep_clone`, lib.rs:279-320, with the clone of `stack[ind]` given. -/
def deepCloneWith (resolve : Nat → DC Val) : Val → DC Val
  | .object kvs => match deepCloneObj resolve kvs with
    | .ok kvs => .ok (.object kvs)
    | .panic => .panic
    | .running => .running
  | .array xs => match deepCloneArr resolve xs with
    | .ok xs => .ok (.array xs)
    | .panic => .panic
    | .running => .running
  | .ref i => resolve i
  | .unsafeRef _ => .panic
  | v => .ok v
/-- The loop over the elements, lib.rs:297-302. -/
def deepCloneArr (resolve : Nat → DC Val) : List Val → DC (List Val)
  | [] => .ok []
  | x :: xs => match deepCloneWith resolve x with
    | .ok y => match deepCloneArr resolve xs with
      | .ok ys => .ok (y :: ys)
      | .panic => .panic
      | .running => .running
    | .panic => .panic
    | .running => .running
/-- The loop over the values of an object, lib.rs:290-295. -/
def deepCloneObj (resolve : Nat → DC Val) : List (String × Val) → DC (List (String × Val))
  | [] => .ok []
  | (k, x) :: xs => match deepCloneWith resolve x with
    | .ok y => match deepCloneObj resolve xs with
      | .ok ys => .ok ((k, y) :: ys)
      | .panic => .panic
      | .running => .running
    | .panic => .panic
    | .running => .running
end

/-- `deep_clone` with a bound on the number of references followed in a row
(`stack[ind].deep_clone(stack)`, lib.rs:304). -/
def deepClone (st : Stack) : Nat → Val → DC Val
  | 0 => deepCloneWith fun _ => .running
  | n + 1 => deepCloneWith fun i =>
    match st[i]? with
    | some v => deepClone st n v
    | none => .panic

/-- `v.deep_clone(&rt.stack)`. -/
def cloneV (c : Cfg) (v : Val) : SM Val := fun st =>
  match deepClone st c.fuel v with
  | .ok w => .ok w st
  | .panic => .panic
  | .running => .running

namespace Lib
variable (c : Cfg)

/-- The repeated `if let Variable::Ref(ind) = v { if let Variable::Array(ref mut arr) =
rt.stack[ind] {..} }` with its two error cases. -/
def withArray {α : Type} (v : Val) (f : List Val → Except String (List Val × α)) : SM α := fun st =>
  match v with
  | .ref i => match st[i]? with
    | some (.array xs) => match f xs with
      | .ok (ys, a) => .ok a (st.set i (.array ys))
      | .error e => .err e st
    | some _ => .err "Expected reference to array" st
    | none => .panic
  | _ => .err "Expected reference to array" st

/-- `clone`, mod.rs:432-435. -/
def clone : SM Val := do
  let v ← popV
  let w ← getV v
  cloneV c w

/-- `why`, mod.rs:437-459. -/
def why : SM Val := do
  let v ← popV
  let w ← getV v
  match w with
  | .bool true (some sec) => pure (.array sec.reverse)
  | .bool true none => SM.fail "This does not make sense, perhaps an array is empty?"
  | .bool false _ => SM.fail "Must be `true` to have meaning, try add or remove `!`"
  | x => SM.fail (expected c x "bool")

/-- `_where`, mod.rs:461-484. -/
def where' : SM Val := do
  let v ← popV
  let w ← getV v
  match w with
  | .f64 val (some sec) =>
    if F64.isNaN val then SM.fail "Expected number, found `NaN`"
    else pure (.array sec.reverse)
  | .f64 _ none => SM.fail "This does not make sense, perhaps an array is empty?"
  | x => SM.fail (expected c x "f64")

/-- `explain_why`, mod.rs:486-504. -/
def explainWhy : SM Val := do
  let why ← popV
  let val ← popV
  let w ← getV val
  match w with
  | .bool b sec => do
    let y ← cloneV c why
    pure (.bool b (some (sec.getD [] ++ [y])))
  | x => SM.fail (expected c x "bool")

/-- `explain_where`, mod.rs:506-524. -/
def explainWhere : SM Val := do
  let wh ← popV
  let val ← popV
  let w ← getV val
  match w with
  | .f64 x sec => do
    let y ← cloneV c wh
    pure (.f64 x (some (sec.getD [] ++ [y])))
  | x => SM.fail (expected c x "bool")

/-- `push_ref`, mod.rs:647-671. -/
def pushRef : SM Unit := do
  let item ← popV
  let v ← popV
  withArray v fun xs => .ok (xs ++ [item], ())

/-- The index argument: `match rt.get(&index) { F64(index, _) => index, x => Err }`. -/
def number (v : Val) : SM F64 := do
  let w ← getV v
  match w with
  | .f64 x _ => pure x
  | x => SM.fail (expected c x "number")

/-- The bounds check and `Vec::insert`, mod.rs:682-694. -/
def insertAt (index : F64) (item : Val) (xs : List Val) : Except String (List Val × Unit) :=
  let i := index.toUsize
  if xs.length < i then .error "Index out of bounds"
  else .ok (xs.take i ++ item :: xs.drop i, ())

/-- `insert_ref`, mod.rs:673-708. -/
def insertRef : SM Unit := do
  let item ← popV
  let index ← popV
  let index ← number c index
  let v ← popV
  withArray v (insertAt index item)

/-- `push`, mod.rs:710-735. -/
def push : SM Unit := do
  let item ← popV
  let item ← getV item
  let item ← cloneV c item
  let v ← popV
  withArray v fun xs => .ok (xs ++ [item], ())

/-- `insert`, mod.rs:737-773. -/
def insert : SM Unit := do
  let item ← popV
  let item ← getV item
  let item ← cloneV c item
  let index ← popV
  let index ← number c index
  let v ← popV
  withArray v (insertAt index item)

/-- `pop`, mod.rs:775-807. -/
def pop : SM Val := do
  let arr ← popV
  withArray arr fun xs => match xs.getLast? with
    | some v => .ok (xs.dropLast, v)
    | none => .error "Expected non-empty array"

/-- `remove`, mod.rs:809-837. -/
def remove : SM Val := do
  let index ← popV
  let index ← number c index
  let arr ← popV
  withArray arr fun xs =>
    let i := index.toUsize
    match xs[i]? with
    | some v => .ok (xs.take i ++ xs.drop (i + 1), v)
    | none => .error "Index out of bounds"

/-- `reverse`, mod.rs:839-861. -/
def reverse : SM Unit := do
  let v ← popV
  withArray v fun xs => .ok (xs.reverse, ())

/-- `clear`, mod.rs:863-885. -/
def clear : SM Unit := do
  let v ← popV
  withArray v fun _ => .ok ([], ())

/-- The update in `swap`, mod.rs:899-917.  `slice::swap` panics for an index outside the
array. -/
def swapIn (v : Val) (i j : F64) : SM Unit := fun st =>
  match v with
  | .ref ind => match st[ind]? with
    | some (.array xs) => match xs[i.toUsize]?, xs[j.toUsize]? with
      | some a, some b => .ok () (st.set ind (.array ((xs.set i.toUsize b).set j.toUsize a)))
      | _, _ => .panic
    | some _ => .err "Expected reference to array" st
    | none => .panic
  | _ => .err "Expected reference to array" st

/-- `swap`, mod.rs:887-919. -/
def swap : SM Unit := do
  let j ← popV
  let i ← popV
  let j ← number c j
  let i ← number c i
  let v ← popV
  swapIn v i j

/-- `some`, mod.rs:1587-1592. -/
def some' : SM Val := do
  let v ← popV
  let w ← getV v
  let y ← cloneV c w
  pure (.option (some y))

/-- `ok`, mod.rs:1594-1598. -/
def ok' : SM Val := do
  let v ← popV
  let w ← getV v
  let y ← cloneV c w
  pure (.resOk y)

/-- `err`, mod.rs:1600-1606. -/
def err' : SM Val := do
  let v ← popV
  let w ← getV v
  let y ← cloneV c w
  pure (.resErr y [])

/-- `none`, mod.rs:1585. -/
def none' : SM Val := pure (.option none)

/-- `is_err`, mod.rs:1608-1615. -/
def isErr : SM Val := do
  let v ← popV
  let w ← getV v
  match w with
  | .resErr _ _ => pure (.ofBool true)
  | .resOk _ => pure (.ofBool false)
  | x => SM.fail (expected c x "result")

/-- `is_ok`, mod.rs:1617-1624. -/
def isOk : SM Val := do
  let v ← popV
  let w ← getV v
  match w with
  | .resErr _ _ => pure (.ofBool false)
  | .resOk _ => pure (.ofBool true)
  | x => SM.fail (expected c x "result")

/-- The loop of `min`, mod.rs:1630-1637; `x < y` is `F64.lt`. -/
def minLoop (st : Stack) (acc : F64) : List Val → Option F64
  | [] => some acc
  | v :: vs => match getV v st with
    | .ok (.f64 val _) _ =>
      minLoop st (if F64.lt val acc || F64.isNaN acc then val else acc) vs
    | .ok _ _ => minLoop st acc vs
    | _ => none

/-- The loop of `max`, mod.rs:1648-1655. -/
def maxLoop (st : Stack) (acc : F64) : List Val → Option F64
  | [] => some acc
  | v :: vs => match getV v st with
    | .ok (.f64 val _) _ =>
      maxLoop st (if F64.lt acc val || F64.isNaN acc then val else acc) vs
    | .ok _ _ => maxLoop st acc vs
    | _ => none

/-- The array case of `min`, mod.rs:1629-1639. -/
def minOf (xs : List Val) : SM Val := fun st =>
  match minLoop st F64.nan xs with
  | some x => .ok (.ofF64 x) st
  | none => .panic

/-- The array case of `max`, mod.rs:1647-1657. -/
def maxOf (xs : List Val) : SM Val := fun st =>
  match maxLoop st F64.nan xs with
  | some x => .ok (.ofF64 x) st
  | none => .panic

/-- `min`, mod.rs:1626-1642. -/
def min : SM Val := do
  let v ← popV
  let w ← getV v
  match w with
  | .array xs => minOf xs
  | x => SM.fail (expected c x "array")

/-- `max`, mod.rs:1644-1660. -/
def max : SM Val := do
  let v ← popV
  let w ← getV v
  match w with
  | .array xs => maxOf xs
  | x => SM.fail (expected c x "array")

/-- The error text of `unwrap` on an error value, mod.rs:1679-1692. -/
def unwrapMsg (st : Stack) (msg : Val) (trace : List String) : String :=
  trace.foldl (fun w t => w ++ "\n" ++ t) (c.trace ++ "\n" ++ c.write st msg)

/-- The error case of `unwrap`, mod.rs:1676-1693. -/
def unwrapFail (msg : Val) (trace : List String) : SM Val := fun st =>
  .err (unwrapMsg c st msg trace) st

/-- `unwrap`, mod.rs:1662-1696. -/
def unwrap : SM Val := do
  let v ← popV
  let w ← getV v
  match w with
  | .option (some v) => pure v
  | .option none => SM.fail "Expected `some(_)`"
  | .resOk v => pure v
  | .resErr msg trace => unwrapFail c msg trace
  | x => SM.fail (expected c x "some(_) or ok(_)")

/-- `unwrap_or`, mod.rs:1698-1709. -/
def unwrapOr : SM Val := do
  let d ← popV
  let v ← popV
  let w ← getV v
  match w with
  | .option (some v) => pure v
  | .resOk v => pure v
  | .option none => getV d
  | .resErr _ _ => getV d
  | x => SM.fail (expected c x "some(_) or ok(_)")

/-- `unwrap_err`, mod.rs:1711-1717. -/
def unwrapErr : SM Val := do
  let v ← popV
  let w ← getV v
  match w with
  | .resErr msg _ => pure msg
  | x => SM.fail (expected c x "err(_)")

/-- `head`, mod.rs:590-596 (`Link::head`, C01). -/
def scalarVal : Link.Scalar → Val
  | .bool b => .ofBool b
  | .f64 x => .ofF64 x
  | .str s => .str s

/-- Pops a link. -/
def popLink : SM (List Link.Scalar) := do
  let v ← popV
  let w ← getV v
  match w with
  | .link l => pure l
  | x => SM.fail (expected c x "link")

/-- `head`, mod.rs:590-596. -/
def head : SM Val := do
  let l ← popLink c
  pure (.option (l.head?.map scalarVal))
/-- `tip`, mod.rs:598-604. -/
def tip : SM Val := do
  let l ← popLink c
  pure (.option (l.getLast?.map scalarVal))
/-- `tail`, mod.rs:606-612. -/
def tail : SM Val := do
  let l ← popLink c
  pure (.link l.tail)
/-- `neck`, mod.rs:614-620. -/
def neck : SM Val := do
  let l ← popLink c
  pure (.link l.dropLast)
/-- `is_empty`, mod.rs:622-628. -/
def isEmpty : SM Val := do
  let l ← popLink c
  pure (.ofBool l.isEmpty)

/-! ## Vectors and matrices -/

/-- `Runtime::pop::<Vec4>` inside `dyon_fn!`, which propagates the error. -/
def popVec4 : SM Vec4 := do
  let v ← popV
  let w ← getV v
  match w with
  | .vec4 v => pure v
  | x => SM.fail (expected c x "vec4")

/-- `Runtime::pop::<Mat4>` inside `dyon_fn!`. -/
def popMat4 : SM Mat4 := do
  let v ← popV
  let w ← getV v
  match w with
  | .mat4 m => pure m
  | x => SM.fail (expected c x "mat4")

/-- `cross`, mod.rs:309-313: `dyon_fn!` takes the last argument from the stack first. -/
def cross [FloatOps] : SM Val := do
  let b ← popVec4 c
  let a ← popVec4 c
  pure (.vec4 (Op.cross a b))

/-- `rt.pop::<f64>().expect(TINVOTS)`: an error becomes a panic. -/
def popF64! : SM F64 := do
  let v ← popV
  let w ← getV v
  match w with
  | .f64 x _ => pure x
  | _ => SM.panic

/-- `rt.pop_vec4().expect(TINVOTS)`. -/
def popVec4! : SM Vec4 := do
  let v ← popV
  let w ← getV v
  match w with
  | .vec4 v => pure v
  | _ => SM.panic

/-- `rt.pop_mat4().expect(TINVOTS)`. -/
def popMat4! : SM Mat4 := do
  let v ← popV
  let w ← getV v
  match w with
  | .mat4 m => pure m
  | _ => SM.panic

end Lib

/-- `v[ind]` on `[f32; 4]`. -/
def Vec4.nth (v : Vec4) : Nat → Option F32
  | 0 => some v.x
  | 1 => some v.y
  | 2 => some v.z
  | 3 => some v.w
  | _ => none

/-- `m[ind]` on `[[f32; 4]; 4]`. -/
def Mat4.nth (m : Mat4) : Nat → Option Vec4
  | 0 => some m.c0
  | 1 => some m.c1
  | 2 => some m.c2
  | 3 => some m.c3
  | _ => none

namespace Lib
variable (c : Cfg) [FloatOps]

/-- `x`, mod.rs:315. -/
def x : SM Val := do let v ← popVec4 c; pure (.ofF64 (FloatOps.ofF32 v.x))
/-- `y`, mod.rs:316. -/
def y : SM Val := do let v ← popVec4 c; pure (.ofF64 (FloatOps.ofF32 v.y))
/-- `z`, mod.rs:317. -/
def z : SM Val := do let v ← popVec4 c; pure (.ofF64 (FloatOps.ofF32 v.z))
/-- `w`, mod.rs:318. -/
def w : SM Val := do let v ← popVec4 c; pure (.ofF64 (FloatOps.ofF32 v.w))

/-- `s`, mod.rs:328-336. -/
def s : SM Val := do
  let ind ← popF64!
  let ind := ind.toUsize
  if 4 ≤ ind then SM.fail ("Index out of bounds `" ++ toString ind ++ "`")
  else do
    let v ← popVec4!
    match v.nth ind with
    | some x => pure (.ofF64 (FloatOps.ofF32 x))
    | none => SM.panic

/-- `rx`, `ry`, `rz`, `rw`, mod.rs:402-405: entry `k` of every column. -/
def rx : SM Val := do let m ← popMat4 c; pure (.vec4 ⟨m.c0.x, m.c1.x, m.c2.x, m.c3.x⟩)
/-- `ry`, mod.rs:403. -/
def ry : SM Val := do let m ← popMat4 c; pure (.vec4 ⟨m.c0.y, m.c1.y, m.c2.y, m.c3.y⟩)
/-- `rz`, mod.rs:404. -/
def rz : SM Val := do let m ← popMat4 c; pure (.vec4 ⟨m.c0.z, m.c1.z, m.c2.z, m.c3.z⟩)
/-- `rw`, mod.rs:405. -/
def rw : SM Val := do let m ← popMat4 c; pure (.vec4 ⟨m.c0.w, m.c1.w, m.c2.w, m.c3.w⟩)

/-- `rv`, mod.rs:407-415. -/
def rv : SM Val := do
  let ind ← popF64!
  let ind := ind.toUsize
  if 4 ≤ ind then SM.fail ("Index out of bounds `" ++ toString ind ++ "`")
  else do
    let m ← popMat4!
    match m.c0.nth ind, m.c1.nth ind, m.c2.nth ind, m.c3.nth ind with
    | some a, some b, some c, some d => pure (.vec4 ⟨a, b, c, d⟩)
    | _, _, _, _ => SM.panic

/-- `cx`, mod.rs:417. -/
def cx : SM Val := do let m ← popMat4 c; pure (.vec4 m.c0)
/-- `cy`, mod.rs:418. -/
def cy : SM Val := do let m ← popMat4 c; pure (.vec4 m.c1)
/-- `cz`, mod.rs:419. -/
def cz : SM Val := do let m ← popMat4 c; pure (.vec4 m.c2)
/-- `cw`, mod.rs:420. -/
def cw : SM Val := do let m ← popMat4 c; pure (.vec4 m.c3)

/-- `cv`, mod.rs:422-430: returns the whole matrix. -/
def cv : SM Val := do
  let ind ← popF64!
  let ind := ind.toUsize
  if 4 ≤ ind then SM.fail ("Index out of bounds `" ++ toString ind ++ "`")
  else do
    let m ← popMat4!
    pure (.mat4 m)

/-- The `f32` literal `1.0`. -/
def one32 : F32 := 0x3F800000

/-- `mov`, mod.rs:340-345. -/
def mov : SM Val := do
  let v ← popVec4 c
  pure (.mat4 ⟨⟨one32, 0, 0, 0⟩, ⟨0, one32, 0, 0⟩, ⟨0, 0, one32, 0⟩, ⟨v.x, v.y, v.z, one32⟩⟩)

/-- `ortho__pos_right_up_forward`, mod.rs:373-381; `vecmath::vec4_dot` is external. -/
def ortho [VecMath] : SM Val := do
  let forward ← popVec4 c
  let up ← popVec4 c
  let right ← popVec4 c
  let pos ← popVec4 c
  pure (.mat4 ⟨⟨right.x, up.x, forward.x, 0⟩, ⟨right.y, up.y, forward.y, 0⟩, ⟨right.z, up.z, forward.z, 0⟩,
    ⟨F32.fneg (VecMath.vec4Dot right pos), F32.fneg (VecMath.vec4Dot up pos), F32.fneg (VecMath.vec4Dot forward pos), one32⟩⟩)

/-- `mvp__model_view_projection`, mod.rs:391-394; `vecmath::col_mat4_mul` is external. -/
def mvp [VecMath] : SM Val := do
  let proj ← popMat4 c
  let view ← popMat4 c
  let model ← popMat4 c
  pure (.mat4 (VecMath.colMat4Mul (VecMath.colMat4Mul proj view) model))

/-- `scale`, mod.rs:395-400. -/
def scale : SM Val := do
  let v ← popVec4 c
  pure (.mat4 ⟨⟨v.x, 0, 0, 0⟩, ⟨0, v.y, 0, 0⟩, ⟨0, 0, v.z, 0⟩, ⟨0, 0, 0, one32⟩⟩)

/-- The end of `Runtime::vec4`, runtime/mod.rs:2858-2880: builds the vector from the four
topmost stack entries. -/
def vec4Lit : SM Val := do
  let w ← popV
  let w ← number c w
  let z ← popV
  let z ← number c z
  let y ← popV
  let y ← number c y
  let x ← popV
  let x ← number c x
  pure (.vec4 ⟨FloatOps.toF32 x, FloatOps.toF32 y, FloatOps.toF32 z, FloatOps.toF32 w⟩)

/-- The end of `Runtime::mat4`, runtime/mod.rs:2891-2918: the four topmost entries are the
rows; the value stores columns. -/
def mat4Lit : SM Val := do
  let w ← popVec4 c
  let z ← popVec4 c
  let y ← popVec4 c
  let x ← popVec4 c
  pure (.mat4 ⟨⟨x.x, y.x, z.x, w.x⟩, ⟨x.y, y.y, z.y, w.y⟩, ⟨x.z, y.z, z.z, w.z⟩, ⟨x.w, y.w, z.w, w.w⟩⟩)

/-- Pushes values. -/
def pushAll (vs : List Val) : SM Unit := fun st => .ok () (st ++ vs)

/-- `Runtime::swizzle`, runtime/mod.rs:1815-1831, on the evaluated operand: pushes the
selected components. -/
def swizzle (v : Val) (sw0 sw1 : Nat) (sw2 sw3 : Option Nat) : SM Unit := do
  let u ← getV v
  match u with
  | .vec4 u =>
    let sel : List Nat := [sw0, sw1] ++ sw2.toList ++ sw3.toList
    match sel.mapM u.nth with
    | some xs => pushAll (xs.map fun x => .ofF64 (FloatOps.ofF32 x))
    | none => SM.panic
  | x => SM.fail (expected c x "vec4")

/-- `and_also`, mod.rs:17-26. -/
def andAlso : SM Val := do
  let b ← popV
  let a ← popV
  let a ← getV a
  let b ← getV b
  match a, b with
  | .bool a sec, .bool b _ => pure (.bool (a && b) sec)
  | _, _ => SM.fail "Expected `bool`"

/-- `or_else`, mod.rs:28-37. -/
def orElse : SM Val := do
  let b ← popV
  let a ← popV
  let a ← getV a
  let b ← getV b
  match a, b with
  | .bool a sec, .bool b _ => pure (.bool (a || b) sec)
  | _, _ => SM.fail "Expected `bool`"

end Lib
end Dyon
