import Verif.Builtin.Stack

/-!
# Host values: `src/embed.rs`
-/

namespace Dyon

namespace F64

/-- `n as f64` for an unsigned integer: round to nearest, ties to even. -/
def ofNatRound (n : Nat) : F64 :=
  if n < 2 ^ 53 then ofNat n
  else
    let sh := Nat.log 2 n - 52
    let q := n / 2 ^ sh
    let r := n % 2 ^ sh
    let up := decide (2 ^ sh < 2 * r) || (decide (2 * r = 2 ^ sh) && decide (q % 2 = 1))
    BitVec.ofNat 64 ((Nat.log 2 n + 1022) * 2 ^ 52 + (if up then q + 1 else q))

/-- `x as u32`: NaN and negative numbers give 0, the fraction is dropped, too large numbers
saturate. -/
def toU32 (x : F64) : Nat := min (toUsize x) (2 ^ 32 - 1)

end F64

/-- Host types with `PushVariable` and `PopVariable`, embed.rs:56-371, vec4.rs:17-31 and
mat4.rs:17-31.  `[T; 2]`, `[T; 3]`
and `[T; 4]` have the same code as tuples of equal types.  `String` and `Arc<String>` are
one type here. -/
inductive HTy where
  | value
  | rust
  | bool
  | u32
  | usize
  | f32
  | f64
  | string
  | vec4
  | mat4
  | option (t : HTy)
  | result (t u : HTy)
  | tup2 (a b : HTy)
  | tup3 (a b c : HTy)
  | tup4 (a b c d : HTy)
  | vec (t : HTy)
deriving Repr

/-- Values of a host type. -/
abbrev HTy.T : HTy → Type
  | .value => Val
  | .rust => Nat
  | .bool => Bool
  | .u32 => Fin (2 ^ 32)
  | .usize => Fin (2 ^ 64)
  | .f32 => F32
  | .f64 => F64
  | .string => String
  | .vec4 => Vec4
  | .mat4 => Mat4
  | .option t => Option t.T
  | .result t u => Except u.T t.T
  | .tup2 a b => a.T × b.T
  | .tup3 a b c => a.T × b.T × c.T
  | .tup4 a b c d => a.T × b.T × c.T × d.T
  | .vec t => List t.T

/-- Result of popping: a value, an error, a panic, or a deep clone that has not ended. -/
inductive Pop (α : Type) where
  | ok (a : α)
  | err (msg : String)
  | panic
  | running
deriving Repr

/-- `?`. -/
def Pop.bind {α β} (p : Pop α) (f : α → Pop β) : Pop β :=
  match p with
  | .ok a => f a
  | .err m => .err m
  | .panic => .panic
  | .running => .running

/-- The loop of `Vec::pop_var`, embed.rs:253-258. -/
def Pop.all {α β} (f : α → Pop β) : List α → Pop (List β)
  | [] => .ok []
  | x :: xs => (f x).bind fun y => (Pop.all f xs).bind fun ys => .ok (y :: ys)

/-- `Runtime::expected`, runtime/mod.rs:497-505. -/
def expectedMsg (trace : String) (v : Val) (ty : String) : String :=
  trace ++ "\nExpected `" ++ ty ++ "`, found `" ++ v.typeofVar ++ "`"

/-- `rt.get(v)`, runtime/mod.rs:509-511, followed by `pop_var`. -/
def Pop.get {α} (st : Stack) (pop : Val → Pop α) (v : Val) : Pop α :=
  match v with
  | .ref i => match st[i]? with
    | some v => pop v
    | none => .panic
  | v => pop v

/-- `rt.get(&arr[i])` followed by `pop_var`. -/
def Pop.elem {α} (st : Stack) (pop : Val → Pop α) (xs : List Val) (i : Nat) : Pop α :=
  match xs[i]? with
  | some v => Pop.get st pop v
  | none => .panic

section
variable [FloatOps]

/-- `PushVariable::push_var`, embed.rs:265-410, vec4.rs:27-31, mat4.rs:27-31. -/
def pushVar : (t : HTy) → t.T → Val
  | .value, v => v
  | .rust, i => .rustObject i
  | .bool, b => .ofBool b
  | .u32, n => .ofF64 (F64.ofNat n.val)
  | .usize, n => .ofF64 (F64.ofNatRound n.val)
  | .f32, x => .ofF64 (FloatOps.ofF32 x)
  | .f64, x => .ofF64 x
  | .string, s => .str s
  | .vec4, v => .vec4 v
  | .mat4, m => .mat4 m
  | .option _, none => .option none
  | .option t, some x => .option (some (pushVar t x))
  | .result t _, .ok x => .resOk (pushVar t x)
  | .result _ u, .error e => .resErr (pushVar u e) []
  | .tup2 a b, (x, y) => .array [pushVar a x, pushVar b y]
  | .tup3 a b c, (x, y, z) => .array [pushVar a x, pushVar b y, pushVar c z]
  | .tup4 a b c d, (x, y, z, w) => .array [pushVar a x, pushVar b y, pushVar c z, pushVar d w]
  | .vec t, xs => .array (xs.map fun x => pushVar t x)

/-- `PopVariable::pop_var`, embed.rs:56-263, vec4.rs:17-25, mat4.rs:17-25.  `n` bounds the references followed in a row by
a deep clone. -/
def popVar (st : Stack) (trace : String) (n : Nat) : (t : HTy) → Val → Pop t.T
  | .value, v => match deepClone st n v with
    | .ok w => .ok w
    | .panic => .panic
    | .running => .running
  | .rust, v => match v with
    | .rustObject i => .ok i
    | _ => .err (expectedMsg trace v "rust_object")
  | .bool, v => match v with
    | .bool b _ => .ok b
    | _ => .err (expectedMsg trace v "bool")
  | .u32, v => match v with
    | .f64 x _ => .ok (Fin.ofNat _ x.toU32)
    | _ => .err (expectedMsg trace v "number")
  | .usize, v => match v with
    | .f64 x _ => .ok (Fin.ofNat _ x.toUsize)
    | _ => .err (expectedMsg trace v "number")
  | .f32, v => match v with
    | .f64 x _ => .ok (FloatOps.toF32 x)
    | _ => .err (expectedMsg trace v "number")
  | .f64, v => match v with
    | .f64 x _ => .ok x
    | _ => .err (expectedMsg trace v "number")
  | .string, v => match v with
    | .str s => .ok s
    | _ => .err (expectedMsg trace v "string")
  | .vec4, v => match v with
    | .vec4 u => .ok u
    | _ => .err (expectedMsg trace v "vec4")
  | .mat4, v => match v with
    | .mat4 m => .ok m
    | _ => .err (expectedMsg trace v "mat4")
  | .option t, v => match v with
    | .option none => .ok none
    | .option (some s) => (Pop.get st (popVar st trace n t) s).bind fun x => .ok (some x)
    | _ => .err (expectedMsg trace v "option")
  | .result t u, v => match v with
    | .resOk s => (Pop.get st (popVar st trace n t) s).bind fun x => .ok (.ok x)
    | .resErr s _ => (Pop.get st (popVar st trace n u) s).bind fun x => .ok (.error x)
    | _ => .err (expectedMsg trace v "result")
  | .tup2 a b, v => match v with
    | .array xs => (Pop.elem st (popVar st trace n a) xs 0).bind fun x =>
        (Pop.elem st (popVar st trace n b) xs 1).bind fun y => .ok (x, y)
    | _ => .err (expectedMsg trace v "[_; 2]")
  | .tup3 a b c, v => match v with
    | .array xs => (Pop.elem st (popVar st trace n a) xs 0).bind fun x =>
        (Pop.elem st (popVar st trace n b) xs 1).bind fun y =>
        (Pop.elem st (popVar st trace n c) xs 2).bind fun z => .ok (x, y, z)
    | _ => .err (expectedMsg trace v "[_; 3]")
  | .tup4 a b c d, v => match v with
    | .array xs => (Pop.elem st (popVar st trace n a) xs 0).bind fun x =>
        (Pop.elem st (popVar st trace n b) xs 1).bind fun y =>
        (Pop.elem st (popVar st trace n c) xs 2).bind fun z =>
        (Pop.elem st (popVar st trace n d) xs 3).bind fun w => .ok (x, y, z, w)
    | _ => .err (expectedMsg trace v "[_; 4]")
  | .vec t, v => match v with
    | .array xs => Pop.all (Pop.get st (popVar st trace n t)) xs
    | _ => .err (expectedMsg trace v "array")

/-- `Runtime::push`, runtime/mod.rs:468. -/
def rtPush (t : HTy) (x : t.T) (st : Stack) : Stack := st ++ [pushVar t x]

/-- `Runtime::pop`, runtime/mod.rs:388-391. -/
def rtPop (trace : String) (n : Nat) (t : HTy) (st : Stack) : Pop t.T × Stack :=
  match st.getLast? with
  | none => (.panic, st)
  | some v => (Pop.get st.dropLast (popVar st.dropLast trace n t) v, st.dropLast)

/-- `obj_field`, embed.rs:20-25.  The field is not looked up if it is a reference. -/
def objField (st : Stack) (trace : String) (n : Nat) (t : HTy) (obj : List (String × Val)) (name : String) :
    Pop t.T :=
  match obj.lookup name with
  | none => .err ("Object has no key `" ++ name ++ "`")
  | some v => popVar st trace n t v

/-- `ConvertVec4` for `[f32; 2]`, `[f32; 3]`, `[f32; 4]`, embed.rs:412-437: `to`. -/
def vec4OfF32 : List F32 → Vec4
  | [x, y] => ⟨x, y, F32.zero, F32.zero⟩
  | [x, y, z] => ⟨x, y, z, F32.zero⟩
  | [x, y, z, w] => ⟨x, y, z, w⟩
  | _ => ⟨F32.zero, F32.zero, F32.zero, F32.zero⟩

/-- `ConvertVec4::from` for arrays of `n` numbers `f32`. -/
def f32OfVec4 (n : Nat) (v : Vec4) : List F32 := [v.x, v.y, v.z, v.w].take n

/-- `ConvertVec4` for arrays of `f64`, embed.rs:439-476: `to`. -/
def vec4OfF64 (xs : List F64) : Vec4 := vec4OfF32 (xs.map FloatOps.toF32)

/-- `ConvertVec4::from` for arrays of `n` numbers `f64`. -/
def f64OfVec4 (n : Nat) (v : Vec4) : List F64 := (f32OfVec4 n v).map FloatOps.ofF32

end
end Dyon
