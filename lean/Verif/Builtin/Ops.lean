import Verif.Value
import Mathlib.Data.String.Basic

/-!
# Model of the operators in `src/dyon_std/mod.rs:17-326`

Operators on values whose references have already been resolved one level
(`call_binop`, `call_unop` apply `Runtime::get` to the operands).  Error results are
the error messages.  Hash maps are lists of key/value pairs; looking up a key finds
the first pair with that key (keys are distinct in a real map, see `Wf`).  Strings
compare by their code points, which is the order of their UTF-8 bytes.
Vector and matrix arithmetic of the external crate `vecmath` is a parameter
(`VecMath`), as is rounded arithmetic (`FloatOps`).
-/

namespace Dyon

/-- The functions of the external crate `vecmath` that the operators call. -/
class VecMath where
  mat4Add : Mat4 → Mat4 → Mat4
  mat4Sub : Mat4 → Mat4 → Mat4
  colMat4Mul : Mat4 → Mat4 → Mat4
  colMat4Transform : Mat4 → Vec4 → Vec4
  vec4Dot : Vec4 → Vec4 → F32
  vec4Len : Vec4 → F32

instance : Inhabited VecMath := ⟨⟨fun a _ => a, fun a _ => a, fun a _ => a, fun _ v => v, fun _ _ => 0, fun _ => 0⟩⟩

namespace Vec4
/-- Componentwise operation. -/
def zipWith (f : F32 → F32 → F32) (a b : Vec4) : Vec4 := ⟨f a.x b.x, f a.y b.y, f a.z b.z, f a.w b.w⟩
/-- Componentwise operation. -/
def map (f : F32 → F32) (a : Vec4) : Vec4 := ⟨f a.x, f a.y, f a.z, f a.w⟩
/-- `a == b` on `[f32; 4]`. -/
def feq (a b : Vec4) : Bool :=
  F32.feq a.x b.x && F32.feq a.y b.y && F32.feq a.z b.z && F32.feq a.w b.w
end Vec4

/-- Operation on every entry of a matrix. -/
def Mat4.map (f : F32 → F32) (m : Mat4) : Mat4 := ⟨m.c0.map f, m.c1.map f, m.c2.map f, m.c3.map f⟩

/-- Result of an operator: a value or an error message. -/
abbrev OpRes := Except String Val

namespace Op
open FloatOps

/-- `less`, mod.rs:39-47. -/
def less (a b : Val) : OpRes :=
  match a, b with
  | .f64 a sec, .f64 b _ => .ok (.bool (F64.lt a b) sec)
  | .str a, .str b => .ok (.ofBool (decide (a < b)))
  | _, _ => .error "Expected `f64` or `str`"

/-- `less_or_equal`, mod.rs:49-57. -/
def lessOrEqual (a b : Val) : OpRes :=
  match a, b with
  | .f64 a sec, .f64 b _ => .ok (.bool (F64.le a b) sec)
  | .str a, .str b => .ok (.ofBool (decide (a ≤ b)))
  | _, _ => .error "Expected `f64` or `str`"

/-- The closure `|v| Bool(!a, sec)` of mod.rs:60-66, 70-76, 112-118.  The `panic!` for
a value that is not a boolean is the error `"panic"`; it is unreachable
(`Op.less_bool` and so on). -/
def negate : OpRes → OpRes
  | .ok (.bool b sec) => .ok (.bool (!b) sec)
  | .ok _ => .error "panic"
  | .error e => .error e

/-- `greater`, mod.rs:59-67. -/
def greater (a b : Val) : OpRes := negate (lessOrEqual a b)

/-- `greater_or_equal`, mod.rs:69-77. -/
def greaterOrEqual (a b : Val) : OpRes := negate (less a b)

/-- `matches!(r, Ok(Variable::Bool(true, _)))`, mod.rs:91, 101. -/
def isTrue : OpRes → Bool
  | .ok (.bool true _) => true
  | _ => false

/-- The error message of `equal`. -/
def equalMsg : String := "Expected `f64`, `str`, `bool`, `vec4`, `{}`, `[]` or `opt`"

mutual
/-- `equal`, mod.rs:79-109. -/
def equal : Val → Val → OpRes
  | .f64 a sec, .f64 b _ => .ok (.bool (F64.feq a b) sec)
  | .str a, .str b => .ok (.ofBool (a == b))
  | .bool a sec, .bool b _ => .ok (.bool (a == b) sec)
  | .vec4 a, .vec4 b => .ok (.ofBool (Vec4.feq a b))
  | .object a, .object b => .ok (.ofBool (a.length == b.length && equalObj a b))
  | .array a, .array b => .ok (.ofBool (a.length == b.length && equalArr a b))
  | .option none, .option none => .ok (.ofBool true)
  | .option none, .option (some _) => .ok (.ofBool false)
  | .option (some _), .option none => .ok (.ofBool false)
  | .option (some a), .option (some b) => equal a b
  | _, _ => .error equalMsg
/-- The `all` over the entries of the left object, mod.rs:89-95. -/
def equalObj : List (String × Val) → List (String × Val) → Bool
  | [], _ => true
  | (k, v) :: rest, b =>
    (match b.lookup k with
     | some bv => isTrue (equal v bv)
     | none => false) && equalObj rest b
/-- The `all` over zipped elements, mod.rs:99-101. -/
def equalArr : List Val → List Val → Bool
  | x :: xs, y :: ys => isTrue (equal x y) && equalArr xs ys
  | _, _ => true
end

/-- `not_equal`, mod.rs:111-119. -/
def notEqual (a b : Val) : OpRes := negate (equal a b)

variable [FloatOps] [VecMath]

/-- `add`, mod.rs:121-151. -/
def add (a b : Val) : OpRes :=
  match a, b with
  | .f64 a sec, .f64 b _ => .ok (.f64 (FloatOps.add a b) sec)
  | .vec4 a, .vec4 b => .ok (.vec4 (a.zipWith add32 b))
  | .vec4 a, .f64 b _ => .ok (.vec4 (a.map (add32 · (toF32 b))))
  | .f64 b _, .vec4 a => .ok (.vec4 (a.map (add32 · (toF32 b))))
  | .mat4 a, .mat4 b => .ok (.mat4 (VecMath.mat4Add a b))
  | .f64 a _, .mat4 b => .ok (.mat4 (b.map (add32 · (toF32 a))))
  | .mat4 b, .f64 a _ => .ok (.mat4 (b.map (add32 · (toF32 a))))
  | .bool a sec, .bool b _ => .ok (.bool (a || b) sec)
  | .str a, .str b => .ok (.str (a ++ b))
  | .link a, .link b => .ok (.link (a ++ b))
  | _, _ => .error "Expected `f64`, `vec4`, `mat4`, `bool`, `str` or `link`"

/-- `sub`, mod.rs:153-189. -/
def sub (a b : Val) : OpRes :=
  match a, b with
  | .f64 a sec, .f64 b _ => .ok (.f64 (FloatOps.sub a b) sec)
  | .vec4 a, .vec4 b => .ok (.vec4 (a.zipWith sub32 b))
  | .vec4 a, .f64 b _ => .ok (.vec4 (a.map (sub32 · (toF32 b))))
  | .f64 a _, .vec4 b => .ok (.vec4 (b.map (sub32 (toF32 a) ·)))
  | .mat4 a, .mat4 b => .ok (.mat4 (VecMath.mat4Sub a b))
  | .f64 a _, .mat4 b => .ok (.mat4 (b.map (sub32 (toF32 a) ·)))
  | .mat4 b, .f64 a _ => .ok (.mat4 (b.map (sub32 · (toF32 a))))
  | .bool a sec, .bool b _ => .ok (.bool (a && !b) sec)
  | _, _ => .error "Expected `f64`, `vec4`, `mat4` or `bool`"

/-- `mul`, mod.rs:191-215. -/
def mul (a b : Val) : OpRes :=
  match a, b with
  | .f64 a sec, .f64 b _ => .ok (.f64 (FloatOps.mul a b) sec)
  | .vec4 a, .vec4 b => .ok (.vec4 (a.zipWith mul32 b))
  | .vec4 a, .f64 b _ => .ok (.vec4 (a.map (mul32 · (toF32 b))))
  | .f64 b _, .vec4 a => .ok (.vec4 (a.map (mul32 · (toF32 b))))
  | .mat4 a, .mat4 b => .ok (.mat4 (VecMath.colMat4Mul a b))
  | .f64 a _, .mat4 b => .ok (.mat4 (b.map (mul32 · (toF32 a))))
  | .mat4 b, .f64 a _ => .ok (.mat4 (b.map (mul32 · (toF32 a))))
  | .mat4 a, .vec4 b => .ok (.vec4 (VecMath.colMat4Transform a b))
  | .bool a sec, .bool b _ => .ok (.bool (a && b) sec)
  | _, _ => .error "Expected `f64`, `vec4`, `mat4` or `bool`"

/-- `div`, mod.rs:217-233. -/
def div (a b : Val) : OpRes :=
  match a, b with
  | .f64 a sec, .f64 b _ => .ok (.f64 (FloatOps.div a b) sec)
  | .vec4 a, .vec4 b => .ok (.vec4 (a.zipWith div32 b))
  | .vec4 a, .f64 b _ => .ok (.vec4 (a.map (div32 · (toF32 b))))
  | .f64 a _, .vec4 b => .ok (.vec4 (b.map (div32 (toF32 a) ·)))
  | _, _ => .error "Expected `f64` or `vec4`"

/-- `rem`, mod.rs:235-251. -/
def rem (a b : Val) : OpRes :=
  match a, b with
  | .f64 a sec, .f64 b _ => .ok (.f64 (FloatOps.rem a b) sec)
  | .vec4 a, .vec4 b => .ok (.vec4 (a.zipWith rem32 b))
  | .vec4 a, .f64 b _ => .ok (.vec4 (a.map (rem32 · (toF32 b))))
  | .f64 a _, .vec4 b => .ok (.vec4 (b.map (rem32 (toF32 a) ·)))
  | _, _ => .error "Expected `f64` or `vec4`"

/-- `pow`, mod.rs:253-275. -/
def pow (a b : Val) : OpRes :=
  match a, b with
  | .f64 a sec, .f64 b _ => .ok (.f64 (FloatOps.pow a b) sec)
  | .vec4 a, .vec4 b => .ok (.vec4 (a.zipWith pow32 b))
  | .vec4 a, .f64 b _ => .ok (.vec4 (a.map (pow32 · (toF32 b))))
  | .f64 a _, .vec4 b => .ok (.vec4 (b.map (pow32 (toF32 a) ·)))
  | .bool a sec, .bool b _ => .ok (.bool (a ^^ b) sec)
  | _, _ => .error "Expected `f64`, `vec4` or `bool`"

/-- `not`, mod.rs:277-282. -/
def not : Val → OpRes
  | .bool b sec => .ok (.bool (!b) sec)
  | _ => .error "Expected `bool`"

/-- `neg`, mod.rs:284-296. -/
def neg : Val → OpRes
  | .f64 v sec => .ok (.f64 (F64.fneg v) sec)
  | .vec4 v => .ok (.vec4 (v.map F32.fneg))
  | .mat4 m => .ok (.mat4 (m.map F32.fneg))
  | _ => .error "Expected `f64`, `vec4` or `mat4`"

/-- `dot`, mod.rs:298-307. -/
def dot (a b : Val) : OpRes :=
  let scaled (a : Vec4) (b : F64) : Val :=
    let b := toF32 b
    .ofF64 (ofF32 (add32 (add32 (add32 (mul32 a.x b) (mul32 a.y b)) (mul32 a.z b)) (mul32 a.w b)))
  match a, b with
  | .vec4 a, .vec4 b => .ok (.ofF64 (ofF32 (VecMath.vec4Dot a b)))
  | .vec4 a, .f64 b _ => .ok (scaled a b)
  | .f64 b _, .vec4 a => .ok (scaled a b)
  | _, _ => .error "Expected (vec4, vec4), (vec4, f64) or (f64, vec4)"

/-- `cross`, mod.rs:309-313, on the popped vectors. -/
def cross (a b : Vec4) : Vec4 :=
  ⟨sub32 (mul32 a.y b.z) (mul32 a.z b.y),
   sub32 (mul32 a.z b.x) (mul32 a.x b.z),
   sub32 (mul32 a.x b.y) (mul32 a.y b.x), F32.zero⟩

/-- `norm`, mod.rs:320-326. -/
def norm : Val → OpRes
  | .vec4 v => .ok (.ofF64 (ofF32 (VecMath.vec4Len v)))
  | _ => .error "Expected `vec4`"

/-- `len`, mod.rs:640-645. -/
def len : Val → OpRes
  | .array arr => .ok (.ofF64 (F64.ofNat arr.length))
  | _ => .error "Expected array"

end Op
end Dyon
