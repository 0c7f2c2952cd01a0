import Verif.Color.Float
import Verif.Draw.Pixels
import Verif.Builtin.Text
import Verif.Front.Convert

/-!
# Model of colours and of the conversions of `Vec4`

The conversions of `src/vec4.rs`, the arithmetic of `str__color` (`src/dyon_std/mod.rs:988-998`), and what is taken for granted about
the hardware (`Single`) and the crate `read_color` (`Colors`).
-/

namespace Dyon

namespace F32

/-- `x < y` on `f32`. -/
def lt (x y : F32) : Bool := !isNaN x && !isNaN y && decide (key x < key y)

/-- `1.0`. -/
def one : F32 := 0x3f800000#32

end F32

/-- What IEEE-754 says of the operations on finite `f32` numbers used here: the exact result is rounded to the nearest number
(`F32.round`), the sign is that of the exact result; conversion to `f64` is exact. -/
class Single [FloatOps] : Prop where
  mul : ∀ x y, F32.isFinite x = true → F32.isFinite y = true →
    F32.mag (FloatOps.mul32 x y) = F32.mag (F32.round (F32.smag (F32.mag x) * F32.smag (F32.mag y)) F32.unit) ∧
    F32.neg? (FloatOps.mul32 x y) = (F32.neg? x != F32.neg? y)
  mul_nan : ∀ x y, F32.isNaN x = true → F32.isNaN (FloatOps.mul32 x y) = true
  div : ∀ x y, F32.isFinite x = true → F32.isFinite y = true → F32.mag y ≠ 0 →
    F32.mag (FloatOps.div32 x y) = F32.mag (F32.round (F32.smag (F32.mag x) * F32.unit) (F32.smag (F32.mag y))) ∧
    F32.neg? (FloatOps.div32 x y) = (F32.neg? x != F32.neg? y)
  narrow : ∀ x, F64.isFinite x = true →
    F32.mag (FloatOps.toF32 x) = F32.mag (F32.round (F64.smag (F64.mag x)) (2 ^ 925)) ∧
    F32.neg? (FloatOps.toF32 x) = F64.neg? x
  wide : ∀ x, F32.isFinite x = true →
    F64.isFinite (FloatOps.ofF32 x) = true ∧ F64.smag (F64.mag (FloatOps.ofF32 x)) = F32.smag (F32.mag x) * 2 ^ 925 ∧
    F64.neg? (FloatOps.ofF32 x) = F32.neg? x
  wide_nan : ∀ x, F32.isNaN x = true → F64.isNaN (FloatOps.ofF32 x) = true

namespace Color

section
variable [FloatOps]

/-- `clamp`, dyon_std/mod.rs:991-993. -/
def clamp (x : F32) : F32 :=
  if F32.lt x F32.zero then F32.zero else if F32.lt F32.one x then F32.one else x

/-- `(clamp(x) * 255.0) as usize`, dyon_std/mod.rs:994-997. -/
def byte (x : F32) : Nat := (FloatOps.ofF32 (FloatOps.mul32 (clamp x) Draw.f255)).toUsize

/-- `Vec4::from([u8; 4])` and `Vec4::from((u8, u8, u8, u8))`, vec4.rs:117-137. -/
def ofBytes (r g b a : Nat) : Vec4 := ⟨Draw.partOf r, Draw.partOf g, Draw.partOf b, Draw.partOf a⟩

/-- `Into<[u8; 4]>` and `Into<(u8, u8, u8, u8)>`, vec4.rs:241-262. -/
def toBytes (v : Vec4) : Nat × Nat × Nat × Nat := (Draw.byteOf v.x, Draw.byteOf v.y, Draw.byteOf v.z, Draw.byteOf v.w)

/-- `Vec4::from([u32; 2])` and `Vec4::from((u32, u32))`, vec4.rs:105-115. -/
def ofU32s (x y : Nat) : Vec4 := ⟨FloatOps.toF32 (F64.ofNat x), FloatOps.toF32 (F64.ofNat y), 0, 0⟩

/-- `Vec4::from([f64; n])` and of tuples, vec4.rs:51-67, 87-103, for two, three and four components. -/
def ofF64s : F64 → F64 → Option (F64 × Option F64) → Vec4
  | x, y, none => ⟨FloatOps.toF32 x, FloatOps.toF32 y, 0, 0⟩
  | x, y, some (z, none) => ⟨FloatOps.toF32 x, FloatOps.toF32 y, FloatOps.toF32 z, 0⟩
  | x, y, some (z, some w) => ⟨FloatOps.toF32 x, FloatOps.toF32 y, FloatOps.toF32 z, FloatOps.toF32 w⟩

/-- `Into<[f64; 4]>` and `Into<(f64, f64, f64, f64)>`, vec4.rs:173-182, 218-227; those with fewer components (157-171, 202-216) are its
first ones. -/
def toF64s (v : Vec4) : F64 × F64 × F64 × F64 :=
  (FloatOps.ofF32 v.x, FloatOps.ofF32 v.y, FloatOps.ofF32 v.z, FloatOps.ofF32 v.w)

/-- `Into<[u32; 2]>` and `Into<(u32, u32)>`, vec4.rs:229-239. -/
def toU32s (v : Vec4) : Nat × Nat := ((FloatOps.ofF32 v.x).toU32, (FloatOps.ofF32 v.y).toU32)

end

/-- The value of a hexadecimal digit, in lower or upper case. -/
def digit (c : Char) : Option Nat :=
  if '0' ≤ c ∧ c ≤ '9' then some (c.toNat - 48)
  else if 'a' ≤ c ∧ c ≤ 'f' then some (c.toNat - 87)
  else if 'A' ≤ c ∧ c ≤ 'F' then some (c.toNat - 55)
  else none

/-- The bytes that pairs of hexadecimal digits stand for. -/
def bytes : List Char → Option (List Nat)
  | [] => some []
  | [_] => none
  | a :: b :: r => do some ((16 * (← digit a) + (← digit b)) :: (← bytes r))

/-- What is taken for granted about colours: the arithmetic of `str__color` and of colour literals is that of `f32`, and
`read_color::rgb_maybe_a` reads three or four pairs of hexadecimal digits. -/
class Colors [FloatOps] [TextOps] [Data.Lex] : Prop where
  byte : ∀ x, TextOps.byte x = Color.byte x
  channel : ∀ n, n ≤ 255 → Data.Lex.channel n = Draw.partOf n
  rgb : ∀ s r g b, bytes s = some [r, g, b] → Data.Lex.rgba s = some (r, g, b, none)
  rgba : ∀ s r g b a, bytes s = some [r, g, b, a] → Data.Lex.rgba s = some (r, g, b, some a)

end Color
end Dyon
