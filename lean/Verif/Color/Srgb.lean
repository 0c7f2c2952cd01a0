import Verif.Color.Model

/-!
# Conversions between sRGB and linear colours

`srgb_to_linear__color` and `linear_to_srgb__color`, dyon_std/mod.rs:1014-1036.  `powf` is external (`FloatOps.pow32`).
-/

namespace Dyon

/-- `x <= y` on `f32`. -/
def F32.le (x y : F32) : Bool := !isNaN x && !isNaN y && decide (key x ≤ key y)

namespace Color

/-- `0.04045`, dyon_std/mod.rs:1017, rounded to single precision. -/
def darkSrgb : F32 := 0x3d25aee6#32

/-- `0.003_130_8`, dyon_std/mod.rs:1029. -/
def darkLinear : F32 := 0x3b4d2e1c#32

/-- `12.92`, dyon_std/mod.rs:1018, 1030. -/
def slope : F32 := 0x414eb852#32

/-- `0.055`, dyon_std/mod.rs:1020, 1032. -/
def offset : F32 := 0x3d6147ae#32

/-- `1.055`, dyon_std/mod.rs:1020, 1032. -/
def factor : F32 := 0x3f870a3d#32

/-- `2.4`, dyon_std/mod.rs:1020. -/
def gamma : F32 := 0x4019999a#32

/-- `1.0 / 2.4`, dyon_std/mod.rs:1032. -/
def invGamma : F32 := 0x3ed55555#32

section
variable [FloatOps]

/-- `to_linear`, dyon_std/mod.rs:1016-1022. -/
def toLinear (f : F32) : F32 :=
  if F32.le f darkSrgb then FloatOps.div32 f slope
  else FloatOps.pow32 (FloatOps.div32 (FloatOps.add32 f offset) factor) gamma

/-- `srgb_to_linear__color`, dyon_std/mod.rs:1014-1024. -/
def srgbToLinear (v : Vec4) : Vec4 := ⟨toLinear v.x, toLinear v.y, toLinear v.z, v.w⟩

/-- `to_srgb`, dyon_std/mod.rs:1028-1034. -/
def toSrgb (f : F32) : F32 :=
  if F32.le f darkLinear then FloatOps.mul32 f slope
  else FloatOps.sub32 (FloatOps.mul32 factor (FloatOps.pow32 f invGamma)) offset

/-- `linear_to_srgb__color`, dyon_std/mod.rs:1026-1036. -/
def linearToSrgb (v : Vec4) : Vec4 := ⟨toSrgb v.x, toSrgb v.y, toSrgb v.z, v.w⟩

end

end Color
end Dyon
