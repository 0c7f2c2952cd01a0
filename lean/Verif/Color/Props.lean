import Verif.Color.Model
import Verif.Builtin.TextProps
import Verif.Draw.PixelProps

/-!
# C87: colours as text, as bytes and as vectors

## Specification

A component of a colour has an exact value, counted in units of `2^-149` (`Spec.units`); a byte `b` stands for `b / 255`.
-/

namespace Dyon.Color

namespace Spec

/-- `x` is a number that is not negative, and its value is `k` units (`-0.0` included). -/
def units (x : F32) (k : Nat) : Prop :=
  F32.isFinite x = true ∧ (F32.neg? x = true → k = 0) ∧ F32.smag (F32.mag x) = k

/-- The numbers of a colour text that is written without opacity if it is full. -/
def shown (r g b a : Nat) : List Nat := [r, g, b] ++ if a = 255 then [] else [a]

end Spec

/-! ## Bytes -/

section
variable [FloatOps] [Single]

omit [FloatOps] [Single] in
theorem f255_facts : F32.isFinite Draw.f255 = true ∧ F32.neg? Draw.f255 = false ∧ F32.mag Draw.f255 ≠ 0 ∧
    F32.smag (F32.mag Draw.f255) = 255 * F32.unit := by decide +kernel

omit [FloatOps] [Single] in
theorem toUsize_eq {x : F64} (h : F64.isFinite x = true) (hn : F64.neg? x = false) :
    x.toUsize = min (F64.smag (F64.mag x) / F64.unit) (2 ^ 64 - 1) := by
  simp [F64.toUsize, F64.isNaN_of_isFinite h, hn, h]

/-- Conversion of an `f32` to a whole number drops the fraction. -/
theorem whole {x : F32} (h : F32.isFinite x = true) (hn : F32.neg? x = false) :
    (FloatOps.ofF32 x).toUsize = min (F32.smag (F32.mag x) / F32.unit) (2 ^ 64 - 1) := by
  obtain ⟨h1, h2, h3⟩ := Single.wide x h
  rw [toUsize_eq h1 (by rw [h3, hn]), h2]
  have : F64.unit = F32.unit * 2 ^ 925 := by decide +kernel
  rw [this, Nat.mul_div_mul_right _ _ (by positivity)]

omit [FloatOps] [Single] in
theorem neg_zero {x : F64} (hn : F64.neg? x = true) : x.toUsize = 0 := by
  unfold F64.toUsize
  split
  · rfl
  · rfl

omit [FloatOps] [Single] in
theorem nan_zero {x : F64} (hn : F64.isNaN x = true) : x.toUsize = 0 := by
  simp [F64.toUsize, hn]

omit [FloatOps] [Single] in
theorem eq_of {x y : F32} (hm : F32.mag x = F32.mag y) (hn : F32.neg? x = F32.neg? y) : x = y := by
  apply BitVec.eq_of_toNat_eq
  have h1 := x.isLt
  have h2 := y.isLt
  simp only [F32.mag] at hm
  have hn' : 2 ^ 31 ≤ x.toNat ↔ 2 ^ 31 ≤ y.toNat := by
    simpa [F32.neg?] using hn
  omega

/-- A whole number below `2^24` as `f32` is exact. -/
theorem small {n : Nat} (h : n < 2 ^ 24) : Spec.units (FloatOps.toF32 (F64.ofNat n)) (n * F32.unit) ∧
    F32.neg? (FloatOps.toF32 (F64.ofNat n)) = false := by
  have h53 : n < 2 ^ 53 := by omega
  obtain ⟨h1, h2⟩ := Single.narrow (F64.ofNat n) (F64.ofNat_finite h53)
  obtain ⟨k, hk, hs⟩ := F32.exists_pattern n 149 h
  have hr : F32.roundMag (F64.smag (F64.mag (F64.ofNat n))) (2 ^ 925) = k := by
    rw [F64.ofNat_smag h53, show F64.unit = F32.unit * 2 ^ 925 by decide +kernel, ← Nat.mul_assoc,
      show n * F32.unit = F32.smag k from hs.symm]
    exact F32.round_exact (by positivity)
  have hlt : k < F32.infMag := by unfold F32.infMag; omega
  rw [F32.mag_round, hr, Nat.min_eq_left hlt.le] at h1
  rw [F64.ofNat_neg? h53] at h2
  refine ⟨⟨?_, ?_, ?_⟩, h2⟩
  · simp [F32.isFinite, h1, hlt]
  · rw [h2]; simp
  · rw [h1]; exact hs

/-- A byte as a component, by its exact value. -/
theorem part_eq {n : Nat} (h : n ≤ 255) : Draw.partOf n = F32.round (n * F32.unit * F32.unit) (255 * F32.unit) := by
  obtain ⟨⟨h1, -, h2⟩, h3⟩ := small (n := n) (by omega)
  obtain ⟨a, b, c, d⟩ := f255_facts
  obtain ⟨e, f⟩ := Single.div (FloatOps.toF32 (F64.ofNat n)) Draw.f255 h1 a c
  rw [h2, d] at e
  rw [h3, b] at f
  exact eq_of e (by rw [F32.neg_round]; exact f)

/-- Components that are not negative, times 255. -/
theorem times {x : F32} (h : F32.isFinite x = true) (hn : F32.neg? x = false) :
    F32.mag (FloatOps.mul32 x Draw.f255) = F32.mag (F32.round (F32.smag (F32.mag x) * (255 * F32.unit)) F32.unit) ∧
    F32.neg? (FloatOps.mul32 x Draw.f255) = false := by
  obtain ⟨a, b, c, d⟩ := f255_facts
  obtain ⟨e, f⟩ := Single.mul x Draw.f255 h a
  rw [d] at e
  rw [hn, b] at f
  exact ⟨e, f⟩

/-- The pattern of `x * 255`. -/
def scaledMag (k : Nat) : Nat := F32.roundMag (k * (255 * F32.unit)) F32.unit

/-- `x * 255` as a whole number. -/
theorem byte_small {x : F32} (h : F32.isFinite x = true) (hn : F32.neg? x = false)
    (hs : scaledMag (F32.smag (F32.mag x)) < F32.infMag) :
    (FloatOps.ofF32 (FloatOps.mul32 x Draw.f255)).toUsize =
      min (F32.smag (scaledMag (F32.smag (F32.mag x))) / F32.unit) (2 ^ 64 - 1) := by
  obtain ⟨h1, h2⟩ := times h hn
  rw [F32.mag_round] at h1
  change F32.mag _ = min (scaledMag _) _ at h1
  rw [Nat.min_eq_left hs.le] at h1
  rw [whole (by simp [F32.isFinite, h1, hs]) h2, h1]

omit [FloatOps] [Single] in
/-- All bytes: the component is between 0 and 1, and times 255 it is the byte again. -/
theorem table : ∀ n : Fin 256,
    F32.mag (F32.round (n.val * F32.unit * F32.unit) (255 * F32.unit)) ≤ F32.mag F32.one ∧
    F32.neg? (F32.round (n.val * F32.unit * F32.unit) (255 * F32.unit)) = false ∧
    scaledMag (F32.smag (F32.mag (F32.round (n.val * F32.unit * F32.unit) (255 * F32.unit)))) < F32.infMag ∧
    F32.smag (scaledMag (F32.smag (F32.mag (F32.round (n.val * F32.unit * F32.unit) (255 * F32.unit))))) / F32.unit = n.val := by
  decide +kernel

/-- A component that is a byte is neither negative nor larger than one. -/
theorem part_range {n : Nat} (h : n ≤ 255) : F32.mag (Draw.partOf n) ≤ F32.mag F32.one ∧ F32.neg? (Draw.partOf n) = false := by
  rw [part_eq h]
  exact ⟨(table ⟨n, by omega⟩).1, (table ⟨n, by omega⟩).2.1⟩

omit [FloatOps] [Single] in
theorem finite_of_le_one {x : F32} (h : F32.mag x ≤ F32.mag F32.one) : F32.isFinite x = true := by
  have : F32.mag F32.one < F32.infMag := by decide +kernel
  simp only [F32.isFinite, decide_eq_true_eq]
  omega

theorem part_times {n : Nat} (h : n ≤ 255) : (FloatOps.ofF32 (FloatOps.mul32 (Draw.partOf n) Draw.f255)).toUsize = n := by
  obtain ⟨h1, h2⟩ := part_range h
  have t := table ⟨n, by omega⟩
  rw [byte_small (finite_of_le_one h1) h2 (by rw [part_eq h]; exact t.2.2.1), part_eq h, t.2.2.2]
  show min n _ = n
  omega

theorem byteOf_part {n : Nat} (h : n ≤ 255) : Draw.byteOf (Draw.partOf n) = n := by
  rw [Draw.byteOf, F64.toU8, part_times h]
  omega

omit [FloatOps] [Single] in
theorem key_zero : F32.key F32.zero = 0 := by decide +kernel

omit [FloatOps] [Single] in
theorem key_nonneg {x : F32} (h : F32.neg? x = false) : F32.key x = F32.mag x := by
  have : ¬ 2 ^ 31 ≤ x.toNat := by simpa [F32.neg?] using h
  rw [F32.key, if_neg this]

omit [FloatOps] [Single] in
theorem key_neg {x : F32} (h : F32.neg? x = true) : F32.key x = -(F32.mag x : Int) := by
  have : 2 ^ 31 ≤ x.toNat := by simpa [F32.neg?] using h
  rw [F32.key, if_pos this]

omit [FloatOps] [Single] in
/-- What `clamp` gives: no number, or a number from 0 to 1, and which one. -/
theorem clamp_cases (x : F32) :
    (F32.isNaN x = true ∧ clamp x = x) ∨
    (F32.isNaN x = false ∧ F32.key x ≤ 0 ∧ F32.mag (clamp x) = 0) ∨
    (F32.isNaN x = false ∧ F32.key F32.one < F32.key x ∧ clamp x = F32.one) ∨
    (F32.neg? x = false ∧ F32.mag x ≤ F32.mag F32.one ∧ clamp x = x) := by
  have hz : F32.isNaN F32.zero = false := by decide +kernel
  have ho : F32.isNaN F32.one = false := by decide +kernel
  have hk : F32.key F32.one = F32.mag F32.one := by decide +kernel
  unfold clamp F32.lt
  rw [hz, ho, key_zero]
  cases hx : F32.isNaN x
  · right
    simp only [Bool.not_false, Bool.true_and, Bool.and_true, decide_eq_true_eq]
    split
    · rename_i h
      exact .inl ⟨trivial, by omega, by decide +kernel⟩
    · rename_i h
      split
      · rename_i h2
        exact .inr (.inl ⟨trivial, h2, rfl⟩)
      · rename_i h2
        cases hn : F32.neg? x
        · right; right
          rw [key_nonneg hn, hk] at h2
          exact ⟨rfl, by omega, rfl⟩
        · left
          rw [key_neg hn] at h ⊢
          exact ⟨trivial, by omega, by omega⟩
  · left
    simp

/-- Zero, of either sign, is the byte 0. -/
theorem zero_times {x : F32} (h : F32.mag x = 0) : (FloatOps.ofF32 (FloatOps.mul32 x Draw.f255)).toUsize = 0 := by
  obtain ⟨a, b, c, d⟩ := f255_facts
  obtain ⟨e, f⟩ := Single.mul x Draw.f255 (finite_of_le_one (by omega)) a
  rw [h, d, show F32.mag (F32.round (F32.smag 0 * (255 * F32.unit)) F32.unit) = 0 by decide +kernel] at e
  cases hn : F32.neg? (FloatOps.mul32 x Draw.f255)
  · rw [whole (finite_of_le_one (by omega)) hn, e]
    decide +kernel
  · exact neg_zero (by rw [(Single.wide _ (finite_of_le_one (by omega))).2.2, hn])

/-- The whole number of a component from 0 to 1. -/
def level (m : Nat) : Nat := F32.smag (scaledMag (F32.smag m)) / F32.unit

omit [FloatOps] [Single] in
theorem unit_pos : 0 < F32.unit := Nat.pos_of_ne_zero (by unfold F32.unit; positivity)

omit [FloatOps] [Single] in
theorem scaled_mono {m m' : Nat} (h : m ≤ m') : scaledMag (F32.smag m) ≤ scaledMag (F32.smag m') :=
  F32.round_mono unit_pos (Nat.mul_le_mul_right _ (F32.smag_mono h))

omit [FloatOps] [Single] in
theorem level_mono {m m' : Nat} (h : m ≤ m') : level m ≤ level m' :=
  Nat.div_le_div_right (F32.smag_mono (scaled_mono h))

omit [FloatOps] [Single] in
theorem level_one : level (F32.mag F32.one) = 255 ∧ scaledMag (F32.smag (F32.mag F32.one)) < F32.infMag := by decide +kernel

theorem level_times {x : F32} (h : F32.mag x ≤ F32.mag F32.one) (hn : F32.neg? x = false) :
    (FloatOps.ofF32 (FloatOps.mul32 x Draw.f255)).toUsize = level (F32.mag x) := by
  have hl := Nat.le_trans (level_mono h) level_one.1.le
  rw [byte_small (finite_of_le_one h) hn (Nat.lt_of_le_of_lt (scaled_mono h) level_one.2)]
  show min (level _) _ = _
  omega

/-- The byte of any component. -/
theorem byte_cases (x : F32) :
    (F32.isNaN x = true ∧ byte x = 0) ∨
    (F32.isNaN x = false ∧ F32.key x ≤ 0 ∧ byte x = 0) ∨
    (F32.isNaN x = false ∧ F32.key F32.one < F32.key x ∧ byte x = 255) ∨
    (F32.neg? x = false ∧ F32.mag x ≤ F32.mag F32.one ∧ byte x = level (F32.mag x)) := by
  unfold byte
  rcases clamp_cases x with ⟨h, e⟩ | ⟨h, h', e⟩ | ⟨h, h', e⟩ | ⟨h, h', e⟩
  · refine .inl ⟨h, ?_⟩
    rw [e]
    exact nan_zero (Single.wide_nan _ (Single.mul_nan _ _ h))
  · exact .inr (.inl ⟨h, h', zero_times e⟩)
  · refine .inr (.inr (.inl ⟨h, h', ?_⟩))
    rw [e, level_times (Nat.le_refl _) (by decide +kernel), level_one.1]
  · refine .inr (.inr (.inr ⟨h, h', ?_⟩))
    rw [e, level_times h' h]

theorem byte_le (x : F32) : byte x ≤ 255 := by
  have := level_one.1
  rcases byte_cases x with ⟨-, e⟩ | ⟨-, -, e⟩ | ⟨-, -, e⟩ | ⟨-, h, e⟩
  · omega
  · omega
  · omega
  · rw [e, ← level_one.1]; exact level_mono h

theorem byte_part {n : Nat} (h : n ≤ 255) : byte (Draw.partOf n) = n := by
  obtain ⟨h1, h2⟩ := part_range h
  have hn : F32.isNaN (Draw.partOf n) = false := by
    have : F32.mag F32.one < F32.infMag := by decide +kernel
    unfold F32.infMag at this
    simp only [F32.isNaN, decide_eq_false_iff_not]
    omega
  rw [byte]
  have : clamp (Draw.partOf n) = Draw.partOf n := by
    have hk : F32.key F32.one = F32.mag F32.one := by decide +kernel
    rw [clamp, if_neg, if_neg]
    · simp only [F32.lt, Bool.and_eq_true, decide_eq_true_eq, not_and, hk, key_nonneg h2]; omega
    · simp only [F32.lt, Bool.and_eq_true, decide_eq_true_eq, not_and, key_zero, key_nonneg h2]; omega
  rw [this, part_times h]

/-! ## Theorems -/

/-- Four bytes given to a program as a vector (`Vec4::from([u8; 4])`) and taken back (`Into<[u8; 4]>`) are the same bytes. -/
theorem C87_host {r g b a : Nat} (hr : r ≤ 255) (hg : g ≤ 255) (hb : b ≤ 255) (ha : a ≤ 255) :
    toBytes (ofBytes r g b a) = (r, g, b, a) := by
  simp [toBytes, ofBytes, byteOf_part, hr, hg, hb, ha]

/-- A component of a colour from 0 to 1 is shown as a byte that is not more than one step below it, and less than `2^-16` steps above it:
with `k` units in the component, `255 * k` units are less than `byte + 1`, and more than `byte - 2^-16`. -/
theorem C87_near {x : F32} {k : Nat} (h : Spec.units x k) (hk : k ≤ F32.unit) :
    255 * k < (byte x + 1) * F32.unit ∧ 2 ^ 16 * (byte x * F32.unit) < 2 ^ 16 * (255 * k) + F32.unit := by
  obtain ⟨hf, hn, hs⟩ := h
  have hu := unit_pos
  have hone : F32.smag (F32.mag F32.one) = F32.unit := by decide +kernel
  have hm : F32.mag x ≤ F32.mag F32.one := F32.smag_le_iff.1 (by rw [hs, hone]; exact hk)
  have hzero : k = 0 → F32.mag x = 0 := by
    intro h0
    rw [h0] at hs
    exact Nat.le_zero.1 (F32.smag_le_iff.1 (by rw [hs]; exact Nat.zero_le _))
  have hb : byte x = level (F32.mag x) := by
    have l0 : level 0 = 0 := by decide +kernel
    have hk0 : F32.key x ≤ 0 → F32.mag x = 0 := by
      intro h
      cases hs' : F32.neg? x
      · rw [key_nonneg hs'] at h; omega
      · exact hzero (hn hs')
    rcases byte_cases x with ⟨h, e⟩ | ⟨-, h, e⟩ | ⟨-, h, e⟩ | ⟨-, -, e⟩
    · have : F32.mag F32.one < F32.infMag := by decide +kernel
      unfold F32.infMag at this
      simp only [F32.isNaN, decide_eq_true_eq] at h
      omega
    · rw [e, hk0 h, l0]
    · exfalso
      have hk : F32.key F32.one = F32.mag F32.one := by decide +kernel
      have : F32.key x ≤ F32.mag x := by
        cases hs' : F32.neg? x
        · rw [key_nonneg hs']
        · rw [key_neg hs']; omega
      omega
    · exact e
  have hle : level (F32.mag x) ≤ 255 := level_one.1 ▸ level_mono hm
  rw [hb]
  generalize hL : level (F32.mag x) = b at hle
  unfold level at hL
  rw [hs] at hL
  have h1 : F32.smag (scaledMag k) < (b + 1) * F32.unit := by
    rw [← hL]; exact Nat.lt_mul_of_div_lt (Nat.lt_succ_self _) hu
  have h2 : b * F32.unit ≤ F32.smag (scaledMag k) := by
    rw [← hL]; exact Nat.div_mul_le_self _ _
  have hc : k * (255 * F32.unit) = 255 * k * F32.unit := by ring
  constructor
  · by_contra hcon
    obtain ⟨n, -, hn⟩ := F32.exists_pattern (b + 1) 149 (by omega)
    change F32.smag n = (b + 1) * F32.unit at hn
    have := F32.round_mono hu (Nat.mul_le_mul_right F32.unit (Nat.le_of_not_lt hcon))
    rw [← hn, F32.round_exact hu, ← hc] at this
    have := F32.smag_mono this
    rw [hn] at this
    exact absurd h1 (Nat.not_lt_of_le this)
  · by_contra hcon
    have hcon := Nat.le_of_not_lt hcon
    have hu' : F32.unit = 2 ^ 16 * 2 ^ 133 := by decide +kernel
    rcases Nat.eq_zero_or_pos b with h0 | h0
    · subst h0
      omega
    · obtain ⟨n, -, hn⟩ := F32.exists_pattern (b * 2 ^ 16 - 1) 133 (by omega)
      have hle : 255 * k ≤ F32.smag n := by
        rw [hn, Nat.sub_mul]
        have : b * 2 ^ 16 * 2 ^ 133 = b * F32.unit := by rw [hu']; ring
        rw [this]
        rw [hu'] at hcon ⊢
        generalize 2 ^ 133 = z at *
        generalize b * (2 ^ 16 * z) = bz at *
        omega
      have := F32.round_mono hu (Nat.mul_le_mul_right F32.unit hle)
      rw [F32.round_exact hu, ← hc] at this
      have := F32.smag_mono this
      change F32.smag (scaledMag k) ≤ _ at this
      rw [hn, Nat.sub_mul] at this
      have e : b * 2 ^ 16 * 2 ^ 133 = b * F32.unit := by rw [hu']; ring
      have hpos : 0 < b * F32.unit := Nat.mul_pos h0 hu
      have hz : 0 < 2 ^ 133 := by positivity
      rw [e] at this
      generalize 2 ^ 133 = z at *
      omega

/-- A brighter component is never shown darker. -/
theorem C87_order {x y : F32} (hy : F32.isNaN y = false) (h : F32.lt y x = false) : byte x ≤ byte y := by
  have hone : F32.key F32.one = F32.mag F32.one := by decide +kernel
  have hle : F32.isNaN x = true ∨ F32.key x ≤ F32.key y := by
    cases hx : F32.isNaN x
    · right
      simp only [F32.lt, hx, hy, Bool.not_false, Bool.true_and, decide_eq_false_iff_not] at h
      omega
    · exact .inl rfl
  rcases byte_cases x with ⟨-, e⟩ | ⟨-, -, e⟩ | ⟨hx, hkx, e⟩ | ⟨hnx, hx, e⟩
  · omega
  · omega
  · have hle : F32.key x ≤ F32.key y := hle.resolve_left (by rw [hx]; simp)
    rcases byte_cases y with ⟨h', -⟩ | ⟨-, h', -⟩ | ⟨-, -, e'⟩ | ⟨hny, hy', -⟩
    · rw [hy] at h'; cases h'
    · omega
    · omega
    · rw [key_nonneg hny] at hle; omega
  · have hx' : F32.isNaN x = false := by
      have : F32.mag F32.one < F32.infMag := by decide +kernel
      unfold F32.infMag at this
      simp only [F32.isNaN, decide_eq_false_iff_not]
      omega
    have hle : F32.key x ≤ F32.key y := hle.resolve_left (by rw [hx']; simp)
    rw [key_nonneg hnx] at hle
    rcases byte_cases y with ⟨h', -⟩ | ⟨-, h', e'⟩ | ⟨-, -, e'⟩ | ⟨hny, hy', e'⟩
    · rw [hy] at h'; cases h'
    · rw [e, e', show F32.mag x = 0 by omega]
      decide +kernel
    · rw [e', e, ← level_one.1]
      exact level_mono hx
    · rw [key_nonneg hny] at hle
      rw [e, e']
      exact level_mono (by omega)

/-- Numbers of a program as `f64` (`Into<[f64; 4]>`) given back (`Vec4::from([f64; 4])`) are the same numbers. -/
theorem C87_doubles {v : Vec4} (hx : F32.isFinite v.x = true) (hy : F32.isFinite v.y = true) (hz : F32.isFinite v.z = true)
    (hw : F32.isFinite v.w = true) :
    ofF64s (toF64s v).1 (toF64s v).2.1 (some ((toF64s v).2.2.1, some (toF64s v).2.2.2)) = v := by
  have key : ∀ x : F32, F32.isFinite x = true → FloatOps.toF32 (FloatOps.ofF32 x) = x := by
    intro x hx
    obtain ⟨a, b, c⟩ := Single.wide x hx
    obtain ⟨d, e⟩ := Single.narrow _ a
    refine eq_of ?_ (e.trans c)
    rw [d, b, F32.mag_round, F32.round_exact (by positivity)]
    have : F32.mag x < F32.infMag := by simpa [F32.isFinite] using hx
    omega
  cases v
  simp only [toF64s, ofF64s, key _ hx, key _ hy, key _ hz, key _ hw]

theorem small_u32 {n : Nat} (h : n ≤ 2 ^ 24) : (FloatOps.ofF32 (FloatOps.toF32 (F64.ofNat n))).toU32 = n := by
  have main : F32.isFinite (FloatOps.toF32 (F64.ofNat n)) = true ∧ F32.neg? (FloatOps.toF32 (F64.ofNat n)) = false ∧
      F32.smag (F32.mag (FloatOps.toF32 (F64.ofNat n))) = n * F32.unit := by
    rcases Nat.lt_or_eq_of_le h with h | h
    · obtain ⟨⟨a, -, b⟩, c⟩ := small h
      exact ⟨a, c, b⟩
    · subst h
      obtain ⟨a, b⟩ := Single.narrow (F64.ofNat (2 ^ 24)) (by decide +kernel)
      rw [show F32.mag (F32.round (F64.smag (F64.mag (F64.ofNat (2 ^ 24)))) (2 ^ 925)) = 151 * 2 ^ 23 by decide +kernel] at a
      refine ⟨?_, b.trans (by decide +kernel), ?_⟩
      · simp only [F32.isFinite, a]; decide +kernel
      · rw [a]; decide +kernel
  rw [F64.toU32, whole main.1 main.2.1, main.2.2, Nat.mul_div_cancel _ unit_pos]
  omega

/-- A size or a position in pixels (`[u32; 2]`) up to `2^24` that is given to a program and taken back is the same. -/
theorem C87_whole_partial {x y : Nat} (hx : x ≤ 2 ^ 24) (hy : y ≤ 2 ^ 24) : toU32s (ofU32s x y) = (x, y) := by
  simp [toU32s, ofU32s, small_u32 hx, small_u32 hy]

/-- The bound is sharp: `2^24 + 1` comes back as `2^24`. -/
theorem C87_whole_lost : toU32s (ofU32s (2 ^ 24 + 1) 0) = (2 ^ 24, 0) := by
  obtain ⟨a, b⟩ := Single.narrow (F64.ofNat (2 ^ 24 + 1)) (by decide +kernel)
  rw [show F32.mag (F32.round (F64.smag (F64.mag (F64.ofNat (2 ^ 24 + 1)))) (2 ^ 925)) = 151 * 2 ^ 23 by decide +kernel] at a
  have h : (FloatOps.ofF32 (FloatOps.toF32 (F64.ofNat (2 ^ 24 + 1)))).toU32 = 2 ^ 24 := by
    rw [F64.toU32, whole (by simp only [F32.isFinite, a]; decide +kernel) (b.trans (by decide +kernel)), a]
    decide +kernel
  simp only [toU32s, ofU32s, h, small_u32 (Nat.zero_le _)]

/-! ## Text -/

theorem hexByte_bytes : ∀ n, n ≤ 255 → ∃ a b, Lib.hexByte n = some [a, b] ∧ ∀ r, bytes (a :: b :: r) = (bytes r).map (n :: ·) := by
  have key : ∀ n : Fin 16, ∃ a, Lib.hexDigits[n.val]? = some a ∧ digit a = some n.val := by decide
  intro n hn
  obtain ⟨a, ha, hva⟩ := key ⟨n / 16, by omega⟩
  obtain ⟨b, hb, hvb⟩ := key ⟨n % 16, by omega⟩
  simp only at ha hb hva hvb
  refine ⟨a, b, by simp [Lib.hexByte, ha, hb], fun r => ?_⟩
  simp only [bytes, hva, hvb]
  have : 16 * (n / 16) + n % 16 = n := by omega
  cases bytes r <;> simp [this]

/-- What the text of a colour stands for. -/
theorem colorText_bytes [TextOps] (v : Vec4) : ∃ t, Lib.colorText v = some ('#' :: t) ∧
    bytes t = some (Spec.shown (TextOps.byte v.x) (TextOps.byte v.y) (TextOps.byte v.z) (TextOps.byte v.w)) := by
  obtain ⟨r1, r2, hr, hr'⟩ := hexByte_bytes _ (TextOps.byte_le v.x)
  obtain ⟨g1, g2, hg, hg'⟩ := hexByte_bytes _ (TextOps.byte_le v.y)
  obtain ⟨b1, b2, hb, hb'⟩ := hexByte_bytes _ (TextOps.byte_le v.z)
  obtain ⟨a1, a2, ha, ha'⟩ := hexByte_bytes _ (TextOps.byte_le v.w)
  by_cases hw : TextOps.byte v.w = 255
  · refine ⟨[r1, r2, g1, g2, b1, b2], by simp [Lib.colorText, hr, hg, hb, hw], ?_⟩
    rw [hr', hg', hb', bytes]
    simp [hw, Spec.shown]
  · refine ⟨[r1, r2, g1, g2, b1, b2, a1, a2], by simp [Lib.colorText, hr, hg, hb, hw, ha], ?_⟩
    rw [hr', hg', hb', ha', bytes]
    simp [hw, Spec.shown]

section
variable [TextOps] [Data.Lex] [Colors]

/-- A colour literal has the vector of its bytes; the opacity is full if it is left out. -/
theorem literal_eq {s : List Char} {r g b : Nat} {a : Option Nat} (hs : bytes s = some ([r, g, b] ++ a.toList))
    (hr : r ≤ 255) (hg : g ≤ 255) (hb : b ≤ 255) (ha : ∀ n ∈ a, n ≤ 255) :
    Front.color (String.ofList s) = some (.vec4 (ofBytes r g b (a.getD 255))) := by
  unfold Front.color
  rw [String.toList_ofList]
  cases a with
  | none =>
    rw [Colors.rgb s r g b hs]
    simp [ofBytes, Colors.channel, hr, hg, hb]
  | some n =>
    rw [Colors.rgba s r g b n hs]
    simp [ofBytes, Colors.channel, hr, hg, hb, ha n rfl]

/-- A colour literal, in lower or upper case, is shown by `str(color: ..)` as a text that stands for the same bytes; the opacity is left
out if it is full. -/
theorem C87_literal {c : Cfg} {st : Stack} {s : List Char} {r g b : Nat} {a : Option Nat}
    (hs : bytes s = some ([r, g, b] ++ a.toList)) (hr : r ≤ 255) (hg : g ≤ 255) (hb : b ≤ 255) (ha : ∀ n ∈ a, n ≤ 255) :
    ∃ v t, Front.color (String.ofList s) = some (.vec4 v) ∧ Lib.strColor c (st ++ [.vec4 v]) = .ok (.str t) st ∧
      Dyon.Spec.colorNumbers t.toList = some (Spec.shown r g b (a.getD 255)) := by
  have ha' : a.getD 255 ≤ 255 := by cases a with | none => simp | some n => exact ha n rfl
  obtain ⟨t, h1, h2⟩ := C72_color c (st := st) (a := .vec4 (ofBytes r g b (a.getD 255))) (.inr ⟨by simp, rfl⟩)
  refine ⟨_, t, literal_eq hs hr hg hb ha, h1, ?_⟩
  rw [h2]
  simp only [Colors.byte, ofBytes, byte_part hr, byte_part hg, byte_part hb, byte_part ha', Spec.shown]

/-- The text that `str(color: v)` gives for any vector, written as a colour literal, is shown as the same text. -/
theorem C87_stable {c : Cfg} {st : Stack} (v : Vec4) :
    ∃ t v', Lib.strColor c (st ++ [.vec4 v]) = .ok (.str (String.ofList ('#' :: t))) st ∧
      Front.color (String.ofList t) = some (.vec4 v') ∧
      Lib.strColor c (st ++ [.vec4 v']) = .ok (.str (String.ofList ('#' :: t))) st := by
  have run : ∀ (u : Vec4) l, Lib.colorText u = some l → Lib.strColor c (st ++ [.vec4 u]) = .ok (.str (String.ofList l)) st := by
    intro u l hl
    have hd : Denotes st (.vec4 u) (.vec4 u) := .inr ⟨by simp, rfl⟩
    simp [Lib.strColor, Lib.popVec4, hd.getV', hl]
  obtain ⟨t, h1, h2⟩ := colorText_bytes v
  have hx := TextOps.byte_le v.x
  have hy := TextOps.byte_le v.y
  have hz := TextOps.byte_le v.z
  have hw := TextOps.byte_le v.w
  have hlit : Front.color (String.ofList t) =
      some (.vec4 (ofBytes (TextOps.byte v.x) (TextOps.byte v.y) (TextOps.byte v.z) (TextOps.byte v.w))) := by
    by_cases h : TextOps.byte v.w = 255
    · have := literal_eq (s := t) (a := none) (by rw [h2, Spec.shown, if_pos h]; rfl) hx hy hz (by simp)
      rw [this, Option.getD_none, h]
    · exact literal_eq (s := t) (a := some (TextOps.byte v.w)) (by rw [h2, Spec.shown, if_neg h]; rfl) hx hy hz (by simpa using hw)
  refine ⟨t, _, run v _ h1, hlit, run _ _ ?_⟩
  rw [← h1]
  simp only [Lib.colorText, ofBytes, Colors.byte] at hx hy hz hw ⊢
  rw [byte_part hx, byte_part hy, byte_part hz, byte_part hw]

end
end

section
variable [FloatOps] [Single] {trace : String} {n : Nat} {w : Draw.World} {st : Stack}

/-- A pixel that is read and set at another place, of the same image or of another one, is copied without a change. -/
theorem C87_copy {v u : Val} {s d : Draw.Slot} {i : Draw.Image} {pos pos' : Vec4} {p : Draw.Pixel} (hw : Draw.Spec.Sound w)
    (hv : Draw.Spec.Means v s) (hu : Draw.Spec.Means u d)
    (hp : Draw.Spec.look w s (Draw.posOf pos).1 (Draw.posOf pos).2 = some p)
    (hb : p.r ≤ 255 ∧ p.g ≤ 255 ∧ p.b ≤ 255 ∧ p.a ≤ 255) (hi : Draw.Spec.image w d = some i)
    (hx : (Draw.posOf pos').1 < i.w) (hy : (Draw.posOf pos').2 < i.h) :
    ∃ color w', Draw.pixelGet trace n (w, st ++ [v, .vec4 pos]) = ((w, st), .ok (.resOk (.vec4 color))) ∧
      Draw.pixelSet trace n (w, st ++ [u, .vec4 pos', .vec4 color]) = ((w', st), .ok ()) ∧
      Draw.Spec.look w' d (Draw.posOf pos').1 (Draw.posOf pos').2 = some p := by
  obtain ⟨h1, h2, h3, h4⟩ := hb
  obtain ⟨w', e1, -, -, e2⟩ := Draw.C86_set (trace := trace) (n := n) (st := st)
    (color := ⟨Draw.partOf p.r, Draw.partOf p.g, Draw.partOf p.b, Draw.partOf p.a⟩) hw hu hi hx hy
  refine ⟨_, w', Draw.C86_get hv hp, e1, ?_⟩
  rw [e2, if_pos ⟨rfl, rfl⟩]
  simp only [byteOf_part h1, byteOf_part h2, byteOf_part h3, byteOf_part h4]

/-- A colour of bytes that is set is read as the same vector. -/
theorem C87_pixel {v : Val} {s : Draw.Slot} {i : Draw.Image} {pos : Vec4} {r g b a : Nat} (hw : Draw.Spec.Sound w)
    (hv : Draw.Spec.Means v s) (hi : Draw.Spec.image w s = some i) (hx : (Draw.posOf pos).1 < i.w) (hy : (Draw.posOf pos).2 < i.h)
    (hr : r ≤ 255) (hg : g ≤ 255) (hb : b ≤ 255) (ha : a ≤ 255) :
    ∃ w', Draw.pixelSet trace n (w, st ++ [v, .vec4 pos, .vec4 (ofBytes r g b a)]) = ((w', st), .ok ()) ∧
      Draw.pixelGet trace n (w', st ++ [v, .vec4 pos]) = ((w', st), .ok (.resOk (.vec4 (ofBytes r g b a)))) := by
  obtain ⟨w', h1, h2⟩ := Draw.C86_back (trace := trace) (n := n) (st := st) (color := ofBytes r g b a) hw hv hi hx hy
  refine ⟨w', h1, ?_⟩
  rw [h2]
  simp only [ofBytes, byteOf_part hr, byteOf_part hg, byteOf_part hb, byteOf_part ha]

end
end Dyon.Color
