import Verif.Builtin.Sleep
import Verif.Color.Demo
import Mathlib.Algebra.Order.Ring.Abs

/-!
# C93: waiting
-/

namespace Dyon.Wait

open F64

/-! ## Specification -/

namespace Spec

/-- What IEEE-754 says about the fraction of a number and about multiplying a number by another of size below 1: the fraction is
exact, the product is a number nearest to the exact product.  Numbers are in units of `2^-1074`. -/
structure Ieee [FloatOps] (fract : F64 → F64) : Prop where
  fract_finite : ∀ x, isFinite x = true → isFinite (fract x) = true ∧ scaled (fract x) = (scaled x).tmod unit
  fract_other : ∀ x, isFinite x = false → isNaN (fract x) = true
  mul_nearest : ∀ x y, isFinite x = true → isFinite y = true → |scaled x| < unit →
    isFinite (FloatOps.mul x y) = true ∧ ∀ z, isFinite z = true →
      |scaled (FloatOps.mul x y) * unit - scaled x * scaled y| ≤ |scaled z * unit - scaled x * scaled y|
  mul_nan : ∀ x y, isNaN x = true → isNaN (FloatOps.mul x y) = true

/-- The duration in nanoseconds. -/
def nanoseconds (d : Nat × Nat) : Nat := d.1 * 10 ^ 9 + d.2

end Spec

open Spec

/-! ## Lemmas -/

theorem finite_pattern {n : Nat} (h : n < infMag) : isFinite (BitVec.ofNat 64 n) = true ∧
    scaled (BitVec.ofNat 64 n) = smag n := by
  have h1 : (BitVec.ofNat 64 n).toNat = n := by
    rw [BitVec.toNat_ofNat]; exact Nat.mod_eq_of_lt (by unfold infMag at h; omega)
  have h2 : mag (BitVec.ofNat 64 n) = n := by
    rw [mag, h1]; exact Nat.mod_eq_of_lt (by unfold infMag at h; omega)
  have h3 : neg? (BitVec.ofNat 64 n) = false := by
    rw [neg?, h1]; exact decide_eq_false (by unfold infMag at h; omega)
  exact ⟨by rw [isFinite, h2]; exact decide_eq_true h, by rw [scaled, h3, h2]; rfl⟩

/-- Every `k * 2^e` is a number, for `k` of 53 bits. -/
theorem exists_number {k e : Nat} (hk : k < 2 ^ 53) (he : e ≤ 2045) : ∃ z, isFinite z = true ∧ scaled z = (k * 2 ^ e : Nat) := by
  obtain ⟨n, h1, h2⟩ := Color.Demo.exists_pattern64 k e hk
  have : n < infMag := Nat.lt_of_lt_of_le h1 (Nat.mul_le_mul_right _ (by omega))
  obtain ⟨h3, h4⟩ := finite_pattern this
  exact ⟨_, h3, by rw [h4, h2]⟩

theorem unit_split : unit = 2 ^ 53 * 2 ^ 1021 := by rw [unit, ← pow_add]

/-- The largest number below 1. -/
theorem below_one {x : F64} (hp : 0 ≤ scaled x) (h : scaled x < unit) :
    scaled x ≤ ((2 ^ 53 - 1) * 2 ^ 1021 : Nat) := by
  have e1 : smag (1023 * 2 ^ 52) = unit := by
    rw [smag, if_neg (by norm_num), unit, show (2 : Nat) ^ 1074 = 2 ^ 52 * 2 ^ 1022 by rw [← pow_add]]
    norm_num
  have e2 : smag (1023 * 2 ^ 52 - 1) = (2 ^ 53 - 1) * 2 ^ 1021 := by
    rw [smag, if_neg (by norm_num)]
    norm_num
  by_cases hn : neg? x = true
  · have : scaled x ≤ 0 := by rw [scaled, if_pos hn]; omega
    exact le_trans this (by positivity)
  · have hs : scaled x = (smag (mag x) : Int) := by rw [scaled, if_neg hn]
    rw [hs] at h ⊢
    have h' : smag (mag x) < smag (1023 * 2 ^ 52) := by rw [e1]; exact_mod_cast h
    have h'' := smag_lt_iff.1 h'
    have : smag (mag x) ≤ smag (1023 * 2 ^ 52 - 1) := by
      rcases Nat.lt_or_ge (mag x) (1023 * 2 ^ 52 - 1) with hl | hl
      · exact Nat.le_of_lt (smag_strictMono hl)
      · rw [show mag x = 1023 * 2 ^ 52 - 1 by omega]
    rw [e2] at this
    exact_mod_cast this

theorem toUsize_pos {x : F64} (hf : isFinite x = true) (hp : 0 ≤ scaled x) :
    toUsize x = min ((scaled x).toNat / unit) (2 ^ 64 - 1) := by
  rw [toUsize, isNaN_of_isFinite hf]
  by_cases hn : neg? x = true
  · have h : smag (mag x) = 0 := by rw [scaled, if_pos hn] at hp; omega
    have hs : scaled x = 0 := by rw [scaled, if_pos hn, h]; rfl
    simp [hn, hs]
  · have hs : scaled x = (smag (mag x) : Int) := by rw [scaled, if_neg hn]
    rw [Bool.not_eq_true] at hn
    simp [hn, hf, hs]

theorem toUsize_nonpos {x : F64} (hf : isFinite x = true) (hp : scaled x ≤ 0) : toUsize x = 0 := by
  rw [toUsize, isNaN_of_isFinite hf]
  by_cases hn : neg? x = true
  · simp [hn]
  · have hs : scaled x = (smag (mag x) : Int) := by rw [scaled, if_neg hn]
    have h : smag (mag x) = 0 := by rw [hs] at hp; omega
    rw [Bool.not_eq_true] at hn
    simp [hn, hf, h]

theorem toUsize_nan {x : F64} (h : isNaN x = true) : toUsize x = 0 := by rw [toUsize, if_pos h]

section

variable [FloatOps] {fract : F64 → F64}

theorem billion_finite : isFinite billion = true := by decide

theorem billion_scaled : scaled billion = 10 ^ 9 * unit := by
  rw [billion, ofNat_scaled (by norm_num)]; norm_num

theorem nearest_product (h : Ieee fract) {x : F64} (hf : isFinite x = true) (h0 : -(unit : Int) < scaled x) (h1 : scaled x < unit) :
    isFinite (FloatOps.mul x billion) = true ∧ ∀ z, isFinite z = true →
      |scaled (FloatOps.mul x billion) - scaled x * 10 ^ 9| ≤ |scaled z - scaled x * 10 ^ 9| := by
  obtain ⟨hm, hn⟩ := h.mul_nearest x billion hf billion_finite (abs_lt.2 ⟨h0, h1⟩)
  refine ⟨hm, fun z hz => ?_⟩
  have hu : (0 : Int) < unit := by exact_mod_cast unit_pos
  have e : ∀ r : Int, |r * unit - scaled x * scaled billion| = |r - scaled x * 10 ^ 9| * unit := fun r => by
    rw [billion_scaled, show r * unit - scaled x * (10 ^ 9 * unit) = (r - scaled x * 10 ^ 9) * unit by ring, abs_mul, abs_of_pos hu]
  have := hn z hz
  rw [e, e] at this
  exact le_of_mul_le_mul_right this hu

/-- The product of a fraction: below `10^9`, and near to the exact product. -/
theorem product (h : Ieee fract) {x : F64} (hf : isFinite x = true) (hp : 0 ≤ scaled x) (h1 : scaled x < unit) :
    0 ≤ scaled (FloatOps.mul x billion) ∧ scaled (FloatOps.mul x billion) < 10 ^ 9 * unit ∧
      |scaled (FloatOps.mul x billion) - scaled x * 10 ^ 9| * 2 ^ 23 ≤ (unit : Int) := by
  have hb := below_one hp h1
  obtain ⟨hm, hn⟩ := nearest_product h hf (by have := unit_pos; omega) h1
  generalize hr : scaled (FloatOps.mul x billion) = r at *
  generalize hx : scaled x = a at *
  have hU : (0 : Int) < 2 ^ 1021 := by positivity
  have hunit : (unit : Int) = 2 ^ 53 * 2 ^ 1021 := by rw [unit_split]; push_cast; rfl
  have hb' : a ≤ (2 ^ 53 - 1) * 2 ^ 1021 := by
    refine le_trans hb (le_of_eq ?_)
    push_cast
    norm_num
  rw [hunit]
  -- zero, the number below 10^9 and the number below the product
  obtain ⟨z0, f0, s0⟩ := exists_number (k := 0) (e := 0) (by norm_num) (by norm_num)
  obtain ⟨z1, f1, s1⟩ := exists_number (k := 10 ^ 9 * 2 ^ 23 - 1) (e := 1051) (by norm_num) (by norm_num)
  have hk : (a * 10 ^ 9).toNat / 2 ^ 1051 < 2 ^ 53 := by
    rw [Nat.div_lt_iff_lt_mul (by positivity)]
    have : (2 : Int) ^ 53 * 2 ^ 1051 = 2 ^ 83 * 2 ^ 1021 := by rw [← pow_add, ← pow_add]
    zify
    rw [Int.toNat_of_nonneg (by omega), this]
    generalize (2 : Int) ^ 1021 = U at *
    omega
  obtain ⟨z2, f2, s2⟩ := exists_number (e := 1051) hk (by norm_num)
  have n0 := hn z0 f0
  have n1 := hn z1 f1
  have n2 := hn z2 f2
  have e51 : (2 : Int) ^ 1051 = 2 ^ 30 * 2 ^ 1021 := by rw [← pow_add]
  have s0' : scaled z0 = 0 := by rw [s0]; norm_num
  have s1' : scaled z1 = 8388607999999999 * (2 ^ 30 * 2 ^ 1021) := by rw [s1, ← e51]; push_cast; rfl
  have s2' : scaled z2 = 2 ^ 1051 * ((a * 10 ^ 9) / 2 ^ 1051) := by
    rw [s2, Nat.cast_mul, Int.natCast_ediv, Int.toNat_of_nonneg (by omega), mul_comm]
    push_cast
    rfl
  rw [s0'] at n0
  rw [s1'] at n1
  rw [s2'] at n2
  have hdiv := Int.mul_ediv_add_emod (a * 10 ^ 9) (2 ^ 1051)
  have hmod0 := Int.emod_nonneg (a * 10 ^ 9) (b := 2 ^ 1051) (by positivity)
  have hmod1 := Int.emod_lt_of_pos (a * 10 ^ 9) (b := 2 ^ 1051) (by positivity)
  generalize (2 : Int) ^ 1051 * (a * 10 ^ 9 / 2 ^ 1051) = q at *
  generalize (a * 10 ^ 9) % 2 ^ 1051 = m at *
  rw [e51] at hmod1
  clear hunit hb hx hr hk e51 s0 s1 s2 s0' s1' s2'
  generalize (2 : Int) ^ 1021 = U at *
  refine ⟨?_, ?_, ?_⟩
  · rcases abs_cases (r - a * 10 ^ 9) with ⟨h, _⟩ | ⟨h, _⟩ <;>
      rcases abs_cases (0 - a * 10 ^ 9) with ⟨h', _⟩ | ⟨h', _⟩ <;> rw [h, h'] at n0 <;> omega
  · rcases abs_cases (r - a * 10 ^ 9) with ⟨h, _⟩ | ⟨h, _⟩ <;>
      rcases abs_cases (8388607999999999 * (2 ^ 30 * U) - a * 10 ^ 9) with ⟨h', _⟩ | ⟨h', _⟩ <;>
      rw [h, h'] at n1 <;> omega
  · rcases abs_cases (r - a * 10 ^ 9) with ⟨h, _⟩ | ⟨h, _⟩ <;>
      rcases abs_cases (q - a * 10 ^ 9) with ⟨h', _⟩ | ⟨h', _⟩ <;>
      rw [h, h'] at n2 <;> rw [h] <;> omega

/-- The product of no or a negative fraction. -/
theorem product_nonpos (h : Ieee fract) {x : F64} (hf : isFinite x = true) (hp : scaled x ≤ 0) (h1 : -(unit : Int) < scaled x) :
    toU32 (FloatOps.mul x billion) = 0 := by
  obtain ⟨hm, hn⟩ := nearest_product h hf h1 (by have := unit_pos; omega)
  obtain ⟨z0, f0, s0⟩ := exists_number (k := 0) (e := 0) (by norm_num) (by norm_num)
  have n0 := hn z0 f0
  rw [s0] at n0
  have : scaled (FloatOps.mul x billion) ≤ 0 := by
    rcases abs_cases (scaled (FloatOps.mul x billion) - scaled x * 10 ^ 9) with ⟨h, _⟩ | ⟨h, _⟩ <;>
      rcases abs_cases (((0 * 2 ^ 0 : Nat) : Int) - scaled x * 10 ^ 9) with ⟨h', _⟩ | ⟨h', _⟩ <;> rw [h, h'] at n0 <;> omega
  rw [toU32, toUsize_nonpos hm this]
  rfl

omit [FloatOps] in
/-- From `2^64` on, numbers have no fraction. -/
theorem large_whole {x : F64} (h : (2 ^ 64 * unit : Nat) ≤ scaled x) : (unit : Int) ∣ scaled x := by
  have hu := unit_pos
  have hn : ¬ neg? x = true := fun hn => by rw [scaled, if_pos hn] at h; omega
  rw [scaled, if_neg hn] at h ⊢
  have h' : 2 ^ 64 * unit ≤ smag (mag x) := by exact_mod_cast h
  have e1 : smag (1087 * 2 ^ 52) = 2 ^ 64 * unit := by
    rw [smag, if_neg (by norm_num), unit, show (2 : Nat) ^ 64 * 2 ^ 1074 = 2 ^ 52 * 2 ^ 1086 by rw [← pow_add, ← pow_add]]
    norm_num
  rw [← e1] at h'
  have hm : 1087 * 2 ^ 52 ≤ mag x := by
    by_contra hc
    exact absurd (smag_strictMono (Nat.lt_of_not_le hc)) (Nat.not_lt.2 h')
  refine Int.natCast_dvd_natCast.2 ?_
  rw [smag, if_neg (by omega), unit]
  exact dvd_mul_of_dvd_right (pow_dvd_pow 2 (by omega)) _

/-! ## Theorem -/

/-- **C93.** `sleep(v)` never crashes and waits for a proper duration: not at all for NaN and for numbers that are not positive;
for the largest number of seconds from `2^64` on; otherwise for `v` seconds, at most `2^-23` nanoseconds longer and less than
`1 + 2^-23` nanoseconds shorter. -/
theorem C93_sleep (h : Ieee fract) (v : F64) : ∃ d, sleepFor fract v = some d ∧ d.2 < 10 ^ 9 ∧
    (isNaN v = true ∨ neg? v = true → d = (0, 0)) ∧
    (isFinite v = true → 0 ≤ scaled v → scaled v < 2 ^ 64 * unit →
      (nanoseconds d * unit - scaled v * 10 ^ 9) * 2 ^ 23 ≤ unit ∧
      (scaled v * 10 ^ 9 - nanoseconds d * unit) * 2 ^ 23 < unit * (2 ^ 23 + 1)) ∧
    (isNaN v = false → neg? v = false → (isFinite v = true → 2 ^ 64 * unit ≤ scaled v) → d = (2 ^ 64 - 1, 0)) := by
  have hu : (0 : Int) < unit := by exact_mod_cast unit_pos
  by_cases hf : isFinite v = true
  · obtain ⟨ff, fs⟩ := h.fract_finite v hf
    have hnan := isNaN_of_isFinite hf
    by_cases hneg : neg? v = true
    · -- negative numbers
      have hs : scaled v ≤ 0 := by rw [scaled, if_pos hneg]; omega
      have t0 := Int.tmod_nonneg (a := -scaled v) unit (by omega)
      have t1 := Int.tmod_lt_of_pos (-scaled v) hu
      rw [Int.neg_tmod, ← fs] at t0 t1
      have h0 : scaled (fract v) ≤ 0 := by omega
      have h1 : -(unit : Int) < scaled (fract v) := by omega
      refine ⟨(0, 0), ?_, by norm_num, fun _ => rfl, fun _ hp _ => ?_, fun _ hc => by rw [hneg] at hc; cases hc⟩
      · rw [sleepFor, toUsize_nonpos hf hs, product_nonpos h ff h0 h1]; rfl
      · have : scaled v = 0 := by omega
        rw [this]
        simp only [nanoseconds]
        push_cast
        constructor <;> omega
    · have hs : 0 ≤ scaled v := by rw [scaled, if_neg hneg]; omega
      have hneg' : neg? v = false := by simpa using hneg
      have hv : toUsize v = min ((scaled v).toNat / unit) (2 ^ 64 - 1) := toUsize_pos hf hs
      by_cases hl : scaled v < 2 ^ 64 * unit
      · have h0 : 0 ≤ scaled (fract v) := by rw [fs]; exact Int.tmod_nonneg _ hs
        have h1 : scaled (fract v) < unit := by rw [fs]; exact Int.tmod_lt_of_pos _ hu
        have hm := (nearest_product h ff (by omega) h1).1
        obtain ⟨p0, p1, p2⟩ := product h ff h0 h1
        have hn := toUsize_pos hm p0
        generalize scaled (FloatOps.mul (fract v) billion) = r at *
        have hq : (scaled v).toNat / unit < 2 ^ 64 := by
          rw [Nat.div_lt_iff_lt_mul unit_pos]; zify; rw [Int.toNat_of_nonneg hs]; exact hl
        have hr : r.toNat / unit < 10 ^ 9 := by
          rw [Nat.div_lt_iff_lt_mul unit_pos]; zify; rw [Int.toNat_of_nonneg p0]; exact p1
        have e1 : toUsize v = (scaled v).toNat / unit := by rw [hv]; omega
        have e2 : toU32 (FloatOps.mul (fract v) billion) = r.toNat / unit := by rw [toU32, hn]; omega
        refine ⟨((scaled v).toNat / unit, r.toNat / unit), ?_, hr, ?_, fun _ _ _ => ?_, fun _ _ hc => ?_⟩
        · rw [sleepFor, e1, e2, durationNew, if_pos hr]
        · rintro (hc | hc)
          · rw [hnan] at hc; cases hc
          · exact absurd hc hneg
        · rw [Int.tmod_eq_emod_of_nonneg hs] at fs
          have d1 := Int.mul_ediv_add_emod (scaled v) unit
          have d2 := Int.mul_ediv_add_emod r unit
          have m0 := Int.emod_nonneg r (b := unit) (by omega)
          have m1 := Int.emod_lt_of_pos r hu
          rw [← fs] at d1
          have c1 : (((scaled v).toNat / unit : Nat) : Int) = scaled v / unit := by
            rw [Int.natCast_ediv, Int.toNat_of_nonneg hs]
          have c2 : ((r.toNat / unit : Nat) : Int) = r / unit := by rw [Int.natCast_ediv, Int.toNat_of_nonneg p0]
          have en : (nanoseconds ((scaled v).toNat / unit, r.toNat / unit) : Int) * unit =
              (unit * (scaled v / unit)) * 10 ^ 9 + unit * (r / unit) := by
            rw [nanoseconds, Nat.cast_add, Nat.cast_mul, c1, c2]
            push_cast
            ring
          rw [en]
          generalize (unit : Int) * (scaled v / unit) = q at *
          generalize (unit : Int) * (r / unit) = t at *
          generalize r % (unit : Int) = m at *
          rw [← d1]
          rcases abs_cases (r - scaled (fract v) * 10 ^ 9) with ⟨ha, _⟩ | ⟨ha, _⟩ <;> rw [ha] at p2 <;>
            constructor <;> omega
        · exact absurd (hc hf) (by omega)
      · have hl' : (2 ^ 64 * unit : Nat) ≤ scaled v := by push_cast; omega
        have h0 : scaled (fract v) = 0 := by rw [fs]; exact Int.tmod_eq_zero_of_dvd (large_whole hl')
        refine ⟨(2 ^ 64 - 1, 0), ?_, by norm_num, ?_, fun _ _ hc => absurd hc hl, fun _ _ _ => rfl⟩
        · have hq : 2 ^ 64 ≤ (scaled v).toNat / unit := by
            rw [Nat.le_div_iff_mul_le unit_pos]; zify; rw [Int.toNat_of_nonneg hs]; exact_mod_cast hl'
          have e1 : toUsize v = 2 ^ 64 - 1 := by rw [hv]; omega
          rw [sleepFor, e1, product_nonpos h ff (by omega) (by omega)]
          rfl
        · rintro (hc | hc)
          · rw [hnan] at hc; cases hc
          · exact absurd hc hneg
  · have hf' : isFinite v = false := by simpa using hf
    have hz : toU32 (FloatOps.mul (fract v) billion) = 0 := by
      rw [toU32, toUsize_nan (h.mul_nan _ _ (h.fract_other v hf'))]; rfl
    by_cases hnan : isNaN v = true
    · exact ⟨(0, 0), by rw [sleepFor, toUsize_nan hnan, hz]; rfl, by norm_num, fun _ => rfl, fun hc => absurd hc hf,
        fun hc => by rw [hnan] at hc; cases hc⟩
    · have hnan' : isNaN v = false := by simpa using hnan
      by_cases hneg : neg? v = true
      · have e1 : toUsize v = 0 := by simp [toUsize, hnan', hneg]
        exact ⟨(0, 0), by rw [sleepFor, e1, hz]; rfl, by norm_num, fun _ => rfl, fun hc => absurd hc hf,
          fun _ hc => by rw [hneg] at hc; cases hc⟩
      · have hneg' : neg? v = false := by simpa using hneg
        have e1 : toUsize v = 2 ^ 64 - 1 := by simp [toUsize, hnan', hneg', hf']
        refine ⟨(2 ^ 64 - 1, 0), by rw [sleepFor, e1, hz]; rfl, by norm_num, ?_, fun hc => absurd hc hf, fun _ _ _ => rfl⟩
        rintro (hc | hc)
        · exact absurd hc hnan
        · exact absurd hc hneg

end

/-! ## The theorem is about something -/

namespace Demo

theorem exists_near (t : Int) : ∃ m, isFinite m = true ∧ ∀ z, isFinite z = true → |scaled m * unit - t| ≤ |scaled z * unit - t| := by
  classical
  have hex : ∃ n : Nat, ∃ z, isFinite z = true ∧ (scaled z * unit - t).natAbs = n := ⟨_, F64.zero, by decide, rfl⟩
  obtain ⟨m, hm, he⟩ := Nat.find_spec hex
  refine ⟨m, hm, fun z hz => ?_⟩
  have := Nat.find_min' hex ⟨z, hz, rfl⟩
  rw [← he] at this
  rw [Int.abs_eq_natAbs, Int.abs_eq_natAbs]
  exact_mod_cast this

theorem fract_pattern {n : Nat} (h : n < infMag) : ∃ n', n' < infMag ∧ smag n' = smag n % unit := by
  have : ∃ k e, k < 2 ^ 53 ∧ e ≤ 2045 ∧ smag n % unit = k * 2 ^ e := by
    rw [smag]
    split
    · refine ⟨n, 0, by omega, by omega, ?_⟩
      rw [Nat.mod_eq_of_lt, pow_zero, mul_one]
      exact lt_of_lt_of_le (show n < 2 ^ 52 by omega) (by rw [unit]; exact Nat.pow_le_pow_right (by omega) (by omega))
    · rcases Nat.lt_or_ge (n / 2 ^ 52 - 1) 1074 with he | he
      · refine ⟨_, _, lt_of_le_of_lt (Nat.mod_le (2 ^ 52 + n % 2 ^ 52) (2 ^ (1074 - (n / 2 ^ 52 - 1)))) (by omega),
          (by omega : n / 2 ^ 52 - 1 ≤ 2045), ?_⟩
        rw [unit, ← Nat.mul_mod_mul_right, ← pow_add, show 1074 - (n / 2 ^ 52 - 1) + (n / 2 ^ 52 - 1) = 1074 by omega]
      · refine ⟨0, 0, by omega, by omega, ?_⟩
        rw [Nat.zero_mul]
        exact Nat.mod_eq_zero_of_dvd (dvd_mul_of_dvd_right (pow_dvd_pow 2 he) _)
  obtain ⟨k, e, hk, he, hs⟩ := this
  obtain ⟨n', h1, h2⟩ := Color.Demo.exists_pattern64 k e hk
  exact ⟨n', Nat.lt_of_lt_of_le h1 (Nat.mul_le_mul_right _ (by omega)), by rw [h2, hs]⟩

theorem exists_fract {x : F64} (h : isFinite x = true) :
    ∃ y, isFinite y = true ∧ scaled y = (scaled x).tmod unit := by
  obtain ⟨n, h1, h2⟩ := fract_pattern (of_decide_eq_true h)
  obtain ⟨h3, h4⟩ := Color.Demo.signed64_mag (neg? x) h1
  refine ⟨Color.Demo.signed64 (neg? x) n, by rw [isFinite, h3]; exact decide_eq_true h1, ?_⟩
  rw [scaled, scaled, h3, h4, h2]
  split
  · rw [Int.neg_tmod]; rfl
  · rfl

open Classical in
/-- Multiplication to a nearest number. -/
noncomputable def ops : FloatOps :=
  { exactOps with mul := fun x y => if isNaN x then x else (exists_near (scaled x * scaled y)).choose }

open Classical in
/-- The exact fraction. -/
noncomputable def fraction (x : F64) : F64 := if h : isFinite x = true then (exists_fract h).choose else F64.nan

theorem ieee : letI := ops; Ieee fraction := by
  letI := ops
  refine ⟨fun x h => ?_, fun x h => ?_, fun x y hx hy _ => ?_, fun x y h => ?_⟩
  · rw [fraction, dif_pos h]; exact (exists_fract h).choose_spec
  · rw [fraction, dif_neg (by rw [h]; decide)]; decide
  · have e : FloatOps.mul x y = (exists_near (scaled x * scaled y)).choose := if_neg (by rw [isNaN_of_isFinite hx]; decide)
    rw [e]
    exact (exists_near (scaled x * scaled y)).choose_spec
  · have e : FloatOps.mul x y = x := if_pos h
    rw [e]; exact h

theorem near_half {v : F64} (hf : isFinite v = true) (hs : scaled v * 2 = 7 * unit) :
    ∃ d, letI := ops; sleepFor fraction v = some d ∧ 3499999998 ≤ nanoseconds d ∧ nanoseconds d ≤ 3500000000 := by
  have hu : (0 : Int) < unit := by exact_mod_cast unit_pos
  obtain ⟨d, h1, -, -, h2, -⟩ := @C93_sleep ops _ ieee v
  obtain ⟨h3, h4⟩ := h2 hf (by omega) (by omega)
  refine ⟨d, h1, ?_, ?_⟩
  · by_contra hc
    have : (nanoseconds d : Int) * unit ≤ 3499999997 * unit := mul_le_mul_of_nonneg_right (by omega) (by omega)
    omega
  · by_contra hc
    have : (3500000001 : Int) * unit ≤ nanoseconds d * unit := mul_le_mul_of_nonneg_right (by omega) (by omega)
    omega

/-- Three and a half seconds, exactly or at most two nanoseconds less. -/
example : ∃ d, letI := ops; sleepFor fraction (0x400C000000000000#64 : F64) = some d ∧
    3499999998 ≤ nanoseconds d ∧ nanoseconds d ≤ 3500000000 := by
  refine near_half (by decide) ?_
  have e1 : neg? (0x400C000000000000#64 : F64) = false := by decide
  have e2 : mag (0x400C000000000000#64 : F64) = 1024 * 2 ^ 52 + 3 * 2 ^ 50 := by decide
  rw [scaled, e1, e2, smag, if_neg (by norm_num), unit]
  push_cast
  rw [show (2 : Int) ^ 1074 = 2 ^ 51 * 2 ^ 1023 by rw [← pow_add]]
  norm_num
  ring

end Demo

end Dyon.Wait
