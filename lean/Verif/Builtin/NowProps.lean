import Verif.Builtin.Now
import Verif.Builtin.SleepProps

/-!
# C94: the time
-/

namespace Dyon.Wait

open F64

/-! ## Specification -/

namespace Spec

/-- What IEEE-754 says about dividing a number by one that is not smaller, and about adding numbers that are not too large: the result
is a number nearest to the exact result, and depends on the exact result only.  Numbers are in units of `2^-1074`. -/
structure Rounds [FloatOps] : Prop where
  div_nearest : ∀ x y, isFinite x = true → isFinite y = true → 0 ≤ scaled x → scaled x ≤ scaled y → 0 < scaled y →
    isFinite (FloatOps.div x y) = true ∧ ∀ z, isFinite z = true →
      |scaled (FloatOps.div x y) * scaled y - scaled x * unit| ≤ |scaled z * scaled y - scaled x * unit|
  add_nearest : ∀ x y, isFinite x = true → isFinite y = true → 0 ≤ scaled x → 0 ≤ scaled y → scaled x + scaled y ≤ 2 ^ 64 * unit →
    isFinite (FloatOps.add x y) = true ∧ ∀ z, isFinite z = true →
      |scaled (FloatOps.add x y) - (scaled x + scaled y)| ≤ |scaled z - (scaled x + scaled y)|
  add_same : ∀ x y x' y', isFinite x = true → isFinite y = true → isFinite x' = true → isFinite y' = true →
    scaled x + scaled y = scaled x' + scaled y' → scaled (FloatOps.add x y) = scaled (FloatOps.add x' y')

end Spec

open Spec

/-! ## Lemmas -/

theorem fneg_mag (x : F64) : mag (fneg x) = mag x := by
  rw [mag, mag, fneg, BitVec.toNat_xor, Nat.xor_mod_two_pow, show (1#64 <<< 63).toNat % 2 ^ 63 = 0 by decide, Nat.xor_zero]

theorem fneg_neg? (x : F64) : neg? (fneg x) = !neg? x := by
  have h : ∀ y : F64, neg? y = BitVec.msb y := fun y => by rw [BitVec.msb_eq_decide]; rfl
  rw [h, h, fneg, BitVec.msb_xor]
  cases BitVec.msb x <;> rfl

theorem fneg_scaled (x : F64) : scaled (fneg x) = -scaled x := by
  rw [scaled, scaled, fneg_mag, fneg_neg?]
  cases neg? x <;> simp

theorem fneg_finite {x : F64} (h : isFinite x = true) : isFinite (fneg x) = true := by
  rw [isFinite, fneg_mag]; exact h

/-- Of two exact results, the smaller is not rounded to the larger number. -/
theorem nearest_mono {r s a b : Int} (hab : a < b) (h1 : |r - a| ≤ |s - a|) (h2 : |s - b| ≤ |r - b|) : r ≤ s := by
  rcases abs_cases (r - a) with ⟨e1, _⟩ | ⟨e1, _⟩ <;> rcases abs_cases (s - a) with ⟨e2, _⟩ | ⟨e2, _⟩ <;>
    rcases abs_cases (s - b) with ⟨e3, _⟩ | ⟨e3, _⟩ <;> rcases abs_cases (r - b) with ⟨e4, _⟩ | ⟨e4, _⟩ <;>
    rw [e1, e2] at h1 <;> rw [e3, e4] at h2 <;> omega

theorem one_number : ∃ z, isFinite z = true ∧ scaled z = unit :=
  ⟨F64.ofNat 1, ofNat_finite (by norm_num), by rw [ofNat_scaled (by norm_num)]; norm_num⟩

theorem zero_number : ∃ z, isFinite z = true ∧ scaled z = 0 :=
  ⟨F64.ofNat 0, ofNat_finite (by norm_num), by rw [ofNat_scaled (by norm_num)]; norm_num⟩

section

variable [FloatOps]

/-- The fraction of a second. -/
def part (n : Nat) : F64 := FloatOps.div (F64.ofNat n) billion

theorem part_nearest (h : Rounds) {n : Nat} (hn : n < 10 ^ 9) : isFinite (part n) = true ∧ ∀ z, isFinite z = true →
    |scaled (part n) * 10 ^ 9 - n * unit| ≤ |scaled z * 10 ^ 9 - n * unit| := by
  have hu : (0 : Int) < unit := by exact_mod_cast unit_pos
  have hs : scaled (F64.ofNat n) = n * unit := ofNat_scaled (by omega)
  have hle : (n : Int) * unit ≤ 10 ^ 9 * unit := mul_le_mul_of_nonneg_right (by omega) (by omega)
  obtain ⟨h1, h2⟩ := h.div_nearest (F64.ofNat n) billion (ofNat_finite (by omega)) billion_finite
    (by rw [hs]; exact mul_nonneg (by omega) (by omega)) (by rw [hs, billion_scaled]; exact hle) (by rw [billion_scaled]; omega)
  refine ⟨h1, fun z hz => ?_⟩
  have e : ∀ r : Int, |r * scaled billion - scaled (F64.ofNat n) * unit| = |r * 10 ^ 9 - n * unit| * unit := fun r => by
    rw [billion_scaled, hs, show r * (10 ^ 9 * unit) - n * unit * unit = (r * 10 ^ 9 - n * unit) * (unit : Int) by ring, abs_mul,
      abs_of_pos hu]
  have := h2 z hz
  rw [e, e] at this
  exact le_of_mul_le_mul_right this hu

theorem part_bounds (h : Rounds) {n : Nat} (hn : n < 10 ^ 9) : 0 ≤ scaled (part n) ∧ scaled (part n) ≤ unit ∧
    |scaled (part n) * 10 ^ 9 - n * unit| ≤ 10 ^ 9 * 2 ^ 1021 := by
  obtain ⟨-, h2⟩ := part_nearest h hn
  obtain ⟨z0, f0, s0⟩ := zero_number
  obtain ⟨z1, f1, s1⟩ := one_number
  have n0 := h2 z0 f0
  have n1 := h2 z1 f1
  rw [s0] at n0
  rw [s1] at n1
  have hu : (0 : Int) < unit := by exact_mod_cast unit_pos
  have hp : 0 ≤ (n : Int) * unit := mul_nonneg (by omega) (by omega)
  have hlt : (n : Int) * unit ≤ 10 ^ 9 * unit := mul_le_mul_of_nonneg_right (by omega) (by omega)
  have hk : (n * unit) / (10 ^ 9 * 2 ^ 1021) < 2 ^ 53 := by
    rw [Nat.div_lt_iff_lt_mul (by positivity), show 2 ^ 53 * (10 ^ 9 * 2 ^ 1021) = 10 ^ 9 * unit by rw [unit_split]; ring]
    exact Nat.mul_lt_mul_of_pos_right hn unit_pos
  obtain ⟨z2, f2, s2⟩ := exists_number (e := 1021) hk (by norm_num)
  have n2 := h2 z2 f2
  have hdiv := Int.mul_ediv_add_emod ((n : Int) * unit) (10 ^ 9 * 2 ^ 1021)
  have hpos : (0 : Int) < 10 ^ 9 * 2 ^ 1021 := by positivity
  have hmod0 := Int.emod_nonneg ((n : Int) * unit) (b := 10 ^ 9 * 2 ^ 1021) (by omega)
  have hmod1 := Int.emod_lt_of_pos ((n : Int) * unit) hpos
  have s2' : scaled z2 * 10 ^ 9 = 10 ^ 9 * 2 ^ 1021 * ((n : Int) * unit / (10 ^ 9 * 2 ^ 1021)) := by
    rw [s2, Nat.cast_mul, Int.natCast_ediv]; push_cast; ring
  rw [s2'] at n2
  generalize (10 : Int) ^ 9 * 2 ^ 1021 * ((n : Int) * unit / (10 ^ 9 * 2 ^ 1021)) = q at *
  generalize (n : Int) * unit % (10 ^ 9 * 2 ^ 1021) = m at *
  generalize (n : Int) * unit = a at *
  generalize scaled (part n) = r at *
  generalize (10 : Int) ^ 9 * 2 ^ 1021 = W at *
  generalize (unit : Int) = u at *
  clear hk s2 s2' h2 s0 s1
  refine ⟨?_, ?_, ?_⟩
  · rcases abs_cases (r * 10 ^ 9 - a) with ⟨h, _⟩ | ⟨h, _⟩ <;>
      rcases abs_cases (0 * 10 ^ 9 - a) with ⟨h', _⟩ | ⟨h', _⟩ <;> rw [h, h'] at n0 <;> omega
  · rcases abs_cases (r * 10 ^ 9 - a) with ⟨h, _⟩ | ⟨h, _⟩ <;>
      rcases abs_cases (u * 10 ^ 9 - a) with ⟨h', _⟩ | ⟨h', _⟩ <;> rw [h, h'] at n1 <;> omega
  · refine le_trans n2 ?_
    rw [abs_le]
    omega

theorem part_mono (h : Rounds) {n m : Nat} (hnm : n ≤ m) (hm : m < 10 ^ 9) : scaled (part n) ≤ scaled (part m) := by
  rcases Nat.eq_or_lt_of_le hnm with rfl | hlt
  · exact le_refl _
  · have hu : (0 : Int) < unit := by exact_mod_cast unit_pos
    obtain ⟨f1, h1⟩ := part_nearest h (lt_trans hlt hm)
    obtain ⟨f2, h2⟩ := part_nearest h hm
    have := nearest_mono (mul_lt_mul_of_pos_right (show (n : Int) < m by omega) hu) (h1 _ f2) (h2 _ f1)
    omega

/-- The exact sum that is rounded. -/
def sum (d : Nat) : Int := (d / 10 ^ 9 : Nat) * unit + scaled (part (d % 10 ^ 9))

theorem seconds_nearest (h : Rounds) {d : Nat} (hd : d < 2 ^ 53 * 10 ^ 9) : isFinite (seconds d) = true ∧
    ∀ z, isFinite z = true → |scaled (seconds d) - sum d| ≤ |scaled z - sum d| := by
  have hu : (0 : Int) < unit := by exact_mod_cast unit_pos
  have hn : d % 10 ^ 9 < 10 ^ 9 := Nat.mod_lt _ (by norm_num)
  have hs : d / 10 ^ 9 < 2 ^ 53 := by omega
  obtain ⟨p0, p1, -⟩ := part_bounds h hn
  have e : F64.ofNatRound (d / 10 ^ 9) = F64.ofNat (d / 10 ^ 9) := if_pos hs
  have es := ofNat_scaled hs
  have hle : ((d / 10 ^ 9 : Nat) : Int) * unit ≤ 2 ^ 53 * unit := mul_le_mul_of_nonneg_right (by omega) (by omega)
  have hge : 0 ≤ ((d / 10 ^ 9 : Nat) : Int) * unit := mul_nonneg (by omega) (by omega)
  have := h.add_nearest (F64.ofNat (d / 10 ^ 9)) (part (d % 10 ^ 9)) (ofNat_finite hs) (part_nearest h hn).1
    (by rw [es]; exact hge) p0 (by rw [es]; omega)
  rw [es] at this
  rw [seconds, e]
  exact this

theorem sum_mono (h : Rounds) {d e : Nat} (hde : d ≤ e) : sum d ≤ sum e := by
  have hu : (0 : Int) < unit := by exact_mod_cast unit_pos
  have hn : d % 10 ^ 9 < 10 ^ 9 := Nat.mod_lt _ (by norm_num)
  have hm : e % 10 ^ 9 < 10 ^ 9 := Nat.mod_lt _ (by norm_num)
  unfold sum
  rcases Nat.lt_or_ge (d / 10 ^ 9) (e / 10 ^ 9) with hlt | hge
  · have h1 := (part_bounds h hn).2.1
    have h2 := (part_bounds h hm).1
    have h3 : (((d / 10 ^ 9 : Nat) : Int) + 1) * unit ≤ ((e / 10 ^ 9 : Nat) : Int) * unit :=
      mul_le_mul_of_nonneg_right (by omega) (by omega)
    rw [add_mul, one_mul] at h3
    omega
  · have he : d / 10 ^ 9 = e / 10 ^ 9 := by omega
    have := part_mono h (show d % 10 ^ 9 ≤ e % 10 ^ 9 by omega) hm
    rw [he]
    omega

theorem seconds_mono (h : Rounds) {d e : Nat} (hde : d ≤ e) (he : e < 2 ^ 53 * 10 ^ 9) :
    scaled (seconds d) ≤ scaled (seconds e) := by
  obtain ⟨f1, h1⟩ := seconds_nearest h (lt_of_le_of_lt hde he)
  obtain ⟨f2, h2⟩ := seconds_nearest h he
  rcases lt_or_eq_of_le (sum_mono h hde) with hlt | heq
  · exact nearest_mono hlt (h1 _ f2) (h2 _ f1)
  · have hs : d / 10 ^ 9 < 2 ^ 53 := by omega
    have ht : e / 10 ^ 9 < 2 ^ 53 := by omega
    refine le_of_eq ?_
    have e1 : F64.ofNatRound (d / 10 ^ 9) = F64.ofNat (d / 10 ^ 9) := if_pos hs
    have e2 : F64.ofNatRound (e / 10 ^ 9) = F64.ofNat (e / 10 ^ 9) := if_pos ht
    rw [seconds, seconds, e1, e2]
    refine h.add_same _ _ _ _ (ofNat_finite hs) (part_nearest h (Nat.mod_lt _ (by norm_num))).1 (ofNat_finite ht)
      (part_nearest h (Nat.mod_lt _ (by norm_num))).1 ?_
    rw [ofNat_scaled hs, ofNat_scaled ht]
    exact heq

theorem seconds_nonneg (h : Rounds) {d : Nat} (hd : d < 2 ^ 53 * 10 ^ 9) : 0 ≤ scaled (seconds d) := by
  obtain ⟨-, h1⟩ := seconds_nearest h hd
  obtain ⟨z0, f0, s0⟩ := zero_number
  have n0 := h1 z0 f0
  rw [s0] at n0
  have : 0 ≤ sum d := add_nonneg (mul_nonneg (by omega) (by omega)) (part_bounds h (Nat.mod_lt _ (by norm_num))).1
  rcases abs_cases (scaled (seconds d) - sum d) with ⟨h, _⟩ | ⟨h, _⟩ <;>
    rcases abs_cases (0 - sum d) with ⟨h', _⟩ | ⟨h', _⟩ <;> rw [h, h'] at n0 <;> omega

theorem seconds_near (h : Rounds) {d : Nat} (hd : d < 8 * 10 ^ 9 * 10 ^ 9) :
    |scaled (seconds d) * 10 ^ 9 - d * unit| < (1000 * unit : Int) := by
  obtain ⟨-, h1⟩ := seconds_nearest h (show d < 2 ^ 53 * 10 ^ 9 by omega)
  obtain ⟨p0, p1, p2⟩ := part_bounds h (Nat.mod_lt d (show 0 < 10 ^ 9 by norm_num))
  have hu : (0 : Int) < unit := by exact_mod_cast unit_pos
  have hs0 : 0 ≤ sum d := add_nonneg (mul_nonneg (by omega) (by omega)) p0
  have hle : ((d / 10 ^ 9 : Nat) : Int) * unit ≤ (8 * 10 ^ 9) * unit := mul_le_mul_of_nonneg_right (by omega) (by omega)
  have hs1 : sum d ≤ (8 * 10 ^ 9 + 1) * unit := by unfold sum; rw [add_mul, one_mul]; omega
  have hunit : (unit : Int) = 2 ^ 53 * 2 ^ 1021 := by rw [unit_split]; push_cast; rfl
  have e54 : (2 : Int) ^ 1054 = 2 ^ 33 * 2 ^ 1021 := by rw [← pow_add]
  have hk : (sum d).toNat / 2 ^ 1054 < 2 ^ 53 := by
    rw [Nat.div_lt_iff_lt_mul (by positivity)]
    zify
    rw [Int.toNat_of_nonneg hs0, e54]
    refine lt_of_le_of_lt hs1 ?_
    rw [hunit]
    have hV : (0 : Int) < 2 ^ 1021 := by positivity
    generalize (2 : Int) ^ 1021 = V at *
    omega
  obtain ⟨z, f, s⟩ := exists_number (e := 1054) hk (by norm_num)
  have n := h1 z f
  have s' : scaled z = 2 ^ 1054 * (sum d / 2 ^ 1054) := by
    rw [s, Nat.cast_mul, Int.natCast_ediv, Int.toNat_of_nonneg hs0, mul_comm]
    push_cast
    rfl
  rw [s'] at n
  have hdiv := Int.mul_ediv_add_emod (sum d) (2 ^ 1054)
  have hpos : (0 : Int) < 2 ^ 1054 := by positivity
  have hmod0 := Int.emod_nonneg (sum d) (b := 2 ^ 1054) (by omega)
  have hmod1 := Int.emod_lt_of_pos (sum d) hpos
  have hsplit : (d : Int) * unit = ((d / 10 ^ 9 : Nat) : Int) * unit * 10 ^ 9 + ((d % 10 ^ 9 : Nat) : Int) * unit := by
    have : (d : Int) = ((d / 10 ^ 9 : Nat) : Int) * 10 ^ 9 + ((d % 10 ^ 9 : Nat) : Int) := by omega
    conv_lhs => rw [this]
    ring
  have hsum : sum d = ((d / 10 ^ 9 : Nat) : Int) * unit + scaled (part (d % 10 ^ 9)) := rfl
  rw [hsplit]
  generalize (2 : Int) ^ 1054 * (sum d / 2 ^ 1054) = q at *
  generalize sum d % (2 : Int) ^ 1054 = m at *
  generalize scaled (part (d % 10 ^ 9)) = p at *
  generalize ((d / 10 ^ 9 : Nat) : Int) * unit = A at *
  generalize ((d % 10 ^ 9 : Nat) : Int) * unit = B at *
  generalize sum d = S at *
  generalize scaled (seconds d) = r at *
  rw [e54] at hmod1
  rw [hunit]
  clear hk s s' h1 hs1 hle p1 hu hsplit hpos e54 hunit
  have hV : (0 : Int) < 2 ^ 1021 := by positivity
  generalize (2 : Int) ^ 1021 = V at *
  rw [abs_lt]
  rcases abs_cases (r - S) with ⟨h, _⟩ | ⟨h, _⟩ <;>
    rcases abs_cases (q - S) with ⟨h', _⟩ | ⟨h', _⟩ <;>
    rcases abs_cases (p * 10 ^ 9 - B) with ⟨h'', _⟩ | ⟨h'', _⟩ <;> rw [h, h'] at n <;> rw [h''] at p2 <;> omega

/-! ## Theorems -/

/-- **C94.** `now()` is a number that never decreases while the clock of the system goes on: before and after 1970, for 285 million years
around it. -/
theorem C94_monotone (h : Rounds) {t u : Int} (htu : t ≤ u) (ht : -(2 ^ 53 * 10 ^ 9) < t) (hu : u < 2 ^ 53 * 10 ^ 9) :
    isFinite (now t) = true ∧ isFinite (now u) = true ∧ scaled (now t) ≤ scaled (now u) := by
  have fin : ∀ t : Int, -(2 ^ 53 * 10 ^ 9) < t → t < 2 ^ 53 * 10 ^ 9 → isFinite (now t) = true := fun t h1 h2 => by
    unfold now
    split
    · exact (seconds_nearest h (by omega)).1
    · exact fneg_finite (seconds_nearest h (by omega)).1
  refine ⟨fin t ht (by omega), fin u (by omega) hu, ?_⟩
  unfold now
  split
  · rw [if_pos (by omega)]
    exact seconds_mono h (by omega) (by omega)
  · split
    · have h1 := seconds_nonneg h (d := (-t).toNat) (by omega)
      have h2 := seconds_nonneg h (d := u.toNat) (by omega)
      rw [fneg_scaled]
      omega
    · have := seconds_mono h (d := (-u).toNat) (e := (-t).toNat) (by omega) (by omega)
      rw [fneg_scaled, fneg_scaled]
      omega

/-- **C94.** `now()` is less than a microsecond (1000 nanoseconds) from the time of the clock, from the year 1716 to 2223. -/
theorem C94_accurate (h : Rounds) {t : Int} (h0 : -(8 * 10 ^ 9 * 10 ^ 9) < t) (h1 : t < 8 * 10 ^ 9 * 10 ^ 9) :
    |scaled (now t) * 10 ^ 9 - t * unit| < (1000 * unit : Int) := by
  unfold now
  split
  · have := seconds_near h (d := t.toNat) (by omega)
    rwa [Int.toNat_of_nonneg (by assumption)] at this
  · have := seconds_near h (d := (-t).toNat) (by omega)
    rw [Int.toNat_of_nonneg (by omega)] at this
    rw [fneg_scaled, ← abs_neg]
    refine lt_of_eq_of_lt (congrArg _ ?_) this
    ring

end

/-! ## The theorems are about something -/

namespace Demo

/-- Some number nearest to `t / d`. -/
theorem exists_nearest (t d : Int) :
    ∃ m, isFinite m = true ∧ ∀ z, isFinite z = true → |scaled m * d - t| ≤ |scaled z * d - t| := by
  classical
  have hex : ∃ n : Nat, ∃ z, isFinite z = true ∧ (scaled z * d - t).natAbs = n := ⟨_, F64.zero, by decide, rfl⟩
  obtain ⟨m, hm, he⟩ := Nat.find_spec hex
  refine ⟨m, hm, fun z hz => ?_⟩
  have := Nat.find_min' hex ⟨z, hz, rfl⟩
  rw [← he] at this
  rw [Int.abs_eq_natAbs, Int.abs_eq_natAbs]
  exact_mod_cast this

open Classical in
/-- Division and addition to a nearest number. -/
noncomputable def roundOps : FloatOps :=
  { exactOps with
    div := fun x y => (exists_nearest (scaled x * unit) (scaled y)).choose
    add := fun x y => (exists_nearest (scaled x + scaled y) 1).choose
    add_exact := fun x y z _ _ hz h => by
      have hs := (exists_nearest (scaled x + scaled y) 1).choose_spec
      refine ⟨hs.1, ?_⟩
      have := hs.2 z hz
      rw [h, mul_one, mul_one, sub_self, abs_zero] at this
      have := abs_eq_zero.1 (le_antisymm this (abs_nonneg _))
      rw [h]
      omega }

theorem rounds : @Rounds roundOps := by
  refine @Rounds.mk roundOps (fun x y _ _ _ _ _ => (exists_nearest (scaled x * unit) (scaled y)).choose_spec) (fun x y _ _ _ _ _ => ?_)
    (fun x y x' y' _ _ _ _ h => ?_)
  · obtain ⟨h1, h2⟩ := (exists_nearest (scaled x + scaled y) 1).choose_spec
    refine ⟨h1, fun z hz => ?_⟩
    have h3 := h2 z hz
    rw [mul_one, mul_one] at h3
    exact h3
  · show scaled (exists_nearest (scaled x + scaled y) 1).choose = scaled (exists_nearest (scaled x' + scaled y') 1).choose
    rw [h]

/-- A time in 2026 and the next second. -/
example : scaled (@now roundOps 1794787200123456789) ≤ scaled (@now roundOps 1794787201000000000) :=
  (@C94_monotone roundOps rounds _ _ (by norm_num) (by norm_num) (by norm_num)).2.2

example : |scaled (@now roundOps 1794787200123456789) * 10 ^ 9 - 1794787200123456789 * unit| < (1000 * unit : Int) :=
  @C94_accurate roundOps rounds _ (by norm_num) (by norm_num)

end Demo

end Dyon.Wait
