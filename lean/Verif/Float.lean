import Mathlib.Tactic.Ring
import Mathlib.Tactic.Linarith
import Mathlib.Data.Nat.Log

/-!
# IEEE-754 binary64 numbers as bit patterns

An `f64` is its 64-bit pattern.  Classification, comparison, negation and
conversion to `usize` are defined exactly.  Rounded arithmetic (`+ - * / % powf`)
is not modelled bit by bit: it is a parameter (`FloatOps`) of which only one
consequence of IEEE-754 is used, stated as the field `add_exact`.  `FloatOps` has an
instance (`exactOps`), so theorems about every `FloatOps` are not vacuous.
-/

namespace Dyon

/-- `f64`, as `f64::to_bits`. -/
abbrev F64 := BitVec 64
/-- `f32`, as `f32::to_bits`. -/
abbrev F32 := BitVec 32

namespace F64

/-- The pattern without its sign bit. -/
def mag (x : F64) : Nat := x.toNat % 2 ^ 63

/-- The sign bit. -/
def neg? (x : F64) : Bool := decide (2 ^ 63 ≤ x.toNat)

/-- Pattern of positive infinity. -/
def infMag : Nat := 2047 * 2 ^ 52

/-- `f64::is_nan`. -/
def isNaN (x : F64) : Bool := decide (infMag < mag x)

/-- Neither infinite nor NaN. -/
def isFinite (x : F64) : Bool := decide (mag x < infMag)

/-- Position in the total order of non-NaN numbers (both zeros at `0`). -/
def key (x : F64) : Int := if neg? x then -(mag x : Int) else mag x

/-- `x < y` on `f64`. -/
def lt (x y : F64) : Bool := !isNaN x && !isNaN y && decide (key x < key y)

/-- `x <= y` on `f64`. -/
def le (x y : F64) : Bool := !isNaN x && !isNaN y && decide (key x ≤ key y)

/-- `x == y` on `f64`. -/
def feq (x y : F64) : Bool := !isNaN x && !isNaN y && decide (key x = key y)

/-- `-x` on `f64`: flips the sign bit. -/
def fneg (x : F64) : F64 := x ^^^ (1#64 <<< 63)

/-- `0.0`. -/
def zero : F64 := 0

/-- `1.0`. -/
def one : F64 := 0x3ff0000000000000#64

/-- `f64::NAN`. -/
def nan : F64 := 0x7ff8000000000000#64

/-- The absolute value of a finite number in units of `2^-1074`. -/
def smag (n : Nat) : Nat :=
  if n / 2 ^ 52 = 0 then n else (2 ^ 52 + n % 2 ^ 52) * 2 ^ (n / 2 ^ 52 - 1)

/-- The exact value of a finite number in units of `2^-1074`. -/
def scaled (x : F64) : Int := if neg? x then -(smag (mag x) : Int) else smag (mag x)

/-- Number of units in `1.0`. -/
def unit : Nat := 2 ^ 1074

/-- `x as usize` (64-bit): NaN and negative numbers give 0, the fraction is
dropped, too large numbers saturate. -/
def toUsize (x : F64) : Nat :=
  if isNaN x then 0
  else if neg? x then 0
  else if isFinite x then min (smag (mag x) / unit) (2 ^ 64 - 1)
  else 2 ^ 64 - 1

/-- The pattern of a natural number below `2^53` (exact there). -/
def ofNat (n : Nat) : F64 :=
  if n = 0 then 0
  else BitVec.ofNat 64 ((Nat.log 2 n + 1022) * 2 ^ 52 + n * 2 ^ (52 - Nat.log 2 n))

theorem smag_lt_succ (n : Nat) : smag n < smag (n + 1) := by
  unfold smag
  have hc : (n + 1) / 2 ^ 52 = n / 2 ^ 52 ∧ (n + 1) % 2 ^ 52 = n % 2 ^ 52 + 1 ∨
      (n + 1) / 2 ^ 52 = n / 2 ^ 52 + 1 ∧ (n + 1) % 2 ^ 52 = 0 ∧ n % 2 ^ 52 = 2 ^ 52 - 1 := by omega
  generalize hq : n / 2 ^ 52 = q at hc
  generalize hr : n % 2 ^ 52 = r at hc
  have hn : n = 2 ^ 52 * q + r := by rw [← hq, ← hr]; exact (Nat.div_add_mod n _).symm
  rcases hc with ⟨h1, h2⟩ | ⟨h1, h2, h3⟩
  · rw [h1, h2]
    by_cases h0 : q = 0
    · simp [h0]
    · rw [if_neg h0, if_neg h0]
      exact Nat.mul_lt_mul_of_pos_right (by omega) (Nat.pos_of_ne_zero (by positivity))
  · rw [h1, h2]
    by_cases h0 : q = 0
    · subst h0
      simp
      omega
    · rw [if_neg h0, if_neg (by omega)]
      have hp : 2 ^ (q + 1 - 1) = 2 * 2 ^ (q - 1) := by
        rw [← Nat.pow_succ']; congr 1; omega
      rw [hp, h3]
      have : 0 < 2 ^ (q - 1) := Nat.pos_of_ne_zero (by positivity)
      generalize 2 ^ (q - 1) = k at *
      omega

theorem smag_strictMono {m n : Nat} (h : m < n) : smag m < smag n := by
  induction n with
  | zero => omega
  | succ n ih =>
    rcases Nat.lt_succ_iff_lt_or_eq.1 h with h | h
    · exact Nat.lt_trans (ih h) (smag_lt_succ n)
    · subst h; exact smag_lt_succ m

theorem smag_lt_iff {m n : Nat} : smag m < smag n ↔ m < n := by
  constructor
  · intro h
    by_contra hc
    rcases Nat.lt_or_eq_of_le (Nat.le_of_not_lt hc) with h' | h'
    · have := smag_strictMono h'; omega
    · subst h'; omega
  · exact smag_strictMono

theorem smag_zero : smag 0 = 0 := by simp [smag]

theorem smag_inj {m n : Nat} (h : smag m = smag n) : m = n := by
  rcases Nat.lt_trichotomy m n with h' | h' | h'
  · have := smag_strictMono h'; omega
  · exact h'
  · have := smag_strictMono h'; omega

theorem key_lt_iff_scaled (x y : F64) : key x < key y ↔ scaled x < scaled y := by
  unfold key scaled
  have h0 := smag_zero
  have a := @smag_lt_iff (mag x) (mag y)
  have b := @smag_lt_iff (mag y) (mag x)
  have c := @smag_lt_iff 0 (mag x)
  have d := @smag_lt_iff 0 (mag y)
  rw [h0] at c d
  split <;> split <;> omega

theorem isNaN_of_isFinite {x : F64} (h : isFinite x = true) : isNaN x = false := by
  simp [isFinite, isNaN] at *
  omega

/-- On finite numbers the comparison of bit patterns is the comparison of the
exact values. -/
theorem lt_iff_scaled {x y : F64} (hx : isFinite x = true) (hy : isFinite y = true) :
    lt x y = true ↔ scaled x < scaled y := by
  simp [lt, isNaN_of_isFinite hx, isNaN_of_isFinite hy, key_lt_iff_scaled]

end F64

namespace F32

/-- The pattern without its sign bit. -/
def mag (x : F32) : Nat := x.toNat % 2 ^ 31

/-- `f32::is_nan`. -/
def isNaN (x : F32) : Bool := decide (255 * 2 ^ 23 < mag x)

/-- Position in the order of non-NaN numbers (both zeros at `0`). -/
def key (x : F32) : Int := if 2 ^ 31 ≤ x.toNat then -(mag x : Int) else mag x

/-- `x == y` on `f32`. -/
def feq (x y : F32) : Bool := !isNaN x && !isNaN y && decide (key x = key y)

/-- `-x` on `f32`: flips the sign bit. -/
def fneg (x : F32) : F32 := x ^^^ (1#32 <<< 31)

/-- `0.0`. -/
def zero : F32 := 0

end F32

/-- Rounded arithmetic, external to the model (the hardware's `f64` operations).
The laws are consequences of IEEE-754 correct rounding: a result that is exactly
representable is exact. -/
class FloatOps where
  add : F64 → F64 → F64
  sub : F64 → F64 → F64
  mul : F64 → F64 → F64
  div : F64 → F64 → F64
  rem : F64 → F64 → F64
  pow : F64 → F64 → F64
  toF32 : F64 → F32
  ofF32 : F32 → F64
  add32 : F32 → F32 → F32
  sub32 : F32 → F32 → F32
  mul32 : F32 → F32 → F32
  div32 : F32 → F32 → F32
  rem32 : F32 → F32 → F32
  pow32 : F32 → F32 → F32
  /-- Exactly representable sums are exact. -/
  add_exact : ∀ x y z : F64, F64.isFinite x = true → F64.isFinite y = true →
    F64.isFinite z = true → F64.scaled x + F64.scaled y = F64.scaled z →
    F64.isFinite (add x y) = true ∧ F64.scaled (add x y) = F64.scaled z

open Classical in
/-- Non-vacuity of `FloatOps`: an addition that is exact when possible. -/
noncomputable def exactOps : FloatOps where
  add x y := if h : ∃ z, F64.isFinite z = true ∧ F64.scaled x + F64.scaled y = F64.scaled z
    then h.choose else 0
  sub _ _ := 0
  mul _ _ := 0
  div _ _ := 0
  rem _ _ := 0
  pow _ _ := 0
  toF32 _ := 0
  ofF32 _ := 0
  add32 _ _ := 0
  sub32 _ _ := 0
  mul32 _ _ := 0
  div32 _ _ := 0
  rem32 _ _ := 0
  pow32 _ _ := 0
  add_exact x y z _ _ hz h := by
    have hex : ∃ z, F64.isFinite z = true ∧ F64.scaled x + F64.scaled y = F64.scaled z :=
      ⟨z, hz, h⟩
    simp only [dif_pos hex]
    exact ⟨hex.choose_spec.1, by rw [← hex.choose_spec.2, h]⟩

namespace F64

theorem ofNat_mag {n : Nat} (h0 : n ≠ 0) (h : n < 2 ^ 53) :
    (ofNat n).toNat = (Nat.log 2 n + 1022) * 2 ^ 52 + n * 2 ^ (52 - Nat.log 2 n) ∧
    n * 2 ^ (52 - Nat.log 2 n) < 2 ^ 53 ∧ 2 ^ 52 ≤ n * 2 ^ (52 - Nat.log 2 n) ∧
    Nat.log 2 n ≤ 52 := by
  have hlog : Nat.log 2 n ≤ 52 := by
    have := (Nat.log_lt_iff_lt_pow (by decide) h0).2 h
    omega
  have h1 : n < 2 ^ (Nat.log 2 n + 1) := Nat.lt_pow_succ_log_self (by decide) n
  have h2 : 2 ^ Nat.log 2 n ≤ n := Nat.pow_log_le_self 2 h0
  generalize hL : Nat.log 2 n = L at *
  have hp : 2 ^ (L + 1) * 2 ^ (52 - L) = 2 ^ 53 := by
    rw [← Nat.pow_add]; congr 1; omega
  have hp' : 2 ^ L * 2 ^ (52 - L) = 2 ^ 52 := by
    rw [← Nat.pow_add]; congr 1; omega
  have hpos : 0 < 2 ^ (52 - L) := Nat.pos_of_ne_zero (by positivity)
  have a : n * 2 ^ (52 - L) < 2 ^ 53 := by
    rw [← hp]; exact Nat.mul_lt_mul_of_pos_right h1 hpos
  have b : 2 ^ 52 ≤ n * 2 ^ (52 - L) := by
    rw [← hp']; exact Nat.mul_le_mul_right _ h2
  refine ⟨?_, a, b, hlog⟩
  simp only [ofNat, h0, if_false, hL, BitVec.toNat_ofNat]
  apply Nat.mod_eq_of_lt
  omega

theorem ofNat_finite {n : Nat} (h : n < 2 ^ 53) : isFinite (ofNat n) = true := by
  by_cases h0 : n = 0
  · subst h0; decide
  · obtain ⟨h1, h2, h3, h4⟩ := ofNat_mag h0 h
    simp only [isFinite, mag, infMag, h1, decide_eq_true_eq]
    omega

theorem ofNat_neg? {n : Nat} (h : n < 2 ^ 53) : neg? (ofNat n) = false := by
  by_cases h0 : n = 0
  · subst h0; decide
  · obtain ⟨h1, h2, h3, h4⟩ := ofNat_mag h0 h
    simp only [neg?, h1, decide_eq_false_iff_not]
    omega

theorem ofNat_smag {n : Nat} (h : n < 2 ^ 53) : smag (mag (ofNat n)) = n * unit := by
  by_cases h0 : n = 0
  · subst h0
    simp [ofNat, mag, smag]
  · obtain ⟨h1, h2, h3, h4⟩ := ofNat_mag h0 h
    have hm : mag (ofNat n) = (Nat.log 2 n + 1022) * 2 ^ 52 + n * 2 ^ (52 - Nat.log 2 n) := by
      rw [mag, h1]; apply Nat.mod_eq_of_lt; omega
    rw [hm]
    generalize Nat.log 2 n = L at *
    generalize hq : n * 2 ^ (52 - L) = q at *
    have e1 : ((L + 1022) * 2 ^ 52 + q) / 2 ^ 52 = L + 1023 := by omega
    have e2 : ((L + 1022) * 2 ^ 52 + q) % 2 ^ 52 = q - 2 ^ 52 := by omega
    rw [smag, e1, e2, if_neg (by omega)]
    have e3 : 2 ^ 52 + (q - 2 ^ 52) = q := by omega
    have e4 : 52 - L + (L + 1023 - 1) = 1074 := by omega
    rw [e3, ← hq, Nat.mul_assoc, ← Nat.pow_add, e4, unit]

theorem ofNat_scaled {n : Nat} (h : n < 2 ^ 53) : scaled (ofNat n) = n * unit := by
  simp [scaled, ofNat_neg? h, ofNat_smag h]

theorem unit_pos : 0 < unit := Nat.pos_of_ne_zero (by unfold unit; positivity)

theorem ofNat_lt_iff {m n : Nat} (hm : m < 2 ^ 53) (hn : n < 2 ^ 53) :
    lt (ofNat m) (ofNat n) = true ↔ m < n := by
  rw [lt_iff_scaled (ofNat_finite hm) (ofNat_finite hn), ofNat_scaled hm, ofNat_scaled hn]
  have := unit_pos
  constructor
  · intro h
    by_contra hc
    have : (n : Int) * unit ≤ m * unit := by
      apply Int.mul_le_mul_of_nonneg_right <;> omega
    omega
  · intro h
    apply Int.mul_lt_mul_of_pos_right <;> omega

theorem ofNat_toUsize {n : Nat} (h : n < 2 ^ 53) : toUsize (ofNat n) = n := by
  have hf := ofNat_finite h
  simp only [toUsize, isNaN_of_isFinite hf, ofNat_neg? h, hf, ofNat_smag h]
  rw [Nat.mul_div_cancel _ unit_pos]
  simp
  omega

theorem one_eq : one = ofNat 1 := by
  simp [one, ofNat]

/-- Two finite patterns with the same non-zero value are equal. -/
theorem scaled_inj {x y : F64} (h : scaled x = scaled y) (h0 : scaled x ≠ 0) : x = y := by
  have hz := smag_zero
  have hx : mag x = mag y ∧ neg? x = neg? y := by
    unfold scaled at h h0
    cases h1 : neg? x <;> cases h2 : neg? y <;> simp [h1, h2] at h h0
    · exact ⟨smag_inj (by omega), rfl⟩
    · omega
    · omega
    · exact ⟨smag_inj (by omega), rfl⟩
  obtain ⟨hm, hn⟩ := hx
  apply BitVec.eq_of_toNat_eq
  have l1 := x.isLt
  have l2 := y.isLt
  simp only [mag, neg?, decide_eq_decide] at hm hn
  omega

/-- Counting with `f64` is exact below `2^53`. -/
theorem add_one_ofNat [FloatOps] {n : Nat} (h : n + 1 < 2 ^ 53) :
    FloatOps.add (ofNat n) one = ofNat (n + 1) := by
  have hn : n < 2 ^ 53 := by omega
  have e : scaled (ofNat n) + scaled one = scaled (ofNat (n + 1)) := by
    rw [one_eq, ofNat_scaled hn, ofNat_scaled h, ofNat_scaled (by decide)]
    push_cast
    ring
  have := FloatOps.add_exact (ofNat n) one (ofNat (n + 1)) (ofNat_finite hn)
    (by rw [one_eq]; exact ofNat_finite (by decide)) (ofNat_finite h) e
  apply scaled_inj this.2
  rw [this.2, ofNat_scaled h]
  have hu := unit_pos
  generalize unit = u at hu
  have : (0 : Int) < ((n + 1 : Nat) : Int) * (u : Int) := Int.mul_pos (by omega) (by omega)
  omega

end F64
end Dyon
