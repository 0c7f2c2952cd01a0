import Verif.Float

/-!
# Single precision: exact values and rounding to the nearest

What the hardware does on `f32` numbers that are not negative: exact values are counted in units of `2^-149`, the smallest positive
number; a result is rounded to the nearest number, of two that are as near to the one with an even pattern.  `nearest` below shows that
this is what `round` does.
-/

namespace Dyon.F32

/-- The sign bit. -/
def neg? (x : F32) : Bool := decide (2 ^ 31 ≤ x.toNat)

/-- Pattern of positive infinity. -/
def infMag : Nat := 255 * 2 ^ 23

/-- Neither infinite nor NaN. -/
def isFinite (x : F32) : Bool := decide (mag x < infMag)

/-- The absolute value of a finite number in units of `2^-149`, by its pattern without sign. -/
def smag (n : Nat) : Nat :=
  if n / 2 ^ 23 = 0 then n else (2 ^ 23 + n % 2 ^ 23) * 2 ^ (n / 2 ^ 23 - 1)

/-- Number of units in `1.0`. -/
def unit : Nat := 2 ^ 149

/-- The whole number nearest to `p / q`, of two the even one. -/
def halfEven (p q : Nat) : Nat :=
  if 2 * (p % q) < q then p / q
  else if q < 2 * (p % q) then p / q + 1
  else if p / q % 2 = 0 then p / q else p / q + 1

/-- The number of bits of `p / q` that do not fit. -/
def shift (p q : Nat) : Nat := Nat.log 2 (p / q) - 23

/-- The pattern of `p / q` units, rounded. -/
def roundMag (p q : Nat) : Nat := shift p q * 2 ^ 23 + halfEven p (q * 2 ^ shift p q)

/-- `p / q` units as a number: rounded to nearest, ties to even; too large numbers are infinite. -/
def round (p q : Nat) : F32 := BitVec.ofNat 32 (min (roundMag p q) infMag)

/-! ## Order of patterns -/

theorem smag_lt_succ (n : Nat) : smag n < smag (n + 1) := by
  unfold smag
  have hc : (n + 1) / 2 ^ 23 = n / 2 ^ 23 ∧ (n + 1) % 2 ^ 23 = n % 2 ^ 23 + 1 ∨
      (n + 1) / 2 ^ 23 = n / 2 ^ 23 + 1 ∧ (n + 1) % 2 ^ 23 = 0 ∧ n % 2 ^ 23 = 2 ^ 23 - 1 := by omega
  generalize hq : n / 2 ^ 23 = q at hc
  generalize hr : n % 2 ^ 23 = r at hc
  have hn : n = 2 ^ 23 * q + r := by rw [← hq, ← hr]; exact (Nat.div_add_mod n _).symm
  rcases hc with ⟨h1, h2⟩ | ⟨h1, h2, h3⟩
  · rw [h1, h2]
    by_cases h0 : q = 0
    · simp [h0]
    · rw [if_neg h0, if_neg h0]
      exact Nat.mul_lt_mul_of_pos_right (by omega) (Nat.pos_of_ne_zero (by positivity))
  · rw [h1, h2]
    by_cases h0 : q = 0
    · subst h0
      simp
      omega
    · rw [if_neg h0, if_neg (by omega)]
      have hp : 2 ^ (q + 1 - 1) = 2 * 2 ^ (q - 1) := by
        rw [← Nat.pow_succ']; congr 1; omega
      rw [hp, h3]
      have : 0 < 2 ^ (q - 1) := Nat.pos_of_ne_zero (by positivity)
      generalize 2 ^ (q - 1) = k at *
      omega

theorem smag_mono {m n : Nat} (h : m ≤ n) : smag m ≤ smag n := by
  induction n with
  | zero => simp [Nat.le_zero.1 h]
  | succ n ih =>
    rcases Nat.of_le_succ h with h | h
    · exact Nat.le_trans (ih h) (Nat.le_of_lt (smag_lt_succ n))
    · subst h; exact Nat.le_refl _

theorem smag_lt {m n : Nat} (h : m < n) : smag m < smag n :=
  Nat.lt_of_lt_of_le (smag_lt_succ m) (smag_mono h)

theorem smag_le_iff {m n : Nat} : smag m ≤ smag n ↔ m ≤ n :=
  ⟨fun h => by by_contra hc; have := smag_lt (Nat.lt_of_not_le hc); omega, smag_mono⟩

/-- The value of a pattern given by exponent and digits. -/
theorem smag_parts (s k : Nat) (h : s = 0 ∨ 2 ^ 23 ≤ k) (hk : k ≤ 2 ^ 24) : smag (s * 2 ^ 23 + k) = k * 2 ^ s := by
  unfold smag
  rcases Nat.lt_or_ge k (2 ^ 23) with h0 | h0
  · have : s = 0 := by omega
    subst this
    rw [if_pos (by omega)]
    simp
  · rcases Nat.lt_or_ge k (2 ^ 24) with h1 | h1
    · have e : (s * 2 ^ 23 + k) / 2 ^ 23 = s + 1 ∧ (s * 2 ^ 23 + k) % 2 ^ 23 = k - 2 ^ 23 := by omega
      rw [e.1, e.2, if_neg (Nat.succ_ne_zero s), Nat.add_sub_cancel' h0, Nat.add_sub_cancel]
    · have hk : k = 2 ^ 24 := by omega
      have e : (s * 2 ^ 23 + k) / 2 ^ 23 = s + 2 ∧ (s * 2 ^ 23 + k) % 2 ^ 23 = 0 := by omega
      rw [e.1, e.2, if_neg (by omega), hk, show s + 2 - 1 = s + 1 by omega, pow_succ]
      ring

/-! ## Rounding -/

/-- The two patterns around `p / q` units. -/
theorem around (p : Nat) {q : Nat} (hq : 0 < q) :
    let s := shift p q
    let d := p / (q * 2 ^ s)
    smag (s * 2 ^ 23 + d) = d * 2 ^ s ∧ smag (s * 2 ^ 23 + d + 1) = (d + 1) * 2 ^ s := by
  intro s d
  have hd : d = p / q / 2 ^ s := by simp only [d]; rw [Nat.div_div_eq_div_mul]
  have hs : s = Nat.log 2 (p / q) - 23 := rfl
  have hp2 : 0 < 2 ^ s := Nat.pos_of_ne_zero (by positivity)
  have hlt : d < 2 ^ 24 := by
    rw [hd, Nat.div_lt_iff_lt_mul hp2, ← pow_add]
    refine Nat.lt_of_lt_of_le (Nat.lt_pow_succ_log_self (b := 2) (by decide) (p / q)) ?_
    exact Nat.pow_le_pow_right (by decide) (by omega)
  have hge : s = 0 ∨ 2 ^ 23 ≤ d := by
    by_cases h0 : s = 0
    · exact .inl h0
    · right
      have hne : p / q ≠ 0 := by
        intro hz
        rw [hz] at hs
        simp at hs
        exact h0 hs
      rw [hd, Nat.le_div_iff_mul_le hp2, ← pow_add]
      refine Nat.le_trans (Nat.pow_le_pow_right (by decide) ?_) (Nat.pow_log_le_self 2 hne)
      omega
  refine ⟨smag_parts s d hge (by omega), ?_⟩
  rw [Nat.add_assoc]
  exact smag_parts s (d + 1) (hge.imp id (by omega)) (by omega)

/-- The distance of two numbers. -/
def dist (a b : Nat) : Nat := (a - b) + (b - a)

/-- **What rounding does**: no pattern is nearer to `p / q` units than the chosen one. -/
theorem nearest (p : Nat) {q : Nat} (hq : 0 < q) (n : Nat) :
    dist (smag (roundMag p q) * q) p ≤ dist (smag n * q) p := by
  obtain ⟨h1, h2⟩ := around p hq
  have hp2 : 0 < 2 ^ shift p q := Nat.pos_of_ne_zero (by positivity)
  have hQ : 0 < q * 2 ^ shift p q := Nat.mul_pos hq hp2
  unfold roundMag halfEven
  have hdm := Nat.div_add_mod p (q * 2 ^ shift p q)
  have hr := Nat.mod_lt p hQ
  generalize hs : shift p q = s at *
  generalize hd : p / (q * 2 ^ s) = d at *
  generalize hrr : p % (q * 2 ^ s) = r at *
  have e1 : smag (s * 2 ^ 23 + d) * q = q * 2 ^ s * d := by rw [h1]; ring
  have e2 : smag (s * 2 ^ 23 + (d + 1)) * q = q * 2 ^ s * d + q * 2 ^ s := by rw [← Nat.add_assoc, h2]; ring
  have hn : smag n * q ≤ q * 2 ^ s * d ∨ q * 2 ^ s * d + q * 2 ^ s ≤ smag n * q := by
    rcases Nat.lt_or_ge (s * 2 ^ 23 + d) n with h | h
    · exact .inr (e2 ▸ Nat.mul_le_mul_right q (smag_mono h))
    · exact .inl (e1 ▸ Nat.mul_le_mul_right q (smag_mono h))
  generalize q * 2 ^ s = Q at *
  generalize Q * d = D at *
  generalize smag n * q = N at *
  unfold dist
  split
  · rw [e1]; omega
  · split
    · rw [e2]; omega
    · split
      · rw [e1]; omega
      · rw [e2]; omega

/-- Of two patterns that are as near the even one is chosen. -/
theorem ties_even (p : Nat) {q : Nat} (hq : 0 < q) (n : Nat) (hn : n ≠ roundMag p q)
    (h : dist (smag (roundMag p q) * q) p = dist (smag n * q) p) : roundMag p q % 2 = 0 := by
  obtain ⟨h1, h2⟩ := around p hq
  have hp2 : 0 < 2 ^ shift p q := Nat.pos_of_ne_zero (by positivity)
  have hQ : 0 < q * 2 ^ shift p q := Nat.mul_pos hq hp2
  unfold roundMag halfEven at hn h ⊢
  have hdm := Nat.div_add_mod p (q * 2 ^ shift p q)
  have hr := Nat.mod_lt p hQ
  generalize hs : shift p q = s at *
  generalize hd : p / (q * 2 ^ s) = d at *
  generalize hrr : p % (q * 2 ^ s) = r at *
  have e1 : smag (s * 2 ^ 23 + d) * q = q * 2 ^ s * d := by rw [h1]; ring
  have e2 : smag (s * 2 ^ 23 + (d + 1)) * q = q * 2 ^ s * d + q * 2 ^ s := by rw [← Nat.add_assoc, h2]; ring
  have hn' : n = s * 2 ^ 23 + d ∨ n = s * 2 ^ 23 + (d + 1) ∨ smag n * q < q * 2 ^ s * d ∨
      q * 2 ^ s * d + q * 2 ^ s < smag n * q := by
    rcases Nat.lt_trichotomy n (s * 2 ^ 23 + d) with h | h | h
    · exact .inr (.inr (.inl (e1 ▸ Nat.mul_lt_mul_of_pos_right (smag_lt h) hq)))
    · exact .inl h
    · rcases Nat.lt_or_eq_of_le (Nat.succ_le_of_lt h) with h | h
      · exact .inr (.inr (.inr (e2 ▸ Nat.mul_lt_mul_of_pos_right (smag_lt h) hq)))
      · exact .inr (.inl h.symm)
  generalize q * 2 ^ s = Q at *
  generalize Q * d = D at *
  unfold dist at h
  split at h <;> rename_i c1
  · rw [if_pos c1] at hn ⊢
    rcases hn' with rfl | rfl | hn' | hn' <;> simp only [e1, e2] at h <;> omega
  · rw [if_neg c1] at hn ⊢
    split at h <;> rename_i c2
    · rw [if_pos c2] at hn ⊢
      rcases hn' with rfl | rfl | hn' | hn' <;> simp only [e1, e2] at h <;> omega
    · rw [if_neg c2] at hn ⊢
      split <;> omega

/-- Rounding keeps the order. -/
theorem round_mono {p p' q : Nat} (hq : 0 < q) (h : p ≤ p') : roundMag p q ≤ roundMag p' q := by
  by_contra hc
  have a := nearest p hq (roundMag p' q)
  have b := nearest p' hq (roundMag p q)
  have hl := Nat.mul_lt_mul_of_pos_right (smag_lt (Nat.lt_of_not_le hc)) hq
  rcases Nat.lt_or_eq_of_le h with h' | h'
  · unfold dist at a b
    omega
  · subst h'; omega

/-- A number that has a pattern is not changed by rounding. -/
theorem round_exact {n q : Nat} (hq : 0 < q) : roundMag (smag n * q) q = n := by
  have a := nearest (smag n * q) hq n
  have : smag (roundMag (smag n * q) q) * q = smag n * q := by
    unfold dist at a
    omega
  have h := Nat.eq_of_mul_eq_mul_right hq this
  exact Nat.le_antisymm (smag_le_iff.1 h.le) (smag_le_iff.1 h.ge)

/-- Whole numbers with 24 digits have a pattern. -/
theorem exists_pattern (k e : Nat) (hk : k < 2 ^ 24) : ∃ n, n < (e + 2) * 2 ^ 23 ∧ smag n = k * 2 ^ e := by
  induction e generalizing k with
  | zero =>
    refine ⟨k, Nat.lt_of_lt_of_le hk (by norm_num), ?_⟩
    have := smag_parts 0 k (.inl rfl) (by omega)
    rwa [Nat.zero_mul, Nat.zero_add] at this
  | succ e ih =>
    rcases Nat.lt_or_ge k (2 ^ 23) with h | h
    · obtain ⟨n, h1, h2⟩ := ih (2 * k) (by omega)
      refine ⟨n, Nat.lt_of_lt_of_le h1 (Nat.mul_le_mul_right _ (Nat.le_succ (e + 2))), ?_⟩
      rw [h2, pow_succ]
      ring
    · exact ⟨(e + 1) * 2 ^ 23 + k, by omega, smag_parts (e + 1) k (.inr h) (by omega)⟩

theorem mag_ofNat {n : Nat} (h : n ≤ infMag) : mag (BitVec.ofNat 32 n) = n := by
  unfold infMag at h
  simp only [mag, BitVec.toNat_ofNat]
  omega

theorem neg_ofNat {n : Nat} (h : n ≤ infMag) : neg? (BitVec.ofNat 32 n) = false := by
  unfold infMag at h
  simp only [neg?, BitVec.toNat_ofNat, decide_eq_false_iff_not]
  omega

theorem mag_round (p q : Nat) : mag (round p q) = min (roundMag p q) infMag := mag_ofNat (Nat.min_le_right _ _)

theorem neg_round (p q : Nat) : neg? (round p q) = false := neg_ofNat (Nat.min_le_right _ _)

end Dyon.F32
