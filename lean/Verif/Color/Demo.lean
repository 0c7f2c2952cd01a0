import Verif.Color.Props
import Verif.Data.Demo

/-!
# C87: the theorems are about something

Arithmetic that is rounded to the nearest, and a reader of colours.
-/

namespace Dyon.Color.Demo

theorem smag_parts64 (s k : Nat) (h : s = 0 ∨ 2 ^ 52 ≤ k) (hk : k < 2 ^ 53) : F64.smag (s * 2 ^ 52 + k) = k * 2 ^ s := by
  unfold F64.smag
  rcases Nat.lt_or_ge k (2 ^ 52) with h0 | h0
  · have : s = 0 := by omega
    subst this
    rw [if_pos (by omega)]
    simp
  · have e : (s * 2 ^ 52 + k) / 2 ^ 52 = s + 1 ∧ (s * 2 ^ 52 + k) % 2 ^ 52 = k - 2 ^ 52 := by omega
    rw [e.1, e.2, if_neg (Nat.succ_ne_zero s), Nat.add_sub_cancel' h0, Nat.add_sub_cancel]

theorem exists_pattern64 (k e : Nat) (hk : k < 2 ^ 53) : ∃ n, n < (e + 2) * 2 ^ 52 ∧ F64.smag n = k * 2 ^ e := by
  induction e generalizing k with
  | zero =>
    refine ⟨k, Nat.lt_of_lt_of_le hk (by norm_num), ?_⟩
    have := smag_parts64 0 k (.inl rfl) hk
    rwa [Nat.zero_mul, Nat.zero_add] at this
  | succ e ih =>
    rcases Nat.lt_or_ge k (2 ^ 52) with h | h
    · obtain ⟨n, h1, h2⟩ := ih (2 * k) (by omega)
      refine ⟨n, Nat.lt_of_lt_of_le h1 (Nat.mul_le_mul_right _ (Nat.le_succ (e + 2))), ?_⟩
      rw [h2, pow_succ]
      ring
    · exact ⟨(e + 1) * 2 ^ 52 + k, by omega, smag_parts64 (e + 1) k (.inr h) hk⟩

/-- Every `f32` value is an `f64` value. -/
theorem exists_wide {m : Nat} (h : m < F32.infMag) : ∃ n, n < F64.infMag ∧ F64.smag n = F32.smag m * 2 ^ 925 := by
  unfold F32.infMag at h
  have hd : m / 2 ^ 23 < 255 := by omega
  obtain ⟨k, e, hk, he, hm⟩ : ∃ k e, k < 2 ^ 53 ∧ e ≤ 254 ∧ F32.smag m = k * 2 ^ e := by
    unfold F32.smag
    split
    · exact ⟨m, 0, by omega, by omega, by simp⟩
    · exact ⟨2 ^ 23 + m % 2 ^ 23, m / 2 ^ 23 - 1, by omega, by omega, rfl⟩
  obtain ⟨n, h1, h2⟩ := exists_pattern64 k (e + 925) hk
  refine ⟨n, ?_, ?_⟩
  · unfold F64.infMag
    exact Nat.lt_of_lt_of_le h1 (Nat.mul_le_mul_right _ (by omega))
  · rw [h2, hm, pow_add, Nat.mul_assoc]

/-- A pattern with a sign. -/
def signed (s : Bool) (m : Nat) : F32 := BitVec.ofNat 32 (m + if s then 2 ^ 31 else 0)

theorem signed_mag (s : Bool) {m : Nat} (h : m ≤ F32.infMag) : F32.mag (signed s m) = m ∧ F32.neg? (signed s m) = s := by
  unfold F32.infMag at h
  unfold signed F32.mag F32.neg?
  cases s <;> simp only [BitVec.toNat_ofNat, Bool.false_eq_true, if_false, if_true, decide_eq_true_eq, decide_eq_false_iff_not] <;> omega

/-- A pattern of 64 bits with a sign. -/
def signed64 (s : Bool) (m : Nat) : F64 := BitVec.ofNat 64 (m + if s then 2 ^ 63 else 0)

theorem signed64_mag (s : Bool) {m : Nat} (h : m < F64.infMag) : F64.mag (signed64 s m) = m ∧ F64.neg? (signed64 s m) = s := by
  unfold F64.infMag at h
  unfold signed64 F64.mag F64.neg?
  cases s <;> simp only [BitVec.toNat_ofNat, Bool.false_eq_true, if_false, if_true, decide_eq_true_eq, decide_eq_false_iff_not] <;> omega

open Classical in
/-- Single precision, rounded to the nearest. -/
noncomputable def ops : FloatOps :=
  { exactOps with
    mul32 := fun x y => if F32.isNaN x then x else
      signed (F32.neg? x != F32.neg? y) (F32.mag (F32.round (F32.smag (F32.mag x) * F32.smag (F32.mag y)) F32.unit))
    div32 := fun x y =>
      signed (F32.neg? x != F32.neg? y) (F32.mag (F32.round (F32.smag (F32.mag x) * F32.unit) (F32.smag (F32.mag y))))
    toF32 := fun x => signed (F64.neg? x) (F32.mag (F32.round (F64.smag (F64.mag x)) (2 ^ 925)))
    ofF32 := fun x => if h : ∃ n, n < F64.infMag ∧ F64.smag n = F32.smag (F32.mag x) * 2 ^ 925 ∧ F32.isNaN x = false
      then signed64 (F32.neg? x) h.choose else F64.nan }

theorem round_le (p q : Nat) : F32.mag (F32.round p q) ≤ F32.infMag := by
  rw [F32.mag_round]; exact Nat.min_le_right _ _

theorem not_nan {x : F32} (h : F32.isFinite x = true) : F32.isNaN x = false := by
  have h : F32.mag x < F32.infMag := by simpa [F32.isFinite] using h
  unfold F32.infMag at h
  simp only [F32.isNaN, decide_eq_false_iff_not]
  omega

theorem single : letI := ops; Single := by
  letI := ops
  refine @Single.mk ops ?_ ?_ ?_ ?_ ?_ ?_
  · intro x y hx _
    show F32.mag (if F32.isNaN x then x else _) = _ ∧ F32.neg? (if F32.isNaN x then x else _) = _
    rw [not_nan hx]
    exact signed_mag _ (round_le _ _)
  · intro x y hx
    show F32.isNaN (if F32.isNaN x then x else _) = true
    rw [if_pos hx, hx]
  · intro x y _ _ _
    exact signed_mag _ (round_le _ _)
  · intro x _
    exact signed_mag _ (round_le _ _)
  · intro x hx
    have hex : ∃ n, n < F64.infMag ∧ F64.smag n = F32.smag (F32.mag x) * 2 ^ 925 ∧ F32.isNaN x = false := by
      obtain ⟨n, h1, h2⟩ := exists_wide (m := F32.mag x) (by simpa [F32.isFinite] using hx)
      exact ⟨n, h1, h2, not_nan hx⟩
    have he : FloatOps.ofF32 x = signed64 (F32.neg? x) hex.choose := dif_pos hex
    obtain ⟨h1, h2, -⟩ := hex.choose_spec
    obtain ⟨a, b⟩ := signed64_mag (F32.neg? x) h1
    rw [he]
    refine ⟨?_, ?_, b⟩
    · simp only [F64.isFinite, a, decide_eq_true_eq]; exact h1
    · rw [a]; exact h2
  · intro x hx
    have : FloatOps.ofF32 x = F64.nan := dif_neg (by rintro ⟨n, -, -, h⟩; rw [hx] at h; cases h)
    rw [this]
    decide +kernel

/-- The arithmetic of `str__color`. -/
noncomputable def text : TextOps where
  parse _ := none
  byte := letI := ops; byte
  byte_le := letI := ops; letI := single; byte_le

/-- A reader that knows colours. -/
noncomputable def lex : Data.Lex :=
  { Data.Demo.lex with
    channel := letI := ops; Draw.partOf
    rgba := fun s => match bytes s with
      | some [r, g, b] => some (r, g, b, none)
      | some [r, g, b, a] => some (r, g, b, some a)
      | _ => none }

theorem colors : letI := ops; letI := text; letI := lex; Colors := by
  letI := ops; letI := text; letI := lex
  refine @Colors.mk ops text lex (fun _ => rfl) (fun _ _ => rfl) ?_ ?_
  · intro s r g b h
    show (match bytes s with
      | some [r, g, b] => some (r, g, b, none)
      | some [r, g, b, a] => some (r, g, b, some a)
      | _ => none) = _
    rw [h]
  · intro s r g b a h
    show (match bytes s with
      | some [r, g, b] => some (r, g, b, none)
      | some [r, g, b, a] => some (r, g, b, some a)
      | _ => none) = _
    rw [h]

/-- `#FF8001` is shown as the bytes 255, 128, 1. -/
example (c : Cfg) : letI := ops; letI := text; letI := lex
    ∃ v t, Front.color "FF8001" = some (.vec4 v) ∧ Lib.strColor c [.vec4 v] = .ok (.str t) [] ∧
      Dyon.Spec.colorNumbers t.toList = some [255, 128, 1] := by
  letI := ops; letI := text; letI := lex; letI := single; letI := colors
  exact C87_literal (s := "FF8001".toList) (st := []) (a := none) (r := 255) (g := 128) (b := 1) (by decide) (by decide) (by decide)
    (by decide) (by simp)

/-- One half is a component with an exact value, between 0 and 1. -/
example : Spec.units 0x3f000000#32 (2 ^ 148) ∧ 2 ^ 148 ≤ F32.unit := by
  refine ⟨⟨by decide +kernel, ?_, by decide +kernel⟩, by decide +kernel⟩
  intro h
  exact absurd h (by decide +kernel)

/-- An image of one pixel that can be read and set. -/
example : Draw.Spec.Sound ⟨[⟨1, 1, [⟨1, 2, 3, 255⟩]⟩], [], []⟩ ∧
    Draw.Spec.look ⟨[⟨1, 1, [⟨1, 2, 3, 255⟩]⟩], [], []⟩ (.num 0) 0 0 = some ⟨1, 2, 3, 255⟩ := by
  refine ⟨?_, rfl⟩
  intro s i h
  cases s with
  | num n =>
    match n with
    | 0 => cases h; rfl
    | n + 1 => simp [Draw.Spec.image] at h
  | obj n => simp [Draw.Spec.image] at h

end Dyon.Color.Demo
