import Verif.Color.Srgb
import Verif.Color.Demo

/-!
# C97: conversions between sRGB and linear colours
-/

namespace Dyon.Color

namespace Spec

/-- What is taken for granted about addition and subtraction of numbers that are not negative (IEEE-754: the exact result is rounded to
the nearest number) and about powers of 1. -/
structure Sums [FloatOps] : Prop where
  add : ∀ x y, F32.isFinite x = true → F32.isFinite y = true → F32.neg? x = false → F32.neg? y = false →
    FloatOps.add32 x y = F32.round (F32.smag (F32.mag x) + F32.smag (F32.mag y)) 1
  sub : ∀ x y, F32.isFinite x = true → F32.neg? x = false → F32.neg? y = false → F32.mag y ≤ F32.mag x →
    FloatOps.sub32 x y = F32.round (F32.smag (F32.mag x) - F32.smag (F32.mag y)) 1
  pow_one : ∀ y, FloatOps.pow32 F32.one y = F32.one

/-- What is taken for granted about `powf`: it keeps the order of bases, and is not more than two units in the last place from the
exact value just above the two limits (`0.09047393^2.4 = 0.0031308067`, `0.0031308003^(1 / 2.4) = 0.090473855`).  The
exponents are the patterns of `2.4` and `1 / 2.4`. -/
structure Powers [FloatOps] : Prop where
  mono : ∀ x y, F32.isFinite x = true → F32.isFinite y = true → F32.neg? x = false → F32.neg? y = false → F32.mag x ≤ F32.mag y →
    F32.key (FloatOps.pow32 x 0x4019999a#32) ≤ F32.key (FloatOps.pow32 y 0x4019999a#32)
  mono_inv : ∀ x y, F32.isFinite x = true → F32.isFinite y = true → F32.neg? x = false → F32.neg? y = false → F32.mag x ≤ F32.mag y →
    F32.key (FloatOps.pow32 x 0x3ed55555#32) ≤ F32.key (FloatOps.pow32 y 0x3ed55555#32)
  at_gamma : F32.key 0x3b4d2e36#32 ≤ F32.key (FloatOps.pow32 0x3db94a66#32 0x4019999a#32)
  at_inv : F32.key 0x3db94a59#32 ≤ F32.key (FloatOps.pow32 0x3b4d2e1d#32 0x3ed55555#32) ∧
    F32.key (FloatOps.pow32 0x3b4d2e1d#32 0x3ed55555#32) ≤ F32.key 0x3db94a5d#32

end Spec

open Spec

section
variable [FloatOps] [Single]

theorem slope_facts : F32.isFinite slope = true ∧ F32.neg? slope = false ∧ F32.mag slope ≠ 0 ∧ 0 < F32.smag (F32.mag slope) := by
  decide +kernel

theorem div_slope {x : F32} (h : F32.isFinite x = true) :
    F32.mag (FloatOps.div32 x slope) = min (F32.roundMag (F32.smag (F32.mag x) * F32.unit) (F32.smag (F32.mag slope))) F32.infMag ∧
    F32.neg? (FloatOps.div32 x slope) = F32.neg? x := by
  obtain ⟨a, b, c, -⟩ := slope_facts
  obtain ⟨e, f⟩ := Single.div x slope h a c
  rw [F32.mag_round] at e
  refine ⟨e, ?_⟩
  rw [f, b]; cases F32.neg? x <;> rfl

theorem mul_slope {x : F32} (h : F32.isFinite x = true) :
    F32.mag (FloatOps.mul32 x slope) = min (F32.roundMag (F32.smag (F32.mag x) * F32.smag (F32.mag slope)) F32.unit) F32.infMag ∧
    F32.neg? (FloatOps.mul32 x slope) = F32.neg? x := by
  obtain ⟨a, b, c, -⟩ := slope_facts
  obtain ⟨e, f⟩ := Single.mul x slope h a
  rw [F32.mag_round] at e
  refine ⟨e, ?_⟩
  rw [f, b]; cases F32.neg? x <;> rfl

/-- A function that keeps signs and the order of magnitudes keeps the order. -/
theorem key_mono {g : F32 → F32} {r : Nat → Nat} (hr : ∀ m n, m ≤ n → r m ≤ r n) (h0 : r 0 = 0)
    (hg : ∀ z, F32.isFinite z = true → F32.mag (g z) = r (F32.mag z) ∧ F32.neg? (g z) = F32.neg? z)
    {x y : F32} (hx : F32.isFinite x = true) (hy : F32.isFinite y = true) (h : F32.key x ≤ F32.key y) :
    F32.key (g x) ≤ F32.key (g y) := by
  obtain ⟨mx, nx⟩ := hg x hx
  obtain ⟨my, ny⟩ := hg y hy
  cases h1 : F32.neg? x <;> cases h2 : F32.neg? y
  · rw [key_nonneg h1, key_nonneg h2] at h
    rw [key_nonneg (nx.trans h1), key_nonneg (ny.trans h2), mx, my]
    have := hr (F32.mag x) (F32.mag y) (by omega)
    omega
  · rw [key_nonneg h1, key_neg h2] at h
    rw [key_nonneg (nx.trans h1), key_neg (ny.trans h2), mx, my]
    have e1 : F32.mag x = 0 := by omega
    have e2 : F32.mag y = 0 := by omega
    rw [e1, e2, h0]
    rfl
  · rw [key_neg (nx.trans h1), key_nonneg (ny.trans h2)]
    omega
  · rw [key_neg h1, key_neg h2] at h
    rw [key_neg (nx.trans h1), key_neg (ny.trans h2), mx, my]
    have := hr (F32.mag y) (F32.mag x) (by omega)
    omega

theorem le_finite {x t : F32} (hx : F32.isFinite x = true) (ht : F32.isNaN t = false) (h : F32.key x ≤ F32.key t) :
    F32.le x t = true := by
  have : F32.isNaN x = false := Demo.not_nan hx
  simp [F32.le, this, ht, h]

/-! ## Theorems -/

/-- C97: both conversions treat red, green and blue in the same way, each by itself, and keep alpha as it is. -/
theorem C97_parts : (∃ g : F32 → F32, ∀ r g' b a, srgbToLinear ⟨r, g', b, a⟩ = ⟨g r, g g', g b, a⟩) ∧
    ∃ g : F32 → F32, ∀ r g' b a, linearToSrgb ⟨r, g', b, a⟩ = ⟨g r, g g', g b, a⟩ :=
  ⟨⟨toLinear, fun _ _ _ _ => rfl⟩, ⟨toSrgb, fun _ _ _ _ => rfl⟩⟩

/-- C97: of two dark components (at most `0.04045`) the one that is not brighter does not become brighter by the conversion to linear
colours, whatever `powf` does; for bright components see `C97_linear_order`. -/
theorem C97_linear_order_partial {x y : F32} (hx : F32.isFinite x = true) (hy : F32.isFinite y = true) (h : F32.key x ≤ F32.key y)
    (hd : F32.key y ≤ F32.key darkSrgb) : F32.key (toLinear x) ≤ F32.key (toLinear y) := by
  rw [toLinear, toLinear, if_pos (le_finite hx (by decide +kernel) (h.trans hd)), if_pos (le_finite hy (by decide +kernel) hd)]
  refine key_mono (g := fun z => FloatOps.div32 z slope)
    (r := fun m => min (F32.roundMag (F32.smag m * F32.unit) (F32.smag (F32.mag slope))) F32.infMag) ?_ (by decide +kernel)
    (fun z hz => div_slope hz) hx hy h
  intro m n hmn
  have := F32.round_mono slope_facts.2.2.2 (Nat.mul_le_mul_right F32.unit (F32.smag_mono hmn))
  exact min_le_min_right _ this

/-- C97: the same for the conversion of dark linear components (at most `0.0031308`) to sRGB. -/
theorem C97_srgb_order_partial {x y : F32} (hx : F32.isFinite x = true) (hy : F32.isFinite y = true) (h : F32.key x ≤ F32.key y)
    (hd : F32.key y ≤ F32.key darkLinear) : F32.key (toSrgb x) ≤ F32.key (toSrgb y) := by
  rw [toSrgb, toSrgb, if_pos (le_finite hx (by decide +kernel) (h.trans hd)), if_pos (le_finite hy (by decide +kernel) hd)]
  refine key_mono (g := fun z => FloatOps.mul32 z slope)
    (r := fun m => min (F32.roundMag (F32.smag m * F32.smag (F32.mag slope)) F32.unit) F32.infMag) ?_ (by decide +kernel)
    (fun z hz => mul_slope hz) hx hy h
  intro m n hmn
  have := F32.round_mono unit_pos (Nat.mul_le_mul_right (F32.smag (F32.mag slope)) (F32.smag_mono hmn))
  exact min_le_min_right _ this

/-- The base of the power for a bright component up to 1. -/
theorem base {z : F32} (hs : Sums) (hn : F32.neg? z = false) (h1 : F32.mag z ≤ F32.mag F32.one) :
    F32.isFinite (FloatOps.div32 (FloatOps.add32 z offset) factor) = true ∧
    F32.neg? (FloatOps.div32 (FloatOps.add32 z offset) factor) = false ∧
    F32.mag (FloatOps.div32 (FloatOps.add32 z offset) factor) =
      F32.roundMag (F32.smag (F32.roundMag (F32.smag (F32.mag z) + F32.smag (F32.mag offset)) 1) * F32.unit)
        (F32.smag (F32.mag factor)) := by
  have hadd := hs.add z offset (finite_of_le_one h1) (by decide +kernel) hn (by decide +kernel)
  have hle : F32.roundMag (F32.smag (F32.mag z) + F32.smag (F32.mag offset)) 1 ≤ F32.mag factor := by
    have := F32.round_mono (q := 1) Nat.one_pos (Nat.add_le_add_right (F32.smag_mono h1) (F32.smag (F32.mag offset)))
    refine this.trans ?_
    decide +kernel
  have hfac : F32.mag factor < F32.infMag := by decide +kernel
  have hm : F32.mag (FloatOps.add32 z offset) = F32.roundMag (F32.smag (F32.mag z) + F32.smag (F32.mag offset)) 1 := by
    rw [hadd, F32.mag_round]; exact Nat.min_eq_left (hle.trans hfac.le)
  have hfin : F32.isFinite (FloatOps.add32 z offset) = true := by
    rw [F32.isFinite, hm, decide_eq_true_eq]; omega
  have hneg : F32.neg? (FloatOps.add32 z offset) = false := by rw [hadd, F32.neg_round]
  obtain ⟨a, b⟩ := Single.div (FloatOps.add32 z offset) factor hfin (by decide +kernel) (by decide +kernel)
  have hpos : 0 < F32.smag (F32.mag factor) := by decide +kernel
  have hd : F32.roundMag (F32.smag (F32.roundMag (F32.smag (F32.mag z) + F32.smag (F32.mag offset)) 1) * F32.unit)
      (F32.smag (F32.mag factor)) ≤ F32.mag F32.one := by
    refine (F32.round_mono hpos (Nat.mul_le_mul_right F32.unit (F32.smag_mono hle))).trans ?_
    decide +kernel
  have hone : F32.mag F32.one < F32.infMag := by decide +kernel
  rw [F32.mag_round, hm, Nat.min_eq_left (hd.trans hone.le)] at a
  refine ⟨?_, ?_, a⟩
  · rw [F32.isFinite, a, decide_eq_true_eq]; omega
  · rw [b, hneg]; decide +kernel

theorem base_mono {x y : F32} (hs : Sums) (hx : F32.neg? x = false) (hy : F32.neg? y = false) (h : F32.mag x ≤ F32.mag y)
    (h1 : F32.mag y ≤ F32.mag F32.one) :
    F32.mag (FloatOps.div32 (FloatOps.add32 x offset) factor) ≤ F32.mag (FloatOps.div32 (FloatOps.add32 y offset) factor) := by
  rw [(base hs hx (h.trans h1)).2.2, (base hs hy h1).2.2]
  refine F32.round_mono (by decide +kernel) (Nat.mul_le_mul_right _ (F32.smag_mono ?_))
  exact F32.round_mono Nat.one_pos (Nat.add_le_add_right (F32.smag_mono h) _)

theorem bright_sign {x : F32} (h : F32.key darkSrgb < F32.key x) : F32.neg? x = false ∧ F32.mag 0x3d25aee7#32 ≤ F32.mag x := by
  have hk : F32.key darkSrgb = 0x3d25aee6 := by decide +kernel
  have hm : F32.mag 0x3d25aee7#32 = 0x3d25aee7 := by decide +kernel
  cases hn : F32.neg? x
  · rw [key_nonneg hn, hk] at h
    exact ⟨rfl, by omega⟩
  · rw [key_neg hn, hk] at h
    omega

theorem bright_linear {x : F32} (h : F32.key darkSrgb < F32.key x) :
    toLinear x = FloatOps.pow32 (FloatOps.div32 (FloatOps.add32 x offset) factor) gamma := by
  rw [toLinear, if_neg]
  simp only [F32.le, Bool.and_eq_true, decide_eq_true_eq, not_and]
  omega

/-- C97: of two components up to 1 the one that is not brighter does not become brighter by the conversion to linear colours. -/
theorem C97_linear_order (hs : Sums) (hp : Powers) {x y : F32} (hx : F32.isFinite x = true) (hy : F32.isFinite y = true)
    (h : F32.key x ≤ F32.key y) (h1 : F32.key y ≤ F32.key F32.one) : F32.key (toLinear x) ≤ F32.key (toLinear y) := by
  rcases le_or_gt (F32.key y) (F32.key darkSrgb) with hd | hd
  · exact C97_linear_order_partial hx hy h hd
  obtain ⟨ny, my⟩ := bright_sign hd
  have hone : F32.key F32.one = F32.mag F32.one := by decide +kernel
  have ly : F32.mag y ≤ F32.mag F32.one := by rw [key_nonneg ny, hone] at h1; omega
  obtain ⟨fy, by', -⟩ := base hs ny ly
  rw [bright_linear hd]
  rcases le_or_gt (F32.key x) (F32.key darkSrgb) with hd' | hd'
  · have h2 := C97_linear_order_partial hx (y := darkSrgb) (by decide +kernel) hd' le_rfl
    have h3 : F32.key (toLinear darkSrgb) = F32.key 0x3b4d2e31#32 := by
      rw [toLinear, if_pos (by decide +kernel)]
      obtain ⟨a, b⟩ := div_slope (x := darkSrgb) (by decide +kernel)
      rw [eq_of (y := 0x3b4d2e31#32) (a.trans (by decide +kernel)) (b.trans (by decide +kernel))]
    have h4 : F32.key 0x3b4d2e31#32 ≤ F32.key 0x3b4d2e36#32 := by decide +kernel
    have nt : F32.neg? 0x3d25aee7#32 = false := by decide +kernel
    have lt : F32.mag 0x3d25aee7#32 ≤ F32.mag F32.one := by decide +kernel
    have h5 : FloatOps.div32 (FloatOps.add32 0x3d25aee7#32 offset) factor = 0x3db94a66#32 := by
      obtain ⟨-, b, c⟩ := base hs nt lt
      exact eq_of (c.trans (by decide +kernel)) (b.trans (by decide +kernel))
    obtain ⟨ft, bt, -⟩ := base hs nt lt
    have h6 := hp.mono _ _ ft fy bt by' (base_mono hs nt ny my ly)
    rw [h5] at h6
    exact h2.trans (h3.le.trans (h4.trans (hp.at_gamma.trans h6)))
  · obtain ⟨nx, -⟩ := bright_sign hd'
    have lxy : F32.mag x ≤ F32.mag y := by rw [key_nonneg nx, key_nonneg ny] at h; omega
    obtain ⟨fx, bx, -⟩ := base hs nx (lxy.trans ly)
    rw [bright_linear hd']
    exact hp.mono _ _ fx fy bx by' (base_mono hs nx ny lxy ly)

/-- C97 is false of the code: the order is not kept by the conversion to sRGB.  The number after the limit `0.0031308` becomes darker
than the limit. -/
theorem C97_order_lost (hs : Sums) (hp : Powers) : F32.key darkLinear < F32.key 0x3b4d2e1d#32 ∧
    F32.key (toSrgb 0x3b4d2e1d#32) < F32.key (toSrgb darkLinear) := by
  refine ⟨by decide +kernel, ?_⟩
  have e1 : toSrgb darkLinear = 0x3d25aed5#32 := by
    rw [toSrgb, if_pos (by decide +kernel)]
    obtain ⟨a, b⟩ := mul_slope (x := darkLinear) (by decide +kernel)
    exact eq_of (a.trans (by decide +kernel)) (b.trans (by decide +kernel))
  have key : ∀ p : F32, p = 0x3db94a59#32 ∨ p = 0x3db94a5a#32 ∨ p = 0x3db94a5b#32 ∨ p = 0x3db94a5c#32 ∨ p = 0x3db94a5d#32 →
      F32.key (FloatOps.sub32 (FloatOps.mul32 factor p) offset) < F32.key 0x3d25aed5#32 := by
    have step : ∀ p q r : F32, F32.isFinite p = true ∧ F32.neg? p = false ∧
        q = F32.round (F32.smag (F32.mag factor) * F32.smag (F32.mag p)) F32.unit ∧ F32.isFinite q = true ∧
        F32.mag offset ≤ F32.mag q ∧ r = F32.round (F32.smag (F32.mag q) - F32.smag (F32.mag offset)) 1 ∧
        F32.key r < F32.key 0x3d25aed5#32 → F32.key (FloatOps.sub32 (FloatOps.mul32 factor p) offset) < F32.key 0x3d25aed5#32 := by
      rintro p q r ⟨a, b, c, d, e, f, g⟩
      obtain ⟨m, n⟩ := Single.mul factor p (by decide +kernel) a
      have hq : FloatOps.mul32 factor p = q := by
        refine eq_of (m.trans (by rw [c])) (n.trans ?_)
        rw [b, c, F32.neg_round]; decide +kernel
      have hqn : F32.neg? q = false := by rw [c, F32.neg_round]
      rw [hq, hs.sub q offset d hqn (by decide +kernel) e, ← f]
      exact g
    rintro p (rfl | rfl | rfl | rfl | rfl) <;> exact step _ _ _ ⟨by decide +kernel, by decide +kernel, rfl, by decide +kernel,
      by decide +kernel, rfl, by decide +kernel⟩
  have l : _ ≤ F32.key (FloatOps.pow32 _ invGamma) := hp.at_inv.1
  have u : F32.key (FloatOps.pow32 _ invGamma) ≤ _ := hp.at_inv.2
  have hl : F32.key 0x3db94a59#32 = 0x3db94a59 := by decide +kernel
  have hu : F32.key 0x3db94a5d#32 = 0x3db94a5d := by decide +kernel
  rw [e1, toSrgb, if_neg (by decide +kernel)]
  apply key
  generalize FloatOps.pow32 0x3b4d2e1d#32 invGamma = p at l u
  rw [hl] at l
  rw [hu] at u
  have hn : F32.neg? p = false := by
    cases hn : F32.neg? p
    · rfl
    · rw [key_neg hn] at l; omega
  rw [key_nonneg hn] at l u
  have hp' : p.toNat = F32.mag p := by
    have : ¬ 2 ^ 31 ≤ p.toNat := by simpa [F32.neg?] using hn
    rw [F32.mag, Nat.mod_eq_of_lt (by omega)]
  have : p.toNat = 0x3db94a59 ∨ p.toNat = 0x3db94a5a ∨ p.toNat = 0x3db94a5b ∨ p.toNat = 0x3db94a5c ∨ p.toNat = 0x3db94a5d := by omega
  rcases this with h | h | h | h | h
  · exact .inl (BitVec.eq_of_toNat_eq h)
  · exact .inr (.inl (BitVec.eq_of_toNat_eq h))
  · exact .inr (.inr (.inl (BitVec.eq_of_toNat_eq h)))
  · exact .inr (.inr (.inr (.inl (BitVec.eq_of_toNat_eq h))))
  · exact .inr (.inr (.inr (.inr (BitVec.eq_of_toNat_eq h))))

/-- The power of a bright linear component up to 1, and what is computed from it. -/
theorem bright_srgb (hs : Sums) (hp : Powers) {z : F32} (h : F32.key darkLinear < F32.key z) (h1 : F32.key z ≤ F32.key F32.one) :
    F32.neg? z = false ∧ F32.isFinite z = true ∧ F32.neg? (FloatOps.pow32 z invGamma) = false ∧
    toSrgb z = F32.round (F32.smag (F32.roundMag (F32.smag (F32.mag factor) * F32.smag (F32.mag (FloatOps.pow32 z invGamma))) F32.unit) -
      F32.smag (F32.mag offset)) 1 := by
  have hk : F32.key darkLinear = 0x3b4d2e1c := by decide +kernel
  have hone : F32.key F32.one = F32.mag F32.one := by decide +kernel
  have nz : F32.neg? z = false := by
    cases hn : F32.neg? z
    · rfl
    · rw [key_neg hn, hk] at h; omega
  rw [key_nonneg nz] at h h1
  have lz : F32.mag z ≤ F32.mag F32.one := by omega
  have fz := finite_of_le_one lz
  have mt : F32.mag 0x3b4d2e1d#32 ≤ F32.mag z := by
    have : F32.mag 0x3b4d2e1d#32 = 0x3b4d2e1d := by decide +kernel
    omega
  have low : F32.key 0x3db94a59#32 ≤ F32.key (FloatOps.pow32 z invGamma) :=
    hp.at_inv.1.trans (hp.mono_inv _ _ (by decide +kernel) fz (by decide +kernel) nz mt)
  have high : F32.key (FloatOps.pow32 z invGamma) ≤ F32.key F32.one := by
    have := hp.mono_inv z F32.one fz (by decide +kernel) nz (by decide +kernel) lz
    rwa [hs.pow_one] at this
  have e1 : toSrgb z = FloatOps.sub32 (FloatOps.mul32 factor (FloatOps.pow32 z invGamma)) offset := by
    rw [toSrgb, if_neg]
    simp only [F32.le, Bool.and_eq_true, decide_eq_true_eq, not_and, key_nonneg nz]
    omega
  rw [e1]
  generalize FloatOps.pow32 z invGamma = p at low high
  have hl : F32.key 0x3db94a59#32 = F32.mag 0x3db94a59#32 := by decide +kernel
  have np : F32.neg? p = false := by
    cases hn : F32.neg? p
    · rfl
    · have : 0 < F32.mag 0x3db94a59#32 := by decide +kernel
      rw [key_neg hn] at low; omega
  rw [key_nonneg np] at low high
  have lp : F32.mag p ≤ F32.mag F32.one := by omega
  have gp : F32.mag 0x3db94a59#32 ≤ F32.mag p := by omega
  obtain ⟨a, b⟩ := Single.mul factor p (by decide +kernel) (finite_of_le_one lp)
  have nq : F32.neg? (FloatOps.mul32 factor p) = false := by rw [b, np]; decide +kernel
  have hq1 : F32.roundMag (F32.smag (F32.mag factor) * F32.smag (F32.mag p)) F32.unit ≤ F32.mag factor :=
    (F32.round_mono unit_pos (Nat.mul_le_mul_left _ (F32.smag_mono lp))).trans (by decide +kernel)
  have hq2 : F32.mag offset ≤ F32.roundMag (F32.smag (F32.mag factor) * F32.smag (F32.mag p)) F32.unit :=
    le_trans (by decide +kernel) (F32.round_mono unit_pos (Nat.mul_le_mul_left (F32.smag (F32.mag factor)) (F32.smag_mono gp)))
  have hfac : F32.mag factor < F32.infMag := by decide +kernel
  rw [F32.mag_round, Nat.min_eq_left (hq1.trans hfac.le)] at a
  refine ⟨nz, fz, np, ?_⟩
  rw [hs.sub _ offset (by rw [F32.isFinite, a, decide_eq_true_eq]; omega) nq (by decide +kernel) (by rw [a]; exact hq2), a]

/-- C97: of two bright linear components (above `0.0031308`, up to 1) the one that is not brighter does not become brighter by the
conversion to sRGB.  With `C97_srgb_order_partial` the order is lost only from one side of the limit to the other
(`C97_order_lost`). -/
theorem C97_srgb_bright_order_partial (hs : Sums) (hp : Powers) {x y : F32} (hd : F32.key darkLinear < F32.key x)
    (h : F32.key x ≤ F32.key y) (h1 : F32.key y ≤ F32.key F32.one) : F32.key (toSrgb x) ≤ F32.key (toSrgb y) := by
  obtain ⟨nx, fx, px, ex⟩ := bright_srgb hs hp hd (h.trans h1)
  obtain ⟨ny, fy, py, ey⟩ := bright_srgb hs hp (hd.trans_le h) h1
  have hm : F32.mag x ≤ F32.mag y := by rw [key_nonneg nx, key_nonneg ny] at h; omega
  have hk : F32.key (FloatOps.pow32 x invGamma) ≤ F32.key (FloatOps.pow32 y invGamma) := hp.mono_inv x y fx fy nx ny hm
  rw [key_nonneg px, key_nonneg py] at hk
  have hk' := F32.smag_mono (Int.ofNat_le.1 hk)
  have hr := F32.round_mono unit_pos (Nat.mul_le_mul_left (F32.smag (F32.mag factor)) hk')
  have hr' := F32.round_mono (q := 1) Nat.one_pos (Nat.sub_le_sub_right (F32.smag_mono hr) (F32.smag (F32.mag offset)))
  rw [ex, ey, key_nonneg (F32.neg_round _ _), key_nonneg (F32.neg_round _ _), F32.mag_round, F32.mag_round]
  exact Int.ofNat_le.2 (min_le_min_right _ hr')

/-- The dark bytes, by their patterns. -/
theorem dark_table : ∀ n : Fin 11,
    let x := F32.round (n.val * F32.unit * F32.unit) (255 * F32.unit)
    let y := F32.round (F32.smag (F32.mag x) * F32.unit) (F32.smag (F32.mag slope))
    F32.isFinite x = true ∧ F32.isFinite y = true ∧ F32.key x ≤ F32.key darkSrgb ∧ F32.key y ≤ F32.key darkLinear ∧
      F32.roundMag (F32.smag (F32.mag y) * F32.smag (F32.mag slope)) F32.unit = F32.mag x ∧ F32.mag x < F32.infMag := by
  decide +kernel

/-- C97: the dark bytes, those up to 10, converted to a linear colour and back are the same, bit for bit.  Missing: the bytes from 11 on,
where the result depends on `powf`. -/
theorem C97_dark_bytes_partial {n : Nat} (h : n ≤ 10) : toSrgb (toLinear (Draw.partOf n)) = Draw.partOf n := by
  obtain ⟨a, b, c, d, e, i⟩ := dark_table ⟨n, by omega⟩
  simp only at a b c d e i
  rw [← part_eq (by omega)] at a b c d e i
  have hneg : F32.neg? (Draw.partOf n) = false := (part_range (by omega)).2
  obtain ⟨m1, n1⟩ := div_slope a
  have hlin : toLinear (Draw.partOf n) =
      F32.round (F32.smag (F32.mag (Draw.partOf n)) * F32.unit) (F32.smag (F32.mag slope)) := by
    rw [toLinear, if_pos (le_finite a (by decide +kernel) c)]
    refine eq_of (m1.trans (F32.mag_round _ _).symm) ?_
    rw [n1, hneg, F32.neg_round]
  rw [hlin, toSrgb, if_pos (le_finite b (by decide +kernel) d)]
  obtain ⟨m2, n2⟩ := mul_slope b
  refine eq_of ?_ ?_
  · rw [m2, e]; exact Nat.min_eq_left i.le
  · rw [n2, F32.neg_round, hneg]

/-- C97: white stays white in the conversion to a linear colour. -/
theorem C97_white_linear (hs : Sums) : toLinear F32.one = F32.one := by
  have e1 : FloatOps.add32 F32.one offset = factor := by
    rw [hs.add _ _ (by decide +kernel) (by decide +kernel) (by decide +kernel) (by decide +kernel)]
    decide +kernel
  have e2 : FloatOps.div32 factor factor = F32.one := by
    obtain ⟨a, b⟩ := Single.div factor factor (by decide +kernel) (by decide +kernel) (by decide +kernel)
    exact eq_of (a.trans (by decide +kernel)) (b.trans (by decide +kernel))
  rw [toLinear, if_neg (by decide +kernel), e1, e2, hs.pow_one]

/-- C97 is false of the code: white does not stay white in the conversion of a linear colour to sRGB.  `1.055 - 0.055` is less than 1 in
single precision, and the byte that is shown is 254. -/
theorem C97_white_lost (hs : Sums) : toSrgb F32.one ≠ F32.one ∧ byte (toSrgb F32.one) = 254 ∧
    byte (toSrgb (toLinear F32.one)) = 254 := by
  have e1 : FloatOps.mul32 factor F32.one = factor := by
    obtain ⟨a, b⟩ := Single.mul factor F32.one (by decide +kernel) (by decide +kernel)
    exact eq_of (a.trans (by decide +kernel)) (b.trans (by decide +kernel))
  have e2 : FloatOps.sub32 factor offset = 0x3f7fffff#32 := by
    rw [hs.sub _ _ (by decide +kernel) (by decide +kernel) (by decide +kernel) (by decide +kernel)]
    decide +kernel
  have e3 : toSrgb F32.one = 0x3f7fffff#32 := by
    rw [toSrgb, if_neg (by decide +kernel), hs.pow_one, e1, e2]
  have e4 : byte (0x3f7fffff#32 : F32) = 254 := by
    rcases byte_cases (0x3f7fffff#32 : F32) with ⟨h, -⟩ | ⟨-, h, -⟩ | ⟨-, h, -⟩ | ⟨-, -, e⟩
    · exact absurd h (by decide +kernel)
    · exact absurd h (by decide +kernel)
    · exact absurd h (by decide +kernel)
    · rw [e]; decide +kernel
  rw [C97_white_linear hs, e3]
  exact ⟨by decide +kernel, e4, e4⟩

end

/-! ## Examples -/

namespace Demo

/-- Single precision with sums, and powers that are right where it matters. -/
noncomputable def sumOps : FloatOps :=
  { ops with
    add32 := fun x y => F32.round (F32.smag (F32.mag x) + F32.smag (F32.mag y)) 1
    sub32 := fun x y => F32.round (F32.smag (F32.mag x) - F32.smag (F32.mag y)) 1
    pow32 := fun x e => if e = 0x3ed55555#32 ∧ F32.mag x ≤ 0x3b4d2e1d then 0x3db94a5b#32 else F32.one }

/-- What the theorems take for granted can be met. -/
example : letI := sumOps; Single ∧ Sums ∧ Powers := by
  letI := sumOps
  have s := single
  refine ⟨@Single.mk sumOps s.mul s.mul_nan s.div s.narrow s.wide s.wide_nan,
    ⟨fun _ _ _ _ _ _ => rfl, fun _ _ _ _ _ _ => rfl, fun _ => if_neg (fun h => absurd h.2 (by decide +kernel))⟩,
    ⟨fun x y _ _ _ _ _ => ?_, fun x y _ _ _ _ h => ?_, ?_, ?_⟩⟩
  · show F32.key (if 0x4019999a#32 = 0x3ed55555#32 ∧ _ then _ else F32.one) ≤ F32.key (if 0x4019999a#32 = 0x3ed55555#32 ∧ _ then _ else F32.one)
    rw [if_neg (fun h => absurd h.1 (by decide +kernel)), if_neg (fun h => absurd h.1 (by decide +kernel))]
  · show F32.key (if 0x3ed55555#32 = 0x3ed55555#32 ∧ F32.mag x ≤ 0x3b4d2e1d then 0x3db94a5b#32 else F32.one) ≤
      F32.key (if 0x3ed55555#32 = 0x3ed55555#32 ∧ F32.mag y ≤ 0x3b4d2e1d then 0x3db94a5b#32 else F32.one)
    split
    · split
      · exact le_rfl
      · decide +kernel
    · rename_i hx
      rw [if_neg fun hy => hx ⟨rfl, h.trans hy.2⟩]
  · show _ ≤ F32.key (if 0x4019999a#32 = 0x3ed55555#32 ∧ _ then _ else F32.one)
    rw [if_neg (fun h => absurd h.1 (by decide +kernel))]
    decide +kernel
  · show _ ≤ F32.key (if 0x3ed55555#32 = 0x3ed55555#32 ∧ _ then _ else F32.one) ∧ F32.key (if 0x3ed55555#32 = 0x3ed55555#32 ∧ _ then _ else F32.one) ≤ _
    rw [if_pos ⟨rfl, by decide +kernel⟩]
    decide +kernel

/-- Two dark components, a negative one and one above zero. -/
example : F32.isFinite 0xbf000000#32 = true ∧ F32.isFinite 0x3c800000#32 = true ∧
    F32.key 0xbf000000#32 ≤ F32.key 0x3c800000#32 ∧ F32.key 0x3c800000#32 ≤ F32.key darkSrgb := by
  decide +kernel

/-- Two bright components up to 1, for both conversions. -/
example : F32.isFinite 0x3f000000#32 = true ∧ F32.key darkSrgb < F32.key 0x3f000000#32 ∧ F32.key darkLinear < F32.key 0x3f000000#32 ∧
    F32.key 0x3f000000#32 ≤ F32.key F32.one := by
  decide +kernel

/-- Two dark linear components. -/
example : F32.isFinite 0x3a000000#32 = true ∧ F32.isFinite 0x3b000000#32 = true ∧
    F32.key 0x3a000000#32 ≤ F32.key 0x3b000000#32 ∧ F32.key 0x3b000000#32 ≤ F32.key darkLinear := by
  decide +kernel

end Demo

end Dyon.Color
