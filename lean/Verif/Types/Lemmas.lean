import Verif.Types.Model

namespace Dyon.Ty

/-! ### Computing `goesWith` by shape -/

theorem gw_adHoc_adHoc (m n : String) (s t : Ty) :
    (adHoc m s).goesWith (adHoc n t) = (m == n && s.goesWith t) := by
  rw [goesWith.eq_def]; simp [isAdHoc, isUnreachable]

theorem gw_swap {a : Ty} (n : String) (t : Ty) (h : a.isAdHoc = false) :
    a.goesWith (adHoc n t) = (adHoc n t).goesWith a := by
  rw [goesWith.eq_def, if_pos (by rw [h]; rfl)]

theorem gw_secret_secret (s t : Ty) : (secret s).goesWith (secret t) = s.goesWith t := by
  rw [goesWith.eq_def]; simp [isAdHoc]

def isSecret : Ty → Bool
  | secret _ => true
  | _ => false

theorem gw_secret {a : Ty} (t : Ty) (h : a.isSecret = false) :
    a.goesWith (secret t) = a.goesWith t := by
  rw [goesWith.eq_def]
  cases a <;> simp_all [isAdHoc, isSecret]

theorem gw_unreachable_right (a : Ty) : a.goesWith unreachable = true := by
  rw [goesWith.eq_def]
  cases a <;> simp [isAdHoc, isUnreachable]

theorem gw_adHoc_void (n : String) (s : Ty) : (adHoc n s).goesWith void = false := by
  rw [goesWith.eq_def]; simp [isAdHoc, isUnreachable]

/-- Neither ad-hoc nor secret nor void nor unreachable. -/
def plain : Ty → Bool
  | adHoc _ _ | secret _ | void | unreachable => false
  | _ => true

theorem gw_adHoc_plain (n : String) (s b : Ty) (h : b.plain = true) :
    (adHoc n s).goesWith b = s.goesWith b := by
  rw [goesWith.eq_def]
  cases b <;> simp_all [isAdHoc, isUnreachable, plain]

theorem size_pos (t : Ty) : 0 < t.size := by cases t <;> simp [size]

/-- Induction on pairs of types. -/
theorem pair_induction {P : Ty → Ty → Prop}
    (h : ∀ a b, (∀ a' b', a'.size + b'.size < a.size + b.size → P a' b') → P a b) (a b : Ty) :
    P a b := by
  suffices ∀ n a b, a.size + b.size < n → P a b from this _ a b (Nat.lt_succ_self _)
  intro n
  induction n with
  | zero => intro a b hn; omega
  | succ n ih =>
    intro a b hn
    exact h a b fun a' b' hlt => ih a' b' (by omega)

theorem single_induction {P : Ty → Prop}
    (h : ∀ a, (∀ a', a'.size < a.size → P a') → P a) (a : Ty) : P a := by
  suffices ∀ n a, a.size < n → P a from this _ a (Nat.lt_succ_self _)
  intro n
  induction n with
  | zero => intro a hn; omega
  | succ n ih =>
    intro a hn
    exact h a fun a' hlt => ih a' (by omega)

theorem size_mem {t : Ty} {ts : List Ty} (h : t ∈ ts) : t.size < size.sizes ts := by
  induction ts with
  | nil => cases h
  | cons s ts ih =>
    simp only [size.sizes]
    rcases List.mem_cons.1 h with h | h
    · subst h; omega
    · have := ih h; omega

theorem allGoWith_iff (ss ts : List Ty) :
    allGoWith ss ts = true ↔ ∀ p ∈ ss.zip ts, p.1.goesWith p.2 = true := by
  induction ss generalizing ts with
  | nil => simp [allGoWith]
  | cons s ss ih =>
    cases ts with
    | nil => simp [allGoWith]
    | cons t ts => simp [allGoWith, ih]

end Dyon.Ty
