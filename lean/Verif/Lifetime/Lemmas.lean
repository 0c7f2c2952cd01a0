import Verif.Lifetime.Model

/-! # Helper lemmas about lifetimes -/

namespace Dyon.Lt

theorem cmpNat_lt {a b : Nat} : cmpNat a b = .lt ↔ a < b := by
  unfold cmpNat; split <;> try split
  all_goals simp; omega

theorem cmpNat_eq {a b : Nat} : cmpNat a b = .eq ↔ a = b := by
  unfold cmpNat; split <;> try split
  all_goals simp; omega

theorem cmpNat_gt {a b : Nat} : cmpNat a b = .gt ↔ b < a := by
  unfold cmpNat; split <;> try split
  all_goals simp; omega

theorem cmpNat_swap (a b : Nat) : cmpNat b a = (cmpNat a b).swap := by
  unfold cmpNat
  rcases Nat.lt_trichotomy a b with h | h | h
  · simp [h, Nat.not_lt.2 (Nat.le_of_lt h), Nat.ne_of_gt h]
  · simp [h]
  · simp [h, Nat.not_lt.2 (Nat.le_of_lt h), Nat.ne_of_gt h]

theorem cao_go (n : Nat) (a b : List Nat) :
    compareArgumentOutlives.go n a b =
      if ∃ i, i ∈ a ∧ i ∈ b then some (cmpNat n b.length) else none := by
  induction a with
  | nil => simp [compareArgumentOutlives.go]
  | cons i a ih =>
    simp only [compareArgumentOutlives.go, ih]
    by_cases h : i ∈ b
    · have h1 : b.any (fun j => i == j) = true := by
        rw [List.any_eq_true]; exact ⟨i, h, by simp⟩
      rw [if_pos h1, if_pos ⟨i, by simp, h⟩]
    · have h1 : ¬ b.any (fun j => i == j) = true := by
        rw [List.any_eq_true]; rintro ⟨j, hj, e⟩; simp at e; exact h (e ▸ hj)
      rw [if_neg h1]
      have : (∃ j, j ∈ a ∧ j ∈ b) ↔ (∃ j, j ∈ i :: a ∧ j ∈ b) := by
        constructor
        · rintro ⟨j, h1, h2⟩; exact ⟨j, by simp [h1], h2⟩
        · rintro ⟨j, h1, h2⟩
          rcases List.mem_cons.1 h1 with rfl | h1
          · exact (h h2).elim
          · exact ⟨j, h1, h2⟩
      simp only [this]

theorem cao (a b : List Nat) :
    compareArgumentOutlives a b =
      if ∃ i, i ∈ a ∧ i ∈ b then some (cmpNat a.length b.length) else none := by
  cases a with
  | nil => simp [compareArgumentOutlives]
  | cons x a => exact cao_go _ _ _

theorem argIndex_go (name : String) (args : List Arg) (i : Nat) (found : Option Nat) (k : Nat)
    (h : argIndex.go name args i found = some k) :
    found = some k ∨ (i ≤ k ∧ ∃ a, args[k - i]? = some a ∧ a.name = name) := by
  induction args generalizing i found with
  | nil => simp [argIndex.go] at h; exact .inl h
  | cons a args ih =>
    simp only [argIndex.go] at h
    rcases ih _ _ h with h1 | ⟨h1, b, h2, h3⟩
    · by_cases hn : (a.name == name) = true
      · rw [if_pos hn] at h1
        cases h1
        exact .inr ⟨Nat.le_refl _, a, by simp, by simpa using hn⟩
      · rw [if_neg hn] at h1
        exact .inl h1
    · refine .inr ⟨by omega, b, ?_, h3⟩
      have : k - i = (k - (i + 1)) + 1 := by omega
      rw [this]
      simpa using h2

theorem argIndex_some {args : List Arg} {name : String} {k : Nat}
    (h : argIndex args name = some k) : ∃ a, args[k]? = some a ∧ a.name = name := by
  rcases argIndex_go name args 0 none k h with h | ⟨_, a, h1, h2⟩
  · cases h
  · exact ⟨a, by simpa using h1, h2⟩

theorem argIndex_lt {args : List Arg} {name : String} {k : Nat}
    (h : argIndex args name = some k) : k < args.length := by
  obtain ⟨a, h1, _⟩ := argIndex_some h
  exact (List.getElem?_eq_some_iff.1 h1).1

theorem argIndex_go_mem (name : String) (args : List Arg) (i : Nat) (found : Option Nat)
    (h : argIndex.go name args i found = none) :
    found = none ∧ ∀ a ∈ args, a.name ≠ name := by
  induction args generalizing i found with
  | nil => simp [argIndex.go] at h; simp [h]
  | cons a args ih =>
    simp only [argIndex.go] at h
    obtain ⟨h1, h2⟩ := ih _ _ h
    by_cases hn : (a.name == name) = true
    · rw [if_pos hn] at h1; cases h1
    · rw [if_neg hn] at h1
      refine ⟨h1, ?_⟩
      intro b hb
      rcases List.mem_cons.1 hb with rfl | hb
      · simpa using hn
      · exact h2 b hb

theorem argIndex_none {args : List Arg} {name : String} :
    argIndex args name = none ↔ ∀ a ∈ args, a.name ≠ name := by
  constructor
  · exact fun h => (argIndex_go_mem name args 0 none h).2
  · intro h
    cases hc : argIndex args name with
    | none => rfl
    | some k =>
      obtain ⟨a, h1, h2⟩ := argIndex_some hc
      exact (h a (List.mem_of_getElem? h1) h2).elim

end Dyon.Lt
