import Verif.Check.EndValue

/-!
# Types that stay from some time on

Lemmas for C70.
-/

namespace Dyon.Check

/-- From some time on the node keeps its type. -/
def Const (m : Nat → Mach) (i : Nat) : Prop := ∃ N, ∀ n, N ≤ n → tyAt m n i = tyAt m N i

section
variable {env : Env} {ns : Nodes} {m : Nat → Mach}

theorem const_never {i N : Nat} (h : ∀ n, N ≤ n → tyAt m (n + 1) i = tyAt m n i) : Const m i := by
  refine ⟨N, fun n hn => ?_⟩
  induction n, hn using Nat.le_induction with
  | base => rfl
  | succ n hn ih => rw [h n hn, ih]

theorem const_settle (hR : Run env ns m) {i N : Nat} {t : Ty} (h : ∀ n, N ≤ n → tyAt m (n + 1) i ≠ tyAt m n i →
    tyAt m n i = none ∨ tyAt m (n + 1) i = some t) : Const m i := by
  by_cases h0 : ∃ n, N ≤ n ∧ tyAt m n i ≠ none
  · obtain ⟨n1, hn1, hs⟩ := h0
    have hs := run_some_le hR hs
    by_cases h1 : ∃ n, n1 ≤ n ∧ tyAt m n i = some t
    · obtain ⟨n2, hn2, ht⟩ := h1
      refine const_never (N := n2) fun n hn => ?_
      have : tyAt m n i = some t := by
        induction n, hn using Nat.le_induction with
        | base => exact ht
        | succ n hn ih =>
          by_cases e : tyAt m (n + 1) i = tyAt m n i
          · rw [e, ih]
          · exact (h n (by omega) e).resolve_left (hs n (by omega))
      by_cases e : tyAt m (n + 1) i = tyAt m n i
      · exact e
      · rw [this]; exact (h n (by omega) e).resolve_left (hs n (by omega))
    · refine const_never (N := n1) fun n hn => ?_
      by_contra e
      exact h1 ⟨n + 1, by omega, (h n (by omega) e).resolve_left (hs n hn)⟩
  · have h0 : ∀ n, N ≤ n → tyAt m n i = none := fun n hn => by
      by_contra e; exact h0 ⟨n, hn, e⟩
    exact const_never fun n hn => by rw [h0 n hn, h0 (n + 1) (by omega)]

/-- One time for all nodes. -/
theorem const_all (hR : Run env ns m) : ∃ N, ∀ i, Const m i → ∀ n, N ≤ n → tyAt m n i = tyAt m N i := by
  have h : ∀ k, ∃ N, ∀ i < k, Const m i → ∀ n, N ≤ n → tyAt m n i = tyAt m N i := by
    intro k
    induction k with
    | zero => exact ⟨0, fun i hi => absurd hi (Nat.not_lt_zero i)⟩
    | succ k ih =>
      obtain ⟨N, hN⟩ := ih
      by_cases hk : Const m k
      · obtain ⟨N', hN'⟩ := hk
        refine ⟨max N N', fun i hi hc n hn => ?_⟩
        by_cases e : i = k
        · subst e; rw [hN' n (by omega), hN' (max N N') (by omega)]
        · rw [hN i (by omega) hc n (by omega), hN i (by omega) hc (max N N') (by omega)]
      · refine ⟨N, fun i hi hc n hn => ?_⟩
        by_cases e : i = k
        · subst e; exact absurd hc hk
        · exact hN i (by omega) hc n hn
  obtain ⟨N, hN⟩ := h ns.length
  refine ⟨N, fun i hc n hn => ?_⟩
  by_cases hi : i < ns.length
  · exact hN i hi hc n hn
  · have : ∀ n, tyAt m n i = none := fun n => by
      simp only [tyAt, Nodes.at]
      rw [List.getD_eq_getElem?_getD, List.getElem?_eq_none (by rw [(run_shape hR n).1]; omega)]
      rfl
    rw [this, this]

/-- The type of a node that is no left side, function or closure changes by its own visit only. -/
theorem run_own (hR : Run env ns m) {n i : Nat} (hl : (ns.at i).kind ≠ .left) :
    tyAt m (n + 1) i = tyAt m n i ∨ (∃ v t, Visits env m n i v ∧ v.out = .ty (some t) ∧ tyAt m (n + 1) i = some t) ∨
      (((ns.at i).kind = .fn ∨ (ns.at i).kind = .closure) ∧ tyAt m n i = none) := by
  have hsh := run_shape hR n
  rcases run_ty hR n i with h | ⟨j, v, t, h1, h2, ⟨rfl, h3⟩ | ⟨-, h3⟩⟩
  · exact Or.inl h
  · exact Or.inr (Or.inl ⟨v, t, h1, h2, h3⟩)
  · cases h3 with
    | assign _ b => have := child_kind b; rw [hsh.kind] at this; exact absurd this hl
    | item _ _ c => rw [hsh.kind] at c; exact absurd c hl
    | owner a b => rw [hsh.kind] at a; exact Or.inr (Or.inr ⟨a, b⟩)

/-- A node that gets no type by its own visits. -/
theorem const_unvisited (hR : Run env ns m) {i N : Nat} (hl : (ns.at i).kind ≠ .left)
    (h : ∀ n v t, N ≤ n → Visits env m n i v → v.out ≠ .ty (some t)) : Const m i := by
  refine const_settle hR (N := N) (t := .any) fun n hn hne => ?_
  rcases run_own hR (n := n) hl with h1 | ⟨v, t, h1, h2, -⟩ | h1
  · exact absurd h1 hne
  · exact absurd h2 (h n v t hn h1)
  · exact Or.inl h1.2

theorem const_unruled (hR : Run env ns m) {i : Nat} (hk : (ns.at i).kind.ruled = false) : Const m i := by
  refine const_unvisited hR (N := 0) (by intro h; rw [h] at hk; cases hk) fun n v t _ hv => ?_
  exact visit_unruled (by rw [(run_shape hR n).kind]; exact hk) hv.visit

/-- Functions and arguments get a type once. -/
theorem const_once (hR : Run env ns m) {i : Nat} (hk : (ns.at i).kind = .fn ∨ (ns.at i).kind = .arg) : Const m i := by
  refine const_settle hR (N := 0) (t := .any) fun n _ hne => ?_
  rcases run_own hR (n := n) (i := i) (by intro h; rw [h] at hk; simp at hk) with h1 | ⟨v, t, h1, h2, -⟩ | h1
  · exact absurd h1 hne
  · left
    by_contra hs
    have hv := h1.visit
    have hk' : ((m n).1.nodes.at i).kind = .fn ∨ ((m n).1.nodes.at i).kind = .arg := by
      rw [(run_shape hR n).kind]; exact hk
    have hs' : ((m n).1.nodes.at i).ty.isSome = true := Option.isSome_iff_ne_none.2 hs
    simp only [Nodes.visit, hs'] at hv
    rcases hk' with hk' | hk' <;> (simp only [hk'] at hv; cases hv; cases h2)
  · exact Or.inl h1.2

theorem assign_void {ns : Nodes} {errs : List (Nat × TypeErr)} {i : Nat} {v : Visit} {t : Ty}
    (hk : (ns.at i).kind = .assign) (h : ns.visit env errs i = .ok v) (ho : v.out = .ty (some t)) : t = .void := by
  simp only [Nodes.visit, hk] at h
  cases h
  simp only [Nodes.visitAssign] at ho
  repeat' split at ho
  all_goals first | (cases ho; rfl) | (cases ho; done)

/-- Assignments have the type `void`. -/
theorem const_assign (hR : Run env ns m) {i : Nat} (hk : (ns.at i).kind = .assign) : Const m i := by
  refine const_settle hR (N := 0) (t := .void) fun n _ hne => ?_
  rcases run_own hR (n := n) (i := i) (by rw [hk]; simp) with h1 | ⟨v, t, h1, h2, h3⟩ | h1
  · exact absurd h1 hne
  · right
    rw [h3, assign_void (by rw [(run_shape hR n).kind]; exact hk) h1.visit h2]
  · exact Or.inl h1.2

/-- Items with properties, and items without declaration that are on no left side. -/
theorem const_bare (hR : Run env ns m) {i : Nat} (hk : (ns.at i).kind = .item)
    (h : (ns.at i).children ≠ [] ∨ ((ns.at i).declaration = none ∧
      ∀ p, (ns.at i).parent = some p → (ns.at p).kind ≠ .left)) : Const m i := by
  refine const_unvisited hR (N := 0) (by rw [hk]; simp) fun n v t _ hv ho => ?_
  have hsh := run_shape hR n
  have hv := hv.visit
  simp only [Nodes.visit, hsh.kind, hk, Nodes.visitItem] at hv
  by_cases hi : ((m n).1.nodes.at i).itemIds = true
  · rw [if_pos hi] at hv; cases hv; cases ho
  · rw [if_neg hi] at hv
    rcases h with h | ⟨h, hp⟩
    · rw [hsh.itemIds] at hi; simp [Node.itemIds, hk, h] at hi
    · rw [hsh.declaration, h, hsh.parent] at hv
      cases hpp : (ns.at i).parent with
      | none => simp only [hpp] at hv; cases hv; cases ho
      | some p =>
        simp only [hpp, if_neg (hp p hpp)] at hv
        cases hv; cases ho

/-- A node whose visits read types that stay. -/
theorem const_read (hR : Run env ns m) {i : Nat} (hl : (ns.at i).kind ≠ .left)
    (hd : (ns.at i).kind = .item → (ns.at i).declaration ≠ none) (hr : ∀ j, Reads ns i j → Const m j) : Const m i := by
  obtain ⟨N, hN⟩ := const_all hR
  by_cases h0 : ∃ n v t, N ≤ n ∧ Visits env m n i v ∧ v.out = .ty (some t) ∧ tyAt m n i ≠ none
  · obtain ⟨n0, v0, t0, hn0, hv0, ho0, hs0⟩ := h0
    refine const_settle hR (N := N) (t := t0) fun n hn hne => ?_
    rcases run_own hR (n := n) hl with h1 | ⟨v, t, h1, h2, h3⟩ | h1
    · exact absurd h1 hne
    · by_cases hs : tyAt m n i = none
      · exact Or.inl hs
      · right
        rw [h3]
        have sa := run_shape hR n0
        have sb := run_shape hR n
        have : t0 = t := by
          refine visit_value (a := (m n0).1.nodes) (b := (m n).1.nodes) ⟨by rw [sb.1, sa.1], fun k => (sb.2 k).trans (sa.2 k).symm⟩
            ?_ ?_ hv0.visit h1.visit ho0 h2 hs0 hs
          · rw [sa.kind, sa.declaration]; exact hd
          · intro j hj
            have hj : Reads ns i j := by
              simpa only [Reads, sa.kind, sa.children, sa.declaration, sa.child] using hj
            have := hN j (hr j hj)
            exact (this n hn).trans (this n0 hn0).symm
        rw [this]
    · exact Or.inl h1.2
  · refine const_settle hR (N := N) (t := .any) fun n hn hne => ?_
    rcases run_own hR (n := n) hl with h1 | ⟨v, t, h1, h2, h3⟩ | h1
    · exact absurd h1 hne
    · left
      by_contra hs
      exact h0 ⟨n, v, t, hn, h1, h2, hs⟩
    · exact Or.inl h1.2

/-- The type of a loop `sift` stays, or is an array. -/
theorem sift_array (hR : Run env ns m) {i : Nat} (hk : (ns.at i).kind = .sift) :
    Const m i ∨ ∃ N, ∀ n, N ≤ n → ∃ t, tyAt m n i = some (.array t) := by
  have key : ∀ n v t, Visits env m n i v → v.out = .ty (some t) → ∃ t', t = .array t' := by
    intro n v t hv ho
    have hv := hv.visit
    simp only [Nodes.visit, (run_shape hR n).kind, hk] at hv
    split at hv
    · cases hv; cases ho
    · rename_i c _
      cases hv
      cases ht : ((m n).1.nodes.at c).ty with
      | none => rw [ht] at ho; cases ho
      | some x => rw [ht] at ho; cases ho; exact ⟨x, rfl⟩
  by_cases h : ∃ n v t, Visits env m n i v ∧ v.out = .ty (some t)
  · obtain ⟨n0, v, t, hv, ho⟩ := h
    refine Or.inr ⟨n0 + 1, fun n hn => ?_⟩
    induction n, hn using Nat.le_induction with
    | base =>
      obtain ⟨t', rfl⟩ := key _ _ _ hv ho
      exact ⟨t', run_success hR hv ho⟩
    | succ n hn ih =>
      rcases run_own hR (n := n) (i := i) (by rw [hk]; simp) with h1 | ⟨v, t, h1, h2, h3⟩ | h1
      · rw [h1]; exact ih
      · obtain ⟨t', rfl⟩ := key _ _ _ h1 h2
        exact ⟨t', h3⟩
      · rw [hk] at h1; simp at h1
  · exact Or.inl (const_unvisited hR (N := 0) (by rw [hk]; simp) fun n v t _ hv ho => h ⟨n, v, t, hv, ho⟩)

/-- A call of a variable of a loop `sift` is an error. -/
theorem const_callSift (hR : Run env ns m) {i c j : Nat} (hk : (ns.at i).kind = .callClosure)
    (hc : ns.child i .item = some c) (hd : (ns.at c).declaration = some j)
    (hj : ∃ N, ∀ n, N ≤ n → ∃ t, tyAt m n j = some (.array t)) : Const m i := by
  obtain ⟨N, hN⟩ := hj
  refine const_unvisited hR (N := N) (by rw [hk]; simp) fun n v t hn hv ho => ?_
  have hsh := run_shape hR n
  obtain ⟨t', ht'⟩ := hN n hn
  have hv := hv.visit
  have ht' : ((m n).1.nodes.at j).ty = some (.array t') := ht'
  simp only [Nodes.visit, hsh.kind, hk, Nodes.visitCallClosure, hsh.child, hc, hsh.declaration, hd, ht'] at hv
  split at hv
  · cases hv; cases ho
  · simp only [Ty.closureRetTy] at hv
    cases hv

/-! ## Declarations of variables -/

/-- The item `it` is on the left side `l`, without `?`, of the assignment with the right side `r`, if there
is a right side (`x := return` has none). -/
structure Declaring (ns : Nodes) (a l it : Nat) (r : Option Nat) : Prop where
  left : ns.child a .left = some l
  right : ns.child a .right = r
  parent : (ns.at l).parent = some a
  owner : ∀ a', ns.child a' .left = some l → a' = a
  kids : (ns.at l).children = [it]
  only : ∀ k, (ns.at k).parent = some l → k = it
  plain : (ns.at l).tryFlag = false
  item : (ns.at it).kind = .item
  itParent : (ns.at it).parent = some l
  noIds : (ns.at it).children = []
  declares : (ns.at it).declaration = none

theorem declaring_item (hR : Run env ns m) {a l it : Nat} {r : Option Nat} (hD : Declaring ns a l it r) (n : Nat) :
    tyAt m (n + 1) it = tyAt m n it ∨ (tyAt m (n + 1) it = tyAt m n l ∧ tyAt m (n + 1) l = tyAt m n l) := by
  have hlk := child_kind hD.left
  have hne : l ≠ it := by rintro rfl; have := hD.item; rw [hlk] at this; cases this
  rcases run_own hR (n := n) (i := it) (by rw [hD.item]; simp) with h1 | ⟨v, t, h1, h2, h3⟩ | h1
  · exact Or.inl h1
  · right
    have hsh := run_shape hR n
    have hv := h1.visit
    simp only [Nodes.visit, hsh.kind, hD.item, Nodes.visitItem, hsh.itemIds, hsh.declaration, hD.declares,
      hsh.parent, hD.itParent, hlk, if_true] at hv
    have hni : (ns.at it).itemIds ≠ true := by simp [Node.itemIds, hD.noIds]
    rw [if_neg hni] at hv
    have hv := Except.ok.inj hv
    subst hv
    simp only [Out.ty.injEq] at h2
    refine ⟨by rw [h3]; exact h2.symm, ?_⟩
    simp only [tyAt, h1.after, Spread.after, h2]
    rw [at_setTy, if_neg (fun h => hne h.1)]
    exact h2
  · rw [hD.item] at h1; simp at h1

theorem declaring_left (hR : Run env ns m) {a l it : Nat} {r : Option Nat} (hD : Declaring ns a l it r) (n : Nat) :
    tyAt m (n + 1) l = tyAt m n l ∨ (tyAt m (n + 1) l = tyAt m n it ∧ tyAt m (n + 1) it = tyAt m n it) ∨
      ∃ r', r = some r' ∧ tyAt m (n + 1) l = tyAt m n r' ∧ tyAt m n r' ≠ none := by
  have hlk := child_kind hD.left
  have hne : it ≠ l := by rintro rfl; have := hD.item; rw [hlk] at this; cases this
  have hsh := run_shape hR n
  rcases run_ty hR n l with h | ⟨j, v, t, h1, h2, ⟨rfl, h3⟩ | ⟨-, h3⟩⟩
  · exact Or.inl h
  · right; left
    have hv := h1.visit
    have hni : (ns.at it).itemIds ≠ true := by simp [Node.itemIds, hD.noIds]
    have hinner : (ns.at l).innerType = id := by funext t; simp [Node.innerType, hD.plain]
    simp only [Nodes.visit, hsh.kind, hlk, Nodes.visitWrap, hsh.children, hD.kids, hsh.itemIds, if_neg hni, hD.item,
      hsh.innerType, hinner, id] at hv
    cases ht : ((m n).1.nodes.at it).ty with
    | none => rw [ht] at hv; cases hv; cases h2
    | some x =>
      rw [ht] at hv
      simp at hv
      subst hv
      simp only [Out.ty.injEq, Option.some.injEq] at h2
      subst h2
      refine ⟨by rw [h3]; exact ht.symm, ?_⟩
      simp only [tyAt, h1.after, Spread.after]
      rw [at_setTy, if_neg (fun h => hne h.1)]
  · cases h3 with
    | assign x b c d e =>
      rename_i r'
      rw [hsh.child] at b c
      have := hD.owner _ b
      subst this
      rw [hD.right] at c
      exact Or.inr (Or.inr ⟨r', c, e, d⟩)
    | item x b c d e =>
      rw [hsh.parent] at b
      have := hD.only _ b
      subst this
      rw [hsh.declaration] at d
      exact absurd hD.declares d
    | owner x b c =>
      rw [hsh.kind, hlk] at x; simp at x

/-- The type of the declared variable stays if the type of the right side does. -/
theorem const_declaring (hR : Run env ns m) {a l it : Nat} {r : Option Nat} (hD : Declaring ns a l it r)
    (hr : ∀ r', r = some r' → Const m r') : Const m it := by
  obtain ⟨N, hN⟩ : ∃ N, ∀ r', r = some r' → ∀ n, N ≤ n → tyAt m n r' = tyAt m N r' := by
    cases r with
    | none => exact ⟨0, fun _ h => by cases h⟩
    | some r =>
      obtain ⟨N, hN⟩ := hr r rfl
      exact ⟨N, fun r' h => by cases h; exact hN⟩
  by_cases h1 : ∃ n r', r = some r' ∧ N ≤ n ∧ tyAt m n l = tyAt m N r' ∧ tyAt m n l ≠ none
  · obtain ⟨n1, r1, hr1, hn1, he, hs⟩ := h1
    obtain ⟨t, ht⟩ := Option.ne_none_iff_exists'.1 hs
    rw [ht] at he
    have inv : ∀ n, n1 ≤ n → tyAt m n l = some t ∨ tyAt m n l = tyAt m n it := by
      intro n hn
      induction n, hn using Nat.le_induction with
      | base => exact Or.inl ht
      | succ n hn ih =>
        rcases declaring_left hR hD n with h | ⟨h, h'⟩ | ⟨r', hr', h, -⟩
        · rw [h]
          rcases ih with ih | ih
          · exact Or.inl ih
          · rcases declaring_item hR hD n with h2 | ⟨h2, -⟩
            · rw [h2]; exact Or.inr ih
            · exact Or.inr h2.symm
        · exact Or.inr (by rw [h, h'])
        · rw [hr1] at hr'
          cases hr'
          left; rw [h, hN _ hr1 n (by omega), ← he]
    refine const_settle hR (N := n1) (t := t) fun n hn hne => ?_
    rcases declaring_item hR hD n with h2 | ⟨h2, -⟩
    · exact absurd h2 hne
    · rcases inv n hn with h3 | h3
      · exact Or.inr (by rw [h2, h3])
      · exact absurd (h2.trans h3) hne
  · have inv : ∀ n, N ≤ n → tyAt m (n + 1) l = tyAt m n l ∨
        (tyAt m (n + 1) l = tyAt m n it ∧ tyAt m (n + 1) it = tyAt m n it) := by
      intro n hn
      rcases declaring_left hR hD n with h | h | ⟨r', hr', h, h'⟩
      · exact Or.inl h
      · exact Or.inr h
      · exact absurd ⟨n + 1, r', hr', by omega, by rw [h, hN _ hr' n hn], by rw [h]; exact h'⟩ h1
    by_cases h2 : ∃ n, N ≤ n ∧ tyAt m n l = tyAt m n it
    · obtain ⟨n2, hn2, he⟩ := h2
      have inv2 : ∀ n, n2 ≤ n → tyAt m n l = tyAt m n it := by
        intro n hn
        induction n, hn using Nat.le_induction with
        | base => exact he
        | succ n hn ih =>
          rcases inv n (by omega) with h | ⟨h, h'⟩
          · rcases declaring_item hR hD n with h3 | ⟨h3, -⟩
            · rw [h, h3, ih]
            · rw [h, h3]
          · rw [h, h']
      refine const_never (N := n2) fun n hn => ?_
      rcases declaring_item hR hD n with h3 | ⟨h3, -⟩
      · exact h3
      · rw [h3, inv2 n hn]
    · refine const_never (N := N) fun n hn => ?_
      rcases declaring_item hR hD n with h3 | ⟨h3, h4⟩
      · exact h3
      · exact absurd ⟨n + 1, by omega, by rw [h4, h3]⟩ h2

end
end Dyon.Check
