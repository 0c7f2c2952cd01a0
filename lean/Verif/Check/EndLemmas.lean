import Verif.Check.EndTree

/-!
# The propagation of types ends

Lemmas for C70: once the types stay, every node gets a type for a last time, and a round without
change follows.
-/

namespace Dyon.Check

open Spec

theorem visit_push {env : Env} {ns : Nodes} {errs : List (Nat × TypeErr)} {i j : Nat} {v : Visit}
    (h : ns.visit env errs i = .ok v) (hj : j ∈ v.push) :
    (j = i ∧ (ns.at i).kind = .call ∧ (v.out = .ty none ∨ (ns.at i).ty = none)) ∨
      ((ns.at i).kind = .assign ∧ (∃ t, v.out = .ty (some t)) ∧
        ∃ l it, ns.child i .left = some l ∧ it ∈ (ns.at l).children ∧ (j = it ∨ (ns.at j).declaration = some it)) := by
  have hassign : (ns.at i).kind = .assign → v = ns.visitAssign errs i →
      ((∃ t, v.out = .ty (some t)) ∧
        ∃ l it, ns.child i .left = some l ∧ it ∈ (ns.at l).children ∧ (j = it ∨ (ns.at j).declaration = some it)) := by
    rintro hk rfl
    cases hl : ns.child i .left with
    | none => simp only [Nodes.visitAssign, hl] at hj; cases hj
    | some l =>
      cases hr : ns.child i .right with
      | none => simp only [Nodes.visitAssign, hl, hr] at hj; cases hj
      | some r =>
        simp only [Nodes.visitAssign, hl, hr] at hj ⊢
        by_cases hi : (ns.at r).itemIds = true
        · rw [if_pos hi] at hj; cases hj
        · rw [if_neg hi] at hj ⊢
          cases hlt : (ns.at l).ty with
          | none =>
            cases hrt : (ns.at r).ty with
            | none => simp only [hlt, hrt] at hj; cases hj
            | some t => simp only [hlt, hrt] at hj; cases hj
          | some lt =>
            cases hrt : (ns.at r).ty with
            | none => simp only [hlt, hrt] at hj; cases hj
            | some t =>
              simp only [hlt, hrt] at hj ⊢
              by_cases hg : t.goesWith lt = true
              · rw [if_pos hg] at hj ⊢
                refine ⟨⟨_, rfl⟩, l, ?_⟩
                cases hc : (ns.at l).children with
                | nil => simp only [hc] at hj; cases hj
                | cons it cs =>
                  simp only [hc] at hj
                  refine ⟨it, rfl, List.mem_cons_self, ?_⟩
                  rcases List.mem_cons.1 hj with h | h
                  · exact Or.inl h
                  · have := (List.mem_filter.1 h).2
                    simp at this
                    exact Or.inr this.2
              · rw [if_neg hg] at hj; cases hj
  have hcall : (ns.at i).kind = .call → ns.visitCall env errs i = .ok v →
      j = i ∧ (v.out = .ty none ∨ (ns.at i).ty = none) := by
    intro hk h
    simp only [Nodes.visitCall, Nodes.visitHost] at h
    repeat' split at h
    all_goals first
      | (cases h; done)
      | (cases h; cases hj; done)
      | skip
    all_goals
      cases h
      refine ⟨List.mem_singleton.1 hj, ?_⟩
      first
        | exact Or.inr (by assumption)
        | exact Or.inl rfl
  simp only [Nodes.visit] at h
  split at h
  all_goals first
    | (rename_i hk; obtain ⟨h1, h2⟩ := hcall hk h; exact Or.inl ⟨h1, hk, h2⟩)
    | (rename_i hk; exact Or.inr ⟨hk, hassign hk (by injection h with h; exact h.symm)⟩)
    | skip
  all_goals
    exfalso
    try simp only [Nodes.visitCallClosure, Nodes.visitNumber, Nodes.visitCompare, Nodes.visitBlock,
      Nodes.visitClosure, Nodes.visitWrap, Nodes.visitItem, Nodes.visitCallArg] at h
    repeat' split at h
  all_goals first
    | (cases h; done)
    | (cases h; cases hj; done)
    | (cases h; revert hj; simp only [Nodes.visitCompare, Nodes.visitBlock, Nodes.visitClosure]; repeat' split
       all_goals (intro hj; cases hj))

theorem visit_changed {env : Env} {ns : Nodes} {errs : List (Nat × TypeErr)} {i : Nat} {v : Visit}
    (h : ns.visit env errs i = .ok v) (hc : v.changed = true) : ∃ t, v.out = .ty (some t) := by
  have hassign : v = ns.visitAssign errs i → ∃ t, v.out = .ty (some t) := by
    rintro rfl
    simp only [Nodes.visitAssign] at hc ⊢
    repeat' split at hc
    all_goals first
      | (cases hc; done)
      | skip
    all_goals simp_all
  simp only [Nodes.visit] at h
  split at h
  all_goals first
    | exact hassign (by injection h with h; exact h.symm)
    | skip
  all_goals
    exfalso
    try simp only [Nodes.visitCallClosure, Nodes.visitNumber, Nodes.visitCompare, Nodes.visitBlock,
      Nodes.visitClosure, Nodes.visitWrap, Nodes.visitItem, Nodes.visitCallArg, Nodes.visitCall, Nodes.visitHost] at h
    repeat' split at h
  all_goals first
    | (cases h; done)
    | (cases h; cases hc; done)
    | (cases h; revert hc; simp only [Nodes.visitCompare, Nodes.visitBlock, Nodes.visitClosure]; repeat' split
       all_goals (intro hc; cases hc))

section
variable {env : Env} {ns : Nodes} {m : Nat → Mach}

/-- Rounds start again and again. -/
theorem begins_after (hR : Run env ns m) (N : Nat) : ∃ n, N ≤ n ∧ Begins m n := by
  have h : ∀ k N, (m N).2.length ≤ k → ∃ n, N ≤ n ∧ Begins m n := by
    intro k
    induction k with
    | zero =>
      intro N hN
      rcases run_cases hR N with ⟨j, v, h⟩ | h
      · rw [h.list] at hN; simp at hN
      · exact ⟨N, Nat.le_refl _, h⟩
    | succ k ih =>
      intro N hN
      rcases run_cases hR N with ⟨j, v, h⟩ | h
      · rw [h.list] at hN
        obtain ⟨n, h1, h2⟩ := ih (N + 1) (by simp at hN; omega)
        exact ⟨n, by omega, h2⟩
      · exact ⟨N, Nat.le_refl _, h⟩
  exact h _ N (Nat.le_refl _)

/-- What is on the list for the next round after a visit. -/
theorem after_next {n i : Nat} {v : Visit} (h : Visits env m n i v) {j : Nat} (hj : j ∈ (m (n + 1)).1.next) :
    j ∈ (m n).1.next ∨ j ∈ v.push ∨ (j = i ∧ ∀ t, v.out ≠ .ty (some t)) ∨
      ∃ t old, v.out = .ty (some t) ∧ (v.nodes.at i).ty = some old ∧ old ≠ t ∧ (v.nodes.at i).parent = some j := by
  rw [h.after] at hj
  cases ho : v.out with
  | stop =>
    simp only [Spread.after, ho, List.mem_append] at hj
    tauto
  | later =>
    simp only [Spread.after, ho, List.mem_append, List.mem_singleton] at hj
    rcases hj with (hj | hj) | hj
    · exact Or.inl hj
    · exact Or.inr (Or.inl hj)
    · exact Or.inr (Or.inr (Or.inl ⟨hj, by simp⟩))
  | ty t =>
    cases t with
    | none =>
      simp only [Spread.after, ho, List.mem_append, List.mem_singleton] at hj
      rcases hj with (hj | hj) | hj
      · exact Or.inl hj
      · exact Or.inr (Or.inl hj)
      · exact Or.inr (Or.inr (Or.inl ⟨hj, by simp⟩))
    | some t =>
      simp only [Spread.after, ho, List.mem_append] at hj
      rcases hj with (hj | hj) | hj
      · exact Or.inl hj
      · exact Or.inr (Or.inl hj)
      · refine Or.inr (Or.inr (Or.inr ?_))
        split at hj
        · rename_i old p h1 h2
          split at hj
          · rename_i h3
            rw [List.mem_singleton.1 hj]
            exact ⟨t, old, rfl, h1, h3.1, h2⟩
          · cases hj
        · cases hj

/-- The node gets a type for a last time. -/
def Ends' (env : Env) (m : Nat → Mach) (i : Nat) : Prop :=
  ∃ N, ∀ n v t, N ≤ n → Visits env m n i v → v.out ≠ .ty (some t)

theorem ends_common {P : Nat → Prop} : ∀ (k : Nat), (∀ i < k, P i → Ends' env m i) →
    ∃ N, ∀ i < k, P i → ∀ n v t, N ≤ n → Visits env m n i v → v.out ≠ .ty (some t) := by
  intro k
  induction k with
  | zero => intro _; exact ⟨0, fun i hi => absurd hi (Nat.not_lt_zero i)⟩
  | succ k ih =>
    intro h
    obtain ⟨N, hN⟩ := ih fun i hi hp => h i (by omega) hp
    by_cases hk : P k
    · obtain ⟨N', hN'⟩ := h k (by omega) hk
      refine ⟨max N N', fun i hi hp n v t hn => ?_⟩
      by_cases e : i = k
      · subst e; exact hN' n v t (by omega)
      · exact hN i (by omega) hp n v t (by omega)
    · refine ⟨N, fun i hi hp n v t hn => ?_⟩
      by_cases e : i = k
      · subst e; exact absurd hp hk
      · exact hN i (by omega) hp n v t hn

theorem ends_unpushed (hR : Run env ns m) (hF : Formed ns) {j N : Nat}
    (hother : ∀ n i v, N ≤ n → Visits env m n i v → i ≠ j → j ∈ (m (n + 1)).1.next → j ∈ (m n).1.next)
    (hself : ∀ n v t, N ≤ n → Visits env m n j v → v.out = .ty (some t) → j ∉ v.push) : Ends' env m j := by
  obtain ⟨n0, hn0, hb⟩ := begins_after hR N
  have inv : ∀ n, n0 + 1 ≤ n → j ∈ (m n).2 → j ∉ (m n).1.next := by
    intro n hn
    induction n, hn using Nat.le_induction with
    | base => intro _; rw [hb.next]; simp
    | succ n hn ih =>
      rcases run_cases hR n with ⟨i, v, h⟩ | h
      · have hnd := (run_list hR n).1
        rw [h.list] at hnd ih
        intro hj
        by_cases e : i = j
        · subst e; exact absurd hj (List.nodup_cons.1 hnd).1
        · exact fun h' => ih (List.mem_cons_of_mem _ hj) (hother n i v (by omega) h e h')
      · intro _; rw [h.next]; simp
  by_cases hs : ∃ n v t, n0 + 1 ≤ n ∧ Visits env m n j v ∧ v.out = .ty (some t)
  · obtain ⟨n1, v1, t1, hn1, hv1, ho1⟩ := hs
    have absent : ∀ n, n1 + 1 ≤ n → j ∉ (m n).2 ∧ j ∉ (m n).1.next := by
      intro n hn
      induction n, hn using Nat.le_induction with
      | base =>
        have hnd := (run_list hR n1).1
        rw [hv1.list] at hnd
        refine ⟨(List.nodup_cons.1 hnd).1, fun hj => ?_⟩
        rcases after_next hv1 hj with h | h | ⟨-, h⟩ | ⟨t, old, -, -, -, h⟩
        · exact inv n1 hn1 (by rw [hv1.list]; exact List.mem_cons_self) h
        · exact hself n1 v1 t1 (by omega) hv1 ho1 h
        · exact h t1 ho1
        · have hp : (ns.at j).parent = some j := by
            rw [← (run_shape hR n1).parent, ← (visit_visited hv1.visit).aside.1.parent]; exact h
          have := (hF.forest j j hp).1
          omega
      | succ n hn ih =>
        rcases run_cases hR n with ⟨i, v, h⟩ | h
        · rw [h.list] at ih
          have e : i ≠ j := fun e => ih.1 (by rw [e]; exact List.mem_cons_self)
          exact ⟨fun h' => ih.1 (List.mem_cons_of_mem _ h'), fun h' => ih.2 (hother n i v (by omega) h e h')⟩
        · refine ⟨?_, by rw [h.next]; simp⟩
          rw [h.todo, Spread.todo]
          intro h'
          exact ih.2 (by simpa using (List.mem_filter.1 h').2)
    refine ⟨n1 + 1, fun n v t hn hv => ?_⟩
    exact absurd (by rw [hv.list]; exact List.mem_cons_self) (absent n hn).1
  · exact ⟨n0 + 1, fun n v t hn hv ho => hs ⟨n, v, t, hn, hv, ho⟩⟩

/-- Once the types stay, only left sides put their parent on the list. -/
theorem no_up (hR : Run env ns m) (hF : Formed ns) {N : Nat}
    (hN : ∀ i, (ns.at i).kind ≠ .left → ∀ n, N ≤ n → tyAt m n i = tyAt m N i) {n i : Nat} {v : Visit} {t old : Ty}
    (hn : N ≤ n) (hl : (ns.at i).kind ≠ .left) (hv : Visits env m n i v) (ho : v.out = .ty (some t))
    (hold : (v.nodes.at i).ty = some old) : old = t := by
  have h1 := run_success hR hv ho
  have h2 : tyAt m n i = some t := by rw [hN i hl n hn, ← hN i hl (n + 1) (by omega), h1]
  have hsh := run_shape hR n
  rcases visit_writes hv.visit i with h | ⟨t', -, h⟩
  · rw [hold] at h
    have h2 : ((m n).1.nodes.at i).ty = some t := h2
    rw [h2] at h
    exact Option.some.inj h
  · exfalso
    cases h with
    | assign a b c d e =>
      have := child_kind b
      rw [hsh.kind] at this
      exact hl this
    | item a b c d e => rw [hsh.kind] at c; exact hl c
    | owner a b c =>
      have h2 : ((m n).1.nodes.at i).ty = some t := h2
      rw [h2] at b; cases b

theorem no_run (hR : Run env ns m) (hF : Formed ns) : False := by
  have ht := hF.tree
  obtain ⟨N, hN⟩ := const_all hR
  have hN : ∀ i, (ns.at i).kind ≠ .left → ∀ n, N ≤ n → tyAt m n i = tyAt m N i :=
    fun i hi => hN i (const_nodes hR hF hi)
  have self : ∀ j n v t, N ≤ n → Visits env m n j v → v.out = .ty (some t) → j ∉ v.push := by
    intro j n v t hn hv ho hj
    have hsh := run_shape hR n
    rcases visit_push hv.visit hj with ⟨-, hk, h | h⟩ | ⟨hk, -, l, it, h1, h2, h3⟩
    · rw [ho] at h; cases h
    · rw [hsh.kind] at hk
      have hl : (ns.at j).kind ≠ .left := by rw [hk]; simp
      have h1 := run_success hR hv ho
      have h2 : tyAt m n j = some t := by rw [hN j hl n hn, ← hN j hl (n + 1) (by omega), h1]
      have h2 : ((m n).1.nodes.at j).ty = some t := h2
      rw [h2] at h; cases h
    · rw [hsh.kind] at hk
      rw [hsh.child] at h1
      rw [hsh.children] at h2
      have h4 := (ht j l (child_mem h1)).2.1
      have h5 := (ht l it h2).2.1
      rcases h3 with rfl | h3
      · omega
      · rw [hsh.declaration] at h3
        rcases hF.decl _ _ h3 with h | ⟨h, -⟩ <;> (rw [hk] at h; cases h)
  -- who puts a node on the list
  have pushed : ∀ n i v j, N ≤ n → Visits env m n i v → i ≠ j → j ∈ (m (n + 1)).1.next → j ∈ (m n).1.next ∨
      ((∃ t, v.out = .ty (some t)) ∧ (((ns.at i).kind = .assign ∧ ∃ l it, ns.child i .left = some l ∧
        it ∈ (ns.at l).children ∧ (j = it ∨ (ns.at j).declaration = some it)) ∨
        ((ns.at i).kind = .left ∧ (ns.at i).parent = some j))) := by
    intro n i v j hn hv hij hj
    have hsh := run_shape hR n
    rcases after_next hv hj with h | h | ⟨rfl, -⟩ | ⟨t, old, h1, h2, h3, h4⟩
    · exact Or.inl h
    · rcases visit_push hv.visit h with ⟨h, -⟩ | ⟨h1, h2, l, it, h3, h4, h5⟩
      · exact absurd h.symm hij
      · rw [hsh.kind] at h1
        rw [hsh.child] at h3
        rw [hsh.children] at h4
        rw [hsh.declaration] at h5
        exact Or.inr ⟨h2, Or.inl ⟨h1, l, it, h3, h4, h5⟩⟩
    · exact absurd rfl hij
    · have hp : (ns.at i).parent = some j := by
        rw [← hsh.parent, ← (visit_visited hv.visit).aside.1.parent]; exact h4
      by_cases hl : (ns.at i).kind = .left
      · exact Or.inr ⟨⟨t, h1⟩, Or.inr ⟨hl, hp⟩⟩
      · exact absurd (no_up hR hF hN hn hl hv h1 h2) h3
  -- left sides
  have lefts : ∀ l, (ns.at l).kind = .left → Ends' env m l := by
    intro l hl
    obtain ⟨a, hap, hak⟩ := hF.leftIn l hl
    refine ends_unpushed hR hF (N := N) (fun n i v hn hv hij hj => ?_) (self l)
    rcases pushed n i v l hn hv hij hj with h | ⟨-, ⟨-, l', it, h1, h2, h3⟩ | ⟨h1, h2⟩⟩
    · exact h
    · exfalso
      rcases h3 with rfl | h3
      · rw [(ht l' l h2).1] at hap
        cases hap
        rw [child_kind h1] at hak; cases hak
      · rcases hF.decl _ _ h3 with h | ⟨h, -⟩ <;> (rw [hl] at h; cases h)
    · exfalso
      obtain ⟨a', h3, h4⟩ := hF.leftIn i h1
      rw [h2] at h3
      cases h3
      rw [hl] at h4; cases h4
  obtain ⟨N1, hN1⟩ := ends_common (P := fun i => (ns.at i).kind = .left) ns.length fun i _ h => lefts i h
  have left1 : ∀ i n v t, (ns.at i).kind = .left → N1 ≤ n → Visits env m n i v → v.out ≠ .ty (some t) :=
    fun i n v t hk hn hv => hN1 i (run_visited hR hv) hk n v t hn hv
  -- assignments
  have assigns : ∀ a, (ns.at a).kind = .assign → Ends' env m a := by
    intro a
    induction a using Nat.strong_induction_on with
    | _ a ih =>
      intro hk
      obtain ⟨N2, hN2⟩ := ends_common (P := fun i => (ns.at i).kind = .assign) a ih
      refine ends_unpushed hR hF (N := max N (max N1 N2)) (fun n i v hn hv hij hj => ?_)
        (fun n v t hn => self a n v t (by omega))
      rcases pushed n i v a (by omega) hv hij hj with h | ⟨⟨t, ho⟩, ⟨hik, l', it, h1, h2, h3⟩ | ⟨h1, h2⟩⟩
      · exact h
      · exfalso
        rcases h3 with rfl | h3
        · have h4 := (ht i l' (child_mem h1)).2.1
          have h5 := (ht l' a h2).2.1
          exact hN2 i (by omega) hik n v t (by omega) hv ho
        · rcases hF.decl _ _ h3 with h | ⟨h, -⟩ <;> (rw [hk] at h; cases h)
      · exact absurd ho (left1 i n v t h1 (by omega) hv)
  obtain ⟨N2, hN2⟩ := ends_common (P := fun i => (ns.at i).kind = .assign) ns.length fun i _ h => assigns i h
  have all : ∀ j, Ends' env m j := by
    intro j
    refine ends_unpushed hR hF (N := max N (max N1 N2)) (fun n i v hn hv hij hj => ?_)
      (fun n v t hn => self j n v t (by omega))
    rcases pushed n i v j (by omega) hv hij hj with h | ⟨⟨t, ho⟩, ⟨hik, -⟩ | ⟨h1, -⟩⟩
    · exact h
    · exact absurd ho (hN2 i (run_visited hR hv) hik n v t (by omega) hv)
    · exact absurd ho (left1 i n v t h1 (by omega) hv)
  obtain ⟨N3, hN3⟩ := ends_common (P := fun _ => True) ns.length fun i _ _ => all i
  obtain ⟨n0, hn0, hb⟩ := begins_after hR N3
  have quiet : ∀ n, n0 + 1 ≤ n → (m n).1.changed = false := by
    intro n hn
    induction n, hn using Nat.le_induction with
    | base => exact hb.fresh
    | succ n hn ih =>
      rcases run_cases hR n with ⟨i, v, h⟩ | h
      · have no : ∀ t, v.out ≠ .ty (some t) := fun t => hN3 i (run_visited hR h) trivial n v t (by omega) h
        have hc : v.changed = false := by
          cases hvc : v.changed with
          | false => rfl
          | true => obtain ⟨t, ht'⟩ := visit_changed h.visit hvc; exact absurd ht' (no t)
        rw [h.after]
        cases ho : v.out with
        | stop => simp [Spread.after, ho, ih, hc]
        | later => simp [Spread.after, ho, ih, hc]
        | ty t => cases t with
          | none => simp [Spread.after, ho, ih, hc]
          | some t => exact absurd ho (no t)
      · exact h.fresh
  obtain ⟨n1, hn1, hb1⟩ := begins_after hR (n0 + 1)
  have := hb1.changed
  rw [quiet n1 hn1] at this
  cases this

/-- The propagation ends. -/
theorem propagate_ends (hF : Formed ns) : ∃ fuel, propagate env fuel ns (List.range ns.length) [] ≠ .running := by
  by_contra h
  obtain ⟨m, hR⟩ := run_of (env := env) (ns := ns) fun fuel => by
    by_contra h'
    exact h ⟨fuel, h'⟩
  exact no_run hR hF

end
end Dyon.Check
