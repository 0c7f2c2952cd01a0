import Verif.Check.TypesLocal

/-!
# An endless propagation of types

Lemmas for C70.  The propagation is written as a machine that visits one node at a time; if it does
not end, the machine runs forever.
-/

namespace Dyon.Check

/-- What is left after the visit of a node. -/
def Spread.after (s : Spread) (i : Nat) (v : Visit) : Spread :=
  match v.out with
  | .stop => ⟨v.nodes, s.next ++ v.push, v.errs, s.changed || v.changed⟩
  | .later => ⟨v.nodes, s.next ++ v.push ++ [i], v.errs, s.changed || v.changed⟩
  | .ty none => ⟨v.nodes, s.next ++ v.push ++ [i], v.errs, s.changed || v.changed⟩
  | .ty (some t) => ⟨v.nodes.setTy i (some t), s.next ++ v.push ++ (match (v.nodes.at i).ty, (v.nodes.at i).parent with
        | some old, some p => if old ≠ t ∧ (v.nodes.at p).ty.isSome then [p] else []
        | _, _ => []), v.errs, true⟩

theorem step_after {env : Env} {s s' : Spread} {i : Nat} (h : step env s i = .ok s') :
    ∃ v, s.nodes.visit env s.errs i = .ok v ∧ s' = s.after i v := by
  simp only [step] at h
  split at h
  · cases h
  · rename_i v hv
    refine ⟨v, hv, ?_⟩
    simp only [Spread.after]
    split at h <;> (rename_i ho; rw [ho]; cases h; rfl)

/-- The list for the next round. -/
def Spread.todo (s : Spread) : List Nat := (List.range s.nodes.length).filter fun i => i ∈ s.next

/-- The machine: the state and the rest of the list. -/
abbrev Mach := Spread × List Nat

/-- One visit, or the start of a round; `none` if the propagation ends. -/
def tick (env : Env) : Mach → Option Mach
  | (s, j :: rest) => match step env s j with
    | .error _ => none
    | .ok s' => some (s', rest)
  | (s, []) => if s.changed then some (⟨s.nodes, [], s.errs, false⟩, s.todo) else none

/-- The rest of the propagation. -/
def finish (env : Env) (fuel : Nat) : Mach → PropOut
  | (s, rest) => match round env s rest with
    | .error e => .failed e
    | .ok s => if s.changed then propagate env fuel s.nodes s.todo s.errs else .done s.nodes s.errs

/-- `n` steps of the machine. -/
def ticks (env : Env) : Nat → Mach → Option Mach
  | 0, m => some m
  | n + 1, m => (tick env m).bind (ticks env n)

theorem ticks_finish {env : Env} : ∀ (n : Nat) (m : Mach), ticks env n m = none →
    ∃ fuel, finish env fuel m ≠ .running
  | 0, _, h => by cases h
  | n + 1, (s, j :: rest), h => by
    rw [ticks, tick] at h
    simp only [finish, round]
    cases hs : step env s j with
    | error e => exact ⟨0, by simp⟩
    | ok s' =>
      rw [hs] at h
      obtain ⟨fuel, hf⟩ := ticks_finish n (s', rest) h
      exact ⟨fuel, hf⟩
  | n + 1, (s, []), h => by
    rw [ticks, tick] at h
    simp only [finish, round]
    by_cases hc : s.changed = true
    · rw [if_pos hc] at h
      obtain ⟨fuel, hf⟩ := ticks_finish n _ h
      refine ⟨fuel + 1, ?_⟩
      rw [if_pos hc, propagate]
      exact hf
    · exact ⟨0, by rw [if_neg hc]; simp⟩

/-- A run that does not end. -/
structure Run (env : Env) (ns : Nodes) (m : Nat → Mach) : Prop where
  start : m 0 = (⟨ns, [], [], false⟩, List.range ns.length)
  tick : ∀ n, tick env (m n) = some (m (n + 1))

theorem ticks_succ {env : Env} : ∀ (n : Nat) (m : Mach), ticks env (n + 1) m = (ticks env n m).bind (tick env)
  | 0, m => by
    show (tick env m).bind (ticks env 0) = tick env m
    cases tick env m <;> rfl
  | n + 1, m => by
    rw [ticks]
    cases h : tick env m with
    | none => rw [ticks, h]; rfl
    | some m' =>
      rw [ticks, h, Option.bind_some, Option.bind_some]
      exact ticks_succ n m'

theorem run_of {env : Env} {ns : Nodes}
    (h : ∀ fuel, propagate env fuel ns (List.range ns.length) [] = .running) : ∃ m, Run env ns m := by
  have h1 : ∀ n, ∃ m, ticks env n (⟨ns, [], [], false⟩, List.range ns.length) = some m := by
    intro n
    cases hn : ticks env n (⟨ns, [], [], false⟩, List.range ns.length) with
    | some m => exact ⟨m, rfl⟩
    | none =>
      obtain ⟨fuel, hf⟩ := ticks_finish n _ hn
      exact absurd (h (fuel + 1)) hf
  choose m hm using h1
  refine ⟨m, ?_, fun n => ?_⟩
  · have := hm 0; rw [ticks] at this; exact (Option.some.inj this).symm
  · have := hm (n + 1)
    rw [ticks_succ, hm n] at this
    exact this

/-! ## What happens in a run -/

section
variable {env : Env} {ns : Nodes} {m : Nat → Mach}

/-- The type of a node at a time. -/
def tyAt (m : Nat → Mach) (n i : Nat) : Option Ty := ((m n).1.nodes.at i).ty

/-- At the time `n` the node `j` is visited. -/
structure Visits (env : Env) (m : Nat → Mach) (n j : Nat) (v : Visit) : Prop where
  list : (m n).2 = j :: (m (n + 1)).2
  visit : (m n).1.nodes.visit env (m n).1.errs j = .ok v
  after : (m (n + 1)).1 = (m n).1.after j v

/-- At the time `n` a round starts. -/
structure Begins (m : Nat → Mach) (n : Nat) : Prop where
  list : (m n).2 = []
  nodes : (m (n + 1)).1.nodes = (m n).1.nodes
  next : (m (n + 1)).1.next = []
  changed : (m n).1.changed = true
  fresh : (m (n + 1)).1.changed = false
  todo : (m (n + 1)).2 = (m n).1.todo

theorem run_cases (hR : Run env ns m) (n : Nat) : (∃ j v, Visits env m n j v) ∨ Begins m n := by
  have h := hR.tick n
  cases hm : (m n).2 with
  | nil =>
    have e : m n = ((m n).1, []) := by rw [← hm]
    rw [e, tick] at h
    split at h
    · rename_i hc
      have h := Option.some.inj h
      exact Or.inr ⟨hm, by rw [← h], by rw [← h], hc, by rw [← h], by rw [← h]⟩
    · cases h
  | cons j rest =>
    have e : m n = ((m n).1, j :: rest) := by rw [← hm]
    rw [e, tick] at h
    cases hs : step env (m n).1 j with
    | error e => rw [hs] at h; cases h
    | ok s' =>
      rw [hs] at h
      have h := Option.some.inj h
      obtain ⟨v, hv, ha⟩ := step_after hs
      exact Or.inl ⟨j, v, by rw [← h, hm], hv, by rw [← h]; exact ha⟩

theorem after_step {s : Spread} {j : Nat} {v : Visit} (hv : s.nodes.visit env s.errs j = .ok v) :
    step env s j = .ok (s.after j v) := by
  simp only [step, hv, Spread.after]
  split <;> rename_i ho <;> (simp only [ho]) <;> rfl

theorem run_shape (hR : Run env ns m) : ∀ n, Shape ns (m n).1.nodes
  | 0 => by rw [hR.start]; exact Shape.refl _
  | n + 1 => by
    rcases run_cases hR n with ⟨j, v, h⟩ | h
    · rw [h.after]
      exact (run_shape hR n).trans (step_stepped (after_step h.visit)).shape
    · rw [h.nodes]; exact run_shape hR n

theorem run_list (hR : Run env ns m) : ∀ n, (m n).2.Nodup ∧ ∀ j ∈ (m n).2, j < ns.length
  | 0 => by rw [hR.start]; exact ⟨List.nodup_range, fun j hj => List.mem_range.1 hj⟩
  | n + 1 => by
    have ih := run_list hR n
    rcases run_cases hR n with ⟨j, v, h⟩ | h
    · rw [h.list, List.nodup_cons] at ih
      exact ⟨ih.1.2, fun j' hj' => ih.2 j' (List.mem_cons_of_mem _ hj')⟩
    · rw [h.todo, Spread.todo]
      refine ⟨List.nodup_range.filter _, fun j hj => ?_⟩
      have := List.mem_range.1 (List.mem_filter.1 hj).1
      rw [(run_shape hR n).1] at this
      exact this

theorem run_visited (hR : Run env ns m) {n j : Nat} {v : Visit} (h : Visits env m n j v) : j < ns.length :=
  (run_list hR n).2 j (by rw [h.list]; exact List.mem_cons_self)

end

/-! ## Which types a visit changes -/

/-- The node `i` is given a type by the visit of another node `j`, which gets the type `t`. -/
inductive Writes (ns ns' : Nodes) (j : Nat) (t : Ty) (i : Nat) : Prop
  | assign {r : Nat} : (ns.at j).kind = .assign → ns.child j .left = some i → ns.child j .right = some r →
      (ns.at r).ty ≠ none → (ns'.at i).ty = (ns.at r).ty → Writes ns ns' j t i
  | item : (ns.at j).kind = .item → (ns.at j).parent = some i → (ns.at i).kind = .left →
      (ns.at j).declaration ≠ none → (ns'.at i).ty = some t → Writes ns ns' j t i
  | owner : ((ns.at i).kind = .fn ∨ (ns.at i).kind = .closure) → (ns.at i).ty = none → (ns'.at i).ty ≠ none →
      Writes ns ns' j t i

theorem visit_writes {env : Env} {ns : Nodes} {errs : List (Nat × TypeErr)} {j : Nat} {v : Visit}
    (h : ns.visit env errs j = .ok v) (i : Nat) :
    (v.nodes.at i).ty = (ns.at i).ty ∨ ∃ t, v.out = .ty (some t) ∧ Writes ns v.nodes j t i := by
  have same : ∀ {w : Visit}, w.nodes = ns → (w.nodes.at i).ty = (ns.at i).ty := fun h => by rw [h]
  have hwrap : ns.visitWrap errs j = .ok v →
      (v.nodes.at i).ty = (ns.at i).ty ∨ ∃ t, v.out = .ty (some t) ∧ Writes ns v.nodes j t i := by
    intro h
    simp only [Nodes.visitWrap] at h
    repeat' split at h
    all_goals first
      | (cases h; exact Or.inl rfl)
      | (cases h; done)
      | skip
    rename_i f ho _ hf
    cases h
    by_cases hfi : i = f ∧ i < ns.length
    · refine Or.inr ⟨_, rfl, .owner ?_ ?_ ?_⟩
      · rw [hfi.1]; exact owner_kind _ _ ho
      · rw [hfi.1]; exact hf
      · simp only [at_setTy, if_pos hfi]; simp
    · exact Or.inl (by simp only [at_setTy, if_neg hfi])
  have put : ∀ (left right : Nat) (t : Ty) (w : Visit), (ns.at j).kind = .assign → ns.child j .left = some left →
      ns.child j .right = some right → (ns.at right).ty = some t → w.nodes = ns.setTy left (some t) →
      (w.nodes.at i).ty = (ns.at i).ty ∨ ∃ t', Out.ty (some .void) = Out.ty (some t') ∧ Writes ns w.nodes j t' i := by
    intro left right t w hk hl hr ht hw
    by_cases hfi : i = left ∧ i < ns.length
    · refine Or.inr ⟨_, rfl, .assign hk (by rw [hfi.1]; exact hl) hr (by rw [ht]; simp) ?_⟩
      simp only [hw, at_setTy, if_pos hfi, ht]
    · exact Or.inl (by simp only [hw, at_setTy, if_neg hfi])
  have hassign : (ns.at j).kind = .assign → v = ns.visitAssign errs j →
      (v.nodes.at i).ty = (ns.at i).ty ∨ ∃ t, v.out = .ty (some t) ∧ Writes ns v.nodes j t i := by
    rintro hk rfl
    simp only [Nodes.visitAssign]
    repeat' split
    all_goals first
      | exact Or.inl rfl
      | skip
    all_goals exact put _ _ _ _ hk (by assumption) (by assumption) (by assumption) rfl
  have hitem : (ns.at j).kind = .item → ns.visitItem errs j = .ok v →
      (v.nodes.at i).ty = (ns.at i).ty ∨ ∃ t, v.out = .ty (some t) ∧ Writes ns v.nodes j t i := by
    intro hk h
    simp only [Nodes.visitItem] at h
    repeat' split at h
    all_goals first
      | (cases h; exact Or.inl rfl)
      | (cases h; done)
      | skip
    rename_i hd _ _ _ _ _
    cases h
    simp only [Nodes.setLeft]
    split
    · rename_i p hp
      split
      · rename_i hpk
        by_cases hfi : i = p ∧ i < ns.length
        · refine Or.inr ⟨_, rfl, .item hk (by rw [hfi.1]; exact hp) (by rw [hfi.1]; exact hpk) (by rw [hd]; simp) ?_⟩
          simp only [at_setTy, if_pos hfi]
        · exact Or.inl (by simp only [at_setTy, if_neg hfi])
      · exact Or.inl rfl
    · exact Or.inl rfl
  by_cases hn : v.nodes = ns
  · exact Or.inl (same hn)
  simp only [Nodes.visit] at h
  have hcallArg : ns.visitCallArg env errs j = .ok v → v.nodes = ns := by
    intro h
    simp only [Nodes.visitCallArg] at h
    repeat' split at h
    all_goals (cases h; first | rfl | done)
  have hcall : ns.visitCall env errs j = .ok v → v.nodes = ns := by
    intro h
    simp only [Nodes.visitCall, Nodes.visitHost] at h
    repeat' split at h
    all_goals (cases h; first | rfl | done)
  split at h
  all_goals first
    | exact hwrap h
    | exact hitem (by assumption) h
    | exact absurd (hcallArg h) hn
    | exact absurd (hcall h) hn
    | exact hassign (by assumption) (by injection h with h; exact h.symm)
    | skip
  all_goals
    exfalso
    try simp only [Nodes.visitCallClosure, Nodes.visitNumber, Nodes.visitCompare, Nodes.visitBlock,
      Nodes.visitClosure] at h
    repeat' split at h
  all_goals first
    | (cases h; exact hn rfl)
    | (cases h; done)

section
variable {env : Env} {ns : Nodes} {m : Nat → Mach}

/-- The type of a node changes only by its own visit or as given by `Writes`. -/
theorem run_ty (hR : Run env ns m) (n i : Nat) : tyAt m (n + 1) i = tyAt m n i ∨
    ∃ j v t, Visits env m n j v ∧ v.out = .ty (some t) ∧
      ((i = j ∧ tyAt m (n + 1) i = some t) ∨
        (i ≠ j ∧ Writes (m n).1.nodes (m (n + 1)).1.nodes j t i)) := by
  rcases run_cases hR n with ⟨j, v, h⟩ | h
  · have hlt := run_visited hR h
    have hsh := run_shape hR n
    have hvl := (visit_visited h.visit).aside.1.1
    simp only [tyAt]
    rw [h.after]
    cases ho : v.out with
    | stop =>
      simp only [Spread.after, ho]
      rcases visit_writes h.visit i with h1 | ⟨t, h1, -⟩
      · exact Or.inl h1
      · rw [ho] at h1; cases h1
    | later =>
      simp only [Spread.after, ho]
      rcases visit_writes h.visit i with h1 | ⟨t, h1, -⟩
      · exact Or.inl h1
      · rw [ho] at h1; cases h1
    | ty t =>
      cases t with
      | none =>
        simp only [Spread.after, ho]
        rcases visit_writes h.visit i with h1 | ⟨t, h1, -⟩
        · exact Or.inl h1
        · rw [ho] at h1; cases h1
      | some t =>
        simp only [Spread.after, ho]
        by_cases hij : i = j
        · subst hij
          refine Or.inr ⟨i, v, t, h, ho, Or.inl ⟨rfl, ?_⟩⟩
          rw [at_setTy, if_pos ⟨rfl, by rw [hvl, hsh.1]; exact hlt⟩]
        · have hne : ¬ (i = j ∧ i < v.nodes.length) := fun h => hij h.1
          rw [at_setTy, if_neg hne]
          rcases visit_writes h.visit i with h1 | ⟨t', h1, h2⟩
          · exact Or.inl h1
          · rw [ho] at h1
            cases h1
            refine Or.inr ⟨j, v, t, h, ho, Or.inr ⟨hij, ?_⟩⟩
            cases h2 with
            | assign a b c d e => exact .assign a b c d (by rw [at_setTy, if_neg hne]; exact e)
            | item a b c d e => exact .item a b c d (by rw [at_setTy, if_neg hne]; exact e)
            | owner a b c => exact .owner a b (by rw [at_setTy, if_neg hne]; exact c)
  · left; simp only [tyAt]; rw [h.nodes]

/-- The visited node has the type that the visit gives. -/
theorem run_success (hR : Run env ns m) {n j : Nat} {v : Visit} {t : Ty} (h : Visits env m n j v)
    (ho : v.out = .ty (some t)) : tyAt m (n + 1) j = some t := by
  have hlt := run_visited hR h
  have hsh := run_shape hR n
  have hvl := (visit_visited h.visit).aside.1.1
  simp only [tyAt]
  rw [h.after]
  simp only [Spread.after, ho]
  rw [at_setTy, if_pos ⟨rfl, by rw [hvl, hsh.1]; exact hlt⟩]

theorem run_some (hR : Run env ns m) {n i : Nat} (h : tyAt m n i ≠ none) : tyAt m (n + 1) i ≠ none := by
  rcases run_ty hR n i with h1 | ⟨j, v, t, -, -, ⟨-, h1⟩ | ⟨-, h1⟩⟩
  · rw [h1]; exact h
  · rw [h1]; simp
  · cases h1 with
    | assign a b c d e => simp only [tyAt]; rw [e]; exact d
    | item a b c d e => simp only [tyAt]; rw [e]; simp
    | owner a b c => exact c

theorem run_some_le (hR : Run env ns m) {n i : Nat} (h : tyAt m n i ≠ none) : ∀ k, n ≤ k → tyAt m k i ≠ none := by
  intro k hk
  induction k, hk using Nat.le_induction with
  | base => exact h
  | succ k _ ih => exact run_some hR ih

end
end Dyon.Check
