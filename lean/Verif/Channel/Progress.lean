import Verif.Channel.Lemmas

/-!
# Observers of a function: nobody keeps the lock
-/

namespace Dyon.Observe

/-- A thread that has the lock is able to go on. -/
theorem Inv.goes {s : St} (i : Inv s) {t : Nat} (h : holds (s.pc t) = true) : ∃ s', advance s t = some s' := by
  cases hp : s.pc t with
  | subPush => exact ⟨_, by simp only [advance, hp]; rfl⟩
  | subFlag c => exact ⟨_, by simp only [advance, hp]; rfl⟩
  | subDrop c => exact ⟨_, by simp only [advance, hp]; rfl⟩
  | callFlag k => simp only [advance, hp]; split <;> exact ⟨_, rfl⟩
  | callDrop k => exact ⟨_, by simp only [advance, hp]; rfl⟩
  | callSend k j opn =>
    cases j with
    | zero => exact ⟨_, by simp only [advance, hp]; rfl⟩
    | succ j =>
      obtain ⟨a1, a2, a3⟩ := i.i2.loop t k (j + 1) opn hp
      have hj : j < s.senders.length := by omega
      simp only [advance, hp, List.getElem?_eq_getElem hj]
      split <;> exact ⟨_, rfl⟩
  | idle | subLock | callLoad k | callLock k | recvLock c w | recv c w => rw [hp] at h; cases h

theorem run_one {s s' : St} {t : Nat} (h : advance s t = some s') : run s [.step t] = some s' := by
  simp [run, act, h]

theorem run_cons {s s' s'' : St} {t n : Nat} (h : advance s t = some s') (h' : run s' (List.replicate n (.step t)) = some s'') :
    run s (List.replicate (n + 1) (.step t)) = some s'' := by
  simp [List.replicate_succ, run, act, h, h']

theorem free_drop {s : St} {t k : Nat} (h : s.pc t = .callDrop k) : ∃ n s', run s (List.replicate n (.step t)) = some s' ∧ s'.lock = none :=
  ⟨1, _, run_one (by simp only [advance, h]; rfl), rfl⟩

theorem free_flag {s : St} {t k : Nat} (h : s.pc t = .callFlag k) : ∃ n s', run s (List.replicate n (.step t)) = some s' ∧ s'.lock = none := by
  have e : ∃ s1, advance s t = some s1 ∧ s1.pc t = .callDrop k := by
    simp only [advance, h]
    split <;> exact ⟨_, rfl, by simp [put]⟩
  obtain ⟨s1, e, hp⟩ := e
  obtain ⟨n, s', h1, h2⟩ := free_drop hp
  exact ⟨n + 1, s', run_cons e h1, h2⟩

theorem free_subDrop {s : St} {t c : Nat} (h : s.pc t = .subDrop c) :
    ∃ n s', run s (List.replicate n (.step t)) = some s' ∧ s'.lock = none :=
  ⟨1, _, run_one (by simp only [advance, h]; rfl), rfl⟩

theorem free_subFlag {s : St} {t c : Nat} (h : s.pc t = .subFlag c) :
    ∃ n s', run s (List.replicate n (.step t)) = some s' ∧ s'.lock = none := by
  have e : ∃ s1, advance s t = some s1 ∧ s1.pc t = .subDrop c := by
    simp only [advance, h]
    exact ⟨_, rfl, by simp [put]⟩
  obtain ⟨s1, e, hp⟩ := e
  obtain ⟨n, s', h1, h2⟩ := free_subDrop hp
  exact ⟨n + 1, s', run_cons e h1, h2⟩

theorem free_push {s : St} {t : Nat} (h : s.pc t = .subPush) :
    ∃ n s', run s (List.replicate n (.step t)) = some s' ∧ s'.lock = none := by
  have e : advance s t = some { s with
      senders := s.senders ++ [s.nchan], alive := put s.alive s.nchan true, nchan := s.nchan + 1,
      pc := put s.pc t (.subFlag s.nchan) } := by simp only [advance, h]
  obtain ⟨n, s', h1, h2⟩ := free_subFlag (s := { s with
    senders := s.senders ++ [s.nchan], alive := put s.alive s.nchan true, nchan := s.nchan + 1,
    pc := put s.pc t (.subFlag s.nchan) }) (t := t) (c := s.nchan) (by simp [put])
  exact ⟨n + 1, s', run_cons e h1, h2⟩

theorem free_send {t k : Nat} : ∀ (i opn : Nat) (s : St), Inv s → s.pc t = .callSend k i opn →
    ∃ n s', run s (List.replicate n (.step t)) = some s' ∧ s'.lock = none := by
  intro i
  induction i with
  | zero =>
    intro opn s _ h
    have e : advance s t = some { s with senders := s.senders.take opn, pc := put s.pc t (.callFlag k) } := by simp only [advance, h]
    obtain ⟨n, s', h1, h2⟩ := free_flag (s := { s with senders := s.senders.take opn, pc := put s.pc t (.callFlag k) })
      (t := t) (k := k) (by simp [put])
    exact ⟨n + 1, s', run_cons e h1, h2⟩
  | succ i ih =>
    intro opn s inv h
    obtain ⟨s1, e⟩ := inv.goes (t := t) (by rw [h]; rfl)
    have tr : Tr s s1 := act_tr (a := .step t) e
    have hp : ∃ o, s1.pc t = .callSend k i o := by
      simp only [advance, h] at e
      split at e
      · cases e
      · split at e
        · cases e; exact ⟨opn, by simp [put]⟩
        · cases e; exact ⟨opn - 1, by simp [put]⟩
    obtain ⟨o, hp⟩ := hp
    obtain ⟨n, s', h1, h2⟩ := ih o s1 (inv.step tr) hp
    exact ⟨n + 1, s', run_cons e h1, h2⟩

/-- A thread that has the lock gives it back by its own steps. -/
theorem Inv.frees {s : St} (i : Inv s) {t : Nat} (h : s.lock = some t) :
    ∃ n s', Observe.run s (List.replicate n (.step t)) = some s' ∧ s'.lock = none := by
  have hh := i.i1.lock_holds t h
  cases hp : s.pc t with
  | subPush => exact free_push hp
  | subFlag c => exact free_subFlag hp
  | subDrop c => exact ⟨1, _, run_one (by simp only [advance, hp]; rfl), rfl⟩
  | callFlag k => exact free_flag hp
  | callDrop k => exact free_drop hp
  | callSend k j opn => exact free_send j opn s i hp
  | idle | subLock | callLoad k | callLock k | recvLock c w | recv c w => rw [hp] at hh; cases hh

/-- Why a thread does not go on. -/
theorem Inv.blocked {s : St} (i : Inv s) {t : Nat} (h : s.pc t ≠ .idle) :
    CanStep s t ∨
    ((s.pc t = .subLock ∨ ∃ k, s.pc t = .callLock k) ∧ ∃ u, s.lock = some u) ∨
    (∃ c w u, s.pc t = .recvLock c w ∧ s.rlock c = some u) ∨
    ∃ c, s.pc t = .recv c true ∧ s.queue c = [] := by
  by_cases hh : holds (s.pc t) = true
  · exact .inl (.inl (i.goes hh))
  · cases hp : s.pc t with
    | idle => exact absurd hp h
    | subLock =>
      cases hl : s.lock with
      | none => exact .inl (.inl ⟨_, by simp only [act, advance, hp, hl]; rfl⟩)
      | some u => exact .inr (.inl ⟨.inl rfl, u, rfl⟩)
    | callLock k =>
      cases hl : s.lock with
      | none => exact .inl (.inl ⟨_, by simp only [act, advance, hp, hl]; rfl⟩)
      | some u => exact .inr (.inl ⟨.inr ⟨k, rfl⟩, u, rfl⟩)
    | callLoad k =>
      refine .inl (.inr ?_)
      have hv := i.i9.view_lt t
      refine ⟨s.writes.length - 1, ?_⟩
      have hw : s.writes[s.writes.length - 1]? = some s.writes[s.writes.length - 1] := List.getElem?_eq_getElem (by omega)
      cases hb : s.writes[s.writes.length - 1] with
      | true => rw [hb] at hw; exact ⟨_, by simp only [act, hp, hw, if_pos (show s.view t ≤ s.writes.length - 1 by omega)]; rfl⟩
      | false => rw [hb] at hw; exact ⟨_, by simp only [act, hp, hw, if_pos (show s.view t ≤ s.writes.length - 1 by omega)]; rfl⟩
    | recvLock c w =>
      cases hl : s.rlock c with
      | none => exact .inl (.inl ⟨_, by simp only [act, advance, hp, hl]; rfl⟩)
      | some u => exact .inr (.inr (.inl ⟨c, w, u, rfl, hl⟩))
    | recv c w =>
      cases hq : s.queue c with
      | cons m q => exact .inl (.inl ⟨_, by simp only [act, advance, hp, hq]; rfl⟩)
      | nil =>
        cases w with
        | true => exact .inr (.inr (.inr ⟨c, rfl, hq⟩))
        | false => exact .inl (.inl ⟨_, by simp only [act, advance, hp, hq]; rfl⟩)
    | subPush | subFlag c | subDrop c | callSend k j opn | callFlag k | callDrop k => rw [hp] at hh; exact absurd rfl hh

end Dyon.Observe
