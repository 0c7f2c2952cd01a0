import Verif.Thread.Join

/-!
# C45: a thread result is delivered at most once, to the sole owner of the handle
-/

namespace Dyon.Thr

/-! ## Lemmas -/

/-- The handles in a list of places. -/
def ids (l : List Cell) : List Nat := l.filterMap fun | .thread h => h | _ => none

theorem owners_zero {id w} : owners id w = 0 ↔ Cell.thread (some id) ∉ w.stack ∧
    Cell.thread (some id) ∉ w.heap := by
  rw [owners, List.count_eq_zero, List.mem_append, not_or]

/-- What holds of every reachable state: handles belong to started threads and no delivered
thread has a handle left. -/
structure Inv (done : List Nat) (w : World) : Prop where
  fresh : ∀ id, Cell.thread (some id) ∈ w.stack ++ w.heap → id < w.next ∧ id ∉ done
  started : ∀ id ∈ done, id < w.next

theorem Inv.sub {done w w'} (h : Inv done w) (hn : w.next ≤ w'.next)
    (hs : ∀ id, Cell.thread (some id) ∈ w'.stack ++ w'.heap → Cell.thread (some id) ∈ w.stack ++ w.heap) :
    Inv done w' :=
  ⟨fun id hid => ⟨Nat.lt_of_lt_of_le (h.fresh id (hs id hid)).1 hn, (h.fresh id (hs id hid)).2⟩,
    fun id hid => Nat.lt_of_lt_of_le (h.started id hid) hn⟩

theorem mem_of_dropLast {α} {l : List α} {x : α} (h : x ∈ l.dropLast) : x ∈ l :=
  (List.dropLast_sublist l).subset h

theorem mem_toList_getElem? {α} {l : List α} {i : Nat} {x : α} (h : x ∈ (l[i]?).toList) : x ∈ l := by
  rw [Option.mem_toList] at h
  exact List.mem_of_getElem? h

theorem mem_set {l : List Cell} {i id v} (h : Cell.thread (some id) ∈ l.set i v) :
    Cell.thread (some id) ∈ l ∨ Cell.thread (some id) = v := by
  rcases List.mem_or_eq_of_mem_set h with h | h
  · exact .inl h
  · exact .inr h

theorem unwrap_ok {h w id} (hu : unwrapHandle h w = .ok id) : h = some id ∧ owners id w = 0 := by
  cases h with
  | none => cases hu
  | some j =>
    rw [unwrapHandle] at hu
    split at hu
    · cases hu; exact ⟨rfl, by assumption⟩
    · cases hu

theorem join_next {w} : (join w).2.next = w.next := by
  rw [join]
  split
  · rfl
  · rename_i v _
    cases v with
    | ref i =>
      simp only [invalidateHandle]
      split <;> rfl
    | thread h => rfl
    | other => rfl

theorem join_sub {w id} (h : Cell.thread (some id) ∈ (join w).2.stack ++ (join w).2.heap) :
    Cell.thread (some id) ∈ w.stack ++ w.heap := by
  rw [join] at h
  split at h
  · exact h
  · rename_i v hv
    have hd : ∀ {x}, x ∈ w.stack.dropLast → x ∈ w.stack := mem_of_dropLast
    cases v with
    | ref i =>
      have : (invalidateHandle (.ref i) { w with stack := w.stack.dropLast }).2 =
          { w with stack := w.stack.dropLast.set i (.thread none) } := by
        simp only [invalidateHandle]; split <;> rfl
      rw [this] at h
      rcases List.mem_append.1 h with h | h
      · rcases mem_set h with h | h
        · exact List.mem_append_left _ (hd h)
        · cases h
      · exact List.mem_append_right _ h
    | thread g =>
      rcases List.mem_append.1 h with h | h
      · exact List.mem_append_left _ (hd h)
      · exact List.mem_append_right _ h
    | other =>
      rcases List.mem_append.1 h with h | h
      · exact List.mem_append_left _ (hd h)
      · exact List.mem_append_right _ h

theorem join_owned {w id} (h : (join w).1 = .ok id) :
    Cell.thread (some id) ∈ w.stack ∧ owners id (join w).2 = 0 := by
  rw [join] at h ⊢
  split at h
  · cases h
  · rename_i v hv
    have hl : v ∈ w.stack := List.mem_of_getLast? hv
    cases v with
    | ref i =>
      simp only [invalidateHandle] at h ⊢
      split at h
      · rename_i g hg
        obtain ⟨rfl, h2⟩ := unwrap_ok h
        exact ⟨mem_of_dropLast (List.mem_of_getElem? hg), h2⟩
      · cases h
    | thread g =>
      obtain ⟨rfl, h2⟩ := unwrap_ok h
      exact ⟨hl, h2⟩
    | other => cases h

theorem Inv.step {done w} (h : Inv done w) (o : Op) :
    Inv (done ++ (step o w).1.toList) (step o w).2 ∧ ∀ id, (step o w).1 = some id → id ∉ done := by
  have key : ∀ {w' : World}, w.next ≤ w'.next →
      (∀ id, Cell.thread (some id) ∈ w'.stack ++ w'.heap → Cell.thread (some id) ∈ w.stack ++ w.heap) →
      Inv (done ++ (none : Option Nat).toList) w' ∧ ∀ id, (none : Option Nat) = some id → id ∉ done :=
    fun hn hs => ⟨by simpa using h.sub hn hs, fun _ hid => by cases hid⟩
  cases o with
  | go =>
    refine ⟨?_, fun _ hid => by cases hid⟩
    simp only [Thr.step, Option.toList_none, List.append_nil]
    refine ⟨fun id hid => ?_, fun id hid => Nat.lt_succ_of_lt (h.started id hid)⟩
    simp only [List.mem_append, List.mem_singleton, Cell.thread.injEq, Option.some.injEq] at hid
    rcases hid with (hid | rfl) | hid
    · have := h.fresh id (by simp [hid]); exact ⟨Nat.lt_succ_of_lt this.1, this.2⟩
    · exact ⟨Nat.lt_succ_self _, fun hd => absurd (h.started _ hd) (Nat.lt_irrefl _)⟩
    · have := h.fresh id (by simp [hid]); exact ⟨Nat.lt_succ_of_lt this.1, this.2⟩
  | push c =>
    refine key (Nat.le_refl _) fun id hid => ?_
    simp only [Thr.step, List.mem_append, List.mem_singleton] at hid ⊢
    rcases hid with (hid | hid) | hid
    · exact .inl hid
    · cases c <;> cases hid
    · exact .inr hid
  | load i =>
    refine key (Nat.le_refl _) fun id hid => ?_
    simp only [Thr.step, List.mem_append] at hid ⊢
    rcases hid with (hid | hid) | hid
    · exact .inl hid
    · exact .inl (mem_toList_getElem? hid)
    · exact .inr hid
  | store i =>
    rw [Thr.step]
    cases hv : w.stack.getLast? with
    | none => exact key (Nat.le_refl _) fun _ hid => hid
    | some v =>
      refine key (Nat.le_refl _) fun id hid => ?_
      simp only [Thr.step, List.mem_append] at hid ⊢
      rcases hid with hid | hid
      · rcases mem_set hid with hid | hid
        · exact .inl (mem_of_dropLast hid)
        · exact .inl (hid ▸ List.mem_of_getLast? hv)
      · exact .inr hid
  | loadHeap i =>
    refine key (Nat.le_refl _) fun id hid => ?_
    simp only [Thr.step, List.mem_append] at hid ⊢
    rcases hid with (hid | hid) | hid
    · exact .inl hid
    · exact .inr (mem_toList_getElem? hid)
    · exact .inr hid
  | storeHeap =>
    refine key (Nat.le_refl _) fun id hid => ?_
    simp only [Thr.step, List.mem_append] at hid ⊢
    rcases hid with hid | hid | hid
    · exact .inl (mem_of_dropLast hid)
    · exact .inr hid
    · rw [Option.mem_toList] at hid
      exact .inl (List.mem_of_getLast? hid)
  | copyHeap i =>
    refine key (Nat.le_refl _) fun id hid => ?_
    simp only [Thr.step, List.mem_append] at hid ⊢
    rcases hid with hid | hid | hid
    · exact .inl hid
    · exact .inr hid
    · exact .inr (mem_toList_getElem? hid)
  | dropHeap i =>
    refine key (Nat.le_refl _) fun id hid => ?_
    simp only [Thr.step, List.mem_append] at hid ⊢
    rcases hid with hid | hid
    · exact .inl hid
    · exact .inr (List.mem_of_mem_eraseIdx hid)
  | truncate n =>
    refine key (Nat.le_refl _) fun id hid => ?_
    simp only [Thr.step, List.mem_append] at hid ⊢
    rcases hid with hid | hid
    · exact .inl (List.mem_of_mem_take hid)
    · exact .inr hid
  | join =>
    have hs : Thr.step .join w = (match (join w).1 with | .ok id => some id | .error _ => none, (join w).2) := by
      rw [Thr.step]
      cases hj : join w with
      | mk a b => cases a <;> rfl
    rw [hs]
    cases hj : (join w).1 with
    | error e => exact key (Nat.le_of_eq join_next.symm) fun id hid => join_sub hid
    | ok id =>
      obtain ⟨h1, h2⟩ := join_owned hj
      have hf := h.fresh id (by simp [h1])
      refine ⟨⟨fun j hj' => ?_, fun j hj' => ?_⟩, fun j hj' => by cases hj'; exact hf.2⟩
      · have := h.fresh j (join_sub hj')
        refine ⟨by rw [join_next]; exact this.1, ?_⟩
        simp only [Option.toList_some, List.mem_append, List.mem_singleton, not_or]
        refine ⟨this.2, ?_⟩
        rintro rfl
        have := owners_zero.1 h2
        simp only at hj'
        rcases List.mem_append.1 hj' with hj' | hj'
        · exact this.1 hj'
        · exact this.2 hj'
      · rw [join_next]
        simp only [Option.toList_some, List.mem_append, List.mem_singleton] at hj'
        rcases hj' with hj' | rfl
        · exact h.started j hj'
        · exact hf.1

theorem Inv.run {os done w} (h : Inv done w) (hd : done.Nodup) :
    Inv (done ++ (run os w).1) (run os w).2 ∧ (done ++ (run os w).1).Nodup := by
  induction os generalizing done w with
  | nil => simpa [Thr.run] using ⟨h, hd⟩
  | cons o os ih =>
    obtain ⟨h1, h2⟩ := h.step o
    have hn : (done ++ (Thr.step o w).1.toList).Nodup := by
      cases hx : (Thr.step o w).1 with
      | none => simpa using hd
      | some id =>
        simp only [Option.toList_some]
        rw [List.nodup_append]
        refine ⟨hd, by simp, ?_⟩
        intro a ha b hb
        simp only [List.mem_singleton] at hb
        subst hb
        rintro rfl
        exact h2 _ hx ha
    have := ih h1 hn
    simpa [Thr.run, List.append_assoc] using this

theorem Inv.init : Inv [] World.init := ⟨fun id h => by simp [World.init] at h, fun id h => by cases h⟩

/-! ## Properties -/

/-- **C45.** In every history each thread's result is delivered at most once. -/
theorem C45_at_most_once (os : List Op) : (run os World.init).1.Nodup := by
  simpa using (Inv.init.run (os := os) List.nodup_nil).2

/-- **C45.** Once a thread's result has been delivered, no handle of it is left anywhere. -/
theorem C45_no_handle_left (os : List Op) (id : Nat) (h : id ∈ (run os World.init).1) :
    owners id (run os World.init).2 = 0 := by
  have hi := (Inv.init.run (os := os) List.nodup_nil).1
  rw [owners_zero]
  constructor
  · intro hm
    exact (hi.fresh id (by simp [hm])).2 (by simpa using h)
  · intro hm
    exact (hi.fresh id (by simp [hm])).2 (by simpa using h)

/-- **C45.** Joining the handle in a variable gives the result if and only if that variable
is the only place that has the handle; the variable is invalidated in either case, so that
joining it again is refused. -/
theorem C45_join_variable {w : World} {i id : Nat} {rest : List Cell} (hs : w.stack = rest ++ [.ref i])
    (hi : rest[i]? = some (.thread (some id))) :
    ((join w).1 = .ok id ↔ owners id w = 1) ∧
    (owners id w ≠ 1 → (join w).1 = .error .shared) ∧
    (join w).2.stack = rest.set i (.thread none) ∧ (join w).2.heap = w.heap ∧
    (join { (join w).2 with stack := (join w).2.stack ++ [.ref i] }).1 = .error .invalidated := by
  have hilt : i < rest.length := (List.getElem?_eq_some_iff.1 hi).1
  have hj : join w = (unwrapHandle (some id) { w with stack := rest.set i (.thread none) },
      { w with stack := rest.set i (.thread none) }) := by
    simp only [join, hs, List.getLast?_concat, List.dropLast_concat, invalidateHandle, hi]
  have hcount : owners id w = owners id { w with stack := rest.set i (.thread none) } + 1 := by
    simp only [owners, hs, List.count_append]
    rw [List.count_set hilt]
    have h1 : rest[i] = .thread (some id) := by
      rw [List.getElem?_eq_getElem hilt] at hi; exact Option.some.inj hi
    have h2 : 0 < rest.count (.thread (some id)) := List.count_pos_iff.2 (List.mem_of_getElem? hi)
    have h3 : ([.ref i] : List Cell).count (.thread (some id)) = 0 := by
      rw [List.count_eq_zero]; simp
    rw [h1, h3]
    simp
    omega
  rw [hj]
  refine ⟨?_, ?_, rfl, rfl, ?_⟩
  · simp only [unwrapHandle]
    rw [hcount]
    constructor
    · intro h
      split at h
      · omega
      · cases h
    · intro h
      rw [if_pos (by omega)]
  · intro h
    simp only [unwrapHandle]
    rw [if_neg (by omega)]
  · simp only [join, List.getLast?_concat, List.dropLast_concat, invalidateHandle]
    have : (rest.set i (.thread none))[i]? = some (.thread none) := by simp [hilt]
    rw [this]
    rfl

/-- **C45.** The same for a handle that is not in a variable (the result of an expression):
it must have no copy anywhere. -/
theorem C45_join_value {w : World} {id : Nat} {rest : List Cell} (hs : w.stack = rest ++ [.thread (some id)]) :
    ((join w).1 = .ok id ↔ owners id w = 1) ∧ (owners id w ≠ 1 → (join w).1 = .error .shared) ∧
    (join w).2 = { w with stack := rest } := by
  have hj : join w = (unwrapHandle (some id) { w with stack := rest }, { w with stack := rest }) := by
    simp only [join, hs, List.getLast?_concat, List.dropLast_concat, invalidateHandle]
  have hcount : owners id w = owners id { w with stack := rest } + 1 := by
    simp only [owners, hs, List.count_append, List.count_singleton_self]
    omega
  rw [hj]
  refine ⟨?_, ?_, rfl⟩
  · simp only [unwrapHandle]
    rw [hcount]
    constructor
    · intro h
      split at h
      · omega
      · cases h
    · intro h
      rw [if_pos (by omega)]
  · intro h
    simp only [unwrapHandle]
    rw [if_neg (by omega)]

/-- Finding: a refused join destroys the variable: when `t` and `u` hold the same handle,
`join(thread: t)` is refused, and then `join(thread: u)` succeeds although nothing else was
done. -/
theorem C45_refused_join_drops :
    (run [.go, .load 0, .push (.ref 0), .join, .push (.ref 1), .join] World.init) =
      ([0], ⟨[.thread none, .thread none], [], 1⟩) ∧
    (join ⟨[.thread (some 0), .thread (some 0), .ref 0], [], 1⟩).1 = .error .shared := ⟨rfl, rfl⟩

/-- Finding: joining a variable that is not a thread overwrites it. -/
theorem C45_overwrites {w : World} {i : Nat} {rest : List Cell} (hs : w.stack = rest ++ [.ref i])
    (hi : rest[i]? = some .other) :
    join w = (.error .notThread, { w with stack := rest.set i (.thread none) }) := by
  simp only [join, hs, List.getLast?_concat, List.dropLast_concat, invalidateHandle, hi]

/-- The hypotheses are met after `t := go f()`, with and without a copy `u := t`. -/
example : owners 0 ⟨[.thread (some 0), .ref 0], [], 1⟩ = 1 ∧
    owners 0 ⟨[.thread (some 0), .thread (some 0), .ref 0], [], 1⟩ = 2 ∧
    owners 0 ⟨[.thread (some 0), .ref 0], [.thread (some 0)], 1⟩ = 2 := by decide

end Dyon.Thr
