import Verif.Channel.Progress

/-!
# C88: observers of a function, whatever the threads do and in whatever order

`Reached s`: some history of subscriptions, calls, receives, drops and steps of any number of threads leads to `s` (`Spec.lean`).
-/

namespace Dyon.Observe

/-- C88: if the thread that begins a call knows of a channel, then, whatever happens, once the call is finished and while the receiver is still
there, the call is in that channel, received or waiting, exactly once. -/
theorem C88_delivered {s s' : St} (h : Reached s) {t k c : Nat} (hp : s.pc t = .callLoad k) (hk : Knows s t c)
    {as : List Act} (h' : run s as = some s') (he : k ∈ s'.ended) (ha : s'.alive c = true) :
    (received s' c ++ s'.queue c).count k = 1 := by
  have i := h.inv.run h'
  have hc : c ∈ s'.seen k := by
    rcases run_looked h.inv h' (.inl ⟨hp, hk⟩) with ⟨hp', _⟩ | ⟨_, _, hc⟩
    · exact absurd he (i.i3.call_lt t k (by rw [hp']; rfl)).2
    · exact hc
  rw [i.i7.queue c]
  have hm := i.i4.ended k he c hc ha
  have hn := i.i4.nodup
  have hm' : k ∈ sentTo s' c := by
    simp only [sentTo, List.mem_map, List.mem_filter]
    exact ⟨(k, c), ⟨hm, by simp⟩, rfl⟩
  refine List.count_eq_one_of_mem ?_ hm'
  refine List.Nodup.map_on ?_ (hn.filter _)
  intro x hx y hy e
  simp only [List.mem_filter, decide_eq_true_eq] at hx hy
  exact Prod.ext e (hx.2.trans hy.2.symm)

/-- C88: a thread knows of a channel when its `in` expression ends, never forgets, and passes it on to a thread it synchronises with.  A
thread that has the lock knows of all channels. -/
theorem C88_knows {s s' : St} (h : Reached s) :
    (∀ t c, s.pc t = .subDrop c → act s (.step t) = some s' → Knows s' t c) ∧
    (∀ as t c, run s as = some s' → Knows s t c → Knows s' t c) ∧
    (∀ t u c, act s (.sync t u (s.view t)) = some s' → Knows s t c → Knows s' u c) ∧
    ∀ t, s.lock = some t → ∀ c ∈ s.subscribed, Knows s t c := by
  refine ⟨?_, fun as t c h' hk => run_knows h.inv h' hk, ?_, ?_⟩
  · intro t c hp ha
    obtain ⟨as, h0⟩ := h
    have i10 : Inv10 s := Inv10.run Inv.start ⟨by simp [start]⟩ h0
    have := i10.own t c hp
    simp only [act, advance, hp] at ha
    cases ha
    exact ⟨by simp, this⟩
  · intro t u c ha hk
    simp only [act, Nat.le_refl, if_true] at ha
    cases ha
    refine ⟨hk.1, ?_⟩
    simp only [put, if_true]
    exact Nat.le_trans hk.2 (Nat.le_max_right _ _)
  · intro t hl c hc
    obtain ⟨as, h0⟩ := h
    exact ⟨hc, (Inv11.run Inv.start ⟨by simp [start]⟩ ⟨by simp [start], by simp [start]⟩ h0).taken t hl c hc⟩

/-- C88: no call is in a channel twice, whatever happens. -/
theorem C88_once {s : St} (h : Reached s) (k c : Nat) : (received s c ++ s.queue c).count k ≤ 1 := by
  rw [h.inv.i7.queue c]
  refine List.nodup_iff_count_le_one.1 ?_ k
  refine List.Nodup.map_on ?_ (h.inv.i4.nodup.filter _)
  intro x hx y hy e
  simp only [List.mem_filter, decide_eq_true_eq] at hx hy
  exact Prod.ext e (hx.2.trans hy.2.symm)

/-- C88: what was taken out of a channel, by any number of threads, followed by what waits in it, is what calls put into it, in that order. -/
theorem C88_queue {s : St} (h : Reached s) (c : Nat) : received s c ++ s.queue c = sentTo s c :=
  h.inv.i7.queue c

/-- C88: if a call finished before another call began, whatever the threads, then no channel has the first behind the second. -/
theorem C88_order {s s' : St} (h : Reached s) {as : List Act} (h' : run s as = some s') {k k' : Nat} (hk : k ∈ s.ended) (hk' : s.ncall ≤ k')
    (c : Nat) {pre post : List Nat} (he : received s' c ++ s'.queue c = pre ++ k' :: post) : k ∉ post := by
  obtain ⟨a1, _, a2, l, a3, a4⟩ := run_grows h.inv h'
  have i' := h.inv.run h'
  rw [i'.i7.queue c] at he
  have e : sentTo s' c = sentTo s c ++ (l.filter (fun m => m.2 = c)).map (·.1) := by
    simp [sentTo, a3]
  rw [e] at he
  have hnot : k' ∉ sentTo s c := by
    intro hm
    simp only [sentTo, List.mem_map, List.mem_filter] at hm
    obtain ⟨m, ⟨hm, _⟩, rfl⟩ := hm
    exact absurd (h.inv.i3.sent_lt m hm) (Nat.not_lt.2 hk')
  have hnot' : k ∉ (l.filter (fun m => m.2 = c)).map (·.1) := by
    intro hm
    simp only [List.mem_map, List.mem_filter] at hm
    obtain ⟨m, ⟨hm, _⟩, rfl⟩ := hm
    exact a4 m hm hk
  rcases List.append_eq_append_iff.1 he with ⟨q, h1, h2⟩ | ⟨q, h1, h2⟩
  · intro hp
    exact hnot' (by rw [h2]; simp [hp])
  · cases q with
    | nil =>
      rw [List.nil_append] at h2
      intro hp
      exact hnot' (by rw [← h2]; simp [hp])
    | cons x q =>
      rw [List.cons_append] at h2
      injection h2 with h2 h3
      exact absurd (by rw [h1, h2]; simp) hnot

/-- C88: a call that finished before a channel was made is never in it. -/
theorem C88_past {s s' : St} (h : Reached s) {as : List Act} (h' : run s as = some s') {k c : Nat} (hk : k ∈ s.ended) (hc : s.nchan ≤ c) :
    k ∉ received s' c ++ s'.queue c := by
  obtain ⟨_, _, _, l, a3, a4⟩ := run_grows h.inv h'
  rw [(h.inv.run h').i7.queue c]
  intro hm
  simp only [sentTo, List.mem_map, List.mem_filter, a3] at hm
  obtain ⟨m, ⟨hm, hmc⟩, rfl⟩ := hm
  rcases List.mem_append.1 hm with hm | hm
  · have := h.inv.i8.made m hm
    simp only [decide_eq_true_eq] at hmc
    omega
  · exact a4 m hm hk

/-- C88: while no thread is inside the lock, the last value of the flag says whether there are observers; threads may read an older one. -/
theorem C88_flag {s : St} (h : Reached s) (hl : s.lock = none) : s.writes.getLast? = some true ↔ s.senders ≠ [] := by
  have hno : ∀ t, holds (s.pc t) ≠ true := fun t ht => by
    rw [h.inv.i1.holds_lock t ht] at hl; cases hl
  constructor
  · intro hf
    rcases h.inv.i2.on hf with h1 | ⟨t, k, h1⟩
    · exact h1
    · exact absurd (by rw [h1]; rfl) (hno t)
  · intro hs
    cases hf : s.writes.getLast? with
    | none =>
      have := h.inv.i9.written
      rw [List.getLast?_eq_none_iff.1 hf] at this
      cases this
    | some b =>
      cases b with
      | true => rfl
      | false =>
        rcases h.inv.i2.off hf with h1 | ⟨t, c, h1, _⟩
        · exact absurd h1 hs
        · exact absurd (by rw [h1]; rfl) (hno t)

/-- C88: every channel whose receiver is still there is known to calls; after a call sent, only channels it reached are. -/
theorem C88_forget {s : St} (h : Reached s) : (∀ c, s.alive c = true → c ∈ s.senders) ∧
    ∀ t k, s.pc t = .callDrop k → ∀ c ∈ s.senders, k ∈ received s c ++ s.queue c := by
  refine ⟨h.inv.i2.live, ?_⟩
  intro t k hp c hc
  rw [h.inv.i7.queue c]
  simp only [sentTo, List.mem_map, List.mem_filter]
  exact ⟨(k, c), ⟨h.inv.i8.kept t k (.inr hp) c hc, by simp⟩, rfl⟩

/-- C88: calls and subscriptions are not held up by receivers, and never deadlock: a thread that calls or subscribes goes on, or another
one has the lock and gives it back by its own steps alone. -/
theorem C88_calls_go_on {s : St} (h : Reached s) {t : Nat} (hi : ¬ Idle s t) (hr : ∀ c w, s.pc t ≠ .recvLock c w ∧ s.pc t ≠ .recv c w) :
    CanStep s t ∨ ∃ u n s', s.lock = some u ∧ run s (List.replicate n (.step u)) = some s' ∧ s'.lock = none := by
  rcases h.inv.blocked hi with h1 | ⟨_, u, h1⟩ | ⟨c, w, u, h1, _⟩ | ⟨c, h1, _⟩
  · exact .inl h1
  · obtain ⟨n, s', h2, h3⟩ := h.inv.frees h1
    exact .inr ⟨u, n, s', h1, h2, h3⟩
  · exact absurd h1 (hr c w).1
  · exact absurd h1 (hr c true).2

/-- C88: a thread that receives goes on unless it, or a thread that uses the same channel, waits in `wait_next` on an empty channel. -/
theorem C88_receivers {s : St} (h : Reached s) {t c : Nat} {w : Bool} (hp : s.pc t = .recvLock c w ∨ s.pc t = .recv c w) :
    CanStep s t ∨ (∃ u, u ≠ t ∧ s.rlock c = some u ∧ CanStep s u) ∨ ∃ u, Waits s u c := by
  have hi : s.pc t ≠ .idle := by rcases hp with h | h <;> rw [h] <;> simp
  rcases h.inv.blocked hi with h1 | ⟨h1, _⟩ | ⟨c', w', u, h1, h2⟩ | ⟨c', h1, h2⟩
  · exact .inl h1
  · rcases h1 with h1 | ⟨k, h1⟩ <;> rcases hp with h | h <;> rw [h] at h1 <;> cases h1
  · rcases hp with hp | hp
    · rw [hp] at h1
      cases h1
      obtain ⟨w2, hu⟩ := h.inv.i6.holder u c h2
      have hne : u ≠ t := by rintro rfl; rw [hp] at hu; cases hu
      rcases h.inv.blocked (t := u) (by rw [hu]; simp) with h3 | ⟨h3, _⟩ | ⟨_, _, _, h3, _⟩ | ⟨c3, h3, h4⟩
      · exact .inr (.inl ⟨u, hne, h2, h3⟩)
      · rcases h3 with h3 | ⟨k, h3⟩ <;> rw [hu] at h3 <;> cases h3
      · rw [hu] at h3; cases h3
      · rw [hu] at h3
        cases h3
        exact .inr (.inr ⟨u, hu, h4⟩)
    · rw [hp] at h1; cases h1
  · rcases hp with hp | hp <;> rw [hp] at h1 <;> cases h1
    exact .inr (.inr ⟨t, hp, h2⟩)

/-- C88: `wait_next` never gives `none()`: the function keeps the other end of the channel. -/
theorem C88_wait_some {s : St} (h : Reached s) : ∀ g ∈ s.got, g.wait = true → g.msg ≠ none :=
  h.inv.i6.waits

/-- C88: so a thread inside `wait_next` on an empty channel never comes back if nobody calls the function any more, whatever else happens;
and neither does a thread that is inside `next` on the same channel by then, although `next` is not meant to wait. -/
theorem C88_wait_forever {s s' : St} (h : Reached s) {t c : Nat} (hw : Waits s t c) (hq : ∀ u, callOf (s.pc u) = none)
    {as : List Act} (hn : ∀ a ∈ as, ∀ u, a ≠ .call u) (h' : run s as = some s') :
    Waits s' t c ∧ ∀ u, u ≠ t → s.pc u = .recvLock c false → s'.pc u = .recvLock c false := by
  obtain ⟨a, b⟩ := run_stuck h.inv hq hn h' hw
  exact ⟨a, fun u hu hp => b u false hu hp⟩

end Dyon.Observe
