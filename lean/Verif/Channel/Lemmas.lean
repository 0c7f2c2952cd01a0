import Verif.Channel.Spec
import Mathlib.Data.List.Nodup
import Mathlib.Data.List.Perm.Basic

/-!
# Observers of a function: invariants of all interleavings
-/

namespace Dyon.Observe

/-- The steps, one by one. -/
inductive Tr (s : St) : St → Prop
  | subscribe (t) : s.pc t = .idle → Tr s { s with pc := put s.pc t .subLock }
  | call (t) : s.pc t = .idle → Tr s { s with pc := put s.pc t (.callLoad s.ncall), ncall := s.ncall + 1 }
  | receive (t c w) : s.pc t = .idle → c ∈ s.subscribed → s.alive c = true →
      Tr s { s with pc := put s.pc t (.recvLock c w), users := (t, c) :: s.users }
  | drop (c) : c ∈ s.subscribed → (∀ u ∈ s.users, u.2 ≠ c) → Tr s { s with alive := put s.alive c false }
  | subLock (t) : s.pc t = .subLock → s.lock = none → Tr s { s with
      lock := some t, view := put s.view t (max (s.view t) s.lview), pc := put s.pc t .subPush }
  | subPush (t) : s.pc t = .subPush → Tr s { s with
      senders := s.senders ++ [s.nchan], alive := put s.alive s.nchan true, nchan := s.nchan + 1, pc := put s.pc t (.subFlag s.nchan) }
  | subFlag (t c) : s.pc t = .subFlag c → Tr s { s with
      writes := s.writes ++ [true], view := put s.view t s.writes.length, mark := put s.mark c s.writes.length, pc := put s.pc t (.subDrop c) }
  | subDrop (t c) : s.pc t = .subDrop c → Tr s { s with
      lock := none, lview := s.view t, subscribed := s.subscribed ++ [c], pc := put s.pc t .idle }
  | loadTrue (t k i) : s.pc t = .callLoad k → s.view t ≤ i → s.writes[i]? = some true → Tr s { s with
      view := put s.view t i, seen := put s.seen k (s.subscribed.filter fun c => s.mark c ≤ s.view t), pc := put s.pc t (.callLock k) }
  | loadFalse (t k i) : s.pc t = .callLoad k → s.view t ≤ i → s.writes[i]? = some false → Tr s { s with
      view := put s.view t i, seen := put s.seen k (s.subscribed.filter fun c => s.mark c ≤ s.view t),
      ended := s.ended ++ [k], pc := put s.pc t .idle }
  | sync (t u v) : v ≤ s.view t → Tr s { s with view := put s.view u (max (s.view u) v) }
  | callLock (t k) : s.pc t = .callLock k → s.lock = none →
      Tr s { s with
      lock := some t, view := put s.view t (max (s.view t) s.lview),
      pc := put s.pc t (.callSend k s.senders.length s.senders.length) }
  | send (t k i opn c) : s.pc t = .callSend k (i + 1) opn → s.senders[i]? = some c → s.alive c = true → Tr s { s with
        queue := put s.queue c (s.queue c ++ [k]), sent := s.sent ++ [(k, c)], pc := put s.pc t (.callSend k i opn) }
  | closed (t k i opn c) : s.pc t = .callSend k (i + 1) opn → s.senders[i]? = some c → s.alive c = false →
      Tr s { s with senders := swapAt s.senders i (opn - 1), pc := put s.pc t (.callSend k i (opn - 1)) }
  | cut (t k opn) : s.pc t = .callSend k 0 opn → Tr s { s with senders := s.senders.take opn, pc := put s.pc t (.callFlag k) }
  | callEmpty (t k) : s.pc t = .callFlag k → s.senders = [] → Tr s { s with
      writes := s.writes ++ [false], view := put s.view t s.writes.length, pc := put s.pc t (.callDrop k) }
  | callKept (t k) : s.pc t = .callFlag k → s.senders ≠ [] → Tr s { s with pc := put s.pc t (.callDrop k) }
  | callDrop (t k) : s.pc t = .callDrop k → Tr s { s with lock := none, lview := s.view t, ended := s.ended ++ [k], pc := put s.pc t .idle }
  | recvLock (t c w) : s.pc t = .recvLock c w → s.rlock c = none →
      Tr s { s with rlock := put s.rlock c (some t), pc := put s.pc t (.recv c w) }
  | recvSome (t c w m q) : s.pc t = .recv c w → s.queue c = m :: q → Tr s { s with
        queue := put s.queue c q, got := s.got ++ [⟨t, c, w, some m⟩], rlock := put s.rlock c none,
        users := s.users.filter (· != (t, c)), pc := put s.pc t .idle }
  | recvNone (t c w) : s.pc t = .recv c w → s.queue c = [] → (w = true → c ∉ s.senders) → Tr s { s with
        got := s.got ++ [⟨t, c, w, none⟩], rlock := put s.rlock c none,
        users := s.users.filter (· != (t, c)), pc := put s.pc t .idle }

theorem act_tr {s s' : St} {a : Act} (h : act s a = some s') : Tr s s' := by
  cases a with
  | subscribe t =>
    simp only [act] at h
    split at h
    · cases h; exact .subscribe t ‹_›
    · cases h
  | call t =>
    simp only [act] at h
    split at h
    · cases h; exact .call t ‹_›
    · cases h
  | receive t c w =>
    simp only [act] at h
    split at h
    · rename_i hc; cases h; exact .receive t c w hc.1 hc.2.1 hc.2.2
    · cases h
  | drop c =>
    simp only [act] at h
    split at h
    · rename_i hc; cases h; exact .drop c hc.1 hc.2
    · cases h
  | load t i =>
    simp only [act] at h
    split at h
    · split at h
      · split at h
        · cases h; exact .loadTrue t _ i ‹_› ‹_› ‹_›
        · cases h; exact .loadFalse t _ i ‹_› ‹_› ‹_›
        · cases h
      · cases h
    · cases h
  | sync t u v =>
    simp only [act] at h
    split at h
    · cases h; exact .sync t u v ‹_›
    · cases h
  | step t =>
    simp only [act, advance] at h
    split at h
    · cases h
    · split at h
      · cases h; exact .subLock t ‹_› ‹_›
      · cases h
    · cases h; exact .subPush t ‹_›
    · cases h; exact .subFlag t _ ‹_›
    · cases h; exact .subDrop t _ ‹_›
    · cases h
    · split at h
      · cases h; exact .callLock t _ ‹_› ‹_›
      · cases h
    · split at h
      · cases h
      · split at h
        · cases h; exact .send t _ _ _ _ ‹_› ‹_› ‹_›
        · rename_i hc hd
          cases h; exact .closed t _ _ _ _ ‹_› hc (by simpa using hd)
    · cases h; exact .cut t _ _ ‹_›
    · split at h
      · cases h; exact .callEmpty t _ ‹_› (List.eq_nil_of_length_eq_zero ‹_›)
      · rename_i hc
        cases h; exact .callKept t _ ‹_› (fun e => hc (by rw [e]; rfl))
    · cases h; exact .callDrop t _ ‹_›
    · split at h
      · cases h; exact .recvLock t _ _ ‹_› ‹_›
      · cases h
    · split at h
      · cases h; exact .recvSome t _ _ _ _ ‹_› ‹_›
      · split at h
        · cases h
        · rename_i hc
          cases h
          refine .recvNone t _ _ ‹_› ‹_› ?_
          intro hw hm
          exact hc (by simp [hw, hm])

/-- A thread that has the lock of the senders. -/
def holds : Pc → Bool
  | .subPush | .subFlag _ | .subDrop _ | .callSend _ _ _ | .callFlag _ | .callDrop _ => true
  | _ => false

/-- The lock. -/
structure Inv1 (s : St) : Prop where
  holds_lock : ∀ t, holds (s.pc t) = true → s.lock = some t
  lock_holds : ∀ t, s.lock = some t → holds (s.pc t) = true

theorem Inv1.step {s s' : St} (i : Inv1 s) (h : Tr s s') : Inv1 s' := by
  obtain ⟨h1, h2⟩ := i
  cases h <;> constructor <;> intro t' <;> simp only [put] <;> first | grind [holds] | skip

/-- The list of senders and the channels. -/
structure Inv2 (s : St) : Prop where
  nodup : s.senders.Nodup
  lt : ∀ c ∈ s.senders, c < s.nchan
  live : ∀ c, s.alive c = true → c ∈ s.senders
  sub_lt : ∀ c ∈ s.subscribed, c < s.nchan
  flag_lt : ∀ t c, s.pc t = .subFlag c → c < s.nchan ∧ c ∈ s.senders ∧ c ∉ s.subscribed
  drop_lt : ∀ t c, s.pc t = .subDrop c → c < s.nchan ∧ c ∈ s.senders ∧ c ∉ s.subscribed
  users : ∀ u ∈ s.users, s.alive u.2 = true
  off : s.writes.getLast? = some false → s.senders = [] ∨ ∃ t c, s.pc t = .subFlag c ∧ s.senders = [c]
  on : s.writes.getLast? = some true → s.senders ≠ [] ∨ ∃ t k, s.pc t = .callFlag k
  loop : ∀ t k i opn, s.pc t = .callSend k i opn → i ≤ opn ∧ opn ≤ s.senders.length ∧
    ∀ j c, opn ≤ j → s.senders[j]? = some c → s.alive c = false

theorem swapAt_perm {α} (l : List α) (i j : Nat) : (swapAt l i j).Perm l := by
  unfold swapAt
  split
  · rename_i a b ha hb
    obtain ⟨hi, rfl⟩ := List.getElem?_eq_some_iff.1 ha
    obtain ⟨hj, rfl⟩ := List.getElem?_eq_some_iff.1 hb
    exact List.set_set_perm hi hj
  · exact List.Perm.refl _

theorem swapAt_get {α} {l : List α} {i j : Nat} {a b : α} (ha : l[i]? = some a) (hb : l[j]? = some b) (n : Nat) :
    (swapAt l i j)[n]? = if n = j then some a else if n = i then some b else l[n]? := by
  unfold swapAt
  rw [ha, hb]
  have hi := (List.getElem?_eq_some_iff.1 ha).1
  have hj := (List.getElem?_eq_some_iff.1 hb).1
  grind

set_option maxHeartbeats 2000000 in
theorem Inv2.step {s s' : St} (i1 : Inv1 s) (i : Inv2 s) (h : Tr s s') : Inv2 s' := by
  have j1 := i1.step h
  obtain ⟨g1, g2⟩ := i1
  obtain ⟨h1, h2, h3, h4, h5, h6, h7, h8, h9, h10⟩ := i
  cases h with
  | subscribe t hp => constructor <;> simp only [put] <;> grind [holds]
  | call t hp => constructor <;> simp only [put] <;> grind [holds]
  | receive t c w hp hc ha => constructor <;> simp only [put] <;> grind [holds]
  | drop c hc hu => constructor <;> simp only [put] <;> grind [holds]
  | subLock t hp hl => constructor <;> simp only [put] <;> grind [holds]
  | subPush t hp =>
    constructor <;> simp only [put] <;> first | grind [holds] | (intro _; left; simp)
  | subFlag t c hp => constructor <;> simp only [put, List.getLast?_concat] <;> grind [holds]
  | subDrop t c hp => constructor <;> simp only [put] <;> grind [holds]
  | loadTrue t k i hp hv hf => clear hf; constructor <;> simp only [put] <;> grind [holds]
  | loadFalse t k i hp hv hf => clear hf; constructor <;> simp only [put] <;> grind [holds]
  | sync t u v hv => constructor <;> simp only [put] <;> grind [holds]
  | callLock t k hp hl => constructor <;> simp only [put] <;> grind [holds]
  | send t k i opn c hp hc ha => constructor <;> simp only [put] <;> grind [holds]
  | closed t k i opn c hp hc ha =>
    obtain ⟨a1, a2, a3⟩ := h10 t k (i + 1) opn hp
    obtain ⟨b, hb⟩ : ∃ b, s.senders[opn - 1]? = some b := ⟨_, List.getElem?_eq_getElem (by omega)⟩
    have hm := fun x => (swapAt_perm s.senders i (opn - 1)).mem_iff (a := x)
    have hl := (swapAt_perm s.senders i (opn - 1)).length_eq
    have hn := (swapAt_perm s.senders i (opn - 1)).nodup_iff
    have hg := swapAt_get hc hb
    have hne : s.senders ≠ [] := by rintro h; rw [h] at hc; simp at hc
    have hne' : swapAt s.senders i (opn - 1) ≠ [] := by
      rintro h; rw [h] at hl; exact hne (List.length_eq_zero_iff.1 hl.symm)
    generalize swapAt s.senders i (opn - 1) = l at *
    clear j1
    constructor <;> simp only [put]
    · exact hn.2 h1
    · grind
    · grind
    · grind
    · grind [holds]
    · grind [holds]
    · grind
    · grind [holds]
    · grind
    · intro t' k' i' opn' hp'
      split at hp'
      · cases hp'
        refine ⟨by omega, by omega, ?_⟩
        intro j c' hj hc'
        rw [hg] at hc'
        split at hc'
        · cases hc'; exact ha
        · split at hc'
          · omega
          · exact a3 j c' (by omega) hc'
      · grind [holds]
  | cut t k opn hp =>
    obtain ⟨a1, a2, a3⟩ := h10 t k 0 opn hp
    have hm : ∀ x, x ∈ s.senders.take opn → x ∈ s.senders := fun x => List.mem_of_mem_take
    have hk : ∀ x, s.alive x = true → x ∈ s.senders.take opn := by
      intro x hx
      obtain ⟨j, hj⟩ := List.mem_iff_getElem?.1 (h3 x hx)
      have hjo : j < opn := by
        by_contra hc
        rw [a3 j x (by omega) hj] at hx
        cases hx
      exact List.mem_iff_getElem?.2 ⟨j, by rw [List.getElem?_take_of_lt hjo, hj]⟩
    have hn : (s.senders.take opn).Nodup := h1.sublist (List.take_sublist _ _)
    have h0 : s.senders = [] → s.senders.take opn = [] := by rintro h; rw [h]; simp
    generalize s.senders.take opn = l at *
    clear j1
    constructor <;> simp only [put]
    · exact hn
    · grind
    · exact hk
    · grind
    · grind [holds]
    · grind [holds]
    · grind
    · grind [holds]
    · intro _
      exact .inr ⟨t, k, by simp⟩
    · grind [holds]
  | callEmpty t k hp hs => constructor <;> simp only [put, List.getLast?_concat] <;> grind [holds]
  | callKept t k hp hs => constructor <;> simp only [put] <;> grind [holds]
  | callDrop t k hp => constructor <;> simp only [put] <;> grind [holds]
  | recvLock t c w hp hl => constructor <;> simp only [put] <;> grind [holds]
  | recvSome t c w m q hp hq => constructor <;> simp only [put] <;> grind [holds]
  | recvNone t c w hp hq hw => constructor <;> simp only [put] <;> grind [holds]

/-- The calls. -/
structure Inv3 (s : St) : Prop where
  call_lt : ∀ t k, callOf (s.pc t) = some k → k < s.ncall ∧ k ∉ s.ended
  call_inj : ∀ t t' k, callOf (s.pc t) = some k → callOf (s.pc t') = some k → t = t'
  ended_lt : ∀ k ∈ s.ended, k < s.ncall
  sent_lt : ∀ m ∈ s.sent, m.1 < s.ncall
  fresh : ∀ t k, s.pc t = .callLoad k ∨ s.pc t = .callLock k → ∀ c, (k, c) ∉ s.sent
  seen_lt : ∀ k, ∀ c ∈ s.seen k, c < s.nchan

set_option maxHeartbeats 2000000 in
theorem Inv3.step {s s' : St} (i2 : Inv2 s) (i : Inv3 s) (h : Tr s s') : Inv3 s' := by
  have h4 := i2.sub_lt
  clear i2
  obtain ⟨k1, k2, k3, k4, k5, k6⟩ := i
  cases h <;> constructor <;> simp only [put] <;> grind [callOf]

/-- What was sent. -/
structure Inv4 (s : St) : Prop where
  todo : ∀ t k i opn, s.pc t = .callSend k i opn → ∀ j c, s.senders[j]? = some c → j < i → (k, c) ∉ s.sent
  done : ∀ t k i opn, s.pc t = .callSend k i opn → ∀ j c, s.senders[j]? = some c → i ≤ j → j < opn → (k, c) ∈ s.sent
  after : ∀ t k, s.pc t = .callFlag k ∨ s.pc t = .callDrop k → ∀ c ∈ s.seen k, s.alive c = true → (k, c) ∈ s.sent
  ended : ∀ k ∈ s.ended, ∀ c ∈ s.seen k, s.alive c = true → (k, c) ∈ s.sent
  nodup : s.sent.Nodup

/-- Two threads do not both have the lock. -/
theorem Inv1.alone {s : St} (i : Inv1 s) {t t' : Nat} (h : holds (s.pc t) = true) (h' : holds (s.pc t') = true) : t' = t := by
  have a := i.holds_lock t h
  rw [i.holds_lock t' h'] at a
  simpa using a

/-- Steps that do not touch the senders and what was sent. -/
theorem Inv4.keep {s s' : St} (i : Inv4 s) (hs : s'.senders = s.senders) (hse : s'.sent = s.sent)
    (hp : ∀ t k i opn, s'.pc t = .callSend k i opn → s.pc t = .callSend k i opn)
    (ha : ∀ t k, s'.pc t = .callFlag k ∨ s'.pc t = .callDrop k → s.pc t = .callFlag k ∨ s.pc t = .callDrop k)
    (hseen : ∀ t k, s'.pc t = .callFlag k ∨ s'.pc t = .callDrop k → s'.seen k = s.seen k)
    (hal : ∀ c ∈ s.subscribed, s'.alive c = true → s.alive c = true)
    (hsub : ∀ k, ∀ c ∈ s.seen k, c ∈ s.subscribed)
    (hend : ∀ k ∈ s'.ended, ∀ c ∈ s'.seen k, s'.alive c = true → (k, c) ∈ s'.sent) : Inv4 s' := by
  obtain ⟨k7, k8, k9, k10, k11⟩ := i
  refine ⟨?_, ?_, ?_, hend, by rw [hse]; exact k11⟩
  · intro t k i opn hpc
    rw [hs, hse]
    exact k7 t k i opn (hp t k i opn hpc)
  · intro t k i opn hpc
    rw [hs, hse]
    exact k8 t k i opn (hp t k i opn hpc)
  · intro t k hpc c hc hal'
    rw [hseen t k hpc] at hc
    rw [hse]
    exact k9 t k (ha t k hpc) c hc (hal c (hsub k c hc) hal')

/-- The channels a call saw are subscribed. -/
structure Inv5 (s : St) : Prop where
  seen_sub : ∀ k, ∀ c ∈ s.seen k, c ∈ s.subscribed

theorem Inv5.step {s s' : St} (i : Inv5 s) (h : Tr s s') : Inv5 s' := by
  obtain ⟨k1⟩ := i
  cases h <;> constructor <;> simp only [put] <;> grind

/-- What may be read from the flag. -/
structure Inv9 (s : St) : Prop where
  stale : ∀ i c, s.writes[i]? = some false → 0 < s.mark c → s.mark c ≤ i → s.alive c = false
  marked : ∀ c ∈ s.subscribed, 0 < s.mark c
  marks : ∀ t c, s.pc t = .subDrop c → 0 < s.mark c
  mark_lt : ∀ c, 0 < s.mark c → c < s.nchan
  written : 0 < s.writes.length
  view_lt : ∀ t, s.view t < s.writes.length
  lview_lt : s.lview < s.writes.length

theorem Inv9.keep {s s' : St} (i : Inv9 s) (hw : s'.writes = s.writes) (hm : s'.mark = s.mark) (hn : s.nchan ≤ s'.nchan)
    (ha : ∀ c, 0 < s.mark c → s'.alive c = true → s.alive c = true) (hs : ∀ c ∈ s'.subscribed, 0 < s.mark c)
    (hp : ∀ t c, s'.pc t = .subDrop c → s.pc t = .subDrop c)
    (hv : ∀ t, s'.view t < s.writes.length) (hl : s'.lview < s.writes.length) : Inv9 s' := by
  obtain ⟨k1, k2, k3, k4, k5, k6, k7⟩ := i
  refine ⟨?_, ?_, ?_, ?_, ?_, ?_, ?_⟩
  · intro i c
    rw [hw, hm]
    intro h1 h2 h3
    cases h : s'.alive c with
    | false => rfl
    | true => have e := ha c h2 h; rw [k1 i c h1 h2 h3] at e; cases e
  · rw [hm]; exact hs
  · intro t c h
    rw [hm]
    exact k3 t c (hp t c h)
  · intro c h
    rw [hm] at h
    exact Nat.lt_of_lt_of_le (k4 c h) hn
  · rw [hw]; exact k5
  · rw [hw]; exact hv
  · rw [hw]; exact hl

theorem Inv9.step {s s' : St} (i2 : Inv2 s) (i : Inv9 s) (h : Tr s s') : Inv9 s' := by
  obtain ⟨k1, k2, k3, k4, k5, k6, k7⟩ := id i
  have h3 := i2.live
  cases h with
  | subFlag t c hp =>
    have hc := (i2.flag_lt t c hp).1
    refine ⟨?_, ?_, ?_, ?_, by simp, ?_, ?_⟩ <;> simp only [put]
    · intro i c' hw h0 hm
      split at hm
      · exfalso
        rcases Nat.lt_or_eq_of_le hm with h | h
        · rw [List.getElem?_eq_none (by simp; omega)] at hw
          cases hw
        · subst h
          simp at hw
      · rename_i hne
        rw [if_neg hne] at h0
        refine k1 i c' ?_ h0 hm
        rw [List.getElem?_append] at hw
        split at hw
        · exact hw
        · rcases Nat.eq_zero_or_pos (i - s.writes.length) with h | h
          · rw [h] at hw; simp at hw
          · rw [List.getElem?_eq_none (by simp; omega)] at hw; cases hw
    · intro c' hc'
      split
      · exact k5
      · exact k2 c' hc'
    · intro t' c' hp'
      split
      · exact k5
      · split at hp'
        · cases hp'; exact absurd rfl ‹_›
        · exact k3 t' c' hp'
    · intro c' h0
      split at h0
      · subst_vars; exact hc
      · exact k4 c' h0
    · intro t'
      have := k6 t'
      split <;> simp <;> omega
    · simp; omega
  | callEmpty t k hp hs =>
    have hdead : ∀ c, s.alive c = false := by
      intro c
      cases h : s.alive c with
      | false => rfl
      | true => have := h3 c h; rw [hs] at this; cases this
    refine ⟨fun _ c _ _ _ => hdead c, k2, ?_, k4, by simp, ?_, ?_⟩ <;> simp only [put]
    · intro t' c' hp'
      split at hp'
      · cases hp'
      · exact k3 t' c' hp'
    · intro t'
      have := k6 t'
      split <;> simp <;> omega
    · simp; omega
  | loadTrue t k ix hp hv hf =>
    have hx := (List.getElem?_eq_some_iff.1 hf).1
    clear hf k1
    refine i.keep rfl rfl ?_ ?_ ?_ ?_ ?_ ?_ <;> simp only [put] <;> grind
  | loadFalse t k ix hp hv hf =>
    have hx := (List.getElem?_eq_some_iff.1 hf).1
    clear hf k1
    refine i.keep rfl rfl ?_ ?_ ?_ ?_ ?_ ?_ <;> simp only [put] <;> grind
  | _ =>
    clear k1
    refine i.keep rfl rfl ?_ ?_ ?_ ?_ ?_ ?_ <;> simp only [put] <;> grind

set_option maxHeartbeats 4000000 in
theorem Inv4.step {s s' : St} (i1 : Inv1 s) (i2 : Inv2 s) (i3 : Inv3 s) (i5 : Inv5 s) (i9 : Inv9 s) (i : Inv4 s) (h : Tr s s') : Inv4 s' := by
  obtain ⟨h1, h2, h3, h4, h5, h6, h7, h8, h9, h10⟩ := id i2
  obtain ⟨c1, c2, c3, c4, c5, c6⟩ := id i3
  obtain ⟨k7, k8, k9, k10, k11⟩ := id i
  have hs := i5.seen_sub
  cases h with
  | subscribe t hp =>
    refine i.keep rfl rfl ?_ ?_ ?_ ?_ hs ?_ <;> simp only [put] <;> clear h10 k7 k8 <;> grind [callOf]
  | call t hp =>
    refine i.keep rfl rfl ?_ ?_ ?_ ?_ hs ?_ <;> simp only [put] <;> clear h10 k7 k8 <;> grind [callOf]
  | receive t c w hp hc ha =>
    refine i.keep rfl rfl ?_ ?_ ?_ ?_ hs ?_ <;> simp only [put] <;> clear h10 k7 k8 <;> grind [callOf]
  | drop c hc hu =>
    refine i.keep rfl rfl ?_ ?_ ?_ ?_ hs ?_ <;> simp only [put] <;> clear h10 k7 k8 <;> grind [callOf]
  | subLock t hp hl =>
    refine i.keep rfl rfl ?_ ?_ ?_ ?_ hs ?_ <;> simp only [put] <;> clear h10 k7 k8 <;> grind [callOf]
  | subFlag t c hp =>
    refine i.keep rfl rfl ?_ ?_ ?_ ?_ hs ?_ <;> simp only [put] <;> clear h10 k7 k8 <;> grind [callOf]
  | subDrop t c hp =>
    refine i.keep rfl rfl ?_ ?_ ?_ ?_ hs ?_ <;> simp only [put] <;> clear h10 k7 k8 <;> grind [callOf]
  | loadTrue t k ix hp hv hf =>
    have e1 : ∀ t', s.pc t' = .callFlag k ∨ s.pc t' = .callDrop k → t' = t := fun t' h' =>
      c2 t' t k (by rcases h' with h | h <;> rw [h] <;> rfl) (by rw [hp]; rfl)
    have e2 : k ∉ s.ended := (c1 t k (by rw [hp]; rfl)).2
    clear hf
    refine i.keep rfl rfl ?_ ?_ ?_ ?_ hs ?_ <;> simp only [put] <;> clear h10 k7 k8 <;> grind [callOf]
  | sync t u v hv =>
    refine i.keep rfl rfl ?_ ?_ ?_ ?_ hs ?_ <;> simp only [put] <;> clear h10 k7 k8 <;> grind [callOf]
  | loadFalse t k ix hp hv hf =>
    have e1 : ∀ t', s.pc t' = .callFlag k ∨ s.pc t' = .callDrop k → t' = t := fun t' h' =>
      c2 t' t k (by rcases h' with h | h <;> rw [h] <;> rfl) (by rw [hp]; rfl)
    have e2 : k ∉ s.ended := (c1 t k (by rw [hp]; rfl)).2
    have e3 : ∀ c ∈ s.subscribed, s.mark c ≤ s.view t → s.alive c = false := fun c hc hm =>
      i9.stale ix c hf (i9.marked c hc) (Nat.le_trans hm hv)
    clear hf
    refine i.keep rfl rfl ?_ ?_ ?_ ?_ hs ?_ <;> simp only [put] <;> clear h10 k7 k8 <;> grind [callOf]
  | callEmpty t k hp hsn =>
    refine i.keep rfl rfl ?_ ?_ ?_ ?_ hs ?_ <;> simp only [put] <;> clear h10 k7 k8 <;> grind [callOf]
  | callKept t k hp hsn =>
    refine i.keep rfl rfl ?_ ?_ ?_ ?_ hs ?_ <;> simp only [put] <;> clear h10 k7 k8 <;> grind [callOf]
  | callDrop t k hp =>
    refine i.keep rfl rfl ?_ ?_ ?_ ?_ hs ?_ <;> simp only [put] <;> clear h10 k7 k8 <;> grind [callOf]
  | recvLock t c w hp hl =>
    refine i.keep rfl rfl ?_ ?_ ?_ ?_ hs ?_ <;> simp only [put] <;> clear h10 k7 k8 <;> grind [callOf]
  | recvSome t c w m q hp hq =>
    refine i.keep rfl rfl ?_ ?_ ?_ ?_ hs ?_ <;> simp only [put] <;> clear h10 k7 k8 <;> grind [callOf]
  | recvNone t c w hp hq hw =>
    refine i.keep rfl rfl ?_ ?_ ?_ ?_ hs ?_ <;> simp only [put] <;> clear h10 k7 k8 <;> grind [callOf]
  | subPush t hp =>
    have key : ∀ t', holds (s.pc t') = true → t' = t := fun t' h' => i1.alone (by rw [hp]; rfl) h'
    have hlt : ∀ k, ∀ c ∈ s.seen k, c ≠ s.nchan := fun k c hc => Nat.ne_of_lt (h4 c (hs k c hc))
    refine ⟨?_, ?_, ?_, ?_, k11⟩ <;> simp only [put]
    · intro t' k i opn hp'
      split at hp'
      · cases hp'
      · exact absurd (key t' (by rw [hp']; rfl)) ‹_›
    · intro t' k i opn hp'
      split at hp'
      · cases hp'
      · exact absurd (key t' (by rw [hp']; rfl)) ‹_›
    · intro t' k hp'
      split at hp'
      · simp at hp'
      · exact absurd (key t' (by rcases hp' with h | h <;> rw [h] <;> rfl)) ‹_›
    · intro k hk c hc hal
      rw [if_neg (hlt k c hc)] at hal
      exact k10 k hk c hc hal
  | callLock t k hp hl =>
    refine ⟨?_, ?_, ?_, k10, k11⟩ <;> simp only [put]
    · intro t' k' i' opn' hp' j c hj hji
      split at hp'
      · cases hp'
        exact c5 t k (.inr hp) c
      · exact k7 t' k' i' opn' hp' j c hj hji
    · intro t' k' i' opn' hp' j c hj hji hjo
      split at hp'
      · cases hp'; omega
      · exact k8 t' k' i' opn' hp' j c hj hji hjo
    · intro t' k' hp'
      split at hp'
      · simp at hp'
      · exact k9 t' k' hp'
  | send t k i opn c hp hc ha =>
    have key : ∀ t', holds (s.pc t') = true → t' = t := fun t' h' => i1.alone (by rw [hp]; rfl) h'
    have hnew : (k, c) ∉ s.sent := k7 t k (i + 1) opn hp i c hc (by omega)
    refine ⟨?_, ?_, ?_, ?_, ?_⟩ <;> simp only [put]
    · intro t' k' i' opn' hp' j c' hj hji
      split at hp'
      · cases hp'
        rw [List.mem_append, not_or]
        refine ⟨k7 t k (i + 1) opn hp j c' hj (by omega), ?_⟩
        rw [List.mem_singleton]
        intro he
        cases he
        have := (List.getElem?_inj (List.getElem?_eq_some_iff.1 hj).1 h1).1 (hj.trans hc.symm)
        omega
      · exact absurd (key t' (by rw [hp']; rfl)) ‹_›
    · intro t' k' i' opn' hp' j c' hj hji hjo
      split at hp'
      · cases hp'
        rw [List.mem_append]
        rcases Nat.lt_or_eq_of_le hji with h | h
        · exact .inl (k8 t k (i + 1) opn hp j c' hj (by omega) hjo)
        · subst h
          rw [hc] at hj
          cases hj
          exact .inr (by simp)
      · exact absurd (key t' (by rw [hp']; rfl)) ‹_›
    · intro t' k' hp' c' hc' hal
      split at hp'
      · simp at hp'
      · exact List.mem_append_left _ (k9 t' k' hp' c' hc' hal)
    · intro k' hk' c' hc' hal
      exact List.mem_append_left _ (k10 k' hk' c' hc' hal)
    · rw [List.nodup_append]
      refine ⟨k11, by simp, ?_⟩
      intro a ha b hb
      rw [List.mem_singleton] at hb
      rintro rfl
      exact hnew (hb ▸ ha)
  | closed t k i opn c hp hc ha =>
    have key : ∀ t', holds (s.pc t') = true → t' = t := fun t' h' => i1.alone (by rw [hp]; rfl) h'
    obtain ⟨a1, a2, a3⟩ := h10 t k (i + 1) opn hp
    obtain ⟨b, hb⟩ : ∃ b, s.senders[opn - 1]? = some b := ⟨_, List.getElem?_eq_getElem (by omega)⟩
    have hg := swapAt_get hc hb
    refine ⟨?_, ?_, ?_, k10, k11⟩ <;> simp only [put]
    · intro t' k' i' opn' hp' j c' hj hji
      split at hp'
      · cases hp'
        rw [hg, if_neg (by omega), if_neg (by omega)] at hj
        exact k7 t k (i + 1) opn hp j c' hj (by omega)
      · exact absurd (key t' (by rw [hp']; rfl)) ‹_›
    · intro t' k' i' opn' hp' j c' hj hji hjo
      split at hp'
      · cases hp'
        rw [hg, if_neg (by omega)] at hj
        split at hj
        · cases hj
          exact k8 t k (i + 1) opn hp (opn - 1) b hb (by omega) (by omega)
        · exact k8 t k (i + 1) opn hp j c' hj (by omega) (by omega)
      · exact absurd (key t' (by rw [hp']; rfl)) ‹_›
    · intro t' k' hp' c' hc' hal
      split at hp'
      · simp at hp'
      · exact k9 t' k' hp' c' hc' hal
  | cut t k opn hp =>
    have key : ∀ t', holds (s.pc t') = true → t' = t := fun t' h' => i1.alone (by rw [hp]; rfl) h'
    obtain ⟨a1, a2, a3⟩ := h10 t k 0 opn hp
    refine ⟨?_, ?_, ?_, k10, k11⟩ <;> simp only [put]
    · intro t' k' i' opn' hp'
      split at hp'
      · cases hp'
      · exact absurd (key t' (by rw [hp']; rfl)) ‹_›
    · intro t' k' i' opn' hp'
      split at hp'
      · cases hp'
      · exact absurd (key t' (by rw [hp']; rfl)) ‹_›
    · intro t' k' hp' c' hc' hal
      split at hp'
      · simp only [Pc.callFlag.injEq, reduceCtorEq, or_false] at hp'
        subst hp'
        obtain ⟨j, hj⟩ := List.mem_iff_getElem?.1 (h3 c' hal)
        have hjo : j < opn := by
          by_contra hcon
          rw [a3 j c' (by omega) hj] at hal
          cases hal
        exact k8 t k 0 opn hp j c' hj (by omega) hjo
      · exact k9 t' k' hp' c' hc' hal

/-- The channels while they are used. -/
structure Inv6 (s : St) : Prop where
  use : ∀ t c w, s.pc t = .recvLock c w ∨ s.pc t = .recv c w → (t, c) ∈ s.users
  live : ∀ u ∈ s.users, s.alive u.2 = true
  sub : ∀ u ∈ s.users, u.2 ∈ s.subscribed
  held : ∀ t c w, s.pc t = .recv c w → s.rlock c = some t
  holder : ∀ t c, s.rlock c = some t → ∃ w, s.pc t = .recv c w
  waits : ∀ g ∈ s.got, g.wait = true → g.msg ≠ none

set_option maxHeartbeats 4000000 in
theorem Inv6.step {s s' : St} (i2 : Inv2 s) (i : Inv6 s) (h : Tr s s') : Inv6 s' := by
  have h3 := i2.live
  clear i2
  obtain ⟨k1, k2, k2b, k3, k4, k5⟩ := i
  have k6 : ∀ t c w, s.pc t = .recv c w → c ∈ s.senders := fun t c w h => h3 c (k2 _ (k1 t c w (.inr h)))
  cases h <;> constructor <;> simp only [put] <;> grind

/-- What was received and what waits. -/
structure Inv7 (s : St) : Prop where
  queue : ∀ c, received s c ++ s.queue c = sentTo s c

theorem Inv7.step {s s' : St} (i : Inv7 s) (h : Tr s s') : Inv7 s' := by
  obtain ⟨k⟩ := i
  cases h <;> constructor <;> intro c' <;> have kc := k c' <;> simp only [received, sentTo, put] at kc ⊢
  case send t m i opn c hp hc ha =>
    by_cases h : c' = c
    · subst h
      simp [← kc]
    · have h' : ¬ c = c' := fun e => h e.symm
      simp [h, h', kc]
  case recvSome t c w m q hp hq =>
    by_cases h : c' = c
    · subst h
      simp [← kc, hq]
    · have h' : ¬ c = c' := fun e => h e.symm
      simp [h, h', kc]
  case recvNone t c w hp hq hw =>
    by_cases h : c = c'
    · subst h
      simp [kc]
    · simp [h, kc]
  all_goals exact kc

/-- The senders after a call, and the channels that were sent to. -/
structure Inv8 (s : St) : Prop where
  kept : ∀ t k, s.pc t = .callFlag k ∨ s.pc t = .callDrop k → ∀ c ∈ s.senders, (k, c) ∈ s.sent
  made : ∀ m ∈ s.sent, m.2 < s.nchan

theorem Inv8.step {s s' : St} (i1 : Inv1 s) (i2 : Inv2 s) (i4 : Inv4 s) (i : Inv8 s) (h : Tr s s') : Inv8 s' := by
  obtain ⟨k1, k2⟩ := i
  have h2 := i2.lt
  have k8 := i4.done
  have hal : ∀ t t', holds (s.pc t) = true → holds (s.pc t') = true → t' = t := fun t t' h h' => i1.alone h h'
  clear i1 i2 i4
  cases h with
  | send t k i opn c hp hc ha =>
    have hm : c ∈ s.senders := List.mem_iff_getElem?.2 ⟨i, hc⟩
    clear k8 hc
    constructor <;> simp only [put] <;> grind
  | closed t k i opn c hp hc ha =>
    have e : ∀ t', s.pc t' = .callFlag k ∨ s.pc t' = .callDrop k → t' = t := fun t' h => hal t t' (by rw [hp]; rfl) (by rcases h with h | h <;> rw [h] <;> rfl)
    refine ⟨?_, k2⟩
    simp only [put]
    intro t' k' hp'
    split at hp'
    · simp at hp'
    · exact absurd (hal t t' (by rw [hp]; rfl) (by rcases hp' with h | h <;> rw [h] <;> rfl)) ‹_›
  | subPush t hp =>
    refine ⟨?_, fun m hm => Nat.lt_succ_of_lt (k2 m hm)⟩
    simp only [put]
    intro t' k' hp'
    split at hp'
    · simp at hp'
    · exact absurd (hal t t' (by rw [hp]; rfl) (by rcases hp' with h | h <;> rw [h] <;> rfl)) ‹_›
  | cut t k opn hp =>
    refine ⟨?_, k2⟩
    simp only [put]
    intro t' k' hp'
    split at hp'
    · simp only [Pc.callFlag.injEq, reduceCtorEq, or_false] at hp'
      subst hp'
      intro c hc
      obtain ⟨j, hj⟩ := List.mem_iff_getElem?.1 hc
      rw [List.getElem?_take] at hj
      split at hj
      · exact k8 t k 0 opn hp j c hj (by omega) ‹_›
      · cases hj
    · exact absurd (hal t t' (by rw [hp]; rfl) (by rcases hp' with h | h <;> rw [h] <;> rfl)) ‹_›
  | _ => clear k8; constructor <;> simp only [put] <;> grind

/-- All of it. -/
structure Inv (s : St) : Prop where
  i1 : Inv1 s
  i2 : Inv2 s
  i3 : Inv3 s
  i4 : Inv4 s
  i5 : Inv5 s
  i6 : Inv6 s
  i7 : Inv7 s
  i8 : Inv8 s
  i9 : Inv9 s

theorem Inv.start : Inv start := by
  refine ⟨?_, ?_, ?_, ?_, ?_, ?_, ?_, ?_, ?_⟩ <;> constructor <;> simp [Observe.start, holds, callOf, received, sentTo]

theorem Inv.step {s s' : St} (i : Inv s) (h : Tr s s') : Inv s' :=
  ⟨i.i1.step h, i.i2.step i.i1 h, i.i3.step i.i2 h, i.i4.step i.i1 i.i2 i.i3 i.i5 i.i9 h, i.i5.step h, i.i6.step i.i2 h, i.i7.step h,
    i.i8.step i.i1 i.i2 i.i4 h, i.i9.step i.i2 h⟩

theorem Inv.run {as : List Act} : ∀ {s s' : St}, Inv s → run s as = some s' → Inv s' := by
  induction as with
  | nil => intro s s' i h; cases h; exact i
  | cons a as ih =>
    intro s s' i h
    simp only [Observe.run] at h
    split at h
    · exact ih (i.step (act_tr ‹_›)) h
    · cases h

theorem Reached.inv {s : St} (h : Reached s) : Inv s := by
  obtain ⟨as, h⟩ := h
  exact Inv.start.run h

/-- What was sent only grows, by calls that did not end; the number of calls too. -/
theorem Tr.grows {s s' : St} (i : Inv s) (h : Tr s s') :
    s.ncall ≤ s'.ncall ∧ s.nchan ≤ s'.nchan ∧ (∀ k ∈ s.ended, k ∈ s'.ended) ∧ ∃ l, s'.sent = s.sent ++ l ∧ ∀ m ∈ l, m.1 ∉ s.ended := by
  have c1 := i.i3.call_lt
  clear i
  cases h with
  | send t k i opn c hp hc ha =>
    refine ⟨Nat.le_refl _, Nat.le_refl _, fun _ h => h, [(k, c)], rfl, ?_⟩
    intro m hm
    rw [List.mem_singleton] at hm
    subst hm
    exact (c1 t k (by rw [hp]; rfl)).2
  | _ => exact ⟨by simp, by simp, by simp +contextual, [], by simp, by simp⟩

theorem run_grows {as : List Act} : ∀ {s s' : St}, Inv s → run s as = some s' →
    s.ncall ≤ s'.ncall ∧ s.nchan ≤ s'.nchan ∧ (∀ k ∈ s.ended, k ∈ s'.ended) ∧ ∃ l, s'.sent = s.sent ++ l ∧ ∀ m ∈ l, m.1 ∉ s.ended := by
  induction as with
  | nil => intro s s' _ h; cases h; exact ⟨Nat.le_refl _, Nat.le_refl _, fun _ h => h, [], by simp, by simp⟩
  | cons a as ih =>
    intro s s' i h
    simp only [Observe.run] at h
    split at h
    · rename_i s1 h1
      have tr := act_tr h1
      obtain ⟨a1, a1b, a2, l, a3, a4⟩ := tr.grows i
      obtain ⟨b1, b1b, b2, l', b3, b4⟩ := ih (i.step tr) h
      refine ⟨Nat.le_trans a1 b1, Nat.le_trans a1b b1b, fun k hk => b2 k (a2 k hk), l ++ l', by rw [b3, a3, List.append_assoc], ?_⟩
      intro m hm
      rcases List.mem_append.1 hm with hm | hm
      · exact a4 m hm
      · exact fun hk => b4 m hm (a2 _ hk)
    · cases h

/-- Nothing is sent if no call is going on and none begins. -/
theorem Tr.quiet {s s' : St} (h : Tr s s') (hn : s'.ncall = s.ncall) (hq : ∀ t, callOf (s.pc t) = none) :
    (∀ t, callOf (s'.pc t) = none) ∧ s'.sent = s.sent ∧ ∀ c, s.queue c = [] → s'.queue c = [] := by
  cases h <;> simp only [put] at hn ⊢ <;> grind [callOf]

/-- Without messages nobody leaves a channel someone waits at. -/
theorem Tr.stuck {s s' : St} (i : Inv s) (h : Tr s s') {t c : Nat} (hw : s.pc t = .recv c true ∧ s.queue c = []) :
    s'.pc t = .recv c true ∧ ∀ u w, u ≠ t → s.pc u = .recvLock c w → s'.pc u = .recvLock c w := by
  obtain ⟨h1, h2⟩ := hw
  have h3 := i.i6.held t c true h1
  have h4 := i.i2.live c (i.i6.live _ (i.i6.use t c true (.inr h1)))
  clear i
  cases h <;> simp only [put] <;> grind

theorem run_stuck {as : List Act} : ∀ {s s' : St}, Inv s → (∀ t, callOf (s.pc t) = none) → (∀ a ∈ as, ∀ t, a ≠ .call t) →
    run s as = some s' → ∀ {t c : Nat}, s.pc t = .recv c true ∧ s.queue c = [] →
    (s'.pc t = .recv c true ∧ s'.queue c = []) ∧ ∀ u w, u ≠ t → s.pc u = .recvLock c w → s'.pc u = .recvLock c w := by
  induction as with
  | nil => intro s s' _ _ _ h t c hw; cases h; exact ⟨hw, fun _ _ _ h => h⟩
  | cons a as ih =>
    intro s s' i hq hn h t c hw
    simp only [Observe.run] at h
    split at h
    · rename_i s1 h1
      have tr := act_tr h1
      have hnc : s1.ncall = s.ncall := by
        cases a with
        | call t => exact absurd rfl (hn _ (by simp) t)
        | subscribe t => simp only [act] at h1; split at h1 <;> cases h1; rfl
        | receive t c w => simp only [act] at h1; split at h1 <;> cases h1; rfl
        | drop c => simp only [act] at h1; split at h1 <;> cases h1; rfl
        | load t i =>
          simp only [act] at h1
          repeat' split at h1
          all_goals first | (cases h1; rfl) | cases h1
        | sync t u v => simp only [act] at h1; split at h1 <;> cases h1; rfl
        | step t =>
          simp only [act, advance] at h1
          repeat' split at h1
          all_goals first | (cases h1; rfl) | cases h1
      obtain ⟨q1, q2, q3⟩ := tr.quiet hnc hq
      obtain ⟨w1, w2⟩ := tr.stuck i hw
      obtain ⟨e1, e2⟩ := ih (i.step tr) q1 (fun a ha => hn a (by simp [ha])) h ⟨w1, q3 c hw.2⟩
      exact ⟨e1, fun u w hu hp => e2 u w hu (w2 u w hu hp)⟩
    · cases h

theorem run_append : ∀ (as bs : List Act) (s : St), run s (as ++ bs) = (run s as).bind (run · bs) := by
  intro as
  induction as with
  | nil => intro bs s; rfl
  | cons a as ih =>
    intro bs s
    simp only [List.cons_append, run]
    split
    · exact ih bs _
    · rfl

/-- What a thread that ends an `in` expression knows. -/
structure Inv10 (s : St) : Prop where
  own : ∀ t c, s.pc t = .subDrop c → s.mark c ≤ s.view t

theorem Inv10.step {s s' : St} (i1 : Inv1 s) (i2 : Inv2 s) (i9 : Inv9 s) (i : Inv10 s) (h : Tr s s') : Inv10 s' := by
  obtain ⟨k⟩ := i
  have h6 := i9.view_lt
  have h7 := i2.flag_lt
  have hal : ∀ t t', holds (s.pc t) = true → holds (s.pc t') = true → t' = t := fun t t' h h' => i1.alone h h'
  clear i1 i2 i9
  cases h with
  | subFlag t c hp =>
    constructor
    simp only [put]
    intro t' c' hp'
    split at hp'
    · cases hp'
      simp_all
    · exact absurd (hal t t' (by rw [hp]; rfl) (by rw [hp']; rfl)) ‹_›
  | loadTrue t k' ix hp hv hf => clear hf; constructor; simp only [put]; grind
  | loadFalse t k' ix hp hv hf => clear hf; constructor; simp only [put]; grind
  | callEmpty t k' hp hs =>
    constructor
    simp only [put]
    intro t' c' hp'
    split at hp'
    · cases hp'
    · rw [if_neg ‹_›]; exact k t' c' hp'
  | _ => constructor; simp only [put]; grind

theorem Inv10.run {as : List Act} : ∀ {s s' : St}, Inv s → Inv10 s → run s as = some s' → Inv10 s' := by
  induction as with
  | nil => intro s s' _ i h; cases h; exact i
  | cons a as ih =>
    intro s s' i j h
    simp only [Observe.run] at h
    split at h
    · rename_i s1 h1
      have tr := act_tr h1
      exact ih (i.step tr) (j.step i.i1 i.i2 i.i9 tr) h
    · cases h

/-- What the lock passes on. -/
structure Inv11 (s : St) : Prop where
  free : s.lock = none → ∀ c ∈ s.subscribed, s.mark c ≤ s.lview
  taken : ∀ t, s.lock = some t → ∀ c ∈ s.subscribed, s.mark c ≤ s.view t

theorem Inv11.step {s s' : St} (i : Inv s) (i10 : Inv10 s) (j : Inv11 s) (h : Tr s s') : Inv11 s' := by
  obtain ⟨k1, k2⟩ := j
  have h6 := i.i9.view_lt
  have h7 := i.i2.flag_lt
  have h8 := i10.own
  have h9 := i.i1.holds_lock
  clear i i10
  cases h with
  | loadTrue t k' ix hp hv hf => clear hf; constructor <;> simp only [put] <;> grind
  | loadFalse t k' ix hp hv hf => clear hf; constructor <;> simp only [put] <;> grind
  | subFlag t c hp =>
    have hl := h9 t (by rw [hp]; rfl)
    have hc := (h7 t c hp).2.2
    constructor <;> simp only [put] <;> grind
  | subDrop t c hp =>
    have hl := h9 t (by rw [hp]; rfl)
    constructor <;> simp only [put] <;> grind
  | callEmpty t k hp hs =>
    have hl := h9 t (by rw [hp]; rfl)
    constructor <;> simp only [put] <;> grind
  | callDrop t k hp =>
    have hl := h9 t (by rw [hp]; rfl)
    constructor <;> simp only [put] <;> grind
  | _ => constructor <;> simp only [put] <;> grind

theorem Inv11.run {as : List Act} : ∀ {s s' : St}, Inv s → Inv10 s → Inv11 s → run s as = some s' → Inv11 s' := by
  induction as with
  | nil => intro s s' _ _ i h; cases h; exact i
  | cons a as ih =>
    intro s s' i j l h
    simp only [Observe.run] at h
    split at h
    · rename_i s1 h1
      have tr := act_tr h1
      exact ih (i.step tr) (j.step i.i1 i.i2 i.i9 tr) (l.step i j tr) h
    · cases h

theorem Tr.knows {s s' : St} (i : Inv s) (h : Tr s s') {t c : Nat} (hk : Knows s t c) : Knows s' t c := by
  obtain ⟨h1, h2⟩ := hk
  have h6 := i.i9.view_lt t
  have h7 := i.i2.flag_lt
  clear i
  cases h with
  | loadTrue t k' ix hp hv hf => clear hf; simp only [Knows, put]; grind
  | loadFalse t k' ix hp hv hf => clear hf; simp only [Knows, put]; grind
  | _ => simp only [Knows, put]; grind

/-- The call has not looked for observers yet and knows of the channel, or has, and the channel is among those it saw. -/
def Looked (s : St) (t k c : Nat) : Prop :=
  (s.pc t = .callLoad k ∧ Knows s t c) ∨ ((∀ u, s.pc u ≠ .callLoad k) ∧ k < s.ncall ∧ c ∈ s.seen k)

theorem Tr.looked {s s' : St} (i : Inv s) (h : Tr s s') {t k c : Nat} (hk : Looked s t k c) : Looked s' t k c := by
  rcases hk with ⟨hp0, hk⟩ | hk
  · have hk' := h.knows i hk
    obtain ⟨h1, h2⟩ := hk
    have hi : ∀ u, s.pc u = .callLoad k → u = t := fun u hu =>
      i.i3.call_inj u t k (by rw [hu]; rfl) (by rw [hp0]; rfl)
    have hlt := (i.i3.call_lt t k (by rw [hp0]; rfl)).1
    clear i
    cases h with
    | loadTrue t' k' ix hp hv hf =>
      clear hf
      by_cases ht : t' = t
      · subst ht
        rw [hp0] at hp
        cases hp
        refine .inr ⟨?_, hlt, ?_⟩
        · simp only [put]; grind
        · simp [put, h1, h2]
      · exact .inl ⟨by simp only [put]; rw [if_neg (fun e => ht e.symm)]; exact hp0, hk'⟩
    | loadFalse t' k' ix hp hv hf =>
      clear hf
      by_cases ht : t' = t
      · subst ht
        rw [hp0] at hp
        cases hp
        refine .inr ⟨?_, hlt, ?_⟩
        · simp only [put]; grind
        · simp [put, h1, h2]
      · exact .inl ⟨by simp only [put]; rw [if_neg (fun e => ht e.symm)]; exact hp0, hk'⟩
    | _ => exact .inl ⟨by simp only [put]; grind, hk'⟩
  · obtain ⟨h1, h2, h3⟩ := hk
    refine .inr ?_
    clear i
    cases h with
    | loadTrue t' k' ix hp hv hf => clear hf; simp only [put]; grind
    | loadFalse t' k' ix hp hv hf => clear hf; simp only [put]; grind
    | _ => simp only [put]; grind

theorem run_looked {as : List Act} : ∀ {s s' : St}, Inv s → run s as = some s' → ∀ {t k c : Nat}, Looked s t k c → Looked s' t k c := by
  induction as with
  | nil => intro s s' _ h t k c hk; cases h; exact hk
  | cons a as ih =>
    intro s s' i h t k c hk
    simp only [Observe.run] at h
    split at h
    · rename_i s1 h1
      have tr := act_tr h1
      exact ih (i.step tr) h (tr.looked i hk)
    · cases h

theorem run_knows {as : List Act} : ∀ {s s' : St}, Inv s → run s as = some s' → ∀ {t c : Nat}, Knows s t c → Knows s' t c := by
  induction as with
  | nil => intro s s' _ h t c hk; cases h; exact hk
  | cons a as ih =>
    intro s s' i h t c hk
    simp only [Observe.run] at h
    split at h
    · rename_i s1 h1
      have tr := act_tr h1
      exact ih (i.step tr) h (tr.knows i hk)
    · cases h

end Dyon.Observe
