import Verif.Eval.FlowProps

/-!
# C22: observers of a function
-/

namespace Dyon

/-! ## Lemmas: the loop with swapping -/

theorem swapAt_self {α} (l : List α) (i : Nat) : swapAt l i i = l := by
  unfold swapAt
  split
  · rename_i a b h1 h2
    rw [h1] at h2; cases h2
    rw [List.set_set]
    refine List.ext_getElem? fun j => ?_
    rw [List.getElem?_set]
    split
    · rename_i hj; subst hj
      rw [h1, if_pos ((List.getElem?_eq_some_iff.1 h1).1)]
    · rfl
  · rfl

theorem swapAt_mid {α} (pre mid post : List α) (a b : α) :
    swapAt (pre ++ a :: (mid ++ b :: post)) pre.length (pre.length + mid.length + 1) =
      pre ++ b :: (mid ++ a :: post) := by
  have h1 : (pre ++ a :: (mid ++ b :: post))[pre.length]? = some a := by simp
  have h2 : (pre ++ a :: (mid ++ b :: post))[pre.length + mid.length + 1]? = some b := by
    rw [List.getElem?_append_right (by omega), show pre.length + mid.length + 1 - pre.length =
      mid.length + 1 by omega]
    simp
  unfold swapAt
  rw [h1, h2]
  simp only
  rw [List.set_append_right _ _ (by omega), Nat.sub_self, List.set_cons_zero,
    List.set_append_right _ _ (by omega), show pre.length + mid.length + 1 - pre.length =
      mid.length + 1 by omega, List.set_cons_succ, List.set_append_right _ _ (by omega),
    Nat.sub_self, List.set_cons_zero]

/-- The loop on a list split into channels not looked at, open ones and closed ones. -/
theorem sendLoop_spec {α} (closed : α → Bool) (n : Nat) (pre mid post sent : List α)
    (hn : pre.length = n) :
    ∃ fin post', sendLoop closed n (n + mid.length) (pre ++ (mid ++ post)) sent =
      ⟨sent ++ (pre.filter fun c => !closed c).reverse, fin.length, fin ++ post'⟩ ∧
      fin.Perm ((pre.filter fun c => !closed c) ++ mid) := by
  induction n generalizing pre mid post sent with
  | zero =>
    obtain rfl : pre = [] := List.length_eq_zero_iff.1 hn
    exact ⟨mid, post, by simp [sendLoop], by simp⟩
  | succ n ih =>
    obtain ⟨pre, ch, rfl⟩ : ∃ p c, pre = p ++ [c] :=
      ⟨pre.dropLast, pre.getLast (by rintro rfl; cases hn), (List.dropLast_append_getLast _).symm⟩
    have hn' : pre.length = n := by simpa using hn
    have hget : (pre ++ [ch] ++ (mid ++ post))[n]? = some ch := by
      simp [← hn']
    rw [sendLoop, hget]
    simp only
    by_cases hc : closed ch = true
    · rw [if_pos hc]
      have hsub : n + 1 + mid.length - 1 = n + mid.length := by omega
      rw [hsub]
      rcases List.eq_nil_or_concat mid with rfl | ⟨mid, m, rfl⟩
      · obtain ⟨fin, post', h1, h2⟩ := ih pre [] (ch :: post) sent hn'
        refine ⟨fin, post', ?_, ?_⟩
        · rw [List.length_nil, Nat.add_zero, swapAt_self]
          simpa [hc] using h1
        · simpa [hc] using h2
      · obtain ⟨fin, post', h1, h2⟩ := ih pre (m :: mid) (ch :: post) sent hn'
        refine ⟨fin, post', ?_, ?_⟩
        · have hs := swapAt_mid pre mid post ch m
          rw [hn'] at hs
          rw [show pre ++ [ch] ++ (mid.concat m ++ post) = pre ++ ch :: (mid ++ m :: post) by simp,
            show n + (mid.concat m).length = n + mid.length + 1 by simp; omega, hs]
          rw [show n + mid.length + 1 = n + (m :: mid).length by simp; omega,
            show pre ++ m :: (mid ++ ch :: post) = pre ++ (m :: mid ++ ch :: post) by simp, h1]
          simp [hc]
        · refine h2.trans ?_
          have hf : (pre ++ [ch]).filter (fun c => !closed c) = pre.filter fun c => !closed c := by
            simp [hc]
          rw [hf, List.concat_eq_append]
          exact (List.perm_append_singleton m mid).symm.append_left _
    · rw [if_neg hc]
      obtain ⟨fin, post', h1, h2⟩ := ih pre (ch :: mid) post (sent ++ [ch]) hn'
      refine ⟨fin, post', ?_, ?_⟩
      · rw [List.append_assoc, List.singleton_append, ← List.cons_append,
          show n + 1 + mid.length = n + (ch :: mid).length by simp; omega, h1]
        simp [hc]
      · simpa [hc] using h2

theorem sendAll_spec {α} (closed : α → Bool) (chans : List α) :
    (sendAll closed chans).1 = (chans.filter fun c => !closed c).reverse ∧
    (sendAll closed chans).2.1.Perm (chans.filter fun c => !closed c) ∧
    ((sendAll closed chans).2.2 = true ↔ (sendAll closed chans).2.1 ≠ []) := by
  obtain ⟨fin, post', h1, h2⟩ := sendLoop_spec closed chans.length chans [] [] [] rfl
  simp only [List.length_nil, Nat.add_zero, List.append_nil, List.nil_append] at h1 h2
  refine ⟨?_, ?_, ?_⟩
  · simp only [sendAll, h1]
  · simp only [sendAll, h1]
    simpa using h2
  · simp [sendAll]

/-! ## Specification -/

/-- `ws` are deep clones of `vs`. -/
inductive Clones (st : Stack) (fuel : Nat) : List Val → List Val → Prop
  | nil : Clones st fuel [] []
  | cons {v w vs ws} : deepClone st fuel v = .ok w → Clones st fuel vs ws →
      Clones st fuel (v :: vs) (w :: ws)

theorem cloneAll_ok {n vs ws s} (h : Clones s.stack n vs ws) : cloneAll n vs s = .ok ws s := by
  induction h with
  | nil => rfl
  | @cons v w vs ws hv _ ih =>
    have h1 : cloneE n v s = .ok w s := by simp only [cloneE, hv]
    rw [cloneAll, EM.bind_ok h1, EM.bind_ok ih]
    rfl

/-! ## Properties -/

/-- **C22.** Calling an observed function: every open channel registered for the function
gets the arguments once (once per registration), no other channel gets anything but what
other threads send; the closed channels are dropped, the open ones all stay, the flag is on
if and only if some are left; nothing else changes.  (`note` is what a call does between
evaluating the arguments and running the body; `C22_call` states it for whole calls.) -/
theorem C22_notify {c : ECfg} {n idx st : Nat} {s : St} {chans : List Nat} {msg : List Val}
    (hs : s.senders s.module idx = (true, chans)) (hmsg : Clones s.stack n (s.stack.drop st) msg) :
    ∃ t rest, notify c n idx st s = .ok () t ∧
      (∀ ch, t.queues ch = s.queues ch ++ c.arrive s.time ch ++
        List.replicate ((chans.filter fun d => !c.closed s.time d).count ch) (.array msg)) ∧
      t.senders s.module idx = (!rest.isEmpty, rest) ∧
      rest.Perm (chans.filter fun d => !c.closed s.time d) ∧
      (∀ m i, (m, i) ≠ (s.module, idx) → t.senders m i = s.senders m i) ∧
      t.stack = s.stack ∧ t.locals = s.locals ∧ t.currents = s.currents ∧ t.calls = s.calls ∧
      t.module = s.module ∧ t.closures = s.closures ∧ t.jobs = s.jobs ∧ t.nchans = s.nchans := by
  obtain ⟨h1, h2, h3⟩ := sendAll_spec (c.closed s.time) chans
  have hrun : notify c n idx st s = .ok () { sync c s with
      queues := deliver (.array msg) (sendAll (c.closed s.time) chans).1 (sync c s).queues
      senders := fun m i => if m = s.module ∧ i = idx then
        ((sendAll (c.closed s.time) chans).2.2, (sendAll (c.closed s.time) chans).2.1)
        else s.senders m i } := by
    rw [notify, EM.bind_ok (show EM.get s = .ok s s from rfl)]
    simp only [hs, if_true]
    rw [EM.bind_ok (cloneAll_ok hmsg)]
    simp only [EM.modify, hs]
  refine ⟨_, (sendAll (c.closed s.time) chans).2.1, hrun, fun ch => ?_, ?_, h2, ?_, rfl, rfl, rfl,
    rfl, rfl, rfl, rfl, rfl⟩
  · simp only [deliver, sync, h1, List.count_reverse]
  · simp only [and_self, if_true, sendAll]
  · intro m i h
    simp only
    rw [if_neg]
    rintro ⟨rfl, rfl⟩; exact h rfl

/-- A function observed by channels 0 and 1, called with "a". -/
example : ({ Demo.empty with senders := fun _ _ => (true, [0, 1]), stack := [.str "a"] } : St).senders 0 0 =
    (true, [0, 1]) ∧ Clones [.str "a"] 9 ([.str "a"].drop 0) [.str "a"] :=
  ⟨rfl, .cons rfl .nil⟩

/-- **C22.** Calling a function that is not observed sends nothing. -/
theorem C22_not_observed {c : ECfg} {n idx st : Nat} {s : St} {chans : List Nat}
    (hs : s.senders s.module idx = (false, chans)) : notify c n idx st s = .ok () s := by
  rw [notify, EM.bind_ok (show EM.get s = .ok s s from rfl)]
  simp only [hs]
  rfl

/-- The called function is found by its position relative to the calling one. -/
theorem callIndex_eq {f : Int} {rel idx : Nat} (h : (idx : Int) = f + rel) :
    callIndex f rel = some idx := by
  unfold callIndex
  rw [← h, if_pos (by omega)]
  rfl

section
variable [FloatOps] [VecMath]

/-- **C22.** `in f` registers one new channel for the function, after those registered
before, and turns the flag on. -/
theorem C22_subscribe {c : ECfg} {n : Nat} {f : Int} {idx : Nat} {fn : Func} {side : Side} {s : St}
    (hi : (idx : Int) = f + s.rel) (hf : (c.modules s.module)[idx]? = some fn) :
    ∃ t, eval c (n + 1) (.in_ (.loaded f)) side s = .ok (some (.inTy s.nchans), .cont) t ∧
      t.senders s.module idx = (true, (s.senders s.module idx).2 ++ [s.nchans]) ∧
      (∀ m i, (m, i) ≠ (s.module, idx) → t.senders m i = s.senders m i) ∧
      t.nchans = s.nchans + 1 ∧ t.queues = s.queues ∧ t.stack = s.stack := by
  refine ⟨{ s with
      nchans := s.nchans + 1
      senders := fun m i =>
        if m = s.module ∧ i = idx then (true, (s.senders m i).2 ++ [s.nchans])
        else s.senders m i }, ?_, ?_, ?_, ?_, ?_, ?_⟩
  · show inE c (.loaded f) s = _
    rw [inE, EM.bind_ok (show relIndex s = .ok s.rel s from rfl),
      EM.bind_ok (show EM.get s = .ok s s from rfl), callIndex_eq hi]
    simp only [hf]
    rfl
  · simp
  · intro m i h
    simp only
    rw [if_neg]
    rintro ⟨rfl, rfl⟩; exact h rfl
  · rfl
  · rfl
  · rfl

end

end Dyon
