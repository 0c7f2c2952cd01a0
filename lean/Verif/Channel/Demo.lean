import Verif.Channel.Props

/-!
# C88: histories that meet the hypotheses
-/

namespace Dyon.Observe

/-- Several steps of a thread. -/
def steps (t n : Nat) : List Act := List.replicate n (.step t)

/-- Thread 0 subscribes twice (channels 0 and 1), thread 1 hears of it and calls (call 0). -/
def demo : List Act :=
  [.subscribe 0] ++ steps 0 4 ++ [.subscribe 0] ++ steps 0 4 ++ [.sync 0 1 2, .call 1, .load 1 2] ++ steps 1 6

/-- The call reached both channels, once each, the last first. -/
example : (run start demo).map (fun s => (s.sent, s.queue 0, s.queue 1, s.ended, s.seen 0)) =
    some ([(0, 1), (0, 0)], [0], [0], [0], [0, 1]) := by decide +kernel

/-- Two calls interleaved with the drop of a channel and with a subscription: thread 1 (call 0) sees the flag before channel 1 is there and
sends to it all the same; channel 0 is dropped between, and only call 0 reached it; call 1 forgets it. -/
def mixed : List Act :=
  [.subscribe 0] ++ steps 0 4 ++ [.sync 0 1 1, .call 1, .load 1 1] ++ [.subscribe 2] ++ steps 2 4 ++ steps 1 6 ++
  [.call 2, .drop 0, .load 2 2] ++ steps 2 6 ++
  [.receive 0 1 true] ++ steps 0 2 ++ [.receive 1 1 false] ++ steps 1 2 ++ [.receive 1 1 false] ++ steps 1 2

example : (run start mixed).map (fun s => (s.sent, s.senders, s.seen 0, s.seen 1, s.ended)) =
    some ([(0, 1), (0, 0), (1, 1)], [1], [0], [0, 1], [0, 1]) := by decide +kernel

example : (run start mixed).map (fun s => s.got) =
    some [⟨0, 1, true, some 0⟩, ⟨1, 1, false, some 1⟩, ⟨1, 1, false, none⟩] := by decide +kernel

/-- C88_delivered: in the middle of `demo` thread 1 begins call 0 and knows of both channels; at the end the call has ended and both are kept. -/
example : (run start (demo.take 12)).map (fun s => (s.pc 1, s.subscribed, s.mark 0, s.mark 1, s.view 1)) =
    some (.callLoad 0, [0, 1], 1, 2, 2) ∧
    (run start demo).map (fun s => (s.ended, s.alive 0, s.alive 1)) = some ([0], true, true) := by
  decide +kernel

/-- A thread that was not told may find an old value of the flag, and its call is missed by the channel. -/
example : (run start ([.subscribe 0] ++ steps 0 4 ++ [.call 1, .load 1 0])).map (fun s => (s.ended, s.sent, s.alive 0)) =
    some ([0], [], true) := by decide +kernel

/-- A thread that was told may not. -/
example : (run start ([.subscribe 0] ++ steps 0 4 ++ [.sync 0 1 1, .call 1, .load 1 0])).isNone = true := by decide +kernel

/-- C88_order and C88_past: after `demo` call 0 has ended, and a call after it comes behind it. -/
example : (run start (demo ++ ([.call 0, .load 0 2] ++ steps 0 6))).map (fun s => (s.queue 0, s.queue 1, s.ncall)) = some ([0, 1], [0, 1], 2) := by
  decide +kernel

/-- The drop of the last observer: the call finds nobody and clears the flag. -/
example : (run start ([.subscribe 0] ++ steps 0 4 ++ [.drop 0, .call 1, .load 1 1] ++ steps 1 5)).map (fun s => (s.writes, s.senders, s.sent, s.lock)) =
    some ([false, true, false], [], [], none) := by decide +kernel

/-- C88_wait_forever: thread 0 waits, thread 1 is stuck in `next`. -/
def stuck : List Act := [.subscribe 0] ++ steps 0 4 ++ [.receive 0 0 true] ++ steps 0 1 ++ [.receive 1 0 false]

example : (run start stuck).map (fun s => (s.pc 0, s.pc 1, s.queue 0)) = some (.recv 0 true, .recvLock 0 false, []) := by decide +kernel

/-- Neither is able to go on. -/
example : (run start (stuck ++ [.step 0])).isNone = true ∧ (run start (stuck ++ [.step 1])).isNone = true := by decide +kernel

/-- C88: `next` is not free of waiting: a state that is reached, in which a thread inside `next` stays there whatever the threads do without
calling the function. -/
theorem C88_next_waits : ∃ s, Reached s ∧ s.pc 1 = .recvLock 0 false ∧
    ∀ as s', (∀ a ∈ as, ∀ u, a ≠ .call u) → run s as = some s' → s'.pc 1 = .recvLock 0 false := by
  have e : (run start stuck).isSome = true := by decide +kernel
  obtain ⟨s, hs⟩ := Option.isSome_iff_exists.1 e
  have hp : (run start stuck).map (fun s => (s.pc 0, s.pc 1, s.queue 0)) = some (.recv 0 true, .recvLock 0 false, []) := by decide +kernel
  rw [hs] at hp
  simp only [Option.map_some, Option.some.injEq, Prod.mk.injEq] at hp
  obtain ⟨p0, p1, q0⟩ := hp
  have hidle : ∀ u, u ≠ 0 → u ≠ 1 → s.pc u = .idle := by
    intro u h0 h1
    have : (run start stuck).map (fun s => s.pc u) = some .idle := by
      simp [stuck, steps, run, act, advance, start, put, h0, h1]
    rw [hs] at this
    simpa using this
  refine ⟨s, ⟨stuck, hs⟩, p1, ?_⟩
  intro as s' hn h'
  refine (C88_wait_forever ⟨stuck, hs⟩ (t := 0) (c := 0) ⟨p0, q0⟩ ?_ hn h').2 1 (by decide) p1
  intro u
  by_cases h0 : u = 0
  · subst h0; rw [p0]; rfl
  · by_cases h1 : u = 1
    · subst h1; rw [p1]; rfl
    · rw [hidle u h0 h1]; rfl

/-- A call sets both free. -/
example : (run start (stuck ++ ([.call 2, .load 2 1] ++ steps 2 5 ++ steps 0 1 ++ steps 1 2))).map (fun s => s.got) =
    some [⟨0, 0, true, some 0⟩, ⟨1, 0, false, none⟩] := by decide +kernel

/-- C88_calls_go_on: a call at the lock while a subscription holds it. -/
example : (run start ([.subscribe 0] ++ steps 0 4 ++ [.call 1, .load 1 1] ++ [.subscribe 0] ++ steps 0 2)).map
    (fun s => (s.pc 1, s.lock, (advance s 1).isNone)) = some (.callLock 0, some 0, true) := by decide +kernel

end Dyon.Observe
