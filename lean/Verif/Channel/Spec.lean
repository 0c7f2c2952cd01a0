import Verif.Channel.Model

/-!
# Observers of a function: the words of the statements
-/

namespace Dyon.Observe

/-- A history that may happen leads to this state. -/
def Reached (s : St) : Prop := ∃ as, run start as = some s

/-- The calls put into a channel, first to last. -/
def sentTo (s : St) (c : Nat) : List Nat := (s.sent.filter (fun m => m.2 = c)).map (·.1)

/-- The calls taken out of a channel by `next` and `wait_next`, first to last, whatever thread took them. -/
def received (s : St) (c : Nat) : List Nat := (s.got.filter (fun g => g.chan = c)).filterMap (·.msg)

/-- The thread does nothing with observers at the moment. -/
def Idle (s : St) (t : Nat) : Prop := s.pc t = .idle

/-- The call a thread is in, as far as observers are concerned. -/
def callOf : Pc → Option Nat
  | .callLoad k | .callLock k | .callSend k _ _ | .callFlag k | .callDrop k => some k
  | _ => none

/-- The thread knows of the channel: its `in` expression ended, and what it wrote to the flag is known to the thread.  A thread knows of its
own channels, and gets to know of others by locks, messages, and so on (`C88_knows`). -/
def Knows (s : St) (t c : Nat) : Prop := c ∈ s.subscribed ∧ s.mark c ≤ s.view t

/-- The thread is able to go on. -/
def CanStep (s : St) (t : Nat) : Prop := (∃ s', act s (.step t) = some s') ∨ ∃ i s', act s (.load t i) = some s'

/-- The thread is stuck inside `wait_next` on an empty channel. -/
def Waits (s : St) (t c : Nat) : Prop := s.pc t = .recv c true ∧ s.queue c = []

end Dyon.Observe
