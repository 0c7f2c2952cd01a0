import Mathlib.Data.List.Basic

/-!
# Sending the arguments of a call to the observers of a function

`src/runtime/mod.rs:1563-1589`: "Uses smart swapping of channels to put the closed ones at
the end."
-/

namespace Dyon

/-- `<[T]>::swap`. -/
def swapAt {α} (l : List α) (i j : Nat) : List α :=
  match l[i]?, l[j]? with
  | some a, some b => (l.set i b).set j a
  | _, _ => l

/-- What sending to all channels leaves: the channels a message was put into, in the order
of sending, the number of open channels and the channel list. -/
structure SendRes (α : Type) where
  sent : List α
  opn : Nat
  chans : List α

/-- The loop `for i in (0..channels.len()).rev()`, runtime/mod.rs:1572-1582: `i` counts
down, `opn` is the number of channels not yet found closed; a channel is closed if `send`
fails. -/
def sendLoop {α} (closed : α → Bool) : Nat → Nat → List α → List α → SendRes α
  | 0, opn, chans, sent => ⟨sent, opn, chans⟩
  | i + 1, opn, chans, sent =>
    match chans[i]? with
    | none => ⟨sent, opn, chans⟩
    | some ch =>
      if closed ch then sendLoop closed i (opn - 1) (swapAt chans i (opn - 1)) sent
      else sendLoop closed i opn chans (sent ++ [ch])

/-- The whole send, runtime/mod.rs:1572-1588: the channels that got the message, the
remaining channels and the new flag. -/
def sendAll {α} (closed : α → Bool) (chans : List α) : List α × List α × Bool :=
  let r := sendLoop closed chans.length chans.length chans []
  let rest := r.chans.take r.opn
  (r.sent, rest, !rest.isEmpty)

end Dyon
