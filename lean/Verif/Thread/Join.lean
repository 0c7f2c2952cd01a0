import Mathlib.Data.List.Count
import Mathlib.Data.List.Nodup

/-!
# Thread handles: `src/lib.rs:107-164`, `src/dyon_std/mod.rs:1876-1900`

A handle is an `Arc` around the join handle of a thread.  `Arc::try_unwrap` succeeds only
for the last owner, so what matters is how many copies of the handle exist: in variables on
a stack, in elements of arrays and objects, in closures, in messages, in the stacks of other
threads.  A `World` has one stack, that of the run-time that joins, and the list of all
other places; every physical copy is one place (an array shared by two variables is one
place).  Other threads work on the same places, so an interleaving of their operations with
those of this thread is a history too.
-/

namespace Dyon.Thr

/-- The content of a place: a thread handle (`Thread { handle }`, without one after it was
invalidated), a reference, or something else. -/
inductive Cell where
  | thread (h : Option Nat)
  | ref (i : Nat)
  | other
deriving DecidableEq, Repr

/-- All places.  Threads are numbered; `next` have been started. -/
structure World where
  stack : List Cell
  heap : List Cell
  next : Nat
deriving Repr

/-- `Arc::strong_count` of the handle of a thread: its owners. -/
def owners (id : Nat) (w : World) : Nat := (w.stack ++ w.heap).count (.thread (some id))

/-- Why a handle is refused. -/
inductive Refused where
  | notThread
  | invalidated
  | shared
deriving DecidableEq, Repr

/-- The part of `Thread::invalidate_handle` after the handle was taken out of its variable,
lib.rs:145-162.  The taken handle is dropped if it is refused.  The mutex of the handle is
locked nowhere, so `into_inner` does not fail. -/
def unwrapHandle (h : Option Nat) (w : World) : Except Refused Nat :=
  match h with
  | none => .error .invalidated
  | some id => if owners id w = 0 then .ok id else .error .shared

/-- `Thread::invalidate_handle`, lib.rs:126-164.  The place of a reference gets an
invalidated handle whatever it held. -/
def invalidateHandle (v : Cell) (w : World) : Except Refused Nat × World :=
  match v with
  | .ref i =>
    let w' := { w with stack := w.stack.set i (.thread none) }
    match w.stack[i]? with
    | some (.thread h) => (unwrapHandle h w', w')
    | _ => (.error .notThread, w')
  | .thread h => (unwrapHandle h w, w)
  | .other => (.error .notThread, w)

/-- The result of `join__thread`, dyon_std/mod.rs:1876-1900: the result of thread `id`, or
an error. -/
def join (w : World) : Except Refused Nat × World :=
  match w.stack.getLast? with
  | none => (.error .notThread, w)
  | some v => invalidateHandle v { w with stack := w.stack.dropLast }

/-- What can happen to the places. -/
inductive Op where
  /-- `go` puts a new handle on the stack -/
  | go
  /-- a value without handle is pushed -/
  | push (c : Cell)
  /-- a place of the stack is copied to the top -/
  | load (i : Nat)
  /-- the top is moved to a place of the stack -/
  | store (i : Nat)
  /-- a place elsewhere is copied to the top -/
  | loadHeap (i : Nat)
  /-- the top is moved to a new place elsewhere -/
  | storeHeap
  /-- a place elsewhere is copied (an array is copied on write, a closure made, a message
  sent, another thread copies a variable) -/
  | copyHeap (i : Nat)
  /-- a place elsewhere is dropped -/
  | dropHeap (i : Nat)
  /-- the stack is truncated -/
  | truncate (n : Nat)
  /-- `join` of the value on top of the stack -/
  | join
deriving Repr

/-- Copying never makes a handle out of nothing: only these values can be pushed freely. -/
def Cell.plain : Cell → Cell
  | .thread _ => .thread none
  | c => c

/-- One operation, with the thread whose result was delivered. -/
def step (o : Op) (w : World) : Option Nat × World :=
  match o with
  | .go => (none, { w with stack := w.stack ++ [.thread (some w.next)], next := w.next + 1 })
  | .push c => (none, { w with stack := w.stack ++ [c.plain] })
  | .load i => (none, { w with stack := w.stack ++ (w.stack[i]?).toList })
  | .store i => (none, match w.stack.getLast? with
    | none => w
    | some v => { w with stack := w.stack.dropLast.set i v })
  | .loadHeap i => (none, { w with stack := w.stack ++ (w.heap[i]?).toList })
  | .storeHeap => (none, { w with stack := w.stack.dropLast, heap := w.heap ++ w.stack.getLast?.toList })
  | .copyHeap i => (none, { w with heap := w.heap ++ (w.heap[i]?).toList })
  | .dropHeap i => (none, { w with heap := w.heap.eraseIdx i })
  | .truncate n => (none, { w with stack := w.stack.take n })
  | .join => match join w with
    | (.ok id, w') => (some id, w')
    | (.error _, w') => (none, w')

/-- A history: the threads whose results were delivered, in order, and the last state. -/
def run : List Op → World → List Nat × World
  | [], w => ([], w)
  | o :: os, w =>
    let r := step o w
    let rest := run os r.2
    (r.1.toList ++ rest.1, rest.2)

/-- Before anything has happened. -/
def World.init : World := ⟨[], [], 0⟩

end Dyon.Thr
