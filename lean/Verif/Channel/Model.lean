import Verif.Eval.Senders

/-!
# Model of observers of a function: threads that call, subscribe and receive

One function `f` of a module that stays loaded, and any number of threads.  A thread calls `f` (`src/runtime/mod.rs:1563-1589`), evaluates
`in f` (`src/runtime/mod.rs:680-704`), or takes a message from a channel by `next` or `wait_next` (`src/dyon_std/mod.rs:2085-2112`); loops
over channels (`src/runtime/for_in.rs:20-33`, `65-78`) take messages like `next`.  A step is one operation on something shared: a lock, the
flag, the list of senders, a channel.  Steps of different threads are interleaved in any order.

The flag is read and written with `Ordering::Relaxed`, so a thread may read an old value: `writes` are all its values, `view t` is the last
one that thread `t` knows of, and a read gives some value from there on.  A lock passes on what its last owner knew, and other things
programs do (messages, joining threads) may pass on what a thread knows at any time.  Nothing is read before it is written.

Simplifications: a message is the number of the call whose arguments it has; mutexes are not poisoned, since no holder panics.  `std::sync::mpsc` is trusted: a channel is a queue, a
send fails if the receiver was dropped, and a receive fails if the queue is empty and the sender was dropped.
-/

namespace Dyon.Observe

/-- Where a thread is: between the operations of runtime/mod.rs:692-697 and 1564-1588, dyon_std/mod.rs:2089-2093 and 2104-2108. -/
inductive Pc where
  | idle
  /-- before `f.senders.1.lock()` in `in f` -/
  | subLock
  /-- before `guard.push(tx)` -/
  | subPush
  /-- before `f.senders.0.store(true, ..)` -/
  | subFlag (c : Nat)
  /-- before `drop(guard)` -/
  | subDrop (c : Nat)
  /-- before `f.senders.0.load(..)` in call `k` -/
  | callLoad (k : Nat)
  /-- before `f.senders.1.lock()` -/
  | callLock (k : Nat)
  /-- in the loop: the next channels are `0..i`, `opn` is `open` -/
  | callSend (k i opn : Nat)
  /-- before `if channels.len() == 0` -/
  | callFlag (k : Nat)
  /-- before `drop(channels)` -/
  | callDrop (k : Nat)
  /-- before `mutex.lock()` in `next` or `wait_next` -/
  | recvLock (c : Nat) (wait : Bool)
  /-- before `x.try_recv()` or `x.recv()` -/
  | recv (c : Nat) (wait : Bool)
deriving DecidableEq, Repr

/-- What a thread got from a channel: the result of dyon_std/mod.rs:2086-2112. -/
structure Got where
  thread : Nat
  chan : Nat
  wait : Bool
  msg : Option Nat
deriving DecidableEq, Repr

/-- What is shared, where the threads are, and what happened: `users` are the threads that hold a receiver while they receive, `subscribed` are the
channels of finished `in` expressions, `mark c` is the write of the flag for channel `c`, `seen k` are the subscribed channels that the
thread knows of when call `k` looks at the flag, `sent` the calls put into channels, `got` the results
of receives, `ended` the calls that went on. -/
structure St where
  pc : Nat → Pc
  lock : Option Nat
  senders : List Nat
  writes : List Bool
  view : Nat → Nat
  lview : Nat
  mark : Nat → Nat
  queue : Nat → List Nat
  alive : Nat → Bool
  rlock : Nat → Option Nat
  users : List (Nat × Nat)
  nchan : Nat
  ncall : Nat
  subscribed : List Nat
  seen : Nat → List Nat
  sent : List (Nat × Nat)
  got : List Got
  ended : List Nat

/-- Point-wise update. -/
def put {β} (f : Nat → β) (i : Nat) (v : β) : Nat → β := fun j => if j = i then v else f j

/-- Before anything happened: `Arc::new((AtomicBool::new(false), Mutex::new(vec![])))`, ast/mod.rs:509. -/
def start : St :=
  ⟨fun _ => .idle, none, [], [false], fun _ => 0, 0, fun _ => 0, fun _ => [], fun _ => false, fun _ => none, [], 0, 0, [], fun _ => [], [], [], []⟩

/-- What may happen next: `in f` (runtime/mod.rs:680), a call (1563), `next` or `wait_next` (dyon_std/mod.rs:2086, 2102), the drop of
`Variable::In` (lib.rs), or a step of one of these. -/
inductive Act where
  /-- thread `t` begins to evaluate `in f` -/
  | subscribe (t : Nat)
  /-- thread `t` begins to call `f` -/
  | call (t : Nat)
  /-- thread `t` begins `wait_next` or `next` on channel `c` -/
  | receive (t c : Nat) (wait : Bool)
  /-- the last owner of the receiver of channel `c` drops it -/
  | drop (c : Nat)
  /-- thread `t` looks at the flag and finds its `i`-th value -/
  | load (t i : Nat)
  /-- thread `u` gets to know what thread `t` knew, up to write `v` -/
  | sync (t u v : Nat)
  /-- thread `t` makes its next step -/
  | step (t : Nat)
deriving DecidableEq, Repr

/-- The next step of a thread, runtime/mod.rs:692-697, 1564-1588, dyon_std/mod.rs:2089-2093, 2104-2108; nothing if it has to wait. -/
def advance (s : St) (t : Nat) : Option St :=
  match s.pc t with
  | .idle => none
  -- `let mut guard = f.senders.1.lock().unwrap()`, runtime/mod.rs:694
  | .subLock => if s.lock = none then some { s with
      lock := some t, view := put s.view t (max (s.view t) s.lview), pc := put s.pc t .subPush } else none
  -- `channel()` and `guard.push(tx)`, runtime/mod.rs:692, 695
  | .subPush => some { s with
      senders := s.senders ++ [s.nchan], alive := put s.alive s.nchan true, nchan := s.nchan + 1, pc := put s.pc t (.subFlag s.nchan) }
  -- `f.senders.0.store(true, ..)`, runtime/mod.rs:696
  | .subFlag c => some { s with
      writes := s.writes ++ [true], view := put s.view t s.writes.length, mark := put s.mark c s.writes.length, pc := put s.pc t (.subDrop c) }
  -- `drop(guard)`, runtime/mod.rs:697
  | .subDrop c => some { s with
      lock := none, lview := s.view t, subscribed := s.subscribed ++ [c], pc := put s.pc t .idle }
  -- see `Act.load`
  | .callLoad _ => none
  -- `let mut channels = f.senders.1.lock().unwrap()`, runtime/mod.rs:1572-1573
  | .callLock k =>
    if s.lock = none then some { s with
      lock := some t, view := put s.view t (max (s.view t) s.lview),
      pc := put s.pc t (.callSend k s.senders.length s.senders.length) } else none
  -- the loop, runtime/mod.rs:1574-1582
  | .callSend k (i + 1) opn =>
    match s.senders[i]? with
    | none => none
    | some c =>
      if s.alive c then some { s with
        queue := put s.queue c (s.queue c ++ [k]), sent := s.sent ++ [(k, c)], pc := put s.pc t (.callSend k i opn) }
      else some { s with senders := swapAt s.senders i (opn - 1), pc := put s.pc t (.callSend k i (opn - 1)) }
  -- `channels.truncate(open)`, runtime/mod.rs:1583
  | .callSend k 0 opn => some { s with senders := s.senders.take opn, pc := put s.pc t (.callFlag k) }
  -- `if channels.len() == 0`, runtime/mod.rs:1584-1587
  | .callFlag k =>
    if s.senders.length = 0 then some { s with
      writes := s.writes ++ [false], view := put s.view t s.writes.length, pc := put s.pc t (.callDrop k) }
    else some { s with pc := put s.pc t (.callDrop k) }
  -- `drop(channels)`, runtime/mod.rs:1588
  | .callDrop k => some { s with lock := none, lview := s.view t, ended := s.ended ++ [k], pc := put s.pc t .idle }
  -- `mutex.lock()`, dyon_std/mod.rs:2089, 2104
  | .recvLock c w => if s.rlock c = none then some { s with rlock := put s.rlock c (some t), pc := put s.pc t (.recv c w) } else none
  -- `x.recv()`, dyon_std/mod.rs:2090-2093, `x.try_recv()`, 2105-2108
  | .recv c w => match s.queue c with
    | m :: q => some { s with
        queue := put s.queue c q, got := s.got ++ [⟨t, c, w, some m⟩], rlock := put s.rlock c none,
        users := s.users.filter (· != (t, c)), pc := put s.pc t .idle }
    | [] =>
      if w && s.senders.contains c then none
      else some { s with
        got := s.got ++ [⟨t, c, w, none⟩], rlock := put s.rlock c none,
        users := s.users.filter (· != (t, c)), pc := put s.pc t .idle }

/-- What happens; nothing if it cannot: a thread does one thing at a time, and a receiver in use is kept by its user (runtime/mod.rs:680,
1563, dyon_std/mod.rs:2086, 2102). -/
def act (s : St) : Act → Option St
  | .subscribe t => if s.pc t = .idle then some { s with pc := put s.pc t .subLock } else none
  | .call t => if s.pc t = .idle then some { s with pc := put s.pc t (.callLoad s.ncall), ncall := s.ncall + 1 } else none
  | .receive t c w =>
    if s.pc t = .idle ∧ c ∈ s.subscribed ∧ s.alive c = true then some { s with
      pc := put s.pc t (.recvLock c w), users := (t, c) :: s.users } else none
  | .drop c => if c ∈ s.subscribed ∧ ∀ u ∈ s.users, u.2 ≠ c then some { s with alive := put s.alive c false } else none
  -- `if f.senders.0.load(..)`, runtime/mod.rs:1564
  | .load t i => match s.pc t with
    | .callLoad k =>
      if s.view t ≤ i then
        match s.writes[i]? with
        | some true => some { s with
            view := put s.view t i, seen := put s.seen k (s.subscribed.filter fun c => s.mark c ≤ s.view t), pc := put s.pc t (.callLock k) }
        | some false => some { s with
            view := put s.view t i, seen := put s.seen k (s.subscribed.filter fun c => s.mark c ≤ s.view t),
            ended := s.ended ++ [k], pc := put s.pc t .idle }
        | none => none
      else none
    | _ => none
  | .sync t u v => if v ≤ s.view t then some { s with view := put s.view u (max (s.view u) v) } else none
  | .step t => advance s t

/-- A history: what happened, in any order that is possible. -/
def run : St → List Act → Option St
  | s, [] => some s
  | s, a :: as => match act s a with
    | some s => run s as
    | none => none

end Dyon.Observe
