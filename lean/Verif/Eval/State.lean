import Verif.Eval.Ast
import Verif.Builtin.Stack

/-!
# Run-time state and the evaluation monad

`struct Runtime`, `src/runtime/mod.rs:101-127`.
-/

namespace Dyon

/-- `enum Flow`, runtime/mod.rs:38-48. -/
inductive Flow where
  | cont
  | ret
  | brk (label : Option String)
  | contLoop (label : Option String)
deriving DecidableEq, Repr

/-- `enum Side`, runtime/mod.rs:30-35. -/
inductive Side where
  | leftInsert (insert : Bool)
  | right
deriving DecidableEq, Repr

/-- `struct Call`, runtime/mod.rs:51-62. -/
structure CallRec where
  fnName : String
  index : Nat
  file : Option String
  stackLen : Nat
  localLen : Nat
  currentLen : Nat
deriving DecidableEq, Repr

/-- A closure value: `ast::Closure` and `ClosureEnvironment`, lib.rs:178-191. -/
structure Clo where
  args : List String
  currents : List String
  returns : Bool
  file : String
  body : Expr
  module : Nat
  relative : Nat

/-- A started thread: the new `Runtime` and the fake call of `Runtime::go`,
runtime/mod.rs:956-1028. -/
structure Job where
  module : Nat
  stack : Stack
  call : CallRec
  f : FnIndex
  name : String
  args : List Expr

/-- `struct Runtime`, runtime/mod.rs:101-127, with the parts of the world it shares with
other threads: the flag and the channels registered per function
(`Function::senders`, ast/mod.rs:345, per module and function index) and the messages waiting in each receiver.  All stacks are bottom first.  Closure values and
threads are numbers into append-only lists. `time` counts the channel operations. -/
structure St where
  stack : Stack
  calls : List CallRec
  locals : List (String × Nat)
  currents : List (String × Nat)
  module : Nat
  closures : List Clo
  jobs : List Job
  senders : Nat → Nat → Bool × List Nat
  queues : Nat → List Val
  nchans : Nat
  time : Nat

/-- Outcome of a computation: a result, a Dyon error, a Rust panic (or undefined
behaviour), or no result within the fuel. -/
inductive Ev (α : Type) where
  | ok (a : α) (st : St)
  | err (msg : String) (st : St)
  | panic (why : String)
  | timeout

/-- Evaluation monad. -/
def EM (α : Type) := St → Ev α

namespace EM
/-- Result without effect. -/
protected def pure {α} (a : α) : EM α := fun st => .ok a st
/-- Sequencing; `Err` propagates like `?`. -/
protected def bind {α β} (m : EM α) (f : α → EM β) : EM β := fun st =>
  match m st with
  | .ok a st' => f a st'
  | .err e st' => .err e st'
  | .panic w => .panic w
  | .timeout => .timeout
instance : Monad EM where
  pure := EM.pure
  bind := EM.bind
/-- The state. -/
def get : EM St := fun st => .ok st st
/-- Changes the state. -/
def modify (f : St → St) : EM Unit := fun st => .ok () (f st)
/-- `Err(msg)`. -/
def fail {α} (msg : String) : EM α := fun st => .err msg st
/-- A Rust panic. -/
def panic {α} (why : String) : EM α := fun _ => .panic why
/-- Out of fuel. -/
def timeout {α} : EM α := fun _ => .timeout
end EM

/-- The result of evaluating an expression: `(Option<Variable>, Flow)`. -/
abbrev R := Option Val × Flow

/-- The modules, the external functions and the environment.

External functions are fn pointers; the numbers in `FnIndex` select them here.
`trace`-independent printing of numbers (`{}` on `f64`) is `showF64`.
`arrive t c` are the messages other threads have put into receiver `c` between the
`t`-th channel operation and the one before; `closed t c` tells whether receiver `c` has
been dropped when a message is sent.  `byName`: variables are searched by name (the feature
`debug_lookup`).  `lost` is not in the code: with `some msg` the program stops with the panic `msg`
where a variable is not there, in place of what the code does.  It serves to state that a program
never gets to such a place. -/
structure ECfg where
  modules : Nat → List Func
  extNames : Nat → List (String × FnIndex)
  voidFn : Nat → EM Unit
  retFn : Nat → EM Val
  binopFn : Nat → Val → Val → OpRes
  unopFn : Nat → Val → OpRes
  showF64 : F64 → String
  arrive : Nat → Nat → List Val
  closed : Nat → Nat → Bool
  byName : Bool
  lost : Option String := none

/-- `stack_trace`, runtime/mod.rs:2931-2943. -/
def stackTrace : List CallRec → String
  | [] => ""
  | c :: cs =>
    c.fnName ++ (match c.file with | some f => " (" ++ f ++ ")" | none => "") ++ "\n" ++ stackTrace cs

/-- `Runtime::err`, runtime/mod.rs:565-569.  The source position that `Module::error` adds
to the message is left out. -/
def errT {α} (msg : String) : EM α := fun st => .err (stackTrace st.calls ++ "\n" ++ msg) st

/-- `Runtime::expected` as the message of an error, runtime/mod.rs:497-505. -/
def errExpected {α} (v : Val) (ty : String) : EM α :=
  errT ("Expected `" ++ ty ++ "`, found `" ++ v.typeofVar ++ "`")

/-- `self.stack.push(v)`. -/
def pushE (v : Val) : EM Unit := EM.modify fun st => { st with stack := st.stack ++ [v] }

/-- `self.stack.pop().expect(TINVOTS)`. -/
def popE : EM Val := fun st =>
  match st.stack.getLast? with
  | some v => .ok v { st with stack := st.stack.dropLast }
  | none => .panic "There is no value on the stack"

/-- `self.stack[i]`. -/
def slotE (i : Nat) : EM Val := fun st =>
  match st.stack[i]? with
  | some v => .ok v st
  | none => .panic "index out of bounds"

/-- `Runtime::get`, runtime/mod.rs:509-511. -/
def derefE (v : Val) : EM Val :=
  match v with
  | .ref i => slotE i
  | v => pure v

/-- `self.stack.truncate(n)`. -/
def truncStack (n : Nat) : EM Unit := EM.modify fun st => { st with stack := st.stack.take n }

/-- `self.local_stack.truncate(n)`. -/
def truncLocals (n : Nat) : EM Unit := EM.modify fun st => { st with locals := st.locals.take n }

/-- `self.current_stack.truncate(n)`. -/
def truncCurrents (n : Nat) : EM Unit :=
  EM.modify fun st => { st with currents := st.currents.take n }

/-- `self.local_stack.push((name, i))`. -/
def pushLocal (name : String) (i : Nat) : EM Unit :=
  EM.modify fun st => { st with locals := st.locals ++ [(name, i)] }

/-- `self.current_stack.push((name, i))`. -/
def pushCurrent (name : String) (i : Nat) : EM Unit :=
  EM.modify fun st => { st with currents := st.currents ++ [(name, i)] }

/-- `self.call_stack.last().expect(CSIE)`. -/
def lastCall : EM CallRec := fun st =>
  match st.calls.getLast? with
  | some c => .ok c st
  | none => .panic "Call stack is empty"

/-- The errors about the returned value, runtime/mod.rs:1640-1654, 1663-1675, 1680-1693: the code
looks up the caller first, and panics if the host is the caller.  (For closures,
runtime/mod.rs:1169-1209, there is always a caller.) -/
def errCaller {α} (msg : String) : EM α := do
  let _ ← lastCall
  errT msg

/-- `self.call_stack.last().map(|c| c.index).unwrap_or(0)`. -/
def relIndex : EM Nat := fun st =>
  .ok ((st.calls.getLast?.map CallRec.index).getD 0) st

/-- `push_fn`, runtime/mod.rs:514-531. -/
def pushFn (name : String) (index : Nat) (file : Option String) (st lc cu : Nat) : EM Unit :=
  EM.modify fun s => { s with calls := s.calls ++ [⟨name, index, file, st, lc, cu⟩] }

/-- `pop_fn`, runtime/mod.rs:532-550. -/
def popFn (name : String) : EM Unit := fun s =>
  match s.calls.getLast? with
  | none => .panic "Did not call"
  | some c =>
    if c.fnName = name then
      .ok () { s with
        calls := s.calls.dropLast
        stack := s.stack.take c.stackLen
        locals := s.locals.take c.localLen
        currents := s.currents.take c.currentLen }
    else .panic "did not call"

/-- Runs an action of the library model (`SM`) on the stack. -/
def liftSM {α} (m : SM α) : EM α := fun st =>
  match m st.stack with
  | .ok a s => .ok a { st with stack := s }
  | .err e s => .err e { st with stack := s }
  | .panic => .panic "library function"
  | .running => .timeout

/-- `v.deep_clone(&self.stack)`, with the number of references followed in a row bounded
by the fuel. -/
def cloneE (fuel : Nat) (v : Val) : EM Val := fun st =>
  match deepClone st.stack fuel v with
  | .ok w => .ok w st
  | .panic => .panic "Unsafe reference can not be cloned"
  | .running => .timeout

/-- An operator result; the error message gets no stack trace (`map_err(|err|
self.module.error(range, &err, self))`, runtime/mod.rs:1333-1350). -/
def liftOp (r : OpRes) : EM Val :=
  match r with
  | .ok v => pure v
  | .error e => EM.fail e

/-- A `loop { .. }` that ends with a result, with a bound on the number of rounds. -/
def loopN {σ α} : Nat → (σ → EM (σ ⊕ α)) → σ → EM α
  | 0, _, _ => EM.timeout
  | n + 1, body, s => do
    match ← body s with
    | .inl s' => loopN n body s'
    | .inr a => pure a

/-- Search from the end for the last entry with a name
(`.iter().rev()` loops, runtime/mod.rs:1093-1099, 1538-1544, 2419). -/
def findLast (name : String) : List (String × Nat) → Option Nat
  | [] => none
  | (n, i) :: rest => match findLast name rest with
    | some j => some j
    | none => if n = name then some i else none

end Dyon
