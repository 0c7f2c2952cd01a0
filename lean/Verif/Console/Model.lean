import Verif.Builtin.Text
import Verif.Data.Write

/-!
# Model of the library functions that print and read

`print`, `println`, `eprint`, `eprintln`, `read_line`, `read_number` and `str` of `src/dyon_std/mod.rs`, `print_variable` and
`eprint_variable` of `src/write.rs`, built with the feature `stdio`.

The standard streams are external: `io::stdout()` keeps text until a line is complete or it is flushed, `io::stderr()` shows text at
once, `Stdin::read_line` gives the text up to and with the next line break, or the rest at the end of the input.  When text that is
kept is shown earlier, which operations fail and what is lost of the input by a failing read is given by `Sys`, about which nothing is
assumed.  Nobody else reads the input or prints during one call.
-/

namespace Dyon.Console

/-- What the system does at each operation, counted from the start of the program: how many characters of the kept text are shown
though no line is complete; whether an output fails; the text of the error of a failing read and how many characters it takes. -/
structure Sys where
  early : Nat → Nat
  broken : Nat → Bool
  reading : Nat → Option (String × Nat)

/-- The terminal: the input that is not read, what is on the screen, what is printed and kept back, what is on the error output, and
the number of operations so far. -/
structure Term where
  input : List Char
  screen : List Char
  kept : List Char
  errors : List Char
  clock : Nat

/-- The text up to and with the last line break, and what is behind it. -/
def complete (s : List Char) : Nat := s.length - (s.reverse.takeWhile (· != '\n')).length

section
variable (sys : Sys)

/-- `io::stdout().write_all`, a `LineWriter`: complete lines are shown.  `none`: the write fails. -/
def Term.write (t : Term) (s : List Char) : Option Term :=
  if sys.broken t.clock then none
  else
    let all := t.kept ++ s
    let n := max (complete all) (sys.early t.clock)
    some { t with screen := t.screen ++ all.take n, kept := all.drop n, clock := t.clock + 1 }

/-- `io::stdout().flush()`. -/
def Term.flush (t : Term) : Option Term :=
  if sys.broken t.clock then none
  else some { t with screen := t.screen ++ t.kept, kept := [], clock := t.clock + 1 }

/-- `io::stderr().write_all`. -/
def Term.warn (t : Term) (s : List Char) : Option Term :=
  if sys.broken t.clock then none
  else some { t with errors := t.errors ++ s, clock := t.clock + 1 }

/-- The first line with its line break, and the rest. -/
def cutLine : List Char → List Char × List Char
  | [] => ([], [])
  | c :: s => if c = '\n' then ([c], s) else ((c :: (cutLine s).1), (cutLine s).2)

/-- `io::stdin().read_line`. -/
def Term.line (t : Term) : Except String (List Char) × Term :=
  match sys.reading t.clock with
  | some (e, n) => (.error e, { t with input := t.input.drop n, clock := t.clock + 1 })
  | none => (.ok (cutLine t.input).1, { t with input := (cutLine t.input).2, clock := t.clock + 1 })

variable [Data.Lex]

/-- `_str`, mod.rs:966-973.  The fuel is the depth to which the value is followed. -/
def str [Data.Show] (fuel : Nat) : SM Val := do
  let v ← popV
  let v ← getV v
  fun st => match Data.writeV st fuel false v with
    | none => .running
    | some t => .ok (.str (String.ofList t)) st

/-- `print`, mod.rs:536-543, with `print_variable`, write.rs:159-162 (`unwrap`). -/
def print [Data.Show] (fuel : Nat) (t : Term) : SM Term := do
  let x ← popV
  fun st => match Data.writeV st fuel false x with
    | none => .running
    | some s => match t.write sys s with
      | none => .panic
      | some t => .ok t st

/-- `println`, mod.rs:525-533: the macro `println!` panics if the output fails. -/
def println [Data.Show] (fuel : Nat) (t : Term) : SM Term := do
  let t ← print sys fuel t
  match t.write sys ['\n'] with
  | none => SM.panic
  | some t => pure t

/-- `eprint`, mod.rs:555-562, with `eprint_variable`, write.rs:164-167. -/
def eprint [Data.Show] (fuel : Nat) (t : Term) : SM Term := do
  let x ← popV
  fun st => match Data.writeV st fuel false x with
    | none => .running
    | some s => match t.warn sys s with
      | none => .panic
      | some t => .ok t st

/-- `eprintln`, mod.rs:545-553. -/
def eprintln [Data.Show] (fuel : Nat) (t : Term) : SM Term := do
  let t ← eprint sys fuel t
  match t.warn sys ['\n'] with
  | none => SM.panic
  | some t => pure t

/-- `read_line`, mod.rs:921-936.  An error of the result is a run-time error of the program; the terminal is kept beside it. -/
def readLine (t : Term) : SM (Except String Val × Term) :=
  match t.flush sys with
  | none => SM.panic
  | some t => match t.line sys with
    | (.error e, t) => pure (.error e, t)
    | (.ok s, t) => pure (.ok (.str (String.ofList s)), t)

/-- Where the loop of `read_number` is. -/
inductive Ask where
  | number (x : F64) (t : Term)
  | failed (e : String) (t : Term)
  | panic
  | running (t : Term)

/-- The loop of `read_number`, mod.rs:946-957, for at most the given number of rounds. -/
def ask [TextOps] (msg : List Char) : Nat → Term → Ask
  | 0, t => .running t
  | n + 1, t => match t.flush sys with
    | none => .panic
    | some t => match t.line sys with
      | (.error e, t) => .failed e t
      | (.ok s, t) => match TextOps.parse (Lib.trimBoth s) with
        | some x => .number x t
        | none => match t.write sys (msg ++ ['\n']) with
          | none => .panic
          | some t => ask msg n t

/-- `read_number`, mod.rs:938-959: `rt.pop().expect(..)` panics if the message is not a text. -/
def readNumber [TextOps] (c : Cfg) (rounds : Nat) (t : Term) : SM (Except String Val × Term) := fun st =>
  match Lib.popText c st with
  | .ok msg st => match ask sys msg.toList rounds t with
    | .number x t => .ok (.ok (.ofF64 x), t) st
    | .failed e t => .ok (.error e, t) st
    | .panic => .panic
    | .running _ => .running
  | _ => .panic

end

end Dyon.Console
