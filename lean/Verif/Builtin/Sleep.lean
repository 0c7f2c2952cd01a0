import Verif.Float

/-!
# Waiting: `sleep`, dyon_std/mod.rs:580-587

The multiplication of `FloatOps` and `f64::fract` are external; what IEEE-754 says about them is a hypothesis of the theorems
(`Builtin/SleepProps.lean`).
-/

namespace Dyon.Wait

/-- `x as u32`: NaN and negative numbers give 0, the fraction is dropped, too large numbers saturate; used in
dyon_std/mod.rs:585. -/
def toU32 (x : F64) : Nat := min x.toUsize (2 ^ 32 - 1)

/-- `Duration::new` of Rust's standard library, used in dyon_std/mod.rs:586: seconds and nanoseconds; `none` is the panic on
overflow. -/
def durationNew (secs nanos : Nat) : Option (Nat × Nat) :=
  if nanos < 10 ^ 9 then some (secs, nanos)
  else if secs + nanos / 10 ^ 9 < 2 ^ 64 then some (secs + nanos / 10 ^ 9, nanos % 10 ^ 9)
  else none

/-- `1.0e9`, dyon_std/mod.rs:585. -/
def billion : F64 := F64.ofNat (10 ^ 9)

/-- The duration that `sleep(v)` waits for, dyon_std/mod.rs:580-587. -/
def sleepFor [FloatOps] (fract : F64 → F64) (v : F64) : Option (Nat × Nat) :=
  durationNew v.toUsize (toU32 (FloatOps.mul (fract v) billion))

end Dyon.Wait
