import Verif.Builtin.Sleep
import Verif.Host.Embed

/-!
# The time: `now`, dyon_std/mod.rs:2069-2081

The clock of the system is a parameter: the time in nanoseconds since 1970, negative before.  Division and addition are those of
`FloatOps`; what IEEE-754 says about them is a hypothesis of the theorems (`Builtin/NowProps.lean`).
-/

namespace Dyon.Wait

/-- `val.as_secs() as f64 + f64::from(val.subsec_nanos()) / 1.0e9`, dyon_std/mod.rs:2073-2074 and 2077-2078; the duration in
nanoseconds. -/
def seconds [FloatOps] (d : Nat) : F64 :=
  FloatOps.add (F64.ofNatRound (d / 10 ^ 9)) (FloatOps.div (F64.ofNat (d % 10 ^ 9)) billion)

/-- `now`, dyon_std/mod.rs:2069-2081, at the time `t` of the clock: `duration_since` gives the time since 1970, or as an error the
time until then. -/
def now [FloatOps] (t : Int) : F64 :=
  if 0 ≤ t then seconds t.toNat else F64.fneg (seconds (-t).toNat)

end Dyon.Wait
