import Verif.Host.Embed
import Verif.Eval.Eval

/-!
# Calls from the host: `Call` in src/lib.rs
-/

namespace Dyon

/-- `Call`, lib.rs:503-506. -/
structure Call where
  args : List Val
  name : String

section
variable [FloatOps] [VecMath]

/-- `Call::new`, lib.rs:510-515. -/
def Call.new (name : String) : Call := ⟨[], name⟩

/-- `Call::arg`, lib.rs:518-521. -/
def Call.arg (k : Call) (t : HTy) (x : t.T) : Call := { k with args := k.args ++ [pushVar t x] }

/-- `Call::vec4`, lib.rs:524-527.  The conversions of `ConvertVec4` are in Host/Embed.lean. -/
def Call.vec4 (k : Call) (v : Vec4) : Call := { k with args := k.args ++ [.vec4 v] }

/-- `Call::rust`, lib.rs:530-534.  Objects of the host are numbers here. -/
def Call.rust (k : Call) (o : Nat) : Call := { k with args := k.args ++ [.rustObject o] }

/-- `Call::run`, lib.rs:537-539. -/
def Call.run (c : ECfg) (n : Nat) (k : Call) (m : Nat) : EM Unit := callStr c n k.name k.args m

/-- The result of popping as the result of a host call. -/
def Pop.toEv {α} (p : Pop α) (st : St) : Ev α :=
  match p with
  | .ok x => .ok x st
  | .err e => .err e st
  | .panic => .panic "index out of bounds"
  | .running => .timeout

/-- `T::pop_var(runtime, runtime.get(&val))`, lib.rs:548. -/
def popResult (n : Nat) (t : HTy) (v : Val) : EM t.T := fun st =>
  (Pop.get st.stack (popVar st.stack (stackTrace st.calls) n t) v).toEv st

/-- `Call::run_ret`, lib.rs:542-549. -/
def Call.runRet (c : ECfg) (n : Nat) (k : Call) (t : HTy) (m : Nat) : EM t.T := do
  let v ← callStrRet c n k.name k.args m
  popResult n t v

/-- `Call::run_vec4`, lib.rs:552-562, before the conversion to the type of the host. -/
def Call.runVec4 (c : ECfg) (n : Nat) (k : Call) (m : Nat) : EM Vec4 := do
  let v ← callStrRet c n k.name k.args m
  popResult n .vec4 v

end
end Dyon
