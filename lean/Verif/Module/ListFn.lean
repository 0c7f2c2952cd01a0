import Verif.Module.Listing
import Verif.Module.Make

/-!
# The functions of a module in a value

`functions()` and `functions(module)`, dyon_std/mod.rs:1561-1583.  Locking the Rust object is left out, as in `Make.lean`.
-/

namespace Dyon.Mod

/-- The listing as the result of a call: a crash of `list_functions` is a panic, dyon_std/mod.rs:1563-1565. -/
def listed (m : Module) : Pop Val :=
  match listFunctions m with
  | some vs => .ok (.array vs)
  | none => .panic

/-- `functions`, dyon_std/mod.rs:1561-1566. -/
def functionsFn (running : Module) : Pop Val := listed running

/-- `functions__module`, dyon_std/mod.rs:1568-1583.  `obj` gives the module in a Rust object. -/
def functionsOf (obj : Nat → Option Module) (trace : String) (st : Stack) (v : Val) : Pop Val :=
  (getVal st v).bind fun x =>
    match x with
    | .rustObject o => match obj o with
      | some m => listed m
      | none => .err (expectedMsg trace x "Module")
    | x => .err (expectedMsg trace x "Module")

end Dyon.Mod
