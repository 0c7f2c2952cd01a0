import Verif.Eval.Eval
import Verif.Lifetime.Model

/-!
# Calling functions of modules that were loaded by the program

`call` and `call_ret` of `src/dyon_std/mod.rs:1410-1559`: a program loads a module, gets a
value for it (a Rust object holding the module) and calls one of its functions by name with an
array of arguments.

The value of the module is locked while the called function runs (the guard of
`obj.lock()` lives until the end of the `match`, mod.rs:1431-1487 and 1510-1556).  The lock is
not reentrant: locking again in the same thread never returns (or panics, which the
documentation of `std::sync::Mutex` leaves open; the model does not return).  `held` are the
locked values.
-/

namespace Dyon

/-- What `call` knows about values of modules.  `call` and `callRet` are the numbers of the two
functions in the tables of `ECfg`; `object` gives the module in a Rust object (`none` for other
objects), `params` the names and lifetimes of the parameters of a function. -/
structure Loader where
  call : Nat
  callRet : Nat
  object : Nat → Option Nat
  params : Nat → Nat → List Lt.Arg

/-- The text in a value, mod.rs:1418-1421 and 1498-1501. -/
def dynText (v : Val) : EM String := do
  match ← derefE v with
  | .str t => pure t
  | x => errExpected x "text"

/-- The array in a value, mod.rs:1422-1425 and 1494-1497. -/
def dynArray (v : Val) : EM (List Val) := do
  match ← derefE v with
  | .array xs => pure xs
  | x => errExpected x "array"

/-- The Rust object in a value, mod.rs:1426-1430 and 1502-1506. -/
def dynObject (v : Val) : EM Nat := do
  match ← derefE v with
  | .rustObject o => pure o
  | x => errExpected x "Module"

/-- Reads the arguments, mod.rs:1411-1430 (`call`) and 1486-1506 (`call_ret`): the source of the
running function is looked up first; `call` looks at the name before the array, `call_ret` at the
array before the name. -/
def dynRead (c : ECfg) (ret : Bool) : EM (Nat × String × List Val) := do
  let k ← lastCall
  let s ← EM.get
  match (c.modules s.module)[k.index]? with
  | none => EM.panic "index out of bounds"
  | some _ => do
    let va ← popE
    let vn ← popE
    let vm ← popE
    if ret then do
      let args ← dynArray va
      let name ← dynText vn
      let o ← dynObject vm
      pure (o, name, args)
    else do
      let name ← dynText vn
      let args ← dynArray va
      let o ← dynObject vm
      pure (o, name, args)

/-- The function to call, mod.rs:1431-1461 and 1510-1538: looked up by name in the module, with
the number of arguments and their lifetimes checked. -/
def dynTarget (L : Loader) (c : ECfg) (o : Nat) (name : String) (args : List Val) :
    EM (Nat × Int) :=
  match L.object o with
  | none => errExpected (.rustObject o) "Module"
  | some m =>
    match findFunction c m name 0 with
    | .loaded f =>
      match (c.modules m)[f.toNat]? with
      | none => EM.panic "index out of bounds"
      | some fn =>
        if fn.args.length ≠ args.length then
          EM.fail ("Expected `" ++ toString fn.args.length ++ "` arguments, found `" ++
            toString args.length ++ "`")
        else
          match Lt.runCheck (L.params m f.toNat) args with
          | .ok => pure (m, f)
          | .error e => EM.fail e
          | .crash => EM.panic "index out of bounds"
    | _ => EM.fail ("Could not find function `" ++ name ++ "`")

section
variable [FloatOps] [VecMath]

/-- `_call`, mod.rs:1410-1486, and `call_ret`, mod.rs:1488-1559, up to what is done with the
result.  `inner o` is the configuration the called function runs in, in which `o` is locked. -/
def dynCall (L : Loader) (c : ECfg) (inner : Nat → ECfg) (n : Nat) (held : List Nat) (ret : Bool) :
    EM (String × R) := do
  let (o, name, args) ← dynRead c ret
  if held.contains o then EM.timeout
  else do
    let (m, f) ← dynTarget L c o name args
    let r ← callOutside (inner o) n (.loaded f) name (args.map Expr.const) m
    pure (name, r)

/-- `call`: the result is dropped, mod.rs:1481. -/
def dynVoid (L : Loader) (c : ECfg) (inner : Nat → ECfg) (n : Nat) (held : List Nat) : EM Unit := do
  let _ ← dynCall L c inner n held false
  pure ()

/-- `call_ret`: there must be a result, mod.rs:1547-1551. -/
def dynRet (L : Loader) (c : ECfg) (inner : Nat → ECfg) (n : Nat) (held : List Nat) : EM Val := do
  let (name, r) ← dynCall L c inner n held true
  match r.1 with
  | some v => pure v
  | none => EM.fail ("Expected some return value `" ++ name ++ "`")

/-- A configuration with `call` and `call_ret` among the external functions.  The number bounds
how deep calls may be nested, and is the fuel of each. -/
def ECfg.dyn (c : ECfg) (L : Loader) : Nat → List Nat → ECfg
  | 0, _ =>
    { c with
      voidFn := fun f => if f = L.call then EM.timeout else c.voidFn f
      retFn := fun f => if f = L.callRet then EM.timeout else c.retFn f }
  | n + 1, held =>
    { c with
      voidFn := fun f =>
        if f = L.call then dynVoid L c (fun o => c.dyn L n (o :: held)) n held else c.voidFn f
      retFn := fun f =>
        if f = L.callRet then dynRet L c (fun o => c.dyn L n (o :: held)) n held else c.retFn f }

end

end Dyon
