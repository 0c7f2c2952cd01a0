import Verif.Host.Call
import Verif.Eval.Place

/-!
# Host functions and host objects: the macros `dyon_fn!` and `dyon_obj!` in src/macros.rs
-/

namespace Dyon

/-- A host type together with its `PushVariable` and `PopVariable`, embed.rs:28-53. -/
structure Conv where
  T : Type
  push : T → Val
  pop : Stack → String → Nat → Val → Pop T

section
variable [FloatOps] [VecMath]

/-- The host types with conversions in the crate, see Host/Embed.lean. -/
def Conv.of (t : HTy) : Conv := ⟨t.T, pushVar t, fun st trace n => popVar st trace n t⟩

/-- The fields of a host struct, in the order of the macro call. -/
abbrev Fields : List (String × Conv) → Type
  | [] => Unit
  | f :: fs => f.2.T × Fields fs

/-- `obj_field` at the type of a field, embed.rs:20-25. -/
def convField (st : Stack) (trace : String) (n : Nat) (t : Conv) (obj : List (String × Val)) (name : String) :
    Pop t.T :=
  match obj.lookup name with
  | none => .err ("Object has no key `" ++ name ++ "`")
  | some v => t.pop st trace n v

/-- The struct literal of `pop_var` in `dyon_obj!`, macros.rs:352-356: fields are taken in order,
the first error ends it. -/
def popFields (st : Stack) (trace : String) (n : Nat) (obj : List (String × Val)) :
    (fs : List (String × Conv)) → Pop (Fields fs)
  | [] => .ok ()
  | f :: fs => (convField st trace n f.2 obj f.1).bind fun x =>
      (popFields st trace n obj fs).bind fun xs => .ok (x, xs)

/-- The insertions of `push_var` in `dyon_obj!`, macros.rs:368-371. -/
def pushFields : (fs : List (String × Conv)) → Fields fs → List (String × Val) → List (String × Val)
  | [], _, obj => obj
  | f :: fs, (x, xs), obj => pushFields fs xs (insertKey f.1 (f.2.push x) obj)

/-- `dyon_obj!`, macros.rs:342-378.  The name of the struct is only used in the error. -/
def Conv.obj (name : String) (fs : List (String × Conv)) : Conv where
  T := Fields fs
  push x := .object (pushFields fs x [])
  pop st trace n := Pop.get st fun v =>
    match v with
    | .object obj => popFields st trace n obj fs
    | v => .err (expectedMsg trace v name)

/-- A parameter of a host function: a value, or an object of the host (`#`, `#&` and `#&mut`;
all three keep the lock on the object until the function ends). -/
inductive Param where
  | val (t : Conv)
  | obj (ty : String)

/-- What the host function gets for a parameter.  Objects of the host are numbers here. -/
abbrev Param.T : Param → Type
  | .val t => t.T
  | .obj _ => Nat

/-- The arguments of a host function, in the order of its parameters. -/
abbrev HostArgs : List Param → Type
  | [] => Unit
  | p :: ps => p.T × HostArgs ps

/-- `Runtime::pop`, runtime/mod.rs:388-391. -/
def popConv (n : Nat) (t : Conv) : EM t.T := fun st =>
  match st.stack.getLast? with
  | none => .panic "There is no value on the stack"
  | some v =>
    let st' := { st with stack := st.stack.dropLast }
    (Pop.get st'.stack (t.pop st'.stack (stackTrace st.calls) n) v).toEv st'

/-- The lock and the downcast of an object of the host, macros.rs:13-15, 28-30 and 43-45.  `kind`
is the Rust type of an object, `held` are the objects that this call has locked already.  Locking
an object a second time never returns.  Locks that are held or poisoned by others are left out. -/
def lockObj (kind : Nat → String) (held : List Nat) (ty : String) (o : Nat) : EM (Nat × List Nat) :=
  if o ∈ held then EM.timeout
  else if kind o = ty then pure (o, o :: held)
  else EM.fail ("Expected Rust object of type: " ++ ty)

/-- One parameter of `dyon_fn_pop!`, macros.rs:11-16, 26-31, 41-46 and 54-56. -/
def popParam (kind : Nat → String) (n : Nat) (held : List Nat) : (p : Param) → EM (p.T × List Nat)
  | .val t => do
    let x ← popConv n t
    pure (x, held)
  | .obj ty => popConv n (Conv.of .rust) >>= lockObj kind held ty

/-- `dyon_fn_pop!`, macros.rs:9-61: the parameters after the first are popped before it.  Forms of
`dyon_fn!` with several kinds of parameters pop the later ones first as well. -/
def popParams (kind : Nat → String) (n : Nat) : (ps : List Param) → EM (HostArgs ps × List Nat)
  | [] => pure ((), [])
  | p :: ps => do
    let r ← popParams kind n ps
    let x ← popParam kind n r.2 p
    pure ((x.1, r.1), x.2)

/-- `dyon_fn!` with a result, macros.rs:69-224.  `inner` is the block of the host; what it does to
the objects of the host is up to it.  With `-> #` the result is a new object of the host. -/
def dyonFn (kind : Nat → String) (n : Nat) (ps : List Param) (r : Conv) (inner : HostArgs ps → EM r.T) : EM Val := do
  let xs ← popParams kind n ps
  let y ← inner xs.1
  pure (r.push y)

/-- `dyon_fn!` without a result, macros.rs:225-336. -/
def dyonVoidFn (kind : Nat → String) (n : Nat) (ps : List Param) (inner : HostArgs ps → EM Unit) : EM Unit := do
  let xs ← popParams kind n ps
  inner xs.1

end
end Dyon
