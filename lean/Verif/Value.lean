import Verif.Float
import Verif.Link.Model

/-! # Run-time values -/

namespace Dyon

/-- `[f32; 4]`. -/
structure Vec4 where
  x : F32
  y : F32
  z : F32
  w : F32
deriving DecidableEq, Repr

/-- `[[f32; 4]; 4]`, a list of four columns. -/
structure Mat4 where
  c0 : Vec4
  c1 : Vec4
  c2 : Vec4
  c3 : Vec4
deriving DecidableEq, Repr

/-- One step into a compound value: a key of an object or an index of an array. -/
inductive Step where
  | key (k : String)
  | idx (i : Nat)
deriving DecidableEq, Repr

/-- Where a raw pointer `*mut Variable` points (`UnsafeRef`, lib.rs:166-176): a slot of the
variable stack, or something inside the value of that slot. -/
structure Place where
  root : Nat
  path : List Step
deriving DecidableEq, Repr

/-- `enum Variable`, lib.rs:194-233.

Simplifications: an object (hash map) is a list of key/value pairs; a link is the
list of its scalars (justified by C01); `UnsafeRef` carries a place (a stack slot and
a path into its value) instead of a raw pointer; Rust objects, threads, closures and
receivers are opaque identities. -/
inductive Val where
  | ref (i : Nat)
  | ret
  | bool (b : Bool) (sec : Option (List Val))
  | f64 (x : F64) (sec : Option (List Val))
  | vec4 (v : Vec4)
  | mat4 (m : Mat4)
  | str (s : String)
  | array (xs : List Val)
  | object (kvs : List (String × Val))
  | link (l : List Link.Scalar)
  | unsafeRef (p : Place)
  | rustObject (id : Nat)
  | option (o : Option Val)
  | resOk (v : Val)
  | resErr (msg : Val) (trace : List String)
  | thread (id : Option Nat)
  | closure (id : Nat)
  | inTy (id : Nat)
deriving Repr

namespace Val

/-- `Variable::bool`, lib.rs:247-249. -/
def ofBool (b : Bool) : Val := bool b none
/-- `Variable::f64`, lib.rs:242-244. -/
def ofF64 (x : F64) : Val := f64 x none

/-- `typeof_var`, lib.rs:252-277, with the type names of runtime/mod.rs:66-82. -/
def typeofVar : Val → String
  | str _ => "string"
  | f64 _ _ => "number"
  | vec4 _ => "vec4"
  | mat4 _ => "mat4"
  | ret => "return"
  | bool _ _ => "boolean"
  | object _ => "object"
  | array _ => "array"
  | link _ => "link"
  | ref _ => "ref"
  | unsafeRef _ => "unsafe_ref"
  | rustObject _ => "rust_object"
  | option _ => "option"
  | resOk _ => "result"
  | resErr _ _ => "result"
  | thread _ => "thread"
  | closure _ => "closure"
  | inTy _ => "in"

/-- Induction on the nesting of values (secrets and error traces are not entered). -/
theorem induct {P : Val → Prop}
    (href : ∀ i, P (ref i)) (hret : P ret) (hbool : ∀ b s, P (bool b s))
    (hf64 : ∀ x s, P (f64 x s)) (hvec4 : ∀ v, P (vec4 v)) (hmat4 : ∀ m, P (mat4 m))
    (hstr : ∀ s, P (str s)) (harr : ∀ xs, (∀ x ∈ xs, P x) → P (array xs))
    (hobj : ∀ kvs, (∀ kv ∈ kvs, P kv.2) → P (object kvs)) (hlink : ∀ l, P (link l))
    (hunsafe : ∀ i, P (unsafeRef i)) (hrust : ∀ i, P (rustObject i))
    (hnone : P (option none)) (hsome : ∀ v, P v → P (option (some v)))
    (hok : ∀ v, P v → P (resOk v)) (herr : ∀ v t, P v → P (resErr v t))
    (hthread : ∀ i, P (thread i)) (hclosure : ∀ i, P (closure i)) (hin : ∀ i, P (inTy i)) :
    ∀ v, P v := by
  intro v
  apply Val.rec (motive_1 := P) (motive_2 := fun _ => True)
    (motive_3 := fun xs => ∀ x ∈ xs, P x) (motive_4 := fun kvs => ∀ kv ∈ kvs, P kv.2)
    (motive_5 := fun o => P (option o)) (motive_6 := fun kv => P kv.2)
  case some => intros; trivial
  all_goals (intros; try first | assumption | trivial | (solve_by_elim))
  all_goals first
    | (rename_i ih1 ih2 _ h
       rcases List.mem_cons.1 h with h | h
       · rw [h]; exact ih1
       · exact ih2 _ h)
    | (rename_i h; cases h)

end Val
end Dyon
