import Verif.Types.Model

/-!
# Model of `src/lifetime/typecheck/refine.rs`

The AST nodes are replaced by what the functions read from them: the inferred
types of the call's arguments (`None` when not inferred yet) and the list of
extra signatures.  `todo.push(i)` is the result `delayed`.
-/

namespace Dyon

/-- An extra type signature `(Vec<Arc<String>>, Vec<Type>, Type)` of `Dfn::ext`. -/
structure Sig where
  names : List String
  args : List Ty
  ret : Ty

/-- Outcome of refining a call. -/
inductive Refined where
  /-- `*this_ty = Some(new_ty)` -/
  | found (t : Ty)
  /-- `todo.push(i)`: try again later -/
  | delayed
  /-- `Type mismatch (#230)` -/
  | mismatch
  /-- error of `bind_ty_vars` -/
  | bindError (e : String)
  /-- no extra signatures: nothing changes -/
  | unchanged

/-- How one signature fares. -/
inductive SigResult where
  | all (vars : Ty.Vars)
  | noMatch
  | ambiguous
  | error (e : String)

/-- The loop over zipped arguments, refine.rs:145-176 (and 68-105). -/
def matchArgs (names : List String) : List (Option Ty) → List Ty → Ty.Vars → SigResult
  | arg :: args, tyArg :: tyArgs, vars =>
    match arg with
    | none => .ambiguous
    | some a =>
      match tyArg.bindTyVars a names vars with
      | .error e => .error e
      | .ok (b, vars) =>
        if b.goesWith a then
          if b.ambiguous a then .ambiguous
          else matchArgs names args tyArgs vars
        else .noMatch
  | _, _, vars => .all vars

/-- The substitution of variables in the return type, refine.rs:178-185 (and
112-121). -/
def substRet : List String → Ty.Vars → Ty → Ty
  | n :: ns, v :: vs, t =>
    match v with
    | some val => substRet ns vs (t.insertVar n val)
    | none => substRet ns vs (t.insertNoneVar n)
  | _, _, t => t

/-- The loop over signatures of `prelude`, refine.rs:142-191. -/
def refineLoop (args : List (Option Ty)) : List Sig → Nat → Refined
  | [], count => if count > 0 then .mismatch else .unchanged
  | sig :: sigs, count =>
    match matchArgs sig.names args sig.args (List.replicate sig.names.length none) with
    | .error e => .bindError e
    | .ambiguous => .delayed
    | .noMatch => refineLoop args sigs count
    | .all vars => .found (substRet sig.names vars sig.ret)

/-- `refine::prelude`, refine.rs:132-194, with `report`, 6-47. -/
def refinePrelude (args : List (Option Ty)) (ext : List Sig) : Refined :=
  refineLoop args ext ext.length

end Dyon
