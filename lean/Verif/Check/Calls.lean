import Verif.Check.Resolve
import Verif.Module.Model

/-!
# Linking calls and `in` expressions to functions, `src/lifetime/mod.rs:523-742`

How a name is looked up is modelled in `Verif/Module/Model.lean` (`functionLookup`, `checkCall`,
`checkArity`).
-/

namespace Dyon.Check

/-- What the checker knows of other modules: `prelude` and `use_lookup`. -/
structure Env where
  prelude : Mod.Prelude
  aliases : Mod.Aliases

/-- Why the checker refuses the functions and calls of a file. -/
inductive CallErr where
  /-- "Duplicate argument", lifetime/mod.rs:534-537 -/
  | duplicateArg (i : Nat)
  /-- "`..` has extra type information but does not return anything", lifetime/mod.rs:548-556 -/
  | extraVoid (ch : Nat)
  /-- "The type `..` does not work with `..`", lifetime/mod.rs:572-578, 587-593 -/
  | extraType (t : Nat)
  /-- "Expected .. number of arguments, found ..", lifetime/mod.rs:597-602 -/
  | extraCount (ch : Nat)
  /-- "Duplicate function", lifetime/mod.rs:612-615 -/
  | duplicateFn
  /-- "Could not find function", lifetime/mod.rs:671-673, 693-695 -/
  | notFound (c : Nat)
  /-- "Expected {} arguments, found {}", lifetime/mod.rs:683-688, 701-704 -/
  | arity (c : Nat)
  /-- a call without name -/
  | panic (c : Nat)
deriving DecidableEq

/-- `functions`, lifetime/mod.rs:191-197. -/
def Nodes.functions (ns : Nodes) : List Nat :=
  (List.range ns.length).filter fun f => (ns.at f).kind = .fn

/-- `calls`, lifetime/mod.rs:203-209. -/
def Nodes.calls (ns : Nodes) : List Nat :=
  (List.range ns.length).filter fun c => (ns.at c).kind = .call

/-- The arguments of a function or closure: `children.filter(|i| kind == Arg)`. -/
def Nodes.args (ns : Nodes) (f : Nat) : List Nat :=
  (ns.at f).children.filter fun c => (ns.at c).kind = .arg

/-- The arguments of a call. -/
def Nodes.callArgs (ns : Nodes) (c : Nat) : List Nat :=
  (ns.at c).children.filter fun a => (ns.at a).kind = .callArg

/-- Whether a node is a component of a swizzle, lifetime/mod.rs:648-650. -/
def Kind.isSw : Kind → Bool
  | .sw0 | .sw1 | .sw2 | .sw3 => true
  | _ => false

/-- The number of arguments that a child of a call stands for: the components of a swizzle, or
one, lifetime/mod.rs:638-655. -/
def Nodes.width (ns : Nodes) (a : Nat) : Nat :=
  match ns.child a .swizzle with
  | some sw => ((ns.at sw).children.filter fun k => (ns.at k).kind.isSw).length
  | none => 1

/-- `n`, the number of arguments of a call, lifetime/mod.rs:637-657. -/
def Nodes.argCount (ns : Nodes) (c : Nat) : Nat := ((ns.callArgs c).map ns.width).sum

/-- The first argument that has the name of an earlier one, lifetime/mod.rs:523-544. -/
def Nodes.duplicateArg (ns : Nodes) (f : Nat) : Option Nat :=
  go [] (ns.args f)
where
  go (seen : List (Option String)) : List Nat → Option Nat
    | [] => none
    | a :: as => if (ns.at a).name ∈ seen then some a else go ((ns.at a).name :: seen) as

/-- The loop `while nodes[nodes[f].children[arg]].kind != Kind::Arg`, lifetime/mod.rs:567-569. `none`:
the index runs out of the list. -/
def Nodes.skipToArg (ns : Nodes) (f arg : Nat) : Option Nat :=
  (((ns.at f).children.drop arg).findIdx? fun c => (ns.at c).kind = .arg).map (arg + ·)

/-- `arg_ty.goes_with(ty)` if the argument has a type, lifetime/mod.rs:570-572. -/
def takes (argTy : Option Ty) (ty : Ty) : Bool :=
  match argTy with
  | some argTy => argTy.goesWith ty
  | none => true

/-- The loop over the parts of an extra signature, lifetime/mod.rs:561-596; `n` is the number of
arguments of the function `f` and `ret` its type. The result is `count`. -/
def Nodes.extraParts (ns : Nodes) (f n : Nat) (ret : Ty) : List Nat → Nat → Nat → Except CallErr Nat
  | [], _, count => .ok count
  | t :: ts, arg, count =>
    if (ns.at t).kind = .tyArg then
      if arg < n then
        match (ns.at t).ty with
        | none => ns.extraParts f n ret ts (arg + 1) (count + 1)
        | some ty => match ns.skipToArg f arg with
          | none => .error (.panic f)
          | some a =>
            if !(a < n) || takes (ns.at ((ns.at f).children.getD a 0)).ty ty then ns.extraParts f n ret ts (a + 1) (count + 1) else .error (.extraType t)
      else ns.extraParts f n ret ts arg (count + 1)
    else if (ns.at t).kind = .tyRet then
      match (ns.at t).ty with
      | some r => if ret.goesWith r then ns.extraParts f n ret ts arg count else .error (.extraType t)
      | none => ns.extraParts f n ret ts arg count
    else ns.extraParts f n ret ts arg count

/-- The check of one child of a function, lifetime/mod.rs:559-604. -/
def Nodes.extraOne (ns : Nodes) (f n : Nat) (ret : Ty) (ch : Nat) : Option CallErr :=
  if (ns.at ch).kind = .ty then
    match ns.extraParts f n ret (ns.at ch).children 0 0 with
    | .error e => some e
    | .ok count => if count ≠ n then some (.extraCount ch) else none
  else none

/-- The check of the extra type information of a function, lifetime/mod.rs:546-606. -/
def Nodes.extra (ns : Nodes) (f : Nat) : Option CallErr :=
  match (ns.at f).ty with
  | some .void => (ns.at f).children.findSome? fun ch => if (ns.at ch).kind = .ty then some (.extraVoid ch) else none
  | some ret => (ns.at f).children.findSome? (ns.extraOne f (ns.args f).length ret)
  | none => none

/-- Linking of one call, lifetime/mod.rs:637-706. -/
def Nodes.linkCall (env : Env) (look : Mod.Map Nat) (ns : Nodes) (c : Nat) : Except CallErr Nodes :=
  match (ns.at c).name with
  | none => .error (.panic c)
  | some name =>
    let site : Mod.Site := ⟨(ns.at c).alias, name, .none⟩
    match Mod.checkCall look env.aliases env.prelude site with
    | none => .error (.notFound c)
    | some sig =>
      if Mod.checkArity (ns.functions.map fun f => (ns.args f).length) env.prelude site (ns.argCount c) sig then
        match sig with
        | .declared i => match ns.functions[i]? with
          | some f => .ok (ns.setDecl c f)
          | none => .error (.panic c)
        | .prelude i => match env.prelude.list[i]? with
          | some d => .ok (ns.modify c fun n => { n with lts := d.lts })
          | none => .error (.panic c)
      else .error (.arity c)

/-- The loop over the calls, lifetime/mod.rs:635-707. -/
def Nodes.linkCallList (env : Env) (look : Mod.Map Nat) (ns : Nodes) : List Nat → Except CallErr Nodes
  | [] => .ok ns
  | c :: cs =>
    match ns.linkCall env look c with
    | .error e => .error e
    | .ok ns => ns.linkCallList env look cs

/-- The checks of functions and calls, lifetime/mod.rs:523-606, 608-619, 635-707.  (A function
without name, which the grammar does not have, gets the empty name here.) -/
def Nodes.linkCalls (env : Env) (ns : Nodes) : Except CallErr Nodes :=
  match ns.functions.findSome? ns.duplicateArg with
  | some a => .error (.duplicateArg a)
  | none => match ns.functions.findSome? ns.extra with
  | some e => .error e
  | none =>
    match Mod.functionLookup (ns.functions.map fun f => (ns.at f).name.getD "") 0 Mod.Map.empty with
    | none => .error .duplicateFn
    | some look => ns.linkCallList env look ns.calls

/-- `ins`, lifetime/mod.rs:211-218. -/
def Nodes.ins (ns : Nodes) : List Nat :=
  (List.range ns.length).filter fun c => (ns.at c).kind = .in'

/-- The check of one `in` expression, lifetime/mod.rs:712-741.  Only through an alias the node gets
the lifetimes of the parameters. -/
def Nodes.linkIn (env : Env) (look : Mod.Map Nat) (ns : Nodes) (c : Nat) : Except CallErr Nodes :=
  match (ns.at c).name with
  | none => .error (.panic c)
  | some name =>
    match (ns.at c).alias with
    | some al => match env.aliases.get al name with
      | some (.loaded i) => match env.prelude.list[i]? with
        | some d => .ok (ns.modify c fun n => { n with lts := d.lts })
        | none => .error (.panic c)
      | _ => .error (.notFound c)
    | none => match look name with
      | some _ => .ok ns
      | none => if (env.prelude.functions name).isSome then .ok ns else .error (.notFound c)

/-- The loop over the `in` expressions, lifetime/mod.rs:711-742. -/
def Nodes.linkInList (env : Env) (look : Mod.Map Nat) (ns : Nodes) : List Nat → Except CallErr Nodes
  | [] => .ok ns
  | c :: cs =>
    match ns.linkIn env look c with
    | .error e => .error e
    | .ok ns => ns.linkInList env look cs

/-- The check of `in` expressions with the same map of functions as for calls,
lifetime/mod.rs:608-619, 709-742. -/
def Nodes.linkIns (env : Env) (ns : Nodes) : Except CallErr Nodes :=
  match Mod.functionLookup (ns.functions.map fun f => (ns.at f).name.getD "") 0 Mod.Map.empty with
  | none => .error .duplicateFn
  | some look => ns.linkInList env look ns.ins

/-- All checks of functions, calls and `in` expressions, lifetime/mod.rs:523-742. -/
def Nodes.linkFns (env : Env) (ns : Nodes) : Except CallErr Nodes :=
  match ns.linkCalls env with
  | .error e => .error e
  | .ok ns => ns.linkIns env

end Dyon.Check
