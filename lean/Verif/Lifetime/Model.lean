import Verif.Value

/-!
# Model of `src/lifetime/lt.rs`, of the lifetime parts of `src/lifetime/node.rs`
and `src/lifetime/mod.rs`, and of `src/dyon_std/lifetimechk.rs`

Simplifications: a syntax node is reduced to the fields that are read here; error
messages are kept as strings, source ranges are dropped; reaching `panic!`,
`unimplemented!`, `expect` on `None` or an index out of range is the verdict
`crash`.
-/

namespace Dyon.Lt

/-- `enum Lifetime`, lt.rs:8-23. -/
inductive Lifetime where
  | ret (args : List Nat)
  | arg (args : List Nat)
  | loc (n : Nat)
  | cur (n : Nat)
deriving DecidableEq, Repr

/-- `enum LifetimeError`, lt.rs:110-113. -/
inductive LtErr where
  | none
  | failedToUnify
deriving DecidableEq, Repr

/-- `LifetimeResult`, lt.rs:115. -/
inductive LtRes where
  | ok (l : Lifetime)
  | err (e : LtErr)
deriving DecidableEq, Repr

/-- `usize::cmp`. -/
def cmpNat (a b : Nat) : Ordering :=
  if a < b then .lt else if a = b then .eq else .gt

/-- `compare_argument_outlives`, lt.rs:61-70 (both loops). -/
def compareArgumentOutlives (a b : List Nat) : Option Ordering :=
  match a with
  | [] => none
  | _ => go a.length a b
where
  go (n : Nat) : List Nat → List Nat → Option Ordering
    | [], _ => none
    | i :: rest, b => if b.any (fun j => i == j) then some (cmpNat n b.length) else go n rest b

/-- `<Lifetime as PartialOrd>::partial_cmp`, lt.rs:25-55, arm by arm. -/
def partialCmp : Lifetime → Lifetime → Option Ordering
  | .cur _, .loc _ => some .gt
  | .loc _, .cur _ => some .lt
  | .cur a, .cur b => if a = b then some .eq else none
  | .cur _, _ => none
  | _, .cur _ => none
  | .loc a, .loc b => some (cmpNat b a)
  | .ret _, .loc _ => some .gt
  | .loc _, .ret _ => some .lt
  | .ret a, .ret b =>
    match a.length, b.length with
    | 0, 0 => some .eq
    | 0, _ => some .lt
    | _, 0 => some .gt
    | _, _ => compareArgumentOutlives a b
  | .arg _, .loc _ => some .gt
  | .loc _, .arg _ => some .lt
  | .ret _, .arg _ => none
  | .arg _, .ret _ => none
  | .arg a, .arg b => compareArgumentOutlives a b

/-- What `compare_lifetimes` reads from a node: its name and its parent. -/
structure NodeInfo where
  name : Option String
  parent : Option Nat
deriving Repr

/-- Outcome of the check: accepted, an error message, or a crash of the checker. -/
inductive Verdict where
  | accept
  | reject (msg : String)
  | crash
deriving DecidableEq, Repr

/-- `nodes[i].name().expect("Expected name")`; `none` is a panic. -/
def nameOf (nodes : List NodeInfo) (i : Nat) : Option String :=
  match nodes[i]? with
  | some n => n.name
  | none => none

/-- `format!("`{}` does not live long enough", nodes[i].name()…)`, lt.rs:147-150. -/
def notLongEnough (nodes : List NodeInfo) (i : Nat) : Verdict :=
  match nameOf nodes i with
  | some n => .reject ("`" ++ n ++ "` does not live long enough")
  | none => .crash

/-- The same with `r[0]`, lt.rs:164-167, 201-204, 250-253. -/
def notLongEnoughHead (nodes : List NodeInfo) : List Nat → Verdict
  | i :: _ => notLongEnough nodes i
  | [] => .crash

/-- `format!("Requires `{}: '{}`", nodes[r[0]]…, nodes[l[0]]…)`, lt.rs:222-226, 233-237. -/
def requires (nodes : List NodeInfo) (pre : String) (r l : Nat) : Verdict :=
  match nameOf nodes r with
  | none => .crash
  | some rn =>
    match nameOf nodes l with
    | none => .crash
    | some ln => .reject (pre ++ "`" ++ rn ++ ": '" ++ ln ++ "`")

/-- The message of lt.rs:212-218, which also names the function. -/
def requiresFn (nodes : List NodeInfo) (r l : Nat) : Verdict :=
  match nodes[r]? with
  | none => .crash
  | some rn =>
    match rn.parent with
    | none => .crash
    | some p =>
      match nameOf nodes p with
      | none => .crash
      | some f => requires nodes ("Function `" ++ f ++ "` requires ") r l

/-- `format!("`{}` is a current object, use `clone(_)`", …)`, lt.rs:257-266. -/
def isCurrent (nodes : List NodeInfo) (n : Nat) : Verdict :=
  match nameOf nodes n with
  | some s => .reject ("`" ++ s ++ "` is a current object, use `clone(_)`")
  | none => .crash

/-- `*r.last().expect(..)`, lt.rs:244. -/
def lastOf : List Nat → Option Nat
  | [] => none
  | [x] => some x
  | _ :: xs => lastOf xs

/-- The arm `Greater | Equal` of `compare_lifetimes`, lt.rs:136-207. -/
def notOutlived (nodes : List NodeInfo) : Lifetime → Verdict
  | .loc r => notLongEnough nodes r
  | .arg r => notLongEnoughHead nodes r
  | .cur r => notLongEnough nodes r
  | .ret r => notLongEnoughHead nodes r

/-- `nodes[r[0]]` and `nodes[l[0]]` in a message about two arguments. -/
def requiresHeads (nodes : List NodeInfo) : List Nat → List Nat → Verdict
  | r :: _, l :: _ => requires nodes "Requires " r l
  | _, _ => .crash

/-- The arm `None` of `compare_lifetimes`, lt.rs:208-270. -/
def unordered (nodes : List NodeInfo) (l r : Lifetime) : Verdict :=
  match l with
  | .arg l =>
    match r with
    | .arg (r :: _) =>
      match l with
      | l :: _ => requiresFn nodes r l
      | [] => .crash
    | .arg [] => .crash
    | .ret [] => .crash
    | .ret r => requiresHeads nodes r l
    | .cur n => isCurrent nodes n
    | .loc _ => .crash
  | .ret l =>
    match r with
    | .ret r => requiresHeads nodes r l
    | .arg r =>
      match l with
      | [] =>
        match lastOf r with
        | none => .crash
        | some last =>
          match nameOf nodes last with
          | none => .crash
          | some n => .reject ("Requires `" ++ n ++ ": 'return`")
      | _ :: _ => notLongEnoughHead nodes r
    | .cur n => isCurrent nodes n
    | .loc _ => .crash
  | .cur n => isCurrent nodes n
  | .loc _ =>
    match r with
    | .cur n => isCurrent nodes n
    | _ => .crash

/-- `compare_lifetimes`, lt.rs:117-278. -/
def compareLifetimes (nodes : List NodeInfo) (l r : LtRes) : Verdict :=
  match l, r with
  | .ok (.loc _), .err .failedToUnify => .accept
  | .err .failedToUnify, _ => .reject "Failed to unify lifetimes (perhaps use `clone`?)"
  | _, .err .failedToUnify => .reject "Failed to unify lifetimes (perhaps use `clone`?)"
  | .ok l, .ok r =>
    match partialCmp l r with
    | some .gt => notOutlived nodes r
    | some .eq => notOutlived nodes r
    | none => unordered nodes l r
    | some .lt => .accept
  | _, _ => .accept

/-- The loop of `Node::lifetime` over the children whose lifetime matters,
node.rs:255-387: the results of the children are given in order. -/
def unify (min : Option Lifetime) : List LtRes → LtRes
  | [] =>
    match min with
    | some l => .ok l
    | none => .err .none
  | .err .none :: rest => unify min rest
  | .err .failedToUnify :: _ => .err .failedToUnify
  | .ok lifetime :: rest =>
    match min with
    | none => unify (some lifetime) rest
    | some m =>
      match partialCmp m lifetime with
      | some .lt => unify (some lifetime) rest
      | none => .err .failedToUnify
      | some _ => unify (some m) rest

/-! ## Argument lifetimes -/

/-- A function argument: name and lifetime annotation (`'return` is the name
`"return"`). -/
structure Arg where
  name : String
  lifetime : Option String
deriving Repr

/-- A lookup in `arg_names`, mod.rs:745-757: the map holds for each name the index
of the last argument with that name. -/
def argIndex (args : List Arg) (name : String) : Option Nat :=
  go args 0 none
where
  go : List Arg → Nat → Option Nat → Option Nat
    | [], _, found => found
    | a :: rest, i, found => go rest (i + 1) (if a.name == name then some i else found)

/-- `nodes[c].lifetime` of the argument with index `i`. -/
def lifetimeOf (args : List Arg) (i : Nat) : Option String :=
  match args[i]? with
  | some a => a.lifetime
  | none => none

/-- Outcome of checks on a signature. -/
inductive SigCheck where
  | ok
  | missing (lt : String)
  | cyclic (lt : String)
  | crash
deriving DecidableEq, Repr

/-- The existence check, mod.rs:758-773. -/
def checkExists (args : List Arg) : List Arg → SigCheck
  | [] => .ok
  | a :: rest =>
    match a.lifetime with
    | none => checkExists args rest
    | some lt =>
      if lt == "return" then checkExists args rest
      else match argIndex args lt with
        | some _ => checkExists args rest
        | none => .missing lt

theorem count_set_true {l : List Bool} {i : Nat} (h : l[i]? = some false) :
    (l.set i true).count false < l.count false := by
  induction l generalizing i with
  | nil => simp at h
  | cons b l ih =>
    cases i with
    | zero => simp at h; subst h; simp
    | succ i =>
      simp at h
      have := ih h
      cases b <;> simp <;> omega

/-- The inner loop of mod.rs:796-814, following lifetimes from argument `ind`. -/
def followCheck (args : List Arg) (lt : String) (visited : List Bool) (ind : Nat) : SigCheck :=
  match _ : visited[ind]? with
  | none => .crash
  | some true => .cyclic lt
  | some false =>
    match lifetimeOf args ind with
    | none => .ok
    | some name =>
      if name == "return" then .ok
      else match argIndex args name with
        | none => .crash
        | some new => followCheck args lt (visited.set ind true) new
termination_by visited.count false
decreasing_by exact count_set_true (by assumption)

/-- The outer loop of mod.rs:776-816 over the arguments `rest`; the `break` at
784-786 ends the check of the whole signature. -/
def checkCyclic (args : List Arg) : List Arg → SigCheck
  | [] => .ok
  | a :: rest =>
    match a.lifetime with
    | none => checkCyclic args rest
    | some lt =>
      if lt == "return" then .ok
      else match argIndex args lt with
        | none => .crash
        | some ind =>
          match followCheck args lt (List.replicate args.length false) ind with
          | .ok => checkCyclic args rest
          | r => r

/-- The checks of mod.rs:758-816 for one function. -/
def checkSignature (args : List Arg) : SigCheck :=
  match checkExists args args with
  | .ok => checkCyclic args args
  | r => r

/-- Outcome of the loop in `arg_lifetime`. -/
inductive Walk where
  | done (l : Lifetime)
  | crash
  /-- the step limit was reached -/
  | running
deriving DecidableEq, Repr

/-- The loop of `arg_lifetime`, lt.rs:85-102, with a step limit. -/
def walk (args : List Arg) : Nat → String → List Nat → Walk
  | 0, _, _ => .running
  | n + 1, name, acc =>
    match argIndex args name with
    | none => .crash
    | some arg =>
      let acc := acc ++ [arg]
      match lifetimeOf args arg with
      | some lt => if lt == "return" then .done (.ret acc) else walk args n lt acc
      | none => .done (.arg acc)

/-- `arg_lifetime`, lt.rs:73-107, run for at most `n` steps of its loop.  Arguments
are identified by their index. -/
def argLifetime (args : List Arg) (n : Nat) (declaration : Nat) : Walk :=
  match lifetimeOf args declaration with
  | some lt =>
    if lt == "return" then .done (.ret [declaration])
    else walk args n lt [declaration]
  | none => .done (.arg [declaration])

/-! ## The run-time check -/

mutual
/-- `min_ref`, lifetimechk.rs:55-91. -/
def minRef (min : Option Nat) : Val → Option Nat
  | .ref ind =>
    match min with
    | none => some ind
    | some m => if m > ind then some ind else min
  | .array arr => minRefs min arr
  | .object obj => minRefObj min obj
  | _ => min
/-- The loop over array items, lifetimechk.rs:76-80. -/
def minRefs (min : Option Nat) : List Val → Option Nat
  | [] => min
  | v :: vs => minRefs (minRef min v) vs
/-- The loop over object values, lifetimechk.rs:81-85. -/
def minRefObj (min : Option Nat) : List (String × Val) → Option Nat
  | [] => min
  | (_, v) :: vs => minRefObj (minRef min v) vs
end

/-- Outcome of the run-time check. -/
inductive RunCheck where
  | ok
  | error (msg : String)
  | crash
deriving DecidableEq, Repr

/-- The loop over arguments, lifetimechk.rs:12-48; `i` is the index of the first
argument of `rest`. -/
def runCheckLoop (fargs : List Arg) (args : List Val) : List Arg → Nat → RunCheck
  | [], _ => .ok
  | a :: rest, i =>
    match a.lifetime with
    | none => runCheckLoop fargs args rest (i + 1)
    | some lt =>
      match args[i]? with
      | none => .crash
      | some (.ref b) =>
        if lt == "return" then runCheckLoop fargs args rest (i + 1)
        else match argIndex fargs lt with
          | none => .error "Something wrong with lifetime"
          | some ind =>
            match args[ind]? with
            | none => .crash
            | some left =>
              match minRef none left, minRef none (.ref b) with
              | none, _ => runCheckLoop fargs args rest (i + 1)
              | some _, none => .error "Argument does not outlive argument"
              | some a, some b =>
                if a ≤ b then .error "Argument does not outlive argument"
                else runCheckLoop fargs args rest (i + 1)
      | some _ => .error "Expected reference in argument"

/-- `lifetimechk::check`, lifetimechk.rs:6-53. -/
def runCheck (fargs : List Arg) (args : List Val) : RunCheck :=
  if fargs.any (fun a => a.lifetime.isSome) then runCheckLoop fargs args fargs 0 else .ok

end Dyon.Lt
