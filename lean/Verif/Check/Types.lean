import Verif.Check.Calls
import Verif.Types.Refine

/-!
# The type checker, `src/lifetime/typecheck.rs` and `src/lifetime/typecheck/refine.rs`

Types are propagated through the nodes until nothing changes, then the types are compared.  Errors
keep the number of the message and the node instead of the text.  `HashMap::values().next()`
picks one of the delayed errors; which one is not modelled (the first in the list here).

Simplification: equality of closure types compares arguments and result only (the checker gives
all of them the same other fields).
-/

namespace Dyon

mutual
/-- `PartialEq` of `Type`, ty.rs:8 (derived). -/
def Ty.same : Ty → Ty → Bool
  | .unreachable, .unreachable | .void, .void | .any, .any | .bool, .bool | .f64, .f64 | .vec4, .vec4
  | .mat4, .mat4 | .str, .str | .link, .link | .object, .object => true
  | .array a, .array b | .option a, .option b | .result a, .result b | .secret a, .secret b
  | .thread a, .thread b | .inTy a, .inTy b => a.same b
  | .adHoc n a, .adHoc m b => n == m && a.same b
  | .closure as a, .closure bs b => Ty.sames as bs && a.same b
  | _, _ => false

/-- The same for lists. -/
def Ty.sames : List Ty → List Ty → Bool
  | [], [] => true
  | a :: as, b :: bs => a.same b && Ty.sames as bs
  | _, _ => false
end

mutual
theorem Ty.same_iff : ∀ a b : Ty, a.same b = true ↔ a = b
  | .array a, b | .option a, b | .result a, b | .secret a, b | .thread a, b | .inTy a, b => by
    cases b <;> simp [Ty.same, Ty.same_iff a]
  | .adHoc n a, b => by cases b <;> simp [Ty.same, Ty.same_iff a]
  | .closure as a, b => by cases b <;> simp [Ty.same, Ty.same_iff a, Ty.sames_iff as]
  | .unreachable, b | .void, b | .any, b | .bool, b | .f64, b | .vec4, b | .mat4, b | .str, b
  | .link, b | .object, b => by cases b <;> simp [Ty.same]

theorem Ty.sames_iff : ∀ as bs : List Ty, Ty.sames as bs = true ↔ as = bs
  | [], bs => by cases bs <;> simp [Ty.sames]
  | a :: as, bs => by cases bs <;> simp [Ty.sames, Ty.same_iff a, Ty.sames_iff as]
end

instance : DecidableEq Ty := fun a b => decidable_of_iff (a.same b = true) (Ty.same_iff a b)

namespace Check

/-- Why the type checker refuses a file. -/
inductive TypeErr where
  /-- "Type mismatch (#..)" -/
  | mismatch (code : Nat) (i : Nat)
  /-- the error of `bind_ty_vars` -/
  | bind (i : Nat)
  /-- an index outside of a list, or `unwrap` of `None` -/
  | panic (i : Nat)
deriving DecidableEq

/-- `Node::inner_type`, node.rs:176-186. -/
def Node.innerType (n : Node) (t : Ty) : Ty :=
  if n.tryFlag then
    match t with
    | .option t => t
    | .result t => t
    | t => t
  else t

/-- `nodes[i].ty = t`. -/
def Nodes.setTy (ns : Nodes) (i : Nat) (t : Option Ty) : Nodes := ns.modify i fun n => { n with ty := t }

/-- How the visit of a node ends. -/
inductive Out where
  /-- `continue 'node` -/
  | stop
  /-- `todo.push(i); continue 'node` -/
  | later
  /-- the end of the loop body with this `this_ty` -/
  | ty (t : Option Ty)

/-- What the visit of a node does before it ends: types it gives to other nodes, nodes it puts on
the list `todo`, and `delay_errs`. -/
structure Visit where
  nodes : Nodes
  push : List Nat := []
  errs : List (Nat × TypeErr)
  changed : Bool := false
  out : Out

/-! ## Extra type information, refine.rs -/

/-- The types of the arguments of a call as `refine.rs` reads them, refine.rs:68-73, 145-150. -/
def Nodes.argTypes (ns : Nodes) (i : Nat) : List (Option Ty) :=
  (ns.callArgs i).filterMap fun a => (ns.at a).children.head?.map fun c => (ns.at c).ty

/-- The loop over the arguments with an extra signature of a declared function, refine.rs:68-105.
A `TyArg` without type does not match. -/
def matchTys (names : List String) : List (Option Ty) → List (Option Ty) → Ty.Vars → SigResult
  | arg :: args, tyArg :: tyArgs, vars =>
    match arg with
    | none => .ambiguous
    | some a =>
      match tyArg with
      | none => .noMatch
      | some t => match t.bindTyVars a names vars with
        | .error e => .error e
        | .ok (b, vars) =>
          if b.goesWith a then
            if b.ambiguous a then .ambiguous else matchTys names args tyArgs vars
          else .noMatch
  | _, _, vars => .all vars

/-- What `refine::declaration` does to the type of a call. -/
inductive RefinedDecl where
  /-- `*this_ty = new_ty; found = true` -/
  | found (t : Option Ty)
  | delayed
  | mismatch
  | bindError
  | unchanged

/-- The loop over the extra signatures of a declared function, refine.rs:60-129, with `report`. -/
def Nodes.refineDecl (ns : Nodes) (args : List (Option Ty)) (count : Nat) : List Nat → RefinedDecl
  | [] => if count > 0 then .mismatch else .unchanged
  | ty :: tys =>
    let names := (ns.at ty).names
    let tyArgs := ((ns.at ty).children.filter fun k => (ns.at k).kind = .tyArg).map fun k => (ns.at k).ty
    match matchTys names args tyArgs (List.replicate names.length none) with
    | .error _ => .bindError
    | .ambiguous => .delayed
    | .noMatch => ns.refineDecl args (count + 1) tys
    | .all vars => match ns.child ty .tyRet with
      | none => ns.refineDecl args (count + 1) tys
      | some r => .found ((ns.at r).ty.map (substRet names vars))

/-- The type of a call of a function of the prelude, typecheck.rs:257-268, 270-281. -/
def Nodes.visitHost (ns : Nodes) (errs : List (Nat × TypeErr)) (i : Nat) (d : Mod.Dfn) : Except TypeErr Visit :=
  if d.ext = [] then .ok { nodes := ns, errs, out := .ty (some d.ret) }
  else
    let fallback := if (ns.at i).ty = none then some d.ret else none
    match refinePrelude (ns.argTypes i) d.ext with
    | .found t => .ok { nodes := ns, errs, out := .ty (some t) }
    | .delayed => .ok { nodes := ns, errs, push := [i], out := .ty fallback }
    | .mismatch => .error (.mismatch 230 i)
    | .bindError _ => .error (.bind i)
    | .unchanged => .ok { nodes := ns, errs, out := .ty fallback }

/-! ## The rules -/

/-- The function of the prelude that a call means: through an alias or by name,
typecheck.rs:184-191, 212-213, 248-256, 269. `none` in the second place: `unwrap` of a missing
name. -/
def Nodes.hostFn (env : Env) (ns : Nodes) (c : Nat) : Option Nat :=
  match (ns.at c).alias, (ns.at c).name with
  | some a, some n => match env.aliases.get a n with
    | some (.loaded f) => some f
    | _ => none
  | none, some n => env.prelude.functions n
  | _, none => none

/-- The position of the argument `i` among the parameters, typecheck.rs:111-134: the widths of the
children before it. -/
def Nodes.position (ns : Nodes) (i : Nat) : List Nat → Nat
  | [] => 0
  | c :: cs => if c = i then 0 else ns.width c + ns.position i cs

/-- The parameters that an argument covers, typecheck.rs:136-155. -/
def Nodes.positions (ns : Nodes) (p i ch : Nat) : List Nat :=
  let j := ns.position i (ns.at p).children
  if (ns.at ch).kind = .swizzle then
    (List.range ((ns.at ch).children.filter fun k => (ns.at k).kind.isSw).length).map (j + ·)
  else [j]

/-- How the type of an argument compares with a parameter. -/
inductive ArgCmp where
  | fits
  | bad (code : Nat)
  | panic

/-- The comparison with the parameter number `j`, typecheck.rs:157-234. -/
def Nodes.compareArg (env : Env) (ns : Nodes) (p : Nat) (t : Option Ty) (j : Nat) : ArgCmp :=
  if (ns.at p).kind = .callClosure then .fits
  else match (ns.at p).declaration with
  | some decl => match (ns.at decl).children[j]? with
    | none => .panic
    | some arg => match t, (ns.at arg).ty with
      | some t, some argTy => if argTy.goesWith t then .fits else .bad 100
      | _, _ => .fits
  | none =>
    if (ns.at p).name = none then .panic
    else match ns.hostFn env p with
    | none => .fits
    | some f => match env.prelude.list[f]? with
      | none => .panic
      | some d => match t with
        | none => .fits
        | some t => match d.tys[j]? with
          | none => .panic
          | some argTy => if argTy.goesWith t then .fits
            else .bad (if (ns.at p).alias.isSome then 150 else 200)

/-- The comparison with all parameters that are covered, up to the first that does not fit. -/
def Nodes.compareAll (env : Env) (ns : Nodes) (p : Nat) (t : Option Ty) : List Nat → ArgCmp
  | [] => .fits
  | j :: js => match ns.compareArg env p t j with
    | .fits => ns.compareAll env p t js
    | r => r

/-- `Kind::CallArg`, typecheck.rs:98-237. (`nodes[i].item_ids()` is never true there.) -/
def Nodes.visitCallArg (env : Env) (ns : Nodes) (errs : List (Nat × TypeErr)) (i : Nat) : Except TypeErr Visit :=
  match (ns.at i).children with
  | [] => .ok { nodes := ns, errs, out := .later }
  | ch :: _ =>
    let t := (ns.at ch).ty.map (ns.at i).innerType
    match (ns.at i).parent with
    | none => .ok { nodes := ns, errs, out := .ty t }
    | some p =>
      let errs := errs.filter fun e => e.1 ≠ i
      match ns.compareAll env p t (ns.positions p i ch) with
      | .fits => .ok { nodes := ns, errs, out := .ty t }
      | .bad code => .ok { nodes := ns, errs := (i, .mismatch code i) :: errs, out := .later }
      | .panic => .error (.panic i)

/-- `Kind::Call`, typecheck.rs:238-282. -/
def Nodes.visitCall (env : Env) (ns : Nodes) (errs : List (Nat × TypeErr)) (i : Nat) : Except TypeErr Visit :=
  match (ns.at i).declaration with
  | some decl =>
    let fallback := if (ns.at i).ty = none then (ns.at decl).ty else none
    match ns.refineDecl (ns.argTypes i) 0 ((ns.at decl).children.filter fun k => (ns.at k).kind = .ty) with
    | .found t => .ok { nodes := ns, errs, out := .ty (t.orElse fun _ => fallback) }
    | .delayed => .ok { nodes := ns, errs, push := [i], out := .ty fallback }
    | .mismatch => .error (.mismatch 230 i)
    | .bindError => .error (.bind i)
    | .unchanged => .ok { nodes := ns, errs, out := .ty fallback }
  | none =>
    if (ns.at i).name = none then .error (.panic i)
    else match ns.hostFn env i with
    | none => .ok { nodes := ns, errs, out := .ty none }
    | some f => match env.prelude.list[f]? with
      | none => .error (.panic i)
      | some d => ns.visitHost errs i d

/-- `Kind::CallClosure`, typecheck.rs:283-303. -/
def Nodes.visitCallClosure (ns : Nodes) (errs : List (Nat × TypeErr)) (i : Nat) : Except TypeErr Visit :=
  match ns.child i .item with
  | none => .ok { nodes := ns, errs, out := .ty none }
  | some item =>
    if (ns.at item).itemIds then .ok { nodes := ns, errs, out := .later }
    else match (ns.at item).declaration with
    | none => .ok { nodes := ns, errs, out := .ty none }
    | some decl => match (ns.at decl).ty with
      | none => .ok { nodes := ns, errs, out := .ty none }
      | some t => match t.closureRetTy with
        | some r => .ok { nodes := ns, errs, out := .ty (some r) }
        | none => .error (.mismatch 250 item)

/-- The uses of a declaration, typecheck.rs:337-343. -/
def Nodes.uses (ns : Nodes) (it : Nat) : List Nat :=
  (List.range ns.length).filter fun j => it < j && (ns.at j).declaration = some it

/-- `Kind::Assign`, typecheck.rs:304-360. -/
def Nodes.visitAssign (ns : Nodes) (errs : List (Nat × TypeErr)) (i : Nat) : Visit :=
  match ns.child i .left, ns.child i .right with
  | some left, some right =>
    if (ns.at right).itemIds then { nodes := ns, errs, out := .later }
    else match (ns.at left).ty, (ns.at right).ty with
    | none, some t => { nodes := ns.setTy left (some t), errs, changed := true, out := .ty (some .void) }
    | some l, some t =>
      if t.goesWith l then
        { nodes := ns.setTy left (some t), errs, changed := true, out := .ty (some .void)
          push := match (ns.at left).children with
            | [] => []
            | it :: _ => it :: ns.uses it }
      else { nodes := ns, errs, out := .later }
    | _, _ => { nodes := ns, errs, out := .later }
  | _, _ => { nodes := ns, errs, out := .later }

/-- The kinds of loops whose variable is a number, typecheck.rs:368-376. -/
def Kind.counts : Kind → Bool
  | .sum | .min | .max | .any | .all | .sift | .vec4UnLoop | .forN | .linkFor => true
  | _ => false

/-- `nodes[parent].ty = this_ty` for a parent of kind `Left`, typecheck.rs:400-404. -/
def Nodes.setLeft (ns : Nodes) (i : Nat) (t : Option Ty) : Nodes :=
  match (ns.at i).parent with
  | some p => if (ns.at p).kind = .left then ns.setTy p t else ns
  | none => ns

/-- `Kind::Item`, typecheck.rs:361-416. -/
def Nodes.visitItem (ns : Nodes) (errs : List (Nat × TypeErr)) (i : Nat) : Except TypeErr Visit :=
  if (ns.at i).itemIds then .ok { nodes := ns, errs, out := .later }
  else match (ns.at i).declaration with
  | some decl =>
    if (ns.at decl).kind.counts then
      if (ns.at i).tryFlag then .error (.mismatch 300 i)
      else .ok { nodes := ns, errs, out := .ty (some .f64) }
    else if (ns.at decl).kind = .arg then
      .ok { nodes := ns, errs, out := .ty (some ((ns.at i).innerType ((ns.at decl).ty.getD .any))) }
    else match (ns.at decl).ty with
      | some t =>
        let t := (ns.at i).innerType t
        .ok { nodes := ns.setLeft i (some t), errs, out := .ty (some t) }
      | none => .ok { nodes := ns, errs, out := .ty none }
  | none => match (ns.at i).parent with
    | some p => .ok { nodes := ns, errs, out := .ty (if (ns.at p).kind = .left then (ns.at p).ty else none) }
    | none => .ok { nodes := ns, errs, out := .ty none }

/-- The function or closure a node is in, typecheck.rs:454-475. Parents are stored before their
children. -/
def Nodes.owner (ns : Nodes) (i : Nat) : Option Nat :=
  match (ns.at i).parent with
  | none => none
  | some p =>
    if (ns.at p).kind = .fn ∨ (ns.at p).kind = .closure then some p
    else if p < i then ns.owner p else none
termination_by i

/-- The rule for nodes that have the type of their first child, typecheck.rs:417-481. -/
def Nodes.visitWrap (ns : Nodes) (errs : List (Nat × TypeErr)) (i : Nat) : Except TypeErr Visit :=
  match (ns.at i).children with
  | [] => .ok { nodes := ns, errs, out := .stop }
  | ch :: _ =>
    if (ns.at ch).itemIds then .ok { nodes := ns, errs, out := .later }
    else match (ns.at ch).ty with
    | none => .ok { nodes := ns, errs, out := .later }
    | some t =>
      if (ns.at i).kind = .grab ∧ t = .void then .error (.mismatch 325 i)
      else if (ns.at ch).kind = .ret then
        match ns.owner i with
        | none => .ok { nodes := ns, errs, out := .ty (some .unreachable) }
        | some f => match (ns.at f).ty with
          | none => .ok { nodes := ns.setTy f (some t), errs, out := .ty (some .unreachable) }
          | some ft =>
            if ft.goesWith t then .ok { nodes := ns, errs, out := .ty (some .unreachable) }
            else .error (.mismatch 350 ch)
      else .ok { nodes := ns, errs, out := .ty (some ((ns.at i).innerType t)) }

/-- `Kind::Compare`, typecheck.rs:482-506. -/
def Nodes.visitCompare (ns : Nodes) (errs : List (Nat × TypeErr)) (i : Nat) : Visit :=
  match ns.child i .left with
  | none => { nodes := ns, errs, out := .later }
  | some left =>
    if (ns.at left).itemIds then { nodes := ns, errs, out := .later }
    else { nodes := ns, errs, out := .ty ((ns.at left).ty.map fun t => match t with
      | .any => .any
      | .secret _ => .secret .bool
      | _ => .bool) }

/-- The rule for blocks, typecheck.rs:507-520. -/
def Nodes.visitBlock (ns : Nodes) (errs : List (Nat × TypeErr)) (i : Nat) : Visit :=
  match (ns.at i).children.getLast? with
  | none => { nodes := ns, errs, out := .ty (some .void) }
  | some ch =>
    if (ns.at ch).itemIds then { nodes := ns, errs, out := .later }
    else { nodes := ns, errs, out := .ty ((ns.at ch).ty.map (ns.at i).innerType) }

/-- The rule for components of vectors and the number of a fill, typecheck.rs:533-554. -/
def Nodes.visitNumber (ns : Nodes) (errs : List (Nat × TypeErr)) (i : Nat) : Except TypeErr Visit :=
  match (ns.at i).children with
  | [] => .ok { nodes := ns, errs, out := .later }
  | ch :: _ =>
    if (ns.at ch).itemIds then .ok { nodes := ns, errs, out := .later }
    else match (ns.at ch).ty.map (ns.at i).innerType with
    | none => .ok { nodes := ns, errs, out := .ty none }
    | some t => if t.goesWith .f64 then .ok { nodes := ns, errs, out := .ty (some t) }
      else .error (.mismatch 700 i)

/-- The children of a closure, typecheck.rs:586-601: the types of the arguments before the first
one without type, whether there is none, and the type of the body. -/
def Nodes.closureParts (ns : Nodes) : List Nat → List Ty → Option Ty → Option (List Ty × Option Ty)
  | [], tys, ret => some (tys, ret)
  | c :: cs, tys, ret =>
    if (ns.at c).kind = .arg then
      match (ns.at c).ty with
      | some t => ns.closureParts cs (tys ++ [t]) ret
      | none => none
    else if (ns.at c).kind = .expr then ns.closureParts cs tys (ns.at c).ty
    else ns.closureParts cs tys ret

/-- `Kind::Closure`, typecheck.rs:581-613. -/
def Nodes.visitClosure (ns : Nodes) (errs : List (Nat × TypeErr)) (i : Nat) : Visit :=
  { nodes := ns, errs, out := .ty (match ns.closureParts (ns.at i).children [] none with
    | some (tys, some ret) => some (.closure tys ret)
    | _ => none) }

/-- The body of the loop up to the end of the `match`, typecheck.rs:67-615. -/
def Nodes.visit (env : Env) (ns : Nodes) (errs : List (Nat × TypeErr)) (i : Nat) : Except TypeErr Visit :=
  let done (o : Out) : Except TypeErr Visit := .ok { nodes := ns, errs, out := o }
  match (ns.at i).kind with
  | .uses | .start | .end' => done .stop
  | .go => done (.ty ((ns.at i).children.head?.bind fun ch => (ns.at ch).ty.map .thread))
  | .fn =>
    if (ns.at i).ty.isSome then done .stop
    else match ns.child i .expr with
      | some ch => if (ns.at ch).ty = some .unreachable then done .later else done (.ty (ns.at ch).ty)
      | none => done (.ty none)
  | .callArg => ns.visitCallArg env errs i
  | .call => ns.visitCall env errs i
  | .callClosure => ns.visitCallClosure errs i
  | .assign => .ok (ns.visitAssign errs i)
  | .item => ns.visitItem errs i
  | .ret | .val | .expr | .cond | .left | .right | .elseIfCond | .grab | .add | .mul | .pow =>
    ns.visitWrap errs i
  | .compare => .ok (ns.visitCompare errs i)
  | .block | .trueBlock | .elseIfBlock | .elseBlock => .ok (ns.visitBlock errs i)
  | .sift => match ns.child i .block with
    | none => done .later
    | some ch => done (.ty ((ns.at ch).ty.map .array))
  | .x | .y | .z | .w | .n => ns.visitNumber errs i
  | .if' => match ns.child i .trueBlock with
    | none => done .later
    | some tb => match (ns.at tb).ty with
      | none => done .later
      | some t => done (.ty (some ((ns.at i).innerType t)))
  | .arg => if (ns.at i).ty.isSome then done .stop else done (.ty (some .any))
  | .closure => .ok (ns.visitClosure errs i)
  | _ => done (.ty none)

/-! ## The loop -/

/-- The state of the loop. -/
structure Spread where
  nodes : Nodes
  /-- what has been put on the list in this round -/
  next : List Nat
  errs : List (Nat × TypeErr)
  changed : Bool

/-- One node, typecheck.rs:66-635. -/
def step (env : Env) (s : Spread) (i : Nat) : Except TypeErr Spread :=
  match s.nodes.visit env s.errs i with
  | .error e => .error e
  | .ok v =>
    let next := s.next ++ v.push
    let changed := s.changed || v.changed
    match v.out with
    | .stop => .ok ⟨v.nodes, next, v.errs, changed⟩
    | .later => .ok ⟨v.nodes, next ++ [i], v.errs, changed⟩
    | .ty none => .ok ⟨v.nodes, next ++ [i], v.errs, changed⟩
    | .ty (some t) =>
      let up := match (v.nodes.at i).ty, (v.nodes.at i).parent with
        | some old, some p => if old ≠ t ∧ (v.nodes.at p).ty.isSome then [p] else []
        | _, _ => []
      .ok ⟨v.nodes.setTy i (some t), next ++ up, v.errs, true⟩

/-- One round over the list. -/
def round (env : Env) : Spread → List Nat → Except TypeErr Spread
  | s, [] => .ok s
  | s, i :: is => match step env s i with
    | .error e => .error e
    | .ok s => round env s is

/-- What the propagation ends with. -/
inductive PropOut where
  | done (ns : Nodes) (errs : List (Nat × TypeErr))
  | failed (e : TypeErr)
  /-- not finished within the given number of rounds -/
  | running

/-- The propagation of types, typecheck.rs:54-656, for at most `fuel` rounds. The list is sorted
and without duplicates (all indices are those of nodes). -/
def propagate (env : Env) : Nat → Nodes → List Nat → List (Nat × TypeErr) → PropOut
  | 0, _, _, _ => .running
  | fuel + 1, ns, todo, errs =>
    match round env ⟨ns, [], errs, false⟩ todo with
    | .error e => .failed e
    | .ok s =>
      if s.changed then
        propagate env fuel s.nodes ((List.range s.nodes.length).filter fun i => i ∈ s.next) s.errs
      else .done s.nodes s.errs

/-! ## After the propagation -/

/-- An item `return` on the left of an assignment, typecheck.rs:822-827. -/
def Nodes.isReturnItem (ns : Nodes) (ch : Nat) : Bool :=
  (ns.at ch).name = some "return" && match (ns.at ch).parent with
    | some l => (ns.at l).kind = .left && match (ns.at l).parent with
      | some a => (ns.at a).kind = .assign
      | none => false
    | none => false

/-- The errors of `check_fn` for one node inside of a function of type `ty`, typecheck.rs:799-848. -/
def Nodes.badReturnAt (ns : Nodes) (ty : Ty) (ch : Nat) : Option TypeErr :=
  match (ns.at ch).kind, (ns.at ch).ty with
  | .ret, some t => if ty.goesWith t then none else some (.mismatch 1200 ch)
  | .returnVoid, _ => if ty.goesWith .void then none else some (.mismatch 1300 ch)
  | .item, some t => if ns.isReturnItem ch && !ty.goesWith t then some (.mismatch 1250 ch) else none
  | _, _ => none

/-- The first error of `check_fn`, typecheck.rs:791-852. (`found_return` is computed by
`Nodes.hasReturn`; it is used only when there is no error.) -/
def Nodes.badReturn (ns : Nodes) (ty : Ty) (n : Nat) : Option TypeErr :=
  (ns.at n).children.findSome? fun ch =>
    match ns.badReturnAt ty ch with
    | some e => some e
    | none =>
      if (ns.at ch).kind = .closure then none
      else if n < ch ∧ ch < ns.length then ns.badReturn ty ch else none
termination_by ns.length - n

/-- `found_return` of `check_fn`, typecheck.rs:791-852. -/
def Nodes.hasReturn (ns : Nodes) (n : Nat) : Bool :=
  (ns.at n).children.any fun ch =>
    (ns.at ch).kind = .ret || (ns.at ch).kind = .returnVoid || ((ns.at ch).kind = .item && ns.isReturnItem ch) ||
      (!((ns.at ch).kind = .closure) && if n < ch ∧ ch < ns.length then ns.hasReturn ch else false)
termination_by ns.length - n

/-- Whether the type of the body of `f(..) = e` does not go with `ty`, typecheck.rs:666-676. -/
def Nodes.badBody (ns : Nodes) (ty : Ty) (i : Nat) : Bool :=
  match ns.child i .expr with
  | some ch => match (ns.at ch).ty with
    | some t => !ty.goesWith t
    | none => false
  | none => false

/-- `Kind::Fn`, typecheck.rs:662-697. -/
def Nodes.finalFn (ns : Nodes) (i : Nat) : Option TypeErr :=
  match (ns.at i).ty with
  | none => some (.mismatch 800 i)
  | some ty =>
    if ns.badBody ty i then some (.mismatch 750 i)
    else match ns.badReturn ty i with
    | some e => some e
    | none =>
      if !ns.hasReturn i && ty ≠ .void && (ns.child i .expr).isNone then some (.mismatch 775 i) else none

/-- `Kind::Go`, typecheck.rs:699-713. -/
def Nodes.finalGo (ns : Nodes) (i : Nat) : Option TypeErr :=
  match (ns.at i).children with
  | [] => none
  | ch :: _ => match (ns.at ch).declaration with
    | none => none
    | some decl => match (ns.at decl).ty with
      | none | some .void => some (.mismatch 900 i)
      | _ => none

/-- `check_if`, typecheck.rs:854-910. -/
def Nodes.finalIf (ns : Nodes) (n : Nat) : Option TypeErr :=
  let cond := match ns.child n .cond with
    | some ch => match (ns.at ch).ty with
      | some t => if Ty.bool.goesWith t then none else some (.mismatch 1400 ch)
      | none => none
    | none => none
  match cond with
  | some e => some e
  | none => match (ns.at n).ty with
    | none => none
    | some trueTy =>
      let elseIfs := (ns.at n).children.findSome? fun ch =>
        match (ns.at ch).kind, (ns.at ch).ty with
        | .elseIfCond, some t => if Ty.bool.goesWith t then none else some (TypeErr.mismatch 1500 ch)
        | .elseIfBlock, some t => if t.goesWith trueTy then none else some (.mismatch 1600 ch)
        | _, _ => none
      match elseIfs with
      | some e => some e
      | none => match ns.child n .elseBlock with
        | some eb => match (ns.at eb).ty with
          | some t => if t.goesWith trueTy then none else some (.mismatch 1700 eb)
          | none => none
        | none => none

/-- `Kind::Assign`, typecheck.rs:715-737. -/
def Nodes.finalAssign (ns : Nodes) (i : Nat) : Option TypeErr :=
  match (ns.at i).op with
  | some .add | some .sub => match ns.child i .left, ns.child i .right with
    | some l, some r => match (ns.at l).ty, (ns.at r).ty with
      | some lt, some rt => if lt.addAssign rt then none else some (.mismatch 1000 i)
      | _, _ => none
    | _, _ => some (.panic i)
  | _ => none

/-- `Kind::Block`, typecheck.rs:738-771. -/
def Nodes.finalBlock (ns : Nodes) (i : Nat) : Option TypeErr :=
  let children := (ns.at i).children
  let checked : List Nat := match (ns.at i).parent with
    | some p =>
      if (ns.at p).kind = .fn then
        match (ns.at p).ty with
        | some .void => children
        | none => []
        | _ => children.dropLast
      else children.dropLast
    | none => children.dropLast
  checked.findSome? fun ch =>
    if (ns.at ch).kind = .ret then none
    else match (ns.at ch).ty with
    | some t => if t ≠ .void ∧ t ≠ .unreachable then some (.mismatch 1100 ch) else none
    | none => none

/-- `Kind::Swizzle`, typecheck.rs:772-784. -/
def Nodes.finalSwizzle (ns : Nodes) (i : Nat) : Option TypeErr :=
  match ns.child i .expr with
  | none => none
  | some ch => match (ns.at ch).ty.map (ns.at ch).innerType with
    | some t => if t.goesWith .vec4 then none else some (.mismatch 1200 ch)
    | none => none

/-- The checks after the propagation, typecheck.rs:658-788. -/
def Nodes.final (ns : Nodes) (i : Nat) : Option TypeErr :=
  match (ns.at i).kind with
  | .fn => ns.finalFn i
  | .go => ns.finalGo i
  | .if' => ns.finalIf i
  | .assign => ns.finalAssign i
  | .block => ns.finalBlock i
  | .swizzle => ns.finalSwizzle i
  | _ => none

/-- What `run` ends with. -/
inductive TypeOut where
  /-- accepted; the types of the nodes -/
  | accept (ns : Nodes)
  | reject (e : TypeErr)
  | running

/-- `run`, typecheck.rs:46-789, with at most `fuel` rounds of propagation. -/
def Nodes.typecheck (env : Env) (fuel : Nat) (ns : Nodes) : TypeOut :=
  match propagate env fuel ns (List.range ns.length) [] with
  | .running => .running
  | .failed e => .reject e
  | .done ns errs => match errs with
    | (_, e) :: _ => .reject e
    | [] => match (List.range ns.length).findSome? ns.final with
      | some e => .reject e
      | none => .accept ns

end Check
end Dyon
