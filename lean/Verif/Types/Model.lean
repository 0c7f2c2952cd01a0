/-!
# Model of `src/ty.rs` (types and their compatibility)

Simplifications: names (`Arc<String>`) are strings; a closure type keeps its
argument types and return type only (the other fields of `Dfn` play no role in
`goes_with`); the `threading` feature is on, so `Thread` and `In` exist.
-/

namespace Dyon

/-- `enum Type`, ty.rs:9-48. -/
inductive Ty where
  | unreachable
  | void
  | any
  | bool
  | f64
  | vec4
  | mat4
  | str
  | link
  | array (t : Ty)
  | object
  | option (t : Ty)
  | result (t : Ty)
  | secret (t : Ty)
  | thread (t : Ty)
  | inTy (t : Ty)
  | adHoc (name : String) (t : Ty)
  | closure (args : List Ty) (ret : Ty)
deriving Repr

namespace Ty

/-- Number of constructors, used only to justify recursion. -/
def size : Ty → Nat
  | array t | option t | result t | secret t | thread t | inTy t | adHoc _ t => t.size + 1
  | closure args ret => sizes args + ret.size + 1
  | _ => 1
where
  sizes : List Ty → Nat
  | [] => 0
  | t :: ts => t.size + sizes ts + 1

/-- The test `if let AdHoc(_, _) = *self` of ty.rs:338-343. -/
def isAdHoc : Ty → Bool
  | adHoc _ _ => true
  | _ => false

/-- `*other == Unreachable`, ty.rs:354. -/
def isUnreachable : Ty → Bool
  | unreachable => true
  | _ => false

/-- `*other == Void`, ty.rs:355, 357, 434. -/
def isVoid : Ty → Bool
  | void => true
  | _ => false

/-- `matches!(*other, Any)`, `*other == Type::Any`, ty.rs:362, 369, 376, ... -/
def isAny : Ty → Bool
  | any => true
  | _ => false

mutual
/-- `Type::goes_with`, ty.rs:334-445, arm by arm. -/
def goesWith (self other : Ty) : Bool :=
  -- 350-356: invert the order because of complex ad-hoc logic.
  if other.isAdHoc && !self.isAdHoc then other.goesWith self
  else
    match other with
    | secret t =>
      -- 357-363
      match self with
      | secret s => s.goesWith t
      | self => self.goesWith t
    | other =>
      match self with
      | unreachable => true
      | self =>
        if other.isUnreachable then true
        else match self with
          | any => !other.isVoid
          | void => other.isVoid
          | array s => match other with
            | array t => s.goesWith t
            | other => other.isAny
          | object => match other with
            | object => true
            | other => other.isAny
          | option s => match other with
            | option t => s.goesWith t
            | other => other.isAny
          | result s => match other with
            | result t => s.goesWith t
            | other => other.isAny
          | thread s => match other with
            | thread t => s.goesWith t
            | other => other.isAny
          | inTy s => match other with
            | inTy t => s.goesWith t
            | other => other.isAny
          | closure ss q => match other with
            | closure ts r =>
              if ss.length != ts.length then false
              else if !allGoWith ss ts then false
              else if !q.goesWith r then false
              else true
            | other => other.isAny
          | adHoc m s => match other with
            | adHoc n t => m == n && s.goesWith t
            | void => false
            | other => s.goesWith other
          -- 456-458: `x if x == other => true`, `_ if *other == Type::Any => true`
          | bool => match other with
            | bool => true
            | other => other.isAny
          | f64 => match other with
            | f64 => true
            | other => other.isAny
          | vec4 => match other with
            | vec4 => true
            | other => other.isAny
          | mat4 => match other with
            | mat4 => true
            | other => other.isAny
          | str => match other with
            | str => true
            | other => other.isAny
          | link => match other with
            | link => true
            | other => other.isAny
          | secret _ => other.isAny
          | unreachable => true
termination_by 2 * (self.size + other.size) + if other.isAdHoc && !self.isAdHoc then 1 else 0
decreasing_by all_goals (simp_all [size, isAdHoc]; try (repeat' split) <;> omega)

/-- `zip(..).all(|(a, b)| a.goes_with(b))`, ty.rs:413-417. -/
def allGoWith (ss ts : List Ty) : Bool :=
  match ss, ts with
  | s :: ss, t :: ts => s.goesWith t && allGoWith ss ts
  | _, _ => true
termination_by 2 * (size.sizes ss + size.sizes ts)
decreasing_by all_goals (simp_all [size.sizes]; try (repeat' split) <;> omega)
end

/-- `Type::ambiguous`, ty.rs:285-314. -/
def ambiguous (self refine : Ty) : Bool :=
  match self, refine with
  | adHoc xa xb, adHoc ya yb =>
    if xa == ya then xb.ambiguous yb else xb.goesWith (adHoc ya yb)
  | adHoc _ x, y => x.goesWith y
  | array x, array y => x.ambiguous y
  | option x, option y => x.ambiguous y
  | result x, result y => x.ambiguous y
  | thread x, thread y => x.ambiguous y
  | inTy x, inTy y => x.ambiguous y
  | bool, any | f64, any | str, any | vec4, any | mat4, any | link, any
  | array _, any | option _, any | result _, any | thread _, any
  | secret _, any | inTy _, any => true
  | _, _ => false

/-- `Type::closure_ret_ty`, ty.rs:317-326. -/
def closureRetTy : Ty → Option Ty
  | closure _ ret => some ret
  | adHoc _ x => x.closureRetTy
  | any => some any
  | _ => none

/-- `Type::add_assign`, ty.rs:448-465. -/
def addAssign (self other : Ty) : Bool :=
  match self, other with
  | adHoc n t, adHoc m s =>
    if n != m then false
    else if !t.goesWith s then false
    else t.addAssign s
  | adHoc _ _, _ => false
  | _, adHoc _ _ => false
  | void, _ => false
  | _, void => false
  | _, _ => true

/-- `Type::insert_var`, ty.rs:257-267. -/
def insertVar (name val : String) : Ty → Ty
  | adHoc n t => adHoc (if n == name then val else n) (insertVar name val t)
  | t => t

/-- `Type::insert_none_var`, ty.rs:270-278.  The name is not used by the code. -/
def insertNoneVar (name : String) : Ty → Ty
  | adHoc _ t => insertNoneVar name t
  | t => t

/-- Bindings of the type variables of a signature: `Vec<Option<Arc<String>>>`. -/
abbrev Vars := List (Option String)

/-- The variable bound at index `i` (`ty_vars[i]`); the vector has the length of
the names, so the index is always in range. -/
def Vars.at (vars : Vars) (i : Nat) : Option String :=
  match vars[i]? with
  | some v => v
  | none => none

mutual
/-- `Type::bind_ty_vars`, ty.rs:191-254.  `ty_vars` is threaded through; it is
irrelevant after an error. -/
def bindTyVars (self refine : Ty) (names : List String) (vars : Vars) :
    Except String (Ty × Vars) :=
  if names.isEmpty then .ok (self, vars)
  else
    match self with
    | adHoc a ai =>
      match refine with
      | adHoc b bi => bindAdHoc a ai b bi names vars names 0
      | refine => bindPlain a ai refine names vars names 0
    | self => .ok (self, vars)
termination_by self.size * (names.length + 2)
decreasing_by all_goals (simp only [size, Nat.add_mul]; omega)

/-- The loop of ty.rs:205-232 over `names[i..]`. -/
def bindAdHoc (a : String) (ai : Ty) (b : String) (bi : Ty) (names : List String) (vars : Vars)
    (rest : List String) (i : Nat) : Except String (Ty × Vars) :=
  match rest with
  | [] =>
    match ai.bindTyVars bi names vars with
    | .error e => .error e
    | .ok (t, vars) => .ok (adHoc a t, vars)
  | n :: rest =>
    if a == n then
      match ai.bindTyVars bi names vars with
      | .error e => .error e
      | .ok (newInner, vars) =>
        match vars.at i with
        | some existing =>
          if existing != b && newInner.goesWith bi && !newInner.ambiguous bi then
            .error "Type mismatch (#1500)"
          else .ok (adHoc existing newInner, vars)
        | none =>
          match ai.bindTyVars bi names (vars.set i (some b)) with
          | .error e => .error e
          | .ok (t, vars) => .ok (adHoc b t, vars)
    else bindAdHoc a ai b bi names vars rest (i + 1)
termination_by ai.size * (names.length + 2) + rest.length + 1
decreasing_by all_goals (try simp only [List.length_cons]); omega

/-- The loop of ty.rs:235-249 over `names[i..]` and the final line 250. -/
def bindPlain (a : String) (ai : Ty) (refine : Ty) (names : List String) (vars : Vars)
    (rest : List String) (i : Nat) : Except String (Ty × Vars) :=
  match rest with
  | [] => ai.bindTyVars refine names vars
  | n :: rest =>
    if a == n then
      match ai.bindTyVars refine names vars with
      | .error e => .error e
      | .ok (newInner, vars) =>
        match vars.at i with
        | some _ =>
          if newInner.goesWith refine && !newInner.ambiguous refine then
            .error "Type mismatch (#1600)"
          else bindPlain a ai refine names vars rest (i + 1)
        | none => ai.bindTyVars refine names vars
    else bindPlain a ai refine names vars rest (i + 1)
termination_by ai.size * (names.length + 2) + rest.length + 1
decreasing_by all_goals (try simp only [List.length_cons]); omega
end

/-- `Type::all_ext`, ty.rs:54-65 (`T` is the name `"T"`). -/
def allExt (args : List Ty) (ret : Ty) : List String × List Ty × Ty :=
  (["T"], args.map (adHoc "T"), adHoc "T" ret)

end Ty
end Dyon
