import Verif.Eval.SlotsAll

/-!
# `get_locals`: the slots of variables

The pass that writes into every variable its distance from the end of the stack
(ast/mod.rs, the `get_locals` methods).  It runs once per function, when it is first called.
-/

namespace Dyon

/-- Cuts a compile-time stack back (`stack.truncate(st)`). -/
def cutTo (old new : Env) : Env := new.take old.length

mutual
/-- `Expression::get_locals`, ast/mod.rs:1545-1688: the expression with its slots, and the
stack afterwards.  `stack` is the compile-time stack and `cs` the closure stack.  The callee
of a call is already known (`f_index`, see `Module/Lookup.lean`); `k` says whether it
returns. -/
def getLocals (k : Ctx) : Expr → Env → List Nat → Expr × Env
  -- `Link::get_locals`, ast/mod.rs:1753-1766
  | .link items, st, cs =>
    let r := getSeq k items st cs
    (.link r.1, cutTo st r.2)
  -- `Object::get_locals`, ast/mod.rs:1866-1879
  | .object kvs, st, cs => (.object (getKvs k kvs st cs), st)
  -- `Array::get_locals`, ast/mod.rs:1942-1955
  | .array items, st, cs => (.array (getAll k items st cs), st)
  -- `ArrayFill::get_locals`, ast/mod.rs:2028-2041
  | .arrayFill f n, st, cs =>
    let f' := getLocals k f st cs
    let n' := getLocals k n (cutTo st f'.2) cs
    (.arrayFill f'.1 n'.1, cutTo st n'.2)
  | .ret e, st, cs =>
    let r := getLocals k e st cs
    (.ret r.1, cutTo st r.2)
  | .retVoid, st, _ => (.retVoid, st)
  | .brk l, st, _ => (.brk l, st)
  | .cont l, st, _ => (.cont l, st)
  -- `Block::get_locals`, ast/mod.rs:1023-1036
  | .block es, st, cs =>
    let r := getSeq k es st cs
    (.block r.1, cutTo st r.2)
  -- `Go::get_locals`, ast/mod.rs:2548-2563
  | .go name args, st, cs => (.go name (getAll k args st cs), st)
  -- `Call::get_locals`, ast/mod.rs:2833-2911
  | .call f name args, st, cs =>
    match f with
    | .binop g => (.call (.binop g) name (getAll k args st cs), st)
    | g => (.call g name (getArgs k args (st ++ callPre k g) cs), st)
  | .item it, st, cs => (.item (getItem k it st cs), st)
  -- `Assign::get_locals`, ast/mod.rs:3371-3395
  | .assign op l r, st, cs =>
    let r' := getLocals k r st cs
    let st := cutTo st r'.2
    match declName op l with
    | some n => (.assign op l r'.1, st ++ [some n])
    | none =>
      let l' := getLocals k l st cs
      (.assign op l'.1 r'.1, cutTo st l'.2)
  -- `Vec4::get_locals`, ast/mod.rs:3632-3655
  | .vec4 args, st, cs => (.vec4 (getArgs k args st cs), st)
  -- `Mat4::get_locals`, ast/mod.rs:3521-3536
  | .mat4 args, st, cs => (.mat4 (getRows k args st cs), st)
  -- `For::get_locals`, ast/mod.rs:3980-3997
  | .for_ i c s b l, st, cs =>
    let i' := getLocals k i st cs
    let c' := getLocals k c i'.2 cs
    let s' := getLocals k s (cutTo i'.2 c'.2) cs
    let b' := getSeq k b (cutTo i'.2 s'.2) cs
    (.for_ i'.1 c'.1 s'.1 b'.1 l, cutTo st b'.2)
  -- `ForN::get_locals`, ast/mod.rs:4263-4282
  | .forN kd name start stop body l, st, cs =>
    let start' := getOpt k start st cs
    let stop' := getLocals k stop st cs
    let b' := getSeq k body (cutTo st stop'.2 ++ [some name]) cs
    (.forN kd name start' stop'.1 b'.1 l, cutTo st b'.2)
  -- `ForIn::get_locals`, ast/mod.rs:4094-4108
  | .forIn kd name iter body l, st, cs =>
    let iter' := getLocals k iter st cs
    let b' := getSeq k body (cutTo st iter'.2 ++ [some name]) cs
    (.forIn kd name iter'.1 b'.1 l, cutTo st b'.2)
  -- `If::get_locals`, ast/mod.rs:4535-4562
  | .ite c t elifs els, st, cs =>
    let c' := getLocals k c st cs
    let t' := getSeq k t (cutTo st c'.2) cs
    (.ite c'.1 t'.1 (getElifs k elifs st cs) (getOptSeq k els st cs), cutTo st t'.2)
  | .const v, st, _ => (.const v, st)
  | .try_ e, st, cs =>
    let r := getLocals k e st cs
    (.try_ r.1, r.2)
  | .swizzle sel e, st, cs =>
    let r := getLocals k e st cs
    (.swizzle sel r.1, r.2)
  -- `Closure::get_locals`, ast/mod.rs:630-655: the stack is not cut back
  | .closure args cur rt file e, st, cs =>
    let r := getLocals k e (st ++ fnEnv rt args cur) (cs ++ [st.length])
    (.closure args cur rt file r.1, r.2)
  -- `CallClosure::get_locals`, ast/mod.rs:3071-3100
  | .callClosure it args, st, cs =>
    (.callClosure (getItem k it st cs) (getArgs k args (st ++ [some "return"]) cs), st)
  -- `Grab::get_locals`, ast/mod.rs:719-742
  | .grab level e, st, cs =>
    match cs[(if cs.length < level then 0 else cs.length - level : Nat)]? with
    | none => (.grab level e, st)
    | some last => (.grab level (getLocals k e (st.take last) cs).1, st)
  -- `TryExpr::get_locals`, ast/mod.rs:796-805
  | .tryExpr e, st, cs =>
    let r := getLocals k e st cs
    (.tryExpr r.1, r.2)
  | .in_ f, st, _ => (.in_ f, st)
/-- Statements, one after the other on the same stack, ast/mod.rs:1032-1034. -/
def getSeq (k : Ctx) : List Expr → Env → List Nat → List Expr × Env
  | [], st, _ => ([], st)
  | e :: es, st, cs =>
    let r := getLocals k e st cs
    let rs := getSeq k es r.2 cs
    (r.1 :: rs.1, rs.2)
/-- Expressions that all start from the same stack. -/
def getAll (k : Ctx) : List Expr → Env → List Nat → List Expr
  | [], _, _ => []
  | e :: es, st, cs =>
    let r := getLocals k e st cs
    r.1 :: getAll k es (cutTo st r.2) cs
/-- Arguments: each pushes as many unnamed slots as it gives values. -/
def getArgs (k : Ctx) : List Expr → Env → List Nat → List Expr
  | [], _, _ => []
  | e :: es, st, cs =>
    let r := getLocals k e st cs
    r.1 :: getArgs k es (cutTo st r.2 ++ List.replicate e.width none) cs
/-- Rows of a matrix: each pushes one unnamed slot, ast/mod.rs:3530-3535. -/
def getRows (k : Ctx) : List Expr → Env → List Nat → List Expr
  | [], _, _ => []
  | e :: es, st, cs =>
    let r := getLocals k e st cs
    r.1 :: getRows k es (cutTo st r.2 ++ [none]) cs
/-- Key-value pairs. -/
def getKvs (k : Ctx) : List (String × Expr) → Env → List Nat → List (String × Expr)
  | [], _, _ => []
  | (key, e) :: es, st, cs =>
    let r := getLocals k e st cs
    (key, r.1) :: getKvs k es (cutTo st r.2) cs
/-- Else-if branches: all start from the same stack. -/
def getElifs (k : Ctx) : List (Expr × List Expr) → Env → List Nat → List (Expr × List Expr)
  | [], _, _ => []
  | (c, b) :: es, st, cs =>
    ((getLocals k c st cs).1, (getSeq k b st cs).1) :: getElifs k es st cs
/-- The else branch. -/
def getOptSeq (k : Ctx) : Option (List Expr) → Env → List Nat → Option (List Expr)
  | none, _, _ => none
  | some es, st, cs => some (getSeq k es st cs).1
/-- The start of a counting loop. -/
def getOpt (k : Ctx) : Option Expr → Env → List Nat → Option Expr
  | none, _, _ => none
  | some e, st, cs => some (getLocals k e st cs).1
/-- `Item::get_locals`, ast/mod.rs:2451-2474: the slot keeps its old value if the name is
not found. -/
def getItem (k : Ctx) : Item → Env → List Nat → Item
  | .mk name sid cur t ids tids, st, cs =>
    .mk name ((dist name st).or sid) cur t (getIds k ids st cs) tids
/-- `Id::get_locals`, ast/mod.rs:2291-2309. -/
def getIds (k : Ctx) : List Id → Env → List Nat → List Id
  | [], _, _ => []
  | .str s :: r, st, cs => .str s :: getIds k r st cs
  | .num x :: r, st, cs => .num x :: getIds k r st cs
  | .expr e :: r, st, cs =>
    let e' := getLocals k e st cs
    .expr e'.1 :: getIds k r (cutTo st e'.2 ++ [none]) cs
end

/-! ## Programs whose variables are in scope -/

/-- What `get_locals` leaves on the compile-time stack after an expression: the variable it
declares, or what a closure left there. -/
def Expr.adds : Expr → Env
  | .assign op l _ => match declName op l with
    | some n => [some n]
    | none => []
  | .closure args cur rt _ e => fnEnv rt args cur ++ e.adds
  | .try_ e => e.adds
  | .swizzle _ e => e.adds
  | .tryExpr e => e.adds
  | _ => []

/-- The stack without the return slot. -/
def hideRet (Γ : Env) : Env := Γ.map fun x => if x = some "return" then none else x

mutual
/-- Every variable of the expression is declared before it is used: `Γ` has the names of
the running function, `os` those of the enclosing functions, which `grab` refers to.
Declarations are statements of blocks, links, or the start of a `for` loop; calls of loaded
functions have the right number of arguments, all of them values; no statement but the last of
a block is a closure; `return` is not read in an argument of a closure call. -/
def Expr.Scoped (k : Ctx) (ar : Int → Nat) : Expr → Env → List Env → Prop
  | .link items, Γ, os => SSeq k ar items Γ os
  | .object kvs, Γ, os => SKvs k ar kvs Γ os
  | .array items, Γ, os => SAll k ar items Γ os
  | .arrayFill f n, Γ, os => f.Scoped k ar Γ os ∧ n.Scoped k ar Γ os
  | .ret e, Γ, os => e.Scoped k ar Γ os
  | .block es, Γ, os => SSeq k ar es Γ os
  | .go _ args, Γ, os => SAll k ar args Γ os
  | .call f _ args, Γ, os =>
    (match f with
      | .binop _ => SAll k ar args Γ os
      | f => SArgs k ar args (Γ ++ callPre k f) os) ∧
    (match f with
      | .loaded f => argLen args = ar f ∧ vecArgsOk k args = true
      | _ => True)
  | .item it, Γ, os => SItem k ar it Γ os
  | .assign op l r, Γ, os => r.Scoped k ar Γ os ∧ (declName op l = none → l.Scoped k ar Γ os)
  | .vec4 args, Γ, os => SArgs k ar args Γ os
  | .mat4 args, Γ, os => SArgs k ar args Γ os ∧ ∀ e ∈ args, e.width = 1
  | .for_ i c s b _, Γ, os =>
    i.Scoped k ar Γ os ∧ i.isSwizzle = false ∧ i.adds = decl i ∧
    c.Scoped k ar (Γ ++ decl i) os ∧
    s.Scoped k ar (Γ ++ decl i) os ∧ s.isSwizzle = false ∧ decl s = [] ∧
    SSeq k ar b (Γ ++ decl i) os
  | .forN _ name start stop body _, Γ, os =>
    SOpt k ar start Γ os ∧ stop.Scoped k ar Γ os ∧ SSeq k ar body (Γ ++ [some name]) os
  | .forIn _ name iter body _, Γ, os =>
    iter.Scoped k ar Γ os ∧ SSeq k ar body (Γ ++ [some name]) os
  | .ite c t elifs els, Γ, os =>
    c.Scoped k ar Γ os ∧ SSeq k ar t Γ os ∧ SElifs k ar elifs Γ os ∧ SOptSeq k ar els Γ os
  | .try_ e, Γ, os => e.Scoped k ar Γ os
  | .swizzle _ e, Γ, os => e.Scoped k ar Γ os
  | .closure args cur r _ e, Γ, os =>
    r = true ∧ freshCurrents args cur ∧ e.Scoped k ar (fnEnv r args cur) (Γ :: os)
  | .callClosure it args, Γ, os =>
    SItem k ar it Γ os ∧ vecArgsOk k args = true ∧ SArgs k ar args (hideRet Γ ++ [none]) os
  | .grab l e, _, os => 0 < l ∧ ∃ Γ', os[(l - 1 : Nat)]? = some Γ' ∧ e.Scoped k ar Γ' []
  | .tryExpr e, Γ, os => e.Scoped k ar Γ os
  | _, _, _ => True
/-- Statements: a declaration is seen by the statements after it. -/
def SSeq (k : Ctx) (ar : Int → Nat) : List Expr → Env → List Env → Prop
  | [], _, _ => True
  | e :: es, Γ, os => e.Scoped k ar Γ os ∧ e.isSwizzle = false ∧ (es ≠ [] → e.adds = decl e) ∧
    SSeq k ar es (Γ ++ decl e) os
/-- Expressions that all start from the same stack. -/
def SAll (k : Ctx) (ar : Int → Nat) : List Expr → Env → List Env → Prop
  | [], _, _ => True
  | e :: es, Γ, os => e.Scoped k ar Γ os ∧ SAll k ar es Γ os
/-- Arguments: each leaves its values on the stack. -/
def SArgs (k : Ctx) (ar : Int → Nat) : List Expr → Env → List Env → Prop
  | [], _, _ => True
  | e :: es, Γ, os => e.Scoped k ar Γ os ∧ SArgs k ar es (Γ ++ List.replicate e.width none) os
/-- Key-value pairs. -/
def SKvs (k : Ctx) (ar : Int → Nat) : List (String × Expr) → Env → List Env → Prop
  | [], _, _ => True
  | (_, e) :: es, Γ, os => e.Scoped k ar Γ os ∧ SKvs k ar es Γ os
/-- Else-if branches. -/
def SElifs (k : Ctx) (ar : Int → Nat) : List (Expr × List Expr) → Env → List Env → Prop
  | [], _, _ => True
  | (c, b) :: es, Γ, os => c.Scoped k ar Γ os ∧ SSeq k ar b Γ os ∧ SElifs k ar es Γ os
/-- Optional blocks. -/
def SOptSeq (k : Ctx) (ar : Int → Nat) : Option (List Expr) → Env → List Env → Prop
  | none, _, _ => True
  | some es, Γ, os => SSeq k ar es Γ os
/-- Optional expressions. -/
def SOpt (k : Ctx) (ar : Int → Nat) : Option Expr → Env → List Env → Prop
  | none, _, _ => True
  | some e, Γ, os => e.Scoped k ar Γ os
/-- Items: the name is in scope. -/
def SItem (k : Ctx) (ar : Int → Nat) : Item → Env → List Env → Prop
  | .mk name _ _ _ ids _, Γ, os => some name ∈ Γ ∧ SIds k ar ids Γ os
/-- Properties: each computed one leaves its value on the stack. -/
def SIds (k : Ctx) (ar : Int → Nat) : List Id → Env → List Env → Prop
  | [], _, _ => True
  | .expr e :: r, Γ, os => e.Scoped k ar Γ os ∧ SIds k ar r (Γ ++ [none]) os
  | .str _ :: r, Γ, os => SIds k ar r Γ os
  | .num _ :: r, Γ, os => SIds k ar r Γ os
end

/-- A function whose variables are in scope. -/
def FnScoped (c : ECfg) (va ra : Nat → Nat) (m idx : Nat) (fn : Func) : Prop :=
  freshCurrents fn.args fn.currents ∧
  SSeq (ctxAt c va ra m idx) (arAt c m idx) fn.body (fnEnv fn.returns fn.args fn.currents) []

/-- Every function of every module has its variables in scope. -/
def ModulesScoped (c : ECfg) (va ra : Nat → Nat) : Prop :=
  ∀ m idx fn, (c.modules m)[idx]? = some fn → FnScoped c va ra m idx fn

/-- `Function::get_locals`, ast/mod.rs:519-540. -/
def Func.resolve (k : Ctx) (fn : Func) : Func :=
  { fn with body := (getSeq k fn.body (fnEnv fn.returns fn.args fn.currents) []).1 }

/-- The functions of a module with their slots. -/
def resolveAll (c : ECfg) (m : Nat) : List Func :=
  (c.modules m).mapIdx fun idx fn => fn.resolve (ctxAt c (fun _ => 0) (fun _ => 0) m idx)

/-- A configuration whose functions have their slots. -/
def ECfg.resolve (c : ECfg) : ECfg := { c with modules := resolveAll c }

end Dyon
