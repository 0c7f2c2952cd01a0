import Verif.Builtin.SigsLibProps
import Verif.Eval.ResolveProps

/-!
# Typed expressions

A typing judgement for programs of functions whose bodies declare and assign variables, branch, loop and return: what types such
expressions have, given the types of the called functions.  It is a specification: the type checker of the
code (`Check/Types.lean`) does not use it.
-/

namespace Dyon.Sound

open Ty (HasTy)

/-- The types the judgement is about: those that go with no other of them. -/
inductive Flat : Ty → Prop
  | f64 : Flat .f64
  | bool : Flat .bool
  | str : Flat .str
  | vec4 : Flat .vec4
  | mat4 : Flat .mat4
  | link : Flat .link

/-- The variables after `x := e` with an `e` of the type `T`: `x` is that from now on. -/
def extend (Γ : List (String × Ty)) (x : String) (T : Ty) : List (String × Ty) := (x, T) :: Γ.filter fun p => p.1 ≠ x

/-- `Collects k V T`: the counting loop `k` with a body of the type `V` gives a `T`. -/
inductive Collects : ForKind → Ty → Ty → Prop
  | sum : Collects .sum .f64 .f64
  | prod : Collects .prod .f64 .f64
  | min : Collects .min .f64 .f64
  | max : Collects .max .f64 .f64
  | any : Collects .any .bool .bool
  | all : Collects .all .bool .bool
  | sumVec4 : Collects .sumVec4 .vec4 .vec4
  | prodVec4 : Collects .prodVec4 .vec4 .vec4

/-- What can be an item of a link. -/
def Linked (T : Ty) : Prop := T = .f64 ∨ T = .bool ∨ T = .str ∨ T = .link

mutual
/-- `Typing R Γ e T`: with variables of the types in `Γ` the expression `e` is of the type `T`, where `R f name ts T` says
that the function `f` called `name` takes arguments of types `ts` and gives a `T`. -/
inductive Typing (R : FnIndex → String → List Ty → Ty → Prop) : List (String × Ty) → Expr → Ty → Prop
  | const {Γ v T} : Flat T → HasTy T v → Typing R Γ (.const v) T
  | var {Γ x sid T} : (x, T) ∈ Γ → Typing R Γ (.item (.mk x sid false false [] [])) T
  | call {Γ f name args ts T} : R f name ts T → Typings R Γ args ts → Typing R Γ (.call f name args) T
  | ite {Γ c a b T} : Typing R Γ c .bool → Typing R Γ a T → Typing R Γ b T →
      Typing R Γ (.ite c [a] [] (some [b])) T
  | fold {Γ k x start stop e V T label} : Collects k V T → (∀ a ∈ start, Typing R Γ a .f64) → Typing R Γ stop .f64 →
      Typing R (extend Γ x .f64) e V → Typing R Γ (.forN k x start stop [e] label) T
  | vec4 {Γ args} : Typings R Γ args [.f64, .f64, .f64, .f64] → Typing R Γ (.vec4 args) .vec4
  | mat4 {Γ rows} : Typings R Γ rows [.vec4, .vec4, .vec4, .vec4] → Typing R Γ (.mat4 rows) .mat4
  | link {Γ es ts} : Typings R Γ es ts → (∀ t ∈ ts, Linked t) → Typing R Γ (.link es) .link
/-- The same for arguments. -/
inductive Typings (R : FnIndex → String → List Ty → Ty → Prop) : List (String × Ty) → List Expr → List Ty → Prop
  | nil {Γ} : Typings R Γ [] []
  | cons {Γ e es T Ts} : Typing R Γ e T → Typings R Γ es Ts → Typings R Γ (e :: es) (T :: Ts)
end

/-- The expression computes a value, as against naming a variable (a variable is evaluated to a reference to its
slot). -/
inductive Computed : Expr → Prop
  | const {v} : Computed (.const v)
  | call {f name args} : Computed (.call f name args)
  | ite {c a b} : Computed a → Computed b → Computed (.ite c [a] [] (some [b]))
  | fold {k x start stop e label} : Computed (.forN k x start stop [e] label)
  | vec4 {args} : Computed (.vec4 args)
  | mat4 {rows} : Computed (.mat4 rows)
  | link {es} : Computed (.link es)

/-- `Assigns op U V`: a variable of the type `U` with the operator `op` and something of the type `V` on the right stays of the type `U`. -/
inductive Assigns : AssignOp → Ty → Ty → Prop
  | set {U} : Flat U → Assigns .set U U
  | num {op} : op ≠ .assign → Assigns op .f64 .f64
  | vec {op} : op ≠ .assign → Assigns op .vec4 .vec4
  | scale {op} : op ≠ .assign → op ≠ .set → Assigns op .vec4 .f64
  | mat {op} : op = .add ∨ op = .sub ∨ op = .mul → Assigns op .mat4 .mat4
  | text : Assigns .add .str .str
  | item {V} : V = .f64 ∨ V = .bool ∨ V = .str → Assigns .add .link V
  | link {op} : op = .add ∨ op = .sub → Assigns op .link .link

mutual
/-- `Stmt R Q T Γ M L e b`: with variables of the types in `Γ`, of which those in `M` belong to the function itself, and inside loops with
the labels in `L`, the statement `e` keeps the types of the variables, and what it returns is a `T`, or nothing if there is no `T`.  After a statement with
`b` nothing is executed.  `Q f name ts` says that the function `f` called `name` takes arguments of types `ts` and gives nothing. -/
inductive Stmt (R : FnIndex → String → List Ty → Ty → Prop) (Q : FnIndex → String → List Ty → Prop)
    (T : Option Ty) :
    List (String × Ty) → List String → List (Option String) → Expr → Bool → Prop
  | ret {Γ M L e U} : T = some U → Computed e → Typing R Γ e U → Stmt R Q T Γ M L (.ret e) true
  | retVoid {Γ M L} : T = none → Stmt R Q T Γ M L .retVoid true
  | call {Γ M L f name args ts} : Q f name ts → Typings R Γ args ts → Stmt R Q T Γ M L (.call f name args) false
  | brk {Γ M L l} : l ∈ L → Stmt R Q T Γ M L (.brk l) true
  | next {Γ M L l} : l ∈ L → Stmt R Q T Γ M L (.cont l) true
  | set {Γ M L op x sid e U V} : x ∈ M → (x, U) ∈ Γ → Typing R Γ e V → Assigns op U V → (U = .str → op = .add → Computed e) →
      Stmt R Q T Γ M L (.assign op (.item (.mk x sid false false [] [])) e) false
  | cond {Γ M L c es elifs els b b'} : Typing R Γ c .bool → Rows R Q T Γ M L es b → Elifs R Q T Γ M L elifs els b' →
      Stmt R Q T Γ M L (.ite c es elifs els) (b && b')
  | block {Γ M L es b} : Rows R Q T Γ M L es b → Stmt R Q T Γ M L (.block es) b
  | count {Γ M L x start stop es l b} : (∀ e ∈ start, Typing R Γ e .f64) → Typing R Γ stop .f64 →
      Rows R Q T (extend Γ x .f64) (x :: M) (none :: l :: L) es b → Stmt R Q T Γ M L (.forN .forN x start stop es l) false
  | loop {Γ M L init cnd step es l b b'} {Γ' : List (String × Ty)} {M' : List String} : Init R Q T Γ M init Γ' M' →
      Computed cnd → Typing R Γ' cnd .bool → Stmt R Q T Γ' M' [] step b → Rows R Q T Γ' M' (none :: l :: L) es b' →
      Stmt R Q T Γ M L (.for_ init cnd step es l) false
/-- Statements in a row, with declarations `x := e` among them. -/
inductive Rows (R : FnIndex → String → List Ty → Ty → Prop) (Q : FnIndex → String → List Ty → Prop)
    (T : Option Ty) :
    List (String × Ty) → List String → List (Option String) → List Expr → Bool → Prop
  | nil {Γ M L} : Rows R Q T Γ M L [] false
  | decl {Γ M L x sid e U es b} : Flat U → Typing R Γ e U → Rows R Q T (extend Γ x U) (x :: M) L es b →
      Rows R Q T Γ M L (.assign .assign (.item (.mk x sid false false [] [])) e :: es) b
  | stmt {Γ M L e es b b'} : Stmt R Q T Γ M L e b → Rows R Q T Γ M L es b' → Rows R Q T Γ M L (e :: es) (b || b')
/-- What comes after `if c { .. }`. -/
inductive Elifs (R : FnIndex → String → List Ty → Ty → Prop) (Q : FnIndex → String → List Ty → Prop)
    (T : Option Ty) :
    List (String × Ty) → List String → List (Option String) → List (Expr × List Expr) → Option (List Expr) → Bool → Prop
  | none {Γ M L} : Elifs R Q T Γ M L [] none false
  | els {Γ M L es b} : Rows R Q T Γ M L es b → Elifs R Q T Γ M L [] (some es) b
  | elif {Γ M L c es elifs els b b'} : Typing R Γ c .bool → Rows R Q T Γ M L es b → Elifs R Q T Γ M L elifs els b' →
      Elifs R Q T Γ M L ((c, es) :: elifs) els (b && b')
/-- The first part of `for`: a statement or a declaration. -/
inductive Init (R : FnIndex → String → List Ty → Ty → Prop) (Q : FnIndex → String → List Ty → Prop)
    (T : Option Ty) :
    List (String × Ty) → List String → Expr → List (String × Ty) → List String → Prop
  | stmt {Γ M e b} : Stmt R Q T Γ M [] e b → Init R Q T Γ M e Γ M
  | decl {Γ M x sid e U} : Flat U → Typing R Γ e U →
      Init R Q T Γ M (.assign .assign (.item (.mk x sid false false [] [])) e) (extend Γ x U) (x :: M)
end

/-- Statements in a row of which the last one is something computed of the type `U`. -/
inductive Final (R : FnIndex → String → List Ty → Ty → Prop) (Q : FnIndex → String → List Ty → Prop) (U : Ty) :
    List (String × Ty) → List String → List Expr → Prop
  | here {Γ M e} : Computed e → Typing R Γ e U → Final R Q U Γ M [e]
  | decl {Γ M x sid e V es} : Flat V → Typing R Γ e V → Final R Q U (extend Γ x V) (x :: M) es →
      Final R Q U Γ M (.assign .assign (.item (.mk x sid false false [] [])) e :: es)
  | stmt {Γ M e es b} : Stmt R Q (some U) Γ M [] e b → Final R Q U Γ M es → Final R Q U Γ M (e :: es)

/-- `Body R Q Γ es T`: with parameters of the types in `Γ` the statements `es` are those of a function that gives a `T`, or nothing if
there is no `T`: they do not come to their end without `return`, or the last one is the value, or there is nothing to return. -/
inductive Body (R : FnIndex → String → List Ty → Ty → Prop) (Q : FnIndex → String → List Ty → Prop) (Γ : List (String × Ty))
    (es : List Expr) : Option Ty → Prop
  | returns {T} : Rows R Q (some T) Γ [] [] es true → Body R Q Γ es (some T)
  | value {T} : Final R Q T Γ [] es → Body R Q Γ es (some T)
  | nothing {b} : Rows R Q none Γ [] [] es b → Body R Q Γ es none

/-- The signature of a function: names and types of the parameters and the type of the result, if there is one. -/
structure Sign where
  params : List (String × Ty)
  ret : Option Ty

/-- What a function of the host promises: called with arguments of types `ts` it gives a value of type `T`.  (No functions that may leave arguments out.) -/
inductive HostGives (c : ECfg) : FnIndex → List Ty → Ty → Prop
  | binop {f s t T} : (∀ a b, HasTy s a → HasTy t b → ∃ v, c.binopFn f a b = .ok v ∧ HasTy T v) →
      HostGives c (.binop f) [s, t] T
  | unop {f s T} : (∀ a, HasTy s a → ∃ v, c.unopFn f a = .ok v ∧ HasTy T v) → HostGives c (.unop f) [s] T
  | ret {f ts T} : (∀ (s : St) base args, s.stack = base ++ args → Args base ts args →
      ∃ v, c.retFn f s = .ok v { s with stack := base } ∧ HasTy T v) → HostGives c (.ret f) ts T

/-- The same for a function of the host that gives nothing. -/
inductive HostDoes (c : ECfg) : FnIndex → List Ty → Prop
  | void {f ts} : (∀ (s : St) base args, s.stack = base ++ args → Args base ts args →
      c.voidFn f s = .ok () { s with stack := base }) → HostDoes c (.void f) ts

/-- What the functions give that can be called from the function number `i`, with the signatures `S`. -/
inductive Gives (c : ECfg) (S : Nat → Option Sign) (i : Nat) : FnIndex → String → List Ty → Ty → Prop
  | own {f name j σ T} : callIndex f i = some j → S j = some σ → σ.ret = some T →
      Gives c S i (.loaded f) name (σ.params.map (·.2)) T
  | host {f name ts T} : (∀ t ∈ ts, Flat t) → Flat T → HostGives c f ts T → Gives c S i f name ts T

/-- The functions that can be called and give nothing. -/
inductive Does (c : ECfg) (S : Nat → Option Sign) (i : Nat) : FnIndex → String → List Ty → Prop
  | own {f name j σ} : callIndex f i = some j → S j = some σ → σ.ret = none → Does c S i (.loaded f) name (σ.params.map (·.2))
  | host {f name ts} : HostDoes c f ts → Does c S i f name ts

/-- A function is typed: what its body gives is of the declared type. -/
structure TypedFn (c : ECfg) (S : Nat → Option Sign) (j : Nat) (σ : Sign) (fn : Func) : Prop where
  names : fn.args = σ.params.map (·.1)
  distinct : fn.args.Nodup
  returns : fn.returns = σ.ret.isSome
  currents : fn.currents = []
  lazy : fn.lazyInv = []
  flat : ∀ T ∈ σ.ret, Flat T
  flats : ∀ p ∈ σ.params, Flat p.2
  body : Body (Gives c S j) (Does c S j) σ.params fn.body σ.ret

/-- The functions of module `m` with a signature are typed. -/
def TypedModule (c : ECfg) (m : Nat) (S : Nat → Option Sign) : Prop :=
  ∀ j σ, S j = some σ → ∃ fn, (c.modules m)[j]? = some fn ∧ TypedFn c S j σ fn

end Dyon.Sound
