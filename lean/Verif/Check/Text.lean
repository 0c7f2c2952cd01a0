import Verif.Front.Source

/-!
# C69: which variables a program text may use

The specification: scopes, read off the text without looking at nodes, parents or searches.
-/

namespace Dyon.Check.Spec

open Front (Cst TySrc Src Prod' Opd ItemSrc IdSrc Var Callee FnSrc FnArg LazySrc BodySrc)
open Syn (BinOp callName)

/-- What stands between a variable and the places outside of it, from the inside to the outside. -/
inductive Bind where
  /-- a loop over these variables -/
  | loop (xs : List String)
  /-- a statement `x := ..` before -/
  | var (x : String)
  /-- `grab 'n` -/
  | grab (n : Nat)
  /-- a closure with these arguments and current objects -/
  | closure (ps : List String)
  /-- the function, with its arguments and current objects -/
  | fn (ps : List String)

/-- The variable `x` may be used where it is: it is declared by a loop, a statement before, or as
an argument of the closure or function it is in.  Behind a `grab 'g` it must not be declared
between the `grab` and the `g`-th closure around it, unless by a loop. -/
def seen (x : String) : Nat → List Bind → Bool
  | _, [] => false
  | g, .loop xs :: r => xs.contains x || seen x g r
  | g, .var y :: r => if x = y then g = 0 else seen x g r
  | _, .grab n :: r => seen x n r
  | g, .closure ps :: r => if g = 0 then ps.contains x else !ps.contains x && seen x (g - 1) r
  | _, .fn ps :: _ => ps.contains x

/-! ## What a statement declares -/

/-- The variable, if there is no property behind it. -/
def plainItem : ItemSrc → Option String
  | .mk _ n _ [] => some n
  | .mk _ _ _ (_ :: _) => none

/-- The expression is a variable. -/
def isVar : Src → Bool
  | .item it | .mutItem it => (plainItem it).isSome
  | .paren e | .try_ e => isVar e
  | _ => false

/-- The expression is a `return` without value. -/
def isReturn : Src → Bool
  | .retVoid => true
  | .paren e | .try_ e => isReturn e
  | _ => false

/-- Which arguments are `mut`; `return` without value, which the grammar does not allow there, is
not counted. -/
def muts (args : List Src) : List Bool := (args.filter fun e => !isReturn e).map Front.Spec.isMut

/-- Words in the name of a call: none if there are no words. -/
def joinWords : List String → Option String
  | [] => none
  | w :: ws => some (ws.foldl (fun n w => n ++ "_" ++ w) w)

/-- The name of a function that is called. -/
def calleeName : Callee → String
  | .plain _ n args => Front.Spec.nameWith n (muts args)
  | .named _ w args =>
    Front.Spec.nameWith (Front.Spec.wordName w (args.map (·.1))) (muts (args.map (·.2)))

/-- The name on the left side of a `:=`: the variable.  If there is no variable, the checker takes
the name of the function that is called or of the loop variable for the name of a variable. -/
def leftName : Src → Option String
  | .item it | .mutItem it => plainItem it
  | .paren e | .try_ e => leftName e
  | .in_ _ n => some n
  | .forIn _ _ n _ _ => some n
  | .forN _ _ (.plain n :: _) _ | .forN _ _ (.upto n _ :: _) _ | .forN _ _ (.range n _ _ :: _) _ => some n
  | .unloop _ n _ => some n
  | .compare _ op _ => some (callName op)
  | .not e => some (Front.Spec.nameWith "not" [Front.Spec.isMut e])
  | .norm e => some (Front.Spec.nameWith "norm" [Front.Spec.isMut e])
  | .add _ rest => rest.getLast?.map fun r => callName r.1
  | .call c => some (calleeName c)
  | .namedCallClosure _ args => (joinWords (args.map (·.1))).map fun w =>
      Front.Spec.nameWith w (muts (args.map (·.2)))
  | _ => none

/-- The variable that a statement declares. -/
def declared : Src → Option String
  | .assign l .assign _ => leftName l
  | .paren e | .try_ e => declared e
  | _ => none

/-- The scope behind a statement. -/
def after (e : Src) (D : List Bind) : List Bind :=
  match declared e with
  | some x => .var x :: D
  | none => D

/-- The scope behind statements. -/
def afters : List Src → List Bind → List Bind
  | [], D => D
  | e :: es, D => afters es (after e D)

/-- The scope behind a component that may be missing. -/
def afterOpt : Option Src → List Bind → List Bind
  | none, D => D
  | some e, D => after e D

/-- The variables of a counting loop. -/
def varNames : List Var → List String
  | [] => []
  | .plain n :: vs | .upto n _ :: vs | .range n _ _ :: vs => n :: varNames vs

/-- The ranges of a counting loop. -/
def ranges : List Var → List Src
  | [] => []
  | .plain _ :: vs => ranges vs
  | .upto _ b :: vs => b :: ranges vs
  | .range _ a b :: vs => a :: b :: ranges vs

/-- The name behind `\`: with words, `__` and the words are added if there is no property. -/
def closureName (words : List String) : ItemSrc → String
  | .mk _ n _ [] => match joinWords words with
    | none => n
    | some w => n ++ "__" ++ w
  | .mk _ n _ (_ :: _) => n

/-- The name of a variable with properties. -/
def itemName : ItemSrc → String
  | .mk _ n _ _ => n

/-- The level of a grab. -/
def grabLevel : Option F64 → Nat
  | none => 1
  | some x => max 1 (min x.toUsize 65535)

/-- A name that may be used. -/
def usable (x : String) (D : List Bind) : Prop := x = "return" ∨ seen x 0 D = true

/-! ## Scopes -/

mutual
/-- Every variable of the expression may be used in this scope. -/
def fits (D : List Bind) : Src → Prop
  | .in_ _ _ => True
  | .closure args cur e => fits (.closure (args.map (·.name) ++ cur.map (·.name)) :: D) e
  | .object kvs => fitsAll D kvs
  | .array items => fitsSeq D items
  | .arrayFill fill n => fits D fill ∧ fits (after fill D) n
  | .forIn _ _ n iter body => fits (.loop [n] :: D) iter ∧ fitsSeq (.loop [n] :: after iter D) body
  | .forN _ _ vars body =>
    fitsVars (varNames vars) D vars ∧ fitsSeq (.loop (varNames vars) :: afters (ranges vars) D) body
  | .for_ _ init cond step body =>
    fits D init ∧ fits (after init D) cond ∧ fits (after cond (after init D)) step ∧
      fitsSeq (after step (after cond (after init D))) body
  | .loop _ body => fitsSeq D body
  | .ite cond thn elifs els =>
    fits D cond ∧ fitsSeq (after cond D) thn ∧ fitsElifs (after cond D) elifs ∧
      fitsElse (afters (elifs.map (·.1)) (after cond D)) els
  | .brk _ | .cont _ => True
  | .block es => fitsSeq D es
  | .assign l op r => (op = .assign ∧ isVar l = true ∨ fits D l) ∧ fits (after l D) r
  | .compare l _ r => fits D l ∧ fits D r
  | .ret e => fits D e
  | .retVoid => True
  | .add first rest => fitsProd D first ∧ fitsAdd D rest
  | .mat4 x y z w =>
    fits D x ∧ fitsOpt (after x D) y ∧ fitsOpt (afterOpt y (after x D)) z ∧
      fitsOpt (afterOpt z (afterOpt y (after x D))) w
  | .vec4 x y z w =>
    fits D x ∧ fitsOpt (after x D) y ∧ fitsOpt (afterOpt y (after x D)) z ∧
      fitsOpt (afterOpt z (afterOpt y (after x D))) w
  | .link items => fitsSeq D items
  | .grab level e => fits (.grab (grabLevel level) :: D) e
  | .tryExpr e | .paren e | .not e | .norm e | .try_ e => fits D e
  | .text _ | .num _ | .bool _ | .color _ => True
  | .go c | .call c => fitsCallee D c
  | .callClosure it args => usable (itemName it) D ∧ fitsItem D it ∧ fitsSeq D args
  | .namedCallClosure it args =>
    usable (closureName (args.map (·.1)) it) D ∧ fitsItem D it ∧ fitsWords D args
  | .item it | .mutItem it => usable (itemName it) D ∧ fitsItem D it
  | .unloop _ n e => fits (.loop [n] :: D) e
  | .swizzle _ _ _ _ e => fits D e
/-- Statements: what one declares may be used by the ones behind it. -/
def fitsSeq (D : List Bind) : List Src → Prop
  | [] => True
  | e :: es => fits D e ∧ fitsSeq (after e D) es
/-- Keys and values: nothing is declared for the other ones. -/
def fitsAll (D : List Bind) : List (String × Src) → Prop
  | [] => True
  | (_, e) :: es => fits D e ∧ fitsAll D es
/-- Arguments with words. -/
def fitsWords (D : List Bind) : List (String × Src) → Prop
  | [] => True
  | (_, e) :: es => fits D e ∧ fitsWords (after e D) es
/-- The ranges of a counting loop: its variables `xs` may be used there. -/
def fitsVars (xs : List String) (D : List Bind) : List Var → Prop
  | [] => True
  | .plain _ :: vs => fitsVars xs D vs
  | .upto _ b :: vs => fits (.loop xs :: D) b ∧ fitsVars xs (after b D) vs
  | .range _ a b :: vs =>
    fits (.loop xs :: D) a ∧ fits (.loop xs :: after a D) b ∧ fitsVars xs (after b (after a D)) vs
/-- `else if`. -/
def fitsElifs (D : List Bind) : List (Src × List Src) → Prop
  | [] => True
  | (c, b) :: r => fits D c ∧ fitsSeq (after c D) b ∧ fitsElifs (after c D) r
/-- `else`. -/
def fitsElse (D : List Bind) : Option (List Src) → Prop
  | none => True
  | some b => fitsSeq D b
/-- A component that may be missing. -/
def fitsOpt (D : List Bind) : Option Src → Prop
  | none => True
  | some e => fits D e
/-- Summands after the first. -/
def fitsAdd (D : List Bind) : List (BinOp × Prod') → Prop
  | [] => True
  | (_, p) :: r => fitsProd D p ∧ fitsAdd D r
/-- A product. -/
def fitsProd (D : List Bind) : Prod' → Prop
  | .mk first rest => fitsOpd D first ∧ fitsMul D rest
/-- Factors after the first. -/
def fitsMul (D : List Bind) : List (BinOp × Opd) → Prop
  | [] => True
  | (_, o) :: r => fitsOpd D o ∧ fitsMul D r
/-- A factor. -/
def fitsOpd (D : List Bind) : Opd → Prop
  | .neg p => fitsProd D p
  | .pow l r => fits D l ∧ fits D r
  | .plain e => fits D e
/-- The properties behind a variable. -/
def fitsItem (D : List Bind) : ItemSrc → Prop
  | .mk _ _ _ ids => fitsIds D ids
/-- Properties. -/
def fitsIds (D : List Bind) : List IdSrc → Prop
  | [] => True
  | .str _ _ :: r => fitsIds D r
  | .num _ _ :: r => fitsIds D r
  | .expr e _ :: r => fits D e ∧ fitsIds (after e D) r
/-- The arguments of a call. -/
def fitsCallee (D : List Bind) : Callee → Prop
  | .plain _ _ args => fitsSeq D args
  | .named _ _ args => fitsWords D args
end

/-- Rule 4: the reports of an extra type of a function, type variables and a type of arguments and
result. -/
def SigOf (kids : List Cst) : Prop :=
  ∃ (vars : List String) (args : List TySrc) (ret : TySrc), kids = vars.map (.str .tyVar) ++
    args.map (fun t => .node .tyArg t.tree) ++ [.node .tyRet ret.tree]

/-- The extra types of a function. -/
def sigs : BodySrc → List (List Cst)
  | .block _ tys | .returns _ _ tys => tys
  | .expr _ => []

/-- The scope of a function. -/
def fnScope (f : FnSrc) : List Bind := [.fn (f.args.map (·.name) ++ f.currents.map (·.name))]

/-- A condition on an argument. -/
def fitsLazy (D : List Bind) : LazySrc → Prop
  | .ok | .err | .some => True
  | .expr e => fits (.grab 1 :: D) e

/-- What a function does. -/
def fitsBody (D : List Bind) : BodySrc → Prop
  | .block es _ | .returns _ es _ => fitsSeq D es
  | .expr e => fits D e

/-- Every variable of the function may be used where it is. -/
def fitsFn (f : FnSrc) : Prop :=
  (∀ a ∈ f.args, ∀ l ∈ a.lazy, fitsLazy (fnScope f) l) ∧ fitsBody (fnScope f) f.body

end Dyon.Check.Spec
