import Verif.Check.Text
import Verif.Front.Link
import Verif.Front.Inner

/-!
# C69: plain programs

The checker looks at variables only (`Check/Text.lean`), and at some places it is more generous than
the run.  A text is plain if it keeps away from these places.  The conditions are read off the text;
they say nothing about which variables are in scope where.
-/

namespace Dyon.Plain

open Front (Src Prod' Opd ItemSrc IdSrc Var Callee FnSrc BodySrc)
open Syn (BinOp callName)
open Check.Spec (declared plainItem itemName varNames grabLevel closureName)

/-- What a name of a function stands for. -/
inductive Called where
  /-- nothing: calling it is an error -/
  | nothing
  /-- an operator -/
  | op
  /-- a function of the program, with the number of its parameters, and whether it gives a value -/
  | own (params : Nat) (gives : Bool)
  /-- a function of the host, with the number of its parameters, and whether it gives a value -/
  | host (params : Nat) (gives : Bool)

/-- A call gives a value if it goes on. -/
def Called.gives : Called → Bool
  | .nothing | .op => true
  | .own _ g | .host _ g => g

/-- The name behind which a callee is looked for. -/
def calleeName : Callee → String
  | .plain a n args => Front.Spec.inside a (Front.Spec.nameWith n (args.map Front.Spec.isMut))
  | .named a w args => Front.Spec.inside a
      (Front.Spec.nameWith (Front.Spec.wordName w (args.map (·.1))) (args.map fun x => Front.Spec.isMut x.2))

/-- The arguments of a call. -/
def calleeArgs : Callee → List Src
  | .plain _ _ args => args
  | .named _ _ args => args.map (·.2)

mutual
/-- The number of components if the expression is a swizzle, with or without parentheses. -/
def comps : Src → Option Nat
  | .swizzle _ _ c d _ => some (2 + c.toList.length + d.toList.length)
  | .paren e => comps e
  | .add first rest => if rest.isEmpty then compsProd first else none
  | _ => none
/-- A product of a single factor. -/
def compsProd : Prod' → Option Nat
  | .mk first rest => if rest.isEmpty then compsOpd first else none
/-- A factor. -/
def compsOpd : Opd → Option Nat
  | .plain e => comps e
  | _ => none
end

/-- The number of values that an argument stands for. -/
def width (e : Src) : Nat := (comps e).getD 1

mutual
/-- The expression gives a value whenever it goes on. -/
def gives (C : String → Called) : Src → Bool
  | .assign _ _ _ | .for_ _ _ _ _ _ | .loop _ _ | .forIn _ _ _ _ _ | .swizzle _ _ _ _ _ | .callClosure _ _
  | .namedCallClosure _ _ => false
  | .forN k _ _ _ => k ≠ .forN
  | .call c => (C (calleeName c)).gives
  | .compare _ op _ => (C (callName op)).gives
  | .not _ => (C "not").gives
  | .norm _ => (C "norm").gives
  | .add first rest => match rest.getLast? with
    | some (op, _) => (C (callName op)).gives
    | none => givesProd C first
  | .paren e => gives C e
  | .block es => givesLast C es
  | .ite _ t ei (some e) => givesLast C t && givesElifs C ei && givesLast C e
  | .ite _ _ _ none => false
  | _ => true
/-- A product. -/
def givesProd (C : String → Called) : Prod' → Bool
  | .mk first rest => match rest.getLast? with
    | some (op, _) => (C (callName op)).gives
    | none => givesOpd C first
/-- A factor. -/
def givesOpd (C : String → Called) : Opd → Bool
  | .neg _ => (C "neg").gives
  | .pow _ _ => (C "pow").gives
  | .plain e => gives C e
/-- The last statement of a block. -/
def givesLast (C : String → Called) : List Src → Bool
  | [] => false
  | e :: es => if es.isEmpty then gives C e else givesLast C es
/-- Every else-if branch. -/
def givesElifs (C : String → Called) : List (Src × List Src) → Bool
  | [] => true
  | (_, b) :: r => givesLast C b && givesElifs C r
end

mutual
/-- The expression may declare something, or loop with declarations, at its end. -/
def leaves : Src → Bool
  | .assign _ _ _ | .for_ _ _ _ _ _ | .loop _ _ | .swizzle _ _ _ _ _ => true
  | .link items => leavesAny items
  | .tryExpr e | .paren e => leaves e
  | .add first rest => rest.isEmpty && leavesProd first
  | _ => false
/-- Some expression. -/
def leavesAny : List Src → Bool
  | [] => false
  | e :: es => leaves e || leavesAny es
/-- A product of a single factor. -/
def leavesProd : Prod' → Bool
  | .mk first rest => rest.isEmpty && leavesOpd first
/-- A factor. -/
def leavesOpd : Opd → Bool
  | .plain e => leaves e
  | _ => false
end

/-- A variable, with or without properties. -/
def place : Src → Option ItemSrc
  | .item it | .mutItem it => some it
  | .paren e => place e
  | _ => none

/-- The variable that `l := ..` declares. -/
def newVar (l : Src) : Option String := (place l).bind plainItem

mutual
/-- The expression is a declaration or a closure, perhaps behind `?`, `try` or in parentheses. -/
def opens : Src → Bool
  | .assign l op _ => op = .assign && (newVar l).isSome
  | .closure _ _ _ => true
  | .try_ e | .tryExpr e | .paren e | .swizzle _ _ _ _ e => opens e
  | .add first rest => rest.isEmpty && opensProd first
  | _ => false
/-- A product of a single factor. -/
def opensProd : Prod' → Bool
  | .mk first rest => rest.isEmpty && opensOpd first
/-- A factor. -/
def opensOpd : Opd → Bool
  | .plain e => opens e
  | _ => false
end

/-- Other statements may follow: the statement is a declaration, or there is none in it and it is no
closure. -/
def behind : Src → Bool
  | .assign _ _ _ => true
  | .paren e => behind e
  | e => !opens e

mutual
/-- An expression without statements, closures and loops, in which `vec4 i e` puts numbers for
`i`. -/
def flat : Src → Bool
  | .text _ | .num _ | .bool _ | .color _ => true
  | .array items => flats items
  | .compare l _ r => flat l && flat r
  | .add first rest => flatProd first && flatAdd rest
  | .paren e | .not e | .norm e | .try_ e | .swizzle _ _ _ _ e => flat e
  | .call c => flatCallee c
  | .item it | .mutItem it => flatItem it
  | _ => false
/-- Expressions. -/
def flats : List Src → Bool
  | [] => true
  | e :: es => flat e && flats es
/-- Arguments with words. -/
def flatWords : List (String × Src) → Bool
  | [] => true
  | (_, e) :: es => flat e && flatWords es
/-- Summands after the first. -/
def flatAdd : List (BinOp × Prod') → Bool
  | [] => true
  | (_, p) :: r => flatProd p && flatAdd r
/-- A product. -/
def flatProd : Prod' → Bool
  | .mk first rest => flatOpd first && flatMul rest
/-- Factors after the first. -/
def flatMul : List (BinOp × Opd) → Bool
  | [] => true
  | (_, o) :: r => flatOpd o && flatMul r
/-- A factor. -/
def flatOpd : Opd → Bool
  | .neg p => flatProd p
  | .pow l r => flat l && flat r
  | .plain e => flat e
/-- A variable with properties. -/
def flatItem : ItemSrc → Bool
  | .mk _ _ _ ids => flatIds ids
/-- Properties. -/
def flatIds : List IdSrc → Bool
  | [] => true
  | .str _ _ :: r | .num _ _ :: r => flatIds r
  | .expr e _ :: r => flat e && flatIds r
/-- The arguments of a call. -/
def flatCallee : Callee → Bool
  | .plain _ _ args => flats args
  | .named _ _ args => flatWords args
end

/-- The arguments fit the function: functions of the program need as many values as they have
parameters, and functions of the host as many arguments. -/
def fitCall (C : String → Called) (name : String) (args : List Src) : Prop :=
  match C name with
  | .nothing | .op => True
  | .own n _ => (args.map width).sum = n ∧ ∀ a ∈ args, gives C a = true ∨ (comps a).isSome
  | .host n _ => args.length = n

/-- The name is an operator and not a function of the program. -/
def isOp (C : String → Called) (name : String) : Prop :=
  match C name with
  | .nothing | .op => True
  | .own _ _ | .host _ _ => False

/-- The first statement, if it is a link, does not end with declarations. -/
def linkFirst : List Src → Prop
  | [] => True
  | e :: _ => leaves e = false

/-- The components reach four values without overshooting. -/
def fill : List Nat → Nat → Bool
  | _, 0 => true
  | [], _ + 1 => false
  | w :: ws, r + 1 => decide (w ≤ r + 1) && fill ws (r + 1 - w)

/-- The number of values of a component that may be missing. -/
def widthOpt : Option Src → Nat
  | none => 1
  | some e => width e

/-- An argument that declares nothing and is a value or a swizzle. -/
def isComp (C : String → Called) (e : Src) : Prop :=
  declared e = none ∧ (gives C e = true ∨ (comps e).isSome)

/-- An argument that declares nothing and is a value. -/
def isRow (C : String → Called) (e : Src) : Prop :=
  declared e = none ∧ gives C e = true ∧ comps e = none

variable [FloatOps] [Data.Lex]

/-- The range of the loop `for n, vs { body }` that does not say where `n` ends: the loop is one over the
length of a list (C41), and neither the list nor variables in its properties are declared in the loop. -/
def rangeOutside (C : String → Called) (n : String) (vs : List Var) (body : List Src) : Prop :=
  (match C "len" with
    | .nothing | .op => True
    | .own p _ | .host p _ => p = 1) ∧
  ∀ file k label list inside,
    Front.Spec.expr file (.forN k label (.plain n :: vs) body) =
      some (.forN k n none (.call .none "len" [.item list]) inside label) →
    ∃ xs, listVars list = some xs ∧ ∀ x ∈ xs, x ≠ n ∧ x ∉ innerAll inside

mutual
/-- A plain expression.  `B` are names that must not be used here: variables of a loop in its own
range, and `return` where there is no result to read.  `Bt` are the names that must not be used
behind a `grab` from the closures outside: variables of loops inside these closures. -/
def plain (C : String → Called) (B : List String) (Bt : List (List String)) : Src → Prop
  | .in_ _ _ => True
  | .closure args cur e =>
    freshCurrents (args.map (·.name)) (cur.map (·.name)) ∧ plain C [] (B :: Bt) e
  | .object kvs => plainWords C B Bt kvs
  | .array items => plainAll C B Bt items
  | .arrayFill fill n => declared fill = none ∧ plain C B Bt fill ∧ plain C B Bt n
  | .forIn k _ n iter body =>
    declared iter = none ∧ plain C (n :: B) (Bt.map (n :: ·)) iter ∧
      plainSeq C B (Bt.map (n :: ·)) body ∧ (k = .link → linkFirst body)
  | .forN k _ vars body =>
    plainVars C (varNames vars) B Bt body vars ∧ plainSeq C B (Bt.map (varNames vars ++ ·)) body ∧
      (k = .linkFor → linkFirst body)
  | .for_ _ init cond step body =>
    plain C B Bt init ∧ behind init = true ∧ comps init = none ∧
    declared cond = none ∧ plain C B Bt cond ∧
    declared step = none ∧ plain C B Bt step ∧ comps step = none ∧ plainSeq C B Bt body
  | .loop _ body => plainSeq C B Bt body
  | .ite cond thn elifs els =>
    declared cond = none ∧ plain C B Bt cond ∧ plainSeq C B Bt thn ∧ plainElifs C B Bt elifs ∧
      plainElse C B Bt els
  | .brk _ | .cont _ => True
  | .block es => plainSeq C B Bt es
  | .assign l op r =>
    declared l = none ∧ (op = .assign → (place l).isSome) ∧
      ((op = .assign ∧ (newVar l).isSome) ∨ plain C B Bt l) ∧ plain C B Bt r
  | .compare l op r => isOp C (callName op) ∧ plain C B Bt l ∧ plain C B Bt r
  | .ret e => plain C B Bt e
  | .retVoid => True
  | .add first rest => plainProd C B Bt first ∧ plainAdd C B Bt rest
  | .mat4 x y z w =>
    isRow C x ∧ plain C B Bt x ∧ plainRowOpt C B Bt y ∧ plainRowOpt C B Bt z ∧ plainRowOpt C B Bt w
  | .vec4 x y z w =>
    isComp C x ∧ plain C B Bt x ∧ plainCompOpt C B Bt y ∧ plainCompOpt C B Bt z ∧ plainCompOpt C B Bt w ∧
      fill [width x, widthOpt y, widthOpt z, widthOpt w] 4 = true
  | .link items => plainSeq C B Bt items
  | .grab level e =>
    (∀ x, level = some x → 0 < x.toUsize) ∧
      ∃ Bg, Bt[grabLevel level - 1]? = some Bg ∧ plain C ("return" :: Bg) [] e
  | .tryExpr e | .paren e | .try_ e => plain C B Bt e
  | .not e => isOp C "not" ∧ plain C B Bt e
  | .norm e => isOp C "norm" ∧ plain C B Bt e
  | .text _ | .num _ | .bool _ | .color _ => True
  | .go c => plainCallee C B Bt c
  | .call c => fitCall C (calleeName c) (calleeArgs c) ∧ plainCallee C B Bt c
  | .callClosure it args =>
    itemName it ∉ B ∧ plainIt C B Bt it ∧ plainComps C ("return" :: B) Bt args
  | .namedCallClosure it args =>
    (∃ w ws, args.map (·.1) = w :: ws ∧ w ≠ "") ∧ closureName (args.map (·.1)) it ∉ B ∧
      plainIt C B Bt it ∧ plainWordComps C ("return" :: B) Bt args
  | .item it | .mutItem it => itemName it ∉ B ∧ plainIt C B Bt it
  | .unloop _ n e =>
    flat e = true ∧ gives C e = true ∧ comps e = none ∧ plain C B (Bt.map (n :: ·)) e
  | .swizzle _ _ _ _ e => plain C B Bt e
/-- Statements. -/
def plainSeq (C : String → Called) (B : List String) (Bt : List (List String)) : List Src → Prop
  | [] => True
  | e :: es =>
    plain C B Bt e ∧ comps e = none ∧ (es ≠ [] → behind e = true) ∧ plainSeq C B Bt es
/-- Expressions that declare nothing. -/
def plainAll (C : String → Called) (B : List String) (Bt : List (List String)) : List Src → Prop
  | [] => True
  | e :: es => declared e = none ∧ plain C B Bt e ∧ plainAll C B Bt es
/-- Keys and values, or arguments with words. -/
def plainWords (C : String → Called) (B : List String) (Bt : List (List String)) :
    List (String × Src) → Prop
  | [] => True
  | (_, e) :: es => declared e = none ∧ plain C B Bt e ∧ plainWords C B Bt es
/-- Arguments of a closure: each gives a value or is a swizzle. -/
def plainComps (C : String → Called) (B : List String) (Bt : List (List String)) : List Src → Prop
  | [] => True
  | e :: es => isComp C e ∧ plain C B Bt e ∧ plainComps C B Bt es
/-- Arguments of a closure with words. -/
def plainWordComps (C : String → Called) (B : List String) (Bt : List (List String)) :
    List (String × Src) → Prop
  | [] => True
  | (_, e) :: es => isComp C e ∧ plain C B Bt e ∧ plainWordComps C B Bt es
/-- The ranges of a counting loop over the variables `xs`: each only uses the variables before it, and a missing
one is the length of a list from outside of the loop. -/
def plainVars (C : String → Called) (xs B : List String) (Bt : List (List String)) (body : List Src) : List Var → Prop
  | [] => True
  | .plain n :: vs => rangeOutside C n vs body ∧ plainVars C xs B Bt body vs
  | .upto n b :: vs =>
    declared b = none ∧ plain C (n :: varNames vs ++ B) (Bt.map (xs ++ ·)) b ∧ plainVars C xs B Bt body vs
  | .range n a b :: vs =>
    declared a = none ∧ plain C (n :: varNames vs ++ B) (Bt.map (xs ++ ·)) a ∧
    declared b = none ∧ plain C (n :: varNames vs ++ B) (Bt.map (xs ++ ·)) b ∧ plainVars C xs B Bt body vs
/-- `else if`. -/
def plainElifs (C : String → Called) (B : List String) (Bt : List (List String)) :
    List (Src × List Src) → Prop
  | [] => True
  | (c, b) :: r =>
    declared c = none ∧ plain C B Bt c ∧ plainSeq C B Bt b ∧ plainElifs C B Bt r
/-- `else`. -/
def plainElse (C : String → Called) (B : List String) (Bt : List (List String)) :
    Option (List Src) → Prop
  | none => True
  | some b => plainSeq C B Bt b
/-- A component that may be missing. -/
def plainCompOpt (C : String → Called) (B : List String) (Bt : List (List String)) : Option Src → Prop
  | none => True
  | some e => isComp C e ∧ plain C B Bt e
/-- A row that may be missing. -/
def plainRowOpt (C : String → Called) (B : List String) (Bt : List (List String)) : Option Src → Prop
  | none => True
  | some e => isRow C e ∧ plain C B Bt e
/-- Summands after the first. -/
def plainAdd (C : String → Called) (B : List String) (Bt : List (List String)) :
    List (BinOp × Prod') → Prop
  | [] => True
  | (op, p) :: r => isOp C (callName op) ∧ plainProd C B Bt p ∧ plainAdd C B Bt r
/-- A product. -/
def plainProd (C : String → Called) (B : List String) (Bt : List (List String)) : Prod' → Prop
  | .mk first rest => plainOpd C B Bt first ∧ plainMul C B Bt rest
/-- Factors after the first. -/
def plainMul (C : String → Called) (B : List String) (Bt : List (List String)) :
    List (BinOp × Opd) → Prop
  | [] => True
  | (op, o) :: r => isOp C (callName op) ∧ plainOpd C B Bt o ∧ plainMul C B Bt r
/-- A factor. -/
def plainOpd (C : String → Called) (B : List String) (Bt : List (List String)) : Opd → Prop
  | .neg p => isOp C "neg" ∧ plainProd C B Bt p
  | .pow l r => isOp C "pow" ∧ plain C B Bt l ∧ plain C B Bt r
  | .plain e => declared e = none ∧ plain C B Bt e
/-- The properties behind a variable. -/
def plainIt (C : String → Called) (B : List String) (Bt : List (List String)) : ItemSrc → Prop
  | .mk _ _ _ ids => plainIds C B Bt ids
/-- Properties. -/
def plainIds (C : String → Called) (B : List String) (Bt : List (List String)) : List IdSrc → Prop
  | [] => True
  | .str _ _ :: r => plainIds C B Bt r
  | .num _ _ :: r => plainIds C B Bt r
  | .expr e _ :: r => declared e = none ∧ plain C B Bt e ∧ plainIds C B Bt r
/-- The arguments of a call. -/
def plainCallee (C : String → Called) (B : List String) (Bt : List (List String)) : Callee → Prop
  | .plain _ _ args => plainAll C B Bt args
  | .named _ _ args => plainWords C B Bt args
end

/-- The statements of a function. -/
def plainBody (C : String → Called) : BodySrc → Prop
  | .block es _ => plainSeq C ["return"] [] es
  | .returns _ es _ => plainSeq C [] [] es
  | .expr e => plain C [] [] e

/-- A plain function: no current object has the name of an argument or `return`, and arguments have
no conditions. -/
def plainFn (C : String → Called) (f : FnSrc) : Prop :=
  freshCurrents (f.args.map (·.name)) (f.currents.map (·.name)) ∧ (∀ a ∈ f.args, a.lazy = []) ∧
    plainBody C f.body

end Dyon.Plain
