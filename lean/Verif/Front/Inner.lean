import Verif.Eval.Slots

/-!
# The names declared in an expression
-/

namespace Dyon.Plain

mutual
/-- The names of the variables that statements and loops declare in an expression, at any depth.
What closures and `grab` declare is not seen outside of them. -/
def inner : Expr → List String
  | .link es | .array es | .go _ es | .call _ _ es | .vec4 es | .mat4 es | .block es => innerAll es
  | .object kvs => innerKvs kvs
  | .arrayFill a b => inner a ++ inner b
  | .item it => innerItem it
  | .assign op l r => (declName op l).toList ++ (inner l ++ inner r)
  | .for_ init cond step body _ => inner init ++ (inner cond ++ (inner step ++ innerAll body))
  | .forN _ n start stop body _ => n :: (innerOpt start ++ (inner stop ++ innerAll body))
  | .forIn _ n iter body _ => n :: (inner iter ++ innerAll body)
  | .ite cond thn elifs els => inner cond ++ (innerAll thn ++ (innerElifs elifs ++ innerOptAll els))
  | .ret e | .try_ e | .swizzle _ e | .tryExpr e => inner e
  | .callClosure it args => innerItem it ++ innerAll args
  | .retVoid | .brk _ | .cont _ | .const _ | .in_ _ | .closure .. | .grab .. => []
/-- In expressions. -/
def innerAll : List Expr → List String
  | [] => []
  | e :: es => inner e ++ innerAll es
/-- In the values of an object. -/
def innerKvs : List (String × Expr) → List String
  | [] => []
  | (_, e) :: es => inner e ++ innerKvs es
/-- In `else if` branches. -/
def innerElifs : List (Expr × List Expr) → List String
  | [] => []
  | (c, b) :: es => inner c ++ (innerAll b ++ innerElifs es)
/-- In an `else` branch. -/
def innerOptAll : Option (List Expr) → List String
  | none => []
  | some b => innerAll b
/-- In the start of a range. -/
def innerOpt : Option Expr → List String
  | none => []
  | some e => inner e
/-- In the properties of a variable. -/
def innerItem : Item → List String
  | .mk _ _ _ _ ids _ => innerIds ids
/-- In properties. -/
def innerIds : List Id → List String
  | [] => []
  | .expr e :: r => inner e ++ innerIds r
  | .str _ :: r => innerIds r
  | .num _ :: r => innerIds r
end

mutual
/-- The variables of a list, if the properties behind it are names, numbers and variables:
`a`, `b` and `c` for `a.x[0][b[c]]`. -/
def listVars : Item → Option (List String)
  | .mk n _ _ _ ids _ => (idsVars ids).map (n :: ·)
/-- The variables in properties. -/
def idsVars : List Id → Option (List String)
  | [] => some []
  | .str _ :: r => idsVars r
  | .num _ :: r => idsVars r
  | .expr (.item it) :: r => do some ((← listVars it) ++ (← idsVars r))
  | .expr _ :: _ => none
end

end Dyon.Plain
