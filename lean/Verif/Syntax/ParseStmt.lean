import Verif.Syntax.Parse

/-!
# C39: the grammar of statements

Models the rules of `assets/syntax.txt` for assignments, objects, blocks, `if`, loops,
`return`, `break` and `continue`, and the construction of the tree from them in
`src/ast/mod.rs`, on top of the grammar of expressions in `Verif.Syntax.Parse`.

`gStmt` is the rule `expr` with these alternatives, in the order of the grammar.  Statements
inside of the arguments of a call, of an array or of an operator are not in this fragment:
there `gExpr` reads.  A line break is a token; it is skipped where the grammar says `?w` and
stands between the statements of a block.
-/

namespace Dyon.Syn

/-- `?w` as far as line breaks are concerned, syntax.txt rule 202. -/
def skipNl : List Tok → List Tok
  | .nl :: ts => skipNl ts
  | ts => ts

/-- `?w "else" w "if"` of rule 44. -/
def afterElseIf : List Tok → Option (List Tok)
  | .kw a :: .kw b :: ts => if a = "else" ∧ b = "if" then some ts else none
  | _ => none

/-- `?w "else"` of rule 44. -/
def afterElse : List Tok → Option (List Tok)
  | .kw a :: ts => if a = "else" then some ts else none
  | _ => none

/-- The words of `short_loops`, rules 80-89; `link_for` is left out. -/
def shortKind (w : String) : Option ForKind :=
  if w = "sum" then some .sum
  else if w = "prod" then some .prod
  else if w = "sum_vec4" then some .sumVec4
  else if w = "prod_vec4" then some .prodVec4
  else if w = "min" then some .min
  else if w = "max" then some .max
  else if w = "sift" then some .sift
  else if w = "any" then some .any
  else if w = "all" then some .all
  else none

/-- The words of `in_loops`, rules 70-77; `link_in` is left out. -/
def inKind (w : String) : Option ForInKind :=
  if w = "sum" then some .sum
  else if w = "prod" then some .prod
  else if w = "min" then some .min
  else if w = "max" then some .max
  else if w = "any" then some .any
  else if w = "all" then some .all
  else if w = "sift" then some .sift
  else none

mutual
/-- `expr`, rule 13. -/
def gStmt : Nat → List Tok → Option (Expr × List Tok)
  | 0, _ => none
  | n + 1, .lc :: ts => gTry (match gObject n ts with
    | some r => some r
    | none => match gBlock n (.lc :: ts) with
      | some (es, ts) => some (.block es, ts)
      | none => none)
  | n + 1, .lb :: ts => gTry (gArr n ts)
  | n + 1, .kw w :: ts => gTry (gKw n w ts)
  | n + 1, ts => match gAssign n ts with
    | some r => gTry (some r)
    | none => gExpr n ts
/-- `object`, rule 16, behind the brace. -/
def gObject : Nat → List Tok → Option (Expr × List Tok)
  | 0, _ => none
  | n + 1, ts => match gKVs n (skipNl ts) with
    | (kvs, ts) => match skipNl ts with
      | .rc :: ts => some (.object kvs, ts)
      | _ => none
/-- `.s?.(, key_value)` of rule 16, with `key_value`, rule 19. -/
def gKVs : Nat → List Tok → List (String × Expr) × List Tok
  | 0, ts => ([], ts)
  | n + 1, .key k :: .colon :: ts => match gStmt n ts with
    | some (e, .comma :: ts) => match gKVs n ts with
      | (kvs, ts) => ((k, e) :: kvs, ts)
    | some (e, ts) => ([(k, e)], ts)
    | none => ([], .key k :: .colon :: ts)
  | _ + 1, ts => ([], ts)
/-- `assign`, rule 48. -/
def gAssign : Nat → List Tok → Option (Expr × List Tok)
  | 0, _ => none
  | n + 1, ts => match gL n ts with
    | some (l, .asg op :: ts) => match gStmt n ts with
      | some (r, ts) => some (.assign op l r, ts)
      | none => none
    | _ => none
/-- `block`, rule 12. -/
def gBlock : Nat → List Tok → Option (List Expr × List Tok)
  | 0, _ => none
  | n + 1, .lc :: ts => match gLines n (skipNl ts) with
    | (es, ts) => match skipNl ts with
      | .rc :: ts => some (es, ts)
      | _ => none
  | _ + 1, _ => none
/-- `.l([?w expr ?w])` of rule 12. -/
def gLines : Nat → List Tok → List Expr × List Tok
  | 0, ts => ([], ts)
  | n + 1, ts => match gStmt n ts with
    | some (e, .nl :: ts) => match gLines n (skipNl ts) with
      | (es, ts) => (e :: es, ts)
    | some (e, ts) => ([e], ts)
    | none => ([], ts)
/-- The alternatives of rule 13 that begin with a word: `for_in`, `for_n` and `for`, rules 40,
39 and 38, `loop`, rule 41, with `Loop::into_expression`, ast/mod.rs:4340-4360, `if`, rule 44,
`break` and `continue`, rules 42 and 43, `return`, and the loops with a result, rules 70-89.
The alternatives `assign`, `compare` and `add`, which come before the last and begin with a
loop as well, are left out: an operator behind a loop is not in this fragment. -/
def gKw : Nat → String → List Tok → Option (Expr × List Tok)
  | 0, _, _ => none
  | n + 1, w, ts =>
    if w = "for" then match gForIn n .forIn ts with
      | some r => some r
      | none => match gForN n .forN ts with
        | some r => some r
        | none => gFor n ts
    else if w = "loop" then match gBlock n ts with
      | some (b, ts) => some (.for_ (.block []) (.const (.bool true none)) (.block []) b none, ts)
      | none => none
    else if w = "if" then gIf n ts
    else if w = "break" then match ts with
      | .label l :: ts => some (.brk (some l), ts)
      | ts => some (.brk none, ts)
    else if w = "continue" then match ts with
      | .label l :: ts => some (.cont (some l), ts)
      | ts => some (.cont none, ts)
    else if w = "return" then gReturn n ts
    else match gShortIn n w ts with
      | some r => some r
      | none => match shortKind w with
        | some k => gForN n k ts
        | none => gExpr n (.kw w :: ts)
/-- `in_loops`, rule 70. -/
def gShortIn : Nat → String → List Tok → Option (Expr × List Tok)
  | 0, _, _ => none
  | n + 1, w, ts => match inKind w with
    | some k => gForIn n k ts
    | none => none
/-- `return` of rule 13, behind the alternatives `assign` and `compare`, for which `return`
is a name like another. -/
def gReturn : Nat → List Tok → Option (Expr × List Tok)
  | 0, _ => none
  | n + 1, ts => match gAssign n (.name "return" :: ts) with
    | some r => some r
    | none => match gCompare n (.name "return" :: ts) with
      | some r => some r
      | none => match gStmt n ts with
        | some (e, ts) => some (.ret e, ts)
        | none => some (.retVoid, ts)
/-- `in_body`, rule 62. -/
def gForIn : Nat → ForInKind → List Tok → Option (Expr × List Tok)
  | 0, _, _ => none
  | n + 1, k, .name x :: .kw w :: ts =>
    if w = "in" then match gStmt n ts with
      | some (it, ts) => match gBlock n ts with
        | some (b, ts) => some (.forIn k x it b none, ts)
        | none => none
      | none => none
    else none
  | _ + 1, _, _ => none
/-- `short_body`, rule 61, with one name.  A loop without an end, for which
`ForN::from_meta_data` looks for a list in the body (C41), is not printed: the printed loop has
the end that was found. -/
def gForN : Nat → ForKind → List Tok → Option (Expr × List Tok)
  | 0, _, _ => none
  | n + 1, k, .name x :: ts => match gRange n ts with
    | some ((start, stop), ts) => match gBlock n ts with
      | some (b, ts) => some (.forN k x start stop b none, ts)
      | none => none
    | none => none
  | _ + 1, _, _ => none
/-- The range of rule 61. -/
def gRange : Nat → List Tok → Option ((Option Expr × Expr) × List Tok)
  | 0, _ => none
  | n + 1, ts => match gPair n ts with
    | some r => some r
    | none => match ts with
      | .lc :: _ => none
      | ts => match gStmt n ts with
        | some (e, ts) => some ((none, e), ts)
        | none => none
/-- `["[" ?w expr:"start" , expr:"end" ?w ")"]` of rule 61. -/
def gPair : Nat → List Tok → Option ((Option Expr × Expr) × List Tok)
  | 0, _ => none
  | n + 1, .lb :: ts => match gStmt n ts with
    | some (a, .comma :: ts) => match gStmt n ts with
      | some (b, .rp :: ts) => some ((some a, b), ts)
      | _ => none
    | _ => none
  | _ + 1, _ => none
/-- `for`, rule 38. -/
def gFor : Nat → List Tok → Option (Expr × List Tok)
  | 0, _ => none
  | n + 1, ts => match gStmt n ts with
    | some (i, .semi :: ts) => match gStmt n ts with
      | some (c, .semi :: ts) => match gStmt n ts with
        | some (s, ts) => match gBlock n ts with
          | some (b, ts) => some (.for_ i c s b none, ts)
          | none => none
        | none => none
      | _ => none
    | _ => none
/-- `if`, rule 44. -/
def gIf : Nat → List Tok → Option (Expr × List Tok)
  | 0, _ => none
  | n + 1, ts => match gStmt n ts with
    | some (c, ts) => match gBlock n ts with
      | some (b, ts) => match gElifs n ts with
        | (elifs, ts) => match gElse n ts with
          | (els, ts) => some (.ite c b elifs els, ts)
      | none => none
    | none => none
/-- The `else if` branches of rule 44. -/
def gElifs : Nat → List Tok → List (Expr × List Expr) × List Tok
  | 0, ts => ([], ts)
  | n + 1, ts => match afterElseIf (skipNl ts) with
    | some us => match gStmt n us with
      | some (c, us) => match gBlock n us with
        | some (b, us) => match gElifs n us with
          | (rest, us) => ((c, b) :: rest, us)
        | none => ([], ts)
      | none => ([], ts)
    | none => ([], ts)
/-- The `else` branch of rule 44. -/
def gElse : Nat → List Tok → Option (List Expr) × List Tok
  | 0, ts => (none, ts)
  | n + 1, ts => match afterElse (skipNl ts) with
    | some us => match gBlock n us with
      | some (b, us) => (some b, us)
      | none => (none, ts)
    | none => (none, ts)
end

end Dyon.Syn
