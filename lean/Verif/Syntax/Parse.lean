import Verif.Syntax.Print

/-!
# C39: the grammar of expressions

Models the rules of `assets/syntax.txt` for constants, variables, calls, closure calls,
vectors, arrays, `grab`, `try`, `?` and operators, and the construction of the tree from
them in `src/ast/mod.rs`, as a recursive descent parser over tokens.  A rule with
alternatives takes the first that succeeds and does not come back (`Select` of
`piston_meta`); the interpretation of the rules is `piston_meta`'s and is trusted.

Of the alternatives of `expr` and `arg_expr` (syntax.txt:45-84) the ones of this fragment
are `arr`, `compare` and `add`, in this order; of `lexpr` (85-93) `arr` and `items`.
The first argument is fuel; it only has to be large enough.
-/

namespace Dyon.Syn

/-- What `Vec4::from_meta_data` puts in for a missing component, ast/mod.rs:3598-3606. -/
def zeroConst : Expr := .const (.f64 F64.zero none)

/-- `try`, syntax.txt rule 63: the optional `?` behind an expression. -/
def gTry : Option (Expr × List Tok) → Option (Expr × List Tok)
  | some (e, .quest :: ts) => some (.try_ e, ts)
  | r => r

mutual
/-- `expr`, rule 13, and `arg_expr`, rule 14. -/
def gExpr : Nat → List Tok → Option (Expr × List Tok)
  | 0, _ => none
  | n + 1, .lb :: ts => gTry (gArr n ts)
  | n + 1, ts => gTry (match gCompare n ts with
    | some r => some r
    | none => gAdd n ts)
/-- `compare`, rule 50. -/
def gCompare : Nat → List Tok → Option (Expr × List Tok)
  | 0, _ => none
  | n + 1, ts => match gL n ts with
    | some (l, .bin op :: ts) => if precedence op = 0 then
        match gExpr n ts with
        | some (r, ts) => some (binCall op l r, ts)
        | none => none
      else none
    | _ => none
/-- `add`, rule 208; the tree is built as by `BinOpSeq::into_expression` (C38). -/
def gAdd : Nat → List Tok → Option (Expr × List Tok)
  | 0, _ => none
  | n + 1, ts => match gMul n ts with
    | some (l, ts) => gAddRest n l ts
    | none => none
/-- The rest of the list of rule 208. -/
def gAddRest : Nat → Expr → List Tok → Option (Expr × List Tok)
  | 0, _, _ => none
  | n + 1, l, .bin op :: ts => if precedence op = 1 then
      match gMul n ts with
      | some (r, ts) => gAddRest n (binCall op l r) ts
      | none => none
    else some (l, .bin op :: ts)
  | _ + 1, l, ts => some (l, ts)
/-- `mul`, rule 206. -/
def gMul : Nat → List Tok → Option (Expr × List Tok)
  | 0, _ => none
  | n + 1, ts => match gFactor n ts with
    | some (l, ts) => gMulRest n l ts
    | none => none
/-- The rest of the list of rule 206. -/
def gMulRest : Nat → Expr → List Tok → Option (Expr × List Tok)
  | 0, _, _ => none
  | n + 1, l, .bin op :: ts => if precedence op = 2 then
      match gFactor n ts with
      | some (r, ts) => gMulRest n (binCall op l r) ts
      | none => none
    else some (l, .bin op :: ts)
  | _ + 1, l, ts => some (l, ts)
/-- `{unop_neg:"neg" pow:"pow" lexpr:"expr"}` of rule 206, with `unop_neg`, rule 29, and
`pow`, rule 205. -/
def gFactor : Nat → List Tok → Option (Expr × List Tok)
  | 0, _ => none
  | n + 1, .bin .sub :: ts => match gMul n ts with
    | some (e, ts) => some (.call .none "neg" [e], ts)
    | none => none
  | n + 1, ts => match gL n ts with
    | some (l, .bin .pow :: ts') => match gL n ts' with
      | some (r, ts) => some (binCall .pow l r, ts)
      | none => some (l, .bin .pow :: ts')
    | r => r
/-- `lexpr`, rule 15. -/
def gL : Nat → List Tok → Option (Expr × List Tok)
  | 0, _ => none
  | n + 1, .lb :: ts => gTry (gArr n ts)
  | n + 1, ts => gTry (gItems n ts)
/-- `array`, rule 17, behind the bracket.  `array_fill`, rule 18, which is tried when it
fails, has a semicolon, which this fragment does not. -/
def gArr : Nat → List Tok → Option (Expr × List Tok)
  | 0, _ => none
  | n + 1, ts => match gSep n ts with
    | some (es, .rb :: ts) => some (.array es, ts)
    | _ => none
/-- `.s?.(, expr)`: expressions with commas between them, also one at the end. -/
def gSep : Nat → List Tok → Option (List Expr × List Tok)
  | 0, _ => none
  | n + 1, ts => match gExpr n ts with
    | none => some ([], ts)
    | some (e, .comma :: ts) => match gSep n ts with
      | some (es, ts) => some (e :: es, ts)
      | none => none
    | some (e, ts) => some ([e], ts)
/-- `items`, rule 66: `vec4`, rule 21, a parenthesis, `grab`, rule 52, `try_expr`, rule 53,
`unop_not`, rule 28, `norm`, rule 30, `call_closure`, rule 8, `call`, rule 45, constants and
`item`. -/
def gItems : Nat → List Tok → Option (Expr × List Tok)
  | 0, _ => none
  | n + 1, .lp :: ts => match gVec n ts with
    | some r => some r
    | none => match gExpr n ts with
      | some (e, .rp :: ts) => some (e, ts)
      | _ => none
  | n + 1, .kw "grab" :: .level l :: ts => match gExpr n ts with
    | some (e, ts) => some (.grab l e, ts)
    | none => none
  | n + 1, .kw "grab" :: ts => match gExpr n ts with
    | some (e, ts) => some (.grab 1 e, ts)
    | none => none
  | n + 1, .kw "try" :: ts => match gExpr n ts with
    | some (e, ts) => some (.tryExpr e, ts)
    | none => none
  | n + 1, .bang :: ts => match gL n ts with
    | some (e, ts) => some (.call .none "not" [e], ts)
    | none => none
  | n + 1, .bar :: ts => match gExpr n ts with
    | some (e, .bar :: ts) => some (.call .none "norm" [e], ts)
    | _ => none
  | n + 1, .backslash :: ts => match gItem n ts with
    | some (it, .lp :: ts) => match gSep n ts with
      | some (es, .rp :: ts) => some (.callClosure it es, ts)
      | _ => none
    | _ => none
  | n + 1, .name f :: .lp :: ts => match gSep n ts with
    | some (es, .rp :: ts) => some (.call .none f es, ts)
    | _ => none
  | _ + 1, .lit v :: ts => some (.const v, ts)
  | n + 1, ts => match gItem n ts with
    | some (it, ts) => some (.item it, ts)
    | none => none
/-- `vec4`, rule 21, behind the parenthesis. -/
def gVec : Nat → List Tok → Option (Expr × List Tok)
  | 0, _ => none
  | n + 1, ts => match gExpr n ts with
    | some (x, .comma :: ts) => match gSep n ts with
      | some (ys, .rp :: ts) =>
        if ys.length ≤ 3 then some (.vec4 (x :: ys ++ List.replicate (3 - ys.length) zeroConst), ts)
        else none
      | _ => none
    | _ => none
/-- `item`, rule 31, and `Item::from_meta_data`, ast/mod.rs:2378-2447. -/
def gItem : Nat → List Tok → Option (Item × List Tok)
  | 0, _ => none
  | n + 1, .tilde :: .name x :: .quest :: ts => match gIds n 0 ts with
    | (ids, tr, ts) => some (.mk x none true true ids tr, ts)
  | n + 1, .tilde :: .name x :: ts => match gIds n 0 ts with
    | (ids, tr, ts) => some (.mk x none true false ids tr, ts)
  | n + 1, .name x :: .quest :: ts => match gIds n 0 ts with
    | (ids, tr, ts) => some (.mk x none false true ids tr, ts)
  | n + 1, .name x :: ts => match gIds n 0 ts with
    | (ids, tr, ts) => some (.mk x none false false ids tr, ts)
  | _ + 1, _ => none
/-- `item_extra`, rule 32: the ids and the positions of the ones with `?`. -/
def gIds : Nat → Nat → List Tok → List Id × List Nat × List Tok
  | 0, _, ts => ([], [], ts)
  | n + 1, i, ts => match gId n ts with
    | some (d, .quest :: ts) => match gIds n (i + 1) ts with
      | (ds, tr, ts) => (d :: ds, i :: tr, ts)
    | some (d, ts) => match gIds n (i + 1) ts with
      | (ds, tr, ts) => (d :: ds, tr, ts)
    | none => ([], [], ts)
/-- One step of rule 32; a bracket with a string or a number must close behind it. -/
def gId : Nat → List Tok → Option (Id × List Tok)
  | 0, _ => none
  | _ + 1, .dot :: .name s :: ts => some (.str s, ts)
  | _ + 1, .lb :: .lit (.str s) :: ts => match ts with
    | .rb :: ts => some (.str s, ts)
    | _ => none
  | _ + 1, .lb :: .lit (.f64 x none) :: ts => match ts with
    | .rb :: ts => some (.num x, ts)
    | _ => none
  | n + 1, .lb :: ts => match gExpr n ts with
    | some (e, .rb :: ts) => some (.expr e, ts)
    | _ => none
  | _ + 1, _ => none
end

end Dyon.Syn
