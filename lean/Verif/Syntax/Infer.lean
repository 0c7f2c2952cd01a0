import Verif.Eval.Ast

/-!
# C41: the range of a counting loop written without one

Models `src/ast/infer_len.rs` and `ForN::create` of `src/ast/mod.rs`: `for i { .. }` becomes
`for i len(list) { .. }` where `list` is found in the body.
-/

namespace Dyon.Syn

/-- A search: the names declared so far (`decls: &mut Vec<Arc<String>>`) to a result and the
names declared after it. -/
def Inf := List String → Option Item × List String

/-- `let res = a; if res.is_some() { return res }` followed by `b`. -/
def Inf.or (a b : Inf) : Inf := fun d =>
  match a d with
  | (some r, d') => (some r, d')
  | (none, d') => b d'

/-- Nothing found. -/
def Inf.no : Inf := fun d => (none, d)

/-- `let st = decls.len(); let res = f(decls); decls.truncate(st); res`,
infer_len.rs:383-386, 419-422. -/
def Inf.scope (a : Inf) : Inf := fun d => ((a d).1, (a d).2.take d.length)

/-- `decls.push(name)`. -/
def Inf.push (n : String) (a : Inf) : Inf := fun d => a (d ++ [n])

/-- `Item::trunc`, ast/mod.rs:2354-2374. -/
def truncItem : Item → Nat → Item
  | .mk n _ cur t ids tids, k => .mk n none cur t (ids.take k) (tids.takeWhile (· < k))

/-- The name of an item, `if let Expression::Item(ref id) = *expr`. -/
def varOf : Expr → Option String
  | .item it => some it.name
  | _ => none

/-- `if let Expression::Assign(..) = *expr`. -/
def isAssign : Expr → Bool
  | .assign .. => true
  | _ => false

/-- `item.ids.is_empty() && assign_expr.op == AssignOp::Assign`. -/
def isDecl (op : AssignOp) : Expr → Bool
  | .item it => it.ids.isEmpty && op == .assign
  | _ => false

mutual
/-- `infer_expr`, infer_len.rs:25-294. The calls `get_locals` makes later do not exist yet. -/
def inferE (name : String) : Expr → Inf
  | .link items => inferAll name items
  | .item it => inferItem name it
  | .assign _ l r => .or (inferE name l) (inferE name r)
  | .object kvs => inferKVs name kvs
  | .array items => inferAll name items
  | .arrayFill fill n => .or (inferE name fill) (inferE name n)
  | .ret e => inferE name e
  | .retVoid | .brk _ | .cont _ => .no
  | .block es => .scope (inferBlock name es)
  | .go _ args => inferAll name args
  | .call _ _ args => inferAll name args
  | .vec4 args => inferAll name args
  | .mat4 args => inferAll name args
  | .for_ init cond step body _ =>
    .or (inferE name init) (.or (inferE name cond) (.or (inferE name step) (.scope (inferBlock name body))))
  | .forN _ n start stop body _ =>
    if n = name then .no
    else .push n (.scope (.or (inferOpt name start) (.or (inferE name stop) (.scope (inferBlock name body)))))
  | .forIn _ _ iter _ _ => inferE name iter
  | .ite cond thn elifs els =>
    .or (inferE name cond) (.or (.scope (inferBlock name thn)) (.or (inferElifs name elifs) (inferOptBlock name els)))
  | .const _ => .no
  | .try_ e => inferE name e
  | .swizzle _ e => inferE name e
  | .closure .. => .no
  | .callClosure it args => .or (inferItem name it) (inferAll name args)
  | .grab .. => .no
  | .tryExpr e => inferE name e
  | .in_ _ => .no
/-- The loops over parts, infer_len.rs:30-35, 331-339. -/
def inferAll (name : String) : List Expr → Inf
  | [] => .no
  | e :: es => .or (inferE name e) (inferAll name es)
/-- infer_len.rs:54-59. -/
def inferKVs (name : String) : List (String × Expr) → Inf
  | [] => .no
  | (_, e) :: es => .or (inferE name e) (inferKVs name es)
/-- `infer_item`, infer_len.rs:296-329. -/
def inferItem (name : String) : Item → Inf
  | .mk n sid cur t ids tids => inferIds name (.mk n sid cur t ids tids) 0 ids
/-- The loop of `infer_item` from the property number `k` on, infer_len.rs:300-327. -/
def inferIds (name : String) (it : Item) (k : Nat) : List Id → Inf
  | [] => .no
  | .str _ :: r => inferIds name it (k + 1) r
  | .num _ :: r => inferIds name it (k + 1) r
  | .expr e :: r => fun d =>
    match varOf e with
    | some j =>
      if j = name then (some (truncItem it k), d)
      else if j ∈ d then (none, d)
      else Inf.or (inferE name e) (inferIds name it (k + 1) r) d
    | none => inferE name e d
/-- `infer_block` without the truncation, infer_len.rs:389-423. -/
def inferBlock (name : String) : List Expr → Inf
  | [] => .no
  | e :: es => if isAssign e then inferAssign name (inferBlock name es) e else .or (inferE name e) (inferBlock name es)
/-- An assignment among the statements, `rest` being the search of those after it,
infer_len.rs:391-416. -/
def inferAssign (name : String) (rest : Inf) : Expr → Inf
  | .assign op l r =>
    .or (inferE name r) fun d =>
      match varOf l with
      | some n =>
        if n = name then (none, d)
        else if isDecl op l then Inf.push n (.or (inferE name l) rest) d
        else Inf.or (inferE name l) rest d
      | none => Inf.or (inferE name l) rest d
  | _ => .no
/-- infer_len.rs:243-256. -/
def inferElifs (name : String) : List (Expr × List Expr) → Inf
  | [] => .no
  | (c, b) :: es => .or (inferE name c) (.or (.scope (inferBlock name b)) (inferElifs name es))
/-- infer_len.rs:257-262. -/
def inferOptBlock (name : String) : Option (List Expr) → Inf
  | none => .no
  | some b => .scope (inferBlock name b)
/-- infer_len.rs:367-372. -/
def inferOpt (name : String) : Option Expr → Inf
  | none => .no
  | some e => inferE name e
end

/-- `infer`, infer_len.rs:6-23. -/
def infer (body : List Expr) (name : String) : Option Expr :=
  (Inf.scope (inferBlock name body) []).1.map fun it => .call .none "len" [.item it]

/-- `ForN::create`, ast/mod.rs:4204-4265: `for i, j { .. }` is a loop inside a loop; an error
is `none`. -/
def createForN (k : ForKind) (label : Option String) :
    List (String × Option Expr × Option Expr) → List Expr → Option Expr
  | [], _ => none
  | [(n, start, stop)], body =>
    (stop.or (infer body n)).map fun stop => .forN k n start stop body label
  | (n, start, stop) :: rest, body => do
    let inner ← createForN k none rest body
    let stop ← stop.or (infer [inner] n)
    pure (.forN k n start stop [inner] label)

end Dyon.Syn
