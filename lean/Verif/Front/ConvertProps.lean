import Verif.Front.ConvertLemmas

/-!
# C68: the conversion gives the program that is written
-/

namespace Dyon.Front

open Syn (BinOp)

variable [FloatOps] [Data.Lex]

/-- **C68.** For every expression that is written with the rules of the grammar, the conversion of
what the grammar reports gives the program that is meant: names, arguments, grouping from the left
to the right, properties, loops and branches in order.  It fails, without a crash, exactly if no
program is meant: a colour is not one, or the range of a loop is not to be found. -/
theorem C68_expression (file : String) (s : Src) :
    toExpr file s.tree = match Spec.expr file s with
      | some e => .ok e
      | none => .error .err := by
  have h := (src_ok file s).toExpr
  rw [h]
  cases Spec.expr file s <;> rfl

/-- **C68.** For every list of functions the conversion gives the functions that are meant, in
order. -/
theorem C68_functions (file : String) (fs : List FnSrc) :
    toFns file (fs.map FnSrc.tree) = match fs.mapM (Spec.fn file) with
      | some gs => .ok gs
      | none => .error .err := by
  rw [fns_conv]
  cases fs.mapM (Spec.fn file) <;> rfl

/-- **C68.** The conversion does not crash. -/
theorem C68_no_panic (file : String) (fs : List FnSrc) :
    toFns file (fs.map FnSrc.tree) ≠ .error .panic := by
  rw [C68_functions]
  cases fs.mapM (Spec.fn file) <;> simp

/-! ## Which text converts -/

namespace Spec

mutual
/-- Colours are colours and counting loops say where they end. -/
def fine : Src → Prop
  | .in_ _ _ | .brk _ | .cont _ | .retVoid | .text _ | .num _ | .bool _ => True
  | .closure _ _ e | .ret e | .grab _ e | .tryExpr e | .paren e | .not e | .norm e | .unloop _ _ e | .try_ e
  | .swizzle _ _ _ _ e => fine e
  | .object kvs => finePairs kvs
  | .array es | .block es | .link es | .loop _ es => fines es
  | .arrayFill a b | .assign a _ b | .compare a _ b => fine a ∧ fine b
  | .forIn _ _ _ i b => fine i ∧ fines b
  | .forN _ _ vs b => vs ≠ [] ∧ fineVars vs ∧ fines b
  | .for_ _ i c s b => fine i ∧ fine c ∧ fine s ∧ fines b
  | .ite c t ei e => fine c ∧ fines t ∧ fineElifs ei ∧ fineElse e
  | .add f r => fineProd f ∧ fineAdd r
  | .mat4 x y z w | .vec4 x y z w => fine x ∧ fineOpt y ∧ fineOpt z ∧ fineOpt w
  | .color s => (Data.Lex.rgba s.toList).isSome
  | .go c | .call c => fineCallee c
  | .callClosure it args => fineItem it ∧ fines args
  | .namedCallClosure it args => fineItem it ∧ finePairs args
  | .item it | .mutItem it => fineItem it
/-- All of them. -/
def fines : List Src → Prop
  | [] => True
  | e :: es => fine e ∧ fines es
/-- All values. -/
def finePairs : List (String × Src) → Prop
  | [] => True
  | (_, e) :: es => fine e ∧ finePairs es
/-- All loop variables. -/
def fineVars : List Var → Prop
  | [] => True
  | v :: vs => fineVar v ∧ fineVars vs
/-- The end is written. -/
def fineVar : Var → Prop
  | .plain _ => False
  | .upto _ b => fine b
  | .range _ a b => fine a ∧ fine b
/-- All `else if`. -/
def fineElifs : List (Src × List Src) → Prop
  | [] => True
  | (c, b) :: r => fine c ∧ fines b ∧ fineElifs r
/-- `else`. -/
def fineElse : Option (List Src) → Prop
  | none => True
  | some b => fines b
/-- If it is there. -/
def fineOpt : Option Src → Prop
  | none => True
  | some b => fine b
/-- All summands. -/
def fineAdd : List (BinOp × Prod') → Prop
  | [] => True
  | (_, p) :: r => fineProd p ∧ fineAdd r
/-- All factors. -/
def fineProd : Prod' → Prop
  | .mk f r => fineOpd f ∧ fineMul r
/-- All factors. -/
def fineMul : List (BinOp × Opd) → Prop
  | [] => True
  | (_, o) :: r => fineOpd o ∧ fineMul r
/-- A factor. -/
def fineOpd : Opd → Prop
  | .neg p => fineProd p
  | .pow a b => fine a ∧ fine b
  | .plain e => fine e
/-- All properties. -/
def fineItem : ItemSrc → Prop
  | .mk _ _ _ is => fineIds is
/-- All properties. -/
def fineIds : List IdSrc → Prop
  | [] => True
  | i :: r => fineId i ∧ fineIds r
/-- A property. -/
def fineId : IdSrc → Prop
  | .str _ _ | .num _ _ => True
  | .expr e _ => fine e
/-- All arguments. -/
def fineCallee : Callee → Prop
  | .plain _ _ args => fines args
  | .named _ _ args => finePairs args
end

end Spec

open Spec in
theorem createForN_some (k : ForKind) (body : List Expr) : ∀ (label : Option String)
    (ws : List (String × Option Expr × Option Expr)), ws ≠ [] → (∀ w ∈ ws, ∃ e, w.2.2 = some e) →
    ∃ e, Syn.createForN k label ws body = some e
  | _, [], h, _ => absurd rfl h
  | label, [(n, a, b)], _, h => by
    obtain ⟨e, he⟩ := h (n, a, b) (by simp)
    simp only at he
    simp [Syn.createForN, he]
  | label, (n, a, b) :: w :: ws, _, h => by
    obtain ⟨e, he⟩ := h (n, a, b) (by simp)
    obtain ⟨f, hf⟩ := createForN_some k body none (w :: ws) (by simp) fun x hx => h x (by simp [hx])
    simp only at he
    simp [Syn.createForN, hf, he]

section
open Spec
mutual
theorem fine_src (file : String) : ∀ s : Src, fine s → ∃ e, Spec.expr file s = some e
  | .in_ _ _, _ | .brk _, _ | .cont _, _ | .retVoid, _ | .text _, _ | .num _, _ | .bool _, _ => by simp [Spec.expr]
  | .closure _ _ e, h | .ret e, h | .grab _ e, h | .tryExpr e, h | .paren e, h | .not e, h | .norm e, h
  | .unloop _ _ e, h | .try_ e, h | .swizzle _ _ _ _ e, h => by
    obtain ⟨v, hv⟩ := fine_src file e (by simpa [fine] using h)
    simp [Spec.expr, hv]
  | .object kvs, h => by
    obtain ⟨v, hv⟩ := fine_pairs file kvs (by simpa [fine] using h)
    simp [Spec.expr, hv]
  | .array es, h | .block es, h | .link es, h | .loop _ es, h => by
    obtain ⟨v, hv⟩ := fine_list file es (by simpa [fine] using h)
    simp [Spec.expr, hv]
  | .arrayFill a b, h | .assign a _ b, h | .compare a _ b, h => by
    simp only [fine] at h
    obtain ⟨v, hv⟩ := fine_src file a h.1
    obtain ⟨w, hw⟩ := fine_src file b h.2
    simp [Spec.expr, hv, hw]
  | .forIn _ _ _ i b, h => by
    simp only [fine] at h
    obtain ⟨v, hv⟩ := fine_src file i h.1
    obtain ⟨w, hw⟩ := fine_list file b h.2
    simp [Spec.expr, hv, hw]
  | .forN k label vs b, h => by
    simp only [fine] at h
    obtain ⟨ws, hv, hn, he⟩ := fine_vars file vs h.2.1
    obtain ⟨w, hw⟩ := fine_list file b h.2.2
    obtain ⟨e, h'⟩ := createForN_some k w label ws (hn h.1) he
    simp [Spec.expr, hv, hw, h']
  | .for_ _ i c s b, h => by
    simp only [fine] at h
    obtain ⟨v, hv⟩ := fine_src file i h.1
    obtain ⟨u, hu⟩ := fine_src file c h.2.1
    obtain ⟨x, hx⟩ := fine_src file s h.2.2.1
    obtain ⟨w, hw⟩ := fine_list file b h.2.2.2
    simp [Spec.expr, hv, hw, hu, hx]
  | .ite c t ei e, h => by
    simp only [fine] at h
    obtain ⟨v, hv⟩ := fine_src file c h.1
    obtain ⟨u, hu⟩ := fine_list file t h.2.1
    obtain ⟨x, hx⟩ := fine_elifs file ei h.2.2.1
    obtain ⟨w, hw⟩ := fine_else file e h.2.2.2
    simp [Spec.expr, hv, hw, hu, hx]
  | .add f r, h => by
    simp only [fine] at h
    obtain ⟨v, hv⟩ := fine_prod file f h.1
    obtain ⟨u, hu⟩ := fine_add file r h.2 v
    simp [Spec.expr, hv, hu]
  | .mat4 x y z w, h | .vec4 x y z w, h => by
    simp only [fine] at h
    obtain ⟨x', hx⟩ := fine_src file x h.1
    simp only [Spec.expr, hx]
    rcases fine_opt file y h.2.1 with ⟨y', hy⟩
    rcases fine_opt file z h.2.2.1 with ⟨z', hz⟩
    rcases fine_opt file w h.2.2.2 with ⟨w', hw⟩
    simp [hy, hz, hw]
  | .color s, h => by
    simp only [fine, Option.isSome_iff_exists] at h
    obtain ⟨v, hv⟩ := h
    simp [Spec.expr, hv]
  | .go c, h | .call c, h => by
    simp only [fine] at h
    obtain ⟨v, hv⟩ := fine_callee file c h
    simp [Spec.expr, hv]
  | .callClosure it args, h => by
    simp only [fine] at h
    obtain ⟨v, hv⟩ := fine_item file it h.1
    obtain ⟨u, hu⟩ := fine_list file args h.2
    simp [Spec.expr, hv, hu]
  | .namedCallClosure it args, h => by
    simp only [fine] at h
    obtain ⟨v, hv⟩ := fine_item file it h.1
    obtain ⟨u, hu⟩ := fine_worded file args h.2
    simp [Spec.expr, hv, hu]
  | .item it, h | .mutItem it, h => by
    simp only [fine] at h
    obtain ⟨v, hv⟩ := fine_item file it h
    simp [Spec.expr, hv]
theorem fine_list (file : String) : ∀ es : List Src, fines es → ∃ vs, Spec.exprs file es = some vs
  | [], _ => by simp [Spec.exprs]
  | e :: es, h => by
    obtain ⟨v, hv⟩ := fine_src file e h.1
    obtain ⟨u, hu⟩ := fine_list file es h.2
    simp [Spec.exprs, hv, hu]
theorem fine_pairs (file : String) : ∀ es : List (String × Src), finePairs es → ∃ vs, Spec.pairs file es = some vs
  | [], _ => by simp [Spec.pairs]
  | (_, e) :: es, h => by
    obtain ⟨v, hv⟩ := fine_src file e h.1
    obtain ⟨u, hu⟩ := fine_pairs file es h.2
    simp [Spec.pairs, hv, hu]
theorem fine_worded (file : String) : ∀ es : List (String × Src), finePairs es → ∃ vs, Spec.worded file es = some vs
  | [], _ => by simp [Spec.worded]
  | (_, e) :: es, h => by
    obtain ⟨v, hv⟩ := fine_src file e h.1
    obtain ⟨u, hu⟩ := fine_worded file es h.2
    simp [Spec.worded, hv, hu]
theorem fine_vars (file : String) : ∀ vs : List Var, fineVars vs → ∃ ws, Spec.vars file vs = some ws ∧
    (vs ≠ [] → ws ≠ []) ∧ ∀ w ∈ ws, ∃ e, w.2.2 = some e
  | [], _ => ⟨[], by simp [Spec.vars]⟩
  | v :: vs, h => by
    obtain ⟨w, hw, he⟩ := fine_var file v h.1
    obtain ⟨u, hu, _, hr⟩ := fine_vars file vs h.2
    refine ⟨w :: u, by simp [Spec.vars, hw, hu], by simp, fun x hx => ?_⟩
    rcases List.mem_cons.mp hx with rfl | hx
    · exact he
    · exact hr x hx
theorem fine_var (file : String) : ∀ v : Var, fineVar v → ∃ w, Spec.var file v = some w ∧ ∃ e, w.2.2 = some e
  | .plain _, h => h.elim
  | .upto n b, h => by
    obtain ⟨v, hv⟩ := fine_src file b h
    exact ⟨_, by simp only [Spec.var, hv]; rfl, v, rfl⟩
  | .range n a b, h => by
    obtain ⟨u, hu⟩ := fine_src file a h.1
    obtain ⟨v, hv⟩ := fine_src file b h.2
    exact ⟨_, by simp only [Spec.var, hu, hv]; rfl, v, rfl⟩
theorem fine_elifs (file : String) : ∀ es : List (Src × List Src), fineElifs es → ∃ vs, Spec.elseIfs file es = some vs
  | [], _ => by simp [Spec.elseIfs]
  | (c, b) :: es, h => by
    obtain ⟨v, hv⟩ := fine_src file c h.1
    obtain ⟨w, hw⟩ := fine_list file b h.2.1
    obtain ⟨u, hu⟩ := fine_elifs file es h.2.2
    simp [Spec.elseIfs, hv, hu, hw]
theorem fine_else (file : String) : ∀ e : Option (List Src), fineElse e → ∃ vs, Spec.otherwise file e = some vs
  | none, _ => by simp [Spec.otherwise]
  | some b, h => by
    obtain ⟨v, hv⟩ := fine_list file b h
    simp [Spec.otherwise, hv]
theorem fine_opt (file : String) : ∀ e : Option Src, fineOpt e → ∃ f : Expr → Expr, ∀ d, Spec.orElse file d e = some (f d)
  | none, _ => ⟨id, by simp [Spec.orElse]⟩
  | some b, h => by
    obtain ⟨v, hv⟩ := fine_src file b h
    exact ⟨fun _ => v, by simp [Spec.orElse, hv]⟩
theorem fine_add (file : String) : ∀ r : List (BinOp × Prod'), fineAdd r → ∀ l, ∃ e, Spec.addRest file l r = some e
  | [], _, l => by simp [Spec.addRest]
  | (_, p) :: r, h, l => by
    obtain ⟨v, hv⟩ := fine_prod file p h.1
    simpa [Spec.addRest, hv] using fine_add file r h.2 _
theorem fine_prod (file : String) : ∀ p : Prod', fineProd p → ∃ e, Spec.product file p = some e
  | .mk f r, h => by
    obtain ⟨v, hv⟩ := fine_opd file f h.1
    obtain ⟨u, hu⟩ := fine_mul file r h.2 v
    simp [Spec.product, hv, hu]
theorem fine_mul (file : String) : ∀ r : List (BinOp × Opd), fineMul r → ∀ l, ∃ e, Spec.mulRest file l r = some e
  | [], _, l => by simp [Spec.mulRest]
  | (_, p) :: r, h, l => by
    obtain ⟨v, hv⟩ := fine_opd file p h.1
    simpa [Spec.mulRest, hv] using fine_mul file r h.2 _
theorem fine_opd (file : String) : ∀ o : Opd, fineOpd o → ∃ e, Spec.operand file o = some e
  | .neg p, h => by
    obtain ⟨v, hv⟩ := fine_prod file p h
    simp [Spec.operand, hv]
  | .pow a b, h => by
    obtain ⟨v, hv⟩ := fine_src file a h.1
    obtain ⟨u, hu⟩ := fine_src file b h.2
    simp [Spec.operand, hv, hu]
  | .plain e, h => by
    obtain ⟨v, hv⟩ := fine_src file e h
    simp [Spec.operand, hv]
theorem fine_item (file : String) : ∀ it : ItemSrc, fineItem it → ∃ e, Spec.item file it = some e
  | .mk _ _ _ is, h => by
    obtain ⟨v, hv⟩ := fine_ids file is h
    simp [Spec.item, hv]
theorem fine_ids (file : String) : ∀ is : List IdSrc, fineIds is → ∃ e, Spec.ids file is = some e
  | [], _ => by simp [Spec.ids]
  | i :: is, h => by
    obtain ⟨v, hv⟩ := fine_id file i h.1
    obtain ⟨u, hu⟩ := fine_ids file is h.2
    simp [Spec.ids, hv, hu]
theorem fine_id (file : String) : ∀ i : IdSrc, fineId i → ∃ e, Spec.id' file i = some e
  | .str _ _, _ | .num _ _, _ => by simp [Spec.id']
  | .expr e _, h => by
    obtain ⟨v, hv⟩ := fine_src file e h
    simp [Spec.id', hv]
theorem fine_callee (file : String) : ∀ c : Callee, fineCallee c → ∃ e, Spec.callee file c = some e
  | .plain _ _ args, h => by
    obtain ⟨v, hv⟩ := fine_list file args h
    simp [Spec.callee, hv]
  | .named _ _ args, h => by
    obtain ⟨v, hv⟩ := fine_worded file args h
    simp [Spec.callee, hv]
end
end

/-- **C68.** Every expression in which the colours are colours and the counting loops say where
they end converts. -/
theorem C68_total (file : String) (s : Src) (h : Spec.fine s) : ∃ e, toExpr file s.tree = .ok e := by
  obtain ⟨e, he⟩ := fine_src file s h
  exact ⟨e, by rw [C68_expression, he]⟩

/-- **C68.** Parentheses do not change the program. -/
theorem C68_paren (file : String) (s : Src) : toExpr file (Src.paren s).tree = toExpr file s.tree := rfl

/-- **C68.** `f(mut x, y)` is a call of the function that is declared with `mut` at the first
argument: call and declaration with as many arguments get the same name exactly if `mut` is at the
same arguments. -/
theorem C68_mut_names (file n : String) (args : List Src) (params : List FnArg) (cur : List Cur) (b : BodySrc)
    (name : String) (es : List Expr) (g : Func)
    (hc : toExpr file (Src.call (.plain none n args)).tree = .ok (.call .none name es))
    (hf : toFns file [FnSrc.tree ⟨n, params, cur, b⟩] = .ok [g]) (hl : args.length = params.length) :
    name = g.name ↔ args.map Spec.isMut = params.map (·.mutable) := by
  have h1 : name = Spec.nameWith n (args.map Spec.isMut) := by
    rw [C68_expression] at hc
    simp only [Spec.expr, Spec.callee, Spec.app, Spec.inside] at hc
    cases h : Spec.exprs file args <;> simp [h] at hc
    exact hc.1.symm
  have h2 : g.name = Spec.nameWith n (params.map (·.mutable)) := by
    have hf' := C68_functions file [⟨n, params, cur, b⟩]
    rw [List.map_singleton, hf] at hf'
    cases h : Spec.fn file ⟨n, params, cur, b⟩ with
    | none => simp [h] at hf'
    | some g' =>
      simp only [List.mapM_cons, List.mapM_nil, h, Option.bind_eq_bind, Option.bind_some, Option.pure_def,
        Except.ok.injEq, List.cons.injEq, and_true] at hf'
      subst hf'
      simp only [Spec.fn, Option.bind_eq_bind] at h
      cases h3 : params.mapM fun a => a.lazy.mapM (Spec.lazy file) with
      | none => simp [h3] at h
      | some vs =>
        cases h4 : Spec.body file b with
        | none => simp [h3, h4] at h
        | some v =>
          simp only [h3, h4, Option.bind_some, Option.some.injEq] at h
          rw [← h]
  rw [h1, h2, nameWith_inj (by simpa using hl)]

/-! ## Examples -/

section Demo

/-- A variable. -/
def var (n : String) : Src := .item (.mk false n false [])
/-- A factor that is a variable. -/
def fac (n : String) : Opd := .plain (var n)
/-- A factor that is a variable, as it is in the program. -/
def v (n : String) : Expr := .item (.mk n none false false [] [])

/-- `a - b * c^d - (e + f)` -/
def sumSrc : Src := .add (.mk (fac "a") []) [(.sub, .mk (fac "b") [(.mul, .pow (var "c") (var "d"))]),
  (.sub, .mk (.plain (.paren (.add (.mk (fac "e") []) [(.add, .mk (fac "f") [])]))) [])]

/-- The operators are grouped as in arithmetic. -/
example (file : String) : toExpr file sumSrc.tree =
    .ok (.call .none "sub" [.call .none "sub" [v "a", .call .none "mul" [v "b", .call .none "pow" [v "c", v "d"]]],
      .call .none "add" [v "e", v "f"]]) := by
  rw [C68_expression]
  rfl

/-- `fn f(mut a: 'b [], b => some(_)) ~ c -> { if a[b].x? { return a } else { print(mut a) } }` -/
def fnSrc : FnSrc where
  name := "f"
  args := [{ mutable := true, name := "a", lifetime := some "b", ty := some .arr }, { name := "b", lazy := [.some] }]
  currents := [{ name := "c" }]
  body := .returns none [.ite (.item (.mk false "a" false [.expr (var "b") false, .str "x" true])) [.ret (var "a")] []
    (some [.call (.plain none "print" [.mutItem (.mk false "a" false [])])])] []

example (file : String) : toFns file [fnSrc.tree] = .ok [{
    name := "f(mut,_)", file := file, args := ["a", "b"], lazyInv := [[], [.unwrapSome]], currents := ["c"], returns := true
    body := [.ite (.item (.mk "a" none false false [.expr (v "b"), .str "x"] [1])) [.ret (v "a")] []
      (some [.call .none "print(mut)" [v "a"]])] }] := by
  have h := C68_functions file [fnSrc]
  rw [List.map_singleton] at h
  rw [h]
  have h' : [fnSrc].mapM (Spec.fn file) = some [{
    name := Spec.nameWith "f" [true, false], file := file, args := ["a", "b"], lazyInv := [[], [.unwrapSome]],
    currents := ["c"], returns := true
    body := [.ite (.item (.mk "a" none false false [.expr (v "b"), .str "x"] [1])) [.ret (v "a")] []
      (some [.call .none (Spec.nameWith "print" [true]) [v "a"]])] }] := rfl
  have e1 : Spec.nameWith "f" [true, false] = "f(mut,_)" := by decide +kernel
  have e2 : Spec.nameWith "print" [true] = "print(mut)" := by decide +kernel
  rw [h', e1, e2]

example : Spec.fine sumSrc := by simp [sumSrc, Spec.fine, Spec.fineProd, Spec.fineOpd, Spec.fineMul, Spec.fineAdd, fac, var,
  Spec.fineItem, Spec.fineIds]

example (file : String) : ∃ name es g,
    toExpr file (Src.call (.plain none "f" [.mutItem (.mk false "x" false []), var "y"])).tree = .ok (.call .none name es) ∧
    toFns file [fnSrc.tree] = .ok [g] ∧ name = g.name := by
  have hc := C68_expression file (Src.call (.plain none "f" [.mutItem (.mk false "x" false []), var "y"]))
  have hf := C68_functions file [fnSrc]
  exact ⟨_, _, _, hc, hf, (C68_mut_names file "f" _ _ _ _ _ _ _ hc hf rfl).2 rfl⟩

/-- **Finding (C68).** `\a[i](foo: x)`: the words of a call of a closure are dropped if the last
property is not a name, so `\a[i](foo: x)` and `\a[i](bar: x)` are the same program. -/
theorem C68_words_dropped (file w w' : String) (a i : String) (e : Src) :
    toExpr file (Src.namedCallClosure (.mk false a false [.expr (var i) false]) [(w, e)]).tree =
      toExpr file (Src.namedCallClosure (.mk false a false [.expr (var i) false]) [(w', e)]).tree := by
  rw [C68_expression, C68_expression]
  rfl

/-- `\a.f(foo: x)` looks for `f__foo`. -/
example (file : String) :
    toExpr file (Src.namedCallClosure (.mk false "a" false [.str "f" false]) [("foo", var "x")]).tree =
      .ok (.callClosure (.mk "a" none false false [.str "f__foo"] []) [v "x"]) := by
  rw [C68_expression]
  have : Spec.expr file (Src.namedCallClosure (.mk false "a" false [.str "f" false]) [("foo", var "x")]) =
    some (.callClosure (.mk "a" none false false [.str ("f" ++ "__" ++ "foo")] []) [v "x"]) := rfl
  rw [this, show "f" ++ "__" ++ "foo" = "f__foo" by decide +kernel]

end Demo

end Dyon.Front
