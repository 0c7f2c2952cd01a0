import Verif.Sound.Small

/-!
# The nodes of the small language

The reports of the parser become the nodes of `Fn.tr`.
-/

namespace Dyon.Sound.Small

open Front (Src FnSrc FnArg Cst TySrc)
open Check (Tr Kind Node addPart addParts callsAll nests namedAll built kindOf startTy callNode nestNode nameNode mutNode rawFile)
open Check.EndDemo (nd)
open Lost (box one)
open Syn (BinOp)

/-! ## Before operators become calls -/

/-- `atomicTr`, with the nodes of the sum and the product. -/
def atomicRaw (operand : Bool) (t : Tr) : Tr := if operand then t else box .add [box .expr [box .mul [t]]]

/-- A node with an operator. -/
def opRaw (k : Kind) (op : BinOp) (l r : Tr) : Tr := .mk { kind := k } [op] [l, r]

mutual
/-- The nodes of an expression with sums, products, comparisons and powers. -/
def Ex.raw (operand : Bool) : Ex → Tr
  | .num _ => atomicRaw operand (nd .expr [] (some .f64) [])
  | .bool _ => atomicRaw operand (nd .expr [] (some .bool) [])
  | .text _ => atomicRaw operand (nd .expr [] (some .str) [])
  | .var x => atomicRaw operand (box .expr [nd .item [x] none []])
  | .call f args => atomicRaw operand (box .expr [nd .call [f] none (argRaws args)])
  | .ite c a b => compoundTr operand (box .if' [box .cond [c.raw false], box .trueBlock [box .expr [a.raw false]],
      box .elseBlock [box .expr [b.raw false]]])
  | .neg e => compoundTr operand (box .add [box .expr [box .mul [box .neg [box .expr [box .mul [e.raw true]]]]]])
  | .pow l r => compoundTr operand (box .add [box .expr [box .mul [opRaw .pow .pow (l.raw true) (r.raw true)]]])
  | .mul op l r => compoundTr operand (box .add [box .expr [opRaw .mul op (l.raw true) (r.raw true)]])
  | .add op l r => compoundTr operand (opRaw .add op (box .expr [box .mul [l.raw true]]) (box .expr [box .mul [r.raw true]]))
  | .cmp op l r => compoundTr operand (opRaw .compare op (box .expr [l.raw false]) (box .expr [r.raw false]))
/-- The nodes of arguments. -/
def argRaws : List Ex → List Tr
  | [] => []
  | e :: es => box .callArg [e.raw false] :: argRaws es
end

/-- The node of the statement of a declaration. -/
def letRaw (q : String × Ex) : Tr := box .expr [asgTr q.1 (q.2.raw false)]

/-- The nodes of a statement. -/
def Stm.raw : Stm → Tr
  | .decl x e => letRaw (x, e)
  | .guard c e => guardBox (c.raw false) (e.raw false)

/-- The nodes of a function. -/
def Fn.raw (f : Fn) : Tr :=
  nd .fn [f.name] (some f.ret.ty) (f.params.map argTr ++ [box .block (f.stms.map Stm.raw ++ [box .expr [box .ret [f.body.raw false]]])])

/-- A node without a part of its own. -/
def Bare (k : Kind) : Prop := k ≠ .type ∧ k ≠ .retType ∧ k ≠ .tyArg ∧ k ≠ .tyRet

section
variable [FloatOps] [Data.Lex]

theorem addPart_node {l : Front.L} {k : Kind} {kids : List Cst} {n n' : Node} {ops ops' : List BinOp} {ks ks' : List Tr}
    (hk : kindOf l = some k) (h1 : Bare k)
    (h : addParts ({ kind := k, ty := startTy k }, [], []) kids = .ok (n', ops', ks')) :
    addPart (n, ops, ks) (.node l kids) = .ok (n, ops, ks ++ [.mk n' ops' ks']) := by
  obtain ⟨a, b, c, d⟩ := h1
  simp only [addPart, hk, a, b, c, d, or_self, if_false, h]
  rfl

theorem addParts_cons {o o' : Node × List BinOp × List Tr} {t : Cst} {ts : List Cst} (h : addPart o t = .ok o') :
    addParts o (t :: ts) = addParts o' ts := by
  rw [addParts, h]; rfl

/-- One node alone. -/
theorem addParts_one {l : Front.L} {k : Kind} {kids : List Cst} {n n' : Node} {ops ops' : List BinOp} {ks ks' : List Tr}
    (hk : kindOf l = some k) (h1 : Bare k)
    (h : addParts ({ kind := k, ty := startTy k }, [], []) kids = .ok (n', ops', ks')) :
    addParts (n, ops, ks) [.node l kids] = .ok (n, ops, ks ++ [.mk n' ops' ks']) := by
  rw [addParts_cons (addPart_node hk h1 h)]; rfl

local macro "bare" : tactic => `(tactic| (refine ⟨?_, ?_, ?_, ?_⟩ <;> decide))

/-- What is proved of an expression. -/
def Builds (e : Ex) : Prop :=
  (∀ n ops ks, addPart (n, ops, ks) (.node .expr (e.src true).tree) = .ok (n, ops, ks ++ [e.raw true])) ∧
  (∀ n ops ks, addParts (n, ops, ks) (e.src false).tree = .ok (n, ops, ks ++ [e.raw false]))

theorem builds_atomic {e : Ex} {s : Src} {n' : Node} {ks' : List Tr} (hs : ∀ w, e.src w = atomic w s)
    (hr : ∀ w, e.raw w = atomicRaw w (.mk n' [] ks'))
    (h : addParts ({ kind := .expr, ty := none }, [], []) s.tree = .ok (n', [], ks')) : Builds e := by
  constructor
  · intro n ops ks
    rw [hs, hr]
    exact addPart_node (l := .expr) rfl (by bare) h
  · intro n ops ks
    rw [hs, hr]
    exact addParts_one (l := .add) rfl (by bare) (addParts_one (l := .expr) rfl (by bare)
      (addParts_one (l := .mul) rfl (by bare) (addParts_one (l := .expr) rfl (by bare) h)))

theorem builds_compound {e : Ex} {s : Src} {t : Tr} (hs : ∀ w, e.src w = compound w s)
    (hr : ∀ w, e.raw w = compoundTr w t)
    (h : ∀ n ops ks, addParts (n, ops, ks) s.tree = .ok (n, ops, ks ++ [t])) : Builds e := by
  constructor
  · intro n ops ks
    rw [hs, hr]
    exact addPart_node (l := .expr) rfl (by bare) (by
      rw [show (compound true s).tree = s.tree by simp [compound, Src.tree]]
      exact h _ _ _)
  · intro n ops ks
    rw [hs, hr]
    exact h n ops ks

theorem addOp_tok (op : BinOp) : Check.addOp (Front.opTok op) = [op] := by cases op <;> rfl

theorem addBool_tok (n : Node) (op : BinOp) : Check.addBool n (Front.opTok op) true = n := by cases op <;> rfl

/-- An operator between two nodes. -/
theorem addParts_op {n : Node} {op : BinOp} {a b : Cst} {l r : Tr} (h1 : addPart (n, [], []) a = .ok (n, [], [l]))
    (h2 : addPart (n, [op], [l]) b = .ok (n, [op], [l, r])) :
    addParts (n, [], []) [a, .bool (Front.opTok op) true, b] = .ok (n, [op], [l, r]) := by
  rw [addParts_cons h1, addParts_cons (o' := (n, [op], [l])) (by simp [addPart, addOp_tok, addBool_tok]), addParts_cons h2]
  rfl

/-- A node around an expression. -/
theorem addPart_around {e : Ex} (h : Builds e) {l : Front.L} {k : Kind} {n : Node} {ops : List BinOp} {ks : List Tr}
    (hk : kindOf l = some k) (h1 : Bare k) (hs : startTy k = none) :
    addPart (n, ops, ks) (.node l (e.src false).tree) = .ok (n, ops, ks ++ [box k [e.raw false]]) :=
  addPart_node hk h1 (h.2 _ _ _) |>.trans (by rw [hs]; rfl)

mutual
theorem builds : ∀ e : Ex, Builds e
  | .num x => builds_atomic (s := .num x) (fun _ => rfl) (fun _ => rfl) rfl
  | .bool x => builds_atomic (s := .bool x) (fun _ => rfl) (fun _ => rfl) rfl
  | .text x => builds_atomic (s := .text x) (fun _ => rfl) (fun _ => rfl) rfl
  | .var x => builds_atomic (s := .item (.mk false x false [])) (fun _ => rfl) (fun _ => rfl) rfl
  | .call f args => by
    refine builds_atomic (s := .call (.plain none f (srcs args))) (fun _ => rfl) (fun _ => rfl) ?_
    exact addParts_one (l := .call) rfl (by bare) (by
      rw [show Front.strOpt .alias none ++ Cst.str .name f :: Front.trees .callArg (srcs args) =
        Cst.str .name f :: Front.trees .callArg (srcs args) from rfl, addParts_cons rfl]
      exact builds_args args _ _ _)
  | .ite c a b => by
    have hc := builds c
    have ha := builds a
    have hb := builds b
    refine builds_compound (s := .ite (c.src false) [a.src false] [] (some [b.src false])) (fun _ => rfl) (fun _ => rfl)
      fun n ops ks => ?_
    refine addParts_one (l := .if') rfl (by bare) ?_
    show addParts _ [.node .cond (c.src false).tree, .node .trueBlock [.node .expr (a.src false).tree],
      .node .elseBlock [.node .expr (b.src false).tree]] = _
    rw [addParts_cons (addPart_around hc (l := .cond) rfl (by bare) rfl),
      addParts_cons (addPart_node (l := .trueBlock) rfl (by bare)
        (addParts_cons (addPart_around ha (l := .expr) rfl (by bare) rfl))),
      addParts_cons (addPart_node (l := .elseBlock) rfl (by bare)
        (addParts_cons (addPart_around hb (l := .expr) rfl (by bare) rfl)))]
    rfl
  | .neg e => by
    have he := builds e
    refine builds_compound (s := .add (.mk (.neg (.mk (.plain (e.src true)) [])) []) []) (fun _ => rfl) (fun _ => rfl)
      fun n ops ks => ?_
    exact addParts_one (l := .add) rfl (by bare) (addParts_one (l := .expr) rfl (by bare)
      (addParts_one (l := .mul) rfl (by bare) (addParts_one (l := .neg) rfl (by bare)
        (addParts_one (l := .expr) rfl (by bare) (addParts_one (l := .mul) rfl (by bare) (addParts_cons (he.1 _ _ _)))))))
  | .pow l r => by
    have hl := builds l
    have hr := builds r
    refine builds_compound (s := .add (.mk (.pow (l.src true) (r.src true)) []) []) (fun _ => rfl) (fun _ => rfl)
      fun n ops ks => ?_
    exact addParts_one (l := .add) rfl (by bare) (addParts_one (l := .expr) rfl (by bare)
      (addParts_one (l := .mul) rfl (by bare) (addParts_one (l := .pow) rfl (by bare)
        (addParts_op (op := .pow) (hl.1 _ _ _) (hr.1 _ _ _)))))
  | .mul op l r => by
    have hl := builds l
    have hr := builds r
    refine builds_compound (s := .add (.mk (.plain (l.src true)) [(op, .plain (r.src true))]) []) (fun _ => rfl) (fun _ => rfl)
      fun n ops ks => ?_
    exact addParts_one (l := .add) rfl (by bare) (addParts_one (l := .expr) rfl (by bare)
      (addParts_one (l := .mul) rfl (by bare) (addParts_op (hl.1 _ _ _) (hr.1 _ _ _))))
  | .add op l r => by
    have hl := builds l
    have hr := builds r
    refine builds_compound (s := .add (.mk (.plain (l.src true)) []) [(op, .mk (.plain (r.src true)) [])]) (fun _ => rfl)
      (fun _ => rfl) fun n ops ks => ?_
    exact addParts_one (l := .add) rfl (by bare) (addParts_op
      (addPart_node (l := .expr) rfl (by bare) (addParts_one (l := .mul) rfl (by bare) (addParts_cons (hl.1 _ _ _))))
      (addPart_node (l := .expr) rfl (by bare) (addParts_one (l := .mul) rfl (by bare) (addParts_cons (hr.1 _ _ _)))))
  | .cmp op l r => by
    have hl := builds l
    have hr := builds r
    refine builds_compound (s := .compare (l.src false) op (r.src false)) (fun _ => rfl) (fun _ => rfl) fun n ops ks => ?_
    exact addParts_one (l := .compare) rfl (by bare) (addParts_op
      (addPart_around hl (l := .expr) rfl (by bare) rfl) (addPart_around hr (l := .expr) rfl (by bare) rfl))
theorem builds_args : ∀ (es : List Ex) (n : Node) (ops : List BinOp) (ks : List Tr),
    addParts (n, ops, ks) (Front.trees .callArg (srcs es)) = .ok (n, ops, ks ++ argRaws es)
  | [], n, ops, ks => by simp [srcs, Front.trees, argRaws, addParts]
  | e :: es, n, ops, ks => by
    rw [srcs, Front.trees, addParts_cons (addPart_around (builds e) (l := .callArg) rfl (by bare) rfl), builds_args es]
    simp [argRaws]
end

theorem tyOf_src (t : Ft) : Check.tyOf t.src.tree = some t.ty := by cases t <;> rfl

theorem builds_params : ∀ (ps : List (String × Ft)) (n : Node) (ops : List BinOp) (ks : List Tr) (rest : List Cst),
    addParts (n, ops, ks) ((ps.map fun p => ({ name := p.1, ty := some p.2.src } : FnArg)).map FnArg.tree ++ rest) =
      addParts (n, ops, ks ++ ps.map argTr) rest
  | [], n, ops, ks, rest => by simp
  | p :: ps, n, ops, ks, rest => by
    rw [List.map_cons, List.map_cons, List.cons_append, show ({ name := p.1, ty := some p.2.src } : FnArg).tree =
        .node .arg [.str .name p.1, .node .type p.2.src.tree] from rfl, addParts_cons (addPart_node (l := .arg)
      (n' := { kind := .arg, names := [p.1], ty := some p.2.ty }) (ops' := []) (ks' := []) rfl (by bare) ?_), builds_params ps]
    · simp [argTr, nd]
    · rw [addParts_cons rfl, addParts_cons (o' := ({ kind := .arg, names := [p.1], ty := some p.2.ty }, [], []))]
      · rfl
      · simp [addPart, kindOf, tyOf_src, Check.addStr, startTy]

theorem builds_stm (n : Node) (ops : List BinOp) (ks : List Tr) : ∀ q : Stm,
    addPart (n, ops, ks) (.node .expr q.src.tree) = .ok (n, ops, ks ++ [q.raw])
  | .decl x e => by
    refine addPart_node (l := .expr) rfl (by bare) (addParts_one (l := .assign) rfl (by bare) ?_)
    show addParts _ [.node .left [.node .item [.str .name x]], .bool (.asg .assign) true, .node .right (e.src false).tree] = _
    rw [addParts_cons (addPart_node (l := .left) (n' := { kind := .left }) (ops' := []) (ks' := [nd .item [x] none []]) rfl (by bare)
      (addParts_one (l := .item) rfl (by bare) rfl)), addParts_cons rfl,
      addParts_cons (addPart_around (builds e) (l := .right) rfl (by bare) rfl)]
    rfl
  | .guard c e => by
    refine addPart_node (l := .expr) rfl (by bare) (addParts_one (l := .if') rfl (by bare) ?_)
    show addParts _ [.node .cond (c.src false).tree, .node .trueBlock [.node .expr [.node .ret (e.src false).tree]]] = _
    rw [addParts_cons (addPart_around (builds c) (l := .cond) rfl (by bare) rfl),
      addParts_cons (addPart_node (l := .trueBlock) rfl (by bare)
        (addParts_one (l := .expr) rfl (by bare) (addParts_one (l := .ret) rfl (by bare) ((builds e).2 _ _ _))))]
    rfl

theorem builds_body (e : Ex) : ∀ (qs : List Stm) (n : Node) (ops : List BinOp) (ks : List Tr),
    addParts (n, ops, ks) (Front.trees .expr (qs.map Stm.src ++ [.ret (e.src false)])) =
      .ok (n, ops, ks ++ (qs.map Stm.raw ++ [box .expr [box .ret [e.raw false]]]))
  | [], n, ops, ks => by
    exact addParts_one (l := .expr) rfl (by bare) (addParts_one (l := .ret) rfl (by bare) ((builds e).2 _ _ _))
  | q :: qs, n, ops, ks => by
    rw [List.map_cons, List.cons_append, Front.trees, addParts_cons (builds_stm n ops ks q), builds_body e qs]
    simp

theorem builds_fn (f : Fn) (n : Node) (ops : List BinOp) (ks : List Tr) :
    addPart (n, ops, ks) f.src.tree = .ok (n, ops, ks ++ [f.raw]) := by
  refine addPart_node (l := .fn) rfl (by bare) ?_
  show addParts _ (.str .name f.name :: (f.params.map fun p => ({ name := p.1, ty := some p.2.src } : FnArg)).map FnArg.tree ++ [] ++
    [.bool .returns true, .node .retType f.ret.src.tree,
      .node .block (Front.trees .expr (f.stms.map Stm.src ++ [.ret (f.body.src false)]))]) = _
  rw [List.append_nil, List.cons_append, addParts_cons rfl, builds_params, addParts_cons rfl,
    addParts_cons (o' := ({ kind := .fn, names := [f.name], ty := some f.ret.ty }, [], f.params.map argTr))]
  · exact addParts_one (l := .block) rfl (by bare) (builds_body f.body f.stms _ _ _)
  · simp [addPart, kindOf, tyOf_src, Check.addStr, startTy, Check.addBool, Check.addOp]

theorem raw_file : ∀ fs : List Fn, rawFile (fs.map fun f => f.src.tree) = .ok (fs.map Fn.raw)
  | [] => rfl
  | f :: fs => by
    rw [List.map_cons, FnSrc.tree, rawFile]
    have h := builds_fn f default [] []
    rw [FnSrc.tree] at h
    rw [h, raw_file fs]
    rfl

end

/-! ## Operators become calls -/

theorem nest_none (n : Node) (ks : List Tr) : (Tr.mk n [] ks).nest = .mk n [] (nests ks) := by
  simp [Tr.nest, nestNode]

theorem nest_op (k : Kind) (op : BinOp) (l r : Tr) : (opRaw k op l r).nest = opRaw k op l.nest r.nest := by
  simp [opRaw, Tr.nest, nestNode, nests]

theorem box_nest (k : Kind) (t : Tr) : (box k [t]).nest = box k [t.nest] := by
  simp [box, nd, nest_none, nests]

theorem calls_op (k : Kind) (op : BinOp) (l r : Tr) : (opRaw k op l r).calls = opTr op l.calls r.calls := by
  simp [opRaw, Tr.calls, callsAll, callNode, opTr, nd, box, Syn.C38_same_functions]

/-- A node that is not an operator. -/
def Quiet (k : Kind) : Prop := Check.unName k = none ∧ k ≠ .add ∧ k ≠ .mul

theorem calls_quiet {n : Node} {ks : List Tr} (h : Quiet n.kind) : (Tr.mk n [] ks).calls = .mk n [] (callsAll ks) := by
  rw [Tr.calls]
  generalize callsAll ks = ks
  obtain ⟨h1, h2, h3⟩ := h
  unfold callNode
  split
  · rw [h1]; simp [h2, h3]
  · rfl
  · rfl

theorem box_calls {k : Kind} (h : Quiet k) (t : Tr) : (box k [t]).calls = box k [t.calls] :=
  calls_quiet h

theorem calls_add (t : Tr) : (box .add [t]).calls = t.calls := by
  simp [box, nd, Tr.calls, callsAll, callNode, Check.unName]

theorem calls_mul (t : Tr) : (box .mul [t]).calls = t.calls := by
  simp [box, nd, Tr.calls, callsAll, callNode, Check.unName]

theorem calls_neg {t : Tr} : (box .neg [box .expr [box .mul [t]]]).calls = nd .call ["neg"] none [box .callArg [t.calls]] := by
  simp [box, nd, Tr.calls, callsAll, callNode, Check.unName, Tr.asArg]

/-- A node whose name stays as it is. -/
def Mute (k : Kind) : Prop := k ≠ .fn ∧ k ≠ .call ∧ k ≠ .callClosure

theorem named_mute {n : Node} {ops : List BinOp} {ks ks' : List Tr} (h : Mute n.kind) (hk : namedAll ks = .ok ks') :
    (Tr.mk n ops ks).named = .ok (.mk n ops ks') := by
  obtain ⟨h1, h2, h3⟩ := h
  rw [Tr.named, hk]
  show nameNode n ops ks' = _
  simp [nameNode, h1, h2, h3]

theorem namedAll_one {t t' : Tr} (h : t.named = .ok t') : namedAll [t] = .ok [t'] := by
  simp only [namedAll, h]; rfl

theorem namedAll_cons {t t' : Tr} {ts ts' : List Tr} (h : t.named = .ok t') (hs : namedAll ts = .ok ts') :
    namedAll (t :: ts) = .ok (t' :: ts') := by
  simp only [namedAll, h, hs]; rfl

theorem box_named {k : Kind} {t t' : Tr} (hk : Mute k) (h : t.named = .ok t') : (box k [t]).named = .ok (box k [t']) :=
  named_mute hk (namedAll_one h)

theorem call_named {n : Node} {ks ks' : List Tr} (hn : n.kind = .fn ∨ n.kind = .call) (h : namedAll ks = .ok ks')
    (hm : ∀ k ∈ ks', k.node.mutable = false) : (Tr.mk n [] ks).named = .ok (.mk n [] ks') := by
  rw [Tr.named, h]
  show nameNode n [] ks' = _
  have : (ks'.any fun k => k.isArg && k.node.mutable) = false := by
    rw [List.any_eq_false]
    intro k hk
    simp [hm k hk]
  simp only [nameNode, hn, if_true, mutNode, this]
  rfl

local macro "mute" : tactic => `(tactic| (refine ⟨?_, ?_, ?_⟩ <;> first | decide | rfl | simp))

theorem op_named {op : BinOp} {l r l' r' : Tr} (hl : l.named = .ok l') (hr : r.named = .ok r') :
    (opTr op l r).named = .ok (opTr op l' r') := by
  refine call_named (.inr rfl) (namedAll_cons (box_named (by mute) hl) (namedAll_one (box_named (by mute) hr))) ?_
  simp [Tr.node, box, nd]

/-- What is proved of an expression. -/
def Ends (raw tr : Tr) : Prop := raw.nest.calls.named = .ok tr

theorem ends_around {k : Kind} {t t' : Tr} (hq : Quiet k) (hm : Mute k) (h : Ends t t') : Ends (box k [t]) (box k [t']) := by
  rw [Ends, box_nest, box_calls hq]
  exact box_named hm h

theorem ends_atomic {t t' : Tr} (h : Ends t t') (w : Bool) : Ends (atomicRaw w t) (atomicTr w t') := by
  cases w
  · rw [Ends, atomicRaw, if_neg (by decide), box_nest, box_nest, box_nest, calls_add, box_calls (by mute), calls_mul]
    exact box_named (by mute) h
  · exact h

theorem ends_compound {t t' : Tr} (h : Ends t t') (w : Bool) : Ends (compoundTr w t) (compoundTr w t') := by
  cases w
  · exact h
  · exact ends_around (by mute) (by mute) h

theorem ends_op {k : Kind} {op : BinOp} {l r l' r' : Tr} (hl : Ends l l') (hr : Ends r r') : Ends (opRaw k op l r) (opTr op l' r') := by
  rw [Ends, nest_op, calls_op]
  exact op_named hl hr

theorem ends_sum {t t' : Tr} (h : Ends t t') : Ends (box .add [t]) t' := by
  rw [Ends, box_nest, calls_add]; exact h

theorem ends_product {t t' : Tr} (h : Ends t t') : Ends (box .mul [t]) t' := by
  rw [Ends, box_nest, calls_mul]; exact h

mutual
theorem ends : ∀ (e : Ex) (w : Bool), Ends (e.raw w) (e.tr w)
  | .num x, w => ends_atomic (by rw [Ends]; rfl) w
  | .bool x, w => ends_atomic (by rw [Ends]; rfl) w
  | .text x, w => ends_atomic (by rw [Ends]; rfl) w
  | .var x, w => ends_atomic (by rw [Ends]; rfl) w
  | .call f args, w => by
    refine ends_atomic (ends_around (by mute) (by mute) ?_) w
    rw [Ends, nd, nest_none, calls_quiet (by mute)]
    refine call_named (.inr rfl) (ends_args args) ?_
    intro k hk
    induction args with
    | nil => cases hk
    | cons e es ih =>
      rcases List.mem_cons.1 hk with rfl | hk
      · rfl
      · exact ih hk
  | .ite c a b, w => by
    have hc := ends_around (k := .cond) (by mute) (by mute) (ends c false)
    have ha := ends_around (k := .trueBlock) (by mute) (by mute) (ends_around (k := .expr) (by mute) (by mute) (ends a false))
    have hb := ends_around (k := .elseBlock) (by mute) (by mute) (ends_around (k := .expr) (by mute) (by mute) (ends b false))
    refine ends_compound ?_ w
    rw [Ends, box, nd, nest_none, calls_quiet (by mute)]
    exact named_mute (by mute) (namedAll_cons hc (namedAll_cons ha (namedAll_one hb)))
  | .neg e, w => by
    refine ends_compound (ends_sum (ends_around (by mute) (by mute) (ends_product ?_))) w
    rw [Ends, box_nest, box_nest, box_nest, calls_neg]
    refine call_named (.inr rfl) (namedAll_one (box_named (by mute) (ends e true))) ?_
    simp [Tr.node, box, nd]
  | .pow l r, w =>
    ends_compound (ends_sum (ends_around (by mute) (by mute) (ends_product (ends_op (ends l true) (ends r true))))) w
  | .mul op l r, w => ends_compound (ends_sum (ends_around (by mute) (by mute) (ends_op (ends l true) (ends r true)))) w
  | .add op l r, w =>
    ends_compound (ends_op (ends_around (by mute) (by mute) (ends_product (ends l true)))
      (ends_around (by mute) (by mute) (ends_product (ends r true)))) w
  | .cmp op l r, w =>
    ends_compound (ends_op (ends_around (by mute) (by mute) (ends l false)) (ends_around (by mute) (by mute) (ends r false))) w
theorem ends_args : ∀ es : List Ex, namedAll (callsAll (nests (argRaws es))) = .ok (argTrs es)
  | [] => rfl
  | e :: es => by
    rw [argRaws, nests, callsAll]
    exact namedAll_cons (ends_around (by mute) (by mute) (ends e false)) (ends_args es)
end

theorem ends_let (q : String × Ex) : Ends (letRaw q) (letTr q) := by
  refine ends_around (by mute) (by mute) ?_
  rw [Ends, asgTr, nest_none, calls_quiet (by mute)]
  exact named_mute (by mute) (namedAll_cons rfl (namedAll_one (ends_around (by mute) (by mute) (ends q.2 false))))

theorem ends_stm : ∀ q : Stm, Ends q.raw q.tr
  | .decl x e => ends_let (x, e)
  | .guard c e => by
    refine ends_around (by mute) (by mute) ?_
    have hc := ends_around (k := .cond) (by mute) (by mute) (ends c false)
    have ha := ends_around (k := .trueBlock) (by mute) (by mute) (ends_around (k := .expr) (by mute) (by mute)
      (ends_around (k := .ret) (by mute) (by mute) (ends e false)))
    rw [Ends, box, nd, nest_none, calls_quiet (by mute)]
    exact named_mute (by mute) (namedAll_cons hc (namedAll_one ha))

theorem ends_body (e : Ex) : ∀ qs : List Stm,
    namedAll (callsAll (nests (qs.map Stm.raw ++ [box .expr [box .ret [e.raw false]]]))) =
      .ok (qs.map Stm.tr ++ [box .expr [box .ret [e.tr false]]])
  | [] => namedAll_one (ends_around (by mute) (by mute) (ends_around (by mute) (by mute) (ends e false)))
  | q :: qs => by
    rw [List.map_cons, List.cons_append, nests, callsAll]
    exact namedAll_cons (ends_stm q) (ends_body e qs)

theorem ends_fn (f : Fn) : Ends f.raw f.tr := by
  rw [Ends, Fn.raw, nd, nest_none, calls_quiet (by mute)]
  refine call_named (.inl rfl) ?_ ?_
  · induction f.params with
    | nil =>
      refine namedAll_one ?_
      rw [box, nd, nest_none, calls_quiet (by mute)]
      exact named_mute (by mute) (ends_body f.body f.stms)
    | cons p ps ih => exact namedAll_cons (t' := argTr p) rfl ih
  · intro k hk
    rcases List.mem_append.1 hk with hk | hk
    · obtain ⟨p, -, rfl⟩ := List.mem_map.1 hk
      rfl
    · rw [List.mem_singleton.1 hk]; rfl

/-- The nodes of a file. -/
theorem built_file [FloatOps] [Data.Lex] (fs : List Fn) : built ((fs.map Fn.src).map FnSrc.tree) = .ok (fs.map Fn.tr) := by
  rw [List.map_map, built, show (FnSrc.tree ∘ Fn.src) = fun f => f.src.tree from rfl, raw_file]
  show namedAll (callsAll (nests (fs.map Fn.raw))) = _
  induction fs with
  | nil => rfl
  | cons f fs ih => exact namedAll_cons (ends_fn f) ih

end Dyon.Sound.Small
