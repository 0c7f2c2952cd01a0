import Verif.Check.Scope
import Verif.Front.ConvertLemmas
import Verif.Syntax.ChainProps

/-!
# The nodes that the checker makes of program text

Lemmas for C69.
-/

namespace Dyon.Check

open Spec
open Front (Src Prod' Opd ItemSrc IdSrc Var Callee FnSrc FnArg LazySrc BodySrc ClArg Cur Cst L S F B
  strOpt flag opTok swTok swOpt lenTok tyOpt trees treeKVs treeVars treeElifs treeElse treeOpt treeAdd
  treeMul treeIds treeWords)
open Syn (BinOp)

/-! ## Reports -/

section
variable [FloatOps] [Data.Lex]

theorem addParts_str (n : Node) (ops : List BinOp) (ks : List Tr) (l : S) (s : String) (r : List Cst) :
    addParts (n, ops, ks) (.str l s :: r) = addParts (addStr n l s, ops, ks) r := by
  rw [addParts, addPart]; rfl

theorem addParts_bool (n : Node) (ops : List BinOp) (ks : List Tr) (l : B) (b : Bool) (r : List Cst) :
    addParts (n, ops, ks) (.bool l b :: r) = addParts (addBool n l b, ops ++ addOp l, ks) r := by
  rw [addParts, addPart]; rfl

theorem addParts_num (n : Node) (ops : List BinOp) (ks : List Tr) (l : F) (x : F64) (r : List Cst) :
    addParts (n, ops, ks) (.num l x :: r) = (do addParts (← addNum n l x, ops, ks) r) := by
  rw [addParts, addPart]
  cases addNum n l x <;> rfl

theorem addParts_nil (o : Node × List BinOp × List Tr) : addParts o [] = .ok o := by rw [addParts]

/-- The kind has no type as its content. -/
def Kind.noType (k : Kind) : Bool :=
  !(k = .type || k = .retType || k = .tyArg || k = .tyRet)

theorem addParts_node {l : L} {k : Kind} (hk : kindOf l = some k) (ht : k.noType = true) {n : Node}
    {ops : List BinOp} {ks : List Tr} {kids r : List Cst} {o : Node × List BinOp × List Tr}
    (h : addParts (n, ops, ks) (.node l kids :: r) = .ok o) : ∃ n' ops' ks',
      addParts ({ kind := k, ty := startTy k }, [], []) kids = .ok (n', ops', ks') ∧
      addParts (n, ops, ks ++ [.mk n' ops' ks']) r = .ok o := by
  rw [addParts, addPart] at h
  simp only [hk] at h
  have h1 : ¬ (k = .type ∨ k = .retType) := by
    rintro (rfl | rfl) <;> simp [Kind.noType] at ht
  have h2 : ¬ (k = .tyArg ∨ k = .tyRet) := by
    rintro (rfl | rfl) <;> simp [Kind.noType] at ht
  simp only [h1, h2, if_false] at h
  cases h3 : addParts ({ kind := k, ty := startTy k }, [], []) kids with
  | error e => rw [h3] at h; cases h
  | ok o' =>
    rw [h3] at h
    exact ⟨o'.1, o'.2.1, o'.2.2, rfl, h⟩

theorem addParts_append {o o' : Node × List BinOp × List Tr} : ∀ {a b : List Cst} ,
    addParts o (a ++ b) = .ok o' → ∃ o1, addParts o a = .ok o1 ∧ addParts o1 b = .ok o'
  | [], b, h => ⟨o, addParts_nil o, h⟩
  | t :: a, b, h => by
    rw [List.cons_append, addParts] at h
    cases h1 : addPart o t with
    | error e => rw [h1] at h; cases h
    | ok o1 =>
      rw [h1] at h
      obtain ⟨o2, h2, h3⟩ := addParts_append h
      exact ⟨o2, by rw [addParts, h1]; exact h2, h3⟩

end

/-! ## The changes to the nodes -/

/-- All changes to a tree. -/
def fin (t : Tr) : Except BuildErr Tr := t.nest.calls.named

/-- All changes to trees. -/
def finAll (ts : List Tr) : Except BuildErr (List Tr) := namedAll (callsAll (nests ts))

theorem finAll_nil {ts : List Tr} (h : finAll [] = .ok ts) : ts = [] := by
  cases h; rfl

theorem namedAll_cons {t : Tr} {ts ts' : List Tr} (h : namedAll (t :: ts) = .ok ts') :
    ∃ t' r, t.named = .ok t' ∧ namedAll ts = .ok r ∧ ts' = t' :: r := by
  rw [namedAll] at h
  cases h1 : t.named with
  | error e => rw [h1] at h; cases h
  | ok t' =>
    rw [h1] at h
    cases h2 : namedAll ts with
    | error e => rw [h2] at h; cases h
    | ok r =>
      rw [h2] at h
      cases h
      exact ⟨t', r, rfl, rfl, rfl⟩

theorem finAll_cons {t : Tr} {ts ts' : List Tr} (h : finAll (t :: ts) = .ok ts') :
    ∃ t' r, fin t = .ok t' ∧ finAll ts = .ok r ∧ ts' = t' :: r := by
  unfold finAll at h
  rw [nests, callsAll] at h
  exact namedAll_cons h

theorem finAll_one {t : Tr} {ts : List Tr} (h : finAll [t] = .ok ts) : ∃ t', fin t = .ok t' ∧ ts = [t'] := by
  obtain ⟨t', r, h1, h2, h3⟩ := finAll_cons h
  cases finAll_nil h2
  exact ⟨t', h1, h3⟩

theorem finAll_append : ∀ {a b ts : List Tr}, finAll (a ++ b) = .ok ts →
    ∃ a' b', finAll a = .ok a' ∧ finAll b = .ok b' ∧ ts = a' ++ b'
  | [], b, ts, h => ⟨[], ts, rfl, h, rfl⟩
  | t :: a, b, ts, h => by
    obtain ⟨t', r, h1, h2, h3⟩ := finAll_cons h
    obtain ⟨a', b', h4, h5, h6⟩ := finAll_append h2
    refine ⟨t' :: a', b', ?_, h5, by rw [h3, h6]; rfl⟩
    unfold finAll at h4 ⊢
    unfold fin at h1
    rw [nests, callsAll, namedAll, h1, h4]
    rfl

/-- Kinds whose nodes are not changed. -/
def Kind.still (k : Kind) : Bool :=
  !(k = .norm || k = .not || k = .neg || k = .add || k = .mul || k = .fn || k = .call ||
    k = .callClosure)

theorem unName_still {k : Kind} (h : k.still = true) : unName k = none ∧ k ≠ .add ∧ k ≠ .mul ∧
    k ≠ .fn ∧ k ≠ .call ∧ k ≠ .callClosure := by
  simp only [Kind.still, Bool.not_eq_true', Bool.or_eq_false_iff, decide_eq_false_iff_not] at h
  obtain ⟨⟨⟨⟨⟨⟨⟨h1, h2⟩, h3⟩, h4⟩, h5⟩, h6⟩, h7⟩, h8⟩ := h
  refine ⟨?_, h4, h5, h6, h7, h8⟩
  unfold unName
  split <;> simp_all

theorem nestNode_nil (n : Node) (kids : List Tr) : nestNode n [] kids = .mk n [] kids := rfl

theorem callNode_nil {n : Node} (h1 : unName n.kind = none) (h2 : n.kind ≠ .add) (h3 : n.kind ≠ .mul)
    (kids : List Tr) : callNode n [] kids = .mk n [] kids := by
  unfold callNode
  split
  · rw [h1]; simp [h2, h3]
  · rfl
  · rfl

theorem callsAll_nests_length : ∀ ts : List Tr, (callsAll (nests ts)).length = ts.length
  | [] => rfl
  | t :: ts => by simp only [nests, callsAll, List.length_cons, callsAll_nests_length ts]

theorem fin_still {n : Node} {kids : List Tr} {t : Tr} (h : fin (.mk n [] kids) = .ok t)
    (hk : n.kind.still = true) : ∃ kids', finAll kids = .ok kids' ∧ t = .mk n [] kids' := by
  obtain ⟨h1, h2, h3, h4, h5, h6⟩ := unName_still hk
  unfold fin at h
  rw [Tr.nest, nestNode_nil, Tr.calls, callNode_nil h1 h2 h3, Tr.named] at h
  unfold finAll
  cases h7 : namedAll (callsAll (nests kids)) with
  | error e => rw [h7] at h; cases h
  | ok kids' =>
    rw [h7] at h
    simp only [nameNode, h4, h5, h6, or_self, if_false, bind, Except.bind] at h
    cases h
    exact ⟨kids', rfl, rfl⟩

/-- A node without children, whatever its operators. -/
theorem fin_leaf {n : Node} {ops : List BinOp} {t : Tr} (h : fin (.mk n ops []) = .ok t)
    (hk : n.kind.still = true) : t = .mk n ops [] := by
  obtain ⟨h1, h2, h3, h4, h5, h6⟩ := unName_still hk
  unfold fin at h
  have e1 : nestNode n ops (nests []) = .mk n ops [] := by
    rw [nests]
    unfold nestNode
    split <;> simp_all
  rw [Tr.nest, e1, Tr.calls, callsAll, callNode, Tr.named, namedAll] at h
  · simp only [nameNode, h4, h5, h6, or_self, if_false, bind, Except.bind] at h
    cases h
    rfl
  · simp
  · simp

/-- What `mut` changes. -/
structure Renamed (n n' : Node) : Prop where
  kind : n'.kind = n.kind
  op : n'.op = n.op
  level : n'.grabLevel = n.grabLevel
  mutable : n'.mutable = n.mutable

theorem mutList_eq (first : Bool) (ms : List Bool) (s : String) :
    mutList first ms s = Front.mutArgs first ms s := by
  induction ms generalizing first s with
  | nil => rfl
  | cons m ms ih => rw [mutList, Front.mutArgs, ih]

theorem push_eq (s : String) (c : Char) : s.push c = s ++ String.singleton c := by
  apply String.ext
  simp

variable [FloatOps] [Data.Lex] in
theorem mutNode_ok {n n' : Node} {kids : List Tr} (h : mutNode n kids = .ok n') : Renamed n n' ∧
    ((kids.any fun k => k.isArg && k.node.mutable) = true → n.name ≠ none) ∧
    n'.name = n.name.map fun x => Front.Spec.nameWith x ((kids.filter Tr.isArg).map (·.node.mutable)) := by
  unfold mutNode at h
  have e : (kids.any fun k => k.isArg && k.node.mutable) =
      ((kids.filter Tr.isArg).map (·.node.mutable)).any id := by
    rw [List.any_map, List.any_filter]
    rfl
  split at h
  · rename_i h1
    cases hn : n.name with
    | none => rw [hn] at h; cases h
    | some x =>
      rw [hn] at h
      cases h
      refine ⟨⟨rfl, rfl, rfl, rfl⟩, fun _ => by simp, ?_⟩
      simp only [Node.name, List.head?_cons, Option.map_some, Option.some.injEq]
      rw [← Front.mutName_eq, Front.mutName, if_pos (by rw [← e]; exact h1), mutList_eq, push_eq x '(',
        push_eq _ ')']
      rfl
  · rename_i h1
    cases h
    refine ⟨⟨rfl, rfl, rfl, rfl⟩, fun h => absurd h h1, ?_⟩
    rw [← e.symm] at *
    cases hn : n.name with
    | none => rfl
    | some x =>
      simp only [Option.map_some, Option.some.injEq]
      rw [← Front.mutName_eq, Front.mutName, if_neg (by rw [← e]; exact h1)]

theorem fin_call {n : Node} (hk : n.kind = .call ∨ n.kind = .fn) {kids : List Tr} {t : Tr}
    (h : fin (.mk n [] kids) = .ok t) : ∃ kids' n', finAll kids = .ok kids' ∧ mutNode n kids' = .ok n' ∧
      t = .mk n' [] kids' := by
  have h1 : unName n.kind = none := by rcases hk with h | h <;> rw [h] <;> rfl
  have h2 : n.kind ≠ .add := by rcases hk with h | h <;> rw [h] <;> decide
  have h3 : n.kind ≠ .mul := by rcases hk with h | h <;> rw [h] <;> decide
  unfold fin at h
  rw [Tr.nest, nestNode_nil, Tr.calls, callNode_nil h1 h2 h3, Tr.named] at h
  unfold finAll
  cases h7 : namedAll (callsAll (nests kids)) with
  | error e => rw [h7] at h; cases h
  | ok kids' =>
    rw [h7] at h
    simp only [nameNode, hk.symm, if_true, bind, Except.bind] at h
    cases h8 : mutNode n kids' with
    | error e => rw [h8] at h; cases h
    | ok n' =>
      rw [h8] at h
      cases h
      exact ⟨kids', n', rfl, h8, rfl⟩

theorem fin_un {n : Node} {f : String} (hk : unName n.kind = some f) {n0 : Node} (h0 : n0.kind.still = true)
    {kids : List Tr} {t : Tr} (h : fin (.mk n [] [.mk n0 [] kids]) = .ok t) : ∃ kids' n',
      finAll kids = .ok kids' ∧
      mutNode { n with kind := .call, names := n.names ++ [f] }
        [.mk { n0 with kind := .callArg } [] kids'] = .ok n' ∧
      t = .mk n' [] [.mk { n0 with kind := .callArg } [] kids'] := by
  obtain ⟨h1, h2, h3, h4, h5, h6⟩ := unName_still h0
  unfold fin at h
  rw [Tr.nest, nests, nests, Tr.nest, nestNode_nil, nestNode_nil, Tr.calls, callsAll, callsAll, Tr.calls,
    callNode_nil h1 h2 h3, callNode, hk] at h
  simp only [Tr.asArg] at h
  rw [Tr.named] at h
  cases h7 : namedAll [.mk { n0 with kind := .callArg } [] (callsAll (nests kids))] with
  | error e => rw [h7] at h; cases h
  | ok ks =>
    rw [h7] at h
    obtain ⟨k', r, h8, h9, h10⟩ := namedAll_cons h7
    cases h9
    rw [Tr.named] at h8
    unfold finAll
    cases h11 : namedAll (callsAll (nests kids)) with
    | error e => rw [h11] at h8; cases h8
    | ok kids' =>
      rw [h11] at h8
      simp only [nameNode, reduceCtorEq, or_self, if_false, bind, Except.bind] at h8
      cases h8
      subst h10
      simp only [nameNode, reduceCtorEq, false_or, if_true, bind, Except.bind] at h
      cases h12 : mutNode { n with kind := .call, names := n.names ++ [f] }
          [.mk { n0 with kind := .callArg } [] kids'] with
      | error e => rw [h12] at h; cases h
      | ok n' =>
        rw [h12] at h
        cases h
        exact ⟨kids', n', rfl, h12, rfl⟩

/-- `l op r` as a call. -/
def opCall (n : Node) (b : BinOp) (l r : Tr) : Tr :=
  .mk { n with kind := .call, names := n.names ++ [Syn.checkName b] } []
    [.mk { kind := .callArg } [] [l], .mk { kind := .callArg } [] [r]]

/-- Operators from the left to the right. -/
def chainT (k : Kind) : Tr → List BinOp → List Tr → Tr
  | acc, b :: bs, t :: ts => chainT k (opCall { kind := k } b acc t) bs ts
  | acc, _, _ => acc

theorem named_op {n : Node} {b : BinOp} {l r t : Tr}
    (h : (Tr.mk { n with kind := .call, names := n.names ++ [Syn.checkName b] } []
      [.mk { kind := .callArg } [] [l], .mk { kind := .callArg } [] [r]]).named = .ok t) :
    ∃ l' r', l.named = .ok l' ∧ r.named = .ok r' ∧ t = opCall n b l' r' := by
  rw [Tr.named] at h
  cases h1 : namedAll [.mk { kind := .callArg } [] [l], .mk { kind := .callArg } [] [r]] with
  | error e => rw [h1] at h; cases h
  | ok ks =>
    rw [h1] at h
    obtain ⟨a, ks1, h2, h3, h4⟩ := namedAll_cons h1
    obtain ⟨c, ks2, h5, h6, h7⟩ := namedAll_cons h3
    cases h6
    rw [Tr.named] at h2 h5
    cases h8 : namedAll [l] with
    | error e => rw [h8] at h2; cases h2
    | ok ls =>
      rw [h8] at h2
      obtain ⟨l', x, h9, h10, h11⟩ := namedAll_cons h8
      cases h10
      cases h12 : namedAll [r] with
      | error e => rw [h12] at h5; cases h5
      | ok rs =>
        rw [h12] at h5
        obtain ⟨r', y, h13, h14, h15⟩ := namedAll_cons h12
        cases h14
        simp only [nameNode, reduceCtorEq, or_self, if_false, bind, Except.bind] at h2 h5
        cases h2
        cases h5
        subst h4 h7 h11 h15
        have : mutNode { n with kind := .call, names := n.names ++ [Syn.checkName b] }
            [.mk { kind := .callArg } [] [l'], .mk { kind := .callArg } [] [r']] =
              .ok { n with kind := .call, names := n.names ++ [Syn.checkName b] } := by
          simp [mutNode, Tr.node]
        simp only [nameNode, reduceCtorEq, false_or, if_true, bind, Except.bind, this] at h
        cases h
        exact ⟨l', r', h9, h13, rfl⟩

theorem nestRest_fin (k : Kind) : ∀ (bs : List BinOp) (rs : List Tr) (acc t : Tr), bs.length = rs.length →
    (nestRest k acc bs rs).calls.named = .ok t → ∃ acc' rs', acc.calls.named = .ok acc' ∧
      namedAll (callsAll rs) = .ok rs' ∧ t = chainT k acc' bs rs'
  | [], [], acc, t, _, h => ⟨t, [], h, rfl, rfl⟩
  | b :: bs, r :: rs, acc, t, hl, h => by
    rw [nestRest] at h
    obtain ⟨a, rs', h1, h2, h3⟩ := nestRest_fin k bs rs _ t (by simpa using hl) h
    rw [Tr.calls, callsAll, callsAll, callsAll, callNode] at h1
    obtain ⟨acc', r', h4, h5, h6⟩ := named_op h1
    refine ⟨acc', r' :: rs', h4, ?_, ?_⟩
    · rw [callsAll, namedAll, h5, h2]; rfl
    · rw [h3, h6]; rfl
  | [], _ :: _, _, _, hl, _ => by simp at hl
  | _ :: _, [], _, _, hl, _ => by simp at hl

theorem fin_chain {n : Node} {b : BinOp} {bs : List BinOp} {l r : Tr} {rs : List Tr} {t : Tr}
    (hl : bs.length = rs.length) (h : fin (.mk n (b :: bs) (l :: r :: rs)) = .ok t) : ∃ l' r' rs',
      fin l = .ok l' ∧ fin r = .ok r' ∧ finAll rs = .ok rs' ∧ t = chainT n.kind (opCall n b l' r') bs rs' := by
  unfold fin at h
  rw [Tr.nest, nests, nests] at h
  have e : nestNode n (b :: bs) (l.nest :: r.nest :: nests rs) =
      nestRest n.kind (.mk n [b] [l.nest, r.nest]) bs (nests rs) := by
    cases bs with
    | nil =>
      cases rs with
      | nil => rfl
      | cons _ _ => simp at hl
    | cons _ _ => rfl
  rw [e] at h
  have hlen : ∀ ts : List Tr, (nests ts).length = ts.length := by
    intro ts
    induction ts with
    | nil => rfl
    | cons t ts ih => rw [nests, List.length_cons, ih, List.length_cons]
  obtain ⟨a, rs', h1, h2, h3⟩ := nestRest_fin n.kind bs (nests rs) _ t (by rw [hlen]; exact hl) h
  rw [Tr.calls, callsAll, callsAll, callsAll, callNode] at h1
  obtain ⟨l', r', h4, h5, h6⟩ := named_op h1
  exact ⟨l', r', rs', h4, h5, h2, by rw [h3, h6]⟩

theorem fin_single {n : Node} (hk : n.kind = .add ∨ n.kind = .mul) {k t : Tr}
    (h : fin (.mk n [] [k]) = .ok t) : fin k = .ok t := by
  have h1 : unName n.kind = none := by rcases hk with h | h <;> rw [h] <;> rfl
  unfold fin at h ⊢
  rw [Tr.nest, nestNode_nil, nests, nests, Tr.calls, callsAll, callsAll, callNode, h1] at h
  simpa only [hk, if_true] using h

/-! ## Scopes of children -/

/-- The children of a node in a scope. -/
def seqOk (n : Node) (E X : List Bind) (l it : Bool) : List Tr → Prop
  | [] => True
  | t :: ts => t.ok (n.loopBind ++ X) E l it ∧
      seqOk n E (t.decl.toList.map .var ++ X) false false ts

theorem oks_seq (n : Node) (R E : List Bind) : ∀ (ts : List Tr) (b : List String) (l it : Bool),
    oks n R E b l it ts ↔ seqOk n E (b.map .var ++ R) l it ts
  | [], _, _, _ => by simp [oks, seqOk]
  | t :: ts, b, l, it => by
    rw [oks, seqOk, oks_seq n R E ts]
    simp

theorem ok_mk (n : Node) (ops : List BinOp) (kids : List Tr) (D E : List Bind) (l it : Bool) :
    (Tr.mk n ops kids).ok D E l it ↔
      (n.kind = .item → ¬ (it = true ∧ kids = []) →
        ∃ x, n.name = some x ∧ (x = "return" ∨ seen x 0 D = true)) ∧
      seqOk n (enterOf n kids) (E ++ D) (decide (n.op = some .assign)) l kids := by
  rw [Tr.ok, oks_seq]
  simp

theorem ok_node {n : Node} (hk : n.kind ≠ .item) (ops : List BinOp) (kids : List Tr) (D E : List Bind)
    (l it : Bool) : (Tr.mk n ops kids).ok D E l it ↔
      seqOk n (enterOf n kids) (E ++ D) (decide (n.op = some .assign)) l kids := by
  rw [ok_mk]
  simp [hk]

theorem ok_plain {n : Node} (hk : n.kind ≠ .item) (ho : n.op = none) (ops : List BinOp) (kids : List Tr)
    (D E : List Bind) (l it : Bool) : (Tr.mk n ops kids).ok D E l it ↔
      seqOk n (enterOf n kids) (E ++ D) false l kids := by
  rw [ok_node hk, ho]
  simp

theorem after_eq (e : Src) (X : List Bind) : (declared e).toList.map .var ++ X = after e X := by
  unfold after
  cases declared e <;> rfl

/-- The name of the first tree, if it is not a variable with properties. -/
def headName (ts : List Tr) : Option String :=
  ts.head?.bind fun t => if t.itemIds then none else t.node.name

/-- What is declared by the first tree. -/
def headDecl (ts : List Tr) : Option String :=
  ts.head?.bind fun a =>
    if a.node.op = some .assign then a.kids.head?.bind fun l => headName l.kids else none

theorem Tr.decl_eq (t : Tr) : t.decl = headDecl t.kids := by
  unfold Tr.decl headDecl headName
  cases t.kids.head? <;> rfl

/-- The scope of what is inside a node for an expression. -/
def conOk (R : List Bind) (it : Bool) : List Tr → Prop
  | [] => True
  | t :: _ => t.ok R [] false it

/-- The trees are what the node of the expression has inside. -/
structure Good (e : Src) (ts : List Tr) : Prop where
  one : ts.length ≤ 1
  scope : ∀ R it, conOk R it ts ↔ (it = true ∧ isVar e = true) ∨ Spec.fits R e
  decl : headDecl ts = declared e
  left : headName ts = leftName e

/-- What an expression changes in the node it is in. -/
structure Flags (e : Src) (n n' : Node) : Prop where
  kind : n'.kind = if isReturn e then .returnVoid else n.kind
  names : n'.names = n.names
  op : n'.op = n.op
  level : n'.grabLevel = n.grabLevel
  mutable : n'.mutable = (n.mutable || Front.Spec.isMut e)

/-- The node of an expression. -/
structure Box (k : Kind) (e : Src) (t : Tr) : Prop where
  ok : ∀ D E l it, t.ok D E l it ↔ (l = true ∧ isVar e = true) ∨ Spec.fits (E ++ D) e
  decl : t.decl = declared e
  left : headName t.kids = leftName e
  op : t.node.op = none
  name : t.node.names = []
  kind : t.node.kind = if isReturn e then .returnVoid else k
  mutable : t.node.mutable = Front.Spec.isMut e

/-- Kinds of nodes of expressions. -/
def Kind.box : Kind → Bool
  | .expr | .callArg | .left | .right | .ret | .arrayItem | .fill | .n | .val | .iter | .init | .cond
  | .step | .start | .end' | .elseIfCond | .x | .y | .z | .w | .ex | .ey | .ez | .ew | .linkItem
  | .id => true
  | _ => false

/-- Kinds that are in no way special for the scope. -/
def Kind.calm (k : Kind) : Bool :=
  !(k = .item || k = .grab || k = .closure || k.isDeclLoop || k.isDeclUnLoop || k.isInLoop)

theorem Kind.box_facts {k : Kind} (h : k.box = true) : k.noType = true ∧ k.still = true ∧ k.calm = true := by
  cases k <;> first | decide | (cases h)

theorem Kind.calm_facts {n : Node} (h : n.kind.calm = true) : n.kind ≠ .item ∧ n.loopBind = [] ∧
    ∀ kids, enterOf n kids = [] := by
  simp only [Kind.calm, Bool.not_eq_true', Bool.or_eq_false_iff, decide_eq_false_iff_not] at h
  obtain ⟨⟨⟨⟨⟨h1, h2⟩, h3⟩, h4⟩, h5⟩, h6⟩ := h
  refine ⟨h1, ?_, fun kids => ?_⟩
  · simp [Node.loopBind, h4, h5, h6]
  · simp [enterOf, h2, h3]

theorem ok_calm {n : Node} (hk : n.kind.calm = true) (ho : n.op = none) (ops : List BinOp) (kids : List Tr)
    (D E : List Bind) (l it : Bool) : (Tr.mk n ops kids).ok D E l it ↔
      seqOk n [] (E ++ D) false l kids := by
  obtain ⟨h1, _, h3⟩ := Kind.calm_facts hk
  rw [ok_plain h1 ho, h3]

theorem seqOk_con {n : Node} (h : n.loopBind = []) (X : List Bind) (it : Bool) : ∀ {ts : List Tr},
    ts.length ≤ 1 → (seqOk n [] X false it ts ↔ conOk X it ts)
  | [], _ => by simp [seqOk, conOk]
  | [t], _ => by simp [seqOk, conOk, h]
  | _ :: _ :: _, h => by simp at h

theorem Good.box {e : Src} {n : Node} {ops : List BinOp} {ts : List Tr} {k : Kind} (h : Good e ts)
    (hk : n.kind = if isReturn e then .returnVoid else k) (hc : k.calm = true) (ho : n.op = none)
    (hn : n.names = []) (hm : n.mutable = Front.Spec.isMut e) : Box k e (.mk n ops ts) := by
  have hc' : n.kind.calm = true := by
    rw [hk]
    cases isReturn e
    · exact hc
    · rfl
  obtain ⟨h1, h2, h3⟩ := Kind.calm_facts hc'
  refine ⟨fun D E l it => ?_, by rw [Tr.decl_eq]; exact h.decl, h.left, ho, hn, hk, hm⟩
  rw [ok_node h1, h3, ho]
  simp only [reduceCtorEq, decide_false]
  rw [seqOk_con h2 _ _ h.one, h.scope]

theorem seqOk_box {k : Kind} {e : Src} {t : Tr} (h : Box k e t) (n : Node) (E X : List Bind) (l it : Bool)
    (ts : List Tr) : seqOk n E X l it (t :: ts) ↔
      ((l = true ∧ isVar e = true) ∨ Spec.fits (E ++ (n.loopBind ++ X)) e) ∧
        seqOk n E (after e X) false false ts := by
  rw [seqOk, h.ok, h.decl, after_eq]

theorem seqOk_box' {k : Kind} {e : Src} {t : Tr} (h : Box k e t) (n : Node) (E X : List Bind) (it : Bool)
    (ts : List Tr) : seqOk n E X false it (t :: ts) ↔
      Spec.fits (E ++ (n.loopBind ++ X)) e ∧ seqOk n E (after e X) false false ts := by
  rw [seqOk_box h]
  simp

/-- Nodes of expressions. -/
inductive Boxes (k : Kind) : List Src → List Tr → Prop
  | nil : Boxes k [] []
  | cons {e es t ts} : Box k e t → Boxes k es ts → Boxes k (e :: es) (t :: ts)

theorem Boxes.seq {k : Kind} {n : Node} (hn : n.loopBind = []) : ∀ {es : List Src} {ts : List Tr},
    Boxes k es ts → ∀ X it, seqOk n [] X false it ts ↔ fitsSeq X es
  | _, _, .nil, X, it => by simp [seqOk, Spec.fitsSeq]
  | _, _, .cons h1 h2, X, it => by
    rw [seqOk_box' h1, h2.seq hn, hn, fitsSeq]
    rfl

theorem Boxes.isArg {es : List Src} {ts : List Tr} (h : Boxes .callArg es ts) :
    (ts.filter Tr.isArg).map (·.node.mutable) = muts es := by
  unfold muts
  induction h with
  | nil => rfl
  | @cons e es t ts h1 h2 ih =>
    have : t.isArg = !isReturn e := by
      unfold Tr.isArg
      rw [h1.kind]
      cases isReturn e <;> rfl
    cases hr : isReturn e
    · simp [List.filter_cons, this, hr, ih, h1.mutable]
    · simp [List.filter_cons, this, hr, ih]

section
variable [FloatOps] [Data.Lex]

/-- What the checker makes of the reports of an expression. -/
def C (e : Src) : Prop := ∀ n ops ks o, addParts (n, ops, ks) e.tree = .ok o → ∃ n' ts,
  o = (n', ops, ks ++ ts) ∧ Flags e n n' ∧ ∀ ts', finAll ts = .ok ts' → Good e ts'

theorem box_raw {e : Src} (he : C e) {l : L} {k : Kind} (hk : kindOf l = some k) (hb : k.box = true) {n : Node}
    {ops : List BinOp} {ks : List Tr} {r : List Cst} {o : Node × List BinOp × List Tr}
    (h : addParts (n, ops, ks) (.node l e.tree :: r) = .ok o) : ∃ n0 ts,
      addParts (n, ops, ks ++ [.mk n0 [] ts]) r = .ok o ∧ n0.kind.still = true ∧
      (n0.kind = if isReturn e then .returnVoid else k) ∧ n0.op = none ∧ n0.names = [] ∧
      n0.mutable = Front.Spec.isMut e ∧ ∀ ts', finAll ts = .ok ts' → Good e ts' := by
  obtain ⟨n', ops', ks', h1, h2⟩ := addParts_node hk (Kind.box_facts hb).1 h
  obtain ⟨n'', ts, h3, h4, h5⟩ := he _ _ _ _ h1
  cases h3
  refine ⟨n', ts, h2, ?_, h4.kind, h4.op, h4.names, by rw [h4.mutable]; simp, h5⟩
  rw [h4.kind]
  cases isReturn e
  · exact (Kind.box_facts hb).2.1
  · rfl

theorem box {e : Src} (he : C e) {l : L} {k : Kind} (hk : kindOf l = some k) (hb : k.box = true) {n : Node}
    {ops : List BinOp} {ks : List Tr} {r : List Cst} {o : Node × List BinOp × List Tr}
    (h : addParts (n, ops, ks) (.node l e.tree :: r) = .ok o) : ∃ t,
      addParts (n, ops, ks ++ [t]) r = .ok o ∧ ∀ t', fin t = .ok t' → Box k e t' := by
  obtain ⟨n0, ts, h1, h2, h3, h4, h5, h6, h7⟩ := box_raw he hk hb h
  refine ⟨_, h1, fun t' ht => ?_⟩
  obtain ⟨ts', h8, h9⟩ := fin_still ht h2
  rw [h9]
  exact (h7 ts' h8).box h3 (Kind.box_facts hb).2.2 h4 h5 h6

theorem boxes {l : L} {k : Kind} (hk : kindOf l = some k) (hb : k.box = true) {n : Node}
    {ops : List BinOp} {r : List Cst} {o : Node × List BinOp × List Tr} : ∀ {es : List Src},
    (∀ e ∈ es, C e) → ∀ {ks : List Tr}, addParts (n, ops, ks) (trees l es ++ r) = .ok o → ∃ ts,
      addParts (n, ops, ks ++ ts) r = .ok o ∧ ∀ ts', finAll ts = .ok ts' → Boxes k es ts'
  | [], _, ks, h => ⟨[], by rw [trees] at h; simpa using h, fun ts' h => by rw [finAll_nil h]; exact .nil⟩
  | e :: es, he, ks, h => by
    rw [trees, List.cons_append] at h
    obtain ⟨t, h1, h2⟩ := box (he e (by simp)) hk hb h
    obtain ⟨ts, h3, h4⟩ := boxes hk hb (fun e h => he e (by simp [h])) h1
    refine ⟨t :: ts, by simpa using h3, fun ts' h5 => ?_⟩
    obtain ⟨t', r, h6, h7, h8⟩ := finAll_cons h5
    rw [h8]
    exact .cons (h2 t' h6) (h4 r h7)

/-- The block of statements. -/
structure Blk (es : List Src) (t : Tr) : Prop where
  ok : ∀ D E l it, t.ok D E l it ↔ fitsSeq (E ++ D) es
  decl : t.decl = none
  op : t.node.op = none
  name : t.node.names = []
  kind : t.node.kind ≠ .arg ∧ t.node.kind ≠ .current

theorem Boxes.decl {k : Kind} {es : List Src} {ts : List Tr} (h : Boxes k es ts) : headDecl ts = none := by
  cases h with
  | nil => rfl
  | cons h1 h2 => simp [headDecl, h1.op]

theorem blk {es : List Src} (he : ∀ e ∈ es, C e) {l : L} {k : Kind} (hk : kindOf l = some k)
    (hb : k.isBlock = true) {n : Node}
    {ops : List BinOp} {ks : List Tr} {r : List Cst} {o : Node × List BinOp × List Tr}
    (h : addParts (n, ops, ks) (.node l (trees .expr es) :: r) = .ok o) : ∃ t,
      addParts (n, ops, ks ++ [t]) r = .ok o ∧ ∀ t', fin t = .ok t' → Blk es t' := by
  have hf : k.noType = true ∧ k.still = true ∧ k.calm = true := by
    cases k <;> first | decide | (cases hb)
  obtain ⟨n', ops', ks', h1, h2⟩ := addParts_node hk hf.1 h
  rw [← List.append_nil (trees .expr es)] at h1
  obtain ⟨ts, h3, h4⟩ := boxes (k := .expr) rfl rfl he h1
  rw [addParts_nil] at h3
  cases h3
  refine ⟨_, h2, fun t' ht => ?_⟩
  obtain ⟨ts', h5, h6⟩ := fin_still ht hf.2.1
  have hb := h4 ts' h5
  obtain ⟨g1, g2, g3⟩ := Kind.calm_facts (n := { kind := k, ty := startTy k }) hf.2.2
  rw [h6]
  refine ⟨fun D E l it => ?_, by rw [Tr.decl_eq]; exact hb.decl, rfl, rfl, by
    cases k <;> simp_all [Kind.isBlock, Tr.node]⟩
  rw [ok_node g1, g3]
  simp only [reduceCtorEq, decide_false]
  rw [hb.seq g2]

theorem seqOk_blk {es : List Src} {t : Tr} (h : Blk es t) (n : Node) (E X : List Bind) (l it : Bool)
    (ts : List Tr) : seqOk n E X l it (t :: ts) ↔
      fitsSeq (E ++ (n.loopBind ++ X)) es ∧ seqOk n E X false false ts := by
  rw [seqOk, h.ok, h.decl]
  rfl

/-! ## Expressions with a node of their own -/

/-- The tree of an expression with a node of its own. -/
structure One (e : Src) (t : Tr) : Prop where
  scope : ∀ R it, t.ok R [] false it ↔ (it = true ∧ isVar e = true) ∨ Spec.fits R e
  decl : headDecl [t] = declared e
  left : headName [t] = leftName e

theorem one_good {e : Src} {t : Tr} (h : One e t) : Good e [t] := ⟨by simp, h.scope, h.decl, h.left⟩

theorem c_node {e : Src} {l : L} {k : Kind} {kids : List Cst} (ht : e.tree = [.node l kids])
    (hr : isReturn e = false) (hm : Front.Spec.isMut e = false) (hk : kindOf l = some k)
    (hn : k.noType = true)
    (h : ∀ n ops ks, addParts ({ kind := k, ty := startTy k }, [], []) kids = .ok (n, ops, ks) →
      ∀ t, fin (.mk n ops ks) = .ok t → One e t) : C e := by
  intro n ops ks o h1
  rw [ht] at h1
  obtain ⟨n', ops', ks', h2, h3⟩ := addParts_node hk hn h1
  rw [addParts_nil] at h3
  cases h3
  refine ⟨n, [.mk n' ops' ks'], rfl, ⟨by simp [hr], rfl, rfl, rfl, by simp [hm]⟩, fun ts' h4 => ?_⟩
  obtain ⟨t', h5, h6⟩ := finAll_one h4
  rw [h6]
  exact one_good (h _ _ _ h2 t' h5)

theorem addParts_label (n : Node) (ops : List BinOp) (ks : List Tr) (label : Option String) (r : List Cst) :
    addParts (n, ops, ks) (strOpt .label label ++ r) = addParts (n, ops, ks) r := by
  cases label with
  | none => rfl
  | some s => exact addParts_str ..

theorem addParts_alias (n : Node) (ops : List BinOp) (ks : List Tr) (a : Option String) (r : List Cst) :
    addParts (n, ops, ks) (strOpt .alias a ++ r) =
      addParts ({ n with «alias» := a.or n.alias }, ops, ks) r := by
  cases a with
  | none => rfl
  | some s => exact addParts_str ..

/-- An expression whose node has no assignment and is not a variable. -/
theorem one_plain {e : Src} {t : Tr} (hv : isVar e = false) (hd : declared e = none)
    (ho : t.node.op = none) (hl : headName [t] = leftName e) (h : ∀ R it, t.ok R [] false it ↔ Spec.fits R e) :
    One e t :=
  ⟨fun R it => by rw [h]; simp [hv], by rw [hd]; simp [headDecl, ho], hl⟩

theorem headName_one {n : Node} (hk : n.kind ≠ .item) (ops : List BinOp) (kids : List Tr) :
    headName [.mk n ops kids] = n.name := by
  simp [headName, Tr.itemIds, Tr.node, hk]

theorem c_in {a : Option String} {n : String} : C (.in_ a n) := by
  refine c_node (k := .in') (by rw [Src.tree]) rfl rfl rfl rfl fun m ops ks h t ht => ?_
  rw [addParts_alias, addParts_str, addParts_nil] at h
  cases h
  cases fin_leaf ht rfl
  refine one_plain rfl rfl rfl (headName_one (by simp [addStr]) ..) fun R it => ?_
  rw [ok_node (by simp [addStr])]
  simp [seqOk, Spec.fits]

theorem c_array {es : List Src} (he : ∀ e ∈ es, C e) : C (.array es) := by
  refine c_node (k := .array) (by rw [Src.tree]) rfl rfl rfl rfl fun m ops ks h t ht => ?_
  rw [← List.append_nil (trees .arrayItem es)] at h
  obtain ⟨ts, h3, h4⟩ := boxes (k := .arrayItem) rfl rfl he h
  rw [addParts_nil] at h3
  cases h3
  obtain ⟨ts', h5, rfl⟩ := fin_still ht rfl
  refine one_plain rfl rfl rfl (headName_one (by simp) ..) fun R it => ?_
  rw [ok_node (by simp)]
  exact (h4 ts' h5).seq rfl _ _

theorem c_link {es : List Src} (he : ∀ e ∈ es, C e) : C (.link es) := by
  refine c_node (k := .link) (by rw [Src.tree]) rfl rfl rfl rfl fun m ops ks h t ht => ?_
  rw [← List.append_nil (trees .linkItem es)] at h
  obtain ⟨ts, h3, h4⟩ := boxes (k := .linkItem) rfl rfl he h
  rw [addParts_nil] at h3
  cases h3
  obtain ⟨ts', h5, rfl⟩ := fin_still ht rfl
  refine one_plain rfl rfl rfl (headName_one (by simp) ..) fun R it => ?_
  rw [ok_node (by simp)]
  exact (h4 ts' h5).seq rfl _ _

theorem c_block {es : List Src} (he : ∀ e ∈ es, C e) : C (.block es) := by
  refine c_node (k := .block) (by rw [Src.tree]) rfl rfl rfl rfl fun m ops ks h t ht => ?_
  rw [← List.append_nil (trees .expr es)] at h
  obtain ⟨ts, h3, h4⟩ := boxes (k := .expr) rfl rfl he h
  rw [addParts_nil] at h3
  cases h3
  obtain ⟨ts', h5, rfl⟩ := fin_still ht rfl
  refine one_plain rfl rfl rfl (headName_one (by simp) ..) fun R it => ?_
  rw [ok_node (by simp)]
  exact (h4 ts' h5).seq rfl _ _

theorem c_arrayFill {f n : Src} (hf : C f) (hn : C n) : C (.arrayFill f n) := by
  refine c_node (k := .arrayFill) (by rw [Src.tree]) rfl rfl rfl rfl fun m ops ks h t ht => ?_
  obtain ⟨t1, h, b1⟩ := box hf (k := .fill) rfl rfl h
  obtain ⟨t2, h, b2⟩ := box hn (k := .n) rfl rfl h
  rw [addParts_nil] at h
  cases h
  obtain ⟨ts', h5, rfl⟩ := fin_still ht rfl
  obtain ⟨t1', r1, f1, w1, rfl⟩ := finAll_cons h5
  obtain ⟨t2', f2, rfl⟩ := finAll_one w1
  refine one_plain rfl rfl rfl (headName_one (by simp) ..) fun R it => ?_
  rw [ok_calm rfl rfl, seqOk_box' (b1 _ f1), seqOk_box' (b2 _ f2)]
  simp [seqOk, Spec.fits, Node.loopBind, enterOf, Kind.isDeclLoop, Kind.isDeclUnLoop, Kind.isInLoop]

theorem c_loop {label : Option String} {es : List Src} (he : ∀ e ∈ es, C e) : C (.loop label es) := by
  refine c_node (k := .loop) (by rw [Src.tree]) rfl rfl rfl rfl fun m ops ks h t ht => ?_
  rw [addParts_label] at h
  obtain ⟨t1, h, b1⟩ := blk he (k := .block) rfl rfl h
  rw [addParts_nil] at h
  cases h
  obtain ⟨ts', h5, rfl⟩ := fin_still ht rfl
  obtain ⟨t1', f1, rfl⟩ := finAll_one h5
  refine one_plain rfl rfl rfl (headName_one (by simp) ..) fun R it => ?_
  rw [ok_calm rfl rfl, seqOk_blk (b1 _ f1)]
  simp [seqOk, Spec.fits, Node.loopBind, enterOf, Kind.isDeclLoop, Kind.isDeclUnLoop, Kind.isInLoop]

theorem c_for {label : Option String} {a b c : Src} {es : List Src} (ha : C a) (hb : C b) (hc : C c)
    (he : ∀ e ∈ es, C e) : C (.for_ label a b c es) := by
  refine c_node (k := .for) (by rw [Src.tree]) rfl rfl rfl rfl fun m ops ks h t ht => ?_
  rw [addParts_label] at h
  obtain ⟨t1, h, b1⟩ := box ha (k := .init) rfl rfl h
  obtain ⟨t2, h, b2⟩ := box hb (k := .cond) rfl rfl h
  obtain ⟨t3, h, b3⟩ := box hc (k := .step) rfl rfl h
  obtain ⟨t4, h, b4⟩ := blk he (k := .block) rfl rfl h
  rw [addParts_nil] at h
  cases h
  obtain ⟨ts', h5, rfl⟩ := fin_still ht rfl
  obtain ⟨t1', r1, f1, w1, rfl⟩ := finAll_cons h5
  obtain ⟨t2', r2, f2, w2, rfl⟩ := finAll_cons w1
  obtain ⟨t3', r3, f3, w3, rfl⟩ := finAll_cons w2
  obtain ⟨t4', f4, rfl⟩ := finAll_one w3
  refine one_plain rfl rfl rfl (headName_one (by simp) ..) fun R it => ?_
  rw [ok_calm rfl rfl, seqOk_box' (b1 _ f1), seqOk_box' (b2 _ f2), seqOk_box' (b3 _ f3),
    seqOk_blk (b4 _ f4)]
  simp [seqOk, Spec.fits, Node.loopBind, enterOf, Kind.isDeclLoop, Kind.isDeclUnLoop, Kind.isInLoop]

theorem c_brk {label : Option String} : C (.brk label) := by
  refine c_node (k := .brk) (by rw [Src.tree]) rfl rfl rfl rfl fun m ops ks h t ht => ?_
  rw [← List.append_nil (strOpt .label label), addParts_label, addParts_nil] at h
  cases h
  cases fin_leaf ht rfl
  refine one_plain rfl rfl rfl (headName_one (by simp) ..) fun R it => ?_
  rw [ok_node (by simp)]
  simp [seqOk, Spec.fits]

theorem c_cont {label : Option String} : C (.cont label) := by
  refine c_node (k := .cont) (by rw [Src.tree]) rfl rfl rfl rfl fun m ops ks h t ht => ?_
  rw [← List.append_nil (strOpt .label label), addParts_label, addParts_nil] at h
  cases h
  cases fin_leaf ht rfl
  refine one_plain rfl rfl rfl (headName_one (by simp) ..) fun R it => ?_
  rw [ok_node (by simp)]
  simp [seqOk, Spec.fits]

theorem forIn_facts (k : ForInKind) : ∃ k', kindOf (.forIn k) = some k' ∧ k'.noType = true ∧
    k'.still = true ∧ k'.isInLoop = true := by
  cases k <;> exact ⟨_, rfl, rfl, rfl, rfl⟩

theorem forN_facts (k : ForKind) : ∃ k', kindOf (.forN k) = some k' ∧ k'.noType = true ∧
    k'.still = true ∧ k'.isDeclLoop = true := by
  cases k <;> exact ⟨_, rfl, rfl, rfl, rfl⟩

theorem inLoop_facts {n : Node} (h : n.kind.isInLoop = true ∨ n.kind.isDeclLoop = true) :
    n.kind ≠ .item ∧ n.loopBind = [.loop n.names] ∧ ∀ kids, enterOf n kids = [] := by
  refine ⟨?_, by rcases h with h | h <;> simp [Node.loopBind, h], fun kids => ?_⟩
  · intro hk; rw [hk] at h; rcases h with h | h <;> cases h
  · have h1 : n.kind ≠ .grab := by intro hk; rw [hk] at h; rcases h with h | h <;> cases h
    have h2 : n.kind ≠ .closure := by intro hk; rw [hk] at h; rcases h with h | h <;> cases h
    simp [enterOf, h1, h2]

theorem c_forIn {k : ForInKind} {label : Option String} {n : String} {e : Src} {es : List Src} (h1 : C e)
    (he : ∀ e ∈ es, C e) : C (.forIn k label n e es) := by
  obtain ⟨k', g1, g2, g3, g4⟩ := forIn_facts k
  refine c_node (k := k') (by rw [Src.tree]) rfl rfl g1 g2 fun m ops ks h t ht => ?_
  rw [addParts_label, addParts_str] at h
  obtain ⟨t1, h, b1⟩ := box h1 (k := .iter) rfl rfl h
  obtain ⟨t2, h, b2⟩ := blk he (k := .block) rfl rfl h
  rw [addParts_nil] at h
  cases h
  obtain ⟨ts', h5, rfl⟩ := fin_still ht g3
  obtain ⟨t1', r1, f1, w1, rfl⟩ := finAll_cons h5
  obtain ⟨t2', f2, rfl⟩ := finAll_one w1
  obtain ⟨q1, q2, q3⟩ := inLoop_facts (n := addStr { kind := k', ty := startTy k' } .name n) (Or.inl g4)
  refine one_plain rfl rfl rfl (headName_one q1 ..) fun R it => ?_
  rw [ok_node q1, q3]
  have : (decide ((addStr { kind := k', ty := startTy k' } .name n).op = some .assign)) = false := rfl
  rw [this, seqOk_box' (b1 _ f1), seqOk_blk (b2 _ f2), q2]
  simp [seqOk, Spec.fits, addStr]

theorem c_assign {l r : Src} {op : AssignOp} (hl : C l) (hr : C r) : C (.assign l op r) := by
  refine c_node (k := .assign) (by rw [Src.tree]) rfl rfl rfl rfl fun m ops ks h t ht => ?_
  obtain ⟨t1, h, b1⟩ := box hl (k := .left) rfl rfl h
  rw [addParts_bool] at h
  obtain ⟨t2, h, b2⟩ := box hr (k := .right) rfl rfl h
  rw [addParts_nil] at h
  cases h
  obtain ⟨ts', h5, rfl⟩ := fin_still ht rfl
  obtain ⟨t1', r1, f1, w1, rfl⟩ := finAll_cons h5
  obtain ⟨t2', f2, rfl⟩ := finAll_one w1
  refine ⟨fun R it => ?_, ?_, headName_one (by simp [addBool]) ..⟩
  · rw [ok_node (by simp [addBool]), seqOk_box (b1 _ f1), seqOk_box' (b2 _ f2)]
    simp [seqOk, Spec.fits, isVar, Node.loopBind, enterOf, Kind.isDeclLoop, Kind.isDeclUnLoop, Kind.isInLoop,
      addBool]
  · have := (b1 _ f1).left
    cases op <;> simp [headDecl, Tr.node, Tr.kids, addBool, declared]
    exact this

/-! ## Operators -/

theorem opCall_ok {n : Node} (hn : n.op = none) (b : BinOp) {l : Tr} (hl : l.node.op = none) (r : Tr)
    (D E : List Bind) (x it : Bool) :
    (opCall n b l r).ok D E x it ↔ l.ok (E ++ D) [] false false ∧ r.ok (E ++ D) [] false false := by
  unfold opCall
  rw [ok_calm (n := { n with kind := .call, names := n.names ++ [Syn.checkName b] }) rfl hn]
  have h1 : ∀ (t : Tr) (x : Bool), (Tr.mk { kind := .callArg } [] [t]).ok (E ++ D) [] false x ↔
      t.ok (E ++ D) [] false false := by
    intro t x
    rw [ok_calm rfl rfl]
    simp [seqOk, Node.loopBind, Kind.isDeclLoop, Kind.isDeclUnLoop, Kind.isInLoop]
  have h2 : (Tr.mk { kind := .callArg } [] [l]).decl = none := by
    rw [Tr.decl_eq]
    simp [Tr.kids, headDecl, hl]
  rw [seqOk, seqOk, seqOk, h2]
  obtain ⟨_, g2, _⟩ := Kind.calm_facts (n := { n with kind := .call, names := n.names ++ [Syn.checkName b] })
    (rfl : Kind.calm .call = true)
  have h3 : ∀ x, (Tr.mk { kind := .callArg } [] [l]).ok (E ++ D) [] false x ↔ l.ok (E ++ D) [] false false :=
    h1 l
  rw [g2, List.nil_append, h3]
  simp only [Option.toList_none, List.map_nil, List.nil_append, and_true]
  rw [h1]

theorem chainT_nil (k : Kind) (acc : Tr) : chainT k acc [] [] = acc := rfl

theorem chainT_ok {k : Kind} {P : List Bind → Prop} {R : List Bind} : ∀ {bs : List BinOp} {ts : List Tr} {acc : Tr},
    bs.length = ts.length → acc.node.op = none → (∀ x it, acc.ok R [] x it ↔ P R) → ∀ x it,
    ((chainT k acc bs ts).ok R [] x it ↔ P R ∧ ∀ t ∈ ts, t.ok R [] false false)
  | [], [], acc, _, _, h, x, it => by rw [chainT_nil, h]; simp
  | b :: bs, t :: ts, acc, hl, ho, h, x, it => by
    rw [chainT, chainT_ok (P := fun R => P R ∧ t.ok R [] false false) (by simpa using hl) rfl]
    · simp [and_assoc]
    · intro x it
      rw [opCall_ok rfl b ho, List.nil_append, h]
  | [], _ :: _, _, hl, _, _, _, _ => by simp at hl
  | _ :: _, [], _, hl, _, _, _, _ => by simp at hl

theorem chainT_node {k : Kind} : ∀ {bs : List BinOp} {ts : List Tr} {acc : Tr}, bs.length = ts.length →
    (bs = [] ∧ chainT k acc bs ts = acc) ∨ ((chainT k acc bs ts).node.kind = .call ∧
      (chainT k acc bs ts).node.op = none ∧
      (chainT k acc bs ts).node.name = bs.getLast?.map Syn.callName)
  | [], [], acc, _ => Or.inl ⟨rfl, rfl⟩
  | b :: bs, t :: ts, acc, hl => by
    refine Or.inr ?_
    rw [chainT]
    rcases chainT_node (k := k) (bs := bs) (ts := ts) (acc := opCall { kind := k } b acc t)
      (by simpa using hl) with ⟨rfl, h⟩ | ⟨h1, h2, h3⟩
    · rw [h]
      exact ⟨rfl, rfl, by simp [opCall, Tr.node, Node.name, Syn.C38_same_functions]⟩
    · refine ⟨h1, h2, ?_⟩
      rw [h3]
      cases bs with
      | nil =>
        cases ts with
        | nil =>
          rw [chainT_nil] at h3
          simp [opCall, Tr.node, Node.name] at h3
        | cons _ _ => simp at hl
      | cons _ _ => simp [List.getLast?_cons_cons]
  | [], _ :: _, _, hl => by simp at hl
  | _ :: _, [], _, hl => by simp at hl

theorem addParts_op (n : Node) (ops : List BinOp) (ks : List Tr) (op : BinOp) (r : List Cst) :
    addParts (n, ops, ks) (.bool (opTok op) true :: r) = addParts (n, ops ++ [op], ks) r := by
  rw [addParts_bool]
  cases op <;> rfl

theorem c_compare {l r : Src} {op : BinOp} (hl : C l) (hr : C r) : C (.compare l op r) := by
  refine c_node (k := .compare) (by rw [Src.tree]) rfl rfl rfl rfl fun m ops ks h t ht => ?_
  obtain ⟨t1, h, b1⟩ := box hl (k := .expr) rfl rfl h
  rw [addParts_op] at h
  obtain ⟨t2, h, b2⟩ := box hr (k := .expr) rfl rfl h
  rw [addParts_nil] at h
  cases h
  obtain ⟨t1', t2', rs, f1, f2, f3, rfl⟩ := fin_chain rfl ht
  cases f3
  refine one_plain rfl rfl rfl ?_ fun R it => ?_
  · simp [chainT, opCall, headName, Tr.itemIds, Tr.node, Node.name, leftName, Syn.C38_same_functions]
  · rw [chainT_nil, opCall_ok rfl op (b1 _ f1).op, (b1 _ f1).ok, (b2 _ f2).ok]
    simp [Spec.fits]

/-- The tree of a factor. -/
structure Fac (P : List Bind → Prop) (t : Tr) : Prop where
  op : t.node.op = none
  ok : ∀ D E it, t.ok D E false it ↔ P (E ++ D)

/-- Trees of factors. -/
inductive Facs {α : Type} (P : α → List Bind → Prop) : List α → List Tr → Prop
  | nil : Facs P [] []
  | cons {a as t ts} : Fac (P a) t → Facs P as ts → Facs P (a :: as) (t :: ts)

theorem Facs.length {α : Type} {P : α → List Bind → Prop} {as : List α} {ts : List Tr} (h : Facs P as ts) :
    ts.length = as.length := by
  induction h with
  | nil => rfl
  | cons _ _ ih => simp [ih]

theorem Facs.all {α : Type} {P : α → List Bind → Prop} {as : List α} {ts : List Tr} (h : Facs P as ts)
    (R : List Bind) : (∀ t ∈ ts, t.ok R [] false false) ↔ ∀ a ∈ as, P a R := by
  induction h with
  | nil => simp
  | cons h1 _ ih => simp [h1.ok, ih]

/-- A sequence of operators. -/
theorem chain_fac {α : Type} {P : α → List Bind → Prop} {k : Kind} (hk : k = .add ∨ k = .mul) {n : Node}
    (hnk : n.kind = k) (hno : n.op = none) (hnn : n.names = [])
    {a : α} {rest : List (BinOp × α)} {t1 : Tr} {ts : List Tr} (h1 : ∀ t', fin t1 = .ok t' → Fac (P a) t')
    (hl : ts.length = rest.length)
    (h2 : ∀ ts', finAll ts = .ok ts' → Facs P (rest.map (·.2)) ts') {t : Tr}
    (ht : fin (.mk n (rest.map (·.1)) (t1 :: ts)) = .ok t) :
    (rest = [] ∧ fin t1 = .ok t ∧ Fac (P a) t) ∨ (t.node.kind = .call ∧
      t.node.name = rest.getLast?.map (fun r => Syn.callName r.1) ∧
      Fac (fun R => P a R ∧ ∀ x ∈ rest, P x.2 R) t) := by
  cases rest with
  | nil =>
    cases ts with
    | nil =>
      have := fin_single (by rw [hnk]; exact hk) ht
      exact Or.inl ⟨rfl, this, h1 t this⟩
    | cons _ _ => simp at hl
  | cons r rest =>
    cases ts with
    | nil => simp at hl
    | cons t2 ts =>
      right
      obtain ⟨t1', t2', ts', f1, f2, f3, rfl⟩ := fin_chain (by simpa using hl.symm) ht
      have hf : finAll (t2 :: ts) = .ok (t2' :: ts') := by
        unfold finAll at f3 ⊢
        unfold fin at f2
        rw [nests, callsAll, namedAll, f2, f3]
        rfl
      have hfs := h2 _ hf
      have hfa := hfs.length
      cases hfs with
      | cons g1 g2 =>
        have hlen : (rest.map (·.1)).length = ts'.length := by simpa using hfa.symm
        have hnode := chainT_node (k := n.kind) (acc := opCall n r.1 t1' t2') hlen
        have hname : (chainT n.kind (opCall n r.1 t1' t2') (rest.map (·.1)) ts').node.kind = .call ∧
            (chainT n.kind (opCall n r.1 t1' t2') (rest.map (·.1)) ts').node.op = none ∧
            (chainT n.kind (opCall n r.1 t1' t2') (rest.map (·.1)) ts').node.name =
              (r :: rest).getLast?.map (fun r => Syn.callName r.1) := by
          rcases hnode with ⟨he, h⟩ | ⟨q1, q2, q3⟩
          · rw [h]
            cases rest with
            | nil => exact ⟨rfl, hno, by simp [opCall, Tr.node, Node.name, hnn, Syn.C38_same_functions]⟩
            | cons _ _ => simp at he
          · refine ⟨q1, q2, ?_⟩
            rw [q3]
            cases rest with
            | nil =>
              cases ts' with
              | nil => simp [chainT, opCall, Tr.node, Node.name, hnn] at q3
              | cons _ _ => simp at hlen
            | cons x xs =>
              rw [List.getLast?_cons_cons, List.getLast?_map, Option.map_map]
              rfl
        refine ⟨hname.1, hname.2.2, hname.2.1, fun D E it => ?_⟩
        have hE : ∀ (t : Tr), t.node.kind = .call → t.node.op = none →
            (t.ok D E false it ↔ t.ok (E ++ D) [] false it) := by
          rintro ⟨m, o, kk⟩ hk ho
          simp only [Tr.node] at hk ho
          rw [ok_calm (by rw [hk]; rfl) ho, ok_calm (by rw [hk]; rfl) ho]
          simp
        rw [hE _ hname.1 hname.2.1, chainT_ok (P := fun R => P a R ∧ P r.2 R) hlen (by exact hno)]
        · rw [g2.all]
          simp [and_assoc]
          exact fun _ _ => ⟨fun h a b => h b a, fun h a b => h b a⟩
        · intro x it
          rw [opCall_ok hno _ (h1 _ f1).op, (h1 _ f1).ok, g1.ok]
          simp

/-- What the checker makes of a factor. -/
def COpd (o : Opd) : Prop := ∀ n ops ks r x, addParts (n, ops, ks) (o.tree :: r) = .ok x → ∃ t,
  addParts (n, ops, ks ++ [t]) r = .ok x ∧ ∀ t', fin t = .ok t' → Fac (fitsOpd · o) t'

/-- What the checker makes of a product. -/
def CProd (p : Prod') : Prop := ∀ n ops ks r x, addParts (n, ops, ks) (.node .mul p.tree :: r) = .ok x → ∃ t,
  addParts (n, ops, ks ++ [t]) r = .ok x ∧ ∀ t', fin t = .ok t' → Fac (fitsProd · p) t'

theorem mul_rest : ∀ {rest : List (BinOp × Opd)}, (∀ x ∈ rest, COpd x.2) → ∀ {n ops ks x},
    addParts (n, ops, ks) (treeMul rest) = .ok x → ∃ ts, x = (n, ops ++ rest.map (·.1), ks ++ ts) ∧
      ts.length = rest.length ∧
      ∀ ts', finAll ts = .ok ts' → Facs (fun o R => fitsOpd R o) (rest.map (·.2)) ts'
  | [], _, n, ops, ks, x, h => by
    rw [treeMul, addParts_nil] at h
    cases h
    exact ⟨[], by simp, rfl, fun ts' h => by rw [finAll_nil h]; exact .nil⟩
  | (op, o) :: rest, hr, n, ops, ks, x, h => by
    rw [treeMul, addParts_op] at h
    obtain ⟨t, h1, h2⟩ := hr _ (List.mem_cons_self ..) _ _ _ _ _ h
    obtain ⟨ts, h3, h4, h5⟩ := mul_rest (fun x h => hr x (by simp [h])) h1
    refine ⟨t :: ts, by rw [h3]; simp, by simp [h4], fun ts' h => ?_⟩
    obtain ⟨t', r, h6, h7, h8⟩ := finAll_cons h
    rw [h8]
    exact .cons (h2 _ h6) (h5 _ h7)

theorem fitsMul_iff (D : List Bind) : ∀ rest : List (BinOp × Opd), fitsMul D rest ↔ ∀ x ∈ rest, fitsOpd D x.2
  | [] => by simp [fitsMul]
  | (op, o) :: r => by simp [fitsMul, fitsMul_iff D r]

theorem fitsAdd_iff (D : List Bind) : ∀ rest : List (BinOp × Prod'), fitsAdd D rest ↔ ∀ x ∈ rest, fitsProd D x.2
  | [] => by simp [fitsAdd]
  | (op, o) :: r => by simp [fitsAdd, fitsAdd_iff D r]

theorem c_prod {first : Opd} {rest : List (BinOp × Opd)} (hf : COpd first) (hr : ∀ x ∈ rest, COpd x.2) :
    CProd (.mk first rest) := by
  intro n ops ks r x h
  obtain ⟨n', ops', ks', h1, h2⟩ := addParts_node (k := .mul) rfl rfl h
  rw [Prod'.tree] at h1
  obtain ⟨t, h3, h4⟩ := hf _ _ _ _ _ h1
  obtain ⟨ts, h5, h6, h7⟩ := mul_rest hr h3
  cases h5
  refine ⟨_, h2, fun t' ht => ?_⟩
  rcases chain_fac (P := fun o R => fitsOpd R o) (Or.inr rfl) rfl rfl rfl h4 h6 h7 ht with
    ⟨rfl, _, h⟩ | ⟨_, _, h⟩
  · exact ⟨h.op, fun D E it => by rw [h.ok, fitsProd]; simp [fitsMul]⟩
  · exact ⟨h.op, fun D E it => by rw [h.ok, fitsProd, fitsMul_iff]⟩

/-- The node `expr` of a product, before the changes. -/
theorem expr_mul {p : Prod'} (hp : CProd p) {n ops ks r x}
    (h : addParts (n, ops, ks) (.node .expr [.node .mul p.tree] :: r) = .ok x) : ∃ t,
      addParts (n, ops, ks ++ [.mk { kind := .expr, ty := startTy .expr } [] [t]]) r = .ok x ∧
      ∀ t', fin t = .ok t' → Fac (fitsProd · p) t' := by
  obtain ⟨n', ops', ks', h1, h2⟩ := addParts_node (k := .expr) rfl rfl h
  obtain ⟨t, h3, h4⟩ := hp _ _ _ _ _ h1
  rw [addParts_nil] at h3
  cases h3
  exact ⟨t, h2, h4⟩

theorem fac_in {P : List Bind → Prop} {t : Tr} (h : Fac P t) {n : Node} (hk : n.kind.calm = true)
    (ho : n.op = none) : Fac P (.mk n [] [t]) := by
  refine ⟨ho, fun D E it => ?_⟩
  obtain ⟨_, g2, _⟩ := Kind.calm_facts hk
  rw [ok_calm hk ho, seqOk, seqOk, g2, h.ok]
  simp

theorem fac_expr {P : List Bind → Prop} {t : Tr} (h : ∀ t', fin t = .ok t' → Fac P t') {t' : Tr}
    (ht : fin (.mk { kind := .expr, ty := startTy .expr } [] [t]) = .ok t') : Fac P t' ∧
      t'.node.kind = .expr ∧ t'.node.names = [] := by
  obtain ⟨ts', h1, rfl⟩ := fin_still ht rfl
  obtain ⟨t1, h2, rfl⟩ := finAll_one h1
  exact ⟨fac_in (h _ h2) rfl rfl, rfl, rfl⟩

theorem c_neg {p : Prod'} (hp : CProd p) : COpd (.neg p) := by
  intro n ops ks r x h
  rw [Opd.tree] at h
  obtain ⟨n', ops', ks', h1, h2⟩ := addParts_node (k := .neg) rfl rfl h
  obtain ⟨t, h3, h4⟩ := expr_mul hp h1
  rw [addParts_nil] at h3
  cases h3
  refine ⟨_, h2, fun t' ht => ?_⟩
  obtain ⟨ks', m, h5, h6, rfl⟩ := fin_un (f := "neg") rfl rfl ht
  obtain ⟨t1, h7, rfl⟩ := finAll_one h5
  obtain ⟨hm, _, _⟩ := mutNode_ok h6
  have := fac_in (fac_in (h4 _ h7) (n := { kind := .callArg, ty := startTy .expr }) rfl rfl) (n := m)
    (by rw [hm.kind]; rfl) hm.op
  exact ⟨this.op, fun D E it => by rw [fitsOpd]; exact this.ok D E it⟩

theorem c_pow {l r : Src} (hl : C l) (hr : C r) : COpd (.pow l r) := by
  intro n ops ks rr x h
  rw [Opd.tree] at h
  obtain ⟨n', ops', ks', h1, h2⟩ := addParts_node (k := .pow) rfl rfl h
  obtain ⟨t1, h, b1⟩ := box hl (k := .expr) rfl rfl h1
  have e : Cst.bool B.pow true = .bool (opTok .pow) true := rfl
  rw [e, addParts_op] at h
  obtain ⟨t2, h, b2⟩ := box hr (k := .expr) rfl rfl h
  rw [addParts_nil] at h
  cases h
  refine ⟨_, h2, fun t' ht => ?_⟩
  obtain ⟨t1', t2', rs, f1, f2, f3, rfl⟩ := fin_chain rfl ht
  cases f3
  refine ⟨rfl, fun D E it => ?_⟩
  rw [chainT_nil, opCall_ok rfl _ (b1 _ f1).op, (b1 _ f1).ok, (b2 _ f2).ok, fitsOpd]
  simp

theorem c_operand {e : Src} (he : C e) : COpd (.plain e) := by
  intro n ops ks r x h
  rw [Opd.tree] at h
  obtain ⟨t1, h1, b1⟩ := box he (k := .expr) rfl rfl h
  refine ⟨t1, h1, fun t' ht => ⟨(b1 _ ht).op, fun D E it => ?_⟩⟩
  rw [(b1 _ ht).ok, fitsOpd]
  simp

theorem add_rest : ∀ {rest : List (BinOp × Prod')}, (∀ x ∈ rest, CProd x.2) → ∀ {n ops ks x},
    addParts (n, ops, ks) (treeAdd rest) = .ok x → ∃ ts, x = (n, ops ++ rest.map (·.1), ks ++ ts) ∧
      ts.length = rest.length ∧
      ∀ ts', finAll ts = .ok ts' → Facs (fun o R => fitsProd R o) (rest.map (·.2)) ts'
  | [], _, n, ops, ks, x, h => by
    rw [treeAdd, addParts_nil] at h
    cases h
    exact ⟨[], by simp, rfl, fun ts' h => by rw [finAll_nil h]; exact .nil⟩
  | (op, o) :: rest, hr, n, ops, ks, x, h => by
    rw [treeAdd, addParts_op] at h
    obtain ⟨t, h1, h2⟩ := expr_mul (hr _ (List.mem_cons_self ..)) h
    obtain ⟨ts, h3, h4, h5⟩ := add_rest (fun x h => hr x (by simp [h])) h1
    refine ⟨_ :: ts, by rw [h3]; simp; rfl, by simp [h4], fun ts' h => ?_⟩
    obtain ⟨t', r, h6, h7, h8⟩ := finAll_cons h
    rw [h8]
    exact .cons (fac_expr h2 h6).1 (h5 _ h7)

theorem c_add {first : Prod'} {rest : List (BinOp × Prod')} (hf : CProd first)
    (hr : ∀ x ∈ rest, CProd x.2) : C (.add first rest) := by
  refine c_node (k := .add) (by rw [Src.tree]) rfl rfl rfl rfl fun m ops ks h t ht => ?_
  obtain ⟨t1, h3, h4⟩ := expr_mul hf h
  obtain ⟨ts, h5, h6, h7⟩ := add_rest hr h3
  cases h5
  rcases chain_fac (P := fun o R => fitsProd R o) (Or.inl rfl) rfl rfl rfl
    (fun t' ht => (fac_expr h4 ht).1) h6 h7 ht with ⟨rfl, h1, h⟩ | ⟨h1, h2, h⟩
  · obtain ⟨_, g2, g3⟩ := fac_expr h4 h1
    refine one_plain rfl rfl h.op ?_ fun R it => ?_
    · simp [headName, Tr.itemIds, g2, Node.name, g3, leftName]
    · rw [h.ok, Spec.fits]; simp [fitsAdd]
  · refine one_plain rfl rfl h.op ?_ fun R it => ?_
    · simp [headName, Tr.itemIds, h1, h2, leftName]
    · rw [h.ok, Spec.fits, fitsAdd_iff]; simp

/-! ## The other expressions -/

theorem Flags.refl {e : Src} (hr : isReturn e = false) (hm : Front.Spec.isMut e = false) (n : Node) :
    Flags e n n := ⟨by simp [hr], rfl, rfl, rfl, by simp [hm]⟩

theorem c_retVoid : C .retVoid := by
  intro n ops ks o h
  rw [Src.tree, addParts_bool, addParts_nil] at h
  cases h
  refine ⟨addBool n .returnVoid true, [], by simp [addOp],
    ⟨rfl, rfl, rfl, rfl, by simp [addBool, Front.Spec.isMut]⟩, fun ts' h => ?_⟩
  rw [finAll_nil h]
  exact ⟨by simp, fun R it => by simp [conOk, Spec.fits], rfl, rfl⟩

theorem good_nil {e : Src} (hv : isVar e = false) (hd : declared e = none) (hl : leftName e = none)
    (hf : ∀ R, Spec.fits R e) {ts : List Tr} (h : finAll [] = .ok ts) : Good e ts := by
  rw [finAll_nil h]
  exact ⟨by simp, fun R it => by simp [conOk, hf], hd.symm, hl.symm⟩

theorem c_text {x : String} : C (.text x) := by
  intro n ops ks o h
  rw [Src.tree, addParts_str, addParts_nil] at h
  cases h
  exact ⟨addStr n .text x, [], by simp, ⟨rfl, rfl, rfl, rfl, by simp [addStr, Front.Spec.isMut]⟩,
    fun ts' h => good_nil rfl rfl rfl (fun R => by simp [Spec.fits]) h⟩

theorem c_color {x : String} : C (.color x) := by
  intro n ops ks o h
  rw [Src.tree, addParts_str, addParts_nil] at h
  cases h
  exact ⟨addStr n .color x, [], by simp, ⟨rfl, rfl, rfl, rfl, by simp [addStr, Front.Spec.isMut]⟩,
    fun ts' h => good_nil rfl rfl rfl (fun R => by simp [Spec.fits]) h⟩

theorem c_num {x : F64} : C (.num x) := by
  intro n ops ks o h
  rw [Src.tree, addParts_num] at h
  simp only [addNum, bind, Except.bind] at h
  rw [addParts_nil] at h
  cases h
  exact ⟨{ n with ty := some .f64 }, [], by simp, ⟨rfl, rfl, rfl, rfl, by simp [Front.Spec.isMut]⟩,
    fun ts' h => good_nil rfl rfl rfl (fun R => by simp [Spec.fits]) h⟩

theorem c_bool {x : Bool} : C (.bool x) := by
  intro n ops ks o h
  rw [Src.tree, addParts_bool, addParts_nil] at h
  cases h
  exact ⟨addBool n .bool x, [], by simp [addOp],
    ⟨rfl, rfl, rfl, rfl, by simp [addBool, Front.Spec.isMut]⟩,
    fun ts' h => good_nil rfl rfl rfl (fun R => by simp [Spec.fits]) h⟩

theorem c_paren {e : Src} (he : C e) : C (.paren e) := by
  intro n ops ks o h
  rw [Src.tree] at h
  obtain ⟨n', ts, h1, h2, h3⟩ := he _ _ _ _ h
  refine ⟨n', ts, h1, ⟨h2.kind, h2.names, h2.op, h2.level, h2.mutable⟩, fun ts' h => ?_⟩
  have := h3 ts' h
  refine ⟨this.one, fun R it => ?_, this.decl, this.left⟩
  rw [this.scope]
  simp [isVar, Spec.fits]

theorem c_try {e : Src} (he : C e) : C (.try_ e) := by
  intro n ops ks o h
  rw [Src.tree] at h
  obtain ⟨o1, h0, h⟩ := addParts_append h
  obtain ⟨n', ts, rfl, h2, h3⟩ := he _ _ _ _ h0
  rw [addParts_bool, addParts_nil] at h
  cases h
  refine ⟨_, ts, congrArg _ (congrArg₂ _ (List.append_nil _) rfl),
    ⟨h2.kind, h2.names, h2.op, h2.level, h2.mutable⟩, fun ts' h => ?_⟩
  have := h3 ts' h
  refine ⟨this.one, fun R it => ?_, this.decl, this.left⟩
  rw [this.scope]
  simp [isVar, Spec.fits]

theorem c_ret {e : Src} (he : C e) : C (.ret e) := by
  intro n ops ks o h
  rw [Src.tree] at h
  obtain ⟨t1, h, b1⟩ := box he (k := .ret) rfl rfl h
  rw [addParts_nil] at h
  cases h
  refine ⟨n, [t1], rfl, Flags.refl rfl rfl n, fun ts' h => ?_⟩
  obtain ⟨t', f1, rfl⟩ := finAll_one h
  have hb := b1 _ f1
  refine one_good (one_plain rfl rfl hb.op ?_ fun R it => ?_)
  · have : t'.node.kind ≠ .item := by rw [hb.kind]; cases isReturn e <;> simp
    simp [headName, Tr.itemIds, this, Node.name, hb.name, leftName]
  · rw [hb.ok]; simp [Spec.fits]

/-- Keys and values. -/
theorem kvs_seq : ∀ {kvs : List (String × Src)}, (∀ x ∈ kvs, C x.2) → ∀ {n ops ks x},
    addParts (n, ops, ks) (treeKVs kvs) = .ok x → ∃ ts, x = (n, ops, ks ++ ts) ∧
      ∀ ts', finAll ts = .ok ts' → ∀ m : Node, m.loopBind = [] → ∀ X it,
        (seqOk m [] X false it ts' ↔ fitsAll X kvs)
  | [], _, n, ops, ks, x, h => by
    rw [treeKVs, addParts_nil] at h
    cases h
    exact ⟨[], by simp, fun ts' h m _ X it => by rw [finAll_nil h]; simp [seqOk, fitsAll]⟩
  | (k, e) :: kvs, he, n, ops, ks, x, h => by
    rw [treeKVs] at h
    obtain ⟨n', ops', ks', h1, h2⟩ := addParts_node (k := .keyValue) rfl rfl h
    rw [addParts_str] at h1
    obtain ⟨t1, h1, b1⟩ := box (he (k, e) (by simp)) (k := .val) rfl rfl h1
    rw [addParts_nil] at h1
    cases h1
    obtain ⟨ts, h3, h4⟩ := kvs_seq (fun x h => he x (by simp [h])) h2
    refine ⟨_ :: ts, by rw [h3]; simp; rfl, fun ts' h m hm X it => ?_⟩
    obtain ⟨t', r, h6, h7, rfl⟩ := finAll_cons h
    obtain ⟨ks', h8, rfl⟩ := fin_still h6 rfl
    obtain ⟨t1', f1, rfl⟩ := finAll_one h8
    have hb := b1 _ f1
    rw [seqOk, ok_calm rfl rfl, seqOk_box' hb, Tr.decl_eq, fitsAll, hm]
    have : headDecl [t1'] = none := by simp [headDecl, hb.op]
    simp only [Tr.kids, this, Option.toList_none, List.map_nil, List.nil_append]
    rw [h4 _ h7 m hm]
    simp [seqOk, Node.loopBind, addStr, Kind.isDeclLoop, Kind.isDeclUnLoop, Kind.isInLoop]

theorem c_object {kvs : List (String × Src)} (he : ∀ x ∈ kvs, C x.2) : C (.object kvs) := by
  refine c_node (k := .object) (by rw [Src.tree]) rfl rfl rfl rfl fun m ops ks h t ht => ?_
  obtain ⟨ts, h3, h4⟩ := kvs_seq he h
  cases h3
  obtain ⟨ts', h5, rfl⟩ := fin_still ht rfl
  refine one_plain rfl rfl rfl (headName_one (by simp) ..) fun R it => ?_
  rw [ok_calm rfl rfl, h4 ts' h5 _ rfl, Spec.fits]
  rfl

theorem var_seq : ∀ {vs : List Var}, (∀ e ∈ ranges vs, C e) → ∀ {n ops ks r x},
    addParts (n, ops, ks) (treeVars vs ++ r) = .ok x → ∃ ts,
      addParts ({ n with names := n.names ++ varNames vs }, ops, ks ++ ts) r = .ok x ∧
      ∀ ts', finAll ts = .ok ts' → ∀ (m : Node) (xs : List String), m.loopBind = [.loop xs] → ∀ X rest,
        (seqOk m [] X false false (ts' ++ rest) ↔ fitsVars xs X vs ∧
          seqOk m [] (afters (ranges vs) X) false false rest)
  | [], _, n, ops, ks, r, x, h => by
    rw [treeVars] at h
    refine ⟨[], by simpa [varNames] using h, fun ts' h m xs _ X rest => ?_⟩
    rw [finAll_nil h]
    simp [fitsVars, afters, ranges]
  | .plain a :: vs, he, n, ops, ks, r, x, h => by
    rw [treeVars, Var.tree, List.append_assoc, List.singleton_append, addParts_str] at h
    obtain ⟨ts, h1, h2⟩ := var_seq (vs := vs) (fun e h => he e (by simpa [ranges] using h)) h
    refine ⟨ts, by simpa [varNames, addStr] using h1, fun ts' h m xs hm X rest => ?_⟩
    rw [h2 ts' h m xs hm, fitsVars, ranges]
  | .upto a b :: vs, he, n, ops, ks, r, x, h => by
    rw [treeVars, Var.tree, List.append_assoc, List.cons_append, List.singleton_append, addParts_str] at h
    obtain ⟨t1, h, b1⟩ := box (he b (by simp [ranges])) (k := .end') rfl rfl h
    obtain ⟨ts, h1, h2⟩ := var_seq (vs := vs) (fun e h => he e (by simp [ranges, h])) h
    refine ⟨t1 :: ts, by simpa [varNames, addStr] using h1, fun ts' h m xs hm X rest => ?_⟩
    obtain ⟨t', r, h6, h7, rfl⟩ := finAll_cons h
    rw [List.cons_append, seqOk_box' (b1 _ h6), h2 _ h7 m xs hm, fitsVars, ranges, afters, hm]
    simp [and_assoc]
  | .range a b c :: vs, he, n, ops, ks, r, x, h => by
    rw [treeVars, Var.tree, List.append_assoc, List.cons_append, List.cons_append, List.singleton_append,
      addParts_str] at h
    obtain ⟨t1, h, b1⟩ := box (he b (by simp [ranges])) (k := .start) rfl rfl h
    obtain ⟨t2, h, b2⟩ := box (he c (by simp [ranges])) (k := .end') rfl rfl h
    obtain ⟨ts, h1, h2⟩ := var_seq (vs := vs) (fun e h => he e (by simp [ranges, h])) h
    refine ⟨t1 :: t2 :: ts, by simpa [varNames, addStr] using h1, fun ts' h m xs hm X rest => ?_⟩
    obtain ⟨t', r, h6, h7, rfl⟩ := finAll_cons h
    obtain ⟨t2', r', h8, h9, rfl⟩ := finAll_cons h7
    rw [List.cons_append, List.cons_append, seqOk_box' (b1 _ h6), seqOk_box' (b2 _ h8), h2 _ h9 m xs hm,
      fitsVars, ranges, afters, afters, hm]
    simp [and_assoc]

theorem c_forN {k : ForKind} {label : Option String} {vs : List Var} {es : List Src}
    (hv : ∀ e ∈ ranges vs, C e) (he : ∀ e ∈ es, C e) : C (.forN k label vs es) := by
  obtain ⟨k', g1, g2, g3, g4⟩ := forN_facts k
  refine c_node (k := k') (by rw [Src.tree]) rfl rfl g1 g2 fun m ops ks h t ht => ?_
  rw [List.append_assoc, addParts_label] at h
  obtain ⟨ts, h, b1⟩ := var_seq hv h
  obtain ⟨t2, h, b2⟩ := blk he (k := .block) rfl rfl h
  rw [addParts_nil] at h
  cases h
  obtain ⟨ts', h5, rfl⟩ := fin_still ht g3
  obtain ⟨t1', r1, f1, w1, rfl⟩ := finAll_append h5
  obtain ⟨t2', f2, rfl⟩ := finAll_one w1
  obtain ⟨q1, q2, q3⟩ := inLoop_facts (n := { kind := k', ty := startTy k', names := [] ++ varNames vs })
    (Or.inr g4)
  refine one_plain rfl rfl rfl ?_ fun R it => ?_
  · rw [headName_one q1]
    cases vs with
    | nil => rfl
    | cons v vs => cases v <;> rfl
  · rw [ok_plain q1 rfl, q3, b1 _ f1 _ _ q2, seqOk_blk (b2 _ f2), q2]
    simp [seqOk, Spec.fits]

theorem elif_seq : ∀ {es : List (Src × List Src)}, (∀ x ∈ es, C x.1 ∧ ∀ e ∈ x.2, C e) → ∀ {n ops ks r x},
    addParts (n, ops, ks) (treeElifs es ++ r) = .ok x → ∃ ts,
      addParts (n, ops, ks ++ ts) r = .ok x ∧
      ∀ ts', finAll ts = .ok ts' → ∀ (m : Node), m.loopBind = [] → ∀ X rest,
        (seqOk m [] X false false (ts' ++ rest) ↔ fitsElifs X es ∧
          seqOk m [] (afters (es.map (·.1)) X) false false rest)
  | [], _, n, ops, ks, r, x, h => by
    rw [treeElifs] at h
    refine ⟨[], by simpa using h, fun ts' h m _ X rest => ?_⟩
    rw [finAll_nil h]
    simp [fitsElifs, afters]
  | (c, b) :: es, he, n, ops, ks, r, x, h => by
    rw [treeElifs, List.cons_append, List.cons_append] at h
    obtain ⟨t1, h, b1⟩ := box (he (c, b) (by simp)).1 (k := .elseIfCond) rfl rfl h
    obtain ⟨t2, h, b2⟩ := blk (he (c, b) (by simp)).2 (k := .elseIfBlock) rfl rfl h
    obtain ⟨ts, h1, h2⟩ := elif_seq (es := es) (fun e h => he e (by simp [h])) h
    refine ⟨t1 :: t2 :: ts, by simpa using h1, fun ts' h m hm X rest => ?_⟩
    obtain ⟨t', r, h6, h7, rfl⟩ := finAll_cons h
    obtain ⟨t2', r', h8, h9, rfl⟩ := finAll_cons h7
    rw [List.cons_append, List.cons_append, seqOk_box' (b1 _ h6), seqOk_blk (b2 _ h8), h2 _ h9 m hm,
      fitsElifs, List.map_cons, afters, hm]
    simp [and_assoc]

theorem c_ite {c : Src} {thn : List Src} {es : List (Src × List Src)} {els : Option (List Src)} (hc : C c)
    (ht : ∀ e ∈ thn, C e) (he : ∀ x ∈ es, C x.1 ∧ ∀ e ∈ x.2, C e) (hl : ∀ b ∈ els, ∀ e ∈ b, C e) :
    C (.ite c thn es els) := by
  refine c_node (k := .if') (by rw [Src.tree]) rfl rfl rfl rfl fun m ops ks h t htt => ?_
  rw [List.cons_append, List.cons_append] at h
  obtain ⟨t1, h, b1⟩ := box hc (k := .cond) rfl rfl h
  obtain ⟨t2, h, b2⟩ := blk ht (k := .trueBlock) rfl rfl h
  obtain ⟨ts, h, b3⟩ := elif_seq he h
  cases els with
  | none =>
    rw [treeElse, addParts_nil] at h
    cases h
    obtain ⟨ts', h5, rfl⟩ := fin_still htt rfl
    obtain ⟨t1', r1, f1, w1, rfl⟩ := finAll_cons h5
    obtain ⟨t2', r2, f2, w2, rfl⟩ := finAll_cons w1
    refine one_plain rfl rfl rfl (headName_one (by simp) ..) fun R it => ?_
    have := b3 _ w2 { kind := .if', ty := startTy .if' } rfl (after c R) []
    rw [List.append_nil] at this
    rw [ok_calm rfl rfl, List.nil_append R, seqOk_box' (b1 _ f1), seqOk_blk (b2 _ f2), this]
    simp [seqOk, Spec.fits, fitsElse, Node.loopBind, Kind.isDeclLoop, Kind.isDeclUnLoop, Kind.isInLoop]
  | some b =>
    rw [treeElse] at h
    obtain ⟨t4, h, b4⟩ := blk (hl b rfl) (k := .elseBlock) rfl rfl h
    rw [addParts_nil] at h
    cases h
    obtain ⟨ts', h5, rfl⟩ := fin_still htt rfl
    simp only [List.nil_append, List.cons_append, List.append_assoc] at h5
    obtain ⟨t1', r1, f1, w1, rfl⟩ := finAll_cons h5
    obtain ⟨t2', r2, f2, w2, rfl⟩ := finAll_cons w1
    obtain ⟨t3', r3, f3, w3, rfl⟩ := finAll_append w2
    obtain ⟨t4', f4, rfl⟩ := finAll_one w3
    refine one_plain rfl rfl rfl (headName_one (by simp) ..) fun R it => ?_
    have := b3 _ f3 { kind := .if', ty := startTy .if' } rfl (after c R) [t4']
    rw [ok_calm rfl rfl, List.nil_append R, seqOk_box' (b1 _ f1), seqOk_blk (b2 _ f2), this, seqOk_blk (b4 _ f4)]
    simp [seqOk, Spec.fits, fitsElse, Node.loopBind, Kind.isDeclLoop, Kind.isDeclUnLoop, Kind.isInLoop]

theorem opt_seq {l : L} {k : Kind} (hk : kindOf l = some k) (hb : k.box = true) {o : Option Src}
    (he : ∀ e ∈ o, C e) {n ops ks r x} (h : addParts (n, ops, ks) (treeOpt l o ++ r) = .ok x) : ∃ ts,
      addParts (n, ops, ks ++ ts) r = .ok x ∧
      ∀ ts', finAll ts = .ok ts' → ∀ (m : Node), m.loopBind = [] → ∀ X rest,
        (seqOk m [] X false false (ts' ++ rest) ↔ fitsOpt X o ∧
          seqOk m [] (afterOpt o X) false false rest) := by
  cases o with
  | none =>
    rw [treeOpt] at h
    refine ⟨[], by simpa using h, fun ts' h m _ X rest => ?_⟩
    rw [finAll_nil h]
    simp [fitsOpt, afterOpt]
  | some e =>
    rw [treeOpt, List.singleton_append] at h
    obtain ⟨t1, h, b1⟩ := box (he e rfl) hk hb h
    refine ⟨[t1], h, fun ts' h m hm X rest => ?_⟩
    obtain ⟨t1', f1, rfl⟩ := finAll_one h
    rw [List.singleton_append, seqOk_box' (b1 _ f1), hm, fitsOpt, afterOpt]
    simp

theorem c_mat4 {x : Src} {y z w : Option Src} (hx : C x) (hy : ∀ e ∈ y, C e) (hz : ∀ e ∈ z, C e)
    (hw : ∀ e ∈ w, C e) : C (.mat4 x y z w) := by
  refine c_node (k := .mat4) (by rw [Src.tree]) rfl rfl rfl rfl fun m ops ks h t ht => ?_
  rw [List.cons_append, List.cons_append] at h
  obtain ⟨t1, h, b1⟩ := box hx (k := .ex) rfl rfl h
  rw [List.append_assoc, ← List.append_nil (treeOpt .ew w)] at h
  obtain ⟨t2, h, b2⟩ := opt_seq (k := .ey) rfl rfl hy h
  obtain ⟨t3, h, b3⟩ := opt_seq (k := .ez) rfl rfl hz h
  obtain ⟨t4, h, b4⟩ := opt_seq (k := .ew) rfl rfl hw h
  rw [addParts_nil] at h
  cases h
  obtain ⟨ts', h5, rfl⟩ := fin_still ht rfl
  simp only [List.nil_append, List.cons_append, List.append_assoc] at h5
  obtain ⟨t1', r1, f1, w1, rfl⟩ := finAll_cons h5
  obtain ⟨t2', r2, f2, w2, rfl⟩ := finAll_append w1
  obtain ⟨t3', r3, f3, f4, rfl⟩ := finAll_append w2
  refine one_plain rfl rfl rfl (headName_one (by simp) ..) fun R it => ?_
  have := b4 _ f4 { kind := .mat4, ty := startTy .mat4 } rfl (afterOpt z (afterOpt y (after x R))) []
  rw [List.append_nil] at this
  rw [ok_calm rfl rfl, List.nil_append R, seqOk_box' (b1 _ f1), b2 _ f2 _ rfl, b3 _ f3 _ rfl, this]
  simp [seqOk, Spec.fits, Node.loopBind, Kind.isDeclLoop, Kind.isDeclUnLoop, Kind.isInLoop]

theorem c_vec4 {x : Src} {y z w : Option Src} (hx : C x) (hy : ∀ e ∈ y, C e) (hz : ∀ e ∈ z, C e)
    (hw : ∀ e ∈ w, C e) : C (.vec4 x y z w) := by
  refine c_node (k := .vec4) (by rw [Src.tree]) rfl rfl rfl rfl fun m ops ks h t ht => ?_
  rw [List.cons_append, List.cons_append] at h
  obtain ⟨t1, h, b1⟩ := box hx (k := .x) rfl rfl h
  rw [List.append_assoc, ← List.append_nil (treeOpt .w w)] at h
  obtain ⟨t2, h, b2⟩ := opt_seq (k := .y) rfl rfl hy h
  obtain ⟨t3, h, b3⟩ := opt_seq (k := .z) rfl rfl hz h
  obtain ⟨t4, h, b4⟩ := opt_seq (k := .w) rfl rfl hw h
  rw [addParts_nil] at h
  cases h
  obtain ⟨ts', h5, rfl⟩ := fin_still ht rfl
  simp only [List.nil_append, List.cons_append, List.append_assoc] at h5
  obtain ⟨t1', r1, f1, w1, rfl⟩ := finAll_cons h5
  obtain ⟨t2', r2, f2, w2, rfl⟩ := finAll_append w1
  obtain ⟨t3', r3, f3, f4, rfl⟩ := finAll_append w2
  refine one_plain rfl rfl rfl (headName_one (by simp) ..) fun R it => ?_
  have := b4 _ f4 { kind := .vec4, ty := startTy .vec4 } rfl (afterOpt z (afterOpt y (after x R))) []
  rw [List.append_nil] at this
  rw [ok_calm rfl rfl, List.nil_append R, seqOk_box' (b1 _ f1), b2 _ f2 _ rfl, b3 _ f3 _ rfl, this]
  simp [seqOk, Spec.fits, Node.loopBind, Kind.isDeclLoop, Kind.isDeclUnLoop, Kind.isInLoop]

theorem c_tryExpr {e : Src} (he : C e) : C (.tryExpr e) := by
  refine c_node (k := .tryExpr) (by rw [Src.tree]) rfl rfl rfl rfl fun m ops ks h t ht => ?_
  obtain ⟨t1, h, b1⟩ := box he (k := .expr) rfl rfl h
  rw [addParts_nil] at h
  cases h
  obtain ⟨ts', h5, rfl⟩ := fin_still ht rfl
  obtain ⟨t1', f1, rfl⟩ := finAll_one h5
  refine one_plain rfl rfl rfl (headName_one (by simp) ..) fun R it => ?_
  rw [ok_calm rfl rfl, seqOk_box' (b1 _ f1)]
  simp [seqOk, Spec.fits, Node.loopBind, Kind.isDeclLoop, Kind.isDeclUnLoop, Kind.isInLoop]

theorem grab_one {e : Src} {n : Node} {t1 t : Tr} (b1 : ∀ t', fin t1 = .ok t' → Box .expr e t')
    (hk : n.kind = .grab) (ho : n.op = none)
    (ht : fin (.mk n [] [t1]) = .ok t) : t.node = n ∧ t.decl = none ∧ ∀ D E it,
      t.ok D E false it ↔ Spec.fits (.grab (if n.grabLevel = 0 then 1 else n.grabLevel) :: (E ++ D)) e := by
  obtain ⟨ts', h5, rfl⟩ := fin_still ht (by rw [hk]; rfl)
  obtain ⟨t1', f1, rfl⟩ := finAll_one h5
  refine ⟨rfl, ?_, fun D E it => ?_⟩
  · rw [Tr.decl_eq]; simp [Tr.kids, headDecl, (b1 _ f1).op]
  · have hl : n.loopBind = [] := by
      simp [Node.loopBind, hk, Kind.isDeclLoop, Kind.isDeclUnLoop, Kind.isInLoop]
    rw [ok_plain (by rw [hk]; simp) ho, seqOk_box' (b1 _ f1), hl]
    simp [seqOk, enterOf, hk]

theorem c_grab {level : Option F64} {e : Src} (he : C e) : C (.grab level e) := by
  cases level with
  | none =>
    refine c_node (k := .grab) (by rw [Src.tree]) rfl rfl rfl rfl fun m ops ks h t ht => ?_
    obtain ⟨t1, h, b1⟩ := box he (k := .expr) rfl rfl h
    rw [addParts_nil] at h
    cases h
    obtain ⟨g1, g2, g3⟩ := grab_one b1 rfl rfl ht
    refine one_plain rfl rfl (by rw [g1]) ?_ fun R it => ?_
    · simp [headName, Tr.itemIds, g1, Node.name, leftName]
    · rw [g3]; simp [Spec.fits, grabLevel]
  | some x =>
    refine c_node (k := .grab) (by rw [Src.tree]) rfl rfl rfl rfl fun m ops ks h t ht => ?_
    rw [addParts_num] at h
    simp only [addNum] at h
    by_cases hx : F64.lt x F64.one = true
    · rw [if_pos hx] at h; cases h
    · rw [if_neg hx] at h
      simp only [bind, Except.bind] at h
      obtain ⟨t1, h, b1⟩ := box he (k := .expr) rfl rfl h
      rw [addParts_nil] at h
      cases h
      obtain ⟨g1, g2, g3⟩ := grab_one b1 rfl rfl ht
      refine one_plain rfl rfl (by rw [g1]) ?_ fun R it => ?_
      · simp [headName, Tr.itemIds, g1, Node.name, leftName]
      · rw [g3, Spec.fits]
        have : (if Front.toU16 x = 0 then 1 else Front.toU16 x) = grabLevel (some x) := by
          have h2 : ∀ a : Nat, (if a = 0 then 1 else a) = max 1 a := by
            intro a
            split <;> omega
          exact h2 _
        simp only [this, List.nil_append]

theorem un_one {e : Src} {n0 : Node} {ts : List Tr} {n : Node} {f : String} {t : Tr}
    (hs : n0.kind.still = true) (hn : n0.names = []) (ho0 : n0.op = none)
    (hm0 : n0.mutable = Front.Spec.isMut e) (hg : ∀ ts', finAll ts = .ok ts' → Good e ts')
    (hu : unName n.kind = some f) (ho : n.op = none) (hnn : n.names = [])
    (ht : fin (.mk n [] [.mk n0 [] ts]) = .ok t) : t.node.kind = .call ∧ t.node.op = none ∧
      t.node.name = some (Front.Spec.nameWith f [Front.Spec.isMut e]) ∧
      ∀ R it, t.ok R [] false it ↔ Spec.fits R e := by
  obtain ⟨ks, n', h1, h2, rfl⟩ := fin_un hu hs ht
  obtain ⟨h3, _, h4⟩ := mutNode_ok h2
  have hbox : ∃ e', e' = e ∧ ∀ D E, (Tr.mk { n0 with kind := .callArg } [] ks).ok D E false false ↔
      Spec.fits (E ++ D) e := by
    refine ⟨e, rfl, fun D E => ?_⟩
    obtain ⟨_, g2, _⟩ := Kind.calm_facts (n := { n0 with kind := .callArg }) rfl
    rw [ok_calm (n := { n0 with kind := .callArg }) rfl ho0, seqOk_con g2 _ _ (hg _ h1).one, (hg _ h1).scope]
    simp
  obtain ⟨_, _, hbox⟩ := hbox
  refine ⟨h3.kind, by rw [Tr.node, h3.op]; exact ho, ?_, fun R it => ?_⟩
  · rw [Tr.node, h4]
    simp [Node.name, hnn, Tr.isArg, Tr.node, hm0]
  · obtain ⟨_, g2, _⟩ := Kind.calm_facts (n := n') (by rw [h3.kind]; rfl)
    rw [ok_calm (by rw [h3.kind]; rfl) (by rw [h3.op]; exact ho), seqOk, seqOk, g2, hbox]
    simp

theorem c_not {e : Src} (he : C e) : C (.not e) := by
  refine c_node (k := .not) (by rw [Src.tree]) rfl rfl rfl rfl fun m ops ks h t ht => ?_
  obtain ⟨n0, ts, h1, h2, h3, h4, h5, h6, h7⟩ := box_raw he (k := .expr) rfl rfl h
  rw [addParts_nil] at h1
  cases h1
  obtain ⟨g1, g2, g3, g4⟩ := un_one h2 h5 h4 h6 h7 (f := "not") rfl rfl rfl ht
  refine one_plain rfl rfl g2 ?_ fun R it => ?_
  · simp [headName, Tr.itemIds, g1, g3, leftName]
  · rw [g4]; simp [Spec.fits]

theorem c_norm {e : Src} (he : C e) : C (.norm e) := by
  refine c_node (k := .norm) (by rw [Src.tree]) rfl rfl rfl rfl fun m ops ks h t ht => ?_
  obtain ⟨n0, ts, h1, h2, h3, h4, h5, h6, h7⟩ := box_raw he (k := .expr) rfl rfl h
  rw [addParts_nil] at h1
  cases h1
  obtain ⟨g1, g2, g3, g4⟩ := un_one h2 h5 h4 h6 h7 (f := "norm") rfl rfl rfl ht
  refine one_plain rfl rfl g2 ?_ fun R it => ?_
  · simp [headName, Tr.itemIds, g1, g3, leftName]
  · rw [g4]; simp [Spec.fits]

theorem c_unloop {len : Fin 3} {n : String} {e : Src} (he : C e) : C (.unloop len n e) := by
  refine c_node (k := .vec4UnLoop) (by rw [Src.tree]) rfl rfl rfl rfl fun m ops ks h t ht => ?_
  rw [addParts_bool, addParts_str] at h
  have e1 : addBool { kind := .vec4UnLoop, ty := startTy .vec4UnLoop } (lenTok len) true =
    { kind := .vec4UnLoop, ty := startTy .vec4UnLoop } := by unfold lenTok; split <;> rfl
  have e2 : addOp (lenTok len) = [] := by unfold lenTok; split <;> rfl
  rw [e1, e2] at h
  obtain ⟨t1, h, b1⟩ := box he (k := .expr) rfl rfl h
  rw [addParts_nil] at h
  cases h
  obtain ⟨ts', h5, rfl⟩ := fin_still ht rfl
  obtain ⟨t1', f1, rfl⟩ := finAll_one h5
  refine one_plain rfl rfl rfl (headName_one (by simp [addStr]) ..) fun R it => ?_
  rw [ok_plain (by simp [addStr]) rfl, seqOk_box' (b1 _ f1)]
  simp [seqOk, Spec.fits, Node.loopBind, addStr, enterOf, Kind.isDeclLoop, Kind.isDeclUnLoop, Kind.isInLoop]

/-- A letter of `xyz e`. -/
theorem sw_part {l : L} {k : Kind} (hk : kindOf l = some k) (hn : k.noType = true) (hs : k.still = true)
    (hc : k.calm = true) {i : Fin 4} {n ops ks r x}
    (h : addParts (n, ops, ks) (.node l [.bool (swTok i) true] :: r) = .ok x) : ∃ t,
      addParts (n, ops, ks ++ [t]) r = .ok x ∧ ∀ t', fin t = .ok t' → ∀ (m : Node) (E X : List Bind) (it : Bool) rest,
        (seqOk m E X false it (t' :: rest) ↔ seqOk m E X false false rest) := by
  obtain ⟨n', ops', ks', h1, h2⟩ := addParts_node hk hn h
  rw [addParts_bool, addParts_nil] at h1
  cases h1
  refine ⟨_, h2, fun t' ht m E X it rest => ?_⟩
  have e1 : addBool { kind := k, ty := startTy k } (swTok i) true = { kind := k, ty := startTy k } := by
    unfold swTok; split <;> rfl
  rw [e1] at ht
  cases fin_leaf ht hs
  rw [seqOk, ok_calm hc rfl]
  simp [seqOk, Tr.decl_eq, Tr.kids, headDecl]

theorem sw_opt {l : L} {k : Kind} (hk : kindOf l = some k) (hn : k.noType = true) (hs : k.still = true)
    (hc : k.calm = true) {i : Option (Fin 4)} {n ops ks r x}
    (h : addParts (n, ops, ks) (swOpt l i ++ r) = .ok x) : ∃ ts,
      addParts (n, ops, ks ++ ts) r = .ok x ∧ ∀ ts', finAll ts = .ok ts' →
        ∀ (m : Node) (E X : List Bind) rest,
        (seqOk m E X false false (ts' ++ rest) ↔ seqOk m E X false false rest) := by
  cases i with
  | none =>
    refine ⟨[], by simpa [swOpt] using h, fun ts' h m E X rest => ?_⟩
    rw [finAll_nil h]
    rfl
  | some i =>
    obtain ⟨t, h1, h2⟩ := sw_part hk hn hs hc h
    refine ⟨[t], h1, fun ts' h m E X rest => ?_⟩
    obtain ⟨t', f1, rfl⟩ := finAll_one h
    exact h2 _ f1 m E X false rest

theorem c_swizzle {a b : Fin 4} {c d : Option (Fin 4)} {e : Src} (he : C e) : C (.swizzle a b c d e) := by
  refine c_node (k := .swizzle) (by rw [Src.tree]) rfl rfl rfl rfl fun m ops ks h t ht => ?_
  simp only [List.cons_append, List.append_assoc] at h
  obtain ⟨t1, h, b1⟩ := sw_part (k := .sw0) rfl rfl rfl rfl h
  obtain ⟨t2, h, b2⟩ := sw_part (k := .sw1) rfl rfl rfl rfl h
  obtain ⟨t3, h, b3⟩ := sw_opt (k := .sw2) rfl rfl rfl rfl h
  obtain ⟨t4, h, b4⟩ := sw_opt (k := .sw3) rfl rfl rfl rfl h
  obtain ⟨t5, h, b5⟩ := box he (k := .expr) rfl rfl h
  rw [addParts_nil] at h
  cases h
  obtain ⟨ts', h5, rfl⟩ := fin_still ht rfl
  simp only [List.nil_append, List.cons_append, List.append_assoc] at h5
  obtain ⟨t1', r1, f1, w1, rfl⟩ := finAll_cons h5
  obtain ⟨t2', r2, f2, w2, rfl⟩ := finAll_cons w1
  obtain ⟨t3', r3, f3, w3, rfl⟩ := finAll_append w2
  obtain ⟨t4', r4, f4, w4, rfl⟩ := finAll_append w3
  obtain ⟨t5', f5, rfl⟩ := finAll_one w4
  refine one_plain rfl rfl rfl (headName_one (by simp) ..) fun R it => ?_
  rw [ok_calm rfl rfl, b1 _ f1, b2 _ f2, b3 _ f3, b4 _ f4, seqOk_box' (b5 _ f5)]
  simp [seqOk, Spec.fits, Node.loopBind, enterOf, Kind.isDeclLoop, Kind.isDeclUnLoop, Kind.isInLoop]

/-! ## Closures -/

theorem tyOf_tree (t : Front.TySrc) : tyOf t.tree = some t.ty := by
  obtain ⟨ps, h1, h2⟩ := Front.ty_tree "" t
  unfold tyOf
  rw [h1]
  simp only
  rw [h2]

theorem addParts_ty (n : Node) (ops : List BinOp) (ks : List Tr) {l : L} (hl : l = .type ∨ l = .retType)
    (o : Option Front.TySrc) (r : List Cst) :
    addParts (n, ops, ks) (tyOpt l o ++ r) =
      addParts ({ n with ty := (o.map Front.TySrc.ty).or n.ty }, ops, ks) r := by
  cases o with
  | none => rfl
  | some t =>
    rw [tyOpt, List.singleton_append, addParts, addPart]
    rcases hl with rfl | rfl
    · simp only [kindOf, true_or, if_true, tyOf_tree]; rfl
    · simp only [kindOf, or_true, if_true, tyOf_tree]; rfl

theorem addParts_mut (n : Node) (ops : List BinOp) (ks : List Tr) (b : Bool) (r : List Cst) :
    addParts (n, ops, ks) (flag .mut b ++ r) =
      addParts ({ n with mutable := b || n.mutable }, ops, ks) r := by
  cases b with
  | false => rfl
  | true =>
    rw [flag, List.singleton_append, addParts_bool]
    simp [addBool, addOp]

/-- Nodes of arguments or current objects without children. -/
structure Par (k : Kind) (name : String) (mutable : Bool) (t : Tr) : Prop where
  kind : t.node.kind = k
  name : t.node.names = [name]
  mutable : t.node.mutable = mutable
  op : t.node.op = none
  kids : t.kids = []

theorem par_node {k : Kind} (hs : k.still = true) {n : Node} {x : String} {b : Bool} (hk : n.kind = k)
    (hn : n.names = [x]) (hm : n.mutable = b) (ho : n.op = none) {t : Tr}
    (h : fin (.mk n [] []) = .ok t) : Par k x b t := by
  cases fin_leaf h (by rw [hk]; exact hs)
  exact ⟨hk, hn, hm, ho, rfl⟩

theorem seqOk_par {k : Kind} (hk : k.calm = true) {x : String} {b : Bool} {t : Tr} (h : Par k x b t) (m : Node)
    (E X : List Bind) (it : Bool) (rest : List Tr) :
    seqOk m E X false it (t :: rest) ↔ seqOk m E X false false rest := by
  obtain ⟨n, ops, ks⟩ := t
  have h1 : ks = [] := h.kids
  have h2 : n.kind = k := h.kind
  have h3 : n.op = none := h.op
  subst h1
  rw [seqOk, ok_calm (by rw [h2]; exact hk) h3]
  simp [seqOk, Tr.decl_eq, Tr.kids, headDecl]

theorem clArg_par (a : ClArg) {n ops ks r x} (h : addParts (n, ops, ks) (a.tree :: r) = .ok x) : ∃ t,
    addParts (n, ops, ks ++ [t]) r = .ok x ∧ ∀ t', fin t = .ok t' → Par .arg a.name false t' := by
  obtain ⟨n', ops', ks', h1, h2⟩ := addParts_node (k := .arg) rfl rfl h
  rw [addParts_str, ← List.append_nil (tyOpt _ _), addParts_ty _ _ _ (Or.inl rfl), addParts_nil] at h1
  cases h1
  exact ⟨_, h2, fun t' ht => par_node rfl rfl rfl rfl rfl ht⟩

theorem cur_par (a : Cur) {n ops ks r x} (h : addParts (n, ops, ks) (a.tree :: r) = .ok x) : ∃ t,
    addParts (n, ops, ks ++ [t]) r = .ok x ∧ ∀ t', fin t = .ok t' → Par .current a.name a.mutable t' := by
  obtain ⟨n', ops', ks', h1, h2⟩ := addParts_node (k := .current) rfl rfl h
  rw [addParts_mut, addParts_str, ← List.append_nil (tyOpt _ _), addParts_ty _ _ _ (Or.inl rfl),
    addParts_nil] at h1
  cases h1
  exact ⟨_, h2, fun t' ht => par_node rfl rfl rfl (by simp [addStr]) rfl ht⟩

/-- Arguments and current objects. -/
structure Pars (ns : List String) (ts : List Tr) : Prop where
  names : ∀ rest, paramsOf (ts ++ rest) = ns ++ paramsOf rest
  seq : ∀ (m : Node) (E X : List Bind) rest,
    seqOk m E X false false (ts ++ rest) ↔ seqOk m E X false false rest

theorem Pars.append {a b : List String} {ts us : List Tr} (h1 : Pars a ts) (h2 : Pars b us) :
    Pars (a ++ b) (ts ++ us) :=
  ⟨fun rest => by rw [List.append_assoc, h1.names, h2.names, List.append_assoc],
    fun m E X rest => by rw [List.append_assoc, h1.seq, h2.seq]⟩

theorem Pars.cons {k : Kind} (hk : k = .arg ∨ k = .current) {x : String} {b : Bool} {t : Tr} (h : Par k x b t)
    {ns : List String} {ts : List Tr} (h2 : Pars ns ts) : Pars (x :: ns) (t :: ts) := by
  refine ⟨fun rest => ?_, fun m E X rest => ?_⟩
  · have := h2.names rest
    unfold paramsOf at this ⊢
    have e1 : (decide (t.node.kind = .arg) || decide (t.node.kind = .current)) = true := by
      rw [h.kind]; rcases hk with rfl | rfl <;> rfl
    rw [List.cons_append, List.filterMap_cons, if_pos e1, Node.name, h.name, this]
    rfl
  · rw [List.cons_append, seqOk_par (by rcases hk with rfl | rfl <;> rfl) h, h2.seq]

theorem clArgs_pars : ∀ (args : List ClArg) {n ops ks r x},
    addParts (n, ops, ks) (args.map ClArg.tree ++ r) = .ok x → ∃ ts,
      addParts (n, ops, ks ++ ts) r = .ok x ∧ ∀ ts', finAll ts = .ok ts' → Pars (args.map (·.name)) ts'
  | [], n, ops, ks, r, x, h => ⟨[], by simpa using h, fun ts' h => by
      rw [finAll_nil h]; exact ⟨fun _ => rfl, fun _ _ _ _ => Iff.rfl⟩⟩
  | a :: args, n, ops, ks, r, x, h => by
    rw [List.map_cons, List.cons_append] at h
    obtain ⟨t, h1, h2⟩ := clArg_par a h
    obtain ⟨ts, h3, h4⟩ := clArgs_pars args h1
    refine ⟨t :: ts, by simpa using h3, fun ts' h => ?_⟩
    obtain ⟨t', r, h6, h7, rfl⟩ := finAll_cons h
    exact .cons (Or.inl rfl) (h2 _ h6) (h4 _ h7)

theorem curs_pars : ∀ (args : List Cur) {n ops ks r x},
    addParts (n, ops, ks) (args.map Cur.tree ++ r) = .ok x → ∃ ts,
      addParts (n, ops, ks ++ ts) r = .ok x ∧ ∀ ts', finAll ts = .ok ts' → Pars (args.map (·.name)) ts'
  | [], n, ops, ks, r, x, h => ⟨[], by simpa using h, fun ts' h => by
      rw [finAll_nil h]; exact ⟨fun _ => rfl, fun _ _ _ _ => Iff.rfl⟩⟩
  | a :: args, n, ops, ks, r, x, h => by
    rw [List.map_cons, List.cons_append] at h
    obtain ⟨t, h1, h2⟩ := cur_par a h
    obtain ⟨ts, h3, h4⟩ := curs_pars args h1
    refine ⟨t :: ts, by simpa using h3, fun ts' h => ?_⟩
    obtain ⟨t', r, h6, h7, rfl⟩ := finAll_cons h
    exact .cons (Or.inr rfl) (h2 _ h6) (h4 _ h7)

theorem Box.notPar {k : Kind} (hk : k.box = true) {e : Src} {t : Tr} (h : Box k e t) : paramsOf [t] = [] := by
  have h1 : t.node.kind ≠ .arg := by rw [h.kind]; cases isReturn e <;> cases k <;> simp_all [Kind.box]
  have h2 : t.node.kind ≠ .current := by rw [h.kind]; cases isReturn e <;> cases k <;> simp_all [Kind.box]
  simp [paramsOf, h1, h2]

theorem c_closure {args : List ClArg} {cur : List Cur} {e : Src} (he : C e) : C (.closure args cur e) := by
  refine c_node (k := .closure) (by rw [Src.tree]) rfl rfl rfl rfl fun m ops ks h t ht => ?_
  rw [List.append_assoc] at h
  obtain ⟨t1, h, b1⟩ := clArgs_pars args h
  obtain ⟨t2, h, b2⟩ := curs_pars cur h
  obtain ⟨t3, h, b3⟩ := box he (k := .expr) rfl rfl h
  rw [addParts_nil] at h
  cases h
  obtain ⟨ts', h5, rfl⟩ := fin_still ht rfl
  simp only [List.nil_append, List.append_assoc] at h5
  obtain ⟨t1', r1, f1, w1, rfl⟩ := finAll_append h5
  obtain ⟨t2', r2, f2, w2, rfl⟩ := finAll_append w1
  obtain ⟨t3', f3, rfl⟩ := finAll_one w2
  refine one_plain rfl rfl rfl (headName_one (by simp) ..) fun R it => ?_
  rw [ok_plain (by simp) rfl, (b1 _ f1).seq, (b2 _ f2).seq, seqOk_box' (b3 _ f3)]
  have e1 : enterOf { kind := .closure, ty := startTy .closure } (t1' ++ (t2' ++ [t3'])) =
      [.closure (args.map (·.name) ++ cur.map (·.name))] := by
    rw [enterOf]
    simp only [reduceCtorEq, if_false, if_true]
    rw [(b1 _ f1).names, (b2 _ f2).names, (b3 _ f3).notPar rfl, List.append_nil]
  rw [e1, Spec.fits]
  simp [seqOk, Node.loopBind, Kind.isDeclLoop, Kind.isDeclUnLoop, Kind.isInLoop]

/-! ## Variables -/

/-- What the checker makes of a property list. -/
theorem ids_seq : ∀ {is : List IdSrc}, (∀ e t, IdSrc.expr e t ∈ is → C e) → ∀ {n ops ks x},
    addParts (n, ops, ks) (treeIds is) = .ok x → ∃ ts, x = (n, ops, ks ++ ts) ∧
      ∀ ts', finAll ts = .ok ts' → ∀ m : Node, m.loopBind = [] → ∀ X,
        (seqOk m [] X false false ts' ↔ fitsIds X is)
  | [], _, n, ops, ks, x, h => by
    rw [treeIds, addParts_nil] at h
    cases h
    exact ⟨[], by simp, fun ts' h m _ X => by rw [finAll_nil h]; simp [seqOk, fitsIds]⟩
  | .str s t :: is, he, n, ops, ks, x, h => by
    rw [treeIds, IdSrc.tree, List.cons_append, addParts_str] at h
    have e1 : addParts (n, ops, ks) (treeIds is) = .ok x := by
      cases t
      · exact h
      · rw [flag, List.singleton_append, addParts_bool] at h
        simpa [addBool, addOp, addStr] using h
    obtain ⟨ts, h3, h4⟩ := ids_seq (fun e t h => he e t (by simp [h])) e1
    exact ⟨ts, h3, fun ts' h m hm X => by rw [h4 _ h m hm, fitsIds]⟩
  | .num s t :: is, he, n, ops, ks, x, h => by
    rw [treeIds, IdSrc.tree, List.cons_append, addParts_num] at h
    simp only [addNum, bind, Except.bind] at h
    have e1 : addParts (n, ops, ks) (treeIds is) = .ok x := by
      cases t
      · exact h
      · rw [flag, List.singleton_append, addParts_bool] at h
        simpa [addBool, addOp, addStr] using h
    obtain ⟨ts, h3, h4⟩ := ids_seq (fun e t h => he e t (by simp [h])) e1
    exact ⟨ts, h3, fun ts' h m hm X => by rw [h4 _ h m hm, fitsIds]⟩
  | .expr e t :: is, he, n, ops, ks, x, h => by
    rw [treeIds, IdSrc.tree, List.cons_append] at h
    obtain ⟨t1, h, b1⟩ := box (he e t (by simp)) (k := .id) rfl rfl h
    have e1 : addParts (n, ops, ks ++ [t1]) (treeIds is) = .ok x := by
      cases t
      · exact h
      · rw [flag, List.singleton_append, addParts_bool] at h
        simpa [addBool, addOp, addStr] using h
    obtain ⟨ts, h3, h4⟩ := ids_seq (fun e t h => he e t (by simp [h])) e1
    refine ⟨t1 :: ts, by simpa using h3, fun ts' h m hm X => ?_⟩
    obtain ⟨t', r, h6, h7, rfl⟩ := finAll_cons h
    rw [seqOk_box' (b1 _ h6), h4 _ h7 m hm, hm, fitsIds]
    rfl

/-- The tree of a variable. -/
structure ItemT (it : ItemSrc) (t : Tr) : Prop where
  ex : ∃ n kids, t = .mk n [] kids ∧ n.kind = .item ∧ n.op = none ∧ n.names = [itemName it] ∧
    (kids = [] ↔ plainItem it = some (itemName it)) ∧ (kids ≠ [] → plainItem it = none) ∧
    headDecl kids = none ∧
    ∀ (m : Node), m.loopBind = [] → ∀ X l, (seqOk m [] X false l kids ↔ fitsItem X it)

/-- What the checker makes of a variable. -/
def CItem (it : ItemSrc) : Prop := ∀ n ops ks r x, addParts (n, ops, ks) (it.tree :: r) = .ok x → ∃ t,
  addParts (n, ops, ks ++ [t]) r = .ok x ∧ ∀ t', fin t = .ok t' → ItemT it t'

theorem addParts_flags (n : Node) (ops : List BinOp) (ks : List Tr) (c t : Bool) (s : String) (r : List Cst) :
    addParts (n, ops, ks) (flag .current c ++ .str .name s :: (flag .tryItem t ++ r)) =
      addParts ({ n with names := n.names ++ [s], tryFlag := t || n.tryFlag }, ops, ks) r := by
  cases c <;> cases t <;> simp [flag, addParts_bool, addParts_str, addBool, addOp, addStr]

theorem c_itemSrc {c : Bool} {s : String} {b : Bool} {is : List IdSrc} (he : ∀ e t, IdSrc.expr e t ∈ is → C e) :
    CItem (.mk c s b is) := by
  intro n ops ks r x h
  cases is with
  | nil =>
    rw [ItemSrc.tree] at h
    obtain ⟨n', ops', ks', h1, h2⟩ := addParts_node (k := .item) rfl rfl h
    rw [← List.append_nil (flag .tryItem b), addParts_flags, addParts_nil] at h1
    cases h1
    refine ⟨_, h2, fun t' ht => ?_⟩
    cases fin_leaf ht rfl
    exact ⟨_, [], rfl, rfl, rfl, rfl, by simp [plainItem, itemName], by simp, rfl,
      fun m hm X l => by simp [seqOk, fitsItem, fitsIds]⟩
  | cons i is =>
    rw [ItemSrc.tree] at h
    obtain ⟨n', ops', ks', h1, h2⟩ := addParts_node (k := .item) rfl rfl h
    rw [List.append_assoc, List.cons_append, addParts_flags] at h1
    obtain ⟨n1, ops1, ks1, h3, h4⟩ := addParts_node (k := .itemExtra) rfl rfl h1
    rw [addParts_nil] at h4
    cases h4
    obtain ⟨ts, h5, h6⟩ := ids_seq he h3
    cases h5
    refine ⟨_, h2, fun t' ht => ?_⟩
    obtain ⟨ts', h7, rfl⟩ := fin_still ht rfl
    obtain ⟨t1, h8, rfl⟩ := finAll_one h7
    obtain ⟨ts1, h9, rfl⟩ := fin_still h8 rfl
    refine ⟨_, _, rfl, rfl, rfl, rfl, by simp [plainItem], by simp [plainItem], by simp [headDecl, Tr.node],
      fun m hm X l => ?_⟩
    rw [seqOk, ok_calm rfl rfl, h6 _ h9 _ rfl, hm]
    simp [seqOk, fitsItem]

theorem ItemT.ok {it : ItemSrc} {t : Tr} (h : ItemT it t) (D : List Bind) (x : Bool) :
    t.ok D [] false x ↔ (x = true ∧ (plainItem it).isSome = true) ∨
      (usable (itemName it) D ∧ fitsItem D it) := by
  obtain ⟨n, kids, rfl, h1, h2, h3, h4, h5, h6, h7⟩ := h
  have hl : n.loopBind = [] := by
    simp [Node.loopBind, h1, Kind.isDeclLoop, Kind.isDeclUnLoop, Kind.isInLoop]
  have he : enterOf n kids = [] := by simp [enterOf, h1]
  rw [ok_mk, he, h2]
  simp only [reduceCtorEq, decide_false, h7 n hl, List.nil_append, Node.name, h3, List.head?_cons,
    Option.some.injEq, exists_eq_left', h1, forall_const]
  by_cases hk : kids = []
  · have hp := h4.1 hk
    have hf : fitsItem D it := by
      have := (h7 n hl D false).1 (by rw [hk]; simp [seqOk])
      exact this
    cases x <;> simp [hk, hp, hf, usable]
  · simp [hk, h5 hk, usable]

theorem ItemT.kind {it : ItemSrc} {t : Tr} (h : ItemT it t) : t.node.kind = .item ∧ t.node.op = none := by
  obtain ⟨n, kids, rfl, h1, h2, _⟩ := h
  exact ⟨h1, h2⟩

theorem ItemT.left {it : ItemSrc} {t : Tr} (h : ItemT it t) : headName [t] = plainItem it := by
  obtain ⟨n, kids, rfl, h1, h2, h3, h4, h5, h6, h7⟩ := h
  by_cases hk : kids = []
  · simp [headName, Tr.itemIds, Tr.node, Tr.kids, hk, Node.name, h3, h4.1 hk]
  · simp [headName, Tr.itemIds, Tr.node, Tr.kids, hk, h1, h5 hk]

theorem c_item {it : ItemSrc} (hi : CItem it) : C (.item it) := by
  intro n ops ks o h
  rw [Src.tree] at h
  obtain ⟨t, h1, h2⟩ := hi _ _ _ _ _ h
  rw [addParts_nil] at h1
  cases h1
  refine ⟨n, [t], rfl, Flags.refl rfl rfl n, fun ts' h => ?_⟩
  obtain ⟨t', f1, rfl⟩ := finAll_one h
  have := h2 _ f1
  refine one_good ⟨fun R x => ?_, by simp [headDecl, this.kind.2, declared], this.left⟩
  rw [this.ok, Spec.fits, isVar]

theorem c_mutItem {it : ItemSrc} (hi : CItem it) : C (.mutItem it) := by
  intro n ops ks o h
  rw [Src.tree, addParts_bool] at h
  obtain ⟨t, h1, h2⟩ := hi _ _ _ _ _ h
  rw [addParts_nil] at h1
  cases h1
  refine ⟨addBool n .mut true, [t], by simp [addOp], ⟨rfl, rfl, rfl, rfl, by simp [addBool, Front.Spec.isMut]⟩,
    fun ts' h => ?_⟩
  obtain ⟨t', f1, rfl⟩ := finAll_one h
  have := h2 _ f1
  refine one_good ⟨fun R x => ?_, by simp [headDecl, this.kind.2, declared], this.left⟩
  rw [this.ok, Spec.fits, isVar]

/-! ## Calls -/

/-- The same node, but for its names and its type. -/
structure Same (n n' : Node) : Prop where
  kind : n'.kind = n.kind
  op : n'.op = n.op
  mutable : n'.mutable = n.mutable

/-- Words behind a first word. -/
def wordFold (x : String) (ws : List String) : String := ws.foldl (fun n w => n ++ "_" ++ w) x

theorem push_under (x : String) : x.push '_' = x ++ "_" := push_eq x '_'

theorem words_seq : ∀ {args : List (String × Src)}, (∀ a ∈ args, C a.2) → ∀ {n ops ks o y},
    n.names = [y] → addParts (n, ops, ks) (treeWords args) = .ok o → ∃ n' ts,
      o = (n', ops, ks ++ ts) ∧ Same n n' ∧ n'.names = [wordFold y (args.map (·.1))] ∧
      ∀ ts', finAll ts = .ok ts' → Boxes .callArg (args.map (·.2)) ts'
  | [], _, n, ops, ks, o, y, hn, h => by
    rw [treeWords, addParts_nil] at h
    cases h
    exact ⟨n, [], by simp, ⟨rfl, rfl, rfl⟩, hn, fun ts' h => by rw [finAll_nil h]; exact .nil⟩
  | (w, e) :: args, he, n, ops, ks, o, y, hn, h => by
    rw [treeWords, addParts_str] at h
    obtain ⟨t1, h, b1⟩ := box (he (w, e) (by simp)) (k := .callArg) rfl rfl h
    have e1 : addStr n .word w = { n with names := [y ++ "_" ++ w] } := by
      simp [addStr, hn, push_under]
    rw [e1] at h
    obtain ⟨n', ts, h1, h2, h3, h4⟩ := words_seq (fun a h => he a (by simp [h])) rfl h
    refine ⟨n', t1 :: ts, by rw [h1]; simp, ⟨h2.kind, h2.op, h2.mutable⟩, by rw [h3]; rfl, fun ts' h => ?_⟩
    obtain ⟨t', r, h6, h7, rfl⟩ := finAll_cons h
    exact .cons (b1 _ h6) (h4 _ h7)

theorem fitsWords_iff : ∀ (args : List (String × Src)) (X : List Bind),
    fitsWords X args ↔ fitsSeq X (args.map (·.2))
  | [], X => by simp [fitsWords, fitsSeq]
  | (w, e) :: args, X => by simp [fitsWords, fitsSeq, fitsWords_iff args]

/-- The tree of a call. -/
structure CallT (c : Callee) (t : Tr) : Prop where
  kind : t.node.kind = .call
  op : t.node.op = none
  name : t.node.name = some (calleeName c)
  ok : ∀ D E it, t.ok D E false it ↔ fitsCallee (E ++ D) c

/-- What the checker makes of a call. -/
def CCall (c : Callee) : Prop := ∀ n ops ks r x, addParts (n, ops, ks) (c.tree :: r) = .ok x → ∃ t,
  addParts (n, ops, ks ++ [t]) r = .ok x ∧ ∀ t', fin t = .ok t' → CallT c t'

theorem call_boxes {n : Node} (hk : n.kind = .call) (ho : n.op = none) {y : String} (hn : n.names = [y])
    {es : List Src} {ts : List Tr} (hb : ∀ ts', finAll ts = .ok ts' → Boxes .callArg es ts') {t : Tr}
    (ht : fin (.mk n [] ts) = .ok t) : t.node.kind = .call ∧ t.node.op = none ∧
      t.node.name = some (Front.Spec.nameWith y (muts es)) ∧ ∀ D E it, t.ok D E false it ↔ fitsSeq (E ++ D) es := by
  obtain ⟨ks, n', h1, h2, rfl⟩ := fin_call (Or.inl hk) ht
  obtain ⟨h3, _, h4⟩ := mutNode_ok h2
  have hb := hb _ h1
  have hk' : n'.kind.calm = true := by rw [h3.kind, hk]; rfl
  refine ⟨by rw [Tr.node, h3.kind, hk], by rw [Tr.node, h3.op, ho], ?_, fun D E it => ?_⟩
  · rw [Tr.node, h4, hb.isArg, Node.name, hn]
    rfl
  · rw [ok_calm hk' (by rw [h3.op, ho]), hb.seq (Kind.calm_facts hk').2.1]

theorem c_plainCall {a : Option String} {y : String} {args : List Src} (he : ∀ e ∈ args, C e) :
    CCall (.plain a y args) := by
  intro n ops ks r x h
  rw [Callee.tree] at h
  obtain ⟨n', ops', ks', h1, h2⟩ := addParts_node (k := .call) rfl rfl h
  rw [addParts_alias, addParts_str, ← List.append_nil (trees _ _)] at h1
  obtain ⟨ts, h3, h4⟩ := boxes (k := .callArg) rfl rfl he h1
  rw [addParts_nil] at h3
  cases h3
  refine ⟨_, h2, fun t' ht => ?_⟩
  obtain ⟨g1, g2, g3, g4⟩ := call_boxes rfl rfl rfl h4 ht
  exact ⟨g1, g2, g3, fun D E it => by rw [g4, fitsCallee]⟩

theorem c_namedCall {a : Option String} {y : String} {args : List (String × Src)} (he : ∀ e ∈ args, C e.2) :
    CCall (.named a y args) := by
  intro n ops ks r x h
  rw [Callee.tree] at h
  obtain ⟨n', ops', ks', h1, h2⟩ := addParts_node (k := .call) rfl rfl h
  rw [addParts_alias, addParts_str] at h1
  obtain ⟨m, ts, h3, h4, h5, h6⟩ := words_seq he (y := y ++ "_") (by simp [addStr, push_under]) h1
  cases h3
  refine ⟨_, h2, fun t' ht => ?_⟩
  obtain ⟨g1, g2, g3, g4⟩ := call_boxes (by rw [h4.kind]; rfl) (by rw [h4.op]; rfl) h5 h6 ht
  exact ⟨g1, g2, g3, fun D E it => by rw [g4, fitsCallee, fitsWords_iff]⟩

theorem c_call {c : Callee} (hc : CCall c) : C (.call c) := by
  intro n ops ks o h
  rw [Src.tree] at h
  obtain ⟨t, h1, h2⟩ := hc _ _ _ _ _ h
  rw [addParts_nil] at h1
  cases h1
  refine ⟨n, [t], rfl, Flags.refl rfl rfl n, fun ts' h => ?_⟩
  obtain ⟨t', f1, rfl⟩ := finAll_one h
  have := h2 _ f1
  refine one_good (one_plain rfl rfl this.op ?_ fun R it => ?_)
  · simp [headName, Tr.itemIds, this.kind, this.name, leftName]
  · rw [this.ok, Spec.fits]; rfl

theorem c_go {c : Callee} (hc : CCall c) : C (.go c) := by
  refine c_node (k := .go) (by rw [Src.tree]) rfl rfl rfl rfl fun m ops ks h t ht => ?_
  obtain ⟨t1, h1, h2⟩ := hc _ _ _ _ _ h
  rw [addParts_nil] at h1
  cases h1
  obtain ⟨ts', h5, rfl⟩ := fin_still ht rfl
  obtain ⟨t1', f1, rfl⟩ := finAll_one h5
  refine one_plain rfl rfl rfl (headName_one (by simp) ..) fun R it => ?_
  rw [ok_calm rfl rfl, seqOk, (h2 _ f1).ok, Spec.fits]
  simp [seqOk, Node.loopBind, Kind.isDeclLoop, Kind.isDeclUnLoop, Kind.isInLoop]

/-! ## Calls of closures -/

theorem fin_closure {n : Node} (hk : n.kind = .callClosure) {kids : List Tr} {t : Tr}
    (h : fin (.mk n [] kids) = .ok t) : ∃ kids', finAll kids = .ok kids' ∧ nameNode n [] kids' = .ok t := by
  unfold fin at h
  rw [Tr.nest, nestNode_nil, Tr.calls, callNode_nil (by rw [hk]; rfl) (by rw [hk]; decide) (by rw [hk]; decide),
    Tr.named] at h
  unfold finAll
  cases h7 : namedAll (callsAll (nests kids)) with
  | error e => rw [h7] at h; cases h
  | ok kids' => rw [h7] at h; exact ⟨kids', rfl, h⟩

theorem closure_ok {it : ItemSrc} {y : String} {n n1 : Node} {kids : List Tr} (hk : n.kind = .callClosure)
    (ho : n.op = none) (h1 : n1.kind = .item) (h2 : n1.op = none) (h3 : n1.names = [y])
    (h6 : headDecl kids = none)
    (h7 : ∀ (m : Node), m.loopBind = [] → ∀ X l, (seqOk m [] X false l kids ↔ fitsItem X it))
    {es : List Src} {ts : List Tr} (hb : Boxes .callArg es ts) (R : List Bind) (x : Bool) :
    (Tr.mk n [] (.mk n1 [] kids :: ts)).ok R [] false x ↔ usable y R ∧ fitsItem R it ∧ fitsSeq R es := by
  have hc : n.kind.calm = true := by rw [hk]; rfl
  have hl : n1.loopBind = [] := by
    simp [Node.loopBind, h1, Kind.isDeclLoop, Kind.isDeclUnLoop, Kind.isInLoop]
  have he : enterOf n1 kids = [] := by simp [enterOf, h1]
  have hd : (Tr.mk n1 [] kids).decl = none := by rw [Tr.decl_eq]; exact h6
  rw [ok_calm hc ho, seqOk, ok_mk, he, h2, (Kind.calm_facts hc).2.1, hd]
  simp only [reduceCtorEq, decide_false, h7 n1 hl, List.nil_append, Node.name, h3, List.head?_cons,
    Option.some.injEq, exists_eq_left', h1, forall_const, Option.toList_none, List.map_nil,
    hb.seq (Kind.calm_facts hc).2.1, Bool.false_eq_true, false_and, not_false_eq_true, usable, and_assoc]

theorem c_callClosure {it : ItemSrc} {args : List Src} (hi : CItem it) (he : ∀ e ∈ args, C e) :
    C (.callClosure it args) := by
  refine c_node (k := .callClosure) (by rw [Src.tree]) rfl rfl rfl rfl fun m ops ks h t ht => ?_
  obtain ⟨t1, h, b1⟩ := hi _ _ _ _ _ h
  rw [← List.append_nil (trees _ _)] at h
  obtain ⟨ts, h3, h4⟩ := boxes (k := .callArg) rfl rfl he h
  rw [addParts_nil] at h3
  cases h3
  obtain ⟨ts', h5, h6⟩ := fin_closure rfl ht
  obtain ⟨t1', r1, f1, w1, rfl⟩ := finAll_cons h5
  obtain ⟨n1, kids, rfl, q1, q2, q3, q4, q5, q6, q7⟩ := b1 _ f1
  simp only [nameNode, reduceCtorEq, or_self, if_false, if_true, Node.name, List.head?_nil, bind, Except.bind] at h6
  cases h8 : mutNode { kind := .callClosure, ty := startTy .callClosure } (.mk n1 [] kids :: r1) with
  | error e => rw [h8] at h6; cases h6
  | ok n' =>
    rw [h8] at h6
    cases h6
    obtain ⟨g1, _, g3⟩ := mutNode_ok h8
    refine one_plain rfl rfl (by rw [Tr.node, g1.op]) ?_ fun R x => ?_
    · rw [headName_one (by rw [g1.kind]; simp), g3]; rfl
    · rw [closure_ok g1.kind g1.op q1 q2 q3 q6 q7 (h4 _ w1), Spec.fits]

theorem joinWords_cons (w : String) (ws : List String) : joinWords (w :: ws) = some (wordFold w ws) := rfl

theorem c_namedCallClosure {it : ItemSrc} {args : List (String × Src)} (hi : CItem it)
    (he : ∀ e ∈ args, C e.2) : C (.namedCallClosure it args) := by
  refine c_node (k := .callClosure) (by rw [Src.tree]) rfl rfl rfl rfl fun m ops ks h t ht => ?_
  obtain ⟨t1, h, b1⟩ := hi _ _ _ _ _ h
  have hw : ∃ n' ts, (m, ops, ks) = (n', [], [t1] ++ ts) ∧
      Same { kind := .callClosure, ty := startTy .callClosure } n' ∧ n'.name = joinWords (args.map (·.1)) ∧
      ∀ ts', finAll ts = .ok ts' → Boxes .callArg (args.map (·.2)) ts' := by
    cases args with
    | nil =>
      rw [treeWords, addParts_nil] at h
      cases h
      exact ⟨_, [], rfl, ⟨rfl, rfl, rfl⟩, rfl, fun ts' h => by rw [finAll_nil h]; exact .nil⟩
    | cons a args =>
      obtain ⟨w, e⟩ := a
      rw [treeWords, addParts_str] at h
      obtain ⟨t2, h, b2⟩ := box (he (w, e) (by simp)) (k := .callArg) rfl rfl h
      obtain ⟨n', ts, h1, h2, h3, h4⟩ := words_seq (fun a h => he a (by simp [h])) (y := w) rfl h
      refine ⟨n', t2 :: ts, by rw [h1]; simp, ⟨h2.kind, h2.op, h2.mutable⟩, ?_, fun ts' h => ?_⟩
      · rw [List.map_cons, joinWords_cons, Node.name, h3]; rfl
      · obtain ⟨t', r, h6, h7, rfl⟩ := finAll_cons h
        exact .cons (b2 _ h6) (h4 _ h7)
  obtain ⟨n', ts, h1, h2, h3, h4⟩ := hw
  cases h1
  obtain ⟨ts', h5, h6⟩ := fin_closure h2.kind ht
  obtain ⟨t1', r1, f1, w1, rfl⟩ := finAll_cons h5
  obtain ⟨n1, kids, rfl, q1, q2, q3, q4, q5, q6, q7⟩ := b1 _ f1
  have hb := h4 _ w1
  have hname : ∀ x : Node, x.kind = .item → (Tr.mk x [] kids :: r1).filter Tr.isArg = r1.filter Tr.isArg := by
    intro x hx
    rw [List.filter_cons, if_neg (by simp [Tr.isArg, Tr.node, hx])]
  have hk2 : m.kind = .callClosure := h2.kind
  simp only [nameNode, hk2, reduceCtorEq, or_self, if_false, if_true, bind, Except.bind] at h6
  cases hj : joinWords (args.map (·.1)) with
  | none =>
    rw [h3, hj] at h6
    simp only at h6
    cases h8 : mutNode m (.mk n1 [] kids :: r1) with
    | error e => rw [h8] at h6; cases h6
    | ok n'' =>
      rw [h8] at h6
      cases h6
      obtain ⟨g1, _, g3⟩ := mutNode_ok h8
      refine one_plain rfl rfl (by rw [Tr.node, g1.op, h2.op]) ?_ fun R x => ?_
      · rw [headName_one (by rw [g1.kind, hk2]; simp), g3, h3, leftName, hj]; rfl
      · rw [closure_ok (by rw [g1.kind, hk2]) (by rw [g1.op, h2.op]) q1 q2 q3 q6 q7 hb, Spec.fits, fitsWords_iff]
        have : closureName (args.map (·.1)) it = itemName it := by
          obtain ⟨_, _, _, ids⟩ := it
          cases ids <;> simp [closureName, hj, itemName]
        rw [this]
  | some w =>
    rw [h3, hj] at h6
    simp only [wordItem, q1, if_true] at h6
    have key : ∀ n2 : Node, n2.kind = .item → n2.op = none → n2.names = [closureName (args.map (·.1)) it] →
        ∀ n'', mutNode m (.mk n2 [] kids :: r1) = .ok n'' →
        One (.namedCallClosure it args) (.mk n'' [] (.mk n2 [] kids :: r1)) := by
      intro n2 e1 e2 e3 n'' h8
      obtain ⟨g1, _, g3⟩ := mutNode_ok h8
      refine one_plain rfl rfl (by rw [Tr.node, g1.op, h2.op]) ?_ fun R x => ?_
      · rw [headName_one (by rw [g1.kind, hk2]; simp), g3, h3, leftName, hj, hname _ e1, hb.isArg]
      · rw [closure_ok (by rw [g1.kind, hk2]) (by rw [g1.op, h2.op]) e1 e2 e3 q6 q7 hb, Spec.fits, fitsWords_iff]
    by_cases hkids : kids = []
    · subst hkids
      simp only [List.isEmpty_nil, if_true, q3] at h6
      cases h8 : mutNode m
          (.mk { n1 with kind := .item, names := [itemName it ++ "__" ++ w] } [] [] :: r1) with
      | error e => rw [h8] at h6; cases h6
      | ok n'' =>
        rw [h8] at h6
        cases h6
        refine key { n1 with kind := .item, names := [itemName it ++ "__" ++ w] } rfl q2 ?_ _ h8
        have hp := q4.1 rfl
        obtain ⟨_, _, _, ids⟩ := it
        cases ids with
        | nil => simp [closureName, hj, itemName]
        | cons _ _ => simp [plainItem] at hp
    · have : kids.isEmpty = false := by cases kids <;> simp_all
      simp only [this, Bool.false_eq_true, if_false] at h6
      cases h8 : mutNode m (.mk n1 [] kids :: r1) with
      | error e => rw [h8] at h6; cases h6
      | ok n'' =>
        rw [h8] at h6
        cases h6
        refine key _ q1 q2 ?_ _ h8
        have hp := q5 hkids
        rw [q3]
        obtain ⟨_, _, _, ids⟩ := it
        cases ids with
        | nil => simp [plainItem] at hp
        | cons _ _ => simp [closureName, itemName]

/-! ## All expressions -/

mutual
theorem c_src : ∀ e : Src, C e
  | .in_ _ _ => c_in
  | .closure _ _ e => c_closure (c_src e)
  | .object kvs => c_object (c_pairs kvs)
  | .array es => c_array (c_srcs es)
  | .arrayFill a b => c_arrayFill (c_src a) (c_src b)
  | .forIn _ _ _ e es => c_forIn (c_src e) (c_srcs es)
  | .forN _ _ vs es => c_forN (c_vars vs) (c_srcs es)
  | .for_ _ a b c es => c_for (c_src a) (c_src b) (c_src c) (c_srcs es)
  | .loop _ es => c_loop (c_srcs es)
  | .ite c thn es els => c_ite (c_src c) (c_srcs thn) (c_elifs es) (c_else els)
  | .brk _ => c_brk
  | .cont _ => c_cont
  | .block es => c_block (c_srcs es)
  | .assign l _ r => c_assign (c_src l) (c_src r)
  | .compare l _ r => c_compare (c_src l) (c_src r)
  | .ret e => c_ret (c_src e)
  | .retVoid => c_retVoid
  | .add p rest => c_add (c_prods p) (c_adds rest)
  | .mat4 x y z w => c_mat4 (c_src x) (c_opt y) (c_opt z) (c_opt w)
  | .vec4 x y z w => c_vec4 (c_src x) (c_opt y) (c_opt z) (c_opt w)
  | .link es => c_link (c_srcs es)
  | .grab _ e => c_grab (c_src e)
  | .tryExpr e => c_tryExpr (c_src e)
  | .paren e => c_paren (c_src e)
  | .not e => c_not (c_src e)
  | .norm e => c_norm (c_src e)
  | .text _ => c_text
  | .num _ => c_num
  | .bool _ => c_bool
  | .color _ => c_color
  | .go c => c_go (c_callee c)
  | .call c => c_call (c_callee c)
  | .callClosure it es => c_callClosure (c_items it) (c_srcs es)
  | .namedCallClosure it es => c_namedCallClosure (c_items it) (c_pairs es)
  | .item it => c_item (c_items it)
  | .unloop _ _ e => c_unloop (c_src e)
  | .try_ e => c_try (c_src e)
  | .mutItem it => c_mutItem (c_items it)
  | .swizzle _ _ _ _ e => c_swizzle (c_src e)
theorem c_srcs : ∀ es : List Src, ∀ e ∈ es, C e
  | [] => fun _ h => by cases h
  | e :: es => List.forall_mem_cons.2 ⟨c_src e, c_srcs es⟩
theorem c_pairs : ∀ es : List (String × Src), ∀ e ∈ es, C e.2
  | [] => fun _ h => by cases h
  | (_, e) :: es => List.forall_mem_cons.2 ⟨c_src e, c_pairs es⟩
theorem c_vars : ∀ vs : List Var, ∀ e ∈ ranges vs, C e
  | [] => fun _ h => by cases h
  | .plain _ :: vs => c_vars vs
  | .upto _ b :: vs => List.forall_mem_cons.2 ⟨c_src b, c_vars vs⟩
  | .range _ a b :: vs => List.forall_mem_cons.2 ⟨c_src a, List.forall_mem_cons.2 ⟨c_src b, c_vars vs⟩⟩
theorem c_elifs : ∀ es : List (Src × List Src), ∀ x ∈ es, C x.1 ∧ ∀ e ∈ x.2, C e
  | [] => fun _ h => by cases h
  | (c, b) :: es => List.forall_mem_cons.2 ⟨⟨c_src c, c_srcs b⟩, c_elifs es⟩
theorem c_else : ∀ o : Option (List Src), ∀ b ∈ o, ∀ e ∈ b, C e
  | none => fun _ h => by cases h
  | some b => by rintro _ ⟨⟩; exact c_srcs b
theorem c_opt : ∀ o : Option Src, ∀ e ∈ o, C e
  | none => fun _ h => by cases h
  | some b => by rintro _ ⟨⟩; exact c_src b
theorem c_adds : ∀ es : List (BinOp × Prod'), ∀ e ∈ es, CProd e.2
  | [] => fun _ h => by cases h
  | (_, e) :: es => List.forall_mem_cons.2 ⟨c_prods e, c_adds es⟩
theorem c_prods : ∀ p : Prod', CProd p
  | .mk f rest => c_prod (c_opds f) (c_muls rest)
theorem c_muls : ∀ es : List (BinOp × Opd), ∀ e ∈ es, COpd e.2
  | [] => fun _ h => by cases h
  | (_, e) :: es => List.forall_mem_cons.2 ⟨c_opds e, c_muls es⟩
theorem c_opds : ∀ o : Opd, COpd o
  | .neg p => c_neg (c_prods p)
  | .pow l r => c_pow (c_src l) (c_src r)
  | .plain e => c_operand (c_src e)
theorem c_items : ∀ it : ItemSrc, CItem it
  | .mk _ _ _ is => c_itemSrc (c_ids is)
theorem c_ids : ∀ is : List IdSrc, ∀ e t, IdSrc.expr e t ∈ is → C e
  | [], _, _, h => by cases h
  | .str _ _ :: is, e, t, h => c_ids is e t (by simpa using h)
  | .num _ _ :: is, e, t, h => c_ids is e t (by simpa using h)
  | .expr a _ :: is, e, t, h => by
    rcases List.mem_cons.1 h with h | h
    · cases h; exact c_src a
    · exact c_ids is e t h
theorem c_callee : ∀ c : Callee, CCall c
  | .plain _ _ es => c_plainCall (c_srcs es)
  | .named _ _ es => c_namedCall (c_pairs es)
end

/-! ## Functions -/

theorem lazy_seq : ∀ {ls : List LazySrc} {n ops ks x},
    addParts (n, ops, ks) (ls.map LazySrc.tree) = .ok x → ∃ ts, x = (n, ops, ks ++ ts) ∧
      ∀ ts', finAll ts = .ok ts' → headDecl ts' = none ∧ ∀ m : Node, m.loopBind = [] → ∀ X,
        (seqOk m [] X false false ts' ↔ ∀ l ∈ ls, fitsLazy X l)
  | [], n, ops, ks, x, h => by
    rw [List.map_nil, addParts_nil] at h
    cases h
    exact ⟨[], by simp, fun ts' h => by rw [finAll_nil h]; exact ⟨rfl, fun m _ X => by simp [seqOk]⟩⟩
  | .ok :: ls, n, ops, ks, x, h => by
    rw [List.map_cons, LazySrc.tree, addParts_bool] at h
    obtain ⟨ts, h1, h2⟩ := lazy_seq h
    exact ⟨ts, by rw [h1]; simp [addBool, addOp], fun ts' h => ⟨(h2 _ h).1, fun m hm X => by
      rw [(h2 _ h).2 m hm]; simp [fitsLazy]⟩⟩
  | .err :: ls, n, ops, ks, x, h => by
    rw [List.map_cons, LazySrc.tree, addParts_bool] at h
    obtain ⟨ts, h1, h2⟩ := lazy_seq h
    exact ⟨ts, by rw [h1]; simp [addBool, addOp], fun ts' h => ⟨(h2 _ h).1, fun m hm X => by
      rw [(h2 _ h).2 m hm]; simp [fitsLazy]⟩⟩
  | .some :: ls, n, ops, ks, x, h => by
    rw [List.map_cons, LazySrc.tree, addParts_bool] at h
    obtain ⟨ts, h1, h2⟩ := lazy_seq h
    exact ⟨ts, by rw [h1]; simp [addBool, addOp], fun ts' h => ⟨(h2 _ h).1, fun m hm X => by
      rw [(h2 _ h).2 m hm]; simp [fitsLazy]⟩⟩
  | .expr e :: ls, n, ops, ks, x, h => by
    rw [List.map_cons, LazySrc.tree] at h
    obtain ⟨n', ops', ks', h1, h2⟩ := addParts_node (k := .grab) rfl rfl h
    obtain ⟨t1, h1, b1⟩ := box (c_src e) (k := .expr) rfl rfl h1
    rw [addParts_nil] at h1
    cases h1
    obtain ⟨ts, h3, h4⟩ := lazy_seq h2
    refine ⟨_ :: ts, by rw [h3]; simp; rfl, fun ts' h => ?_⟩
    obtain ⟨t', r, h6, h7, rfl⟩ := finAll_cons h
    obtain ⟨g1, g2, g3⟩ := grab_one b1 rfl rfl h6
    refine ⟨by simp [headDecl, g1], fun m hm X => ?_⟩
    rw [seqOk, g3, g2, hm]
    simp [(h4 _ h7).2 m hm, fitsLazy]

/-- Arguments of a function. -/
structure Args (as : List FnArg) (ts : List Tr) : Prop where
  names : ∀ rest, paramsOf (ts ++ rest) = as.map (·.name) ++ paramsOf rest
  seq : ∀ (m : Node), m.loopBind = [] → ∀ (X : List Bind) rest,
    (seqOk m [] X false false (ts ++ rest) ↔ (∀ a ∈ as, ∀ l ∈ a.lazy, fitsLazy X l) ∧
      seqOk m [] X false false rest)

theorem addParts_lifetime (n : Node) (ops : List BinOp) (ks : List Tr) (o : Option String) (r : List Cst) :
    addParts (n, ops, ks) (strOpt .lifetime o ++ r) =
      addParts ({ n with lifetime := o.or n.lifetime }, ops, ks) r := by
  cases o with
  | none => rfl
  | some s => exact addParts_str ..

theorem fnArgs_seq : ∀ {as : List FnArg} {n ops ks r x},
    addParts (n, ops, ks) (as.map FnArg.tree ++ r) = .ok x → ∃ ts,
      addParts (n, ops, ks ++ ts) r = .ok x ∧ ∀ ts', finAll ts = .ok ts' → Args as ts'
  | [], n, ops, ks, r, x, h => ⟨[], by simpa using h, fun ts' h => by
      rw [finAll_nil h]; exact ⟨fun _ => rfl, fun _ _ _ _ => by simp⟩⟩
  | a :: as, n, ops, ks, r, x, h => by
    rw [List.map_cons, List.cons_append, FnArg.tree] at h
    obtain ⟨n', ops', ks', h1, h2⟩ := addParts_node (k := .arg) rfl rfl h
    simp only [List.append_assoc, List.cons_append] at h1
    rw [addParts_mut, addParts_str, addParts_lifetime, addParts_ty _ _ _ (Or.inl rfl)] at h1
    obtain ⟨ls, h3, h4⟩ := lazy_seq h1
    cases h3
    obtain ⟨ts, h5, h6⟩ := fnArgs_seq h2
    refine ⟨_ :: ts, by simpa using h5, fun ts' h => ?_⟩
    obtain ⟨t', r, h7, h8, rfl⟩ := finAll_cons h
    obtain ⟨ks', h9, rfl⟩ := fin_still h7 rfl
    have ih := h6 _ h8
    refine ⟨fun rest => ?_, fun m hm X rest => ?_⟩
    · have := ih.names rest
      unfold paramsOf at this ⊢
      rw [List.cons_append, List.filterMap_cons, this]
      rfl
    · rw [List.cons_append, seqOk, ok_calm rfl rfl, (h4 _ h9).2 _ rfl, Tr.decl_eq]
      simp only [Tr.kids, (h4 _ h9).1, hm, Option.toList_none, List.map_nil, List.nil_append]
      rw [ih.seq m hm]
      simp [and_assoc]

theorem addParts_tyVars : ∀ (vs : List String) (n : Node) (ops : List BinOp) (ks : List Tr) (r : List Cst),
    addParts (n, ops, ks) (vs.map (.str .tyVar) ++ r) =
      addParts ({ n with names := n.names ++ vs }, ops, ks) r
  | [], n, ops, ks, r => by simp
  | v :: vs, n, ops, ks, r => by
    rw [List.map_cons, List.cons_append, addParts_str, addParts_tyVars vs]
    simp [addStr]

theorem addParts_tyArg {l : L} {k : Kind} (hl : kindOf l = some k) (hk : k = .tyArg ∨ k = .tyRet)
    (t : Front.TySrc) (n : Node) (ops : List BinOp) (ks : List Tr) (r : List Cst) :
    addParts (n, ops, ks) (.node l t.tree :: r) =
      addParts (n, ops, ks ++ [.mk { kind := k, ty := some t.ty } [] []]) r := by
  rw [addParts, addPart]
  have h1 : ¬ (k = .type ∨ k = .retType) := by rcases hk with rfl | rfl <;> simp
  simp only [hl, h1, if_false, hk, if_true, tyOf_tree]
  rfl

theorem addParts_tyArgs : ∀ (ts : List Front.TySrc) (n : Node) (ops : List BinOp) (ks : List Tr) (r : List Cst),
    addParts (n, ops, ks) (ts.map (fun t => .node .tyArg t.tree) ++ r) =
      addParts (n, ops, ks ++ ts.map fun t => .mk { kind := .tyArg, ty := some t.ty } [] []) r
  | [], n, ops, ks, r => by simp
  | v :: vs, n, ops, ks, r => by
    rw [List.map_cons, List.cons_append, addParts_tyArg (k := .tyArg) rfl (Or.inl rfl), addParts_tyArgs vs]
    simp

/-- Nodes of types. -/
def TyLeaf (t : Tr) : Prop := ∃ (k : Kind) (y : Ty), (k = .tyArg ∨ k = .tyRet) ∧ t = .mk { kind := k, ty := some y } [] []

theorem tyLeaf_seq : ∀ {ts ts' : List Tr}, (∀ t ∈ ts, TyLeaf t) → finAll ts = .ok ts' →
    headDecl ts' = none ∧ ∀ (m : Node) X, seqOk m [] X false false ts'
  | [], _, _, h => by rw [finAll_nil h]; exact ⟨rfl, fun m X => trivial⟩
  | t :: ts, _, ht, h => by
    obtain ⟨t', r, h1, h2, rfl⟩ := finAll_cons h
    obtain ⟨k, y, hk, rfl⟩ := ht t (by simp)
    have hs : k.still = true ∧ k.calm = true := by rcases hk with rfl | rfl <;> exact ⟨rfl, rfl⟩
    cases fin_leaf h1 hs.1
    refine ⟨by simp [headDecl, Tr.node], fun m X => ?_⟩
    rw [seqOk, ok_calm hs.2 rfl, Tr.decl_eq]
    refine ⟨trivial, ?_⟩
    exact (tyLeaf_seq (fun t h => ht t (by simp [h])) h2).2 m _

/-- Extra types of a function. -/
theorem sig_seq : ∀ {tys : List (List Cst)}, (∀ k ∈ tys, SigOf k) → ∀ {n ops ks x},
    addParts (n, ops, ks) (tys.map (.node .ty)) = .ok x → ∃ ts, x = (n, ops, ks ++ ts) ∧
      ∀ ts', finAll ts = .ok ts' → paramsOf ts' = [] ∧ ∀ (m : Node) X, seqOk m [] X false false ts'
  | [], _, n, ops, ks, x, h => by
    rw [List.map_nil, addParts_nil] at h
    cases h
    exact ⟨[], by simp, fun ts' h => by rw [finAll_nil h]; exact ⟨rfl, fun _ _ => trivial⟩⟩
  | k :: tys, hs, n, ops, ks, x, h => by
    obtain ⟨vars, args, ret, rfl⟩ := hs k (by simp)
    rw [List.map_cons] at h
    obtain ⟨n', ops', ks', h1, h2⟩ := addParts_node (k := .ty) rfl rfl h
    rw [List.append_assoc, addParts_tyVars, addParts_tyArgs, addParts_tyArg (k := .tyRet) rfl (Or.inr rfl),
      addParts_nil] at h1
    cases h1
    obtain ⟨ts, h3, h4⟩ := sig_seq (fun k h => hs k (by simp [h])) h2
    refine ⟨_ :: ts, by rw [h3]; simp; rfl, fun ts' h => ?_⟩
    obtain ⟨t', r, h5, h6, rfl⟩ := finAll_cons h
    obtain ⟨ks', h7, rfl⟩ := fin_still h5 rfl
    obtain ⟨g1, g2⟩ := tyLeaf_seq (ts := [] ++ args.map (fun t => Tr.mk { kind := .tyArg, ty := some t.ty } [] []) ++
      [.mk { kind := .tyRet, ty := some ret.ty } [] []]) (by
        intro t ht
        simp only [List.nil_append, List.mem_append, List.mem_map, List.mem_singleton] at ht
        rcases ht with ⟨a, _, rfl⟩ | rfl
        · exact ⟨.tyArg, a.ty, Or.inl rfl, rfl⟩
        · exact ⟨.tyRet, ret.ty, Or.inr rfl, rfl⟩) h7
    obtain ⟨q1, q2⟩ := h4 _ h6
    refine ⟨by unfold paramsOf at q1 ⊢; rw [List.filterMap_cons, q1]; rfl, fun m X => ?_⟩
    rw [seqOk, ok_calm rfl rfl, Tr.decl_eq]
    simp only [Tr.kids, g1, Option.toList_none, List.map_nil, List.nil_append]
    exact ⟨g2 _ _, q2 _ _⟩

theorem c_body {b : BodySrc} (hb : ∀ k ∈ sigs b, SigOf k) {n ops ks x}
    (h : addParts (n, ops, ks) b.tree = .ok x) : ∃ n' ts, x = (n', ops, ks ++ ts) ∧ Same n n' ∧
      n'.names = n.names ∧
      ∀ ts', finAll ts = .ok ts' → paramsOf ts' = [] ∧ ∀ (m : Node), m.loopBind = [] → ∀ X,
        (seqOk m [] X false false ts' ↔ fitsBody X b) := by
  have main : ∀ (es : List Src) (tys : List (List Cst)) (n : Node) (ops) (ks) (x),
      (∀ k ∈ tys, SigOf k) →
      addParts (n, ops, ks) (.node .block (trees .expr es) :: tys.map (.node .ty)) = .ok x →
      ∃ ts, x = (n, ops, ks ++ ts) ∧ ∀ ts', finAll ts = .ok ts' → paramsOf ts' = [] ∧
        ∀ (m : Node), m.loopBind = [] → ∀ X, (seqOk m [] X false false ts' ↔ fitsSeq X es) := by
    intro es tys n ops ks x hs h
    obtain ⟨t1, h, b1⟩ := blk (c_srcs es) (k := .block) rfl rfl h
    obtain ⟨ts, h1, h2⟩ := sig_seq hs h
    refine ⟨t1 :: ts, by rw [h1]; simp, fun ts' h => ?_⟩
    obtain ⟨t', r, h5, h6, rfl⟩ := finAll_cons h
    obtain ⟨q1, q2⟩ := h2 _ h6
    refine ⟨?_, fun m hm X => ?_⟩
    · have := (b1 _ h5).kind
      unfold paramsOf at q1 ⊢
      rw [List.filterMap_cons, q1]
      simp [this]
    · rw [seqOk_blk (b1 _ h5), hm]
      simp [q2]
  cases b with
  | block es tys =>
    rw [BodySrc.tree, addParts_bool] at h
    obtain ⟨ts, h1, h2⟩ := main es tys _ _ _ _ hb h
    simp only [addOp, List.append_nil] at h1
    refine ⟨_, ts, h1, ?_, ?_, h2⟩
    · exact ⟨rfl, rfl, rfl⟩
    · rfl
  | returns ty es tys =>
    rw [BodySrc.tree, List.cons_append, addParts_bool, addParts_ty _ _ _ (Or.inr rfl)] at h
    obtain ⟨ts, h1, h2⟩ := main es tys _ _ _ _ hb h
    simp only [addOp, List.append_nil] at h1
    refine ⟨_, ts, h1, ?_, ?_, h2⟩
    · exact ⟨rfl, rfl, rfl⟩
    · rfl
  | expr e =>
    rw [BodySrc.tree] at h
    obtain ⟨t1, h, b1⟩ := box (c_src e) (k := .expr) rfl rfl h
    rw [addParts_nil] at h
    cases h
    refine ⟨n, [t1], rfl, ⟨rfl, rfl, rfl⟩, rfl, fun ts' h => ?_⟩
    obtain ⟨t', f1, rfl⟩ := finAll_one h
    refine ⟨(b1 _ f1).notPar rfl, fun m hm X => ?_⟩
    rw [seqOk_box' (b1 _ f1), hm, fitsBody]
    simp [seqOk]

theorem fn_ok {f : FnSrc} (hs : ∀ k ∈ sigs f.body, SigOf k) {n ops ks r x}
    (h : addParts (n, ops, ks) (f.tree :: r) = .ok x) : ∃ t,
      addParts (n, ops, ks ++ [t]) r = .ok x ∧ ∀ t', fin t = .ok t' → t'.node.kind = .fn ∧
        (t'.ok (topOf t') [] false false ↔ fitsFn f) := by
  rw [FnSrc.tree] at h
  obtain ⟨n', ops', ks', h1, h2⟩ := addParts_node (k := .fn) rfl rfl h
  simp only [List.cons_append, List.append_assoc] at h1
  rw [addParts_str] at h1
  obtain ⟨ts1, h1, b1⟩ := fnArgs_seq h1
  obtain ⟨ts2, h1, b2⟩ := curs_pars f.currents h1
  obtain ⟨m, ts3, h3, h4, h5, b3⟩ := c_body hs h1
  cases h3
  refine ⟨_, h2, fun t' ht => ?_⟩
  obtain ⟨kids, n1, h6, h7, rfl⟩ := fin_call (Or.inr h4.kind) ht
  obtain ⟨g1, _, _⟩ := mutNode_ok h7
  simp only [List.nil_append, List.append_assoc] at h6
  obtain ⟨t1', r1, f1, w1, rfl⟩ := finAll_append h6
  obtain ⟨t2', r2, f2, w2, rfl⟩ := finAll_append w1
  obtain ⟨q1, q2⟩ := b3 _ w2
  have hk : n1.kind = .fn := by rw [g1.kind, h4.kind]; rfl
  have hc : n1.kind.calm = true := by rw [hk]; rfl
  have hp : paramsOf (t1' ++ (t2' ++ r2)) = f.args.map (·.name) ++ f.currents.map (·.name) := by
    rw [(b1 _ f1).names, (b2 _ f2).names, q1, List.append_nil]
  have ht : topOf (.mk n1 [] (t1' ++ (t2' ++ r2))) = fnScope f := by
    simp only [topOf, Tr.node, Tr.kids, hk, true_or, if_true, hp, fnScope]
  refine ⟨hk, ?_⟩
  have hl := (Kind.calm_facts hc).2.1
  rw [ht, ok_calm hc (by rw [g1.op, h4.op]; rfl), (b1 _ f1).seq _ hl, (b2 _ f2).seq, q2 _ hl]
  rfl

theorem rawFile_ok : ∀ {fs : List FnSrc} {ts : List Tr}, (∀ f ∈ fs, ∀ k ∈ sigs f.body, SigOf k) →
    rawFile (fs.map FnSrc.tree) = .ok ts → ∀ {ts' : List Tr}, finAll ts = .ok ts' →
      (∀ t ∈ ts', t.node.kind ≠ .item) ∧ (fileOk ts' ↔ ∀ f ∈ fs, fitsFn f)
  | [], ts, _, h, ts', h' => by
    cases h
    rw [finAll_nil h']
    simp [fileOk]
  | f :: fs, ts, hs, h, ts', h' => by
    rw [List.map_cons] at h
    have e1 : f.tree = .node .fn (.str .name f.name :: f.args.map FnArg.tree ++ f.currents.map Cur.tree ++ f.body.tree) := rfl
    rw [e1, rawFile, ← e1] at h
    cases h1 : addPart (default, [], []) f.tree with
    | error e => rw [h1] at h; cases h
    | ok o =>
      rw [h1] at h
      have h2 : addParts (default, [], []) (f.tree :: []) = .ok o := by
        rw [addParts, h1]
        exact addParts_nil o
      obtain ⟨t, h3, h4⟩ := fn_ok (hs f (by simp)) h2
      rw [addParts_nil] at h3
      cases h3
      simp only [bind, Except.bind, List.nil_append, List.isEmpty_cons, Bool.false_eq_true, if_false] at h
      cases h5 : rawFile (fs.map FnSrc.tree) with
      | error e => rw [h5] at h; cases h
      | ok r =>
        rw [h5] at h
        cases h
        obtain ⟨t', r', h6, h7, rfl⟩ := finAll_cons h'
        obtain ⟨g1, g2⟩ := rawFile_ok (fun f h => hs f (by simp [h])) h5 h7
        obtain ⟨q1, q2⟩ := h4 _ h6
        refine ⟨?_, ?_⟩
        · intro t ht
          rcases List.mem_cons.1 ht with rfl | ht
          · rw [q1]; simp
          · exact g1 t ht
        · unfold fileOk at g2 ⊢
          rw [List.forall_mem_cons, List.forall_mem_cons, g2, q2, q1]
          simp

end

end Dyon.Check
