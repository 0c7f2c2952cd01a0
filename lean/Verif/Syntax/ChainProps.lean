import Verif.Syntax.Chain
import Mathlib.Data.List.Nodup
import Mathlib.Data.List.Induction

/-! # C38: operator sequences associate to the left -/

namespace Dyon.Syn

/-! ## Specification -/

namespace Spec

/-- `x₀ o₁ x₁ o₂ x₂ ...` grouped to the left: `((x₀ o₁ x₁) o₂ x₂) ...`. -/
def leftAssoc {α : Type} (bin : BinOp → α → α → α) (first : α) (rest : List (BinOp × α)) : α :=
  rest.foldl (fun acc p => bin p.1 acc p.2) first

/-- What the checker sees: a kind, names and parts. -/
inductive Tree where
  | node (kind : String) (names : List String) (parts : List Tree)

/-- A call of the function of an operator with two arguments. -/
def opTree (op : BinOp) (l r : Tree) : Tree :=
  .node "call" [callName op] [.node "call_arg" [] [l], .node "call_arg" [] [r]]

/-- What a node with these parts stands for: a node with operators is the sequence grouped
to the left. -/
def stands (n : CNode) (ts : List Tree) : Tree :=
  match n.binops, ts with
  | [], ts => .node n.kind n.names ts
  | ops, t :: ts => leftAssoc opTree t (ops.zip ts)
  | _, [] => .node n.kind n.names []

/-- Node number `i` stands for the tree `t`. -/
inductive Means (nodes : List CNode) : Nat → Tree → Prop
  | node {i : Nat} {n : CNode} {ts : List Tree} : nodes[i]? = some n → ts.length = n.children.length →
      (∀ (k c : Nat) t, n.children[k]? = some c → ts[k]? = some t → Means nodes c t) →
      Means nodes i (stands n ts)

/-- The nodes form trees: parents and children agree, no node is its own child or twice a
child; and a node with operators has one more part than operators and no names. -/
structure Arena (nodes : List CNode) : Prop where
  child : ∀ (p : Nat) n, nodes[p]? = some n → ∀ c ∈ n.children, c ≠ p ∧ ∃ m, nodes[c]? = some m ∧ m.parent = some p
  parent : ∀ (i : Nat) n, nodes[i]? = some n → ∀ p, n.parent = some p → ∃ m, nodes[p]? = some m ∧ i ∈ m.children
  nodup : ∀ n ∈ nodes, n.children.Nodup
  chain : ∀ n ∈ nodes, n.binops ≠ [] → n.children.length = n.binops.length + 1 ∧ n.names = []

end Spec

open Spec

/-! ## The executed program -/

theorem seqRev_append (e : Expr) : ∀ (items : List Expr) (ops : List BinOp), items.length = ops.length →
    seqRev (items ++ [e]) ops = some ((ops.zip items).foldr (fun p acc => binCall p.1 acc p.2) e) := by
  intro items
  induction items with
  | nil => intro ops h; cases ops <;> simp_all [seqRev]
  | cons x xs ih =>
    intro ops h
    cases ops with
    | nil => simp at h
    | cons o ops =>
      have := ih ops (by simpa using h)
      cases hx : xs ++ [e] with
      | nil => simp at hx
      | cons y ys =>
        rw [List.cons_append, hx, seqRev]
        · rw [← hx, this]; simp
        · simp

theorem C38_executed (first : Expr) (rest : List (BinOp × Expr)) :
    intoExpression (first :: rest.map (·.2)) (rest.map (·.1)) = some (leftAssoc binCall first rest) := by
  unfold intoExpression
  rw [List.reverse_cons, seqRev_append _ _ _ (by simp), ← List.map_reverse, ← List.map_reverse, List.zip_map',
    leftAssoc, List.foldl_eq_foldr_reverse]
  congr 2
  simp

/-- `1 - 2 + 3`. -/
example (a b c : Expr) : intoExpression [a, b, c] [.sub, .add] =
    some (.call .none "add" [.call .none "sub" [a, b], c]) := rfl

/-! ## The checked program -/

theorem leftAssoc_snoc {α} (bin : BinOp → α → α → α) (t : α) (l : List (BinOp × α)) (o : BinOp) (x : α) :
    leftAssoc bin t (l ++ [(o, x)]) = bin o (leftAssoc bin t l) x := by
  simp [leftAssoc]

/-- What pushing the nodes of a chain does. -/
structure Pushed (i : Nat) (kind : String) (cs : List Nat) (bs : List BinOp) (q : Nat) (par par' : Option Nat)
    (A B : List CNode) : Prop where
  length : B.length = A.length + q
  par' : par' = if q = 0 then par else some (A.length + q - 1)
  old : ∀ (j : Nat) a, A[j]? = some a → ∃ b, B[j]? = some b ∧ b.kind = a.kind ∧ b.names = a.names ∧ b.binops = a.binops ∧
    b.children = a.children ∧ ((∀ n, 2 ≤ n → n ≤ q + 1 → cs[n]? ≠ some j) → b.parent = a.parent) ∧
    (∀ n, 2 ≤ n → n ≤ q + 1 → cs[n]? = some j → b.parent = some (A.length + (q + 1 - n)))
  new : ∀ r < q, ∃ b right, bs[q - r]? = some b ∧ cs[q + 1 - r]? = some right ∧ B[A.length + r]? = some
    ⟨kind, [], [b], if r = 0 then par else some (A.length + r - 1),
      [if r + 1 = q then i else A.length + r + 1, right]⟩

theorem pushNest_spec {i : Nat} {kind : String} {cs : List Nat} {bs : List BinOp} (hcs : cs.Nodup) :
    ∀ q par A, (∀ c ∈ cs, c < A.length) → q + 1 < cs.length ∨ q = 0 → q < bs.length ∨ q = 0 →
      ∃ B par', pushNest i kind cs bs q par A = some (B, par') ∧ Pushed i kind cs bs q par par' A B := by
  intro q
  induction q with
  | zero =>
    intro par A _ _ _
    refine ⟨A, par, rfl, rfl, rfl, fun j a h => ⟨a, h, rfl, rfl, rfl, rfl, fun _ => rfl, ?_⟩, ?_⟩
    · intro n h1 h2; omega
    · intro r h; omega
  | succ q ih =>
    intro par A hc h1 h2
    have h1 : q + 2 < cs.length := by omega
    have h2 : q + 1 < bs.length := by omega
    rw [pushNest]
    simp only [List.getElem?_eq_getElem h1, List.getElem?_eq_getElem h2, Option.bind_eq_bind, Option.bind_some]
    generalize hA1 : setParent cs[q + 2] (some A.length) A ++ [_] = A1
    have hl : A1.length = A.length + 1 := by rw [← hA1]; simp [setParent]
    obtain ⟨B, par', he, hp⟩ := ih (some A.length) A1 (by intro c h; have := hc c h; omega) (by omega) (by omega)
    refine ⟨B, par', he, ?_, ?_, ?_, ?_⟩
    · rw [hp.length, hl]; omega
    · rw [hp.par', hl]
      by_cases hq : q = 0
      · simp [hq]
      · simp only [hq, if_false, Nat.add_eq_zero_iff, Nat.one_ne_zero, and_self, Option.some.injEq]
        omega
    · intro j a ha
      have hj := (List.getElem?_eq_some_iff.1 ha).1
      have ha1 : A1[j]? = some { a with parent := if cs[q + 2] = j then some A.length else a.parent } := by
        rw [← hA1, List.getElem?_append_left (by simpa [setParent] using hj), setParent, List.getElem?_modify, ha]
        by_cases h : cs[q + 2] = j <;> simp [h]
      obtain ⟨b, hb, e1, e2, e3, e4, e5, e6⟩ := hp.old j _ ha1
      refine ⟨b, hb, e1, e2, e3, e4, ?_, ?_⟩
      · intro hn
        have hne : ¬ cs[q + 2] = j := by
          intro h
          exact hn (q + 2) (by omega) (by omega) (by rw [List.getElem?_eq_getElem h1, h])
        rw [e5 (fun n a1 a2 => hn n a1 (by omega))]
        simp [hne]
      · intro n a1 a2 hcn
        by_cases hn : n = q + 2
        · subst hn
          rw [List.getElem?_eq_getElem h1, Option.some.injEq] at hcn
          rw [e5]
          · simp [hcn]
          · intro n b1 b2 hcs'
            have hlt : n < cs.length := (List.getElem?_eq_some_iff.1 hcs').1
            rw [List.getElem?_eq_getElem hlt, Option.some.injEq, ← hcn] at hcs'
            have := (List.Nodup.getElem_inj_iff hcs).1 hcs'
            omega
        · rw [e6 n a1 (by omega) hcn, hl]
          congr 1
          omega
    · intro r hr
      by_cases h0 : r = 0
      · subst h0
        refine ⟨bs[q + 1], cs[q + 2], List.getElem?_eq_getElem h2, List.getElem?_eq_getElem h1, ?_⟩
        have hget : A1[A.length]? = some ⟨kind, [], [bs[q + 1]], par, [if q = 0 then i else A.length + 1, cs[q + 2]]⟩ := by
          rw [← hA1, List.getElem?_append_right (by simp [setParent])]
          simp [setParent]
        obtain ⟨⟨k', n', b', p', c'⟩, hb, e1, e2, e3, e4, e5, _⟩ := hp.old _ _ hget
        have e7 := e5 (by
          intro n _ _ hcn
          have := hc _ (List.mem_of_getElem? hcn)
          omega)
        simp only at e1 e2 e3 e4 e7
        subst e1 e2 e3 e4 e7
        rw [Nat.add_zero, hb]
        have : (0 + 1 = q + 1) = (q = 0) := by simp
        simp [this]
      · obtain ⟨r, rfl⟩ : ∃ s, r = s + 1 := ⟨r - 1, by omega⟩
        obtain ⟨b, right, e1, e2, e3⟩ := hp.new r (by omega)
        refine ⟨b, right, by rw [← e1]; congr 1; omega, by rw [← e2]; congr 1; omega, ?_⟩
        have : A.length + (r + 1) = A1.length + r := by omega
        rw [this, e3, hl]
        have h3 : (r + 1 + 1 = q + 1) = (r + 1 = q) := by simp
        simp only [h3, h0, if_false]
        congr 2
        by_cases hr0 : r = 0
        · simp [hr0]
        · simp only [hr0, if_false, Option.some.injEq]

theorem replaceFirst_eq {i new : Nat} : ∀ {l : List Nat}, l.Nodup →
    replaceFirst i new l = l.map fun c => if c = i then new else c := by
  intro l
  induction l with
  | nil => intro _; rfl
  | cons c l ih =>
    intro h
    rw [List.nodup_cons] at h
    simp only [replaceFirst, List.map_cons]
    by_cases hc : c = i
    · rw [if_pos hc, if_pos hc]
      congr 1
      refine ((List.map_congr_left fun x hx => ?_).trans (List.map_id l)).symm
      rw [if_neg (fun h' => h.1 (by rw [hc, ← h']; exact hx))]; rfl
    · rw [if_neg hc, if_neg hc, ih h.2]

theorem map_absent {i new : Nat} {l : List Nat} (h : i ∉ l) : (l.map fun c => if c = i then new else c) = l := by
  refine (List.map_congr_left fun x hx => ?_).trans (List.map_id l)
  rw [if_neg (fun h' : x = i => h (h' ▸ hx))]; rfl

/-- What a round of the first loop does to a node with two or more operators. -/
structure Nested (i : Nat) (nd : CNode) (A F : List CNode) : Prop where
  length : F.length = A.length + (nd.children.length - 2)
  self : ∃ b, nd.binops[0]? = some b ∧
    F[i]? = some ⟨nd.kind, nd.names, [b], some (A.length + (nd.children.length - 2) - 1), nd.children.take 2⟩
  old : ∀ (j : Nat) a, j ≠ i → A[j]? = some a → ∃ p, F[j]? = some
      { a with parent := p, children := a.children.map fun c => if c = i then A.length else c } ∧
    ((∀ n, 2 ≤ n → nd.children[n]? ≠ some j) → p = a.parent) ∧
    (∀ n, 2 ≤ n → nd.children[n]? = some j → p = some (A.length + (nd.children.length - 1 - n)))
  new : ∀ r < nd.children.length - 2, ∃ b right, nd.binops[nd.children.length - 2 - r]? = some b ∧
    nd.children[nd.children.length - 1 - r]? = some right ∧ F[A.length + r]? = some
    ⟨nd.kind, [], [b], if r = 0 then nd.parent else some (A.length + r - 1),
      [if r + 1 = nd.children.length - 2 then i else A.length + r + 1, right]⟩

theorem take_one_eq {α} {l : List α} (h : 0 < l.length) : l.take 1 = [l[0]] := by
  cases l with
  | nil => simp at h
  | cons x xs => rfl

theorem nestChain_spec {A : List CNode} (h : Arena A) {i : Nat} {nd : CNode} (hi : A[i]? = some nd)
    (hb : ¬ nd.binops.length ≤ 1) : ∃ F, nestChain A i = some F ∧ Nested i nd A F := by
  have hmem := List.mem_of_getElem? hi
  have hil := (List.getElem?_eq_some_iff.1 hi).1
  obtain ⟨hch, hnames⟩ := h.chain nd hmem (by intro e; rw [e] at hb; simp at hb)
  have hnd := h.nodup nd hmem
  have hcl : ∀ c ∈ nd.children, c < A.length := by
    intro c hc
    obtain ⟨_, m, hm, _⟩ := h.child i nd hi c hc
    exact (List.getElem?_eq_some_iff.1 hm).1
  have hself : i ∉ nd.children := fun hc => (h.child i nd hi i hc).1 rfl
  obtain ⟨B, par', he, hp⟩ := pushNest_spec (i := i) (kind := nd.kind) (bs := nd.binops) hnd
    (nd.children.length - 2) nd.parent A hcl (by omega) (by omega)
  unfold nestChain
  simp only [hi, Option.bind_eq_bind, Option.bind_some, hb, if_false, he, Option.pure_def]
  refine ⟨_, rfl, ?_⟩
  have hq : nd.children.length - 2 + 1 = nd.children.length - 1 := by omega
  have hpar : ∀ old, nd.parent = some old → old < A.length ∧ old ≠ i := by
    intro old ho
    obtain ⟨m, hm, hc⟩ := h.parent i nd hi old ho
    refine ⟨(List.getElem?_eq_some_iff.1 hm).1, fun e => ?_⟩
    subst e
    rw [hi, Option.some.injEq] at hm
    exact hself (hm ▸ hc)
  -- the node at `j` in the result, from the node at `j` after pushing
  have get : ∀ (j : Nat) b, B[j]? = some b → (∃ a, A[j]? = some a ∧ b.children = a.children) ∨ A.length ≤ j →
      (setParent i par' (match nd.parent with
        | some old => (B.modify i fun n => { n with children := n.children.take 2, binops := n.binops.take 1 }).modify old
            fun n => { n with children := replaceFirst i A.length n.children }
        | none => B.modify i fun n => { n with children := n.children.take 2, binops := n.binops.take 1 }))[j]? =
      some (if j = i then { b with children := b.children.take 2, binops := b.binops.take 1, parent := par' }
        else if nd.parent = some j then { b with children := replaceFirst i A.length b.children } else b) := by
    intro j b hj _
    cases hpa : nd.parent with
    | none =>
      simp only [setParent, List.getElem?_modify, hj]
      by_cases hji : j = i
      · subst hji; simp
      · simp [hji, Ne.symm hji]
    | some old =>
      obtain ⟨_, hne⟩ := hpar old hpa
      simp only [setParent, List.getElem?_modify, hj]
      by_cases hji : j = i
      · subst hji; simp [hne]
      · by_cases hjo : old = j
        · subst hjo; simp [hji, Ne.symm hji]
        · simp [hji, Ne.symm hji, hjo]
  refine ⟨?_, ?_, ?_, ?_⟩
  · rw [← hp.length]
    cases nd.parent <;> simp [setParent]
  · obtain ⟨b, hbi, e1, e2, e3, e4, _, _⟩ := hp.old i nd hi
    have hlen : 0 < nd.binops.length := by omega
    refine ⟨nd.binops[0], List.getElem?_eq_getElem hlen, ?_⟩
    refine (get i b hbi (Or.inl ⟨nd, hi, e4⟩)).trans ?_
    rw [if_pos rfl]
    obtain ⟨k', n', b', p', c'⟩ := b
    simp only at e1 e2 e3 e4
    subst e1 e2 e3 e4
    have : nd.children.length - 2 ≠ 0 := by omega
    have hpp := hp.par'
    rw [if_neg this] at hpp
    rw [hpp]
    congr 2
    exact take_one_eq hlen
  · intro j a hji ha
    obtain ⟨b, hbj, e1, e2, e3, e4, e5, e6⟩ := hp.old j a ha
    have hjl := (List.getElem?_eq_some_iff.1 ha).1
    refine ⟨b.parent, ?_, ?_, ?_⟩
    · refine (get j b hbj (Or.inl ⟨a, ha, e4⟩)).trans ?_
      rw [if_neg hji]
      obtain ⟨k', n', b', p', c'⟩ := b
      obtain ⟨k, n, b, p, c⟩ := a
      simp only at e1 e2 e3 e4
      subst e1 e2 e3 e4
      simp only
      by_cases hpj : nd.parent = some j
      · rw [if_pos hpj, replaceFirst_eq (h.nodup _ (List.mem_of_getElem? ha))]
      · rw [if_neg hpj]
        congr 2
        refine (map_absent fun hc => ?_).symm
        obtain ⟨_, m, hm, hmp⟩ := h.child j _ ha i hc
        rw [hi, Option.some.injEq] at hm
        exact hpj (hm ▸ hmp)
    · intro hn
      exact e5 fun n h1 _ => hn n h1
    · intro n h1 h2
      have := (List.getElem?_eq_some_iff.1 h2).1
      rw [e6 n h1 (by omega) h2, hq]
  · intro r hr
    obtain ⟨b, right, e1, e2, e3⟩ := hp.new r hr
    refine ⟨b, right, e1, by rw [← e2, hq], ?_⟩
    refine (get _ _ e3 (Or.inr (by omega))).trans ?_
    rw [if_neg (by omega), if_neg]
    intro hpa
    have := (hpar _ hpa).1
    omega

/-- The operators and parts of a chain from the second part on. -/
theorem stands_chain {n : CNode} {t : Tree} {ts : List Tree} (h : n.binops ≠ []) :
    stands n (t :: ts) = leftAssoc opTree t (n.binops.zip ts) := by
  unfold stands
  cases hb : n.binops with
  | nil => exact absurd hb h
  | cons x xs => rfl

/-- What a node stands for depends on its operators, kind, names and parts only. -/
theorem stands_congr {n m : CNode} (h1 : n.binops = m.binops) (h2 : n.kind = m.kind) (h3 : n.names = m.names)
    (ts : List Tree) : stands n ts = stands m ts := by
  unfold stands
  rw [h1, h2, h3]

theorem Means.unique {nodes : List CNode} {i : Nat} {t u : Tree} (h : Means nodes i t) (h' : Means nodes i u) : t = u := by
  induction h generalizing u with
  | node hn hl hk ih =>
    cases h' with
    | node hn' hl' hk' =>
      rw [hn, Option.some.injEq] at hn'
      subst hn'
      congr 1
      apply List.ext_getElem (by omega)
      intro k h1 h2
      refine ih k _ _ (List.getElem?_eq_getElem (by omega)) (List.getElem?_eq_getElem h1)
        (hk' k _ _ (List.getElem?_eq_getElem (by omega)) (List.getElem?_eq_getElem h2))

theorem Means.two {nodes : List CNode} {i l r : Nat} {kind : String} {p : Option Nat} {b : BinOp} {tl tr : Tree}
    (h : nodes[i]? = some ⟨kind, [], [b], p, [l, r]⟩) (hl : Means nodes l tl) (hr : Means nodes r tr) :
    Means nodes i (opTree b tl tr) := by
  have := Means.node (ts := [tl, tr]) h rfl (by
    intro k c t hc ht
    match k with
    | 0 => simp only [List.getElem?_cons_zero, Option.some.injEq] at hc ht; subst hc ht; exact hl
    | 1 => simp only [List.getElem?_cons_succ, List.getElem?_cons_zero, Option.some.injEq] at hc ht; subst hc ht; exact hr
    | k + 2 => simp at hc)
  exact this

theorem nested_means {A F : List CNode} {i : Nat} {nd : CNode} (h : Arena A) (hi : A[i]? = some nd)
    (hb : ¬ nd.binops.length ≤ 1) (hF : Nested i nd A F) {j : Nat} {t : Tree} (hm : Means A j t) :
    Means F (if j = i then A.length else j) t := by
  have hmem := List.mem_of_getElem? hi
  have hne : nd.binops ≠ [] := by intro e; rw [e] at hb; simp at hb
  obtain ⟨hch, hnames⟩ := h.chain nd hmem hne
  have hself : i ∉ nd.children := fun hc => (h.child i nd hi i hc).1 rfl
  induction hm with
  | @node j n ts hn hl hk ih =>
    by_cases hji : j = i
    · subst hji
      rw [if_pos rfl]
      rw [hi, Option.some.injEq] at hn
      subst hn
      -- the parts keep their numbers
      have part : ∀ (k c : Nat) t, nd.children[k]? = some c → ts[k]? = some t → Means F c t := by
        intro k c t hc ht
        have := ih k c t hc ht
        rwa [if_neg (fun e : c = j => hself (e ▸ List.mem_of_getElem? hc))] at this
      obtain ⟨t0, rest, rfl⟩ : ∃ t0 rest, ts = t0 :: rest := by
        cases ts with
        | nil => simp at hl; omega
        | cons x xs => exact ⟨x, xs, rfl⟩
      rw [stands_chain hne]
      simp only [List.length_cons] at hl
      obtain ⟨b0, hb0, hFi⟩ := hF.self
      -- level `s` groups the first `s + 1` operators
      have level : ∀ s, s ≤ nd.children.length - 2 →
          Means F (if s = 0 then j else A.length + (nd.children.length - 2 - s))
            (leftAssoc opTree t0 ((nd.binops.zip rest).take (s + 1))) := by
        intro s
        induction s with
        | zero =>
          intro _
          rw [if_pos rfl]
          have hz : (nd.binops.zip rest).take 1 = [(b0, rest[0]'(by omega))] := by
            cases hbo : nd.binops with
            | nil => exact absurd hbo hne
            | cons x xs =>
              cases rest with
              | nil => simp at hl; omega
              | cons y ys => rw [hbo] at hb0; simp at hb0; simp [hb0]
          rw [Nat.zero_add, hz]
          obtain ⟨c0, c1, hc⟩ : ∃ c0 c1, nd.children.take 2 = [c0, c1] := by
            cases hcs : nd.children with
            | nil => rw [hcs] at hch; simp at hch
            | cons c0 cs =>
              cases cs with
              | nil => rw [hcs] at hch; simp only [List.length_cons, List.length_nil] at hch; omega
              | cons c1 cs => exact ⟨c0, c1, rfl⟩
          have g0 : nd.children[0]? = some c0 := by
            have : (nd.children.take 2)[0]? = some c0 := by rw [hc]; rfl
            rwa [List.getElem?_take_of_lt (by omega)] at this
          have g1 : nd.children[1]? = some c1 := by
            have : (nd.children.take 2)[1]? = some c1 := by rw [hc]; rfl
            rwa [List.getElem?_take_of_lt (by omega)] at this
          rw [hc, hnames] at hFi
          exact Means.two hFi (part 0 c0 t0 g0 rfl) (part 1 c1 _ g1 (by
            rw [List.getElem?_cons_succ]; exact List.getElem?_eq_getElem _))
        | succ s ihs =>
          intro hs
          rw [if_neg (by omega)]
          obtain ⟨b, right, e1, e2, e3⟩ := hF.new (nd.children.length - 2 - (s + 1)) (by omega)
          have hz : (nd.binops.zip rest).take (s + 1 + 1) =
              (nd.binops.zip rest).take (s + 1) ++ [(b, rest[s + 1]'(by omega))] := by
            rw [List.take_add_one]
            congr 1
            have hbs : nd.binops[s + 1]? = some b := by rw [← e1]; congr 1; omega
            have hrs : rest[s + 1]? = some (rest[s + 1]'(by omega)) := List.getElem?_eq_getElem _
            have hbr : (nd.binops.zip rest)[s + 1]? = some (b, rest[s + 1]'(by omega)) :=
              List.getElem?_zip_eq_some.2 ⟨hbs, hrs⟩
            rw [hbr]
            rfl
          rw [hz, leftAssoc_snoc]
          refine Means.two e3 ?_ (part (s + 2) right _ ?_ ?_)
          · have := ihs (by omega)
            have hcond : (nd.children.length - 2 - (s + 1) + 1 = nd.children.length - 2) ↔ s = 0 := by omega
            by_cases h0 : s = 0
            · rw [if_pos (hcond.2 h0)]; rwa [if_pos h0] at this
            · rw [if_neg (fun h' => h0 (hcond.1 h'))]; rw [if_neg h0] at this
              have he : A.length + (nd.children.length - 2 - (s + 1)) + 1 = A.length + (nd.children.length - 2 - s) := by
                omega
              rw [he]; exact this
          · rw [← e2]; congr 1; omega
          · rw [List.getElem?_cons_succ]; exact List.getElem?_eq_getElem _
      have := level (nd.children.length - 2) (Nat.le_refl _)
      rw [if_neg (by omega), Nat.sub_self, Nat.add_zero, List.take_of_length_le (by
        rw [List.length_zip]; omega)] at this
      exact this
    · rw [if_neg hji]
      obtain ⟨p, hFj, _, _⟩ := hF.old j n hji hn
      refine Means.node (n := { n with parent := p, children := n.children.map fun c => if c = i then A.length else c })
        hFj (by simpa using hl) ?_
      intro k c t hc ht
      rw [List.getElem?_map] at hc
      cases hck : n.children[k]? with
      | none => rw [hck] at hc; cases hc
      | some c' =>
        rw [hck] at hc
        simp only [Option.map_some, Option.some.injEq] at hc
        rw [← hc]
        exact ih k c' t hck ht

theorem nested_arena {A F : List CNode} {i : Nat} {nd : CNode} (h : Arena A) (hi : A[i]? = some nd)
    (hb : ¬ nd.binops.length ≤ 1) (hF : Nested i nd A F) : Arena F := by
  have hmem := List.mem_of_getElem? hi
  have hil := (List.getElem?_eq_some_iff.1 hi).1
  have hne : nd.binops ≠ [] := by intro e; rw [e] at hb; simp at hb
  obtain ⟨hch, hnames⟩ := h.chain nd hmem hne
  have hnd := h.nodup nd hmem
  have hself : i ∉ nd.children := fun hc => (h.child i nd hi i hc).1 rfl
  have hcl : ∀ c ∈ nd.children, c < A.length := by
    intro c hc
    obtain ⟨_, m, hm, _⟩ := h.child i nd hi c hc
    exact (List.getElem?_eq_some_iff.1 hm).1
  obtain ⟨b0, hb0, hFi⟩ := hF.self
  -- every node of the result is the chain's node, an old node, or a new node
  have cases : ∀ (j : Nat) f, F[j]? = some f → j = i ∨ (j ≠ i ∧ j < A.length) ∨
      (∃ r, r < nd.children.length - 2 ∧ j = A.length + r) := by
    intro j f hj
    have := (List.getElem?_eq_some_iff.1 hj).1
    rw [hF.length] at this
    by_cases h1 : j = i
    · exact Or.inl h1
    · by_cases h2 : j < A.length
      · exact Or.inr (Or.inl ⟨h1, h2⟩)
      · exact Or.inr (Or.inr ⟨j - A.length, by omega, by omega⟩)
  have idx : ∀ {n k c : Nat}, nd.children[n]? = some c → nd.children[k]? = some c → n = k := by
    intro n k c h1 h2
    have l1 := (List.getElem?_eq_some_iff.1 h1).1
    exact (List.getElem?_inj l1 hnd).1 (h1.trans h2.symm)
  -- the new parent of a part from the third on
  have late : ∀ (n c : Nat), 2 ≤ n → nd.children[n]? = some c →
      ∃ m, F[c]? = some m ∧ m.parent = some (A.length + (nd.children.length - 1 - n)) := by
    intro n c hn hc
    have hcm := List.mem_of_getElem? hc
    obtain ⟨hcne, m, hm, _⟩ := h.child i nd hi c hcm
    obtain ⟨p, hFc, _, e2⟩ := hF.old c m hcne hm
    exact ⟨_, hFc, e2 n hn hc⟩
  refine ⟨?_, ?_, ?_, ?_⟩
  · -- children
    intro p f hp c hc
    rcases cases p f hp with rfl | ⟨hpi, hpl⟩ | ⟨r, hr, rfl⟩
    · rw [hFi, Option.some.injEq] at hp
      subst hp
      simp only at hc
      have hc' := List.mem_of_mem_take hc
      obtain ⟨hcne, m, hm, hmp⟩ := h.child p nd hi c hc'
      refine ⟨hcne, ?_⟩
      obtain ⟨q, hFc, e1, _⟩ := hF.old c m hcne hm
      refine ⟨_, hFc, ?_⟩
      simp only
      rw [e1, hmp]
      intro n hn hn'
      obtain ⟨k, hk⟩ := List.getElem?_of_mem hc
      have hk2 : k < 2 := by
        have := (List.getElem?_eq_some_iff.1 hk).1
        rw [List.length_take] at this; omega
      rw [List.getElem?_take_of_lt hk2] at hk
      have := idx hn' hk
      omega
    · obtain ⟨a, ha⟩ : ∃ a, A[p]? = some a := ⟨_, List.getElem?_eq_getElem hpl⟩
      obtain ⟨q, hFp, _, _⟩ := hF.old p a hpi ha
      rw [hFp, Option.some.injEq] at hp
      subst hp
      simp only [List.mem_map] at hc
      obtain ⟨c', hc', rfl⟩ := hc
      obtain ⟨hcne, m, hm, hmp⟩ := h.child p a ha c' hc'
      by_cases hci : c' = i
      · subst hci
        rw [if_pos rfl]
        refine ⟨by omega, ?_⟩
        obtain ⟨b, right, _, _, e3⟩ := hF.new 0 (by omega)
        refine ⟨_, e3, ?_⟩
        rw [hi, Option.some.injEq] at hm
        subst hm
        exact hmp
      · rw [if_neg hci]
        refine ⟨hcne, ?_⟩
        obtain ⟨q', hFc, e1, _⟩ := hF.old c' m hci hm
        refine ⟨_, hFc, ?_⟩
        simp only
        rw [e1, hmp]
        intro n _ hn'
        obtain ⟨_, m', hm', hmp'⟩ := h.child i nd hi c' (List.mem_of_getElem? hn')
        rw [hm, Option.some.injEq] at hm'
        subst hm'
        rw [hmp, Option.some.injEq] at hmp'
        exact hpi hmp'
    · obtain ⟨b, right, e1, e2, e3⟩ := hF.new r hr
      rw [e3, Option.some.injEq] at hp
      subst hp
      simp only [List.mem_cons, List.not_mem_nil, or_false] at hc
      rcases hc with rfl | rfl
      · by_cases hr1 : r + 1 = nd.children.length - 2
        · rw [if_pos hr1]
          exact ⟨by omega, _, hFi, by simp only [Option.some.injEq]; omega⟩
        · rw [if_neg hr1]
          obtain ⟨b', right', _, _, e3'⟩ := hF.new (r + 1) (by omega)
          refine ⟨by omega, _, e3', ?_⟩
          simp only [Nat.add_one_ne_zero, if_false, Option.some.injEq]
          omega
      · obtain ⟨m, hm, hmp⟩ := late _ _ (by omega) e2
        refine ⟨?_, m, hm, ?_⟩
        · have := hcl _ (List.mem_of_getElem? e2); omega
        · rw [hmp, Option.some.injEq]; omega
  · -- parents
    intro j f hj p hp
    rcases cases j f hj with rfl | ⟨hji, hjl⟩ | ⟨r, hr, rfl⟩
    · rw [hFi, Option.some.injEq] at hj
      subst hj
      simp only [Option.some.injEq] at hp
      obtain ⟨b, right, _, _, e3⟩ := hF.new (nd.children.length - 2 - 1) (by omega)
      have : p = A.length + (nd.children.length - 2 - 1) := by omega
      subst this
      have hq : nd.children.length - 2 - 1 + 1 = nd.children.length - 2 := by omega
      refine ⟨_, e3, ?_⟩
      simp [hq]
    · obtain ⟨a, ha⟩ : ∃ a, A[j]? = some a := ⟨_, List.getElem?_eq_getElem hjl⟩
      obtain ⟨q, hFj, e1, e2⟩ := hF.old j a hji ha
      rw [hFj, Option.some.injEq] at hj
      subst hj
      simp only at hp
      by_cases hex : ∃ n, 2 ≤ n ∧ nd.children[n]? = some j
      · obtain ⟨n, hn, hn'⟩ := hex
        have hnl := (List.getElem?_eq_some_iff.1 hn').1
        rw [e2 n hn hn', Option.some.injEq] at hp
        subst hp
        obtain ⟨b, right, _, e5, e6⟩ := hF.new (nd.children.length - 1 - n) (by omega)
        refine ⟨_, e6, ?_⟩
        have : nd.children.length - 1 - (nd.children.length - 1 - n) = n := by omega
        rw [this, hn', Option.some.injEq] at e5
        rw [e5]; simp
      · have hpa := e1 (fun n hn hn' => hex ⟨n, hn, hn'⟩)
        rw [hpa] at hp
        obtain ⟨m, hm, hc⟩ := h.parent j a ha p hp
        by_cases hpi : p = i
        · subst hpi
          rw [hi, Option.some.injEq] at hm
          subst hm
          refine ⟨_, hFi, ?_⟩
          simp only
          obtain ⟨k, hk⟩ := List.getElem?_of_mem hc
          have hk2 : k < 2 := by
            by_contra hk2
            exact hex ⟨k, by omega, hk⟩
          exact List.mem_of_getElem? (i := k) (by rw [List.getElem?_take_of_lt hk2]; exact hk)
        · obtain ⟨q', hFp, _, _⟩ := hF.old p m hpi hm
          refine ⟨_, hFp, ?_⟩
          simp only [List.mem_map]
          exact ⟨j, hc, if_neg hji⟩
    · obtain ⟨b, right, _, _, e3⟩ := hF.new r hr
      rw [e3, Option.some.injEq] at hj
      subst hj
      simp only at hp
      by_cases hr0 : r = 0
      · subst hr0
        rw [if_pos rfl] at hp
        obtain ⟨m, hm, hc⟩ := h.parent i nd hi p hp
        have hpi : p ≠ i := by
          intro e; subst e
          rw [hi, Option.some.injEq] at hm
          exact hself (hm ▸ hc)
        obtain ⟨q', hFp, _, _⟩ := hF.old p m hpi hm
        refine ⟨_, hFp, ?_⟩
        simp only [List.mem_map]
        exact ⟨i, hc, by simp⟩
      · rw [if_neg hr0, Option.some.injEq] at hp
        obtain ⟨b', right', _, _, e3'⟩ := hF.new (r - 1) (by omega)
        have : p = A.length + (r - 1) := by omega
        subst this
        have hq : ¬ r - 1 + 1 = nd.children.length - 2 := by omega
        refine ⟨_, e3', ?_⟩
        simp only [hq, if_false, List.mem_cons, List.not_mem_nil, or_false]
        left; omega
  · intro f hf
    obtain ⟨j, hj⟩ := List.getElem?_of_mem hf
    rcases cases j f hj with rfl | ⟨hji, hjl⟩ | ⟨r, hr, rfl⟩
    · rw [hFi, Option.some.injEq] at hj
      subst hj
      exact hnd.sublist (List.take_sublist _ _)
    · obtain ⟨a, ha⟩ : ∃ a, A[j]? = some a := ⟨_, List.getElem?_eq_getElem hjl⟩
      obtain ⟨q, hFj, _, _⟩ := hF.old j a hji ha
      rw [hFj, Option.some.injEq] at hj
      subst hj
      simp only
      refine (h.nodup a (List.mem_of_getElem? ha)).map_on ?_
      intro x hx y hy hxy
      have hxl : x < A.length := by
        obtain ⟨_, m, hm, _⟩ := h.child j a ha x hx
        exact (List.getElem?_eq_some_iff.1 hm).1
      have hyl : y < A.length := by
        obtain ⟨_, m, hm, _⟩ := h.child j a ha y hy
        exact (List.getElem?_eq_some_iff.1 hm).1
      by_cases h1 : x = i <;> by_cases h2 : y = i <;> simp only [h1, h2, if_true, if_false] at hxy ⊢ <;> omega
    · obtain ⟨b, right, _, e2, e3⟩ := hF.new r hr
      rw [e3, Option.some.injEq] at hj
      subst hj
      have hrm := List.mem_of_getElem? e2
      have := hcl _ hrm
      have : right ≠ i := fun e => hself (e ▸ hrm)
      simp only [List.nodup_cons, List.mem_cons, List.not_mem_nil, or_false, not_false_eq_true, List.nodup_nil, and_true]
      split <;> omega
  · intro f hf hbf
    obtain ⟨j, hj⟩ := List.getElem?_of_mem hf
    rcases cases j f hj with rfl | ⟨hji, hjl⟩ | ⟨r, hr, rfl⟩
    · rw [hFi, Option.some.injEq] at hj
      subst hj
      refine ⟨?_, hnames⟩
      simp only [List.length_take, List.length_cons, List.length_nil]
      omega
    · obtain ⟨a, ha⟩ : ∃ a, A[j]? = some a := ⟨_, List.getElem?_eq_getElem hjl⟩
      obtain ⟨q, hFj, _, _⟩ := hF.old j a hji ha
      rw [hFj, Option.some.injEq] at hj
      subst hj
      simpa using h.chain a (List.mem_of_getElem? ha) hbf
    · obtain ⟨b, right, _, _, e3⟩ := hF.new r hr
      rw [e3, Option.some.injEq] at hj
      subst hj
      exact ⟨rfl, rfl⟩

/-- What holds before round `k` of the first loop. -/
structure Round (A : List CNode) (k : Nat) (N : List CNode) : Prop where
  arena : Arena N
  length : A.length ≤ N.length
  means : ∀ (j : Nat) a t, A[j]? = some a → a.binops.length ≤ 1 → Means A j t → Means N j t
  later : ∀ j, k ≤ j → j < A.length → ∃ a n, A[j]? = some a ∧ N[j]? = some n ∧ n.binops = a.binops
  done : ∀ (j : Nat) n, N[j]? = some n → j < k ∨ A.length ≤ j → n.binops.length ≤ 1

theorem round_step {A N : List CNode} {k : Nat} (hk : k < A.length) (h : Round A k N) :
    ∃ N', nestChain N k = some N' ∧ Round A (k + 1) N' := by
  obtain ⟨a, n, ha, hn, hbo⟩ := h.later k (Nat.le_refl _) hk
  by_cases hb : n.binops.length ≤ 1
  · refine ⟨N, ?_, h.arena, h.length, h.means, fun j h1 h2 => h.later j (by omega) h2, ?_⟩
    · unfold nestChain
      simp only [hn, Option.bind_eq_bind, Option.bind_some, hb, if_true, Option.pure_def]
    · intro j m hm hj
      by_cases hjk : j = k
      · subst hjk
        rw [hn, Option.some.injEq] at hm
        exact hm ▸ hb
      · exact h.done j m hm (by omega)
  · obtain ⟨F, he, hF⟩ := nestChain_spec h.arena hn hb
    refine ⟨F, he, nested_arena h.arena hn hb hF, ?_, ?_, ?_, ?_⟩
    · rw [hF.length]; have := h.length; omega
    · intro j a' t ha' hab hm
      have hjk : j ≠ k := by
        intro e; subst e
        rw [ha, Option.some.injEq] at ha'
        subst ha'
        rw [hbo] at hb
        exact hb hab
      have := nested_means h.arena hn hb hF (h.means j a' t ha' hab hm)
      rwa [if_neg hjk] at this
    · intro j h1 h2
      obtain ⟨a', n', ha', hn', e⟩ := h.later j (by omega) h2
      obtain ⟨p, hFj, _, _⟩ := hF.old j n' (by omega) hn'
      exact ⟨a', _, ha', hFj, e⟩
    · intro j m hm hj
      by_cases hjk : j = k
      · subst hjk
        obtain ⟨b, _, hFi⟩ := hF.self
        rw [hFi, Option.some.injEq] at hm
        subst hm
        simp
      · by_cases hjl : j < N.length
        · obtain ⟨n', hn'⟩ : ∃ n', N[j]? = some n' := ⟨_, List.getElem?_eq_getElem hjl⟩
          obtain ⟨p, hFj, _, _⟩ := hF.old j n' hjk hn'
          rw [hFj, Option.some.injEq] at hm
          subst hm
          exact h.done j n' hn' (by omega)
        · have := (List.getElem?_eq_some_iff.1 hm).1
          rw [hF.length] at this
          obtain ⟨b, right, _, _, e3⟩ := hF.new (j - N.length) (by omega)
          have hj' : N.length + (j - N.length) = j := by omega
          rw [hj', hm, Option.some.injEq] at e3
          rw [e3]
          simp

theorem rounds {A : List CNode} (h : Arena A) : ∃ N, nestChains A = some N ∧ Round A A.length N := by
  have : ∀ k ≤ A.length, ∃ N, (List.range k).foldlM nestChain A = some N ∧ Round A k N := by
    intro k
    induction k with
    | zero =>
      intro _
      refine ⟨A, rfl, h, Nat.le_refl _, fun _ _ _ _ _ hm => hm, ?_, ?_⟩
      · intro j _ hj
        exact ⟨_, _, List.getElem?_eq_getElem hj, List.getElem?_eq_getElem hj, rfl⟩
      · intro j n hn hj
        have := (List.getElem?_eq_some_iff.1 hn).1
        omega
    | succ k ih =>
      intro hk
      obtain ⟨N, he, hr⟩ := ih (by omega)
      obtain ⟨N', he', hr'⟩ := round_step (by omega) hr
      refine ⟨N', ?_, hr'⟩
      rw [List.range_succ, List.foldlM_append, he]
      simp [he']
  exact this _ (Nat.le_refl _)

/-! ### The second loop -/

/-- The nodes between rounds of the second loop: at most one operator, with two parts. -/
def Binary (N : List CNode) : Prop :=
  ∀ n ∈ N, n.binops = [] ∨ ∃ b l r, n.binops = [b] ∧ n.children = [l, r] ∧ n.names = []

theorem callChain_at {N : List CNode} {i l r : Nat} {b : BinOp} {kind : String} {names : List String} {p : Option Nat}
    (hi : N[i]? = some ⟨kind, names, [b], p, [l, r]⟩) :
    (callChain N i).length = N.length + 2 ∧
    (∃ p, (callChain N i)[i]? = some ⟨"call", names ++ [checkName b], [], p, [N.length, N.length + 1]⟩) ∧
    (∀ (j : Nat) n, j ≠ i → N[j]? = some n → ∃ p, (callChain N i)[j]? = some { n with parent := p }) ∧
    (∃ p, (callChain N i)[N.length]? = some ⟨"call_arg", [], [], p, [l]⟩) ∧
    (∃ p, (callChain N i)[N.length + 1]? = some ⟨"call_arg", [], [], p, [r]⟩) := by
  have hil := (List.getElem?_eq_some_iff.1 hi).1
  have hp : ∀ (M : List CNode) (x : Nat) q (j : Nat) n, M[j]? = some n → ∃ p, (setParent x q M)[j]? = some { n with parent := p } := by
    intro M x q j n hn
    unfold setParent
    rw [List.getElem?_modify, hn]
    by_cases h : x = j
    · exact ⟨q, by simp [h]⟩
    · exact ⟨n.parent, by simp [h]⟩
  unfold callChain
  rw [hi]
  simp only [rewriteBinop, List.length_modify]
  generalize hM : (N.modify i fun n => { n with kind := "call", names := n.names ++ [checkName b], binops := [] }) = M
  have hMl : M.length = N.length := by rw [← hM, List.length_modify]
  have get : ∀ (j : Nat) n, (M ++ [⟨"call_arg", [], [], some i, [l]⟩, ⟨"call_arg", [], [], some i, [r]⟩])[j]? = some n →
      ∃ p, (setParent r (some (N.length + 1)) (setParent l (some N.length)
        (M ++ [⟨"call_arg", [], [], some i, [l]⟩, ⟨"call_arg", [], [], some i, [r]⟩])))[j]? = some { n with parent := p } := by
    intro j n hn
    obtain ⟨p1, h1⟩ := hp _ l (some N.length) j n hn
    obtain ⟨p2, h2⟩ := hp _ r (some (N.length + 1)) j _ h1
    exact ⟨p2, h2⟩
  refine ⟨?_, ?_, ?_, ?_, ?_⟩
  · simp [setParent, hMl]
  · obtain ⟨p, hp⟩ := get i ⟨"call", names ++ [checkName b], [], p, [l, r]⟩ (by
      rw [List.getElem?_append_left (by omega), ← hM, List.getElem?_modify, hi]; simp)
    exact ⟨p, by rw [List.getElem?_modify, hp]; simp⟩
  · intro j n hj hn
    have hjl := (List.getElem?_eq_some_iff.1 hn).1
    obtain ⟨p, hp⟩ := get j n (by
      rw [List.getElem?_append_left (by omega), ← hM, List.getElem?_modify, hn]; simp [Ne.symm hj])
    exact ⟨p, by rw [List.getElem?_modify, hp]; simp [Ne.symm hj]⟩
  · obtain ⟨p, hp⟩ := get N.length ⟨"call_arg", [], [], some i, [l]⟩ (by
      rw [List.getElem?_append_right (by omega), hMl]; simp)
    have : i ≠ N.length := by omega
    exact ⟨p, by rw [List.getElem?_modify, hp]; simp [this]⟩
  · obtain ⟨p, hp⟩ := get (N.length + 1) ⟨"call_arg", [], [], some i, [r]⟩ (by
      rw [List.getElem?_append_right (by omega), hMl]; simp)
    have : i ≠ N.length + 1 := by omega
    exact ⟨p, by rw [List.getElem?_modify, hp]; simp [this]⟩

theorem C38_same_functions (op : BinOp) : checkName op = callName op := by cases op <;> rfl

theorem Means.one {nodes : List CNode} {i l : Nat} {kind : String} {names : List String} {p : Option Nat} {t : Tree}
    (h : nodes[i]? = some ⟨kind, names, [], p, [l]⟩) (hl : Means nodes l t) : Means nodes i (.node kind names [t]) :=
  Means.node (ts := [t]) h rfl (by
    intro k c t' hc ht
    match k with
    | 0 => simp only [List.getElem?_cons_zero, Option.some.injEq] at hc ht; subst hc ht; exact hl
    | k + 1 => simp at hc)

theorem callChain_means {N : List CNode} {i : Nat} (hN : Binary N) {j : Nat} {t : Tree} (hm : Means N j t) :
    Means (callChain N i) j t := by
  cases hi : N[i]? with
  | none =>
    have : callChain N i = N := by unfold callChain; rw [hi]
    rwa [this]
  | some nd =>
    rcases hN nd (List.mem_of_getElem? hi) with h0 | ⟨b, l, r, h1, h2, h3⟩
    · have : callChain N i = N := by
        obtain ⟨k, n, bo, p, c⟩ := nd
        simp only at h0
        subst h0
        unfold callChain; rw [hi]
      rwa [this]
    · obtain ⟨kind, names, bo, p, c⟩ := nd
      simp only at h1 h2 h3
      subst h1 h2 h3
      obtain ⟨_, ⟨pi, hFi⟩, hold, ⟨pl, hFl⟩, ⟨pr, hFr⟩⟩ := callChain_at hi
      induction hm with
      | @node j n ts hn hl hk ih =>
        by_cases hji : j = i
        · subst hji
          rw [hi, Option.some.injEq] at hn
          subst hn
          obtain ⟨tl, tr, rfl⟩ : ∃ tl tr, ts = [tl, tr] := by
            match ts, hl with
            | [tl, tr], _ => exact ⟨tl, tr, rfl⟩
          have e1 := Means.one hFl (ih 0 l tl rfl rfl)
          have e2 := Means.one hFr (ih 1 r tr rfl rfl)
          have := Means.node (ts := [.node "call_arg" [] [tl], .node "call_arg" [] [tr]]) hFi rfl (by
            intro k c t hc ht
            match k with
            | 0 => simp only [List.getElem?_cons_zero, Option.some.injEq] at hc ht; subst hc ht; exact e1
            | 1 => simp only [List.getElem?_cons_succ, List.getElem?_cons_zero, Option.some.injEq] at hc ht; subst hc ht; exact e2
            | k + 2 => simp at hc)
          rw [C38_same_functions] at this
          exact this
        · obtain ⟨p, hFj⟩ := hold j n hji hn
          exact Means.node (n := { n with parent := p }) hFj hl fun k c t hc ht => ih k c t hc ht

theorem callChain_binary {N : List CNode} {i : Nat} (hN : Binary N) :
    Binary (callChain N i) ∧ N.length ≤ (callChain N i).length ∧
    ∀ (j : Nat) n, (callChain N i)[j]? = some n → n.binops = [] ∨ (j ≠ i ∧ ∃ m, N[j]? = some m ∧ n.binops = m.binops) := by
  cases hi : N[i]? with
  | none =>
    have : callChain N i = N := by unfold callChain; rw [hi]
    rw [this]
    refine ⟨hN, Nat.le_refl _, fun j n hn => Or.inr ⟨?_, n, hn, rfl⟩⟩
    intro e; rw [e, hi] at hn; cases hn
  | some nd =>
    rcases hN nd (List.mem_of_getElem? hi) with h0 | ⟨b, l, r, h1, h2, h3⟩
    · have : callChain N i = N := by
        obtain ⟨k, n, bo, p, c⟩ := nd
        simp only at h0
        subst h0
        unfold callChain; rw [hi]
      rw [this]
      refine ⟨hN, Nat.le_refl _, fun j n hn => ?_⟩
      by_cases hji : j = i
      · subst hji
        rw [hi, Option.some.injEq] at hn
        exact Or.inl (hn ▸ h0)
      · exact Or.inr ⟨hji, n, hn, rfl⟩
    · obtain ⟨kind, names, bo, p, c⟩ := nd
      simp only at h1 h2 h3
      subst h1 h2 h3
      obtain ⟨hlen, ⟨pi, hFi⟩, hold, ⟨pl, hFl⟩, ⟨pr, hFr⟩⟩ := callChain_at hi
      have key : ∀ (j : Nat) n, (callChain N i)[j]? = some n →
          n.binops = [] ∨ (j ≠ i ∧ ∃ m p, N[j]? = some m ∧ n = { m with parent := p }) := by
        intro j n hn
        have hj := (List.getElem?_eq_some_iff.1 hn).1
        rw [hlen] at hj
        by_cases hji : j = i
        · subst hji
          rw [hFi, Option.some.injEq] at hn
          subst hn
          exact Or.inl rfl
        · by_cases hjl : j < N.length
          · obtain ⟨m, hm⟩ : ∃ m, N[j]? = some m := ⟨_, List.getElem?_eq_getElem hjl⟩
            obtain ⟨p, hFj⟩ := hold j m hji hm
            rw [hFj, Option.some.injEq] at hn
            exact Or.inr ⟨hji, m, p, hm, hn.symm⟩
          · rcases (by omega : j = N.length ∨ j = N.length + 1) with rfl | rfl
            · rw [hFl, Option.some.injEq] at hn
              subst hn
              exact Or.inl rfl
            · rw [hFr, Option.some.injEq] at hn
              subst hn
              exact Or.inl rfl
      refine ⟨?_, by omega, ?_⟩
      · intro n hn
        obtain ⟨j, hj⟩ := List.getElem?_of_mem hn
        rcases key j n hj with h | ⟨_, m, p, hm, rfl⟩
        · exact Or.inl h
        · exact hN m (List.mem_of_getElem? hm)
      · intro j n hn
        rcases key j n hn with h | ⟨hj, m, p, hm, rfl⟩
        · exact Or.inl h
        · exact Or.inr ⟨hj, m, hm, rfl⟩

theorem callChains_spec {N : List CNode} (hN : Binary N) :
    (∀ n ∈ callChains N, n.binops = []) ∧ ∀ j t, Means N j t → Means (callChains N) j t := by
  have : ∀ k ≤ N.length, Binary ((List.range k).foldl callChain N) ∧
      (∀ (j : Nat) n, ((List.range k).foldl callChain N)[j]? = some n → j < k ∨ N.length ≤ j → n.binops = []) ∧
      ∀ j t, Means N j t → Means ((List.range k).foldl callChain N) j t := by
    intro k
    induction k with
    | zero =>
      intro _
      refine ⟨hN, ?_, fun _ _ h => h⟩
      intro j n hn hj
      have := (List.getElem?_eq_some_iff.1 hn).1
      simp at this
      omega
    | succ k ih =>
      intro hk
      obtain ⟨h1, h2, h3⟩ := ih (by omega)
      rw [List.range_succ, List.foldl_append]
      simp only [List.foldl_cons, List.foldl_nil]
      generalize (List.range k).foldl callChain N = M at h1 h2 h3
      obtain ⟨e1, _, e3⟩ := callChain_binary (i := k) h1
      refine ⟨e1, ?_, fun j t hm => callChain_means h1 (h3 j t hm)⟩
      intro j n hn hj
      rcases e3 j n hn with h | ⟨hjk, m, hm, hmb⟩
      · exact h
      · rw [hmb]
        exact h2 j m hm (by omega)
  obtain ⟨_, h2, h3⟩ := this _ (Nat.le_refl _)
  refine ⟨fun n hn => ?_, h3⟩
  obtain ⟨j, hj⟩ := List.getElem?_of_mem hn
  exact h2 j n hj (by omega)

/-- The checker never fails while it rewrites operators. Afterwards no operators are left,
and every node that had no operator sequence of its own stands for the same tree, in which
every sequence of operators is grouped to the left. -/
theorem C38_checked {nodes : List CNode} (h : Arena nodes) :
    ∃ nested, nestChains nodes = some nested ∧ (∀ n ∈ callChains nested, n.binops = []) ∧
      ∀ (j : Nat) n, nodes[j]? = some n → n.binops.length ≤ 1 →
        ∀ t, Means nodes j t → ∀ u, Means (callChains nested) j u ↔ u = t := by
  obtain ⟨N, he, hr⟩ := rounds h
  have hN : Binary N := by
    intro n hn
    obtain ⟨j, hj⟩ := List.getElem?_of_mem hn
    have hb := hr.done j n hj (by omega)
    rcases hbo : n.binops with _ | ⟨b, bs⟩
    · exact Or.inl rfl
    · rw [hbo] at hb
      have : bs = [] := by cases bs <;> simp_all
      subst this
      obtain ⟨h1, h2⟩ := hr.arena.chain n hn (by rw [hbo]; simp)
      rw [hbo] at h1
      refine Or.inr ⟨b, ?_⟩
      match hc : n.children, h1 with
      | [l, r], _ => exact ⟨l, r, rfl, rfl, h2⟩
  obtain ⟨h1, h2⟩ := callChains_spec hN
  refine ⟨N, he, h1, fun j n hn hb t hm u => ⟨fun hu => ?_, ?_⟩⟩
  · exact Means.unique hu (h2 j t (hr.means j n t hn hb hm))
  · rintro rfl
    exact h2 j u (hr.means j n u hn hb hm)

/-- `1 - 2 + 3` as the checker gets it: a block with a chain of three numbers. -/
def demoNodes : List CNode :=
  [⟨"block", [], [], none, [1]⟩, ⟨"add", [], [.sub, .add], some 0, [2, 3, 4]⟩,
   ⟨"num", [], [], some 1, []⟩, ⟨"num", [], [], some 1, []⟩, ⟨"num", [], [], some 1, []⟩]

example : Arena demoNodes where
  child := by
    intro p n hn c hc
    match p with
    | 0 => simp [demoNodes] at hn; subst hn; simp at hc; subst hc; simp [demoNodes]
    | 1 => simp [demoNodes] at hn; subst hn; simp at hc; rcases hc with rfl | rfl | rfl <;> simp [demoNodes]
    | 2 => simp [demoNodes] at hn; subst hn; simp at hc
    | 3 => simp [demoNodes] at hn; subst hn; simp at hc
    | 4 => simp [demoNodes] at hn; subst hn; simp at hc
    | n + 5 => simp [demoNodes] at hn
  parent := by
    intro i n hn p hp
    match i with
    | 0 => simp [demoNodes] at hn; subst hn; simp at hp
    | 1 => simp [demoNodes] at hn; subst hn; simp at hp; subst hp; simp [demoNodes]
    | 2 => simp [demoNodes] at hn; subst hn; simp at hp; subst hp; simp [demoNodes]
    | 3 => simp [demoNodes] at hn; subst hn; simp at hp; subst hp; simp [demoNodes]
    | 4 => simp [demoNodes] at hn; subst hn; simp at hp; subst hp; simp [demoNodes]
    | n + 5 => simp [demoNodes] at hn
  nodup := by intro n hn; simp [demoNodes] at hn; rcases hn with rfl | rfl | rfl <;> simp
  chain := by intro n hn; simp [demoNodes] at hn; rcases hn with rfl | rfl | rfl <;> simp

example : Means demoNodes 0 (.node "block" [] [opTree .add (opTree .sub (.node "num" [] []) (.node "num" [] [])) (.node "num" [] [])]) := by
  have num : ∀ i, 2 ≤ i → i < 5 → Means demoNodes i (.node "num" [] []) := by
    intro i h1 h2
    refine Means.node (n := ⟨"num", [], [], some 1, []⟩) (ts := []) ?_ rfl (by simp)
    match i with
    | 2 | 3 | 4 => rfl
  refine Means.one (p := none) (l := 1) rfl ?_
  refine Means.node (n := ⟨"add", [], [.sub, .add], some 0, [2, 3, 4]⟩)
    (ts := [.node "num" [] [], .node "num" [] [], .node "num" [] []]) rfl rfl ?_
  intro k c t hc ht
  match k with
  | 0 => simp at hc ht; subst hc ht; exact num 2 (by omega) (by omega)
  | 1 => simp at hc ht; subst hc ht; exact num 3 (by omega) (by omega)
  | 2 => simp at hc ht; subst hc ht; exact num 4 (by omega) (by omega)
  | k + 3 => simp at hc

end Dyon.Syn
