import Verif.Check.Layout
import Verif.Check.ResolveProps

/-!
# The order of declarations in an arena

Lemmas for C81: in the order in which `convert_meta_data` pushes nodes, what is declared before a statement is stored before it.
-/

namespace Dyon.Check

/-- What is declared before a statement is stored before it.  The first pass of the type check relies on this: it looks for uses of a
variable among the nodes that are stored after the declaration (typecheck.rs:337). -/
def InOrder (ns : Nodes) : Prop := ∀ x p c it, Spec.LastBefore ns x p c it → it < c

mutual
/-- The tree is stored from `i` on. -/
inductive Span (ns : Nodes) : Nat → Tr → Prop
  | mk {i n ops kids} : (ns.at i).children = Tr.starts (i + 1) kids → Spans ns (i + 1) kids → Span ns i (.mk n ops kids)
/-- The trees are stored from `i` on. -/
inductive Spans (ns : Nodes) : Nat → List Tr → Prop
  | nil {i} : Spans ns i []
  | cons {i t ts} : Span ns i t → Spans ns (i + t.size) ts → Spans ns i (t :: ts)
end

mutual
theorem flat_span (ns : Nodes) : ∀ (t : Tr) (p : Option Nat) (pre post : Nodes), ns = pre ++ t.flat p pre.length ++ post → Span ns pre.length t
  | .mk n ops kids, p, pre, post, h => by
    rw [Tr.flat, List.append_assoc, List.cons_append] at h
    have h0 := at_mid pre (Tr.flats (some pre.length) (pre.length + 1) kids ++ post)
      { n with parent := p, children := Tr.starts (pre.length + 1) kids }
    rw [← h] at h0
    have h2 := flats_span ns kids (some pre.length)
      (pre ++ [{ n with parent := p, children := Tr.starts (pre.length + 1) kids }]) post (by rw [h]; simp)
    simp only [List.length_append, List.length_singleton] at h2
    exact .mk (by rw [h0]) h2
theorem flats_span (ns : Nodes) : ∀ (ts : List Tr) (p : Option Nat) (pre post : Nodes), ns = pre ++ Tr.flats p pre.length ts ++ post →
    Spans ns pre.length ts
  | [], p, pre, post, h => .nil
  | t :: ts, p, pre, post, h => by
    rw [Tr.flats] at h
    have h1 := flat_span ns t p pre (Tr.flats p (pre.length + t.size) ts ++ post) (by rw [h]; simp)
    have h2 := flats_span ns ts p (pre ++ t.flat p pre.length) post (by rw [h]; simp [flat_length])
    rw [List.length_append, flat_length] at h2
    exact .cons h1 h2
end

theorem spans_mem {ns : Nodes} : ∀ {ts : List Tr} {i c : Nat}, Spans ns i ts → c ∈ Tr.starts i ts →
    ∃ t, Span ns c t ∧ i ≤ c ∧ c + t.size ≤ i + Tr.sizes ts
  | t :: ts, i, c, .cons h1 h2, h => by
    rw [Tr.sizes]
    rcases List.mem_cons.1 h with rfl | h
    · exact ⟨t, h1, by omega, by omega⟩
    · obtain ⟨t', a, b, d⟩ := spans_mem h2 h
      exact ⟨t', a, by omega, by omega⟩

theorem span_child {ns : Nodes} {i c : Nat} {t : Tr} (h : Span ns i t) (hc : c ∈ (ns.at i).children) :
    ∃ t', Span ns c t' ∧ i < c ∧ c + t'.size ≤ i + t.size := by
  cases h with
  | mk h1 h2 =>
    rw [h1] at hc
    obtain ⟨t', a, b, d⟩ := spans_mem h2 hc
    exact ⟨t', a, by omega, by rw [Tr.size]; omega⟩

/-- Earlier trees end before later ones start. -/
theorem spans_before {ns : Nodes} : ∀ {ts : List Tr} {i : Nat} {pre mid suf : List Nat} {j c : Nat}, Spans ns i ts →
    Tr.starts i ts = pre ++ j :: mid ++ c :: suf → ∃ t, Span ns j t ∧ j + t.size ≤ c
  | [], _, pre, _, _, _, _, _, h => by cases pre <;> simp [Tr.starts] at h
  | t :: ts, i, [], mid, suf, j, c, .cons h1 h2, h => by
    simp only [Tr.starts, List.nil_append, List.cons_append, List.cons.injEq] at h
    obtain ⟨rfl, h⟩ := h
    exact ⟨t, h1, (starts_ge (ts := ts) (by rw [h]; simp)).1⟩
  | t :: ts, i, x :: pre, mid, suf, j, c, .cons h1 h2, h => by
    simp only [Tr.starts, List.cons_append, List.cons.injEq] at h
    exact spans_before h2 h.2

theorem span_below {ns : Nodes} {is : List Nat} (hr : ∀ r ∈ is, ∃ t, Span ns r t) {i : Nat} (h : Below ns is i) : ∃ t, Span ns i t := by
  induction h with
  | root h => exact hr _ h
  | child _ hc ih =>
    obtain ⟨t, ht⟩ := ih
    obtain ⟨t', h', -⟩ := span_child ht hc
    exact ⟨t', h'⟩

/-- The order of node.rs:196-225. -/
theorem arena_inOrder (ts : List Tr) : InOrder (arena ts) := by
  intro x p c it h
  obtain ⟨pre, j, mid, suf, h1, -, ⟨a, l, ha, -, hl, hi, -⟩, -⟩ := h
  have h0 : arena ts = [] ++ Tr.flats none ([] : Nodes).length ts ++ [] := by simp [arena]
  have hs := flats_span (arena ts) ts none [] [] h0
  have hfam := flats_fam (arena ts) ts none [] [] h0
  have hlen : (arena ts).length = Tr.sizes ts := flats_length ts none 0
  simp only [List.length_nil, Nat.zero_add] at hs hfam
  have hp : p < (arena ts).length := by
    by_contra hp
    rw [at_none (by omega)] at h1
    have e : (default : Node).children = [] := rfl
    rw [e] at h1
    have := congrArg List.length h1
    simp at this
  have hb : Below (arena ts) (Tr.starts 0 ts) p := by
    rw [hlen] at hp
    clear h1
    induction p using Nat.strongRecOn with
    | ind i ih =>
      rcases hfam.up i (by omega) hp with a | ⟨q, _, _, a, b⟩
      · exact .root a
      · exact .child (ih q a (by omega)) b
  obtain ⟨t, ht⟩ := span_below (fun r hr => by
    obtain ⟨t, ht, -⟩ := spans_mem hs hr
    exact ⟨t, ht⟩) hb
  cases ht with
  | mk e hk =>
    rw [e] at h1
    obtain ⟨t', ht', hle⟩ := spans_before hk h1
    obtain ⟨t1, s1, l1, u1⟩ := span_child ht' (List.mem_of_head? ha)
    obtain ⟨t2, s2, l2, u2⟩ := span_child s1 (List.mem_of_head? hl)
    obtain ⟨t3, s3, l3, u3⟩ := span_child s2 (List.mem_of_head? hi)
    have := t3.size_pos
    omega

end Dyon.Check
