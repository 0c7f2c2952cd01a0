import Verif.Check.Build

/-!
# Storing trees in an arena

Lemmas for C69: the nodes that are stored in the order in which `convert_meta_data` pushes them are
an arrangement of the trees.
-/

namespace Dyon.Check

mutual
/-- Number of nodes. -/
def Tr.size : Tr → Nat
  | .mk _ _ kids => 1 + Tr.sizes kids
/-- Number of nodes. -/
def Tr.sizes : List Tr → Nat
  | [] => 0
  | t :: ts => t.size + Tr.sizes ts
end

/-- The indices of trees stored one after another from `i` on. -/
def Tr.starts (i : Nat) : List Tr → List Nat
  | [] => []
  | t :: ts => i :: Tr.starts (i + t.size) ts

mutual
/-- The nodes of a tree stored from index `i` on, parents before children, the order of
node.rs:196-225 (`StartNode` pushes the node and enters its index among the children of its parent).
-/
def Tr.flat (p : Option Nat) (i : Nat) : Tr → Nodes
  | .mk n _ kids => { n with parent := p, children := Tr.starts (i + 1) kids } ::
      Tr.flats (some i) (i + 1) kids
/-- The nodes of trees stored from index `i` on. -/
def Tr.flats (p : Option Nat) (i : Nat) : List Tr → Nodes
  | [] => []
  | t :: ts => t.flat p i ++ Tr.flats p (i + t.size) ts
end

mutual
theorem flat_length : ∀ (t : Tr) (p : Option Nat) (i : Nat), (t.flat p i).length = t.size
  | .mk n ops kids, p, i => by
    rw [Tr.flat, List.length_cons, flats_length kids, Tr.size, Nat.add_comm]
theorem flats_length : ∀ (ts : List Tr) (p : Option Nat) (i : Nat), (Tr.flats p i ts).length = Tr.sizes ts
  | [], p, i => by rw [Tr.flats, Tr.sizes]; rfl
  | t :: ts, p, i => by
    rw [Tr.flats, List.length_append, flat_length t, flats_length ts, Tr.sizes]
end

theorem Tr.size_pos : ∀ t : Tr, 0 < t.size
  | .mk _ _ _ => by rw [Tr.size]; omega

theorem starts_ge : ∀ {ts : List Tr} {i c : Nat}, c ∈ Tr.starts i ts → i ≤ c ∧ c < i + Tr.sizes ts
  | [], _, _, h => by cases h
  | t :: ts, i, c, h => by
    have := t.size_pos
    rw [Tr.sizes]
    rcases List.mem_cons.1 h with rfl | h
    · omega
    · have := starts_ge h
      omega

theorem at_mid (pre post : Nodes) (m : Node) : Nodes.at (pre ++ m :: post) pre.length = m := by
  simp [Nodes.at]

/-- What holds of the nodes from `i` on to before `j`, whose roots are `rs` and have the parent `p`. -/
structure Fam (ns : Nodes) (p : Option Nat) (i j : Nat) (rs : List Nat) : Prop where
  root : ∀ r ∈ rs, (ns.at r).parent = p
  up : ∀ c, i ≤ c → c < j → c ∈ rs ∨
    ∃ q, (ns.at c).parent = some q ∧ i ≤ q ∧ q < c ∧ c ∈ (ns.at q).children
  down : ∀ q c, i ≤ q → q < j → c ∈ (ns.at q).children → (ns.at c).parent = some q

mutual
theorem flat_fam (ns : Nodes) : ∀ (t : Tr) (p : Option Nat) (pre post : Nodes),
    ns = pre ++ t.flat p pre.length ++ post → Fam ns p pre.length (pre.length + t.size) [pre.length]
  | .mk n ops kids, p, pre, post, h => by
    rw [Tr.flat, List.append_assoc, List.cons_append] at h
    have h0 := at_mid pre (Tr.flats (some pre.length) (pre.length + 1) kids ++ post)
      { n with parent := p, children := Tr.starts (pre.length + 1) kids }
    rw [← h] at h0
    have h2 := flats_fam ns kids (some pre.length)
      (pre ++ [{ n with parent := p, children := Tr.starts (pre.length + 1) kids }]) post
      (by rw [h]; simp)
    simp only [List.length_append, List.length_singleton] at h2
    rw [Tr.size]
    refine ⟨by simp [h0], fun c hc hj => ?_, fun q c hq hj hc => ?_⟩
    · by_cases e : c = pre.length
      · exact Or.inl (by simp [e])
      · refine Or.inr ?_
        rcases h2.up c (by omega) (by omega) with a | ⟨q, a, b, d, e⟩
        · exact ⟨pre.length, h2.root _ a, by omega, by omega, by rw [h0]; exact a⟩
        · exact ⟨q, a, by omega, d, e⟩
    · by_cases e : q = pre.length
      · subst e
        rw [h0] at hc
        exact h2.root _ hc
      · exact h2.down q c (by omega) (by omega) hc
theorem flats_fam (ns : Nodes) : ∀ (ts : List Tr) (p : Option Nat) (pre post : Nodes),
    ns = pre ++ Tr.flats p pre.length ts ++ post →
      Fam ns p pre.length (pre.length + Tr.sizes ts) (Tr.starts pre.length ts)
  | [], p, pre, post, h => by
    rw [Tr.starts, Tr.sizes]
    exact ⟨fun _ h => absurd h List.not_mem_nil, fun c _ _ => by omega, fun q c _ _ => by omega⟩
  | t :: ts, p, pre, post, h => by
    rw [Tr.flats] at h
    have h1 := flat_fam ns t p pre (Tr.flats p (pre.length + t.size) ts ++ post) (by rw [h]; simp)
    have h2 := flats_fam ns ts p (pre ++ t.flat p pre.length) post (by rw [h]; simp [flat_length])
    rw [List.length_append, flat_length] at h2
    rw [Tr.starts, Tr.sizes]
    refine ⟨?_, fun c hc hj => ?_, fun q c hq hj hc => ?_⟩
    · exact List.forall_mem_cons.2 ⟨h1.root _ (by simp), h2.root⟩
    · by_cases e : c < pre.length + t.size
      · rcases h1.up c hc e with a | a
        · exact Or.inl (by simp at a; simp [a])
        · exact Or.inr a
      · rcases h2.up c (by omega) (by omega) with a | ⟨q, a, b, d⟩
        · exact Or.inl (by simp [a])
        · exact Or.inr ⟨q, a, by omega, d⟩
    · by_cases e : q < pre.length + t.size
      · exact h1.down q c hq e hc
      · exact h2.down q c (by omega) (by omega) hc
end

mutual
theorem flat_laid (ns : Nodes) : ∀ (t : Tr) (p : Option Nat) (pre post : Nodes),
    ns = pre ++ t.flat p pre.length ++ post → Laid ns p pre.length t
  | .mk n ops kids, p, pre, post, h => by
    rw [Tr.flat, List.append_assoc, List.cons_append] at h
    have h0 := at_mid pre (Tr.flats (some pre.length) (pre.length + 1) kids ++ post)
      { n with parent := p, children := Tr.starts (pre.length + 1) kids }
    rw [← h] at h0
    have h2 := flats_laid ns kids pre.length
      (pre ++ [{ n with parent := p, children := Tr.starts (pre.length + 1) kids }]) post
      (by rw [h]; simp) (by simp)
    simp only [List.length_append, List.length_singleton] at h2
    exact .mk h0 h2
theorem flats_laid (ns : Nodes) : ∀ (ts : List Tr) (p : Nat) (pre post : Nodes),
    ns = pre ++ Tr.flats (some p) pre.length ts ++ post → p < pre.length →
      LaidAll ns p (Tr.starts pre.length ts) ts
  | [], p, pre, post, h, hp => .nil
  | t :: ts, p, pre, post, h, hp => by
    rw [Tr.flats] at h
    have h1 := flat_laid ns t (some p) pre (Tr.flats (some p) (pre.length + t.size) ts ++ post)
      (by rw [h]; simp)
    have h2 := flats_laid ns ts p (pre ++ t.flat (some p) pre.length) post
      (by rw [h]; simp [flat_length]) (by rw [List.length_append]; omega)
    rw [List.length_append, flat_length] at h2
    have := t.size_pos
    exact .cons hp (fun c hc => by have := starts_ge hc; omega) h1 h2
end

theorem flats_roots (ns : Nodes) : ∀ (ts : List Tr) (pre post : Nodes),
    ns = pre ++ Tr.flats none pre.length ts ++ post → Roots ns (Tr.starts pre.length ts) ts
  | [], pre, post, h => .nil
  | t :: ts, pre, post, h => by
    rw [Tr.flats] at h
    have h1 := flat_laid ns t none pre (Tr.flats none (pre.length + t.size) ts ++ post)
      (by rw [h]; simp)
    have h2 := flats_roots ns ts (pre ++ t.flat none pre.length) post (by rw [h]; simp [flat_length])
    rw [List.length_append, flat_length] at h2
    have := t.size_pos
    exact .cons (fun c hc => by have := starts_ge hc; omega) h1 h2

/-- The arena of a file, in the order of node.rs:196-225. -/
def arena (ts : List Tr) : Nodes := Tr.flats none 0 ts

theorem at_none {ns : Nodes} {i : Nat} (h : ns.length ≤ i) : ns.at i = default := by
  simp [Nodes.at, List.getElem?_eq_none h]

/-- Every file can be stored. -/
theorem arena_arranged (ts : List Tr) : Arranged (arena ts) ts := by
  have h : arena ts = [] ++ Tr.flats none ([] : Nodes).length ts ++ [] := by simp [arena]
  have h1 := flats_roots (arena ts) ts [] [] h
  have h2 := flats_fam (arena ts) ts none [] [] h
  have hl : (arena ts).length = Tr.sizes ts := flats_length ts none 0
  simp only [List.length_nil, Nat.zero_add] at h1 h2
  refine ⟨⟨_, h1, fun i hi => Or.inl ?_⟩, fun p c hc => ?_, fun c p hc => ?_⟩
  · rw [hl] at hi
    induction i using Nat.strongRecOn with
    | ind i ih =>
      rcases h2.up i (by omega) hi with a | ⟨q, _, _, a, b⟩
      · exact .root a
      · exact .child (ih q a (by omega)) b
  · by_cases hp : p < Tr.sizes ts
    · exact h2.down p c (by omega) hp hc
    · rw [at_none (by omega)] at hc; cases hc
  · by_cases hp : c < Tr.sizes ts
    · rcases h2.up c (by omega) hp with a | ⟨q, a, _, b, d⟩
      · rw [h2.root c a] at hc; cases hc
      · rw [a] at hc; cases hc; exact ⟨b, d⟩
    · rw [at_none (by omega)] at hc; cases hc

end Dyon.Check
