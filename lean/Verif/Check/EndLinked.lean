import Verif.Check.EndLemmas
import Verif.Check.CallsProps

/-!
# Linked nodes

Lemmas for C70: what linking makes of the nodes of a file.
-/

namespace Dyon.Check

open Spec

namespace Spec

/-- The nodes of a file before linking, as the grammar has them: an assignment has a left and a right
side, there are no left sides elsewhere, a left side is one expression, and only assignments assign.
(`return` as a side is a node of another kind, without children.) -/
structure Grammar (ns : Nodes) : Prop where
  tree : Tree ns
  forest : Forest ns
  sides : ∀ a, (ns.at a).kind = .assign → ∃ l r, (ns.at a).children = [l, r] ∧
    ((ns.at l).kind = .left ∨ ((ns.at l).kind = .returnVoid ∧ (ns.at l).children = [])) ∧
    ((ns.at r).kind = .right ∨ (ns.at r).kind = .returnVoid)
  leftIn : ∀ l, (ns.at l).kind = .left → ∃ a, (ns.at l).parent = some a ∧ (ns.at a).kind = .assign
  leftOne : ∀ l, (ns.at l).kind = .left → (ns.at l).children.length ≤ 1
  op : ∀ a, (ns.at a).op ≠ none → (ns.at a).kind = .assign
  unlinked : ∀ a, (ns.at a).declaration = none

/-- No left side of an assignment is followed by `?`, as in `(x)? := ..`. -/
def NoTry (ns : Nodes) : Prop := ∀ l, (ns.at l).kind = .left → (ns.at l).tryFlag = false

end Spec

theorem linkItems_decl {ns' : Nodes} : ∀ {is : List Nat} {ns : Nodes}, ns.linkItems is = .ok ns' →
    ns'.length = ns.length ∧ Alike ns ns' ∧ ∀ i d, (ns'.at i).declaration = some d →
      (ns.at i).declaration = some d ∨ (i ∈ is ∧ ns.resolve i = .ok (some d))
  | [], ns, h => by
    cases h
    exact ⟨rfl, Alike.refl _, fun _ _ h => Or.inl h⟩
  | i :: is, ns, h => by
    rw [Nodes.linkItems] at h
    cases hr : ns.resolve i with
    | error e => rw [hr] at h; simp at h
    | ok r =>
      rw [hr] at h
      cases r with
      | none =>
        obtain ⟨h1, h2, h3⟩ := linkItems_decl h
        refine ⟨h1, h2, fun k d hk => ?_⟩
        rcases h3 k d hk with h4 | ⟨h4, h5⟩
        · exact Or.inl h4
        · exact Or.inr ⟨List.mem_cons_of_mem _ h4, h5⟩
      | some j =>
        obtain ⟨h1, h2, h3⟩ := linkItems_decl h
        have ha := alike_setDecl ns i j
        refine ⟨h1.trans (setDecl_length _ _ _), ha.trans h2, fun k d hk => ?_⟩
        rcases h3 k d hk with h4 | ⟨h4, h5⟩
        · rw [setDecl_at] at h4
          split at h4
          · rename_i hc
            obtain ⟨rfl, -⟩ := hc
            cases h4
            exact Or.inr ⟨List.mem_cons_self, hr⟩
          · exact Or.inl h4
        · exact Or.inr ⟨List.mem_cons_of_mem _ h4, (ha.resolve k).trans h5⟩

theorem linkCallList_decl {env : Env} {look : Mod.Map Nat} : ∀ {cs : List Nat} {ns out : Nodes},
    ns.linkCallList env look cs = .ok out → Like ns out ∧ ∀ k, k ∉ cs → out.at k = ns.at k
  | [], ns, out, h => by
    cases h
    exact ⟨Like.refl _, fun _ _ => rfl⟩
  | c :: cs, ns, out, h => by
    rw [Nodes.linkCallList] at h
    cases h1 : ns.linkCall env look c with
    | error e => rw [h1] at h; cases h
    | ok ns1 =>
      rw [h1] at h
      obtain ⟨h2, h3⟩ := linkCall_ok h1
      obtain ⟨h4, h5⟩ := linkCallList_decl h
      refine ⟨h2.trans h4, fun k hk => ?_⟩
      rw [List.mem_cons, not_or] at hk
      rw [h5 k hk.2, h3 k hk.1]

theorem linkInList_decl {env : Env} {look : Mod.Map Nat} : ∀ {cs : List Nat} {ns out : Nodes},
    ns.linkInList env look cs = .ok out → Like ns out ∧ ∀ k, (out.at k).declaration = (ns.at k).declaration
  | [], ns, out, h => by
    cases h
    exact ⟨Like.refl _, fun _ => rfl⟩
  | c :: cs, ns, out, h => by
    rw [Nodes.linkInList] at h
    cases h1 : ns.linkIn env look c with
    | error e => rw [h1] at h; cases h
    | ok ns1 =>
      rw [h1] at h
      obtain ⟨h4, h5⟩ := linkInList_decl h
      have key : Like ns ns1 ∧ ∀ k, (ns1.at k).declaration = (ns.at k).declaration := by
        have hm : ∀ l, Like ns (ns.modify c fun n => { n with lts := l }) ∧
            ∀ k, (Nodes.at (ns.modify c fun n => { n with lts := l }) k).declaration = (ns.at k).declaration := by
          intro l
          refine ⟨⟨by simp, fun i => ?_⟩, fun i => ?_⟩ <;> (rw [at_modify']; split <;> rfl)
        simp only [Nodes.linkIn] at h1
        repeat' split at h1
        all_goals first
          | (cases h1; exact hm _)
          | (cases h1; exact ⟨Like.refl _, fun _ => rfl⟩)
          | cases h1
      exact ⟨key.1.trans h4, fun k => (h5 k).trans (key.2 k)⟩

theorem linkFns_decl {env : Env} {ns out : Nodes} (h : ns.linkFns env = .ok out) :
    Like ns out ∧ ∀ k, (ns.at k).kind ≠ .call → (out.at k).declaration = (ns.at k).declaration := by
  simp only [Nodes.linkFns] at h
  cases h1 : ns.linkCalls env with
  | error e => rw [h1] at h; cases h
  | ok ns1 =>
    rw [h1] at h
    simp only [Nodes.linkCalls] at h1
    split at h1
    · cases h1
    split at h1
    · cases h1
    split at h1
    · cases h1
    simp only [Nodes.linkIns] at h
    split at h
    · cases h
    obtain ⟨h2, h3⟩ := linkCallList_decl h1
    obtain ⟨h4, h5⟩ := linkInList_decl h
    refine ⟨h2.trans h4, fun k hk => ?_⟩
    rw [h5 k, h3 k (fun hc => hk (calls_mem.1 hc).2)]

theorem sees_under {ns : Nodes} (hf : Forest ns) {i : Nat} {x : String} {c p g : Nat} (h : Sees ns i x c p g) :
    Inside ns c i ∧ c ∈ (ns.at p).children := by
  induction h with
  | start h => exact ⟨.self, (hf _ _ h).2⟩
  | out _ _ h _ _ ih => exact ⟨under_trans (under_one ih.2) ih.1, (hf _ _ h).2⟩
  | grab _ _ h _ ih => exact ⟨under_trans (under_one ih.2) ih.1, (hf _ _ h).2⟩
  | leave _ _ h _ _ ih => exact ⟨under_trans (under_one ih.2) ih.1, (hf _ _ h).2⟩

theorem means_local {ns : Nodes} (hg : Grammar ns) {u d : Nat} {x : String} (h : Means ns u x d) :
    (∃ P c j a l, Local ns u d P c j a l) ∨ (ns.at d).kind.loops = true ∨ (ns.at d).kind = .arg ∨
      (ns.at d).kind = .current := by
  cases h with
  | loop h1 h2 =>
    right; left
    have := h2.1
    revert this
    cases (ns.at d).kind <;> simp [Kind.loops, Kind.isDeclLoop, Kind.isInLoop, Kind.isDeclUnLoop]
  | «local» h1 h2 h3 =>
    left
    obtain ⟨pre, j, mid, suf, h4, h5, ⟨a, l, h6, h7, h8, h9, -⟩, -⟩ := h3
    exact ⟨_, _, j, a, l, ⟨pre, mid, suf, h4, h5⟩, (sees_under hg.forest h1).1, h6,
      hg.op a (by rw [h7]; simp), h8, h9⟩
  | param h1 h2 h3 h4 =>
    right; right
    obtain ⟨pre, suf, -, h5, -⟩ := h4
    exact h5.1

/-- A linked file is as the propagation of types needs it. -/
theorem formed_of {env : Env} {ns ns1 ns2 : Nodes} (hg : Grammar ns) (hp : NoTry ns) (h1 : ns.linkAll = .ok ns1)
    (h2 : ns1.linkFns env = .ok ns2) : Formed ns2 := by
  obtain ⟨a1, a2, a3⟩ := linkItems_decl h1
  obtain ⟨b1, b2⟩ := linkFns_decl h2
  have hlen : ns2.length = ns.length := b1.1.trans a1
  have hk : ∀ i, (ns2.at i).kind = (ns.at i).kind := fun i => (b1.kind i).trans (a2.kind i).symm
  have hc : ∀ i, (ns2.at i).children = (ns.at i).children := fun i => (b1.children i).trans (a2.children i).symm
  have hpar : ∀ i, (ns2.at i).parent = (ns.at i).parent := fun i => by
    have := congrArg Node.parent (b1.2 i)
    exact this.trans (a2.parent i).symm
  have htry : ∀ i, (ns2.at i).tryFlag = (ns.at i).tryFlag := fun i => by
    have h3 := congrArg Node.tryFlag (b1.2 i)
    have h4 := congrArg Node.tryFlag (a2 i)
    exact h3.trans h4.symm
  have hun : ∀ {c u}, Inside ns c u → Inside ns2 c u := by
    intro c u h
    induction h with
    | self => exact .self
    | child _ h ih => exact .child ih (by rw [hc]; exact h)
  refine ⟨fun i c h => ?_, fun i p h => ?_, fun a h => ?_, fun l h => ?_, fun l h => ?_, fun l h => ?_,
    fun u d h => ?_⟩
  · rw [hc] at h; rw [hpar, hlen]; exact hg.tree i c h
  · rw [hpar] at h; rw [hc]; exact hg.forest i p h
  · rw [hk] at h
    obtain ⟨l, r, h3, h4⟩ := hg.sides a h
    refine ⟨l, r, by rw [hc, h3], ?_⟩
    rw [hk, hk, hc]
    exact h4
  · rw [hk] at h
    obtain ⟨a, h3, h4⟩ := hg.leftIn l h
    exact ⟨a, by rw [hpar, h3], by rw [hk, h4]⟩
  · rw [hk] at h; rw [hc]; exact hg.leftOne l h
  · rw [hk] at h; rw [htry]; exact hp l h
  · by_cases hcall : (ns.at u).kind = .call
    · exact Or.inl (by rw [hk]; exact hcall)
    · right
      rw [b2 u (by rw [← a2.kind]; exact hcall)] at h
      rcases a3 u d h with h3 | ⟨h3, h4⟩
      · rw [hg.unlinked] at h3; cases h3
      · have hi : (ns.at u).kind = .item := by
          simp only [Nodes.items, List.mem_filter, Bool.and_eq_true, decide_eq_true_eq] at h3
          exact h3.2.1
        refine ⟨by rw [hk]; exact hi, ?_⟩
        obtain ⟨x, hx⟩ : ∃ x, (ns.at u).name = some x := by
          cases hn : (ns.at u).name with
          | some x => exact ⟨x, rfl⟩
          | none => simp [Nodes.resolve, hn] at h4
        rw [hk]
        rcases means_local hg (resolve_means hx h4) with ⟨P, c, j, a, l, hL⟩ | h5
        · left
          refine ⟨P, c, j, a, l, ?_, hun hL.under, ?_, ?_, ?_, ?_⟩
          · rw [hc]; exact hL.before
          · rw [hc]; exact hL.stmt
          · rw [hk]; exact hL.assign
          · rw [hc]; exact hL.left
          · rw [hc]; exact hL.head
        · exact Or.inr h5

end Dyon.Check
