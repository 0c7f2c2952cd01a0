import Verif.Check.TypesProps

/-!
# C83: what may be added, swizzled, grabbed and started
-/

namespace Dyon.Check

namespace Spec

/-- What may be on the sides of `+=` and `-=`: values of named types only with values of the same named type (so that lengths are not
added to weights), and no side is nothing. -/
inductive Adds : Ty → Ty → Prop
  | named {n : String} {s t : Ty} : s.goesWith t = true → Adds s t → Adds (.adHoc n s) (.adHoc n t)
  | plain {s t : Ty} : (∀ n s', s ≠ .adHoc n s') → (∀ n t', t ≠ .adHoc n t') → s ≠ .void → t ≠ .void → Adds s t

/-- Kinds of nodes around the components of a vector and around the length in `[x; n]`. -/
def Number : Kind → Prop
  | .x | .y | .z | .w | .n => True
  | _ => False

end Spec

open Spec

theorem adds_of {s t : Ty} (h : s.addAssign t = true) : Adds s t := by
  cases s with
  | adHoc n s =>
    cases t with
    | adHoc m t =>
      simp only [Ty.addAssign] at h
      split at h
      · cases h
      · rename_i hn
        split at h
        · cases h
        · rename_i hg
          obtain rfl : n = m := by simpa using hn
          exact .named (by simpa using hg) (adds_of h)
    | _ => simp [Ty.addAssign] at h
  | _ => cases t <;> simp [Ty.addAssign] at h <;> exact .plain (by simp) (by simp) (by simp) (by simp)
termination_by sizeOf s

theorem of_adds {s t : Ty} (h : Adds s t) : s.addAssign t = true := by
  induction h with
  | named h1 _ ih => simp [Ty.addAssign, h1, ih]
  | @plain s t h1 h2 h3 h4 =>
    cases s <;> cases t <;> first
      | exact absurd rfl h3
      | exact absurd rfl h4
      | exact absurd rfl (h1 _ _)
      | exact absurd rfl (h2 _ _)
      | rfl

/-! ## Nodes whose type is made of the type of one other node -/

/-- The rule of the node `i`: if the child `c` has the type `T`, then `Q T`, and the node gets the type `f T`. -/
def Derives (env : Env) (ns : Nodes) (i c : Nat) (f : Ty → Ty) (Q : Ty → Prop) : Prop :=
  ∀ (out : Nodes) errs v, Shape ns out → out.visit env errs i = .ok v →
    v.nodes = out ∧ v.out ≠ .stop ∧ (∀ t, v.out = .ty (some t) → ∃ T, (out.at c).ty = some T ∧ t = f T ∧ Q T) ∧
    (∀ T, (out.at c).ty = some T → (∀ t, v.out ≠ .ty (some t)) → ∃ e ∈ v.errs, e.1 = i)

theorem keeps_rule {env : Env} {ns : Nodes} (htree : Tree ns) {i c : Nat} {f : Ty → Ty} {Q : Ty → Prop} (hc : c ∈ (ns.at i).children)
    (hk : (ns.at i).kind ≠ .left ∧ (ns.at i).kind ≠ .fn ∧ (ns.at i).kind ≠ .closure) (hl : (ns.at c).kind ≠ .left)
    (hr : Derives env ns i c f Q) :
    Keeps env ns (· = i) fun out _ => ∃ T, (out.at c).ty = some T ∧ (out.at i).ty = some (f T) ∧ Q T where
  range := by
    rintro k rfl
    have := htree k c hc; omega
  visit := by
    rintro out errs k v t hsh hst rfl hv ho
    obtain ⟨h1, -, h2, -⟩ := hr _ _ _ hsh hv
    obtain ⟨T, hT, rfl, hQ⟩ := h2 t ho
    have h4 := htree k c hc
    refine Or.inr ⟨T, ?_, ?_, hQ⟩
    · rw [h1, at_setTy, if_neg (fun h => by omega)]; exact hT
    · rw [h1, at_setTy, if_pos ⟨rfl, by rw [hsh.1]; omega⟩]
  stop := by
    rintro out errs k v hsh hst rfl hv ho
    exact absurd ho (hr _ _ _ hsh hv).2.1
  keep := by
    rintro s s' j k hsh hst rfl hij hs hst' ⟨T, h1, h2, hQ⟩
    have ha' : (s'.nodes.at k).ty = (s.nodes.at k).ty := by
      rcases hs.ty k with h | h | h | h
      · exact h
      · rw [hsh.kind] at h; exact absurd h hk.1
      · rw [hsh.kind] at h
        rcases h.1 with h | h
        · exact absurd h hk.2.1
        · exact absurd h hk.2.2
      · exact absurd h.1 hij
    rcases hs.ty c with h | h | h | h
    · exact Or.inl ⟨T, by rw [h]; exact h1, by rw [ha']; exact h2, hQ⟩
    · rw [hsh.kind] at h; exact absurd h hl
    · rw [h1] at h; cases h.2
    · rcases h.2 with h4 | h4
      · rw [h1] at h4; cases h4
      · exact Or.inr (h4 k (by rw [hsh.parent]; exact (htree k c hc).1) (by rw [ha', h2]; simp) hij)

theorem accept_rule {env : Env} {fuel : Nat} {ns out : Nodes} (h : ns.typecheck env fuel = .accept out) (htree : Tree ns) {i c : Nat}
    {f : Ty → Ty} {Q : Ty → Prop} {T : Ty} (hc : c ∈ (ns.at i).children)
    (hk : (ns.at i).kind ≠ .left ∧ (ns.at i).kind ≠ .fn ∧ (ns.at i).kind ≠ .closure) (hl : (ns.at c).kind ≠ .left)
    (hr : Derives env ns i c f Q) (hT : (out.at c).ty = some T) : (out.at i).ty = some (f T) ∧ Q T := by
  obtain ⟨hsh, hst, hI⟩ := accept_keeps h (keeps_rule (env := env) htree hc hk hl hr)
  rcases hI i rfl with ⟨T', h1, h2, h3⟩ | ⟨errs, v, hv, h2, h3⟩
  · rw [hT] at h1; cases h1; exact ⟨h2, h3⟩
  · obtain ⟨e, he, hei⟩ := (hr _ _ _ hsh hv).2.2.2 T hT h2
    exact absurd hei (h3 e he)

theorem rule_number {env : Env} {ns : Nodes} {i c : Nat} (hk : Number (ns.at i).kind) (hch : (ns.at i).children = [c])
    (hids : (ns.at c).itemIds = false) :
    Derives env ns i c (ns.at i).innerType fun T => ((ns.at i).innerType T).goesWith .f64 = true := by
  intro out errs v hsh hv
  have hv : out.visitNumber errs i = .ok v := by
    revert hk hv
    cases hkind : (ns.at i).kind <;> intro hk hv <;> first
      | exact hk.elim
      | (simp only [Nodes.visit, hsh.kind, hkind] at hv; exact hv)
  simp only [Nodes.visitNumber, hsh.children, hch, hsh.itemIds, hids, hsh.innerType] at hv
  simp only [Bool.false_eq_true, if_false] at hv
  split at hv
  · rename_i hn
    cases hv
    refine ⟨rfl, by simp, by simp, fun T hT => ?_⟩
    rw [hT] at hn; cases hn
  · rename_i t hn
    obtain ⟨T, hT, rfl⟩ := Option.map_eq_some_iff.1 hn
    split at hv
    · rename_i hg
      cases hv
      refine ⟨rfl, by simp, fun t ht => ?_, fun _ _ h => absurd rfl (h _)⟩
      cases ht
      exact ⟨T, hT, rfl, hg⟩
    · cases hv

theorem rule_grab {env : Env} {ns : Nodes} {i c : Nat} (hk : (ns.at i).kind = .grab) (hch : (ns.at i).children = [c])
    (hids : (ns.at c).itemIds = false) (hr : (ns.at c).kind ≠ .ret) :
    Derives env ns i c (ns.at i).innerType fun T => T ≠ .void := by
  intro out errs v hsh hv
  simp only [Nodes.visit, hsh.kind, hk] at hv
  simp only [Nodes.visitWrap, hsh.children, hch, hsh.itemIds, hids, hsh.kind, hr, hsh.innerType, hk] at hv
  simp only [Bool.false_eq_true, if_false, true_and] at hv
  split at hv
  · rename_i hn
    cases hv
    exact ⟨rfl, by simp, by simp, by simp [hn]⟩
  · rename_i t hn
    split at hv
    · cases hv
    · rename_i hne
      cases hv
      refine ⟨rfl, by simp, fun t' ht => ?_, fun T hT h => absurd rfl (h _)⟩
      cases ht
      exact ⟨t, hn, rfl, hne⟩

theorem rule_go {env : Env} {ns : Nodes} {i c : Nat} (hk : (ns.at i).kind = .go) (hch : (ns.at i).children = [c]) :
    Derives env ns i c .thread fun _ => True := by
  intro out errs v hsh hv
  simp only [Nodes.visit, hsh.kind, hk, hsh.children, hch, List.head?_cons, Option.bind_some] at hv
  cases hv
  refine ⟨rfl, by simp, fun t ht => ?_, fun T hT h => ?_⟩
  · simp only [Out.ty.injEq] at ht
    obtain ⟨T, hT, rfl⟩ := Option.map_eq_some_iff.1 ht
    exact ⟨T, hT, rfl, trivial⟩
  · rw [hT] at h
    exact absurd rfl (h _)

theorem rule_sift {env : Env} {ns : Nodes} {i c : Nat} (hk : (ns.at i).kind = .sift) (hch : ns.child i .block = some c) :
    Derives env ns i c .array fun _ => True := by
  intro out errs v hsh hv
  simp only [Nodes.visit, hsh.kind, hk, hsh.child, hch] at hv
  cases hv
  refine ⟨rfl, by simp, fun t ht => ?_, fun T hT h => ?_⟩
  · simp only [Out.ty.injEq] at ht
    obtain ⟨T, hT, rfl⟩ := Option.map_eq_some_iff.1 ht
    exact ⟨T, hT, rfl, trivial⟩
  · rw [hT] at h
    exact absurd rfl (h _)

/-- A check after the propagation of types. -/
theorem accept_final {env : Env} {fuel : Nat} {ns out : Nodes} (h : ns.typecheck env fuel = .accept out) {i : Nat} (hi : i < ns.length) :
    Shape ns out ∧ out.final i = none := by
  obtain ⟨-, h2⟩ := typecheck_accept h
  obtain ⟨hsh, -⟩ := accept_shape h
  exact ⟨hsh, h2 i (by rw [hsh.1]; exact hi)⟩

end Dyon.Check
