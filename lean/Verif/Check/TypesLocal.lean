import Verif.Check.TypesProps

/-!
# C64: the type of a local variable is the type of its initial value
-/

namespace Dyon.Check

namespace Spec

/-- The node `a` is the declaration `x := e`: `l` and `r` are its sides, `it` is the item `x`, and
the item `u` is a use of the variable, without properties. -/
structure LocalUse (ns : Nodes) (a l it r u : Nat) : Prop where
  assign : (ns.at a).kind = .assign
  left : ns.child a .left = some l
  right : ns.child a .right = some r
  kids : (ns.at l).children = [it]
  only : ∀ k, (ns.at k).parent = some l → k = it
  plain : (ns.at l).tryFlag = false
  item : (ns.at it).kind = .item
  noIds : (ns.at it).children = []
  declares : (ns.at it).declaration = none
  use : (ns.at u).kind = .item
  useNoIds : (ns.at u).children = []
  uses : (ns.at u).declaration = some it
  later : it < u
  inside : u < ns.length
  /-- types are not known before -/
  fresh : (ns.at it).ty = none

end Spec

open Spec

theorem step_cases {env : Env} {s s' : Spread} {j : Nat} (h : step env s j = .ok s') :
    ∃ v, s.nodes.visit env s.errs j = .ok v ∧ (∀ i ∈ v.push, i ∈ s'.next) ∧
      ((s'.nodes = v.nodes ∧ (∀ t, v.out ≠ .ty (some t)) ∧ (v.out = .stop ∨ j ∈ s'.next)) ∨
       ∃ t, v.out = .ty (some t) ∧ s'.nodes = v.nodes.setTy j (some t) ∧
        ∀ old p, (v.nodes.at j).ty = some old → old ≠ t → (v.nodes.at j).parent = some p →
          (v.nodes.at p).ty.isSome → p ∈ s'.next) := by
  simp only [step] at h
  split at h
  · cases h
  · rename_i v hv
    refine ⟨v, hv, ?_⟩
    split at h
    · rename_i ho
      cases h
      exact ⟨fun i hi => by simp [hi], Or.inl ⟨rfl, by simp [ho], Or.inl ho⟩⟩
    · rename_i ho
      cases h
      exact ⟨fun i hi => by simp [hi], Or.inl ⟨rfl, by simp [ho], Or.inr (by simp)⟩⟩
    · rename_i ho
      cases h
      exact ⟨fun i hi => by simp [hi], Or.inl ⟨rfl, by simp [ho], Or.inr (by simp)⟩⟩
    · rename_i t ho
      cases h
      refine ⟨fun i hi => by simp [hi], Or.inr ⟨t, ho, rfl, ?_⟩⟩
      intro old p h1 h2 h3 h4
      simp [h1, h2, h3, h4]

/-- Who changes the type of the left side of an assignment. -/
theorem visit_left {env : Env} {ns : Nodes} {errs : List (Nat × TypeErr)} {j l : Nat} {v : Visit}
    (hl : (ns.at l).kind = .left) (h : ns.visit env errs j = .ok v) :
    (v.nodes.at l).ty = (ns.at l).ty ∨ ((ns.at j).kind = .assign ∧ ns.child j .left = some l) ∨
      ((ns.at j).kind = .item ∧ (ns.at j).parent = some l ∧ (ns.at j).declaration ≠ none) := by
  by_cases hn : v.nodes = ns
  · exact Or.inl (by rw [hn])
  simp only [Nodes.visit] at h
  have hwrap : ns.visitWrap errs j = .ok v → (v.nodes.at l).ty = (ns.at l).ty := by
    intro h
    simp only [Nodes.visitWrap] at h
    repeat' split at h
    all_goals first
      | (cases h; exact absurd rfl hn)
      | (cases h; done)
      | skip
    rename_i f ho _ hf
    cases h
    simp only [at_setTy]
    split
    · rename_i h
      obtain ⟨rfl, -⟩ := h
      rcases owner_kind _ _ ho with h | h <;> (rw [h] at hl; cases hl)
    · rfl
  have hassign : v = ns.visitAssign errs j → (v.nodes.at l).ty = (ns.at l).ty ∨ ns.child j .left = some l := by
    rintro rfl
    by_cases hc : ns.child j .left = some l
    · exact Or.inr hc
    · refine Or.inl ?_
      simp only [Nodes.visitAssign]
      repeat' split
      all_goals try rfl
      all_goals
        simp only [at_setTy]
        rw [if_neg]
        rintro ⟨rfl, -⟩
        exact hc (by assumption)
  have hitem : ns.visitItem errs j = .ok v → (v.nodes.at l).ty = (ns.at l).ty ∨
      ((ns.at j).parent = some l ∧ (ns.at j).declaration ≠ none) := by
    intro h
    simp only [Nodes.visitItem] at h
    repeat' split at h
    all_goals first
      | (cases h; exact absurd rfl hn)
      | (cases h; done)
      | skip
    rename_i hd _ _ _ _ _
    cases h
    simp only [Nodes.setLeft]
    split
    · rename_i p hp
      split
      · by_cases hpl : l = p
        · subst hpl
          exact Or.inr ⟨hp, by rw [hd]; simp⟩
        · refine Or.inl ?_
          rw [at_setTy, if_neg (fun h => hpl h.1)]
      · exact Or.inl rfl
    · exact Or.inl rfl
  have hcallArg : ns.visitCallArg env errs j = .ok v → v.nodes = ns := by
    intro h
    simp only [Nodes.visitCallArg] at h
    repeat' split at h
    all_goals (cases h; first | rfl | done)
  have hcall : ns.visitCall env errs j = .ok v → v.nodes = ns := by
    intro h
    simp only [Nodes.visitCall, Nodes.visitHost] at h
    repeat' split at h
    all_goals (cases h; first | rfl | done)
  split at h
  all_goals first
    | exact Or.inl (hwrap h)
    | (rename_i hk
       rcases hitem h with h | h
       · exact Or.inl h
       · exact Or.inr (Or.inr ⟨hk, h⟩))
    | exact absurd (hcallArg h) hn
    | exact absurd (hcall h) hn
    | (rename_i hk
       rcases hassign (by injection h with h; exact h.symm) with h | h
       · exact Or.inl h
       · exact Or.inr (Or.inl ⟨hk, h⟩))
    | skip
  all_goals
    exfalso
    try simp only [Nodes.visitCallClosure, Nodes.visitNumber, Nodes.visitCompare, Nodes.visitBlock,
      Nodes.visitClosure] at h
    repeat' split at h
  all_goals first
    | (cases h; exact hn rfl)
    | (cases h; done)

theorem step_left {env : Env} {s s' : Spread} {j l : Nat} (hl : (s.nodes.at l).kind = .left)
    (h : step env s j = .ok s') : (s'.nodes.at l).ty = (s.nodes.at l).ty ∨ j = l ∨
      ((s.nodes.at j).kind = .assign ∧ s.nodes.child j .left = some l) ∨
      ((s.nodes.at j).kind = .item ∧ (s.nodes.at j).parent = some l ∧ (s.nodes.at j).declaration ≠ none) := by
  obtain ⟨v, hv, -, h1⟩ := step_cases h
  by_cases hjl : j = l
  · exact Or.inr (Or.inl hjl)
  have h2 : (s'.nodes.at l).ty = (v.nodes.at l).ty := by
    rcases h1 with ⟨h1, -⟩ | ⟨t, -, h1, -⟩
    · rw [h1]
    · rw [h1, at_setTy, if_neg (fun h => hjl h.1.symm)]
  rw [h2]
  rcases visit_left hl hv with h | h | h
  · exact Or.inl h
  · exact Or.inr (Or.inr (Or.inl h))
  · exact Or.inr (Or.inr (Or.inr h))

/-- Other nodes keep their types. -/
theorem step_other {env : Env} {s s' : Spread} {j k : Nat} (h : step env s j = .ok s') (hk : k ≠ j)
    (hl : (s.nodes.at k).kind ≠ .left) (hf : (s.nodes.at k).kind ≠ .fn) (hc : (s.nodes.at k).kind ≠ .closure) :
    (s'.nodes.at k).ty = (s.nodes.at k).ty := by
  rcases (step_stepped h).ty k with h | h | h | h
  · exact h
  · exact absurd h hl
  · rcases h.1 with h | h
    · exact absurd h hf
    · exact absurd h hc
  · exact absurd h.1 hk

/-- The invariant. -/
structure LocalInv (ns : Nodes) (a l it r u : Nat) (rest : List Nat) (s : Spread) : Prop where
  use : u ∈ rest ∨ u ∈ s.next ∨ ((s.nodes.at it).ty ≠ none ∧
    (s.nodes.at u).ty = (s.nodes.at it).ty.map (ns.at u).innerType)
  sync : (s.nodes.at it).ty = none ∨ (s.nodes.at l).ty = (s.nodes.at it).ty ∨
    (u ∈ s.next ∧ it ∈ s.next) ∨ (u ∈ rest ∧ it ∈ rest)
  known : (s.nodes.at it).ty ≠ none → (s.nodes.at l).ty ≠ none
  right : a ∈ rest ∨ a ∈ s.next ∨ ((s.nodes.at a).ty ≠ none ∧ (s.nodes.at r).ty ≠ none ∧
    (s.nodes.at l).ty = (s.nodes.at r).ty)
  item : it ∈ rest ∨ it ∈ s.next ∨ (s.nodes.at it).ty ≠ none

theorem mem_tail {x j : Nat} {rest : List Nat} (h : x ∈ j :: rest) (hne : x ≠ j) : x ∈ rest :=
  (List.mem_cons.1 h).resolve_left hne

theorem local_step {env : Env} {ns : Nodes} (ht : Tree ns) {a l it r u : Nat} (hL : LocalUse ns a l it r u)
    {s s' : Spread} {j : Nat} {rest : List Nat} (hsh : Shape ns s.nodes) (hp : (j :: rest).Pairwise (· < ·))
    (hI : LocalInv ns a l it r u (j :: rest) s) (h : step env s j = .ok s') : LocalInv ns a l it r u rest s' := by
  have hs := step_stepped h
  have hnx := hs.next
  have klk : (ns.at l).kind = .left := child_kind hL.left
  have krk : (ns.at r).kind = .right := child_kind hL.right
  have pl := ht a l (child_mem hL.left)
  have pr := ht a r (child_mem hL.right)
  have pit := ht l it (by simp [hL.kids])
  have hlr : l ≠ r := by rintro rfl; rw [klk] at krk; cases krk
  have hir : it ≠ r := by rintro rfl; rw [hL.item] at krk; cases krk
  have hur : u ≠ r := by rintro rfl; rw [hL.use] at krk; cases krk
  have hul : u ≠ l := by rintro rfl; rw [hL.use] at klk; cases klk
  have hiu := hL.later
  have ka : (s.nodes.at a).kind = .assign := by rw [hsh.kind]; exact hL.assign
  have kl : (s.nodes.at l).kind = .left := by rw [hsh.kind]; exact klk
  have kr : (s.nodes.at r).kind = .right := by rw [hsh.kind]; exact krk
  have ki : (s.nodes.at it).kind = .item := by rw [hsh.kind]; exact hL.item
  have ku : (s.nodes.at u).kind = .item := by rw [hsh.kind]; exact hL.use
  have Ta : j ≠ a → (s'.nodes.at a).ty = (s.nodes.at a).ty := fun hj =>
    step_other h (Ne.symm hj) (by rw [ka]; decide) (by rw [ka]; decide) (by rw [ka]; decide)
  have Tr : j ≠ r → (s'.nodes.at r).ty = (s.nodes.at r).ty := fun hj =>
    step_other h (Ne.symm hj) (by rw [kr]; decide) (by rw [kr]; decide) (by rw [kr]; decide)
  have Ti : j ≠ it → (s'.nodes.at it).ty = (s.nodes.at it).ty := fun hj =>
    step_other h (Ne.symm hj) (by rw [ki]; decide) (by rw [ki]; decide) (by rw [ki]; decide)
  have Tu : j ≠ u → (s'.nodes.at u).ty = (s.nodes.at u).ty := fun hj =>
    step_other h (Ne.symm hj) (by rw [ku]; decide) (by rw [ku]; decide) (by rw [ku]; decide)
  have Tl : j ≠ a → j ≠ l → (s'.nodes.at l).ty = (s.nodes.at l).ty := by
    intro h1 h2
    rcases step_left kl h with h3 | h3 | h3 | h3
    · exact h3
    · exact absurd h3 h2
    · exfalso
      rw [hsh.child] at h3
      have h4 := ht j l (child_mem h3.2)
      rw [pl.1] at h4
      exact h1 (by have := h4.1; simpa using this.symm)
    · exfalso
      obtain ⟨-, h4, h5⟩ := h3
      rw [hsh.parent] at h4
      have := hL.only j h4
      subst this
      rw [hsh.declaration, hL.declares] at h5
      exact h5 rfl
  by_cases ja : j = a
  · subst ja
    obtain ⟨v, hv, hpush, hout⟩ := step_cases h
    simp only [Nodes.visit, ka] at hv
    have hv' : v = s.nodes.visitAssign s.errs j := by injection hv with hv; exact hv.symm
    have hrids : (s.nodes.at r).itemIds = false := by simp [Node.itemIds, kr]
    simp only [Nodes.visitAssign, hsh.child, hL.left, hL.right, hrids] at hv'
    simp only [Bool.false_eq_true, if_false] at hv'
    have hla : l ≠ j := by omega
    have hra : r ≠ j := by omega
    have hia : it ≠ j := by omega
    have hua : u ≠ j := by omega
    have hllen : l < s.nodes.length := by rw [hsh.1]; omega
    have later : v = { nodes := s.nodes, errs := s.errs, out := .later } → LocalInv ns j l it r u rest s' := by
      rintro rfl
      obtain ⟨h1, h2⟩ : s'.nodes = s.nodes ∧ j ∈ s'.next := by
        rcases hout with ⟨h1, -, h3⟩ | ⟨t, h1, -⟩
        · rcases h3 with h3 | h3
          · cases h3
          · exact ⟨h1, h3⟩
        · cases h1
      refine ⟨?_, ?_, ?_, Or.inr (Or.inl h2), ?_⟩
      · rw [h1]
        rcases hI.use with h3 | h3 | h3
        · exact Or.inl (mem_tail h3 hua)
        · exact Or.inr (Or.inl (hnx _ h3))
        · exact Or.inr (Or.inr h3)
      · rw [h1]
        rcases hI.sync with h3 | h3 | h3 | h3
        · exact Or.inl h3
        · exact Or.inr (Or.inl h3)
        · exact Or.inr (Or.inr (Or.inl ⟨hnx _ h3.1, hnx _ h3.2⟩))
        · exact Or.inr (Or.inr (Or.inr ⟨mem_tail h3.1 hua, mem_tail h3.2 hia⟩))
      · rw [h1]; exact hI.known
      · rw [h1]
        rcases hI.item with h3 | h3 | h3
        · exact Or.inl (mem_tail h3 hia)
        · exact Or.inr (Or.inl (hnx _ h3))
        · exact Or.inr (Or.inr h3)
    split at hv'
    · rename_i t hl0 hr0
      subst hv'
      rcases hout with ⟨-, h2, -⟩ | ⟨t', h1, h2, -⟩
      · exact absurd rfl (h2 .void)
      · cases h1
        have e1 : (s'.nodes.at l).ty = some t := by
          rw [h2, at_setTy, if_neg (fun h => hla h.1), at_setTy, if_pos ⟨rfl, hllen⟩]
        have e2 : (s'.nodes.at r).ty = some t := by rw [Tr (Ne.symm hra)]; exact hr0
        have e3 : (s'.nodes.at it).ty = none := by
          rw [Ti (Ne.symm hia)]
          by_contra hne
          exact hI.known hne hl0
        have e4 : (s'.nodes.at j).ty ≠ none := by
          rw [h2, at_setTy, if_pos ⟨rfl, by rw [(shape_setTy _ _ _).1, hsh.1]; omega⟩]; simp
        have e3' : (s.nodes.at it).ty = none := by rw [← Ti (Ne.symm hia)]; exact e3
        refine ⟨?_, Or.inl e3, fun h => absurd e3 h, Or.inr (Or.inr ⟨e4, by rw [e2]; simp, by rw [e1, e2]⟩), ?_⟩
        · rcases hI.use with h3 | h3 | h3
          · exact Or.inl (mem_tail h3 hua)
          · exact Or.inr (Or.inl (hnx _ h3))
          · exact absurd e3' h3.1
        · rcases hI.item with h3 | h3 | h3
          · exact Or.inl (mem_tail h3 hia)
          · exact Or.inr (Or.inl (hnx _ h3))
          · exact absurd e3' h3
    · rename_i l0 t hl0 hr0
      split at hv'
      · subst hv'
        rcases hout with ⟨-, h2, -⟩ | ⟨t', h1, h2, -⟩
        · exact absurd rfl (h2 .void)
        · cases h1
          have e1 : (s'.nodes.at l).ty = some t := by
            rw [h2, at_setTy, if_neg (fun h => hla h.1), at_setTy, if_pos ⟨rfl, hllen⟩]
          have e2 : (s'.nodes.at r).ty = some t := by rw [Tr (Ne.symm hra)]; exact hr0
          have e4 : (s'.nodes.at j).ty ≠ none := by
            rw [h2, at_setTy, if_pos ⟨rfl, by rw [(shape_setTy _ _ _).1, hsh.1]; omega⟩]; simp
          simp only [hsh.children, hL.kids] at hpush
          have hit : it ∈ s'.next := hpush it (List.mem_cons_self ..)
          have hu : u ∈ s'.next := hpush u (List.mem_cons_of_mem _ (by
            simp only [Nodes.uses, List.mem_filter, List.mem_range, Bool.and_eq_true, decide_eq_true_eq]
            exact ⟨by rw [hsh.1]; exact hL.inside, hiu, by rw [hsh.declaration]; exact hL.uses⟩))
          exact ⟨Or.inr (Or.inl hu), Or.inr (Or.inr (Or.inl ⟨hu, hit⟩)), fun _ => by rw [e1]; simp,
            Or.inr (Or.inr ⟨e4, by rw [e2]; simp, by rw [e1, e2]⟩), Or.inr (Or.inl hit)⟩
      · exact later hv'
    · exact later hv'
  have Ta := Ta ja
  by_cases jl : j = l
  · subst jl
    have hlr' : j ≠ r := hlr
    have Tr := Tr hlr'
    have Ti := Ti (by omega)
    have Tu := Tu (Ne.symm hul)
    have haj : a ≠ j := by omega
    have hij : it ≠ j := by omega
    have huj : u ≠ j := hul
    obtain ⟨v, hv, hpush, hout⟩ := step_cases h
    simp only [Nodes.visit, kl] at hv
    have hids : (s.nodes.at it).itemIds = false := by
      rw [hsh.itemIds]; simp [Node.itemIds, hL.noIds]
    simp only [Nodes.visitWrap, hsh.children, hL.kids, hids, kl, ki] at hv
    simp only [Bool.false_eq_true, if_false, reduceCtorEq, false_and] at hv
    have keepUse : u ∈ rest ∨ u ∈ s'.next ∨ ((s'.nodes.at it).ty ≠ none ∧
        (s'.nodes.at u).ty = (s'.nodes.at it).ty.map (ns.at u).innerType) := by
      rw [Ti, Tu]
      rcases hI.use with h3 | h3 | h3
      · exact Or.inl (mem_tail h3 huj)
      · exact Or.inr (Or.inl (hnx _ h3))
      · exact Or.inr (Or.inr h3)
    have keepItem : it ∈ rest ∨ it ∈ s'.next ∨ (s'.nodes.at it).ty ≠ none := by
      rw [Ti]
      rcases hI.item with h3 | h3 | h3
      · exact Or.inl (mem_tail h3 hij)
      · exact Or.inr (Or.inl (hnx _ h3))
      · exact Or.inr (Or.inr h3)
    split at hv
    · rename_i hn
      cases hv
      have h1 : s'.nodes = s.nodes := by
        rcases hout with ⟨h1, -⟩ | ⟨t, h1, -⟩
        · exact h1
        · cases h1
      refine ⟨keepUse, Or.inl (by rw [Ti]; exact hn), by rw [h1]; exact hI.known, ?_, keepItem⟩
      rw [h1]
      rcases hI.right with h3 | h3 | h3
      · exact Or.inl (mem_tail h3 haj)
      · exact Or.inr (Or.inl (hnx _ h3))
      · exact Or.inr (Or.inr h3)
    · rename_i t hn
      cases hv
      have hinner : (s.nodes.at j).innerType t = t := by
        rw [hsh.innerType]; simp [Node.innerType, hL.plain]
      rcases hout with ⟨-, h2, -⟩ | ⟨t', h1, h2, h3⟩
      · exact absurd rfl (h2 _)
      · simp only [Out.ty.injEq, Option.some.injEq] at h1
        rw [hinner] at h1
        subst h1
        have e1 : (s'.nodes.at j).ty = some t := by
          rw [h2, at_setTy, if_pos ⟨rfl, by simp only [hsh.1]; omega⟩]
        refine ⟨keepUse, Or.inr (Or.inl (by rw [e1, Ti, hn])), fun _ => by rw [e1]; simp, ?_, keepItem⟩
        rw [Ta, Tr]
        rcases hI.right with h4 | h4 | ⟨h4, h5, h6⟩
        · exact Or.inl (mem_tail h4 haj)
        · exact Or.inr (Or.inl (hnx _ h4))
        · by_cases hch : (s.nodes.at j).ty = some t
          · exact Or.inr (Or.inr ⟨h4, h5, by rw [e1, ← h6, hch]⟩)
          · refine Or.inr (Or.inl ?_)
            cases hold : (s.nodes.at j).ty with
            | none => rw [hold] at h6; exact absurd h6.symm h5
            | some old =>
              refine h3 old a hold (fun h => hch (by rw [hold, h])) (by simp only [hsh.parent]; exact pl.1) ?_
              exact Option.isSome_iff_ne_none.2 h4
  have Tl := Tl ja jl
  by_cases jr : j = r
  · subst jr
    have Ti := Ti (Ne.symm hir)
    have Tu := Tu (Ne.symm hur)
    refine ⟨?_, ?_, ?_, ?_, ?_⟩
    · rw [Ti, Tu]
      rcases hI.use with h3 | h3 | h3
      · exact Or.inl (mem_tail h3 hur)
      · exact Or.inr (Or.inl (hnx _ h3))
      · exact Or.inr (Or.inr h3)
    · rw [Ti, Tl]
      rcases hI.sync with h3 | h3 | h3 | h3
      · exact Or.inl h3
      · exact Or.inr (Or.inl h3)
      · exact Or.inr (Or.inr (Or.inl ⟨hnx _ h3.1, hnx _ h3.2⟩))
      · exact Or.inr (Or.inr (Or.inr ⟨mem_tail h3.1 hur, mem_tail h3.2 hir⟩))
    · rw [Ti, Tl]; exact hI.known
    · rw [Ta, Tl]
      rcases hI.right with h4 | h4 | ⟨h4, h5, h6⟩
      · exact Or.inl (mem_tail h4 (Ne.symm ja))
      · exact Or.inr (Or.inl (hnx _ h4))
      · rcases hs.ty j with h7 | h7 | h7 | h7
        · exact Or.inr (Or.inr ⟨h4, by rw [h7]; exact h5, by rw [h7]; exact h6⟩)
        · rw [kr] at h7; cases h7
        · exact absurd h7.2 h5
        · rcases h7.2 with h8 | h8
          · exact absurd h8 h5
          · exact Or.inr (Or.inl (h8 a (by rw [hsh.parent]; exact pr.1) (by rw [Ta]; exact h4) (Ne.symm ja)))
    · rw [Ti]
      rcases hI.item with h3 | h3 | h3
      · exact Or.inl (mem_tail h3 hir)
      · exact Or.inr (Or.inl (hnx _ h3))
      · exact Or.inr (Or.inr h3)
  have Tr := Tr jr
  have keepRight : a ∈ rest ∨ a ∈ s'.next ∨ ((s'.nodes.at a).ty ≠ none ∧ (s'.nodes.at r).ty ≠ none ∧
      (s'.nodes.at l).ty = (s'.nodes.at r).ty) := by
    rw [Ta, Tr, Tl]
    rcases hI.right with h3 | h3 | h3
    · exact Or.inl (mem_tail h3 (Ne.symm ja))
    · exact Or.inr (Or.inl (hnx _ h3))
    · exact Or.inr (Or.inr h3)
  by_cases ji : j = it
  · subst ji
    have hju : u ≠ j := by omega
    have Tu := Tu (Ne.symm hju)
    obtain ⟨v, hv, hpush, hout⟩ := step_cases h
    simp only [Nodes.visit, ki] at hv
    have hids : (s.nodes.at j).itemIds = false := by
      rw [hsh.itemIds]; simp [Node.itemIds, hL.noIds]
    simp only [Nodes.visitItem, hids, hsh.declaration, hL.declares, hsh.parent, pit.1, kl] at hv
    simp only [Bool.false_eq_true, if_false, if_true] at hv
    cases hv
    cases htl : (s.nodes.at l).ty with
    | none =>
      have hin : (s.nodes.at j).ty = none := by
        by_contra hne; exact hI.known hne htl
      rw [htl] at hout
      obtain ⟨h1, h2⟩ : s'.nodes = s.nodes ∧ j ∈ s'.next := by
        rcases hout with ⟨h1, -, h3⟩ | ⟨t, h1, -⟩
        · rcases h3 with h3 | h3
          · cases h3
          · exact ⟨h1, h3⟩
        · cases h1
      refine ⟨?_, Or.inl (by rw [h1]; exact hin), by rw [h1]; exact hI.known, keepRight, Or.inr (Or.inl h2)⟩
      rcases hI.use with h3 | h3 | h3
      · exact Or.inl (mem_tail h3 hju)
      · exact Or.inr (Or.inl (hnx _ h3))
      · exact absurd hin h3.1
    | some t =>
      rw [htl] at hout
      rcases hout with ⟨-, h2, -⟩ | ⟨t', h1, h2, -⟩
      · exact absurd rfl (h2 _)
      · cases h1
        have e1 : (s'.nodes.at j).ty = some t := by
          rw [h2, at_setTy, if_pos ⟨rfl, by simp only [hsh.1]; omega⟩]
        refine ⟨?_, Or.inr (Or.inl (by rw [e1, Tl, htl])), fun _ => by rw [Tl, htl]; simp, keepRight,
          Or.inr (Or.inr (by rw [e1]; simp))⟩
        rcases hI.use with h3 | h3 | h3
        · exact Or.inl (mem_tail h3 hju)
        · exact Or.inr (Or.inl (hnx _ h3))
        · rcases hI.sync with h4 | h4 | h4 | h4
          · exact absurd h4 h3.1
          · refine Or.inr (Or.inr ⟨by rw [e1]; simp, ?_⟩)
            rw [Tu, h3.2, ← h4, htl, e1]
          · exact Or.inr (Or.inl (hnx _ h4.1))
          · exact Or.inl (mem_tail h4.1 hju)
  have Ti := Ti ji
  have keepItem : it ∈ rest ∨ it ∈ s'.next ∨ (s'.nodes.at it).ty ≠ none := by
    rw [Ti]
    rcases hI.item with h3 | h3 | h3
    · exact Or.inl (mem_tail h3 (Ne.symm ji))
    · exact Or.inr (Or.inl (hnx _ h3))
    · exact Or.inr (Or.inr h3)
  by_cases ju : j = u
  · subst ju
    obtain ⟨v, hv, hpush, hout⟩ := step_cases h
    simp only [Nodes.visit, ku] at hv
    have hids : (s.nodes.at j).itemIds = false := by
      rw [hsh.itemIds]; simp [Node.itemIds, hL.useNoIds]
    simp only [Nodes.visitItem, hids, hsh.declaration, hL.uses, hsh.kind, hL.item, Kind.counts] at hv
    simp only [Bool.false_eq_true, if_false, reduceCtorEq] at hv
    have keepSync : (s'.nodes.at it).ty = none ∨ (s'.nodes.at l).ty = (s'.nodes.at it).ty ∨
        (j ∈ s'.next ∧ it ∈ s'.next) ∨ (j ∈ rest ∧ it ∈ rest) := by
      rw [Ti, Tl]
      rcases hI.sync with h3 | h3 | h3 | h3
      · exact Or.inl h3
      · exact Or.inr (Or.inl h3)
      · exact Or.inr (Or.inr (Or.inl ⟨hnx _ h3.1, hnx _ h3.2⟩))
      · exfalso
        have h4 := mem_tail h3.2 (Ne.symm ji)
        have := (List.pairwise_cons.1 hp).1 it h4
        omega
    split at hv
    · rename_i t hn
      cases hv
      rcases hout with ⟨-, h2, -⟩ | ⟨t', h1, h2, -⟩
      · exact absurd rfl (h2 _)
      · cases h1
        have hlen : (s.nodes.setLeft j (some ((s.nodes.at j).innerType t))).length = s.nodes.length := by
          simp only [Nodes.setLeft]
          split
          · split
            · exact (shape_setTy _ _ _).1
            · rfl
          · rfl
        refine ⟨Or.inr (Or.inr ⟨by rw [Ti, hn]; simp, ?_⟩), keepSync, by rw [Ti, Tl]; exact hI.known, keepRight,
          keepItem⟩
        rw [Ti, hn, h2, at_setTy, if_pos ⟨rfl, by simp only [hlen, hsh.1]; exact hL.inside⟩, hsh.innerType]
        rfl
    · rename_i hn
      cases hv
      have h2 : j ∈ s'.next := by
        rcases hout with ⟨-, -, h3⟩ | ⟨t, h1, -⟩
        · rcases h3 with h3 | h3
          · cases h3
          · exact h3
        · cases h1
      exact ⟨Or.inr (Or.inl h2), keepSync, by rw [Ti, Tl]; exact hI.known, keepRight, keepItem⟩
  have Tu := Tu ju
  refine ⟨?_, ?_, by rw [Ti, Tl]; exact hI.known, keepRight, keepItem⟩
  · rw [Ti, Tu]
    rcases hI.use with h3 | h3 | h3
    · exact Or.inl (mem_tail h3 (Ne.symm ju))
    · exact Or.inr (Or.inl (hnx _ h3))
    · exact Or.inr (Or.inr h3)
  · rw [Ti, Tl]
    rcases hI.sync with h3 | h3 | h3 | h3
    · exact Or.inl h3
    · exact Or.inr (Or.inl h3)
    · exact Or.inr (Or.inr (Or.inl ⟨hnx _ h3.1, hnx _ h3.2⟩))
    · exact Or.inr (Or.inr (Or.inr ⟨mem_tail h3.1 (Ne.symm ju), mem_tail h3.2 (Ne.symm ji)⟩))

/-- **C64**, local variables. In an accepted file, for `x := e` with an expression of known type `R`,
every use of `x` without properties has the type `R` (with `?`, of what is in it) — or the type `L`
that `e` had before, if `R` does not go with it. -/
theorem C64_local {env : Env} {fuel : Nat} {ns out : Nodes} (h : ns.typecheck env fuel = .accept out)
    (ht : Tree ns) {a l it r u : Nat} (hL : LocalUse ns a l it r u) {R : Ty} (hR : (out.at r).ty = some R) :
    ∃ L, (out.at u).ty = some ((ns.at u).innerType L) ∧ (L = R ∨ R.goesWith L = false) := by
  have pl := ht a l (child_mem hL.left)
  have pit := ht l it (by simp [hL.kids])
  have hu := hL.inside
  have hiu := hL.later
  obtain ⟨hsh, -⟩ := accept_shape h
  obtain ⟨todo, errs, hI, hvis⟩ := accept_general (Inv := LocalInv ns a l it r u) h
    (fun s s' j rest hsh _ hp hI hs => local_step ht hL hsh hp hI hs)
    (fun s hsh hI => by
      have hm : ∀ x, x < ns.length → x ∈ s.next → x ∈ (List.range s.nodes.length).filter fun i => i ∈ s.next := by
        intro x hx hm
        simp only [List.mem_filter, List.mem_range, decide_eq_true_eq]
        exact ⟨by rw [hsh.1]; exact hx, hm⟩
      refine ⟨?_, ?_, hI.known, ?_, ?_⟩
      · rcases hI.use with h1 | h1 | h1
        · cases h1
        · exact Or.inl (hm _ (by omega) h1)
        · exact Or.inr (Or.inr h1)
      · rcases hI.sync with h1 | h1 | h1 | h1
        · exact Or.inl h1
        · exact Or.inr (Or.inl h1)
        · exact Or.inr (Or.inr (Or.inr ⟨hm _ (by omega) h1.1, hm _ (by omega) h1.2⟩))
        · cases h1.1
      · rcases hI.right with h1 | h1 | h1
        · cases h1
        · exact Or.inl (hm _ (by omega) h1)
        · exact Or.inr (Or.inr h1)
      · rcases hI.item with h1 | h1 | h1
        · cases h1
        · exact Or.inl (hm _ (by omega) h1)
        · exact Or.inr (Or.inr h1))
    ⟨Or.inl (List.mem_range.2 (by omega)), Or.inl hL.fresh, fun h => absurd hL.fresh h,
      Or.inl (List.mem_range.2 (by omega)), Or.inl (List.mem_range.2 (by omega))⟩
  have kl : (out.at l).kind = .left := by rw [hsh.kind]; exact child_kind hL.left
  have ki : (out.at it).kind = .item := by rw [hsh.kind]; exact hL.item
  -- the left side
  have hleft : ∃ L, (out.at l).ty = some L ∧ (L = R ∨ R.goesWith L = false) := by
    have hr := hI.right
    simp only [List.not_mem_nil, false_or] at hr
    rcases hr with h1 | ⟨-, -, h1⟩
    · obtain ⟨errs, v, hv, hno, -⟩ := hvis a h1
      have hrids : (out.at r).itemIds = false := by
        simp [Node.itemIds, hsh.kind, child_kind hL.right]
      simp only [Nodes.visit, hsh.kind, hL.assign] at hv
      simp only [Nodes.visitAssign, hsh.child, hL.left, hL.right, hrids, hR] at hv
      simp only [Bool.false_eq_true, if_false] at hv
      cases hl0 : (out.at l).ty with
      | none =>
        simp only [hl0] at hv
        cases hv
        exact absurd rfl (hno .void)
      | some L =>
        simp only [hl0] at hv
        refine ⟨L, rfl, Or.inr ?_⟩
        split at hv
        · cases hv
          exact absurd rfl (hno .void)
        · rename_i hg; simpa using hg
    · exact ⟨R, h1.trans hR, Or.inl rfl⟩
  obtain ⟨L, hl, hLR⟩ := hleft
  -- the item
  have hitem : it ∉ todo := by
    intro h1
    obtain ⟨errs, v, hv, hno, -⟩ := hvis it h1
    have hids : (out.at it).itemIds = false := by
      rw [hsh.itemIds]; simp [Node.itemIds, hL.noIds]
    simp only [Nodes.visit, ki] at hv
    simp only [Nodes.visitItem, hids, hsh.declaration, hL.declares, hsh.parent, pit.1, kl, hl] at hv
    simp only [Bool.false_eq_true, if_false, if_true] at hv
    cases hv
    exact absurd rfl (hno L)
  have hit : (out.at it).ty = some L := by
    have h1 := hI.item
    simp only [hitem, List.not_mem_nil, false_or] at h1
    have h2 := hI.sync
    simp only [hitem, List.not_mem_nil, and_false, or_false] at h2
    rcases h2 with h2 | h2
    · exact absurd h2 h1
    · exact h2.symm.trans hl
  refine ⟨L, ?_, hLR⟩
  have h1 := hI.use
  simp only [List.not_mem_nil, false_or] at h1
  rcases h1 with h1 | ⟨-, h1⟩
  · exfalso
    obtain ⟨errs, v, hv, hno, -⟩ := hvis u h1
    have hids : (out.at u).itemIds = false := by
      rw [hsh.itemIds]; simp [Node.itemIds, hL.useNoIds]
    simp only [Nodes.visit, hsh.kind, hL.use] at hv
    simp only [Nodes.visitItem, hids, hsh.declaration, hL.uses, hsh.kind, hL.item, Kind.counts, hit] at hv
    simp only [Bool.false_eq_true, if_false, reduceCtorEq] at hv
    cases hv
    exact absurd rfl (hno _)
  · rw [h1, hit]; rfl

end Dyon.Check
