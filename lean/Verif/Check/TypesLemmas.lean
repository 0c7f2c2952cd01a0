import Verif.Check.Types

/-!
# Lemmas about the propagation of types

What a step changes, and the invariant scheme used for the properties: a node either is on the list
`todo` or its type agrees with the rule for it.
-/

namespace Dyon.Check

/-- The arenas differ in the types only. -/
def Shape (ns ns' : Nodes) : Prop :=
  ns'.length = ns.length ∧ ∀ i, { ns'.at i with ty := none } = { ns.at i with ty := none }

theorem Shape.refl (ns : Nodes) : Shape ns ns := ⟨rfl, fun _ => rfl⟩

theorem Shape.trans {a b c : Nodes} (h : Shape a b) (h' : Shape b c) : Shape a c :=
  ⟨h'.1.trans h.1, fun i => (h'.2 i).trans (h.2 i)⟩

theorem at_setTy (ns : Nodes) (i : Nat) (t : Option Ty) (k : Nat) :
    (ns.setTy i t).at k = if k = i ∧ k < ns.length then { ns.at k with ty := t } else ns.at k := by
  simp only [Nodes.setTy, Nodes.at, List.getD_eq_getElem?_getD, List.getElem?_modify]
  by_cases hk : k < ns.length
  · by_cases h : i = k
    · subst h; simp [hk]
    · simp [h, Ne.symm h, hk]
  · have : ns[k]? = none := List.getElem?_eq_none (by omega)
    simp [this, hk]

theorem shape_setTy (ns : Nodes) (i : Nat) (t : Option Ty) : Shape ns (ns.setTy i t) := by
  refine ⟨by simp [Nodes.setTy], fun k => ?_⟩
  rw [at_setTy]
  split <;> rfl

theorem Shape.kind {a b : Nodes} (h : Shape a b) (i : Nat) : (b.at i).kind = (a.at i).kind := by
  have := congrArg Node.kind (h.2 i); exact this
theorem Shape.parent {a b : Nodes} (h : Shape a b) (i : Nat) : (b.at i).parent = (a.at i).parent := by
  have := congrArg Node.parent (h.2 i); exact this
theorem Shape.children {a b : Nodes} (h : Shape a b) (i : Nat) : (b.at i).children = (a.at i).children := by
  have := congrArg Node.children (h.2 i); exact this
theorem Shape.declaration {a b : Nodes} (h : Shape a b) (i : Nat) :
    (b.at i).declaration = (a.at i).declaration := by
  have := congrArg Node.declaration (h.2 i); exact this
theorem Shape.tryFlag {a b : Nodes} (h : Shape a b) (i : Nat) : (b.at i).tryFlag = (a.at i).tryFlag := by
  have := congrArg Node.tryFlag (h.2 i); exact this
theorem Shape.names {a b : Nodes} (h : Shape a b) (i : Nat) : (b.at i).names = (a.at i).names := by
  have := congrArg Node.names (h.2 i); exact this
theorem Shape.name {a b : Nodes} (h : Shape a b) (i : Nat) : (b.at i).name = (a.at i).name := by
  simp only [Node.name, h.names]
theorem Shape.alias {a b : Nodes} (h : Shape a b) (i : Nat) : (b.at i).alias = (a.at i).alias := by
  have := congrArg Node.alias (h.2 i); exact this
theorem Shape.op {a b : Nodes} (h : Shape a b) (i : Nat) : (b.at i).op = (a.at i).op := by
  have := congrArg Node.op (h.2 i); exact this
theorem Shape.itemIds {a b : Nodes} (h : Shape a b) (i : Nat) : (b.at i).itemIds = (a.at i).itemIds := by
  simp only [Node.itemIds, h.kind, h.children]
theorem Shape.innerType {a b : Nodes} (h : Shape a b) (i : Nat) : (b.at i).innerType = (a.at i).innerType := by
  funext t; simp only [Node.innerType, h.tryFlag]
theorem Shape.child {a b : Nodes} (h : Shape a b) (i : Nat) (k : Kind) : b.child i k = a.child i k := by
  simp only [Nodes.child, h.children, h.kind]
theorem Shape.width {a b : Nodes} (h : Shape a b) (i : Nat) : b.width i = a.width i := by
  simp only [Nodes.width, h.child, h.children, h.kind]
theorem Shape.callArgs {a b : Nodes} (h : Shape a b) (i : Nat) : b.callArgs i = a.callArgs i := by
  simp only [Nodes.callArgs, h.children, h.kind]
theorem Shape.position {a b : Nodes} (h : Shape a b) (i : Nat) : ∀ cs, b.position i cs = a.position i cs
  | [] => rfl
  | c :: cs => by simp only [Nodes.position, h.width, Shape.position h i cs]
theorem Shape.positions {a b : Nodes} (h : Shape a b) (p i ch : Nat) :
    b.positions p i ch = a.positions p i ch := by
  simp only [Nodes.positions, h.kind, h.children, h.position]
theorem Shape.hostFn {a b : Nodes} (h : Shape a b) (env : Env) (i : Nat) : b.hostFn env i = a.hostFn env i := by
  simp only [Nodes.hostFn, h.alias, h.name]

/-! ## What a visit changes besides the visited node -/

/-- Types given to other nodes by a visit: to a node of kind `Left`, or to a function or closure
without type. -/
def Aside (ns ns' : Nodes) : Prop :=
  Shape ns ns' ∧ ∀ k, (ns'.at k).ty = (ns.at k).ty ∨ (ns.at k).kind = .left ∨
    (((ns.at k).kind = .fn ∨ (ns.at k).kind = .closure) ∧ (ns.at k).ty = none)

theorem Aside.refl (ns : Nodes) : Aside ns ns := ⟨Shape.refl ns, fun _ => Or.inl rfl⟩

theorem aside_left {ns : Nodes} {l : Nat} (hl : (ns.at l).kind = .left) (t : Option Ty) :
    Aside ns (ns.setTy l t) := by
  refine ⟨shape_setTy _ _ _, fun k => ?_⟩
  rw [at_setTy]
  split
  · rename_i h; obtain ⟨rfl, -⟩ := h; exact Or.inr (Or.inl hl)
  · exact Or.inl rfl

theorem child_kind {ns : Nodes} {i c : Nat} {k : Kind} (h : ns.child i k = some c) : (ns.at c).kind = k := by
  have := List.find?_some h
  simpa using this

theorem child_mem {ns : Nodes} {i c : Nat} {k : Kind} (h : ns.child i k = some c) : c ∈ (ns.at i).children :=
  List.mem_of_find?_eq_some h

theorem owner_kind {ns : Nodes} : ∀ i f, ns.owner i = some f → (ns.at f).kind = .fn ∨ (ns.at f).kind = .closure := by
  intro i
  induction i using Nat.strong_induction_on with
  | _ i ih =>
    intro f h
    rw [Nodes.owner.eq_def] at h
    split at h
    · cases h
    · rename_i p hp
      split at h
      · rename_i hk; cases h; exact hk
      · split at h
        · exact ih _ (by assumption) f h
        · cases h

/-- How the outcome of a visit may be read: the other nodes, and the flag `changed`. -/
structure Visited (ns : Nodes) (v : Visit) : Prop where
  aside : Aside ns v.nodes
  /-- other nodes change only if the visited node gets a type -/
  same : v.nodes = ns ∨ ∃ t, v.out = .ty (some t)

theorem visited_same {ns : Nodes} {v : Visit} (h : v.nodes = ns) : Visited ns v :=
  ⟨h ▸ Aside.refl _, Or.inl h⟩

theorem visit_visited {env : Env} {ns : Nodes} {errs : List (Nat × TypeErr)} {i : Nat} {v : Visit}
    (h : ns.visit env errs i = .ok v) : Visited ns v := by
  have hwrap : ns.visitWrap errs i = .ok v → Visited ns v := by
    intro h
    simp only [Nodes.visitWrap] at h
    repeat' split at h
    all_goals first
      | (cases h; exact visited_same rfl)
      | (cases h; done)
      | skip
    rename_i f ho _ hf
    cases h
    refine ⟨⟨shape_setTy _ _ _, fun k => ?_⟩, Or.inr ⟨_, rfl⟩⟩
    simp only [at_setTy]
    split
    · rename_i h; obtain ⟨rfl, -⟩ := h
      exact Or.inr (Or.inr ⟨owner_kind _ _ ho, hf⟩)
    · exact Or.inl rfl
  have hassign : v = ns.visitAssign errs i → Visited ns v := by
    rintro rfl
    simp only [Nodes.visitAssign]
    repeat' split
    all_goals first
      | exact visited_same rfl
      | exact ⟨aside_left (child_kind (by assumption)) _, Or.inr ⟨_, rfl⟩⟩
  have hitem : ns.visitItem errs i = .ok v → Visited ns v := by
    intro h
    simp only [Nodes.visitItem] at h
    repeat' split at h
    all_goals first
      | (cases h; exact visited_same rfl)
      | (cases h; done)
      | skip
    cases h
    refine ⟨?_, Or.inr ⟨_, rfl⟩⟩
    simp only [Nodes.setLeft]
    split
    · split
      · rename_i hl; exact aside_left hl _
      · exact Aside.refl _
    · exact Aside.refl _
  have hcallArg : ns.visitCallArg env errs i = .ok v → Visited ns v := by
    intro h
    simp only [Nodes.visitCallArg] at h
    repeat' split at h
    all_goals first
      | (cases h; exact visited_same rfl)
      | (cases h; done)
  have hcall : ns.visitCall env errs i = .ok v → Visited ns v := by
    intro h
    simp only [Nodes.visitCall, Nodes.visitHost] at h
    repeat' split at h
    all_goals first
      | (cases h; exact visited_same rfl)
      | (cases h; done)
  have hcc : ns.visitCallClosure errs i = .ok v → Visited ns v := by
    intro h
    simp only [Nodes.visitCallClosure] at h
    repeat' split at h
    all_goals first
      | (cases h; exact visited_same rfl)
      | (cases h; done)
  have hnum : ns.visitNumber errs i = .ok v → Visited ns v := by
    intro h
    simp only [Nodes.visitNumber] at h
    repeat' split at h
    all_goals first
      | (cases h; exact visited_same rfl)
      | (cases h; done)
  have hcmp : v = ns.visitCompare errs i → Visited ns v := by
    rintro rfl
    simp only [Nodes.visitCompare]
    repeat' split
    all_goals exact visited_same rfl
  have hblock : v = ns.visitBlock errs i → Visited ns v := by
    rintro rfl
    simp only [Nodes.visitBlock]
    repeat' split
    all_goals exact visited_same rfl
  have hcl : v = ns.visitClosure errs i → Visited ns v := by
    rintro rfl
    exact visited_same rfl
  simp only [Nodes.visit] at h
  split at h
  all_goals first
    | exact hwrap h
    | exact hitem h
    | exact hcallArg h
    | exact hcall h
    | exact hcc h
    | exact hnum h
    | exact hassign (by injection h with h; exact h.symm)
    | exact hcmp (by injection h with h; exact h.symm)
    | exact hblock (by injection h with h; exact h.symm)
    | exact hcl (by injection h with h; exact h.symm)
    | skip
  all_goals (repeat' split at h) <;> (cases h; exact visited_same rfl)

/-- What a step does to the types. -/
structure Stepped (s s' : Spread) (j : Nat) : Prop where
  shape : Shape s.nodes s'.nodes
  next : ∀ i, i ∈ s.next → i ∈ s'.next
  changed : s.changed = true → s'.changed = true
  /-- nothing changes without the flag -/
  same : s'.changed = false → s'.nodes = s.nodes
  /-- where types change -/
  ty : ∀ k, (s'.nodes.at k).ty = (s.nodes.at k).ty ∨ (s.nodes.at k).kind = .left ∨
    (((s.nodes.at k).kind = .fn ∨ (s.nodes.at k).kind = .closure) ∧ (s.nodes.at k).ty = none) ∨
    (k = j ∧ ((s.nodes.at k).ty = none ∨ ∀ p, (s.nodes.at k).parent = some p → (s'.nodes.at p).ty ≠ none → p ≠ j → p ∈ s'.next))

theorem step_stepped {env : Env} {s s' : Spread} {j : Nat} (h : step env s j = .ok s') : Stepped s s' j := by
  simp only [step] at h
  split at h
  · cases h
  · rename_i v hv
    obtain ⟨⟨hsh, hty⟩, hsame⟩ := visit_visited hv
    have weak : ∀ k, (v.nodes.at k).ty = (s.nodes.at k).ty ∨ (s.nodes.at k).kind = .left ∨
        (((s.nodes.at k).kind = .fn ∨ (s.nodes.at k).kind = .closure) ∧ (s.nodes.at k).ty = none) ∨
        (k = j ∧ ((s.nodes.at k).ty = none ∨ ∀ p, (s.nodes.at k).parent = some p →
          (s'.nodes.at p).ty ≠ none → p ≠ j → p ∈ s'.next)) := by
      intro k
      rcases hty k with h | h | h
      · exact Or.inl h
      · exact Or.inr (Or.inl h)
      · exact Or.inr (Or.inr (Or.inl h))
    split at h
    · rename_i ho
      have hn : v.nodes = s.nodes := by
        rcases hsame with h | ⟨t, h⟩
        · exact h
        · rw [ho] at h; cases h
      cases h
      exact ⟨hsh, fun i hi => List.mem_append_left _ hi, fun hc => by simp [hc], fun _ => hn, weak⟩
    · rename_i ho
      have hn : v.nodes = s.nodes := by
        rcases hsame with h | ⟨t, h⟩
        · exact h
        · rw [ho] at h; cases h
      cases h
      exact ⟨hsh, fun i hi => List.mem_append_left _ (List.mem_append_left _ hi), fun hc => by simp [hc],
        fun _ => hn, weak⟩
    · rename_i ho
      have hn : v.nodes = s.nodes := by
        rcases hsame with h | ⟨t, h⟩
        · exact h
        · rw [ho] at h; cases h
      cases h
      exact ⟨hsh, fun i hi => List.mem_append_left _ (List.mem_append_left _ hi), fun hc => by simp [hc],
        fun _ => hn, weak⟩
    · rename_i t ho
      cases h
      refine ⟨hsh.trans (shape_setTy _ _ _), fun i hi => List.mem_append_left _ (List.mem_append_left _ hi),
        fun _ => rfl, fun hf => by simp at hf, fun k => ?_⟩
      simp only [at_setTy]
      by_cases hk : k = j ∧ k < v.nodes.length
      · obtain ⟨rfl, hlt⟩ := hk
        rw [if_pos ⟨rfl, hlt⟩]
        rcases hty k with hs | hs | hs
        · by_cases hkt : (s.nodes.at k).ty = some t
          · exact Or.inl hkt.symm
          · refine Or.inr (Or.inr (Or.inr ⟨rfl, ?_⟩))
            cases hold : (s.nodes.at k).ty with
            | none => exact Or.inl rfl
            | some old =>
              refine Or.inr fun p hp hpt hpk => ?_
              rw [hold] at hs hkt
              have hpt' : (v.nodes.at p).ty ≠ none := by
                rw [if_neg (fun h => hpk h.1)] at hpt
                exact hpt
              refine List.mem_append_right _ ?_
              have hpar : (v.nodes.at k).parent = some p := by rw [hsh.parent]; exact hp
              simp only [hs, hpar]
              have hne : old ≠ t := fun h => hkt (by rw [h])
              have : (v.nodes.at p).ty.isSome = true := Option.isSome_iff_ne_none.2 hpt'
              simp [hne, this]
        · exact Or.inr (Or.inl hs)
        · exact Or.inr (Or.inr (Or.inl hs))
      · rw [if_neg hk]
        rcases hty k with h | h | h
        · exact Or.inl h
        · exact Or.inr (Or.inl h)
        · exact Or.inr (Or.inr (Or.inl h))

/-! ## Types that stay -/

/-- Kinds of nodes whose type never changes once it is there. -/
def Kind.fixed : Kind → Bool
  | .arg | .fn | .tyArg | .tyRet | .current | .array | .arrayFill | .object | .vec4 | .mat4 | .vec4UnLoop
  | .link | .linkFor | .sum | .prod | .min | .max | .any | .all | .swizzle | .sumIn | .prodIn | .minIn
  | .maxIn | .anyIn | .allIn | .for | .forN | .in' => true
  | _ => false

/-- The types that are given in the file are kept. -/
def Stable (ns0 ns : Nodes) : Prop :=
  ∀ k P, (ns0.at k).kind.fixed = true → (ns0.at k).ty = some P → (ns.at k).ty = some P

theorem stable_refl (ns : Nodes) : Stable ns ns := fun _ _ _ h => h

/-- A visit of such a node does nothing. -/
theorem visit_fixed {env : Env} {ns : Nodes} {errs : List (Nat × TypeErr)} {i : Nat} {v : Visit}
    (hk : (ns.at i).kind.fixed = true) (hP : (ns.at i).ty ≠ none)
    (h : ns.visit env errs i = .ok v) : v.nodes = ns ∧ ∀ t, v.out ≠ .ty (some t) := by
  simp only [Nodes.visit, Option.isSome_iff_ne_none, ne_eq, hP, not_false_eq_true, if_true] at h
  split at h <;> first
    | (cases h; exact ⟨rfl, fun t h => by cases h⟩)
    | (exfalso; rename_i hk'; rw [hk'] at hk; cases hk; done)
    | (exfalso; rename_i hk' _ _ _; rw [hk'] at hk; cases hk; done)

theorem step_stable {env : Env} {ns0 : Nodes} {s s' : Spread} {j : Nat} (hsh : Shape ns0 s.nodes)
    (hst : Stable ns0 s.nodes) (h : step env s j = .ok s') : Stable ns0 s'.nodes := by
  intro k P hk hP
  have hs := step_stepped h
  have hold := hst k P hk hP
  rcases hs.ty k with h1 | h1 | h1 | ⟨rfl, -⟩
  · rw [h1]; exact hold
  · rw [hsh.kind] at h1; rw [h1] at hk; cases hk
  · rw [h1.2] at hold; cases hold
  · simp only [step] at h
    split at h
    · cases h
    · rename_i v hv
      obtain ⟨h1, h2⟩ := visit_fixed (by rw [hsh.kind]; exact hk) (by rw [hold]; simp) hv
      split at h
      · cases h; rw [h1]; exact hold
      · cases h; rw [h1]; exact hold
      · cases h; rw [h1]; exact hold
      · rename_i t ht; exact absurd ht (h2 t)

/-! ## The invariant scheme -/

/-- What is to be shown about a rule: a node of the class `K` whose visit gives it a type is good
afterwards, and stays good or is put on the list when other nodes change. -/
structure Keeps (env : Env) (ns0 : Nodes) (K : Nat → Prop) (Good : Nodes → Nat → Prop) : Prop where
  range : ∀ i, K i → i < ns0.length
  visit : ∀ ns errs i v t, Shape ns0 ns → Stable ns0 ns → K i → ns.visit env errs i = .ok v →
    v.out = .ty (some t) → i ∈ v.push ∨ Good (v.nodes.setTy i (some t)) i
  stop : ∀ ns errs i v, Shape ns0 ns → Stable ns0 ns → K i → ns.visit env errs i = .ok v →
    v.out = .stop → Good v.nodes i
  keep : ∀ s s' j i, Shape ns0 s.nodes → Stable ns0 s.nodes → K i → i ≠ j → Stepped s s' j →
    Stable ns0 s'.nodes → Good s.nodes i → Good s'.nodes i ∨ i ∈ s'.next

theorem step_keeps {env : Env} {ns0 : Nodes} {K : Nat → Prop} {Good : Nodes → Nat → Prop}
    (hK : Keeps env ns0 K Good) {s s' : Spread} {j : Nat} {rest : List Nat} (hsh : Shape ns0 s.nodes)
    (hst : Stable ns0 s.nodes) (h : step env s j = .ok s')
    (hI : ∀ i, K i → i ∈ j :: rest ∨ i ∈ s.next ∨ Good s.nodes i) :
    ∀ i, K i → i ∈ rest ∨ i ∈ s'.next ∨ Good s'.nodes i := by
  intro i hi
  have hs := step_stepped h
  have hst' := step_stable hsh hst h
  by_cases hij : i = j
  · subst hij
    simp only [step] at h
    split at h
    · cases h
    · rename_i v hv
      split at h
      · rename_i ho
        cases h; exact Or.inr (Or.inr (hK.stop _ _ _ _ hsh hst hi hv ho))
      · cases h; exact Or.inr (Or.inl (by simp))
      · cases h; exact Or.inr (Or.inl (by simp))
      · rename_i t ho
        cases h
        rcases hK.visit _ _ _ _ _ hsh hst hi hv ho with h | h
        · exact Or.inr (Or.inl (by simp [h]))
        · exact Or.inr (Or.inr h)
  · rcases hI i hi with h1 | h1 | h1
    · rcases List.mem_cons.1 h1 with rfl | h1
      · exact absurd rfl hij
      · exact Or.inl h1
    · exact Or.inr (Or.inl (hs.next _ h1))
    · rcases hK.keep s s' j i hsh hst hi hij hs hst' h1 with h2 | h2
      · exact Or.inr (Or.inr h2)
      · exact Or.inr (Or.inl h2)

theorem round_keeps {env : Env} {ns0 : Nodes} {K : Nat → Prop} {Good : Nodes → Nat → Prop}
    (hK : Keeps env ns0 K Good) : ∀ {todo : List Nat} {s s' : Spread}, Shape ns0 s.nodes →
    Stable ns0 s.nodes → round env s todo = .ok s' →
    (∀ i, K i → i ∈ todo ∨ i ∈ s.next ∨ Good s.nodes i) →
    Shape ns0 s'.nodes ∧ Stable ns0 s'.nodes ∧ ∀ i, K i → i ∈ s'.next ∨ Good s'.nodes i
  | [], s, s', hsh, hst, h, hI => by
    cases h
    exact ⟨hsh, hst, fun i hi => by simpa using hI i hi⟩
  | j :: todo, s, s', hsh, hst, h, hI => by
    simp only [round] at h
    split at h
    · cases h
    · rename_i s1 h1
      exact round_keeps hK (hsh.trans (step_stepped h1).shape) (step_stable hsh hst h1) h
        (step_keeps hK hsh hst h1 hI)

theorem round_changed {env : Env} : ∀ {todo : List Nat} {s s' : Spread}, round env s todo = .ok s' →
    s.changed = true → s'.changed = true
  | [], s, s', h, hc => by cases h; exact hc
  | j :: todo, s, s', h, hc => by
    simp only [round] at h
    split at h
    · cases h
    · rename_i s1 h1
      exact round_changed h ((step_stepped h1).changed hc)

/-- The errors of other nodes are kept by a visit. -/
theorem visit_errs {env : Env} {ns : Nodes} {errs : List (Nat × TypeErr)} {i : Nat} {v : Visit}
    (h : ns.visit env errs i = .ok v) : ∀ e ∈ errs, e.1 ≠ i → e ∈ v.errs := by
  intro e he hne
  simp only [Nodes.visit] at h
  have hcallArg : ns.visitCallArg env errs i = .ok v → e ∈ v.errs := by
    intro h
    simp only [Nodes.visitCallArg] at h
    repeat' split at h
    all_goals first
      | (cases h; exact he)
      | (cases h; done)
      | (cases h; simp [he, hne])
  split at h
  all_goals first
    | exact hcallArg h
    | skip
  all_goals
    try simp only [Nodes.visitWrap, Nodes.visitAssign, Nodes.visitItem, Nodes.visitCall, Nodes.visitHost,
      Nodes.visitCallClosure, Nodes.visitNumber, Nodes.visitCompare, Nodes.visitBlock,
      Nodes.visitClosure] at h
    repeat' split at h
  all_goals first
    | (cases h; exact he)
    | (cases h; done)

theorem step_errs {env : Env} {s s' : Spread} {j : Nat} (h : step env s j = .ok s') :
    ∀ e ∈ s.errs, e.1 ≠ j → e ∈ s'.errs := by
  intro e he hne
  simp only [step] at h
  split at h
  · cases h
  · rename_i v hv
    have := visit_errs hv e he hne
    split at h <;> (cases h; exact this)

theorem round_errs {env : Env} : ∀ {todo : List Nat} {s s' : Spread}, round env s todo = .ok s' →
    ∀ e ∈ s.errs, e.1 ∉ todo → e ∈ s'.errs
  | [], s, s', h, e, he, _ => by cases h; exact he
  | j :: todo, s, s', h, e, he, hn => by
    simp only [round] at h
    split at h
    · cases h
    · rename_i s1 h1
      simp only [List.mem_cons, not_or] at hn
      exact round_errs h e (step_errs h1 e he hn.1) hn.2

/-- The last round visits the nodes on the list with the final types, and gives none a type. -/
theorem round_last {env : Env} : ∀ {todo : List Nat} {s s' : Spread}, todo.Nodup →
    round env s todo = .ok s' → s'.changed = false →
    s'.nodes = s.nodes ∧ ∀ i ∈ todo, ∃ errs v, s.nodes.visit env errs i = .ok v ∧
      (∀ t, v.out ≠ .ty (some t)) ∧ ∀ e ∈ v.errs, e.1 = i → e ∈ s'.errs
  | [], s, s', _, h, _ => by cases h; exact ⟨rfl, by simp⟩
  | j :: todo, s, s', hd, h, hc => by
    simp only [round] at h
    split at h
    · cases h
    · rename_i s1 h1
      obtain ⟨hj, hd⟩ := List.nodup_cons.1 hd
      have hc1 : s1.changed = false := by
        cases hs1 : s1.changed with
        | false => rfl
        | true => rw [round_changed h hs1] at hc; cases hc
      obtain ⟨e1, h2⟩ := round_last hd h hc
      have e2 := (step_stepped h1).same hc1
      refine ⟨e1.trans e2, ?_⟩
      intro i hi
      rcases List.mem_cons.1 hi with rfl | hi
      · simp only [step] at h1
        split at h1
        · cases h1
        · rename_i v hv
          refine ⟨_, v, hv, ?_, ?_⟩
          · intro t ht
            rw [ht] at h1
            cases h1
            cases hc1
          · intro e he hei
            refine round_errs h e ?_ (by rw [hei]; exact hj)
            split at h1 <;> (cases h1; exact he)
      · obtain ⟨errs, v, hv, h3, h4⟩ := h2 i hi
        exact ⟨errs, v, by rw [← e2]; exact hv, h3, h4⟩

/-- What holds at the end of the propagation. -/
theorem propagate_done {env : Env} {ns0 : Nodes} {K : Nat → Prop} {Good : Nodes → Nat → Prop}
    (hK : Keeps env ns0 K Good) : ∀ {fuel : Nat} {ns : Nodes} {todo : List Nat}
    {errs errs' : List (Nat × TypeErr)} {ns' : Nodes}, Shape ns0 ns → Stable ns0 ns → todo.Nodup →
    (∀ i, K i → i ∈ todo ∨ Good ns i) → propagate env fuel ns todo errs = .done ns' errs' →
    Shape ns0 ns' ∧ Stable ns0 ns' ∧ ∀ i, K i → Good ns' i ∨ ∃ errs v, ns'.visit env errs i = .ok v ∧
      (∀ t, v.out ≠ .ty (some t)) ∧ ∀ e ∈ v.errs, e.1 = i → e ∈ errs'
  | 0, ns, todo, errs, errs', ns', _, _, _, _, h => by cases h
  | fuel + 1, ns, todo, errs, errs', ns', hsh, hst, hd, hI, h => by
    simp only [propagate] at h
    split at h
    · cases h
    · rename_i s hs
      obtain ⟨h1, h2, h3⟩ := round_keeps hK (s := ⟨ns, [], errs, false⟩) hsh hst hs
        (fun i hi => by simpa using hI i hi)
      split at h
      · refine propagate_done hK h1 h2 (List.nodup_range.filter _) ?_ h
        intro i hi
        rcases h3 i hi with h4 | h4
        · refine Or.inl ?_
          simp only [List.mem_filter, List.mem_range, decide_eq_true_eq]
          exact ⟨by rw [h1.1]; exact hK.range i hi, h4⟩
        · exact Or.inr h4
      · rename_i hc
        cases h
        obtain ⟨e1, h4⟩ := round_last hd hs (by simpa using hc)
        refine ⟨h1, h2, fun i hi => ?_⟩
        rcases hI i hi with h5 | h5
        · obtain ⟨errs2, v, h6, h7, h8⟩ := h4 i h5
          exact Or.inr ⟨errs2, v, by rw [e1]; exact h6, h7, h8⟩
        · rw [e1]; exact Or.inl h5

/-- What holds of an accepted file. -/
theorem typecheck_accept {env : Env} {fuel : Nat} {ns out : Nodes} (h : ns.typecheck env fuel = .accept out) :
    propagate env fuel ns (List.range ns.length) [] = .done out [] ∧ ∀ i, i < out.length → out.final i = none := by
  simp only [Nodes.typecheck] at h
  split at h
  · cases h
  · cases h
  · rename_i ns' errs hp
    split at h
    · cases h
    · split at h
      · cases h
      · rename_i hn
        cases h
        exact ⟨hp, fun i hi => by
          rw [List.findSome?_eq_none_iff] at hn
          exact hn i (List.mem_range.2 hi)⟩

/-- The invariant of an accepted file. -/
theorem accept_keeps {env : Env} {ns out : Nodes} {fuel : Nat} {K : Nat → Prop} {Good : Nodes → Nat → Prop}
    (h : ns.typecheck env fuel = .accept out) (hK : Keeps env ns K Good) :
    Shape ns out ∧ Stable ns out ∧ ∀ i, K i → Good out i ∨ ∃ errs v, out.visit env errs i = .ok v ∧
      (∀ t, v.out ≠ .ty (some t)) ∧ ∀ e ∈ v.errs, e.1 ≠ i := by
  obtain ⟨h1, -⟩ := typecheck_accept h
  obtain ⟨h2, h3, h4⟩ := propagate_done hK (Shape.refl ns) (stable_refl ns) List.nodup_range
    (fun i hi => Or.inl (List.mem_range.2 (hK.range i hi))) h1
  refine ⟨h2, h3, fun i hi => ?_⟩
  rcases h4 i hi with h5 | ⟨errs, v, h5, h6, h7⟩
  · exact Or.inl h5
  · exact Or.inr ⟨errs, v, h5, h6, fun e he hei => by simpa using h7 e he hei⟩

theorem accept_shape {env : Env} {ns out : Nodes} {fuel : Nat} (h : ns.typecheck env fuel = .accept out) :
    Shape ns out ∧ Stable ns out := by
  have := accept_keeps (K := fun _ => False) (Good := fun _ _ => True) h
    ⟨fun _ h => h.elim, fun _ _ _ _ _ _ _ h => h.elim, fun _ _ _ _ _ _ h => h.elim,
      fun _ _ _ _ _ _ h => h.elim⟩
  exact ⟨this.1, this.2.1⟩

theorem round_inv {env : Env} {ns0 : Nodes} {Inv : Nodes → Prop}
    (hstep : ∀ s s' j, Shape ns0 s.nodes → Stable ns0 s.nodes → step env s j = .ok s' → Inv s.nodes → Inv s'.nodes) :
    ∀ {todo : List Nat} {s s' : Spread}, Shape ns0 s.nodes → Stable ns0 s.nodes → round env s todo = .ok s' →
    Inv s.nodes → Shape ns0 s'.nodes ∧ Stable ns0 s'.nodes ∧ Inv s'.nodes
  | [], s, s', hsh, hst, h, hI => by cases h; exact ⟨hsh, hst, hI⟩
  | j :: todo, s, s', hsh, hst, h, hI => by
    simp only [round] at h
    split at h
    · cases h
    · rename_i s1 h1
      exact round_inv hstep (hsh.trans (step_stepped h1).shape) (step_stable hsh hst h1) h
        (hstep _ _ _ hsh hst h1 hI)

theorem propagate_inv {env : Env} {ns0 : Nodes} {Inv : Nodes → Prop}
    (hstep : ∀ s s' j, Shape ns0 s.nodes → Stable ns0 s.nodes → step env s j = .ok s' → Inv s.nodes → Inv s'.nodes) :
    ∀ {fuel : Nat} {ns : Nodes} {todo : List Nat} {errs errs' : List (Nat × TypeErr)} {ns' : Nodes},
    Shape ns0 ns → Stable ns0 ns → Inv ns → propagate env fuel ns todo errs = .done ns' errs' → Inv ns'
  | 0, ns, todo, errs, errs', ns', _, _, _, h => by cases h
  | fuel + 1, ns, todo, errs, errs', ns', hsh, hst, hI, h => by
    simp only [propagate] at h
    split at h
    · cases h
    · rename_i s hs
      obtain ⟨h1, h2, h3⟩ := round_inv hstep (s := ⟨ns, [], errs, false⟩) hsh hst hs hI
      split at h
      · exact propagate_inv hstep h1 h2 h3 h
      · cases h; exact h3

/-- What every step keeps holds of an accepted file. -/
theorem accept_inv {env : Env} {ns out : Nodes} {fuel : Nat} {Inv : Nodes → Prop}
    (h : ns.typecheck env fuel = .accept out)
    (hstep : ∀ s s' j, Shape ns s.nodes → Stable ns s.nodes → step env s j = .ok s' → Inv s.nodes → Inv s'.nodes)
    (h0 : Inv ns) : Inv out :=
  propagate_inv hstep (Shape.refl ns) (stable_refl ns) h0 (typecheck_accept h).1

/-! ## Invariants that speak of the list -/

theorem round_general {env : Env} {ns0 : Nodes} {Inv : List Nat → Spread → Prop}
    (hstep : ∀ s s' j rest, Shape ns0 s.nodes → Stable ns0 s.nodes → (j :: rest).Pairwise (· < ·) →
      Inv (j :: rest) s → step env s j = .ok s' → Inv rest s') :
    ∀ {todo : List Nat} {s s' : Spread}, Shape ns0 s.nodes → Stable ns0 s.nodes → todo.Pairwise (· < ·) →
    round env s todo = .ok s' → Inv todo s → Shape ns0 s'.nodes ∧ Stable ns0 s'.nodes ∧ Inv [] s'
  | [], s, s', hsh, hst, _, h, hI => by cases h; exact ⟨hsh, hst, hI⟩
  | j :: todo, s, s', hsh, hst, hp, h, hI => by
    simp only [round] at h
    split at h
    · cases h
    · rename_i s1 h1
      exact round_general hstep (hsh.trans (step_stepped h1).shape) (step_stable hsh hst h1)
        (List.pairwise_cons.1 hp).2 h (hstep _ _ _ _ hsh hst hp hI h1)

theorem propagate_general {env : Env} {ns0 : Nodes} {Inv : List Nat → Spread → Prop}
    (hstep : ∀ s s' j rest, Shape ns0 s.nodes → Stable ns0 s.nodes → (j :: rest).Pairwise (· < ·) →
      Inv (j :: rest) s → step env s j = .ok s' → Inv rest s')
    (hround : ∀ s, Shape ns0 s.nodes → Inv [] s →
      Inv ((List.range s.nodes.length).filter fun i => i ∈ s.next) ⟨s.nodes, [], s.errs, false⟩) :
    ∀ {fuel : Nat} {ns : Nodes} {todo : List Nat} {errs errs' : List (Nat × TypeErr)} {ns' : Nodes},
    Shape ns0 ns → Stable ns0 ns → todo.Pairwise (· < ·) → Inv todo ⟨ns, [], errs, false⟩ →
    propagate env fuel ns todo errs = .done ns' errs' →
    ∃ todo errs, Inv todo ⟨ns', [], errs, false⟩ ∧ ∀ i ∈ todo, ∃ errs v, ns'.visit env errs i = .ok v ∧
      (∀ t, v.out ≠ .ty (some t)) ∧ ∀ e ∈ v.errs, e.1 = i → e ∈ errs'
  | 0, ns, todo, errs, errs', ns', _, _, _, _, h => by cases h
  | fuel + 1, ns, todo, errs, errs', ns', hsh, hst, hp, hI, h => by
    simp only [propagate] at h
    split at h
    · cases h
    · rename_i s hs
      obtain ⟨h1, h2, h3⟩ := round_general hstep (s := ⟨ns, [], errs, false⟩) hsh hst hp hs hI
      split at h
      · exact propagate_general hstep hround h1 h2 (List.pairwise_lt_range.filter _) (hround s h1 h3) h
      · rename_i hc
        cases h
        obtain ⟨e1, h4⟩ := round_last (hp.imp (fun h => Nat.ne_of_lt h)) hs (by simpa using hc)
        rw [e1]
        exact ⟨todo, errs, hI, h4⟩

/-- What such an invariant gives for an accepted file. -/
theorem accept_general {env : Env} {ns out : Nodes} {fuel : Nat} {Inv : List Nat → Spread → Prop}
    (h : ns.typecheck env fuel = .accept out)
    (hstep : ∀ s s' j rest, Shape ns s.nodes → Stable ns s.nodes → (j :: rest).Pairwise (· < ·) →
      Inv (j :: rest) s → step env s j = .ok s' → Inv rest s')
    (hround : ∀ s, Shape ns s.nodes → Inv [] s →
      Inv ((List.range s.nodes.length).filter fun i => i ∈ s.next) ⟨s.nodes, [], s.errs, false⟩)
    (h0 : Inv (List.range ns.length) ⟨ns, [], [], false⟩) :
    ∃ todo errs, Inv todo ⟨out, [], errs, false⟩ ∧ ∀ i ∈ todo, ∃ errs v, out.visit env errs i = .ok v ∧
      (∀ t, v.out ≠ .ty (some t)) ∧ ∀ e ∈ v.errs, e.1 ≠ i := by
  obtain ⟨todo, errs, h1, h2⟩ := propagate_general hstep hround (Shape.refl ns) (stable_refl ns)
    List.pairwise_lt_range h0 (typecheck_accept h).1
  refine ⟨todo, errs, h1, fun i hi => ?_⟩
  obtain ⟨errs, v, h3, h4, h5⟩ := h2 i hi
  exact ⟨errs, v, h3, h4, fun e he hei => by simpa using h5 e he hei⟩

end Dyon.Check
