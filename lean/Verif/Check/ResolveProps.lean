import Verif.Check.Resolve
import Verif.Check.Demo
import Verif.Eval.Demo
import Verif.Eval.Resolve
import Mathlib.Data.List.Nodup

/-!
# C55: every variable of an accepted program is declared, and which declaration it means
-/

namespace Dyon.Check

/-! ## Specification -/

namespace Spec

/-- The node `p` is a loop that declares the variable `x`. -/
def LoopVar (ns : Nodes) (x : String) (p : Nat) : Prop :=
  ((ns.at p).kind ∈ [.forN, .sum, .prod, .sumVec4, .prodVec4, .min, .max, .sift, .any, .all,
      .linkFor, .vec4UnLoop, .forIn, .sumIn, .prodIn, .minIn, .maxIn, .anyIn, .allIn, .siftIn,
      .linkIn]) ∧ x ∈ (ns.at p).names

/-- The statement `j` is `x := ..`, where `it` is the `x` on the left. -/
def Declares (ns : Nodes) (x : String) (j it : Nat) : Prop :=
  ∃ a l, (ns.at j).children.head? = some a ∧ (ns.at a).op = some .assign ∧
    (ns.at a).children.head? = some l ∧ (ns.at l).children.head? = some it ∧
    (ns.at it).name = some x ∧ ¬ ((ns.at it).kind = .item ∧ (ns.at it).children ≠ [])

/-- The last `x := ..` before the child `c` of `p` is the one of `it`. -/
def LastBefore (ns : Nodes) (x : String) (p c it : Nat) : Prop :=
  ∃ pre j mid suf, (ns.at p).children = pre ++ j :: mid ++ c :: suf ∧ c ∉ pre ++ j :: mid ∧
    Declares ns x j it ∧ ∀ k ∈ mid, ∀ it', ¬ Declares ns x k it'

/-- A child of `p` before `c` is `x := ..`. -/
def SomeBefore (ns : Nodes) (x : String) (p c : Nat) : Prop :=
  ∃ pre j mid suf it, (ns.at p).children = pre ++ j :: mid ++ c :: suf ∧ c ∉ pre ++ j :: mid ∧
    Declares ns x j it

/-- `j` is an argument or a current object called `x`. -/
def IsParam (ns : Nodes) (x : String) (j : Nat) : Prop :=
  ((ns.at j).kind = .arg ∨ (ns.at j).kind = .current) ∧ (ns.at j).name = some x

/-- `j` is the first argument or current object of `f` called `x`. -/
def Param (ns : Nodes) (x : String) (f j : Nat) : Prop :=
  ∃ pre suf, (ns.at f).children = pre ++ j :: suf ∧ IsParam ns x j ∧ ∀ k ∈ pre, ¬ IsParam ns x k

/-- The node `p`, reached from its child `c`, has a declaration of `x` that the child sees. -/
def Binds (ns : Nodes) (x : String) (c p : Nat) : Prop := LoopVar ns x p ∨ SomeBefore ns x p c

/-- Looking outwards from the item `i`: the node `p` is reached, coming from its child `c`, with
`g` closures to leave because of `grab`, and nothing on the way there declares `x`. -/
inductive Sees (ns : Nodes) (i : Nat) (x : String) : Nat → Nat → Nat → Prop
  | start {p} : (ns.at i).parent = some p → Sees ns i x i p 0
  | out {c p q g} : Sees ns i x c p g → ¬ Binds ns x c p → (ns.at p).parent = some q →
      (ns.at q).kind ≠ .closure → (ns.at q).kind ≠ .grab → Sees ns i x p q g
  | grab {c p q g} : Sees ns i x c p g → ¬ Binds ns x c p → (ns.at p).parent = some q →
      (ns.at q).kind = .grab → Sees ns i x p q (max 1 (ns.at q).grabLevel)
  | leave {c p q g} : Sees ns i x c p (g + 1) → ¬ Binds ns x c p → (ns.at p).parent = some q →
      (ns.at q).kind = .closure → (∀ j ∈ (ns.at q).children, ¬ IsParam ns x j) → Sees ns i x p q g

/-- From the node `p` one looks no further: `f` is the function or closure whose arguments are
next. -/
def Outermost (ns : Nodes) (p g f : Nat) : Prop :=
  ((ns.at f).kind = .fn ∨ (ns.at f).kind = .closure) ∧
    ((ns.at p).parent = none ∧ f = p ∨
      (ns.at p).parent = some f ∧ (ns.at f).kind = .closure ∧ g = 0)

/-- `j` is the declaration that the item `i` with the name `x` means: the innermost loop, the
last statement `x := ..` before, or an argument of the function. -/
inductive Means (ns : Nodes) (i : Nat) (x : String) : Nat → Prop
  | loop {c p g} : Sees ns i x c p g → LoopVar ns x p → Means ns i x p
  | local {c p it} : Sees ns i x c p 0 → ¬ LoopVar ns x p → LastBefore ns x p c it →
      Means ns i x it
  | param {c p g f j} : Sees ns i x c p g → ¬ Binds ns x c p → Outermost ns p g f →
      Param ns x f j → Means ns i x j

/-- The arena is a forest: a parent is stored before its children and lists them. -/
def Forest (ns : Nodes) : Prop :=
  ∀ i p, (ns.at i).parent = some p → p < i ∧ i ∈ (ns.at p).children

end Spec

open Spec

/-! ## The search -/

theorem bindsLoop_iff (ns : Nodes) (x : String) (p : Nat) :
    (ns.at p).bindsLoop x = true ↔ LoopVar ns x p := by
  unfold Node.bindsLoop LoopVar
  cases (ns.at p).kind <;> simp [Kind.isDeclLoop, Kind.isInLoop, Kind.isDeclUnLoop]

theorem stmtDecl_iff (ns : Nodes) (x : String) (j it : Nat) :
    ns.stmtDecl x j = some it ↔ Declares ns x j it := by
  unfold Nodes.stmtDecl Nodes.stmtItem Declares
  cases ha : (ns.at j).children.head? with
  | none => simp
  | some a =>
    by_cases hop : (ns.at a).op = some .assign
    · cases hl : (ns.at a).children.head? with
      | none => simp [hop, hl]
      | some l =>
        cases hi : (ns.at l).children.head? with
        | none => simp [hop, hl, hi]
        | some k =>
          simp only [hop, hl, hi, Option.bind_eq_bind, Option.bind_some, if_true]
          by_cases hP : (ns.at k).name = some x ∧
              ¬ ((ns.at k).kind = .item ∧ (ns.at k).children ≠ [])
          · rw [if_pos (by simp only [Node.itemIds]; simp [hP.1]; tauto)]
            constructor
            · intro h
              cases h
              exact ⟨a, l, rfl, hop, hl, hi, hP⟩
            · rintro ⟨a', l', ha', _, hl', hi', _⟩
              cases ha'
              rw [hl] at hl'
              cases hl'
              rw [hi] at hi'
              exact hi'
          · rw [if_neg (by simp only [Node.itemIds]; simpa using hP)]
            constructor
            · intro h; cases h
            · rintro ⟨a', l', ha', _, hl', hi', hn⟩
              cases ha'
              rw [hl] at hl'
              cases hl'
              rw [hi] at hi'
              cases hi'
              exact absurd hn hP
    · simp [hop]

theorem stmtDecl_none (ns : Nodes) (x : String) (j : Nat) :
    ns.stmtDecl x j = none ↔ ∀ it, ¬ Declares ns x j it := by
  constructor
  · intro h it hd
    rw [(stmtDecl_iff ns x j it).2 hd] at h
    cases h
  · intro h
    cases hx : ns.stmtDecl x j with
    | none => rfl
    | some it => exact absurd ((stmtDecl_iff ns x j it).1 hx) (h it)

theorem takeWhile_ne {c : Nat} : ∀ {xs : List Nat}, c ∈ xs →
    ∃ suf, xs = xs.takeWhile (· ≠ c) ++ c :: suf ∧ c ∉ xs.takeWhile (· ≠ c)
  | [], h => by cases h
  | y :: ys, h => by
    by_cases hy : y = c
    · subst hy
      exact ⟨ys, by simp, by simp⟩
    · have : c ∈ ys := by
        cases h with
        | head => exact absurd rfl hy
        | tail _ h => exact h
      obtain ⟨suf, h1, h2⟩ := takeWhile_ne this
      refine ⟨suf, ?_, ?_⟩
      · simp only [List.takeWhile_cons, ne_eq, hy, not_false_eq_true, decide_true, if_true,
          List.cons_append]
        exact congrArg _ h1
      · simp only [List.takeWhile_cons, ne_eq, hy, not_false_eq_true, decide_true, if_true,
          List.mem_cons, not_or]
        exact ⟨fun e => hy e.symm, h2⟩

theorem takeWhile_split {c : Nat} : ∀ {pre suf : List Nat}, c ∉ pre →
    (pre ++ c :: suf).takeWhile (· ≠ c) = pre
  | [], suf, _ => by simp
  | y :: ys, suf, h => by
    simp only [List.mem_cons, not_or] at h
    have : y ≠ c := fun e => h.1 e.symm
    simp only [List.cons_append, List.takeWhile_cons, ne_eq, this, not_false_eq_true,
      decide_true, if_true]
    rw [takeWhile_split h.2]

theorem findSome_reverse {α β} {f : α → Option β} {b : β} : ∀ {xs : List α},
    xs.reverse.findSome? f = some b →
      ∃ pre j mid, xs = pre ++ j :: mid ∧ f j = some b ∧ ∀ k ∈ mid, f k = none
  | [], h => by simp at h
  | y :: ys, h => by
    simp only [List.reverse_cons, List.findSome?_append] at h
    cases hys : ys.reverse.findSome? f with
    | some b' =>
      rw [hys] at h
      simp at h
      subst h
      obtain ⟨pre, j, mid, rfl, h1, h2⟩ := findSome_reverse hys
      exact ⟨y :: pre, j, mid, rfl, h1, h2⟩
    | none =>
      rw [hys] at h
      simp at h
      refine ⟨[], y, ys, rfl, h, fun k hk => ?_⟩
      rw [List.findSome?_eq_none_iff] at hys
      exact hys k (by simpa using hk)

theorem localBefore_some {ns : Nodes} {x : String} {p c it : Nat}
    (hc : c ∈ (ns.at p).children) (h : ns.localBefore x p c = some it) :
    LastBefore ns x p c it := by
  obtain ⟨pre, j, mid, h1, h2, h3⟩ := findSome_reverse h
  obtain ⟨suf, h4, h5⟩ := takeWhile_ne hc
  refine ⟨pre, j, mid, suf, ?_, ?_, (stmtDecl_iff ns x j it).1 h2,
    fun k hk => (stmtDecl_none ns x k).1 (h3 k hk)⟩
  · rw [← h1]; exact h4
  · rw [← h1]; exact h5

theorem localBefore_none {ns : Nodes} {x : String} {p c : Nat}
    (h : ns.localBefore x p c = none) : ¬ SomeBefore ns x p c := by
  rintro ⟨pre, j, mid, suf, it, h1, h2, h3⟩
  unfold Nodes.localBefore at h
  rw [h1, takeWhile_split h2, List.findSome?_eq_none_iff] at h
  have := h j (by simp)
  rw [(stmtDecl_iff ns x j it).2 h3] at this
  cases this

theorem last_some {ns : Nodes} {x : String} {p c it : Nat}
    (h : LastBefore ns x p c it) : SomeBefore ns x p c := by
  obtain ⟨pre, j, mid, suf, h1, h2, h3, _⟩ := h
  exact ⟨pre, j, mid, suf, it, h1, h2, h3⟩

theorem isParam_iff (ns : Nodes) (x : String) (j : Nat) :
    (((ns.at j).kind = .arg || (ns.at j).kind = .current) && (ns.at j).name = some x) = true ↔
      IsParam ns x j := by
  simp [IsParam]

theorem param_iff {ns : Nodes} {x : String} {f j : Nat} :
    ns.param x f = some j ↔ Param ns x f j := by
  unfold Nodes.param
  rw [List.find?_eq_some_iff_append]
  constructor
  · rintro ⟨h1, pre, suf, h2, h3⟩
    refine ⟨pre, suf, h2, (isParam_iff ns x j).1 h1, fun k hk hp => ?_⟩
    have := h3 k hk
    rw [(isParam_iff ns x k).2 hp] at this
    cases this
  · rintro ⟨pre, suf, h2, h1, h3⟩
    refine ⟨(isParam_iff ns x j).2 h1, pre, suf, h2, fun k hk => ?_⟩
    have := h3 k hk
    rw [← isParam_iff, Bool.not_eq_true] at this
    rw [this]
    rfl

theorem param_none {ns : Nodes} {x : String} {f : Nat} :
    ns.param x f = none ↔ ∀ j ∈ (ns.at f).children, ¬ IsParam ns x j := by
  unfold Nodes.param
  rw [List.find?_eq_none]
  simp only [isParam_iff]

theorem localBefore_eq {ns : Nodes} {x : String} {p c it : Nat}
    (h : LastBefore ns x p c it) : ns.localBefore x p c = some it := by
  obtain ⟨pre, j, mid, suf, h1, h2, h3, h4⟩ := h
  unfold Nodes.localBefore
  rw [h1, takeWhile_split h2, List.reverse_append, List.findSome?_append, List.reverse_cons,
    List.findSome?_append]
  have : mid.reverse.findSome? (ns.stmtDecl x) = none := by
    rw [List.findSome?_eq_none_iff]
    intro k hk
    exact (stmtDecl_none ns x k).2 (h4 k (by simpa using hk))
  rw [this]
  simp [(stmtDecl_iff ns x j it).2 h3]

theorem not_binds {ns : Nodes} {x : String} {c p : Nat} (h : ¬ Binds ns x c p)
    (hc : c ∈ (ns.at p).children) :
    (ns.at p).bindsLoop x = false ∧ ns.localBefore x p c = none := by
  refine ⟨?_, ?_⟩
  · cases hb : (ns.at p).bindsLoop x with
    | false => rfl
    | true => exact absurd (Or.inl ((bindsLoop_iff ns x p).1 hb)) h
  · cases hl : ns.localBefore x p c with
    | none => rfl
    | some it => exact absurd (Or.inr (last_some (localBefore_some hc hl))) h

/-- What the search has found out when it ends. -/
def Ends (ns : Nodes) (i : Nat) (x : String) : Search → Prop
  | .found j => Means ns i x j
  | .top f => ∃ c p g, Sees ns i x c p g ∧ ¬ Binds ns x c p ∧
      ((ns.at p).parent = none ∧ f = p ∨
        (ns.at p).parent = some f ∧ (ns.at f).kind = .closure ∧ g = 0)
  | .err _ => True

theorem search_ends {ns : Nodes} {i : Nat} {x : String} (c p g : Nat)
    (hs : Sees ns i x c p g) : Ends ns i x (ns.search i x c p g) := by
  induction p using Nat.strongRecOn generalizing c g with
  | ind p ih =>
    rw [Nodes.search.eq_def]
    split
    · rename_i hl
      exact .loop hs ((bindsLoop_iff ns x p).1 hl)
    · rename_i hl
      have hl' : ¬ LoopVar ns x p := fun h => hl ((bindsLoop_iff ns x p).2 h)
      split
      · trivial
      · rename_i hc
        have hc' : c ∈ (ns.at p).children := by simpa using hc
        cases hloc : ns.localBefore x p c with
        | some it =>
          simp only
          split
          · trivial
          · rename_i hg
            obtain rfl : g = 0 := by omega
            exact .local hs hl' (localBefore_some hc' hloc)
        | none =>
          have hb : ¬ Binds ns x c p := fun h =>
            h.elim hl' (localBefore_none hloc)
          simp only
          cases hp : (ns.at p).parent with
          | none => exact ⟨c, p, g, hs, hb, Or.inl ⟨hp, rfl⟩⟩
          | some q =>
            simp only
            split
            · rename_i hq
              split
              · rename_i hk
                have hgr : (ns.at q).grabs g = g := by simp [Node.grabs, hk]
                rw [hgr]
                split
                · rename_i hg
                  exact ⟨c, p, g, hs, hb, Or.inr ⟨hp, hk, hg⟩⟩
                · rename_i hg
                  split
                  · trivial
                  · rename_i hpar
                    obtain ⟨g', rfl⟩ : ∃ g', g = g' + 1 := ⟨g - 1, by omega⟩
                    refine ih q hq p _ ?_
                    refine Sees.leave hs hb hp hk (param_none.1 ?_)
                    simpa using hpar
              · rename_i hk
                refine ih q hq p _ ?_
                unfold Node.grabs
                split
                · rename_i hgk
                  have := Sees.grab hs hb hp hgk
                  split
                  · rename_i h0; rw [h0] at this; exact this
                  · rename_i h0
                    rw [Nat.max_eq_right (by omega)] at this
                    exact this
                · rename_i hgk
                  exact Sees.out hs hb hp hk hgk
            · trivial

theorem resolve_means {ns : Nodes} {i : Nat} {x : String} {j : Nat}
    (hx : (ns.at i).name = some x) (h : ns.resolve i = .ok (some j)) : Means ns i x j := by
  unfold Nodes.resolve at h
  rw [hx] at h
  simp only at h
  split at h
  · simp at h
  · cases hp : (ns.at i).parent with
    | none => rw [hp] at h; simp at h
    | some p =>
      rw [hp] at h
      simp only at h
      have he := search_ends i p 0 (Sees.start (x := x) hp)
      cases hsr : ns.search i x i p 0 with
      | err e => rw [hsr] at h; simp at h
      | found j' =>
        rw [hsr] at h he
        simp at h
        subst h
        exact he
      | top f =>
        rw [hsr] at h he
        simp only at h
        split at h
        · simp at h
        · rename_i hk
          cases hpar : ns.param x f with
          | none => rw [hpar] at h; simp at h
          | some j' =>
            rw [hpar] at h
            simp at h
            subst h
            obtain ⟨c', p', g', h1, h3, h4⟩ := he
            refine .param h1 h3 ⟨?_, h4⟩ (param_iff.1 hpar)
            by_contra hc
            exact hk (not_or.1 hc)

theorem sees_child {ns : Nodes} {i : Nat} {x : String} {c p g : Nat}
    (h : Sees ns i x c p g) : (ns.at c).parent = some p := by
  cases h <;> assumption

/-- The search passes through all that is seen. -/
theorem search_passes {ns : Nodes} (hf : Forest ns) {i : Nat} {x : String} {c p g p0 : Nat}
    (hp0 : (ns.at i).parent = some p0) (h : Sees ns i x c p g) :
    ns.search i x i p0 0 = ns.search i x c p g := by
  induction h with
  | start hp =>
    rw [hp0] at hp
    cases hp
    rfl
  | out hs hb hp h1 h2 ih =>
    have hc := (hf _ _ (sees_child hs)).2
    obtain ⟨e1, e2⟩ := not_binds hb hc
    rw [ih, Nodes.search.eq_def]
    simp [e1, e2, hp, (hf _ _ hp).1, h1, h2, Node.grabs, hc]
  | grab hs hb hp h1 ih =>
    have hc := (hf _ _ (sees_child hs)).2
    obtain ⟨e1, e2⟩ := not_binds hb hc
    rw [ih, Nodes.search.eq_def]
    simp [e1, e2, hp, (hf _ _ hp).1, h1, Node.grabs, hc]
    split
    · rename_i h0; rw [h0]; rfl
    · rename_i h0; rw [Nat.max_eq_right (by omega)]
  | leave hs hb hp h1 h2 ih =>
    have hc := (hf _ _ (sees_child hs)).2
    obtain ⟨e1, e2⟩ := not_binds hb hc
    rw [ih, Nodes.search.eq_def]
    simp [e1, e2, hp, (hf _ _ hp).1, h1, Node.grabs, hc, param_none.2 h2]

theorem means_resolve {ns : Nodes} (hf : Forest ns) {i : Nat} {x : String} {j : Nat}
    (hx : (ns.at i).name = some x) (hr : x ≠ "return") (h : Means ns i x j) :
    ns.resolve i = .ok (some j) := by
  have key : ∀ {c p g}, Sees ns i x c p g → ∃ p0, (ns.at i).parent = some p0 := by
    intro c p g hs
    induction hs with
    | start hp => exact ⟨_, hp⟩
    | out _ _ _ _ _ ih => exact ih
    | grab _ _ _ _ ih => exact ih
    | leave _ _ _ _ _ ih => exact ih
  unfold Nodes.resolve
  rw [hx]
  simp only [hr, if_false]
  cases h with
  | loop hs hl =>
    obtain ⟨p0, hp0⟩ := key hs
    rw [hp0]
    simp only
    rw [search_passes hf hp0 hs, Nodes.search.eq_def]
    simp [(bindsLoop_iff ns x _).2 hl]
  | @«local» c p _ hs hl hb =>
    obtain ⟨p0, hp0⟩ := key hs
    rw [hp0]
    simp only
    have hl' : (ns.at p).bindsLoop x = false := by
      cases hb : (ns.at p).bindsLoop x with
      | false => rfl
      | true => exact absurd ((bindsLoop_iff ns x p).1 hb) hl
    rw [search_passes hf hp0 hs, Nodes.search.eq_def]
    simp [hl', localBefore_eq hb, (hf _ _ (sees_child hs)).2]
  | @param c p g f _ hs hb ho hpar =>
    obtain ⟨p0, hp0⟩ := key hs
    have hc := (hf _ _ (sees_child hs)).2
    obtain ⟨e1, e2⟩ := not_binds hb hc
    rw [hp0]
    simp only
    have hsr : ns.search i x i p0 0 = .top f := by
      rw [search_passes hf hp0 hs, Nodes.search.eq_def]
      obtain ⟨_, ⟨h1, rfl⟩ | ⟨h1, h2, rfl⟩⟩ := ho
      · simp [e1, e2, h1, hc]
      · simp [e1, e2, h1, h2, hc, (hf _ _ h1).1, Node.grabs]
    rw [hsr]
    simp only [param_iff.2 hpar]
    rw [if_neg (by rintro ⟨h1, h2⟩; exact ho.1.elim h1 h2)]

/-! ## The loop over the items -/

/-- The arenas agree on all but the links to declarations. -/
def Alike (ns ns' : Nodes) : Prop :=
  ∀ k, { ns.at k with declaration := none } = { ns'.at k with declaration := none }

theorem Alike.kind {ns ns' : Nodes} (h : Alike ns ns') (k : Nat) :
    (ns.at k).kind = (ns'.at k).kind := by
  have := congrArg Node.kind (h k)
  exact this
theorem Alike.names {ns ns' : Nodes} (h : Alike ns ns') (k : Nat) :
    (ns.at k).names = (ns'.at k).names := by
  have := congrArg Node.names (h k)
  exact this
theorem Alike.parent {ns ns' : Nodes} (h : Alike ns ns') (k : Nat) :
    (ns.at k).parent = (ns'.at k).parent := by
  have := congrArg Node.parent (h k)
  exact this
theorem Alike.children {ns ns' : Nodes} (h : Alike ns ns') (k : Nat) :
    (ns.at k).children = (ns'.at k).children := by
  have := congrArg Node.children (h k)
  exact this
theorem Alike.op {ns ns' : Nodes} (h : Alike ns ns') (k : Nat) :
    (ns.at k).op = (ns'.at k).op := by
  have := congrArg Node.op (h k)
  exact this
theorem Alike.grabLevel {ns ns' : Nodes} (h : Alike ns ns') (k : Nat) :
    (ns.at k).grabLevel = (ns'.at k).grabLevel := by
  have := congrArg Node.grabLevel (h k)
  exact this

theorem Alike.localBefore {ns ns' : Nodes} (h : Alike ns ns') (x : String) (p c : Nat) :
    ns.localBefore x p c = ns'.localBefore x p c := by
  have : ns.stmtDecl x = ns'.stmtDecl x := by
    funext j
    simp only [Nodes.stmtDecl, Nodes.stmtItem, h.children, h.op, Node.name, h.names,
      Node.itemIds, h.kind]
    rfl
  simp only [Nodes.localBefore, this, h.children]

theorem Alike.param {ns ns' : Nodes} (h : Alike ns ns') (x : String) (f : Nat) :
    ns.param x f = ns'.param x f := by
  simp only [Nodes.param, Node.name, h.names, h.kind, h.children]
  rfl

theorem Alike.search {ns ns' : Nodes} (h : Alike ns ns') (i : Nat) (x : String) (c p g : Nat) :
    ns.search i x c p g = ns'.search i x c p g := by
  induction p using Nat.strongRecOn generalizing c g with
  | ind p ih =>
    rw [Nodes.search.eq_def, Nodes.search.eq_def ns']
    have hb : (ns.at p).bindsLoop x = (ns'.at p).bindsLoop x := by
      simp only [Node.bindsLoop, h.kind, h.names]
    simp only [hb, h.children, h.localBefore, h.parent]
    split
    · rfl
    · split
      · rfl
      · cases ns'.localBefore x p c with
        | some it => rfl
        | none =>
          simp only
          cases (ns'.at p).parent with
          | none => rfl
          | some q =>
            simp only
            split
            · rename_i hq
              have hg : (ns.at q).grabs g = (ns'.at q).grabs g := by
                simp only [Node.grabs, h.kind, h.grabLevel]
              simp only [hg, h.kind, h.param, ih q hq]
            · rfl

theorem Alike.resolve {ns ns' : Nodes} (h : Alike ns ns') (i : Nat) :
    ns.resolve i = ns'.resolve i := by
  simp only [Nodes.resolve, Node.name, h.names, h.parent, h.search, h.kind, h.param]

theorem Alike.refl (ns : Nodes) : Alike ns ns := fun _ => rfl

theorem Alike.trans {a b c : Nodes} (h : Alike a b) (h' : Alike b c) : Alike a c :=
  fun k => (h k).trans (h' k)

theorem setDecl_at (ns : Nodes) (i j k : Nat) :
    (ns.setDecl i j).at k =
      if i = k ∧ k < ns.length then { ns.at k with declaration := some j } else ns.at k := by
  unfold Nodes.setDecl Nodes.at
  simp only [List.getD_eq_getElem?_getD, List.getElem?_modify]
  by_cases hk : k < ns.length
  · by_cases hi : i = k
    · simp [hk, hi]
    · simp [hk, hi]
  · simp [hk]

theorem alike_setDecl (ns : Nodes) (i j : Nat) : Alike ns (ns.setDecl i j) := by
  intro k
  rw [setDecl_at]
  split <;> rfl

theorem setDecl_length (ns : Nodes) (i j : Nat) : (ns.setDecl i j).length = ns.length := by
  simp [Nodes.setDecl]

theorem linkItems_ok {ns' : Nodes} : ∀ {is : List Nat} {ns : Nodes}, is.Nodup →
    (∀ i ∈ is, i < ns.length) → ns.linkItems is = .ok ns' →
      Alike ns ns' ∧ (∀ i, i ∉ is → (ns'.at i).declaration = (ns.at i).declaration) ∧
      ∀ i ∈ is, ∃ r, ns.resolve i = .ok r ∧ ∀ j, r = some j → (ns'.at i).declaration = some j
  | [], ns, _, _, h => by
    cases h
    exact ⟨Alike.refl _, fun _ _ => rfl, fun i hi => by cases hi⟩
  | i :: is, ns, hnd, hlt, h => by
    rw [List.nodup_cons] at hnd
    rw [Nodes.linkItems] at h
    cases hr : ns.resolve i with
    | error e => rw [hr] at h; simp at h
    | ok r =>
      rw [hr] at h
      cases r with
      | none =>
        obtain ⟨h1, h2, h3⟩ := linkItems_ok hnd.2 (fun k hk => hlt k (List.mem_cons_of_mem _ hk)) h
        refine ⟨h1, fun k hk => h2 k fun hm => hk (List.mem_cons_of_mem _ hm), fun k hk => ?_⟩
        rcases List.mem_cons.1 hk with rfl | hk
        · exact ⟨_, hr, fun j hj => by cases hj⟩
        · exact h3 k hk
      | some j =>
        have ha := alike_setDecl ns i j
        obtain ⟨h1, h2, h3⟩ := linkItems_ok hnd.2
          (fun k hk => by rw [setDecl_length]; exact hlt k (List.mem_cons_of_mem _ hk)) h
        refine ⟨ha.trans h1, fun k hk => ?_, fun k hk => ?_⟩
        · rw [h2 k fun hm => hk (List.mem_cons_of_mem _ hm), setDecl_at, if_neg]
          rintro ⟨rfl, _⟩
          exact hk List.mem_cons_self
        · rcases List.mem_cons.1 hk with rfl | hk
          · refine ⟨_, hr, fun j' hj' => ?_⟩
            cases hj'
            rw [h2 _ hnd.1, setDecl_at, if_pos ⟨rfl, hlt _ List.mem_cons_self⟩]
          · obtain ⟨r, h4, h5⟩ := h3 k hk
            exact ⟨r, (ha.resolve k).trans h4, h5⟩

theorem linkItems_error {e : ScopeErr} : ∀ {is : List Nat} {ns : Nodes},
    ns.linkItems is = .error e → ∃ i ∈ is, ns.resolve i = .error e
  | [], ns, h => by cases h
  | i :: is, ns, h => by
    rw [Nodes.linkItems] at h
    cases hr : ns.resolve i with
    | error e' =>
      rw [hr] at h
      cases h
      exact ⟨i, List.mem_cons_self, hr⟩
    | ok r =>
      rw [hr] at h
      cases r with
      | none =>
        obtain ⟨k, hk, h'⟩ := linkItems_error h
        exact ⟨k, List.mem_cons_of_mem _ hk, h'⟩
      | some j =>
        obtain ⟨k, hk, h'⟩ := linkItems_error h
        exact ⟨k, List.mem_cons_of_mem _ hk, ((alike_setDecl ns i j).resolve k).trans h'⟩

namespace Spec

/-- The item `i` is the left side of `x := ..`, so it declares its name. -/
def IsDeclared (ns : Nodes) (i : Nat) : Prop :=
  ∃ a l, a < ns.length ∧ (ns.at a).op = some .assign ∧ (ns.at a).children.head? = some l ∧
    (ns.at l).children.head? = some i ∧ (ns.at i).children = []

/-- The item `i` uses the variable `x`. -/
def Uses (ns : Nodes) (i : Nat) (x : String) : Prop :=
  i < ns.length ∧ (ns.at i).kind = .item ∧ (ns.at i).name = some x ∧ x ≠ "return" ∧
    ¬ IsDeclared ns i

end Spec

theorem uses_items {ns : Nodes} {i : Nat} {x : String} (h : Uses ns i x) : i ∈ ns.items := by
  obtain ⟨h1, h2, _, _, h5⟩ := h
  simp only [Nodes.items, List.mem_filter, List.mem_range, h1, h2, decide_true, Bool.true_and,
    true_and, Bool.not_eq_true', List.contains_eq_mem, decide_eq_false_iff_not]
  intro hm
  apply h5
  simp only [Nodes.locals, List.mem_filterMap, List.mem_filter, List.mem_range] at hm
  obtain ⟨a, ⟨ha, hd⟩, hl⟩ := hm
  rw [Option.filter_eq_some_iff] at hl
  obtain ⟨hl, hids⟩ := hl
  simp only [Nodes.isDeclare, Bool.and_eq_true, decide_eq_true_eq] at hd
  simp only [Nodes.leftItem] at hl
  cases hc : (ns.at a).children.head? with
  | none => rw [hc] at hl; cases hl
  | some l =>
    rw [hc] at hl
    refine ⟨a, l, ha, hd.1, hc, hl, ?_⟩
    simpa [Node.itemIds, h2] using hids

theorem items_nodup (ns : Nodes) : ns.items.Nodup :=
  List.nodup_range.filter _

theorem items_lt (ns : Nodes) : ∀ i ∈ ns.items, i < ns.length := by
  intro i hi
  simp only [Nodes.items, List.mem_filter, List.mem_range] at hi
  exact hi.1

/-! ## C55 -/

/-- C55: in an accepted file every used variable is linked to the declaration it means: the
innermost enclosing loop over it, the last `x := ..` before it, or an argument or current object
of the function or closure; declarations outside of a closure are only meant when grabbed. -/
theorem C55_accepted {ns ns' : Nodes} (h : ns.linkAll = .ok ns') {i : Nat} {x : String}
    (hu : Uses ns i x) : ∃ j, (ns'.at i).declaration = some j ∧ Means ns i x j := by
  obtain ⟨_, _, h3⟩ := linkItems_ok (items_nodup ns) (items_lt ns) h
  obtain ⟨r, h4, h5⟩ := h3 i (uses_items hu)
  obtain ⟨_, _, hx, hr, _⟩ := hu
  cases r with
  | some j => exact ⟨j, h5 j rfl, resolve_means hx h4⟩
  | none =>
    exfalso
    unfold Nodes.resolve at h4
    rw [hx] at h4
    simp only [hr, if_false] at h4
    cases hp : (ns.at i).parent with
    | none => rw [hp] at h4; simp at h4
    | some p =>
      rw [hp] at h4
      simp only at h4
      cases hs : ns.search i x i p 0 with
      | err e => rw [hs] at h4; simp at h4
      | found j => rw [hs] at h4; simp at h4
      | top t =>
        rw [hs] at h4
        simp only at h4
        split at h4
        · simp at h4
        · cases hpar : ns.param x t <;> rw [hpar] at h4 <;> simp at h4

/-- C55: a variable means at most one declaration. -/
theorem C55_unique {ns : Nodes} (hf : Forest ns) {i : Nat} {x : String} {j j' : Nat}
    (hu : Uses ns i x) (h : Means ns i x j) (h' : Means ns i x j') : j = j' := by
  have e := means_resolve hf hu.2.2.1 hu.2.2.2.1 h
  rw [means_resolve hf hu.2.2.1 hu.2.2.2.1 h'] at e
  cases e
  rfl

/-- C55: a file in which every used variable means a declaration is accepted. -/
theorem C55_complete {ns : Nodes} (hf : Forest ns)
    (hn : ∀ i < ns.length, (ns.at i).kind = .item → (ns.at i).name ≠ none)
    (h : ∀ i x, Uses ns i x → ∃ j, Means ns i x j) : ∃ ns', ns.linkAll = .ok ns' := by
  cases hr : ns.linkAll with
  | ok ns' => exact ⟨ns', rfl⟩
  | error e =>
    exfalso
    obtain ⟨i, hi, he⟩ := linkItems_error hr
    have hi' := hi
    simp only [Nodes.items, List.mem_filter, List.mem_range, Bool.and_eq_true,
      decide_eq_true_eq, Bool.not_eq_true', List.contains_eq_mem, decide_eq_false_iff_not] at hi'
    obtain ⟨h1, h2, h3⟩ := hi'
    cases hx : (ns.at i).name with
    | none => exact hn i h1 h2 hx
    | some x =>
      by_cases hret : x = "return"
      · subst hret
        simp [Nodes.resolve, hx] at he
      · obtain ⟨j, hj⟩ := h i x ⟨h1, h2, hx, hret, fun ⟨a, l, ha, hop, hc, hl, hch⟩ => h3 (by
          simp only [Nodes.locals, List.mem_filterMap, List.mem_filter, List.mem_range]
          refine ⟨a, ⟨ha, ?_⟩, ?_⟩
          · simp only [Nodes.isDeclare, hop, hc, decide_true, Bool.true_and]
            cases hcl : (ns.at l).children with
            | nil => rw [hcl] at hl; cases hl
            | cons _ _ => rfl
          · rw [Option.filter_eq_some_iff]
            refine ⟨?_, by simp [Node.itemIds, hch]⟩
            simp [Nodes.leftItem, hc, hl])⟩
        rw [means_resolve hf hx hret hj] at he
        cases he

namespace Spec

/-- Looking outwards from the item `i` without leaving a closure: `p` is reached from `c`. -/
inductive InBody (ns : Nodes) (i : Nat) : Nat → Nat → Prop
  | start {p} : (ns.at i).parent = some p → InBody ns i i p
  | out {c p q} : InBody ns i c p → (ns.at p).parent = some q → (ns.at q).kind ≠ .closure →
      InBody ns i p q

/-- `j` is declared in the same function or closure as the item `i`. -/
def DeclaredInside (ns : Nodes) (i : Nat) (x : String) (j : Nat) : Prop :=
  ∃ c p, InBody ns i c p ∧ (LoopVar ns x p ∧ j = p ∨ LastBefore ns x p c j ∨
    ∃ f, (f = p ∨ (ns.at p).parent = some f) ∧
      ((ns.at f).kind = .fn ∨ (ns.at f).kind = .closure) ∧ Param ns x f j)

end Spec

theorem sees_inside {ns : Nodes} {i : Nat} {x : String}
    (hg : ∀ c p, InBody ns i c p → (ns.at p).kind ≠ .grab) {c p g : Nat}
    (h : Sees ns i x c p g) : g = 0 ∧ InBody ns i c p := by
  induction h with
  | start hp => exact ⟨rfl, .start hp⟩
  | out _ _ hp hk _ ih => exact ⟨ih.1, .out ih.2 hp hk⟩
  | grab _ _ hp hk ih =>
    exact absurd hk (hg _ _ (.out ih.2 hp (by rw [hk]; decide)))
  | leave _ _ _ _ _ ih => exact absurd ih.1 (by omega)

/-- C55: without `grab` a variable means a declaration of the same function or closure. -/
theorem C55_no_grab {ns ns' : Nodes} (h : ns.linkAll = .ok ns') {i : Nat} {x : String}
    (hu : Uses ns i x) (hg : ∀ c p, InBody ns i c p → (ns.at p).kind ≠ .grab) :
    ∃ j, (ns'.at i).declaration = some j ∧ DeclaredInside ns i x j := by
  obtain ⟨j, h1, h2⟩ := C55_accepted h hu
  refine ⟨j, h1, ?_⟩
  cases h2 with
  | loop hs hl => exact ⟨_, _, (sees_inside hg hs).2, Or.inl ⟨hl, rfl⟩⟩
  | «local» hs _ hl => exact ⟨_, _, (sees_inside hg hs).2, Or.inr (Or.inl hl)⟩
  | param hs _ ho hp =>
    refine ⟨_, _, (sees_inside hg hs).2, Or.inr (Or.inr ⟨_, ?_, ho.1, hp⟩)⟩
    rcases ho.2 with h | h
    · exact Or.inl h.2
    · exact Or.inr h.1

/-! ## Examples -/

namespace Demo

theorem forest_of {ns : Nodes}
    (h : ∀ i ∈ List.range ns.length, ∀ p ∈ (ns.at i).parent, p < i ∧ i ∈ (ns.at p).children) :
    Forest ns := by
  intro i p hp
  by_cases hi : i < ns.length
  · exact h i (List.mem_range.2 hi) p hp
  · have : ns.at i = default := by
      simp [Nodes.at, List.getD_eq_getElem?_getD, List.getElem?_eq_none (by omega : ns.length ≤ i)]
    rw [this] at hp
    cases hp

/-- ```
fn f(a) {
    x := a
    for i 3 { y := i; x := x }
    g := \(b) = grab x
    z := x
}
``` -/
def scopeProg : Nodes := file [fn "f" [arg "a", nd .block [
  decl "x" (item "a"),
  forN "i" [decl "y" (item "i"), decl "x" (item "x")],
  decl "g" (closure ["b"] (grab 0 "x")),
  decl "z" (item "x")]]]

theorem scopeProg_forest : Forest scopeProg := forest_of (by decide)

theorem scopeProg_uses {i : Nat} {x : String} (hi : i < scopeProg.length)
    (hk : (scopeProg.at i).kind = .item) (hn : (scopeProg.at i).name = some x)
    (hr : x ≠ "return")
    (hd : ∀ a ∈ List.range scopeProg.length, ∀ l ∈ (scopeProg.at a).children.head?,
      (scopeProg.at l).children.head? = some i → (scopeProg.at a).op ≠ some .assign) :
    Uses scopeProg i x :=
  ⟨hi, hk, hn, hr, fun ⟨a, l, ha, hop, hc, hl, _⟩ => hd a (List.mem_range.2 ha) l hc hl hop⟩

unseal Nodes.search in
/-- The file is accepted; `a` means the argument, `i` the loop, all uses of `x` the declaration
before the loop (the one in the loop is out of scope at the end). -/
theorem scopeProg_linked : ∃ ns', scopeProg.linkAll = .ok ns' ∧
    (ns'.at 9).declaration = some 1 ∧ (ns'.at 22).declaration = some 11 ∧
    (ns'.at 29).declaration = some 6 ∧ (ns'.at 41).declaration = some 6 ∧
    (ns'.at 48).declaration = some 6 :=
  ⟨_, rfl, by decide, by decide, by decide, by decide, by decide⟩

/-- The grabbed `x` uses `x`, and means the declaration outside of the closure. -/
example : Means scopeProg 41 "x" 6 := by
  obtain ⟨ns', h, _, _, _, hd, _⟩ := scopeProg_linked
  obtain ⟨j, hj, hm⟩ := C55_accepted h (i := 41) (x := "x")
    (scopeProg_uses (by decide) (by decide) (by decide) (by decide) (by decide))
  rw [hd] at hj
  cases hj
  exact hm

/-- The nodes around the last `x` are no `grab`. -/
example : ∃ j, DeclaredInside scopeProg 48 "x" j := by
  obtain ⟨ns', h, _⟩ := scopeProg_linked
  obtain ⟨j, _, hm⟩ := C55_no_grab h (i := 48) (x := "x")
    (scopeProg_uses (by decide) (by decide) (by decide) (by decide) (by decide)) (by
      have key : ∀ c p, InBody scopeProg 48 c p → p ∈ [47, 46, 43, 42, 2, 0] := by
        intro c p h
        induction h with
        | start hp => revert hp; decide +revert
        | out _ hp _ ih =>
          simp only [List.mem_cons, List.not_mem_nil, or_false] at ih
          rcases ih with rfl | rfl | rfl | rfl | rfl | rfl <;> cases hp <;> decide
      intro c p h hk
      have := key c p h
      simp only [List.mem_cons, List.not_mem_nil, or_false] at this
      rcases this with rfl | rfl | rfl | rfl | rfl | rfl <;> revert hk <;> decide)
  exact ⟨j, hm⟩

unseal Nodes.search in
/-- A variable that is not declared is refused, also when it is declared in another block. -/
example : (file [fn "f" [nd .block [forN "i" [decl "x" (val .f64)], decl "y" (item "x")]]]).linkAll =
    .error (.notFound 21) := by rfl

unseal Nodes.search in
/-- A variable outside of a closure is not seen without `grab`. -/
example : (file [fn "f" [nd .block [decl "x" (val .f64), decl "g" (closure [] (item "x"))]]]).linkAll =
    .error (.notFound 17) := by rfl

/-- ```
fn f() {
    g := \() = { for i 3 { y := grab i } }
}
``` -/
def grabLoop : Nodes := file [fn "f" [nd .block [
  decl "g" (closure [] (nd .block [forN "i" [decl "y" (grab 0 "i")]]))]]]

unseal Nodes.search in
/-- Finding: a grabbed variable is outside of the closure, but the search takes loop variables
inside of the closure for it (arguments and locals with the name are refused).  Here there is no
`i` outside of the closure 8, and the file is accepted with the loop 12 as declaration. -/
theorem C55_grab_loop : ∃ ns', grabLoop.linkAll = .ok ns' ∧ (ns'.at 25).declaration = some 12 ∧
    (ns'.at 23).kind = .grab ∧ (ns'.at 12).kind = .forN ∧ (ns'.at 8).kind = .closure :=
  ⟨_, rfl, by decide, by decide, by decide, by decide⟩

section
variable [FloatOps] [VecMath]

open Dyon.Demo in
/-- `\() = { for i 3 { y := grab i } }`, without slots. -/
def grabLoopExpr : Expr := .closure [] [] true "demo.dyon" (.block [.forN .forN "i" none (num 3)
  [Dyon.Demo.decl "y" (.grab 1 (.item (.mk "i" none false false [] [])))] none])

open Dyon.Demo in
/-- The loader finds no slot for `i` (the other variables are only written to), and making the
closure panics at run time. -/
theorem C55_grab_loop_panics :
    (∀ k, (getLocals k grabLoopExpr [] []).1 = grabLoopExpr) ∧
    ∃ msg, eval (cfg []) 7 grabLoopExpr .right
      { empty with calls := [⟨"f", 0, none, 0, 0, 0⟩] } = .panic msg :=
  ⟨fun _ => rfl, _, rfl⟩

end

end Demo

end Dyon.Check
