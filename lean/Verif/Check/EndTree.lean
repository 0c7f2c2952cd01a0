import Verif.Check.EndConst
import Verif.Check.ResolveProps

/-!
# The types of all nodes stay from some time on, apart from the left sides of assignments

Lemmas for C70, by induction over the tree.
-/

namespace Dyon.Check

open Spec

/-- The node is `n` or below it. -/
inductive Inside (ns : Nodes) (n : Nat) : Nat → Prop
  | self : Inside ns n n
  | child {p c : Nat} : Inside ns n p → c ∈ (ns.at p).children → Inside ns n c

/-- The node `d` is on the left of an assignment in a statement before the one that `u` is in. -/
structure Local (ns : Nodes) (u d P c j a l : Nat) : Prop where
  before : ∃ pre mid suf, (ns.at P).children = pre ++ j :: mid ++ c :: suf ∧ c ∉ pre ++ j :: mid
  under : Inside ns c u
  stmt : (ns.at j).children.head? = some a
  assign : (ns.at a).kind = .assign
  left : (ns.at a).children.head? = some l
  head : (ns.at l).children.head? = some d

/-- Kinds of loops with variables. -/
def Kind.loops (k : Kind) : Bool := k.isDeclLoop || k.isDeclUnLoop || k.isInLoop

/-- What the nodes satisfy when types are propagated. -/
structure Formed (ns : Nodes) : Prop where
  tree : Tree ns
  forest : Forest ns
  sides : ∀ a, (ns.at a).kind = .assign → ∃ l r, (ns.at a).children = [l, r] ∧
    ((ns.at l).kind = .left ∨ ((ns.at l).kind = .returnVoid ∧ (ns.at l).children = [])) ∧
    ((ns.at r).kind = .right ∨ (ns.at r).kind = .returnVoid)
  leftIn : ∀ l, (ns.at l).kind = .left → ∃ a, (ns.at l).parent = some a ∧ (ns.at a).kind = .assign
  leftOne : ∀ l, (ns.at l).kind = .left → (ns.at l).children.length ≤ 1
  plain : ∀ l, (ns.at l).kind = .left → (ns.at l).tryFlag = false
  decl : ∀ u d, (ns.at u).declaration = some d → (ns.at u).kind = .call ∨ ((ns.at u).kind = .item ∧
    ((∃ P c j a l, Local ns u d P c j a l) ∨ (ns.at d).kind.loops = true ∨ (ns.at d).kind = .arg ∨
      (ns.at d).kind = .current))

section
variable {ns : Nodes}

theorem under_le (ht : Tree ns) {a x : Nat} (h : Inside ns a x) : a ≤ x := by
  induction h with
  | self => exact Nat.le_refl _
  | child _ h ih => have := (ht _ _ h).2.1; omega

theorem under_trans {a b c : Nat} (h1 : Inside ns a b) (h2 : Inside ns b c) : Inside ns a c := by
  induction h2 with
  | self => exact h1
  | child _ h ih => exact .child ih h

theorem under_one {a b : Nat} (h : b ∈ (ns.at a).children) : Inside ns a b := .child .self h

theorem under_linear (ht : Tree ns) {a b x : Nat} (h1 : Inside ns a x) (h2 : Inside ns b x) :
    Inside ns a b ∨ Inside ns b a := by
  induction h1 with
  | self => exact Or.inr h2
  | child h hc ih =>
    cases h2 with
    | self => exact Or.inl (.child h hc)
    | child h' hc' =>
      have e := (ht _ _ hc).1.symm.trans (ht _ _ hc').1
      cases e
      exact ih h'

theorem under_cases {n i : Nat} (h : Inside ns n i) : i = n ∨ ∃ c ∈ (ns.at n).children, Inside ns c i := by
  induction h with
  | self => exact Or.inl rfl
  | child h hc ih =>
    rcases ih with rfl | ⟨c, h1, h2⟩
    · exact Or.inr ⟨_, hc, .self⟩
    · exact Or.inr ⟨c, h1, .child h2 hc⟩

theorem under_unique (ht : Tree ns) {p c c' x : Nat} (hc : c ∈ (ns.at p).children) (hc' : c' ∈ (ns.at p).children)
    (h : Inside ns c x) (h' : Inside ns c' x) : c = c' := by
  have key : ∀ {c c'}, c ∈ (ns.at p).children → c' ∈ (ns.at p).children → Inside ns c c' → c = c' := by
    intro c c' hc hc' h
    cases h with
    | self => rfl
    | child h1 h2 =>
      have e := (ht _ _ h2).1.symm.trans (ht _ _ hc').1
      cases e
      have := under_le ht h1
      have := (ht _ _ hc).2.1
      omega
  rcases under_linear ht h h' with h1 | h1
  · exact key hc hc' h1
  · exact (key hc' hc h1).symm

theorem Local.mem {u d P c j a l : Nat} (h : Local ns u d P c j a l) :
    j ∈ (ns.at P).children ∧ c ∈ (ns.at P).children ∧ j ≠ c := by
  obtain ⟨pre, mid, suf, h1, h2⟩ := h.before
  refine ⟨by rw [h1]; simp, by rw [h1]; simp, ?_⟩
  rintro rfl
  exact h2 (by simp)

theorem Local.deep {u d P c j a l : Nat} (h : Local ns u d P c j a l) : Inside ns j d :=
  .child (.child (under_one (List.mem_of_mem_head? h.stmt)) (List.mem_of_mem_head? h.left))
    (List.mem_of_mem_head? h.head)

theorem Local.apart (ht : Tree ns) {u d P c j a l : Nat} (h : Local ns u d P c j a l) : ¬ Inside ns c d :=
  fun h' => h.mem.2.2 (under_unique ht h.mem.1 h.mem.2.1 h.deep h')

theorem Local.leftKind (hF : Formed ns) {u d P c j a l : Nat} (h : Local ns u d P c j a l) :
    (ns.at l).kind = .left ∧ (ns.at d).parent = some l ∧ j < l := by
  obtain ⟨l', r', h1, h2, -⟩ := hF.sides a h.assign
  have hl := h.left
  rw [h1] at hl
  cases hl
  have h2 : (ns.at l).kind = .left := by
    rcases h2 with h2 | ⟨-, h2⟩
    · exact h2
    · have := h.head
      rw [h2] at this
      cases this
  have h3 := (hF.tree _ _ (List.mem_of_mem_head? h.stmt)).2.1
  have h4 := (hF.tree _ _ (List.mem_of_mem_head? h.left)).2.1
  exact ⟨h2, (hF.tree _ _ (List.mem_of_mem_head? h.head)).1, by omega⟩

theorem prefix_induct {Q : Nat → Prop} {xs : List Nat}
    (h : ∀ pre c post, xs = pre ++ c :: post → (∀ c' ∈ pre, Q c') → Q c) : ∀ c ∈ xs, Q c := by
  have key : ∀ post pre, xs = pre ++ post → (∀ c ∈ pre, Q c) → ∀ c ∈ post, Q c := by
    intro post
    induction post with
    | nil => intro _ _ _ c hc; cases hc
    | cons x post ih =>
      intro pre hx hp
      have hq := h pre x post hx hp
      refine List.forall_mem_cons.2 ⟨hq, ih (pre ++ [x]) (by rw [hx]; simp) ?_⟩
      intro c hc
      rcases List.mem_append.1 hc with h1 | h1
      · exact hp c h1
      · rw [List.mem_singleton.1 h1]; exact hq
  exact key xs [] rfl (by simp)

theorem mem_prefix {c j : Nat} {A B C D : List Nat} (h : A ++ c :: B = C ++ c :: D) (hc : c ∉ A) (hj : j ∈ A) :
    j ∈ C := by
  rcases List.append_eq_append_iff.1 h with ⟨as, h1, -⟩ | ⟨cs, h1, h2⟩
  · rw [h1]; exact List.mem_append_left _ hj
  · cases cs with
    | nil => rw [List.append_nil] at h1; rw [← h1]; exact hj
    | cons x cs =>
      injection h2 with h2
      subst h2
      exact absurd (by rw [h1]; simp) hc

end

section
variable {env : Env} {ns : Nodes} {m : Nat → Mach}

/-- What is left out in the induction: left sides, and the variable declared on the left side. -/
def Exempt (ns : Nodes) (n i : Nat) : Prop :=
  (ns.at i).kind = .left ∨ ((ns.at i).kind = .item ∧ (ns.at i).declaration = none ∧
    (i = n ∨ ((ns.at i).parent = some n ∧ (ns.at n).kind = .left)))

/-- The declarations outside keep their types. -/
def Outer (ns : Nodes) (m : Nat → Mach) (n : Nat) : Prop :=
  ∀ u d, Inside ns n u → (ns.at u).declaration = some d → (∃ P c j a l, Local ns u d P c j a l) →
    ¬ Inside ns n d → Const m d

/-- The nodes below `n` keep their types. -/
def Settled (ns : Nodes) (m : Nat → Mach) (n : Nat) : Prop := ∀ i, Inside ns n i → Exempt ns n i ∨ Const m i

theorem settled_outer (hF : Formed ns) {n c : Nat} (hO : Outer ns m n) {pre post : List Nat}
    (hc : (ns.at n).children = pre ++ c :: post) (hp : ∀ c' ∈ pre, Settled ns m c') : Outer ns m c := by
  intro u d hu hd hloc hnot
  have ht := hF.tree
  have hcm : c ∈ (ns.at n).children := by rw [hc]; simp
  have hnu : Inside ns n u := under_trans (under_one hcm) hu
  by_cases hnd : Inside ns n d
  · obtain ⟨P, c', j, a, l, hL⟩ := hloc
    obtain ⟨hj, hc', hne⟩ := hL.mem
    have hPu : Inside ns P u := under_trans (under_one hc') hL.under
    have hn : n = P := by
      rcases under_linear ht hnu hPu with h | h
      · rcases under_cases h with h | ⟨c'', h1, h2⟩
        · exact h.symm
        · exfalso
          have : c'' = c := under_unique ht h1 hcm (under_trans h2 hPu) hu
          subst this
          exact hnot (under_trans h2 (under_trans (under_one hj) hL.deep))
      · rcases under_cases h with h | ⟨c'', h1, h2⟩
        · exact h
        · exfalso
          have : c'' = c' := under_unique ht h1 hc' (under_trans h2 hnu) hL.under
          subst this
          exact hL.apart ht (under_trans h2 hnd)
    subst hn
    have : c' = c := under_unique ht hc' hcm hL.under hu
    subst this
    obtain ⟨A, mid, B, h1, h2⟩ := hL.before
    have hjp : j ∈ pre := mem_prefix (h1.symm.trans hc) h2 (by simp)
    obtain ⟨hlk, hdp, hjl⟩ := hL.leftKind hF
    rcases hp j hjp d hL.deep with hE | hC
    · exfalso
      rcases hE with h | ⟨-, -, h | ⟨h, -⟩⟩
      · obtain ⟨a', h3, h4⟩ := hF.leftIn d h
        rw [hdp] at h3
        cases h3
        rw [hlk] at h4; cases h4
      · subst h
        have := (hF.forest _ _ hdp).1
        omega
      · rw [hdp] at h
        cases h
        omega
    · exact hC
  · exact hO u d hnu hd hloc hnd

theorem loops_unruled {k : Kind} (h : k.loops = true) : k.ruled = false ∨ k = .sift := by
  cases k <;> first | exact Or.inr rfl | exact Or.inl rfl | cases h

/-- A declaration that is read. -/
theorem decl_const (hR : Run env ns m) (hF : Formed ns) {n u d : Nat} (hO : Outer ns m n) (hu : Inside ns n u)
    (hk : (ns.at u).kind = .item) (hd : (ns.at u).declaration = some d)
    (hin : Inside ns n d → (∃ P c j a l, Local ns u d P c j a l) → Const m d) :
    Const m d ∨ (ns.at d).kind = .sift := by
  rcases hF.decl u d hd with h | ⟨-, hloc | h | h | h⟩
  · rw [hk] at h; cases h
  · by_cases hnd : Inside ns n d
    · exact Or.inl (hin hnd hloc)
    · exact Or.inl (hO u d hu hd hloc hnd)
  · rcases loops_unruled h with h | h
    · exact Or.inl (const_unruled hR h)
    · exact Or.inr h
  · exact Or.inl (const_once hR (Or.inr h))
  · exact Or.inl (const_unruled hR (by rw [h]; rfl))

theorem settled_step (hR : Run env ns m) (hF : Formed ns) {n : Nat} (hO : Outer ns m n)
    (hS : ∀ c ∈ (ns.at n).children, Settled ns m c) : Settled ns m n := by
  have ht := hF.tree
  have strict : ∀ i c, c ∈ (ns.at n).children → Inside ns c i → Exempt ns n i ∨ Const m i := by
    intro i c hc hi
    have hcp := (ht n c hc).1
    rcases hS c hc i hi with h | h
    · rcases h with h | ⟨hik, hid, h | ⟨hip, hck⟩⟩
      · exact Or.inl (Or.inl h)
      · subst h
        by_cases hn : (ns.at n).kind = .left
        · exact Or.inl (Or.inr ⟨hik, hid, Or.inr ⟨hcp, hn⟩⟩)
        · refine Or.inr (const_bare hR hik (Or.inr ⟨hid, fun p hp => ?_⟩))
          rw [hcp] at hp; cases hp; exact hn
      · right
        by_cases hch : (ns.at i).children = []
        · obtain ⟨a, ha, hak⟩ := hF.leftIn c hck
          rw [hcp] at ha
          cases ha
          obtain ⟨l, r, hlr, hlk, hrk⟩ := hF.sides n hak
          have hcl : c = l := by
            rw [hlr] at hc
            rcases List.mem_cons.1 hc with h | h
            · exact h
            · rw [List.mem_singleton.1 h] at hck
              rcases hrk with hrk | hrk <;> (rw [hrk] at hck; cases hck)
          subst hcl
          have hrn : r ∈ (ns.at n).children := by rw [hlr]; simp
          have hr : Const m r := by
            rcases hS r hrn r .self with h | h
            · exfalso
              rcases hrk with hrk | hrk <;> rcases h with h | ⟨h, -⟩ <;> (rw [hrk] at h; cases h)
            · exact h
          have hci : i ∈ (ns.at c).children := (hF.forest _ _ hip).2
          have hkids : (ns.at c).children = [i] := by
            have := hF.leftOne c hck
            cases hcc : (ns.at c).children with
            | nil => rw [hcc] at hci; cases hci
            | cons x xs =>
              rw [hcc] at this hci
              have hx : xs = [] := by cases xs with
                | nil => rfl
                | cons y ys => simp at this
              subst hx
              rw [List.mem_singleton.1 hci]
          refine const_declaring hR (a := n) (l := c) (r := ns.child n .right)
            ⟨?_, rfl, hcp, ?_, hkids, ?_, hF.plain c hck, hik, hip, hch, hid⟩ ?_
          · simp [Nodes.child, hlr, hck]
          · intro a' ha'
            have := (ht a' c (child_mem ha')).1
            rw [hcp] at this
            exact (Option.some.inj this).symm
          · intro k hk
            have := (hF.forest _ _ hk).2
            rw [hkids] at this
            exact List.mem_singleton.1 this
          · intro r' hr'
            have h1 := child_mem hr'
            have h2 := child_kind hr'
            rw [hlr] at h1
            rcases List.mem_cons.1 h1 with h | h
            · rw [h, hck] at h2; cases h2
            · rw [List.mem_singleton.1 h]; exact hr
        · exact const_bare hR hik (Or.inl hch)
    · exact Or.inr h
  intro i hi
  rcases under_cases hi with rfl | ⟨c, hc, hci⟩
  · by_cases hl : (ns.at i).kind = .left
    · exact Or.inl (Or.inl hl)
    by_cases hdi : (ns.at i).kind = .item ∧ (ns.at i).declaration = none
    · exact Or.inl (Or.inr ⟨hdi.1, hdi.2, Or.inl rfl⟩)
    right
    by_cases hfa : (ns.at i).kind = .fn ∨ (ns.at i).kind = .arg
    · exact const_once hR hfa
    by_cases ha : (ns.at i).kind = .assign
    · exact const_assign hR ha
    have hkid : ∀ j ∈ (ns.at i).children, (ns.at j).kind ≠ .left := by
      intro j hj h
      obtain ⟨a, h1, h2⟩ := hF.leftIn j h
      rw [(ht i j hj).1] at h1
      cases h1
      exact ha h2
    by_cases hsift : ∃ c j, (ns.at i).kind = .callClosure ∧ ns.child i .item = some c ∧
        (ns.at c).declaration = some j ∧ ∃ N, ∀ n, N ≤ n → ∃ t, tyAt m n j = some (.array t)
    · obtain ⟨c, j, h1, h2, h3, h4⟩ := hsift
      exact const_callSift hR h1 h2 h3 h4
    refine const_read hR hl (fun h h' => hdi ⟨h, h'⟩) ?_
    intro j hj
    rcases hj with hj | ⟨c, hc, hck, hj⟩ | ⟨hik, hd, hcn⟩ | ⟨hik, c, hc, hd⟩ | h | h
    · rcases hS j hj j .self with h | h
      · rcases h with h | ⟨hjk, hjd, -⟩
        · exact absurd h (hkid j hj)
        · refine const_bare hR hjk (Or.inr ⟨hjd, fun p hp => ?_⟩)
          rw [(ht i j hj).1] at hp; cases hp; exact hl
      · exact h
    · rcases hS c hc j (under_one hj) with h | h
      · exfalso
        rcases h with h | ⟨h, -, rfl | ⟨-, h'⟩⟩
        · obtain ⟨a, h1, h2⟩ := hF.leftIn j h
          rw [(ht c j hj).1] at h1
          cases h1
          rw [hck] at h2; cases h2
        · rw [hck] at h; cases h
        · rw [hck] at h'; cases h'
      · exact h
    · rcases decl_const hR hF hO .self hik hd (fun h1 ⟨P, c, j', a, l, hL⟩ =>
        absurd (under_trans hL.under h1) (hL.apart ht)) with h | h
      · exact h
      · rw [h] at hcn; cases hcn
    · have hcm := child_mem hc
      have hck := child_kind hc
      have hd' := decl_const hR hF hO (under_one hcm) hck hd (by
        rintro h1 ⟨P, c', j', a, l, hL⟩
        rcases under_cases h1 with rfl | ⟨x, hx, hxj⟩
        · exfalso
          exact hL.mem.2.2 (under_unique ht hL.mem.1 hL.mem.2.1 (under_trans hL.deep (under_one hcm)) hL.under)
        · rcases strict j x hx hxj with h | h
          · exfalso
            rcases h with h | ⟨h, -, rfl | ⟨-, h'⟩⟩
            · obtain ⟨hlk, hdp, -⟩ := hL.leftKind hF
              obtain ⟨a', h3, h4⟩ := hF.leftIn j h
              rw [hdp] at h3
              cases h3
              rw [hlk] at h4; cases h4
            · rw [hik] at h; cases h
            · exact hl h'
          · exact h)
      rcases hd' with h | h
      · exact h
      · rcases sift_array hR h with h | h
        · exact h
        · exact absurd ⟨c, j, hik, hc, hd, h⟩ hsift
    · exact const_unruled hR (by rw [h]; rfl)
    · exact const_unruled hR (by rw [h]; rfl)
  · exact strict i c hc hci

theorem settled (hR : Run env ns m) (hF : Formed ns) : ∀ (k n : Nat), ns.length - n ≤ k → Outer ns m n → Settled ns m n := by
  intro k
  induction k with
  | zero =>
    intro n hn hO
    refine settled_step hR hF hO fun c hc => ?_
    have := hF.tree n c hc
    omega
  | succ k ih =>
    intro n hn hO
    refine settled_step hR hF hO ?_
    refine prefix_induct fun pre c post h1 h2 => ?_
    have := hF.tree n c (by rw [h1]; simp)
    exact ih c (by omega) (settled_outer hF hO h1 h2)

theorem root_of (hF : Formed ns) : ∀ i, ∃ n, (ns.at n).parent = none ∧ Inside ns n i := by
  intro i
  induction i using Nat.strong_induction_on with
  | _ i ih =>
    cases hp : (ns.at i).parent with
    | none => exact ⟨i, hp, .self⟩
    | some p =>
      obtain ⟨h1, h2⟩ := hF.forest i p hp
      obtain ⟨n, h3, h4⟩ := ih p h1
      exact ⟨n, h3, .child h4 h2⟩

/-- All types stay from some time on, apart from those of left sides. -/
theorem const_nodes (hR : Run env ns m) (hF : Formed ns) {i : Nat} (hl : (ns.at i).kind ≠ .left) : Const m i := by
  have ht := hF.tree
  obtain ⟨n, hn, hi⟩ := root_of hF i
  have hO : Outer ns m n := by
    rintro u d hu hd ⟨P, c, j, a, l, hL⟩ hnot
    exfalso
    have hPu : Inside ns P u := under_trans (under_one hL.mem.2.1) hL.under
    have hnP : Inside ns n P := by
      rcases under_linear ht hu hPu with h | h
      · exact h
      · cases h with
        | self => exact .self
        | child _ h => rw [(ht _ _ h).1] at hn; cases hn
    exact hnot (under_trans hnP (under_trans (under_one hL.mem.1) hL.deep))
  rcases settled hR hF _ n (Nat.le_refl _) hO i hi with h | h
  · rcases h with h | ⟨h1, h2, rfl | ⟨-, h3⟩⟩
    · exact absurd h hl
    · exact const_bare hR h1 (Or.inr ⟨h2, fun p hp => by rw [hn] at hp; cases hp⟩)
    · obtain ⟨a, h4, -⟩ := hF.leftIn n h3
      rw [hn] at h4; cases h4
  · exact h

end
end Dyon.Check
