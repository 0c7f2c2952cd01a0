import Verif.Check.EndText

/-!
# The arena of program text

Lemmas for C70: from reports to nodes, to calls and names, to the arena.
-/

namespace Dyon.Check

open Spec
open Front (FnSrc Cst L S F B)
open Syn (BinOp)

namespace Spec

mutual
/-- No left side of an assignment is followed by `?`, as in `(x)? := ..`. -/
def PlainLeft : Cst → Prop
  | .node l kids => (l = .left → ∀ v, .bool .try' v ∉ kids ∧ .bool .tryItem v ∉ kids) ∧ PlainLefts kids
  | _ => True
/-- The same for several. -/
def PlainLefts : List Cst → Prop
  | [] => True
  | c :: cs => PlainLeft c ∧ PlainLefts cs
end

end Spec

/-- The operators of a node. -/
def Tr.ops : Tr → List BinOp
  | .mk _ ops _ => ops

/-- A node that stays as it is, with regard to the grammar. -/
structure GN (n : Node) (kids : List Tr) : Prop where
  sides : n.kind = .assign → ∃ l r, kids = [l, r] ∧
    (l.node.kind = .left ∨ (l.node.kind = .returnVoid ∧ l.kids = [])) ∧
    (r.node.kind = .right ∨ r.node.kind = .returnVoid)
  noLeft : n.kind ≠ .assign → ∀ k ∈ kids, k.node.kind ≠ .left
  one : n.kind = .left → kids.length ≤ 1
  op : n.op ≠ none → n.kind = .assign
  unlinked : n.declaration = none
  plain : n.kind = .left → n.tryFlag = false

/-- Kinds without operators. -/
def Kind.solid (k : Kind) : Bool :=
  k = .assign || k = .left || k = .right || k = .norm || k = .not || k = .neg

/-- The operators of a node. -/
structure GO (n : Node) (ops : List BinOp) (kids : List Tr) : Prop where
  ops : n.kind.solid = true → ops = []
  sides : n.kind = .assign → ∀ k ∈ kids, k.ops = []
  un : unName n.kind ≠ none → ∀ k ∈ kids, k.node.kind = .expr ∨ k.node.kind = .returnVoid

/-- Trees of reports. -/
inductive GR : Tr → Prop
  | mk {n ops kids} : (∀ k ∈ kids, GR k) → GN n kids → GO n ops kids → GR (.mk n ops kids)

/-- Trees. -/
inductive GT : Tr → Prop
  | mk {n ops kids} : (∀ k ∈ kids, GT k) → GN n kids → GT (.mk n ops kids)

/-! ## Reports -/

section
variable [FloatOps] [Data.Lex]

/-- What reports add to a node. -/
structure Adds (cs : List Cst) (n : Node) (ops : List BinOp) (ks : List Tr) (o : Node × List BinOp × List Tr)
    (new : List Tr) : Prop where
  kids : o.2.2 = ks ++ new
  good : ∀ t ∈ new, GR t
  noLeft : (∀ c ∈ cs, noLeft c = true) → (∀ t ∈ new, t.node.kind ≠ .left) ∧ o.1.op = n.op
  decl : o.1.declaration = n.declaration
  kind : o.1.kind = n.kind ∨ (o.1.kind = .returnVoid ∧ cs.any isVoid = true)
  ops : (∀ c ∈ cs, plainC c = true) → o.2.1 = ops
  count : new.length ≤ cs.countP isNode
  plain : cs.any isTry = false → o.1.tryFlag = n.tryFlag

theorem adds_nil (n : Node) (ops : List BinOp) (ks : List Tr) : Adds [] n ops ks (n, ops, ks) [] :=
  ⟨by simp, by simp, by simp, rfl, Or.inl rfl, by simp, by simp, by simp⟩

theorem adds_cons {c : Cst} {cs : List Cst} {n : Node} {ops : List BinOp} {ks : List Tr}
    {o1 o2 : Node × List BinOp × List Tr} {a b : List Tr} (h1 : Adds [c] n ops ks o1 a)
    (h2 : Adds cs o1.1 o1.2.1 o1.2.2 o2 b) : Adds (c :: cs) n ops ks o2 (a ++ b) := by
  refine ⟨?_, ?_, ?_, ?_, ?_, ?_, ?_, ?_⟩
  · rw [h2.kids, h1.kids, List.append_assoc]
  · intro t ht
    rcases List.mem_append.1 ht with h | h
    · exact h1.good t h
    · exact h2.good t h
  · intro h
    rw [List.forall_mem_cons] at h
    obtain ⟨h3, h4⟩ := h1.noLeft (by simpa using h.1)
    obtain ⟨h5, h6⟩ := h2.noLeft h.2
    refine ⟨fun t ht => ?_, h6.trans h4⟩
    rcases List.mem_append.1 ht with h | h
    · exact h3 t h
    · exact h5 t h
  · exact h2.decl.trans h1.decl
  · rcases h2.kind with h | ⟨h, h'⟩
    · rcases h1.kind with h3 | ⟨h3, h4⟩
      · exact Or.inl (h.trans h3)
      · refine Or.inr ⟨h.trans h3, ?_⟩
        rw [List.any_cons, List.any_nil, Bool.or_false] at h4
        rw [List.any_cons, h4, Bool.true_or]
    · exact Or.inr ⟨h, by rw [List.any_cons, h', Bool.or_true]⟩
  · intro h
    rw [List.forall_mem_cons] at h
    rw [h2.ops h.2, h1.ops (by simpa using h.1)]
  · have e1 := h1.count
    have e2 := h2.count
    rw [List.countP_cons, List.length_append]
    rw [List.countP_cons, List.countP_nil] at e1
    omega
  · intro h
    rw [List.any_cons, Bool.or_eq_false_iff] at h
    rw [h2.plain h.2, h1.plain (by simpa using h.1)]

theorem kindOf_facts {l : L} {k : Kind} (h : kindOf l = some k) : (k = .assign ↔ l = .assign) ∧ (k = .left ↔ l = .left) ∧
    (k = .right ↔ l = .right) ∧ (k = .norm ↔ l = .norm) ∧ (k = .not ↔ l = .not) ∧ (k = .neg ↔ l = .neg) ∧
    (k = .expr ↔ l = .expr) ∧ k ≠ .returnVoid := by
  cases l with
  | forN x => cases x <;> first | (cases h; done) | (cases h; simp)
  | forIn x => cases x <;> first | (cases h; done) | (cases h; simp)
  | _ => first | (cases h; done) | (cases h; simp)

theorem plainLefts_iff : ∀ cs : List Cst, PlainLefts cs ↔ ∀ c ∈ cs, PlainLeft c
  | [] => by simp [PlainLefts]
  | c :: cs => by rw [PlainLefts, plainLefts_iff cs, List.forall_mem_cons]

/-- A node of a usual kind. -/
theorem gr_usual {l : L} {k : Kind} (hk : kindOf l = some k) {kids : List Cst} {o : Node × List BinOp × List Tr}
    {new : List Tr} (hs : shape l kids) (ht : l = .left → ∀ v, .bool .try' v ∉ kids ∧ .bool .tryItem v ∉ kids)
    (h : Adds kids { kind := k, ty := startTy k } [] [] o new) (hu : usual l = true ∨ l = .left ∨ l = .right) :
    GR (.mk o.1 o.2.1 o.2.2) := by
  obtain ⟨f1, f2, f3, f4, f5, f6, -, -⟩ := kindOf_facts hk
  have hkids := h.kids
  rw [List.nil_append] at hkids
  have hna : l ≠ .assign := by rintro rfl; rcases hu with h | h | h <;> cases h
  have hnl : ∀ c ∈ kids, noLeft c = true := by
    rcases hu with hu | rfl | rfl
    · unfold usual at hu
      unfold shape at hs
      split at hs <;> first | cases hu | exact hs
    · exact fun c hc => plain_noLeft (hs.plain c hc)
    · exact fun c hc => plain_noLeft (hs c hc)
  obtain ⟨h1, h2⟩ := h.noLeft hnl
  have hka : o.1.kind ≠ .assign := by
    rcases h.kind with h | ⟨h, -⟩
    · rw [h]; exact fun e => hna (f1.1 e)
    · rw [h]; simp
  have hleft : o.1.kind = .left → l = .left := by
    intro e
    rcases h.kind with h | ⟨h, -⟩
    · exact f2.1 (h.symm.trans e)
    · rw [h] at e; cases e
  have hun : unName o.1.kind = none := by
    rcases h.kind with h | ⟨h, -⟩
    · rw [h]
      show unName k = none
      unfold unName
      split
      · rw [f4.1 rfl] at hu; simp [usual] at hu
      · rw [f5.1 rfl] at hu; simp [usual] at hu
      · rw [f6.1 rfl] at hu; simp [usual] at hu
      · rfl
    · rw [h]; rfl
  refine .mk (by rw [hkids]; exact h.good) ⟨fun e => absurd e hka, fun _ => by rw [hkids]; exact h1, fun e => ?_,
    fun e => absurd h2 e, h.decl, fun e => ?_⟩ ⟨fun e => ?_, fun e => absurd e hka, fun e => absurd hun e⟩
  · have := hleft e
    subst this
    rw [hkids]
    exact Nat.le_trans h.count hs.one
  · have hl := hleft e
    have : kids.any isTry = false := by
      rw [List.any_eq_false]
      intro c hc ht'
      have := ht hl
      unfold isTry at ht'
      split at ht'
      · exact (this _).1 hc
      · exact (this _).2 hc
      · cases ht'
    exact h.plain this
  · have : l = .left ∨ l = .right := by
      rcases h.kind with h' | ⟨h', -⟩
      · rw [h'] at e
        have e : k.solid = true := e
        simp only [Kind.solid, Bool.or_eq_true, decide_eq_true_eq] at e
        rcases e with ((((e | e) | e) | e) | e) | e
        · exact absurd (f1.1 e) hna
        · exact Or.inl (f2.1 e)
        · exact Or.inr (f3.1 e)
        · rw [f4.1 e] at hu; simp [usual] at hu
        · rw [f5.1 e] at hu; simp [usual] at hu
        · rw [f6.1 e] at hu; simp [usual] at hu
      · rw [h'] at e; cases e
    refine h.ops ?_
    rcases this with rfl | rfl
    · exact hs.plain
    · exact hs

/-- A left side without children, if it is `return`. -/
theorem left_void {kids : List Cst} {o : Node × List BinOp × List Tr} {new : List Tr} (hs : Frag kids)
    (h : Adds kids { kind := .left, ty := startTy .left } [] [] o new) :
    o.1.kind = .left ∨ (o.1.kind = .returnVoid ∧ o.2.2 = []) := by
  rcases h.kind with h1 | ⟨h1, h2⟩
  · exact Or.inl h1
  · refine Or.inr ⟨h1, ?_⟩
    have := h.count
    rw [hs.void h2] at this
    have e : new = [] := List.eq_nil_of_length_eq_zero (by omega)
    rw [h.kids, e]
    rfl

theorem addParts_cons {o : Node × List BinOp × List Tr} {c : Cst} {cs : List Cst} {o' : Node × List BinOp × List Tr}
    (h : addParts o (c :: cs) = .ok o') : ∃ o1, addPart o c = .ok o1 ∧ addParts o1 cs = .ok o' := by
  rw [addParts] at h
  cases h1 : addPart o c with
  | error e => rw [h1] at h; cases h
  | ok o1 => rw [h1] at h; exact ⟨o1, rfl, h⟩

theorem adds_new {c : Cst} (hc : isNode c = true) {n : Node} {ops : List BinOp} {ks : List Tr} {t : Tr} (hg : GR t)
    (hl : noLeft c = true → t.node.kind ≠ .left) : Adds [c] n ops ks (n, ops, ks ++ [t]) [t] :=
  ⟨rfl, by simpa using hg, fun h => ⟨by simpa using hl (by simpa using h), rfl⟩, rfl, Or.inl rfl, fun _ => rfl,
    by simp [hc], fun _ => rfl⟩

theorem addStr_facts (n : Node) (l : S) (s : String) : (addStr n l s).kind = n.kind ∧ (addStr n l s).op = n.op ∧
    (addStr n l s).declaration = n.declaration ∧ (addStr n l s).tryFlag = n.tryFlag := by
  unfold addStr
  split <;> first | exact ⟨rfl, rfl, rfl, rfl⟩ | (split <;> exact ⟨rfl, rfl, rfl, rfl⟩)

theorem addNum_facts {n n' : Node} {l : F} {x : F64} (h : addNum n l x = .ok n') : n'.kind = n.kind ∧ n'.op = n.op ∧
    n'.declaration = n.declaration ∧ n'.tryFlag = n.tryFlag := by
  unfold addNum at h
  split at h
  · cases h; exact ⟨rfl, rfl, rfl, rfl⟩
  · split at h
    · cases h
    · cases h; exact ⟨rfl, rfl, rfl, rfl⟩
  · cases h; exact ⟨rfl, rfl, rfl, rfl⟩

theorem adds_bool (n : Node) (ops : List BinOp) (ks : List Tr) (b : B) (v : Bool) :
    Adds [.bool b v] n ops ks (addBool n b v, ops ++ addOp b, ks) [] := by
  refine ⟨by simp, by simp, fun h => ⟨by simp, ?_⟩, ?_, ?_, fun h => ?_, by simp, fun h => ?_⟩
  · cases b <;> first | rfl | simp [noLeft] at h
  · cases b <;> rfl
  · cases b <;> simp [addBool, isVoid]
  · have h := h _ (List.mem_singleton.2 rfl)
    cases b <;> simp_all [plainC, addOp]
  · cases b <;> first | rfl | simp [isTry] at h

theorem kind_made {l : L} {k : Kind} (hk : kindOf l = some k) {kids : List Cst} {o : Node × List BinOp × List Tr}
    {new : List Tr} (h : Adds kids { kind := k, ty := startTy k } [] [] o new) :
    o.1.kind = k ∨ o.1.kind = .returnVoid := by
  rcases h.kind with h | ⟨h, -⟩
  · exact Or.inl h
  · exact Or.inr h

mutual
theorem adds_part : ∀ (c : Cst) {n : Node} {ops : List BinOp} {ks : List Tr} {o : Node × List BinOp × List Tr},
    wf c → PlainLeft c → addPart (n, ops, ks) c = .ok o → ∃ new, Adds [c] n ops ks o new
  | .str l s, n, ops, ks, o, _, _, h => by
    rw [addPart] at h
    cases h
    obtain ⟨h1, h2, h3, h4⟩ := addStr_facts n l s
    exact ⟨[], by simp, by simp, fun _ => ⟨by simp, h2⟩, h3, Or.inl h1, fun _ => rfl, by simp, fun _ => h4⟩
  | .num l x, n, ops, ks, o, _, _, h => by
    rw [addPart] at h
    cases h1 : addNum n l x with
    | error e => rw [h1] at h; cases h
    | ok n' =>
      rw [h1] at h
      cases h
      obtain ⟨h1, h2, h3, h4⟩ := addNum_facts h1
      exact ⟨[], by simp, by simp, fun _ => ⟨by simp, h2⟩, h3, Or.inl h1, fun _ => rfl, by simp, fun _ => h4⟩
  | .bool b v, n, ops, ks, o, _, _, h => by
    rw [addPart] at h
    cases h
    exact ⟨[], adds_bool n ops ks b v⟩
  | .node l kids, n, ops, ks, o, hw, hp, h => by
    rw [addPart] at h
    cases hk : kindOf l with
    | none => rw [hk] at h; cases h
    | some k =>
      obtain ⟨f1, f2, f3, f4, f5, f6, f7, f8⟩ := kindOf_facts hk
      rw [hk] at h
      simp only at h
      cases h1 : (if k = .type ∨ k = .retType then tyOf kids else none) with
      | some t =>
        rw [h1] at h
        cases h
        exact ⟨[], by simp, by simp, fun _ => ⟨by simp, rfl⟩, rfl, Or.inl rfl, fun _ => rfl, by simp, fun _ => rfl⟩
      | none =>
        rw [h1] at h
        simp only at h
        cases h2 : (if k = .tyArg ∨ k = .tyRet then tyOf kids else none) with
        | some t =>
          rw [h2] at h
          cases h
          have hk' : k = .tyArg ∨ k = .tyRet := by
            by_contra hc
            rw [if_neg hc] at h2; cases h2
          have hk1 : k ≠ .assign ∧ k ≠ .left ∧ k.solid = false ∧ unName k = none := by
            rcases hk' with rfl | rfl <;> exact ⟨by simp, by simp, rfl, rfl⟩
          obtain ⟨g1, g2, g3, g4⟩ := hk1
          refine ⟨_, adds_new rfl (.mk (by simp) ⟨fun e => absurd e g1, by simp, by simp, by simp, rfl, fun _ => rfl⟩
            ⟨fun _ => rfl, by simp, by simp⟩) (fun _ => g2)⟩
        | none =>
          rw [h2] at h
          simp only at h
          cases h3 : addParts ({ kind := k, ty := startTy k }, [], []) kids with
          | error e => rw [h3] at h; cases h
          | ok o' =>
            rw [h3] at h
            cases h
            rw [wf] at hw
            rw [PlainLeft] at hp
            obtain ⟨hs, hw⟩ := hw
            obtain ⟨ht, hp⟩ := hp
            obtain ⟨new, hA⟩ := adds_parts kids hw hp h3
            obtain ⟨n', ops', ks'⟩ := o'
            have hkids : ks' = new := by simpa using hA.kids
            refine ⟨[.mk n' ops' ks'], adds_new rfl ?_ ?_⟩
            · by_cases hu : usual l = true ∨ l = .left ∨ l = .right
              · exact gr_usual hk hs ht hA hu
              · rw [hkids]
                have hnt : ∀ x, l = .assign ∨ l = .norm ∨ l = .not ∨ l = .neg → x = l → x ≠ .left := by
                  rintro x h rfl rfl
                  simp at h
                cases l with
                | assign =>
                  cases f1.2 rfl
                  obtain ⟨a, op, v, b, rfl⟩ := hs
                  simp only [wfs, wf, PlainLefts, PlainLeft] at hw hp
                  obtain ⟨⟨sl, wl⟩, -, ⟨sr, wr⟩, -⟩ := hw
                  obtain ⟨⟨tl, pl⟩, -, ⟨-, pr⟩, -⟩ := hp
                  obtain ⟨n1, o1, k1, g1, g2⟩ := addParts_node (l := .left) rfl rfl h3
                  rw [addParts_bool] at g2
                  obtain ⟨n2, o2, k2, g3, g4⟩ := addParts_node (l := .right) rfl rfl g2
                  rw [addParts_nil] at g4
                  cases g4
                  obtain ⟨x, hx⟩ := adds_parts a wl pl g1
                  obtain ⟨y, hy⟩ := adds_parts b wr pr g3
                  have q1 := gr_usual (l := .left) rfl sl (fun _ => tl trivial) hx (by simp)
                  have q2 := gr_usual (l := .right) rfl sr (by simp) hy (by simp)
                  simp only [List.nil_append, List.cons_append] at hkids
                  rw [← hkids]
                  refine .mk (by simpa using ⟨q1, q2⟩) ⟨fun _ => ⟨_, _, rfl, left_void sl hx, kind_made (l := .right) rfl hy⟩,
                    fun e => absurd rfl e, fun e => (by cases e), fun _ => rfl, rfl, fun e => (by cases e)⟩
                    ⟨fun _ => rfl, fun _ => ?_, fun e => absurd rfl e⟩
                  have e1 : o1 = [] := hx.ops sl.plain
                  have e2 : o2 = [] := hy.ops sr
                  simp [Tr.ops, e1, e2]
                | norm =>
                  cases f4.2 rfl
                  obtain ⟨a, rfl⟩ := hs
                  simp only [wfs, wf, PlainLefts, PlainLeft] at hw hp
                  obtain ⟨⟨sl, wl⟩, -⟩ := hw
                  obtain ⟨⟨tl, pl⟩, -⟩ := hp
                  obtain ⟨n1, o1, k1, g1, g2⟩ := addParts_node (l := .expr) rfl rfl h3
                  rw [addParts_nil] at g2
                  cases g2
                  obtain ⟨x, hx⟩ := adds_parts a wl pl g1
                  have q1 := gr_usual (l := .expr) rfl sl (by simp) hx (by simp [usual])
                  have q2 := kind_made (l := .expr) rfl hx
                  simp only [List.nil_append] at hkids
                  rw [← hkids]
                  refine .mk (by simpa using q1) ⟨fun e => (by cases e), fun e => ?_,
                    fun e => (by cases e), fun e => absurd rfl e, rfl, fun e => (by cases e)⟩
                    ⟨fun _ => rfl, fun e => (by cases e), fun e => by simpa [Tr.node] using q2⟩
                  rw [List.forall_mem_singleton]
                  show n1.kind ≠ .left
                  rcases q2 with q2 | q2 <;> (have q2 : n1.kind = _ := q2) <;> rw [q2] <;> simp
                | not =>
                  cases f5.2 rfl
                  obtain ⟨a, rfl⟩ := hs
                  simp only [wfs, wf, PlainLefts, PlainLeft] at hw hp
                  obtain ⟨⟨sl, wl⟩, -⟩ := hw
                  obtain ⟨⟨tl, pl⟩, -⟩ := hp
                  obtain ⟨n1, o1, k1, g1, g2⟩ := addParts_node (l := .expr) rfl rfl h3
                  rw [addParts_nil] at g2
                  cases g2
                  obtain ⟨x, hx⟩ := adds_parts a wl pl g1
                  have q1 := gr_usual (l := .expr) rfl sl (by simp) hx (by simp [usual])
                  have q2 := kind_made (l := .expr) rfl hx
                  simp only [List.nil_append] at hkids
                  rw [← hkids]
                  refine .mk (by simpa using q1) ⟨fun e => (by cases e), fun e => ?_,
                    fun e => (by cases e), fun e => absurd rfl e, rfl, fun e => (by cases e)⟩
                    ⟨fun _ => rfl, fun e => (by cases e), fun e => by simpa [Tr.node] using q2⟩
                  rw [List.forall_mem_singleton]
                  show n1.kind ≠ .left
                  rcases q2 with q2 | q2 <;> (have q2 : n1.kind = _ := q2) <;> rw [q2] <;> simp
                | neg =>
                  cases f6.2 rfl
                  obtain ⟨a, rfl⟩ := hs
                  simp only [wfs, wf, PlainLefts, PlainLeft] at hw hp
                  obtain ⟨⟨sl, wl⟩, -⟩ := hw
                  obtain ⟨⟨tl, pl⟩, -⟩ := hp
                  obtain ⟨n1, o1, k1, g1, g2⟩ := addParts_node (l := .expr) rfl rfl h3
                  rw [addParts_nil] at g2
                  cases g2
                  obtain ⟨x, hx⟩ := adds_parts a wl pl g1
                  have q1 := gr_usual (l := .expr) rfl sl (by simp) hx (by simp [usual])
                  have q2 := kind_made (l := .expr) rfl hx
                  simp only [List.nil_append] at hkids
                  rw [← hkids]
                  refine .mk (by simpa using q1) ⟨fun e => (by cases e), fun e => ?_,
                    fun e => (by cases e), fun e => absurd rfl e, rfl, fun e => (by cases e)⟩
                    ⟨fun _ => rfl, fun e => (by cases e), fun e => by simpa [Tr.node] using q2⟩
                  rw [List.forall_mem_singleton]
                  show n1.kind ≠ .left
                  rcases q2 with q2 | q2 <;> (have q2 : n1.kind = _ := q2) <;> rw [q2] <;> simp
                | _ => exact absurd (by simp [usual]) hu
            · intro hnl
              have : l ≠ .left := by rintro rfl; cases hnl
              show n'.kind ≠ .left
              rcases kind_made hk hA with e | e
              · have e : n'.kind = k := e
                rw [e]; exact fun e => this (f2.1 e)
              · have e : n'.kind = .returnVoid := e
                rw [e]; simp
theorem adds_parts : ∀ (cs : List Cst) {n : Node} {ops : List BinOp} {ks : List Tr} {o : Node × List BinOp × List Tr},
    wfs cs → PlainLefts cs → addParts (n, ops, ks) cs = .ok o → ∃ new, Adds cs n ops ks o new
  | [], n, ops, ks, o, _, _, h => by
    rw [addParts_nil] at h
    cases h
    exact ⟨[], adds_nil n ops ks⟩
  | c :: cs, n, ops, ks, o, hw, hp, h => by
    obtain ⟨o1, h1, h2⟩ := addParts_cons h
    rw [wfs] at hw
    rw [PlainLefts] at hp
    obtain ⟨a, ha⟩ := adds_part c hw.1 hp.1 h1
    obtain ⟨b, hb⟩ := adds_parts cs hw.2 hp.2 h2
    exact ⟨a ++ b, adds_cons ha hb⟩
end

theorem rawFile_gr : ∀ {cs : List Cst} {ts : List Tr}, (∀ c ∈ cs, noLeft c = true ∧ wf c) → (∀ c ∈ cs, PlainLeft c) →
    rawFile cs = .ok ts → ∀ t ∈ ts, GR t ∧ t.node.kind ≠ .left
  | [], ts, _, _, h => by
    rw [rawFile] at h
    cases h
    simp
  | .node l kids :: r, ts, hw, hp, h => by
    rw [rawFile] at h
    rw [List.forall_mem_cons] at hw hp
    cases h1 : addPart (default, [], []) (.node l kids) with
    | error e => rw [h1] at h; cases h
    | ok o =>
      rw [h1] at h
      obtain ⟨n', ops', ks'⟩ := o
      simp only [bind, Except.bind] at h
      split at h
      · cases h
      · cases h2 : rawFile r with
        | error e => rw [h2] at h; cases h
        | ok ts' =>
          rw [h2] at h
          cases h
          obtain ⟨new, hA⟩ := adds_part _ hw.1.2 hp.1 h1
          have hkids : ks' = new := by simpa using hA.kids
          intro t ht
          rcases List.mem_append.1 ht with h | h
          · rw [hkids] at h
            exact ⟨hA.good t h, (hA.noLeft (by simpa using hw.1.1)).1 t h⟩
          · exact rawFile_gr hw.2 hp.2 h2 t h
  | .str l s :: r, ts, _, _, h => by rw [rawFile] at h; cases h; simp
  | .num l s :: r, ts, _, _, h => by rw [rawFile] at h; cases h; simp
  | .bool l s :: r, ts, _, _, h => by rw [rawFile] at h; cases h; simp

end

/-! ## Operators -/

theorem solid_un {k : Kind} (h : k.solid = false) : unName k = none := by
  cases k <;> first | rfl | (simp [Kind.solid] at h)

/-- What matters of a child. -/
def SameT (k k' : Tr) : Prop := k'.node.kind = k.node.kind ∧ (k.kids = [] → k'.kids = [])

theorem GN.same {n n' : Node} {kids kids' : List Tr} (h : GN n kids) (hk : List.Forall₂ SameT kids kids')
    (h1 : n'.kind = n.kind) (h2 : n'.op = n.op) (h3 : n'.declaration = n.declaration) (h4 : n'.tryFlag = n.tryFlag) :
    GN n' kids' := by
  refine ⟨fun e => ?_, fun e => ?_, fun e => ?_, fun e => ?_, ?_, fun e => ?_⟩
  · obtain ⟨l, r, rfl, hl, hr⟩ := h.sides (h1.symm.trans e)
    rcases hk with _ | ⟨s1, _ | ⟨s2, _ | _⟩⟩
    refine ⟨_, _, rfl, ?_, ?_⟩
    · rw [s1.1]
      exact hl.imp_right fun h => ⟨h.1, s1.2 h.2⟩
    · rw [s2.1]; exact hr
  · have := h.noLeft (h1 ▸ e)
    clear h
    induction hk with
    | nil => simp
    | cons hs _ ih =>
      rw [List.forall_mem_cons] at this ⊢
      exact ⟨by rw [hs.1]; exact this.1, ih this.2⟩
  · rw [← hk.length_eq]
    exact h.one (h1.symm.trans e)
  · rw [h1]; exact h.op (h2 ▸ e)
  · rw [h3]; exact h.unlinked
  · rw [h4]; exact h.plain (h1.symm.trans e)

theorem nestRest_gr {k : Kind} (hk : k.solid = false) : ∀ {bs : List BinOp} {rs : List Tr} {acc : Tr}, GR acc →
    acc.node.kind = k → acc.kids ≠ [] → (∀ r ∈ rs, GR r ∧ r.node.kind ≠ .left) →
      GR (nestRest k acc bs rs) ∧ (nestRest k acc bs rs).node.kind = k ∧ (nestRest k acc bs rs).kids ≠ []
  | b :: bs, r :: rs, acc, ha, hka, hn, hr => by
    rw [List.forall_mem_cons] at hr
    rw [nestRest]
    have hl : k ≠ .left := by rintro rfl; cases hk
    have has : k ≠ .assign := by rintro rfl; cases hk
    refine nestRest_gr hk (.mk ?_ ⟨fun e => absurd e has, fun _ => ?_, fun e => absurd e hl, fun e => absurd rfl e, rfl,
      fun e => absurd e hl⟩ ⟨fun e => ?_, fun e => absurd e has, fun e => absurd (solid_un hk) e⟩) rfl (by simp [Tr.kids])
      hr.2
    · simpa using ⟨ha, hr.1.1⟩
    · simpa using ⟨by rw [hka]; exact hl, hr.1.2⟩
    · rw [hk] at e; cases e
  | [], rs, acc, ha, hka, hn, hr => by
    unfold nestRest
    exact ⟨ha, hka, hn⟩
  | b :: bs, [], acc, ha, hka, hn, hr => by
    unfold nestRest
    exact ⟨ha, hka, hn⟩

/-- What becomes of a tree when sequences of operators are nested. -/
structure Nested (t t' : Tr) : Prop where
  good : GR t'
  same : SameT t t'
  ops : t.ops = [] → t'.ops = []

theorem nested_mem {kids kids' : List Tr} (h : List.Forall₂ Nested kids kids') :
    (∀ k' ∈ kids', ∃ k ∈ kids, Nested k k') ∧ List.Forall₂ SameT kids kids' := by
  induction h with
  | nil => exact ⟨by simp, .nil⟩
  | cons h _ ih =>
    refine ⟨?_, .cons h.same ih.2⟩
    rw [List.forall_mem_cons]
    refine ⟨⟨_, List.mem_cons_self, h⟩, fun k hk => ?_⟩
    obtain ⟨a, b, c⟩ := ih.1 k hk
    exact ⟨a, List.mem_cons_of_mem _ b, c⟩

mutual
theorem nest_gr : ∀ (t : Tr), GR t → Nested t t.nest
  | .mk n ops kids, h => by
    cases h with
    | mk hk hn ho =>
    have h1 := nests_gr kids hk
    obtain ⟨h2, h3⟩ := nested_mem h1
    have hn' : GN n (nests kids) := hn.same h3 rfl rfl rfl rfl
    have hg : ∀ k ∈ nests kids, GR k := fun k hk => by
      obtain ⟨_, _, h⟩ := h2 k hk
      exact h.good
    have ho' : GO n ops (nests kids) := by
      refine ⟨ho.ops, fun e k hk => ?_, fun e k hk => ?_⟩
      · obtain ⟨a, b, c⟩ := h2 k hk
        exact c.ops (ho.sides e a b)
      · obtain ⟨a, b, c⟩ := h2 k hk
        rw [c.same.1]
        exact ho.un e a b
    rw [Tr.nest]
    unfold nestNode
    split
    · rename_i b b' bs l r rs hkids
      rw [hkids] at hg hn'
      have hs : n.kind.solid = false := by
        cases hs : n.kind.solid with
        | false => rfl
        | true => have := ho.ops hs; cases this
      have hl : n.kind ≠ .left := by rintro e; rw [e] at hs; cases hs
      have has : n.kind ≠ .assign := by rintro e; rw [e] at hs; cases hs
      have hnl := hn'.noLeft has
      rw [List.forall_mem_cons, List.forall_mem_cons] at hnl hg
      have := nestRest_gr (k := n.kind) hs (bs := b' :: bs) (rs := rs) (acc := .mk n [b] [l, r])
        (.mk (by simpa using ⟨hg.1, hg.2.1⟩) ⟨fun e => absurd e has, fun _ => by simpa using ⟨hnl.1, hnl.2.1⟩,
          fun e => absurd e hl, hn.op, hn.unlinked, fun e => absurd e hl⟩
          ⟨fun e => absurd (hs.symm.trans e) (by simp), fun e => absurd e has, fun e => absurd (solid_un hs) e⟩)
        rfl (by simp [Tr.kids]) (fun r hr => ⟨hg.2.2 r hr, hnl.2.2 r hr⟩)
      refine ⟨this.1, ⟨this.2.1, fun e => ?_⟩, fun e => ?_⟩
      · have e : kids = [] := e
        subst e
        cases hkids
      · cases e
    · refine ⟨.mk hg hn' ho', ⟨rfl, fun e => ?_⟩, fun e => e⟩
      have e : kids = [] := e
      subst e
      rfl
theorem nests_gr : ∀ (ts : List Tr), (∀ t ∈ ts, GR t) → List.Forall₂ Nested ts (nests ts)
  | [], _ => .nil
  | t :: ts, h => by
    rw [List.forall_mem_cons] at h
    rw [nests]
    exact .cons (nest_gr t h.1) (nests_gr ts h.2)
end

/-! ## Calls -/

/-- What becomes of a tree when operators become calls. -/
structure Called (t t' : Tr) : Prop where
  good : GT t'
  notLeft : t.node.kind ≠ .left → t'.node.kind ≠ .left
  side : t.ops = [] → t.node.kind = .left ∨ t.node.kind = .right ∨ t.node.kind = .returnVoid →
    t'.node.kind = t.node.kind ∧ t'.kids.length = t.kids.length
  expr : t.node.kind = .expr ∨ t.node.kind = .returnVoid →
    t'.node.kind = .expr ∨ t'.node.kind = .returnVoid ∨ t'.node.kind = .call

theorem called_mem {kids kids' : List Tr} (h : List.Forall₂ Called kids kids') :
    ∀ k' ∈ kids', ∃ k ∈ kids, Called k k' := by
  induction h with
  | nil => simp
  | cons h _ ih =>
    rw [List.forall_mem_cons]
    refine ⟨⟨_, List.mem_cons_self, h⟩, fun k hk => ?_⟩
    obtain ⟨a, b, c⟩ := ih k hk
    exact ⟨a, List.mem_cons_of_mem _ b, c⟩

theorem callNode_called {n : Node} {ops : List BinOp} {kids kids' : List Tr} (hn : GN n kids) (ho : GO n ops kids)
    (h : List.Forall₂ Called kids kids') : Called (.mk n ops kids) (callNode n ops kids') := by
  have hm := called_mem h
  have hg : ∀ k ∈ kids', GT k := fun k hk => by
    obtain ⟨_, _, h⟩ := hm k hk
    exact h.good
  have hnl : n.kind ≠ .assign → ∀ k ∈ kids', k.node.kind ≠ .left := fun e k hk => by
    obtain ⟨a, b, c⟩ := hm k hk
    exact c.notLeft (hn.noLeft e a b)
  have hn' : GN n kids' := by
    refine ⟨fun e => ?_, hnl, fun e => ?_, hn.op, hn.unlinked, hn.plain⟩
    · obtain ⟨l, r, rfl, hl, hr⟩ := hn.sides e
      have h0 := ho.sides e
      rcases h with _ | ⟨s1, _ | ⟨s2, _ | _⟩⟩
      rw [List.forall_mem_cons, List.forall_mem_singleton] at h0
      refine ⟨_, _, rfl, ?_, ?_⟩
      · obtain ⟨h1, h2⟩ := s1.side h0.1 (by rcases hl with h | ⟨h, -⟩ <;> simp [h])
        rw [h1]
        refine hl.imp_right fun h => ⟨h.1, ?_⟩
        rw [h.2] at h2
        exact List.eq_nil_of_length_eq_zero h2
      · obtain ⟨h1, -⟩ := s2.side h0.2 (by rcases hr with h | h <;> simp [h])
        rw [h1]; exact hr
    · rw [← h.length_eq]; exact hn.one e
  have keep : Called (.mk n ops kids) (.mk n ops kids') :=
    ⟨.mk hg hn', fun e => e, fun _ _ => ⟨rfl, h.length_eq.symm⟩, fun e => e.elim Or.inl fun e => Or.inr (Or.inl e)⟩
  unfold callNode
  split
  · rename_i k
    rw [List.forall_mem_singleton] at hg
    cases hu : unName n.kind with
    | some f =>
      have ha : n.kind ≠ .assign := by rintro e; rw [e] at hu; cases hu
      have hl : n.kind ≠ .left := by rintro e; rw [e] at hu; cases hu
      have hop : n.op = none := by
        by_contra hc; exact ha (hn.op hc)
      have hex : k.node.kind = .expr ∨ k.node.kind = .returnVoid ∨ k.node.kind = .call := by
        obtain ⟨a, b, c⟩ := hm k (by simp)
        exact c.expr (ho.un (by rw [hu]; simp) a b)
      cases hg with
      | @mk kn ko kk g1 g2 =>
      have hka : kn.kind ≠ .assign := by
        have hex : kn.kind = .expr ∨ kn.kind = .returnVoid ∨ kn.kind = .call := hex
        rcases hex with e | e | e <;> rw [e] <;> simp
      refine ⟨.mk ?_ ⟨fun e => (by cases e), fun _ => ?_, fun e => (by cases e), fun e => absurd hop e, hn.unlinked,
        fun e => (by cases e)⟩, fun _ => (by simp [Tr.node]), fun _ e => ?_, fun e => Or.inr (Or.inr rfl)⟩
      · rw [List.forall_mem_singleton]
        refine .mk g1 ⟨fun e => (by cases e), fun _ => g2.noLeft hka, fun e => (by cases e), fun e => ?_, g2.unlinked,
          fun e => (by cases e)⟩
        exact absurd (g2.op e) hka
      · simp [Tr.asArg, Tr.node]
      · have e : n.kind = .left ∨ n.kind = .right ∨ n.kind = .returnVoid := e
        rcases e with e | e | e <;> rw [e] at hu <;> cases hu
    | none =>
      simp only
      split
      · rename_i hadd
        have ha : n.kind ≠ .assign := by rcases hadd with e | e <;> rw [e] <;> simp
        refine ⟨hg, fun _ => hnl ha k (by simp), fun _ e => ?_, fun e => ?_⟩
        · have e : n.kind = .left ∨ n.kind = .right ∨ n.kind = .returnVoid := e
          rcases e with e | e | e <;> rw [e] at hadd <;> simp at hadd
        · have e : n.kind = .expr ∨ n.kind = .returnVoid := e
          rcases e with e | e <;> rw [e] at hadd <;> simp at hadd
      · exact keep
  · rename_i l r
    split
    · have hs : n.kind.solid = false := by
        cases hs : n.kind.solid with
        | false => rfl
        | true => have := ho.ops hs; cases this
      have ha : n.kind ≠ .assign := by rintro e; rw [e] at hs; cases hs
      have hop : n.op = none := by
        by_contra hc; exact ha (hn.op hc)
      rw [List.forall_mem_cons, List.forall_mem_singleton] at hg
      have hnl := hnl ha
      rw [List.forall_mem_cons, List.forall_mem_singleton] at hnl
      have arg : ∀ k : Tr, GT k → k.node.kind ≠ .left → GT (.mk { kind := .callArg } [] [k]) := fun k g1 g2 =>
        .mk (by simpa using g1) ⟨fun e => (by cases e), fun _ => by simpa using g2, fun e => (by cases e),
          fun e => absurd rfl e, rfl, fun e => (by cases e)⟩
      refine ⟨.mk ?_ ⟨fun e => (by cases e), fun _ => ?_, fun e => (by cases e), fun e => absurd hop e, hn.unlinked,
        fun e => (by cases e)⟩, fun _ => (by simp [Tr.node]), fun e => (by cases e), fun e => Or.inr (Or.inr rfl)⟩
      · simpa using ⟨arg l hg.1 hnl.1, arg r hg.2 hnl.2⟩
      · simp [Tr.node]
    · exact keep
  · exact keep

mutual
theorem calls_gt : ∀ (t : Tr), GR t → Called t t.calls
  | .mk n ops kids, h => by
    cases h with
    | mk hk hn ho =>
    rw [Tr.calls]
    exact callNode_called hn ho (callsAll_gt kids hk)
theorem callsAll_gt : ∀ (ts : List Tr), (∀ t ∈ ts, GR t) → List.Forall₂ Called ts (callsAll ts)
  | [], _ => .nil
  | t :: ts, h => by
    rw [List.forall_mem_cons] at h
    rw [callsAll]
    exact .cons (calls_gt t h.1) (callsAll_gt ts h.2)
end

/-! ## Names -/

theorem wordItem_same {word : String} : ∀ {ts ts' : List Tr}, wordItem word ts = some ts' → (∀ t ∈ ts, GT t) →
    List.Forall₂ SameT ts ts' ∧ ∀ t ∈ ts', GT t
  | [], _, h, _ => by cases h
  | .mk n ops kids :: ts, ts', h, hg => by
    rw [wordItem] at h
    rw [List.forall_mem_cons] at hg
    have refl : ∀ ts : List Tr, List.Forall₂ SameT ts ts := fun ts => List.forall₂_same.2 fun t _ => ⟨rfl, fun e => e⟩
    split at h
    · cases h
      refine ⟨.cons ⟨?_, fun e => e⟩ (refl ts), ?_⟩
      · show Node.kind (ite _ _ _) = _
        split <;> rfl
      · rw [List.forall_mem_cons]
        refine ⟨?_, hg.2⟩
        cases hg.1 with
        | mk g1 g2 =>
        refine .mk g1 (g2.same (refl kids) ?_ ?_ ?_ ?_) <;> (split <;> rfl)
    · cases h1 : wordItem word ts with
      | none => rw [h1] at h; cases h
      | some ts1 =>
        rw [h1] at h
        cases h
        obtain ⟨h2, h3⟩ := wordItem_same h1 hg.2
        exact ⟨.cons ⟨rfl, fun e => e⟩ h2, List.forall_mem_cons.2 ⟨hg.1, h3⟩⟩

theorem mutNode_facts {n n' : Node} {kids : List Tr} (h : mutNode n kids = .ok n') : n'.kind = n.kind ∧ n'.op = n.op ∧
    n'.declaration = n.declaration ∧ n'.tryFlag = n.tryFlag := by
  unfold mutNode at h
  split at h
  · split at h
    · cases h
    · cases h; exact ⟨rfl, rfl, rfl, rfl⟩
  · cases h; exact ⟨rfl, rfl, rfl, rfl⟩

theorem nameNode_gt {n : Node} {ops : List BinOp} {kids : List Tr} {t : Tr} (hn : GN n kids) (hg : ∀ k ∈ kids, GT k)
    (h : nameNode n ops kids = .ok t) : GT t ∧ SameT (.mk n ops kids) t := by
  have refl : ∀ ts : List Tr, List.Forall₂ SameT ts ts := fun ts => List.forall₂_same.2 fun t _ => ⟨rfl, fun e => e⟩
  unfold nameNode at h
  split at h
  · cases h1 : mutNode n kids with
    | error e => rw [h1] at h; cases h
    | ok n' =>
      rw [h1] at h
      cases h
      obtain ⟨a, b, c, d⟩ := mutNode_facts h1
      exact ⟨.mk hg (hn.same (refl kids) a b c d), a, fun e => e⟩
  · split at h
    · cases hname : n.name with
      | none =>
        rw [hname] at h
        cases h1 : mutNode n kids with
        | error e => simp only [bind, Except.bind, h1] at h; cases h
        | ok n' =>
          simp only [bind, Except.bind, h1] at h
          cases h
          obtain ⟨a, b, c, d⟩ := mutNode_facts h1
          exact ⟨.mk hg (hn.same (refl kids) a b c d), a, fun e => e⟩
      | some word =>
        rw [hname] at h
        cases h2 : wordItem word kids with
        | none => simp only [bind, Except.bind, h2] at h; cases h
        | some kids1 =>
          obtain ⟨g1, g2⟩ := wordItem_same h2 hg
          cases h1 : mutNode n kids1 with
          | error e => simp only [bind, Except.bind, h2, h1] at h; cases h
          | ok n' =>
            simp only [bind, Except.bind, h2, h1] at h
            cases h
            obtain ⟨a, b, c, d⟩ := mutNode_facts h1
            refine ⟨.mk g2 (hn.same g1 a b c d), a, fun e => ?_⟩
            have e : kids = [] := e
            subst e
            cases g1
            rfl
    · cases h
      exact ⟨.mk hg hn, rfl, fun e => e⟩

mutual
theorem named_gt : ∀ (t : Tr) {t' : Tr}, GT t → t.named = .ok t' → GT t' ∧ SameT t t'
  | .mk n ops kids, t', hg, h => by
    rw [Tr.named] at h
    cases hg with
    | mk hk hn =>
    cases h1 : namedAll kids with
    | error e => rw [h1] at h; cases h
    | ok kids' =>
      rw [h1] at h
      obtain ⟨h2, h3⟩ := namedAll_gt kids hk h1
      obtain ⟨h4, h5⟩ := nameNode_gt (hn.same h3 rfl rfl rfl rfl) h2 h
      refine ⟨h4, h5.1, fun e => h5.2 ?_⟩
      have e : kids = [] := e
      subst e
      cases h3
      rfl
theorem namedAll_gt : ∀ (ts : List Tr) {ts' : List Tr}, (∀ t ∈ ts, GT t) → namedAll ts = .ok ts' →
    (∀ t ∈ ts', GT t) ∧ List.Forall₂ SameT ts ts'
  | [], ts', _, h => by
    rw [namedAll] at h
    cases h
    exact ⟨by simp, .nil⟩
  | t :: ts, ts', hg, h => by
    rw [namedAll] at h
    rw [List.forall_mem_cons] at hg
    cases h1 : t.named with
    | error e => rw [h1] at h; cases h
    | ok t1 =>
      rw [h1] at h
      cases h2 : namedAll ts with
      | error e => simp only [bind, Except.bind, h2] at h; cases h
      | ok ts1 =>
        simp only [bind, Except.bind, h2] at h
        cases h
        obtain ⟨a, b⟩ := named_gt t hg.1 h1
        obtain ⟨c, d⟩ := namedAll_gt ts hg.2 h2
        exact ⟨List.forall_mem_cons.2 ⟨a, c⟩, .cons b d⟩
end

/-- The trees of a file. -/
theorem built_gt [FloatOps] [Data.Lex] {cs : List Cst} {ts : List Tr} (hw : ∀ c ∈ cs, noLeft c = true ∧ wf c)
    (hp : ∀ c ∈ cs, PlainLeft c) (h : built cs = .ok ts) : ∀ t ∈ ts, GT t ∧ t.node.kind ≠ .left := by
  unfold built at h
  cases h1 : rawFile cs with
  | error e => rw [h1] at h; cases h
  | ok rs =>
    rw [h1] at h
    replace h : namedAll (callsAll (nests rs)) = .ok ts := h
    have h2 := rawFile_gr hw hp h1
    have h3 := nested_mem (nests_gr rs fun t ht => (h2 t ht).1)
    have h4 : ∀ t ∈ nests rs, GR t ∧ t.node.kind ≠ .left := fun t ht => by
      obtain ⟨a, b, c⟩ := h3.1 t ht
      exact ⟨c.good, by rw [c.same.1]; exact (h2 a b).2⟩
    have h5 := called_mem (callsAll_gt (nests rs) fun t ht => (h4 t ht).1)
    have h6 : ∀ t ∈ callsAll (nests rs), GT t ∧ t.node.kind ≠ .left := fun t ht => by
      obtain ⟨a, b, c⟩ := h5 t ht
      exact ⟨c.good, c.notLeft (h4 a b).2⟩
    obtain ⟨h7, h8⟩ := namedAll_gt _ (fun t ht => (h6 t ht).1) h
    have h9 : ∀ t ∈ ts, t.node.kind ≠ .left := by
      have : ∀ t ∈ callsAll (nests rs), t.node.kind ≠ .left := fun t ht => (h6 t ht).2
      clear h h7 h6 h5 h4 h3
      generalize callsAll (nests rs) = us at this h8
      induction h8 with
      | nil => simp
      | cons hs _ ih =>
        rw [List.forall_mem_cons] at this ⊢
        exact ⟨by rw [hs.1]; exact this.1, ih this.2⟩
    exact fun t ht => ⟨h7 t ht, h9 t ht⟩

/-! ## The arena -/

theorem LaidAll.left {ns : Nodes} {p : Nat} : ∀ {cs : List Nat} {ts : List Tr}, LaidAll ns p cs ts →
    cs.length = ts.length ∧ ∀ c ∈ cs, ∃ t ∈ ts, Laid ns (some p) c t ∧ p < c
  | _, _, .nil => ⟨rfl, by simp⟩
  | _, _, .cons h1 h2 h3 h4 => by
    obtain ⟨a, b⟩ := h4.left
    refine ⟨by simp [a], ?_⟩
    rw [List.forall_mem_cons]
    refine ⟨⟨_, List.mem_cons_self, h3, h1⟩, fun c hc => ?_⟩
    obtain ⟨t, x, y⟩ := b c hc
    exact ⟨t, List.mem_cons_of_mem _ x, y⟩

theorem Roots.each {ns : Nodes} : ∀ {is : List Nat} {ts : List Tr}, Roots ns is ts →
    ∀ i ∈ is, ∃ t ∈ ts, Laid ns none i t
  | _, _, .nil, i, h => by cases h
  | _, _, .cons _ h1 h2, i, h => by
    rcases List.mem_cons.1 h with rfl | h
    · exact ⟨_, List.mem_cons_self, h1⟩
    · obtain ⟨t, a, b⟩ := h2.each i h
      exact ⟨t, List.mem_cons_of_mem _ a, b⟩

theorem Laid.at' {ns : Nodes} {p : Option Nat} {i : Nat} {t : Tr} (h : Laid ns p i t) :
    (ns.at i).kind = t.node.kind ∧ (ns.at i).parent = p ∧ (ns.at i).op = t.node.op ∧
    (ns.at i).declaration = t.node.declaration ∧ (ns.at i).tryFlag = t.node.tryFlag ∧
    LaidAll ns i (ns.at i).children t.kids := by
  cases h with
  | mk h1 h2 => rw [h1]; exact ⟨rfl, rfl, rfl, rfl, rfl, h2⟩

theorem below_gt {ns : Nodes} {ts : List Tr} {is : List Nat} (hr : Roots ns is ts)
    (hg : ∀ t ∈ ts, GT t ∧ t.node.kind ≠ .left) {i : Nat} (h : Below ns is i) :
    ∃ p t, Laid ns p i t ∧ GT t ∧ (t.node.kind = .left → ∃ a, p = some a ∧ (ns.at a).kind = .assign) := by
  induction h with
  | @root i h =>
    obtain ⟨t, a, b⟩ := hr.each i h
    exact ⟨_, t, b, (hg t a).1, fun e => absurd e (hg t a).2⟩
  | @child p c _ hc ih =>
    obtain ⟨q, t, h1, h2, -⟩ := ih
    obtain ⟨k1, -, -, -, -, h3⟩ := h1.at'
    obtain ⟨k, a, b, -⟩ := h3.left.2 c hc
    cases h2 with
    | mk g1 g2 =>
    refine ⟨_, k, b, g1 k a, fun e => ⟨p, rfl, ?_⟩⟩
    by_contra hcon
    rw [k1] at hcon
    exact g2.noLeft hcon k a e

theorem at_default {ns : Nodes} {i : Nat} (h : ns.length ≤ i) : ns.at i = default := by
  simp [Nodes.at, List.getElem?_eq_none h]

/-- What an arena holds. -/
theorem grammar_of {ns : Nodes} {ts : List Tr} (ha : Arranged ns ts)
    (hg : ∀ t ∈ ts, GT t ∧ t.node.kind ≠ .left) : Grammar ns ∧ NoTry ns := by
  obtain ⟨⟨is, hr, hall⟩, hback, hpar⟩ := ha
  have key : ∀ i, (∃ p t, Laid ns p i t ∧ GT t ∧ (t.node.kind = .left → ∃ a, p = some a ∧ (ns.at a).kind = .assign)) ∨
      Dropped (ns.at i) ∨ ns.at i = default := by
    intro i
    by_cases hi : i < ns.length
    · exact (hall i hi).imp (below_gt hr hg) Or.inl
    · exact Or.inr (Or.inr (at_default (Nat.not_lt.1 hi)))
  have sp : ∀ i k, (ns.at i).kind = k → k = .assign ∨ k = .left →
      ∃ p t, Laid ns p i t ∧ GT t ∧ (t.node.kind = .left → ∃ a, p = some a ∧ (ns.at a).kind = .assign) := by
    intro i k hk hk'
    rcases key i with h | h | h
    · exact h
    · exfalso
      rcases h.kind with e | e <;> rw [hk] at e <;> rw [e] at hk' <;> simp at hk'
    · exfalso
      rw [h] at hk
      rw [← hk] at hk'
      rcases hk' with e | e <;> cases e
  have hforest : Forest ns := hpar
  refine ⟨⟨fun i c hc => ?_, hforest, fun a e => ?_, fun l e => ?_, fun l e => ?_, fun a e => ?_, fun a => ?_⟩,
    fun l e => ?_⟩
  · have h1 := hback i c hc
    refine ⟨h1, (hforest c i h1).1, ?_⟩
    by_contra hcon
    rw [at_default (Nat.not_lt.1 hcon)] at h1
    cases h1
  · obtain ⟨p, t, h1, h2, -⟩ := sp a _ e (by simp)
    obtain ⟨k1, -, -, -, -, h3⟩ := h1.at'
    cases h2 with
    | mk g1 g2 =>
    obtain ⟨l, r, hk, hl, hr⟩ := g2.sides (k1.symm.trans e)
    rw [Tr.kids, hk] at h3
    cases hcs : (ns.at a).children with
    | nil => rw [hcs] at h3; cases h3
    | cons c cs =>
      rw [hcs] at h3
      cases h3 with
      | cons a1 a2 a3 a4 =>
      cases cs with
      | nil => cases a4
      | cons d ds =>
        cases a4 with
        | cons b1 b2 b3 b4 =>
        cases ds with
        | cons _ _ => cases b4
        | nil =>
          obtain ⟨kl, -, -, -, -, hl'⟩ := a3.at'
          obtain ⟨kr, -, -, -, -, -⟩ := b3.at'
          refine ⟨c, d, rfl, ?_, by rw [kr]; exact hr⟩
          rw [kl]
          refine hl.imp_right fun h => ⟨h.1, ?_⟩
          rw [h.2] at hl'
          exact List.eq_nil_of_length_eq_zero hl'.left.1
  · obtain ⟨p, t, h1, -, h2⟩ := sp l _ e (by simp)
    obtain ⟨k1, k2, -⟩ := h1.at'
    obtain ⟨a, rfl, h3⟩ := h2 (k1.symm.trans e)
    exact ⟨a, k2, h3⟩
  · obtain ⟨p, t, h1, h2, -⟩ := sp l _ e (by simp)
    obtain ⟨k1, -, -, -, -, h3⟩ := h1.at'
    rw [h3.left.1]
    cases h2 with
    | mk g1 g2 => exact g2.one (k1.symm.trans e)
  · rcases key a with ⟨p, t, h1, h2, -⟩ | h | h
    · obtain ⟨k1, -, k3, -⟩ := h1.at'
      rw [k1]
      cases h2 with
      | mk g1 g2 => exact g2.op (by rw [k3] at e; exact e)
    · exact absurd h.op e
    · rw [h] at e; exact absurd rfl e
  · rcases key a with ⟨p, t, h1, h2, -⟩ | h | h
    · obtain ⟨-, -, -, k4, -⟩ := h1.at'
      rw [k4]
      cases h2 with
      | mk g1 g2 => exact g2.unlinked
    · exact h.declaration
    · rw [h]; rfl
  · obtain ⟨p, t, h1, h2, -⟩ := sp l _ e (by simp)
    obtain ⟨k1, -, -, -, k5, -⟩ := h1.at'
    rw [k5]
    cases h2 with
    | mk g1 g2 => exact g2.plain (k1.symm.trans e)

end Dyon.Check
