import Verif.Check.Build
import Verif.Check.Text
import Verif.Check.ResolveProps

/-!
# Scopes of a tree of nodes

Lemmas for C69: linking the items of an arena succeeds exactly if every item of the tree that is
arranged in it sees a declaration.
-/

namespace Dyon.Check

open Spec

theorem seen_vars (x : String) (g : Nat) (r : List Bind) : ∀ vs : List String,
    seen x g (vs.map .var ++ r) = if x ∈ vs then decide (g = 0) else seen x g r
  | [] => by simp
  | v :: vs => by
    simp only [List.map_cons, List.cons_append, seen, List.mem_cons]
    rw [seen_vars x g r vs]
    by_cases h : x = v
    · simp [h]
    · simp [h]

/-! ## In the arena -/

/-- The name that the statement `j` declares. -/
def Nodes.declOf (ns : Nodes) (j : Nat) : Option String :=
  (ns.stmtItem j).bind fun it => if (ns.at it).itemIds then none else (ns.at it).name

theorem stmtDecl_isSome (ns : Nodes) (x : String) (j : Nat) :
    (ns.stmtDecl x j).isSome = true ↔ ns.declOf j = some x := by
  unfold Nodes.stmtDecl Nodes.declOf
  cases ns.stmtItem j with
  | none => simp
  | some it =>
    simp only [Option.bind_some]
    by_cases h1 : (ns.at it).name = some x
    · cases h2 : (ns.at it).itemIds <;> simp [h1]
    · cases h2 : (ns.at it).itemIds <;> simp [h1]

/-- What a loop declares. -/
def Node.loopBind (n : Node) : List Bind :=
  if n.kind.isDeclLoop || n.kind.isDeclUnLoop || n.kind.isInLoop then [.loop n.names] else []

theorem seen_loop (n : Node) (x : String) (g : Nat) (r : List Bind) :
    seen x g (n.loopBind ++ r) = (n.bindsLoop x || seen x g r) := by
  unfold Node.loopBind Node.bindsLoop
  cases (n.kind.isDeclLoop || n.kind.isDeclUnLoop || n.kind.isInLoop) <;> simp [seen]

/-- Names of arguments and current objects. -/
def Nodes.params (ns : Nodes) (f : Nat) : List String :=
  (ns.at f).children.filterMap fun j =>
    if (ns.at j).kind = .arg || (ns.at j).kind = .current then (ns.at j).name else none

theorem param_isSome (ns : Nodes) (x : String) (f : Nat) :
    (ns.param x f).isSome = (ns.params f).contains x := by
  unfold Nodes.param Nodes.params
  rw [Bool.eq_iff_iff]
  simp only [List.find?_isSome, List.contains_eq_mem, decide_eq_true_eq, List.mem_filterMap,
    Bool.and_eq_true, Bool.or_eq_true]
  constructor
  · rintro ⟨j, hj, hk, hn⟩
    exact ⟨j, hj, by rw [if_pos hk, hn]⟩
  · rintro ⟨j, hj, h⟩
    split at h
    · rename_i hk
      exact ⟨j, hj, hk, h⟩
    · cases h

/-- What the parent `p` of `c` declares for `c`. -/
def Nodes.inside (ns : Nodes) (p c : Nat) : List Bind :=
  (ns.at p).loopBind ++ (((ns.at p).children.takeWhile (· ≠ c)).filterMap ns.declOf).reverse.map .var

/-- What is passed when `q` is reached from inside. -/
def Nodes.enter (ns : Nodes) (q : Nat) : List Bind :=
  if (ns.at q).kind = .grab then [.grab (if (ns.at q).grabLevel = 0 then 1 else (ns.at q).grabLevel)]
  else if (ns.at q).kind = .closure then [.closure (ns.params q)] else []

/-- What is at the root. -/
def Nodes.top (ns : Nodes) (p : Nat) : List Bind :=
  if (ns.at p).kind = .fn ∨ (ns.at p).kind = .closure then [.fn (ns.params p)] else []

/-- The scope of the node `c`. -/
def Nodes.scope (ns : Nodes) (c : Nat) : List Bind :=
  match (ns.at c).parent with
  | none => []
  | some p => if p < c then ns.inside p c ++ (match (ns.at p).parent with
      | none => ns.top p
      | some q => ns.enter q ++ ns.scope p) else []
termination_by c

/-- Whether a search ends with a declaration. -/
def Nodes.ends (ns : Nodes) (x : String) : Search → Bool
  | .found _ => true
  | .err _ => false
  | .top t => ((ns.at t).kind = .fn || (ns.at t).kind = .closure) && (ns.param x t).isSome

theorem scope_step {ns : Nodes} (hf : Forest ns) {c p : Nat} (h : (ns.at c).parent = some p) :
    ns.scope c = ns.inside p c ++ (match (ns.at p).parent with
      | none => ns.top p
      | some q => ns.enter q ++ ns.scope p) := by
  rw [Nodes.scope, h]
  simp only [(hf c p h).1, if_true]

theorem localBefore_isSome (ns : Nodes) (x : String) (p c : Nat) :
    (ns.localBefore x p c).isSome = true ↔
      x ∈ ((ns.at p).children.takeWhile (· ≠ c)).filterMap ns.declOf := by
  unfold Nodes.localBefore
  rw [List.findSome?_isSome_iff]
  simp only [List.mem_reverse, stmtDecl_isSome, List.mem_filterMap]

theorem search_seen {ns : Nodes} (hf : Forest ns) (i : Nat) (x : String) (c p g : Nat)
    (h : (ns.at c).parent = some p) :
    ns.ends x (ns.search i x c p g) = seen x g (ns.scope c) := by
  rw [scope_step hf h, Nodes.search]
  unfold Nodes.inside
  rw [List.append_assoc, seen_loop, seen_vars]
  simp only [List.mem_reverse]
  by_cases hl : (ns.at p).bindsLoop x = true
  · simp [hl, Nodes.ends]
  · simp only [hl, Bool.false_or, if_false, Bool.false_eq_true]
    have hc : (ns.at p).children.contains c = true := by
      simpa using (hf c p h).2
    simp only [hc, Bool.not_true, Bool.false_eq_true, if_false]
    cases hb : ns.localBefore x p c with
    | some it =>
      have := (localBefore_isSome ns x p c).1 (by rw [hb]; rfl)
      simp only [this, if_true]
      by_cases hg : g = 0
      · simp [hg, Nodes.ends]
      · simp [hg, Nat.pos_of_ne_zero hg, Nodes.ends]
    | none =>
      have : x ∉ ((ns.at p).children.takeWhile (· ≠ c)).filterMap ns.declOf := by
        rw [← localBefore_isSome, hb]; simp
      simp only [this, if_false]
      cases hp : (ns.at p).parent with
      | none =>
        simp only [Nodes.ends, Nodes.top, param_isSome]
        by_cases h1 : (ns.at p).kind = .fn ∨ (ns.at p).kind = .closure
        · have h2 : (decide ((ns.at p).kind = .fn) || decide ((ns.at p).kind = .closure)) = true := by
            simpa using h1
          simp [h1, seen]
        · have h2 : (decide ((ns.at p).kind = .fn) || decide ((ns.at p).kind = .closure)) = false := by
            simpa using h1
          simp [h1, h2, seen]
      | some q =>
        have hq := (hf p q hp).1
        simp only [hq, if_true]
        by_cases hk : (ns.at q).kind = .closure
        · have hg : (ns.at q).grabs g = g := by simp [Node.grabs, hk]
          simp only [hk, if_true, hg, Nodes.enter, reduceCtorEq, if_false, List.cons_append,
            List.nil_append, seen]
          by_cases h0 : g = 0
          · simp [h0, Nodes.ends, hk, param_isSome]
          · simp only [h0, if_false]
            rw [← param_isSome]
            by_cases h1 : (ns.param x q).isSome = true
            · simp [h1, Nodes.ends]
            · have ih := search_seen hf i x p q (g - 1) hp
              simp [h1, ih]
        · simp only [hk, if_false]
          rw [search_seen hf i x p q _ hp]
          unfold Nodes.enter Node.grabs
          by_cases h1 : (ns.at q).kind = .grab
          · simp [h1, seen]
          · simp [h1, hk]
termination_by p
decreasing_by all_goals exact hq

/-- An item with this name is linked if it sees a declaration. -/
theorem resolve_seen {ns : Nodes} (hf : Forest ns) {i p : Nat} {x : String}
    (hx : (ns.at i).name = some x) (hp : (ns.at i).parent = some p) :
    (∃ r, ns.resolve i = .ok r) ↔ x = "return" ∨ seen x 0 (ns.scope i) = true := by
  unfold Nodes.resolve
  rw [hx]
  simp only
  by_cases hr : x = "return"
  · simp [hr]
  · simp only [hr, if_false, false_or, hp]
    rw [← search_seen hf i x i p 0 hp]
    cases ns.search i x i p 0 with
    | found j => simp [Nodes.ends]
    | err e => simp [Nodes.ends]
    | top t =>
      simp only [Nodes.ends]
      by_cases h1 : (ns.at t).kind ≠ .fn ∧ (ns.at t).kind ≠ .closure
      · simp [h1]
      · have h2 : (decide ((ns.at t).kind = .fn) || decide ((ns.at t).kind = .closure)) = true := by
          by_contra h
          exact h1 (by simpa using h)
        simp only [h1, if_false, h2, Bool.true_and]
        cases ns.param x t <;> simp

/-! ## In the tree -/

/-- The node is an item with properties. -/
def Tr.itemIds (t : Tr) : Bool := t.node.kind = .item && !t.kids.isEmpty

/-- The name that a statement declares. -/
def Tr.decl (t : Tr) : Option String := do
  let a ← t.kids.head?
  if a.node.op = some .assign then
    let l ← a.kids.head?
    let it ← l.kids.head?
    if it.itemIds then none else it.node.name
  else none

/-- Names of arguments and current objects. -/
def paramsOf (kids : List Tr) : List String :=
  kids.filterMap fun t =>
    if t.node.kind = .arg || t.node.kind = .current then t.node.name else none

/-- What is passed when a node is reached from inside. -/
def enterOf (n : Node) (kids : List Tr) : List Bind :=
  if n.kind = .grab then [.grab (if n.grabLevel = 0 then 1 else n.grabLevel)]
  else if n.kind = .closure then [.closure (paramsOf kids)] else []

/-- What is at the root. -/
def topOf (t : Tr) : List Bind :=
  if t.node.kind = .fn ∨ t.node.kind = .closure then [.fn (paramsOf t.kids)] else []

mutual
/-- Every item of the tree sees a declaration: `D` is the scope of the node, `E` is what is passed
when its parent is reached, `l` is whether the node is the left side of a `:=`, `it` whether it is
the first child of one. -/
def Tr.ok (D E : List Bind) (l it : Bool) : Tr → Prop
  | .mk n _ kids =>
    (n.kind = .item → ¬ (it = true ∧ kids = []) →
      ∃ x, n.name = some x ∧ (x = "return" ∨ seen x 0 D = true)) ∧
    oks n (E ++ D) (enterOf n kids) [] (decide (n.op = some .assign)) l kids
/-- The same for the children of a node. -/
def oks (n : Node) (R E : List Bind) (before : List String) (l it : Bool) : List Tr → Prop
  | [] => True
  | t :: ts => t.ok (n.loopBind ++ (before.map .var ++ R)) E l it ∧
      oks n R E (t.decl.toList ++ before) false false ts
end

/-- Every item of a file sees a declaration. -/
def fileOk (ts : List Tr) : Prop := ∀ t ∈ ts, t.node.kind ≠ .item ∧ t.ok (topOf t) [] false false

theorem Laid.at {ns : Nodes} {p : Option Nat} {i : Nat} {t : Tr} (h : Laid ns p i t) :
    ∃ cs, ns.at i = { t.node with parent := p, children := cs } ∧ LaidAll ns i cs t.kids := by
  cases h with
  | mk h1 h2 => exact ⟨_, h1, h2⟩

theorem LaidAll.head {ns : Nodes} {p : Nat} {cs : List Nat} {ts : List Tr} (h : LaidAll ns p cs ts) :
    (cs = [] ∧ ts = []) ∨ ∃ c cs' t ts', cs = c :: cs' ∧ ts = t :: ts' ∧ Laid ns (some p) c t := by
  cases h with
  | nil => exact Or.inl ⟨rfl, rfl⟩
  | cons _ _ h _ => exact Or.inr ⟨_, _, _, _, rfl, rfl, h⟩

theorem Laid.itemIds {ns : Nodes} {p : Option Nat} {i : Nat} {t : Tr} (h : Laid ns p i t) :
    (ns.at i).itemIds = t.itemIds := by
  obtain ⟨cs, h1, h2⟩ := h.at
  simp only [Node.itemIds, Tr.itemIds, h1]
  rcases h2.head with ⟨rfl, h⟩ | ⟨_, _, _, _, rfl, h, _⟩ <;> simp [h]

theorem Laid.name {ns : Nodes} {p : Option Nat} {i : Nat} {t : Tr} (h : Laid ns p i t) :
    (ns.at i).name = t.node.name := by
  obtain ⟨cs, h1, h2⟩ := h.at
  rw [h1]; rfl

theorem Laid.kind {ns : Nodes} {p : Option Nat} {i : Nat} {t : Tr} (h : Laid ns p i t) :
    (ns.at i).kind = t.node.kind := by
  obtain ⟨cs, h1, h2⟩ := h.at
  rw [h1]

theorem Laid.declOf {ns : Nodes} {p : Option Nat} {i : Nat} {t : Tr} (h : Laid ns p i t) :
    ns.declOf i = t.decl := by
  obtain ⟨cs, h1, h2⟩ := h.at
  unfold Nodes.declOf Nodes.stmtItem Tr.decl
  rw [h1]
  rcases h2.head with ⟨rfl, h⟩ | ⟨a, _, ta, _, rfl, h, ha⟩
  · simp [h]
  · obtain ⟨cs', h3, h4⟩ := ha.at
    simp only [h, List.head?_cons, h3, Option.bind_eq_bind, Option.bind_some]
    by_cases ho : ta.node.op = some .assign
    · simp only [ho, if_true]
      rcases h4.head with ⟨rfl, h⟩ | ⟨l, _, tl, _, rfl, h, hl⟩
      · simp [h]
      · obtain ⟨cs'', h5, h6⟩ := hl.at
        simp only [h, List.head?_cons, h5, Option.bind_some]
        rcases h6.head with ⟨rfl, h⟩ | ⟨it, _, ti, _, rfl, h, hi⟩
        · simp [h]
        · simp only [h, List.head?_cons, Option.bind_some, hi.itemIds, hi.name]
    · simp [ho]

theorem LaidAll.params {ns : Nodes} {p : Nat} : ∀ {ts : List Tr} {cs : List Nat}, LaidAll ns p cs ts →
    cs.filterMap (fun j => if (ns.at j).kind = .arg || (ns.at j).kind = .current then
      (ns.at j).name else none) = paramsOf ts
  | [], _, h => by cases h; rfl
  | t :: ts, _, h => by
    cases h with
    | cons _ _ h1 h2 =>
      have ih := LaidAll.params h2
      unfold paramsOf at ih ⊢
      simp only [List.filterMap_cons, h1.kind, h1.name, ih]

theorem Laid.enter {ns : Nodes} {p : Option Nat} {i : Nat} {t : Tr} (h : Laid ns p i t) :
    ns.enter i = enterOf t.node t.kids := by
  obtain ⟨cs, h1, h2⟩ := h.at
  have hp := h2.params
  unfold Nodes.enter enterOf Nodes.params
  rw [h1]
  simp only [hp]

theorem Laid.top {ns : Nodes} {p : Option Nat} {i : Nat} {t : Tr} (h : Laid ns p i t) :
    ns.top i = topOf t := by
  obtain ⟨cs, h1, h2⟩ := h.at
  have hp := h2.params
  unfold Nodes.top topOf Nodes.params
  rw [h1]
  simp only [hp]

/-- The node is the left side of a `:=`. -/
def LeftOf (ns : Nodes) (i : Nat) : Prop :=
  ∃ a, (ns.at a).op = some .assign ∧ (ns.at a).children.head? = some i

/-- The node is the first child of the left side of a `:=`. -/
def FirstOfLeft (ns : Nodes) (i : Nat) : Prop :=
  ∃ l, LeftOf ns l ∧ (ns.at l).children.head? = some i

/-- The node is not an item without declaration. -/
def ItemOk (ns : Nodes) (j : Nat) : Prop :=
  (ns.at j).kind = .item → ¬ (FirstOfLeft ns j ∧ (ns.at j).children = []) →
    ∃ x, (ns.at j).name = some x ∧ (x = "return" ∨ seen x 0 (ns.scope j) = true)

/-- The node `j` is `i` or below it. -/
inductive Under (ns : Nodes) (j : Nat) : Nat → Prop
  | self : Under ns j j
  | child {i c} : c ∈ (ns.at i).children → Under ns j c → Under ns j i

theorem head_parent {ns : Nodes} (hb : ∀ p c, c ∈ (ns.at p).children → (ns.at c).parent = some p)
    {p a c : Nat} (hp : (ns.at c).parent = some p) (h : (ns.at a).children.head? = some c) : a = p := by
  have := hb a c (List.mem_of_mem_head? (by rw [h]; rfl))
  rw [hp] at this
  cases this
  rfl

mutual
theorem Laid.ok {ns : Nodes} (hf : Forest ns)
    (hb : ∀ p c, c ∈ (ns.at p).children → (ns.at c).parent = some p) : ∀ {t : Tr} {p i : Nat}
    {D E : List Bind} {l it : Bool}, Laid ns (some p) i t → ns.scope i = D → ns.enter p = E →
    (l = true ↔ LeftOf ns i) → (it = true ↔ FirstOfLeft ns i) →
    (t.ok D E l it ↔ ∀ j, Under ns j i → ItemOk ns j)
  | .mk n ops kids, p, i, D, E, l, it, h, hD, hE, hl, hit => by
    have hent := h.enter
    cases h with
    | mk h1 h2 =>
      have hn : (ns.at i).parent = some p := by rw [h1]
      have := LaidAll.ok hf hb (R := E ++ D) (E := enterOf n kids) (n := n) h2 [] []
        (decide (n.op = some .assign)) l (by rw [h1]; rfl) (by simp) rfl (by simp)
        (fun _ c hc => ?_) (by rw [h1]; exact ⟨rfl, rfl⟩) (fun c hc => ?_) hent
      · rw [Tr.ok, this]
        constructor
        · rintro ⟨h3, h4⟩ j hj
          cases hj with
          | self =>
            intro hk hnd
            obtain ⟨x, hx, hs⟩ := h3 (by rw [h1] at hk; exact hk) (fun ⟨ha, hb⟩ => hnd ⟨hit.1 ha, by
              rw [h1]
              subst hb
              cases h2
              rfl⟩)
            refine ⟨x, by rw [h1]; exact hx, ?_⟩
            rw [hD]; exact hs
          | child hc hj =>
            rw [h1] at hc
            exact h4 _ hc j hj
        · intro h3
          refine ⟨fun hk hnd => ?_, fun c hc j hj => h3 j (.child (by rw [h1]; exact hc) hj)⟩
          obtain ⟨x, hx, hs⟩ := h3 i .self (by rw [h1]; exact hk) (fun ⟨ha, hb⟩ => hnd ⟨hit.2 ha, by
            rw [h1] at hb
            subst hb
            cases h2
            rfl⟩)
          rw [h1] at hx
          rw [hD] at hs
          exact ⟨x, hx, hs⟩
      · constructor
        · rw [decide_eq_true_eq]
          constructor
          · intro ho
            exact ⟨i, by rw [h1]; exact ho, by rw [h1]; exact hc⟩
          · rintro ⟨a, ho, ha⟩
            have hpc : (ns.at c).parent = some i := hb i c (by
              rw [h1]; exact List.mem_of_mem_head? (by rw [hc]; rfl))
            have := head_parent hb hpc ha
            subst this
            rw [h1] at ho
            exact ho
        · rw [hl]
          constructor
          · intro ho
            exact ⟨i, ho, by rw [h1]; exact hc⟩
          · rintro ⟨a, ho, ha⟩
            have hpc : (ns.at c).parent = some i := hb i c (by
              rw [h1]; exact List.mem_of_mem_head? (by rw [hc]; rfl))
            have := head_parent hb hpc ha
            subst this
            exact ho
      · rw [scope_step hf hc, hn]
        simp only [hE, hD]
theorem LaidAll.ok {ns : Nodes} (hf : Forest ns)
    (hb : ∀ p c, c ∈ (ns.at p).children → (ns.at c).parent = some p) {i : Nat} {n : Node}
    {R E : List Bind} : ∀ {kids : List Tr} {cs : List Nat}, LaidAll ns i cs kids →
    ∀ (pre : List Nat) (before : List String) (l it : Bool), (ns.at i).children = pre ++ cs →
    (∀ a ∈ pre, ∀ c ∈ cs, a < c) → (pre.filterMap ns.declOf).reverse = before →
    (pre ≠ [] → l = false ∧ it = false) →
    (pre = [] → ∀ c, cs.head? = some c → (l = true ↔ LeftOf ns c) ∧ (it = true ↔ FirstOfLeft ns c)) →
    ((ns.at i).kind = n.kind ∧ (ns.at i).names = n.names) →
    (∀ c, (ns.at c).parent = some i → ns.scope c = ns.inside i c ++ R) → ns.enter i = E →
    (oks n R E before l it kids ↔ ∀ c ∈ cs, ∀ j, Under ns j c → ItemOk ns j)
  | [], _, h, pre, before, l, it, h1, h2, h3, h4, h5, h6, h7, h8 => by
    cases h
    simp [oks]
  | t :: ts, _, h, pre, before, l, it, h1, h2, h3, h4, h5, h6, h7, h8 => by
    cases h with
    | @cons _ c cs _ _ hlt hso hL hA =>
      have hpar : (ns.at c).parent = some i := by
        obtain ⟨_, h, _⟩ := hL.at
        rw [h]
      have hcpre : c ∉ pre := fun hm => absurd (h2 c hm c List.mem_cons_self) (by omega)
      have hscope : ns.scope c = n.loopBind ++ (before.map .var ++ R) := by
        rw [h7 c hpar, Nodes.inside, h1, takeWhile_split hcpre, h3, List.append_assoc]
        congr 1
        unfold Node.loopBind
        rw [h6.1, h6.2]
      have hflags : (l = true ↔ LeftOf ns c) ∧ (it = true ↔ FirstOfLeft ns c) := by
        by_cases hp : pre = []
        · exact h5 hp c rfl
        · obtain ⟨rfl, rfl⟩ := h4 hp
          have hno : ∀ a, (ns.at a).children.head? ≠ some c := by
            intro a ha
            have := head_parent hb hpar ha
            subst this
            rw [h1] at ha
            cases pre with
            | nil => exact hp rfl
            | cons b pre =>
              simp only [List.cons_append, List.head?_cons, Option.some.injEq] at ha
              exact hcpre (ha ▸ List.mem_cons_self)
          constructor
          · simp only [Bool.false_eq_true, false_iff]
            rintro ⟨a, _, ha⟩
            exact hno a ha
          · simp only [Bool.false_eq_true, false_iff]
            rintro ⟨a, _, ha⟩
            exact hno a ha
      have e1 := Laid.ok hf hb hL hscope h8 hflags.1 hflags.2
      have e2 := LaidAll.ok hf hb (n := n) (R := R) (E := E) hA (pre ++ [c]) (t.decl.toList ++ before)
        false false (by rw [h1]; simp) (by
          intro a ha c' hc'
          rcases List.mem_append.1 ha with ha | ha
          · exact h2 a ha c' (List.mem_cons_of_mem _ hc')
          · rw [List.mem_singleton] at ha
            subst ha
            exact hso c' hc') (by
          rw [List.filterMap_append, List.reverse_append, h3, List.filterMap_cons, hL.declOf]
          cases t.decl <;> simp) (by simp) (by simp) h6 h7 h8
      rw [oks, e1, e2]
      simp only [List.mem_cons, forall_eq_or_imp]
end

theorem items_iff {ns : Nodes} (i : Nat) : i ∈ ns.items ↔
    i < ns.length ∧ (ns.at i).kind = .item ∧ ¬ (FirstOfLeft ns i ∧ (ns.at i).children = []) := by
  simp only [Nodes.items, List.mem_filter, List.mem_range, Bool.and_eq_true, decide_eq_true_eq,
    Bool.not_eq_true', List.contains_eq_mem, decide_eq_false_iff_not]
  refine and_congr_right fun h1 => and_congr_right fun h2 => not_congr ?_
  simp only [Nodes.locals, List.mem_filterMap, List.mem_filter, List.mem_range]
  constructor
  · rintro ⟨a, ⟨ha, hd⟩, hl⟩
    rw [Option.filter_eq_some_iff] at hl
    obtain ⟨hl, hids⟩ := hl
    simp only [Nodes.isDeclare, Bool.and_eq_true, decide_eq_true_eq] at hd
    simp only [Nodes.leftItem] at hl
    cases hc : (ns.at a).children.head? with
    | none => rw [hc] at hl; cases hl
    | some l =>
      rw [hc] at hl
      exact ⟨⟨l, ⟨a, hd.1, hc⟩, hl⟩, by simpa [Node.itemIds, h2] using hids⟩
  · rintro ⟨⟨l, ⟨a, ho, hc⟩, hl⟩, hch⟩
    refine ⟨a, ⟨?_, ?_⟩, ?_⟩
    · by_contra hlt
      have : ns.at a = default := by
        simp [Nodes.at, List.getD_eq_getElem?_getD, List.getElem?_eq_none (by omega : ns.length ≤ a)]
      rw [this] at ho
      cases ho
    · simp only [Nodes.isDeclare, ho, hc, decide_true, Bool.true_and]
      cases hcl : (ns.at l).children with
      | nil => rw [hcl] at hl; cases hl
      | cons _ _ => rfl
    · rw [Option.filter_eq_some_iff]
      exact ⟨by simp [Nodes.leftItem, hc, hl], by simp [Node.itemIds, hch]⟩

theorem linkAll_iff (ns : Nodes) :
    (∃ ns', ns.linkAll = .ok ns') ↔ ∀ i ∈ ns.items, ∃ r, ns.resolve i = .ok r := by
  constructor
  · rintro ⟨ns', h⟩ i hi
    obtain ⟨_, _, h3⟩ := linkItems_ok (items_nodup ns) (items_lt ns) h
    obtain ⟨r, h4, _⟩ := h3 i hi
    exact ⟨r, h4⟩
  · intro h
    cases hr : ns.linkAll with
    | ok ns' => exact ⟨ns', rfl⟩
    | error e =>
      obtain ⟨i, hi, he⟩ := linkItems_error hr
      obtain ⟨r, h'⟩ := h i hi
      rw [h'] at he
      cases he

theorem Roots.mem {ns : Nodes} : ∀ {ts : List Tr} {is : List Nat}, Roots ns is ts →
    (∀ i ∈ is, ∃ t ∈ ts, Laid ns none i t) ∧ ∀ t ∈ ts, ∃ i ∈ is, Laid ns none i t
  | [], _, h => by cases h; simp
  | t :: ts, _, h => by
    cases h with
    | cons _ h1 h2 =>
      obtain ⟨h3, h4⟩ := Roots.mem h2
      constructor
      · intro i hi
        rcases List.mem_cons.1 hi with rfl | hi
        · exact ⟨t, List.mem_cons_self, h1⟩
        · obtain ⟨t', ht, h⟩ := h3 i hi
          exact ⟨t', List.mem_cons_of_mem _ ht, h⟩
      · intro t' ht
        rcases List.mem_cons.1 ht with rfl | ht
        · exact ⟨_, List.mem_cons_self, h1⟩
        · obtain ⟨i, hi, h⟩ := h4 t' ht
          exact ⟨i, List.mem_cons_of_mem _ hi, h⟩

theorem Under.step {ns : Nodes} {j c i : Nat} (h : Under ns j i) (hc : c ∈ (ns.at j).children) :
    Under ns c i := by
  induction h with
  | self => exact .child hc .self
  | child h1 _ ih => exact .child h1 ih

theorem Below.under {ns : Nodes} {is : List Nat} {j : Nat} (h : Below ns is j) :
    ∃ i ∈ is, Under ns j i := by
  induction h with
  | root h => exact ⟨_, h, .self⟩
  | child _ hc ih =>
    obtain ⟨i, hi, h⟩ := ih
    exact ⟨i, hi, h.step hc⟩

/-- A root and what is below it. -/
theorem root_ok {ns : Nodes} (hf : Forest ns)
    (hb : ∀ p c, c ∈ (ns.at p).children → (ns.at c).parent = some p) {t : Tr} {i : Nat}
    (h : Laid ns none i t) (hk : t.node.kind ≠ .item) :
    t.ok (topOf t) [] false false ↔ ∀ j, Under ns j i → ItemOk ns j := by
  have hent := h.enter
  have htop := h.top
  obtain ⟨n, ops, kids⟩ := t
  cases h with
  | mk h1 h2 =>
    have hn : (ns.at i).parent = none := by rw [h1]
    have := LaidAll.ok hf hb (R := topOf (.mk n ops kids)) (E := enterOf n kids) (n := n) h2 [] []
      (decide (n.op = some .assign)) false (by rw [h1]; rfl) (by simp) rfl (by simp)
      (fun _ c hc => ?_) (by rw [h1]; exact ⟨rfl, rfl⟩) (fun c hc => ?_) hent
    · rw [Tr.ok, List.nil_append, this]
      constructor
      · rintro ⟨_, h4⟩ j hj
        cases hj with
        | self =>
          intro hk'
          rw [h1] at hk'
          exact absurd hk' hk
        | child hc hj =>
          rw [h1] at hc
          exact h4 _ hc j hj
      · intro h3
        exact ⟨fun hk' => absurd hk' hk, fun c hc j hj => h3 j (.child (by rw [h1]; exact hc) hj)⟩
    · have hpc : (ns.at c).parent = some i := hb i c (by
        rw [h1]; exact List.mem_of_mem_head? (by rw [hc]; rfl))
      constructor
      · rw [decide_eq_true_eq]
        constructor
        · intro ho
          exact ⟨i, by rw [h1]; exact ho, by rw [h1]; exact hc⟩
        · rintro ⟨a, ho, ha⟩
          have := head_parent hb hpc ha
          subst this
          rw [h1] at ho
          exact ho
      · simp only [Bool.false_eq_true, false_iff]
        rintro ⟨l, ⟨a, _, ha⟩, hl⟩
        have := head_parent hb hpc hl
        subst this
        have := hb a l (List.mem_of_mem_head? (by rw [ha]; rfl))
        rw [hn] at this
        cases this
    · rw [scope_step hf hc, hn]
      simp only [htop]

/-- Linking the items of an arena succeeds exactly if every item of the tree sees a declaration. -/
theorem linkAll_fileOk {ns : Nodes} {ts : List Tr} (h : Arranged ns ts)
    (hk : ∀ t ∈ ts, t.node.kind ≠ .item) : (∃ ns', ns.linkAll = .ok ns') ↔ fileOk ts := by
  obtain ⟨⟨is, hr, hcov⟩, hb, hf⟩ := h
  have hf : Forest ns := hf
  obtain ⟨hr1, hr2⟩ := hr.mem
  have hlen : ∀ j, (ns.at j).kind = .item → j < ns.length := by
    intro j hj
    by_contra hlt
    have : ns.at j = default := by
      simp [Nodes.at, List.getD_eq_getElem?_getD, List.getElem?_eq_none (by omega : ns.length ≤ j)]
    rw [this] at hj
    cases hj
  have hroot : ∀ i ∈ is, (ns.at i).kind ≠ .item := by
    intro i hi
    obtain ⟨t, ht, hL⟩ := hr1 i hi
    rw [hL.kind]
    exact hk t ht
  have hpar : ∀ j i, i ∈ is → Under ns j i → j ∈ is ∨ ∃ p, (ns.at j).parent = some p := by
    intro j i hi hj
    have : ∀ k, Under ns j k → j = k ∨ ∃ p, (ns.at j).parent = some p := by
      intro k hk
      induction hk with
      | self => exact Or.inl rfl
      | child hc _ ih =>
        rcases ih with rfl | h
        · exact Or.inr ⟨_, hb _ _ hc⟩
        · exact Or.inr h
    rcases this i hj with rfl | h
    · exact Or.inl hi
    · exact Or.inr h
  rw [linkAll_iff]
  constructor
  · intro h t ht
    refine ⟨hk t ht, ?_⟩
    obtain ⟨i, hi, hL⟩ := hr2 t ht
    rw [root_ok hf hb hL (hk t ht)]
    intro j hj hki hnd
    have hr := h j ((items_iff j).2 ⟨hlen j hki, hki, hnd⟩)
    rcases hpar j i hi hj with hm | ⟨p, hp⟩
    · exact absurd hki (hroot j hm)
    · cases hx : (ns.at j).name with
      | none =>
        obtain ⟨r, hr⟩ := hr
        simp [Nodes.resolve, hx] at hr
      | some x => exact ⟨x, rfl, (resolve_seen hf hx hp).1 hr⟩
  · intro h i hi
    obtain ⟨hlt, hki, hnd⟩ := (items_iff i).1 hi
    obtain ⟨r, hr, hu⟩ := (((hcov i hlt).resolve_right fun h => by
      rcases h.kind with e | e <;> rw [hki] at e <;> cases e)).under
    obtain ⟨t, ht, hL⟩ := hr1 r hr
    obtain ⟨x, hx, hs⟩ := (root_ok hf hb hL (hk t ht)).1 (h t ht).2 i hu hki hnd
    rcases hpar i r hr hu with hm | ⟨p, hp⟩
    · exact absurd hki (hroot i hm)
    · exact (resolve_seen hf hx hp).2 hs

end Dyon.Check
