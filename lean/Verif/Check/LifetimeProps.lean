import Verif.Check.LifetimeLemmas
import Verif.Check.Demo
import Verif.Eval.Demo

/-!
# C57: references do not outlive what they refer to
-/

namespace Dyon.Check

namespace Spec

/-- The node `a` is the assignment `it op r`, with the item `it` on the left. -/
def Assigns (ns : Nodes) (op : AssignOp) (a it r : Nat) : Prop :=
  a < ns.length ∧ (ns.at a).op = some op ∧ ∃ l rest rest', (ns.at a).children = l :: r :: rest ∧
    (ns.at l).children = it :: rest'

/-- Children are stored after their parent. -/
def Ordered (ns : Nodes) : Prop := ∀ p, ∀ c ∈ (ns.at p).children, p < c

/-- The variable declared by `d` lives longer than the local variable declared by `x`: it is an
argument or a current object, or is declared earlier. -/
def OutlivesLocal (ns : Nodes) (d x : Nat) : Prop :=
  (ns.at d).kind = .arg ∨ (ns.at d).kind = .current ∨ d < x

/-- The annotations say that the argument `d` (of `g`) lives longer than the argument `x` (of
`f`): both lead to a common argument, in more steps from `d`, and both to `'return` or neither.
(`C53` is about what this says of the arguments.) -/
def OutlivesArg (ns : Nodes) (g d f x : Nat) : Prop :=
  (ns.at d).kind = .arg ∧ ∃ l m r, Follows ns g d l r ∧ Follows ns f x m r ∧
    m.length < l.length ∧ ∃ i, i ∈ l ∧ i ∈ m

end Spec

open Spec

theorem below_le {ns : Nodes} (ho : Ordered ns) {p d : Nat} (h : Below ns p d) : p ≤ d := by
  induction h with
  | refl n => exact Nat.le_refl n
  | step hc _ ih => exact Nat.le_trans (Nat.le_of_lt (ho _ _ hc)) ih

theorem assigns_mem {ns : Nodes} {op : AssignOp} {a it r : Nat} (h : Assigns ns op a it r) :
    (a, it, r) ∈ ns.assigns (· = op) := by
  obtain ⟨h1, h2, l, rest, rest', h3, h4⟩ := h
  simp only [Nodes.assigns, List.mem_filterMap, List.mem_range]
  exact ⟨a, h1, by simp [h2, h3, h4]⟩

theorem varLife_local {ns : Nodes} {d x : Nat} {r : Lt.Lifetime} (h : VarLife ns d r)
    (ho : Lt.Outlives r (.loc x)) : OutlivesLocal ns d x := by
  unfold VarLife at h
  split at h
  · exact Or.inl (by assumption)
  · exact Or.inr (Or.inl (by assumption))
  · subst h
    cases ho with
    | locLoc h => exact Or.inr (Or.inr h)

theorem varLife_arg {ns : Nodes} {d f : Nat} {r : Lt.Lifetime} (h : VarLife ns d r)
    (hf : (ns.at d).parent = some f) (hk : (ns.at d).kind = .arg) :
    ∃ l b, r = (if b then .ret l else .arg l) ∧ Follows ns f d l b := by
  unfold VarLife at h
  rw [hk] at h
  obtain ⟨l, b, e, hl⟩ := argLifetime_leads hf h
  cases e
  exact ⟨l, b, rfl, hl⟩

theorem varLife_kind {ns : Nodes} {d : Nat} {r : Lt.Lifetime} (h : VarLife ns d r) :
    (ns.at d).kind = .arg ∨ r = .cur d ∨ r = .loc d := by
  unfold VarLife at h
  split at h
  · exact Or.inl (by assumption)
  · exact Or.inr (Or.inl h)
  · exact Or.inr (Or.inr h)

/-- What is known if the variable of `d` may be stored in the variable of `x`. -/
theorem varLife_outlives {ns : Nodes} {d x : Nat} {r l : Lt.Lifetime} (h : VarLife ns d r)
    (hx : VarLife ns x l) (ho : Lt.Outlives r l) :
    (ns.at x).kind ≠ .current ∧
    ((ns.at x).kind ≠ .arg → OutlivesLocal ns d x) ∧
    ((ns.at x).kind = .arg → ∀ f g, (ns.at x).parent = some f → (ns.at d).parent = some g →
      OutlivesArg ns g d f x) := by
  refine ⟨?_, ?_, ?_⟩
  · intro hk
    unfold VarLife at hx
    rw [hk] at hx
    subst hx
    cases ho
  · intro hk
    rcases varLife_kind hx with h1 | h1 | h1
    · exact absurd h1 hk
    · subst h1; cases ho
    · subst h1; exact varLife_local h ho
  · intro hk f g hf hg
    obtain ⟨m, b, rfl, hm⟩ := varLife_arg hx hf hk
    have hdk : (ns.at d).kind = .arg := by
      rcases varLife_kind h with h1 | h1 | h1
      · exact h1
      · subst h1; cases b <;> cases ho
      · subst h1; cases b <;> cases ho
    obtain ⟨l, b', rfl, hl⟩ := varLife_arg h hg hdk
    have hne : ∀ {a : Nat} {r : Bool} {f : Nat}, ¬ Follows ns f a [] r := by
      intro a r f h; cases h
    cases b <;> cases b'
    · cases ho with
      | chain h1 h2 h3 => exact ⟨hdk, l, m, false, hl, hm, h3, _, h1, h2⟩
    · cases ho
    · cases ho
    · simp only [if_true] at ho
      cases ho with
      | retRet => exact absurd hm hne
      | retChain h1 h2 h3 => exact ⟨hdk, l, m, true, hl, hm, h3, _, h1, h2⟩

/-- The checks one by one. -/
theorem checkLifetimes_accept {ns : Nodes} (h : ns.checkLifetimes = .accept) :
    ns.checkSignatures = .accept ∧ ns.checkMutated = .accept ∧ ns.checkDeclared = .accept ∧
    ns.checkReturns = .accept ∧ ns.checkMath = .accept ∧ ns.checkVoid = .accept ∧
    ns.checkBlocks = .accept ∧ ns.checkCallArgs = .accept ∧ ns.checkGo = .accept ∧
    ns.checkConstraints = .accept := by
  simpa only [Nodes.checkLifetimes, and_accept] using h

/-! ## Storing in variables -/

/-- C57 (partial: for values in which one variable is mentioned; see `C57_longest_part` for more
than one).  In an accepted file, `x := e` stores a reference to a variable only if the variable
lives longer than `x`. -/
theorem C57_declare_partial {ns : Nodes} (h : ns.checkLifetimes = .accept) {a x r d : Nat}
    (ha : Assigns ns .assign a x r) (hx : ¬ ((ns.at x).kind = .item ∧ (ns.at x).children ≠ []))
    (hd : Only ns r d) : OutlivesLocal ns d x := by
  have h' := (checkLifetimes_accept h).2.2.1
  rw [Nodes.checkDeclared, and_accept, checkAll_accept] at h'
  have := h'.1 (a, x, r) (by
    rw [List.mem_filter]
    refine ⟨assigns_mem ha, ?_⟩
    simp only [Node.itemIds]
    rw [Bool.not_eq_true', Bool.and_eq_false_iff]
    by_cases hk : (ns.at x).kind = .item
    · exact Or.inr (by simpa using fun hne => hx ⟨hk, hne⟩)
    · exact Or.inl (by simpa using hk))
  obtain ⟨rl, h1, h2⟩ := compare_only hd this
  exact varLife_local h1 h2

/-- C57 (partial: for values in which one variable is mentioned).  In an accepted file, `x = e`
or `x.a = e` stores a reference to a variable only if the variable lives longer than `x`: a local
`x` gets references to arguments, current objects and earlier locals, an argument `x` to
arguments that are annotated to live longer, and a current object gets none. -/
theorem C57_set_partial {ns : Nodes} (h : ns.checkLifetimes = .accept) {a it r x d : Nat}
    (ha : Assigns ns .set a it r) (hk : (ns.at it).kind = .item)
    (hx : (ns.at it).declaration = some x) (hd : Only ns r d) :
    (ns.at x).kind ≠ .current ∧
    ((ns.at x).kind ≠ .arg → OutlivesLocal ns d x) ∧
    ((ns.at x).kind = .arg → ∀ f g, (ns.at x).parent = some f → (ns.at d).parent = some g →
      OutlivesArg ns g d f x) := by
  have h' := (checkLifetimes_accept h).2.1
  rw [Nodes.checkMutated, checkAll_accept] at h'
  have := h' (a, it, r) (assigns_mem ha)
  obtain ⟨l', r', h1, h2, h3⟩ := compare_accept this
  obtain ⟨l, rfl, hl, _⟩ := lifetime_var hk hx h1
  obtain ⟨rl, rfl, hr⟩ := lifetime_only hd h2
  exact varLife_outlives hr hl (compare_less h3)

/-- C57 (partial: for values in which one variable is mentioned, and not for arguments, see
`C57_property_of_argument`).  In an accepted file, `x.a := e` stores a reference to a variable only
if the variable lives longer than the local variable `x`. -/
theorem C57_property_partial {ns : Nodes} (h : ns.checkLifetimes = .accept) {a it r x d : Nat}
    (ha : Assigns ns .assign a it r) (hk : (ns.at it).kind = .item) (hc : (ns.at it).children ≠ [])
    (hx : (ns.at it).declaration = some x) (hd : Only ns r d) : OutlivesLocal ns d x := by
  have h' := (checkLifetimes_accept h).2.2.1
  rw [Nodes.checkDeclared, and_accept, checkAll_accept, checkAll_accept] at h'
  have := h'.2 (a, it, r) (by
    rw [List.mem_filter]
    refine ⟨assigns_mem ha, ?_⟩
    simp only [Node.itemIds]
    simpa [hk] using hc)
  simp only [hx] at this
  obtain ⟨rl, h1, h2⟩ := compare_only hd this
  exact varLife_local h1 h2

/-! ## Returning -/

theorem varLife_return {ns : Nodes} {d : Nat} {r : Lt.Lifetime} (h : VarLife ns d r)
    (ho : Lt.Outlives r (.ret [])) : (ns.at d).kind = .arg ∧
      ∀ f, (ns.at d).parent = some f → ∃ l, Follows ns f d l true := by
  have hk : (ns.at d).kind = .arg := by
    rcases varLife_kind h with h1 | h1 | h1
    · exact h1
    · subst h1; cases ho
    · subst h1; cases ho
  refine ⟨hk, fun f hf => ?_⟩
  obtain ⟨l, b, rfl, hl⟩ := varLife_arg h hf hk
  cases b
  · cases ho
  · exact ⟨l, hl⟩

/-- C57 (partial: for values in which one variable is mentioned).  In an accepted file,
`return e` returns a reference to a variable only if it is an argument whose annotations lead
to `'return`. -/
theorem C57_return_partial {ns : Nodes} (h : ns.checkLifetimes = .accept) {i e d : Nat}
    (hi : i < ns.length) (hk : (ns.at i).kind = .ret) (he : (ns.at i).children.head? = some e)
    (hd : Only ns e d) : (ns.at d).kind = .arg ∧
      ∀ f, (ns.at d).parent = some f → ∃ l, Follows ns f d l true := by
  have h' := (checkLifetimes_accept h).2.2.2.1
  rw [Nodes.checkReturns, checkAll_accept] at h'
  have := h' i (by simp [hi, hk])
  simp only [he] at this
  obtain ⟨r, h1, h2⟩ := compare_only hd this
  exact varLife_return h1 h2

/-- C57: in an accepted file, if `return e` returns a reference to some variable, then among the
variables that `e` mentions there is an argument whose annotations lead to `'return`. -/
theorem C57_return_some {ns : Nodes} (h : ns.checkLifetimes = .accept) {i e j d : Nat}
    (hi : i < ns.length) (hk : (ns.at i).kind = .ret) (he : (ns.at i).children.head? = some e)
    (hp : Part ns e j) (hj : (ns.at j).declaration = some d) :
    ∃ k d', Mentions ns e k ∧ (ns.at k).declaration = some d' ∧ (ns.at d').kind = .arg ∧
      ∀ f, (ns.at d').parent = some f → ∃ l, Follows ns f d' l true := by
  have h' := (checkLifetimes_accept h).2.2.2.1
  rw [Nodes.checkReturns, checkAll_accept] at h'
  have := h' i (by simp [hi, hk])
  simp only [he] at this
  obtain ⟨l', r', h1, h2, h3⟩ := compare_accept this
  cases h1
  cases r' with
  | err er =>
    cases er with
    | none => exact absurd h2 (lifetime_part hp hj)
    | failedToUnify => simp [Lt.compareLifetimes] at h3
  | ok r =>
    have ho := compare_less h3
    obtain ⟨k, hm, _, ⟨d', h6, h7⟩ | ⟨_, rfl⟩⟩ := lifetime_mentions _ e r (Nat.le_refl _) h2
    · exact ⟨k, d', hm, h6, varLife_return h7 ho⟩
    · cases ho with
      | retChain h1 _ _ => cases h1

/-- C57 (partial: for values in which one variable is mentioned).  In an accepted file, the
function `f(..) = e` returns a reference to a variable only if it is an argument whose
annotations lead to `'return`. -/
theorem C57_math_partial {ns : Nodes} (h : ns.checkLifetimes = .accept) {e f d : Nat}
    (he : e < ns.length) (hk : (ns.at e).kind = .expr) (hp : (ns.at e).parent = some f)
    (hf : (ns.at f).kind = .fn ∨ (ns.at f).kind = .closure)
    (hd : Only ns e d) : (ns.at d).kind = .arg ∧
      ∀ f, (ns.at d).parent = some f → ∃ l, Follows ns f d l true := by
  have h' := (checkLifetimes_accept h).2.2.2.2.1
  rw [Nodes.checkMath, checkAll_accept] at h'
  have := h' e (by
    rw [List.mem_filter, List.mem_range]
    refine ⟨he, ?_⟩
    simp only [Nodes.isMathExpr, hk, hp, decide_true, Bool.true_and]
    rcases hf with hf | hf <;> simp [hf])
  obtain ⟨r, h1, h2⟩ := compare_only hd this
  exact varLife_return h1 h2

/-! ## Blocks -/

theorem carries_lifetime {p : Kind} {n : Node} (h : Carries p n.kind) : n.hasLifetime = true := by
  unfold Node.hasLifetime
  simp only [Carries, List.mem_cons, List.not_mem_nil, or_false] at h
  rcases h with ⟨_, h⟩ | ⟨_, h⟩ | ⟨_, h⟩ | ⟨_, h⟩ | ⟨_, h⟩ | ⟨_, h⟩
  · rcases h with h | h | h | h | h | h | h | h <;> rw [h]
  · rw [h]
  · rw [h]
  · rw [h]
  · rcases h with h | h | h <;> rw [h]
  · rw [h]

/-- C57 (partial: for values in which one variable is mentioned).  In an accepted file, the last
expression `e` of a block is a reference to a variable only if the variable is not declared
in the block. -/
theorem C57_block_partial {ns : Nodes} (h : ns.checkLifetimes = .accept) (ho : Ordered ns) {e p d : Nat}
    (he : e < ns.length) (hp : (ns.at e).parent = some p)
    (hk : (ns.at p).kind ∈ [.block, .trueBlock, .elseIfBlock, .elseBlock])
    (hl : (ns.at p).children.getLast? = some e) (hd : Only ns e d) :
    (ns.at d).kind = .arg ∨ (ns.at d).kind = .current ∨ ¬ Below ns p d := by
  have h' := (checkLifetimes_accept h).2.2.2.2.2.2.1
  rw [Nodes.checkBlocks, checkAll_accept] at h'
  have := h' e (by simp [he])
  have heb : ns.endOfBlock e = some p := by
    unfold Nodes.endOfBlock
    rw [hp]
    simp only
    rw [if_neg, if_pos]
    · rw [hl]
      simp only [List.mem_cons, List.not_mem_nil, or_false] at hk
      rcases hk with hk | hk | hk | hk <;> simp [hk, Kind.isBlock]
    · obtain ⟨⟨i, hpart, _⟩, _⟩ := hd
      cases hpart with
      | here hk' => simp [hk']
      | @into _ c _ hc hcar _ =>
        split
        · rename_i hch
          rw [hch, List.mem_singleton] at hc
          subst hc
          simp [carries_lifetime hcar]
        · simp
      | @call _ c _ pre post _ hcs hk' _ _ =>
        split
        · rename_i hch
          rw [hch] at hcs
          have hc : c ∈ pre ++ c :: post := by simp
          rw [← hcs, List.mem_singleton] at hc
          subst hc
          simp [Node.hasLifetime, hk']
        · simp
  rw [heb] at this
  obtain ⟨r, h1, h2⟩ := compare_only hd this
  rcases varLife_local h1 h2 with h3 | h3 | h3
  · exact Or.inl h3
  · exact Or.inr (Or.inl h3)
  · refine Or.inr (Or.inr fun hb => ?_)
    have := below_le ho hb
    omega

/-! ## Arguments of calls -/

theorem width_one {ns : Nodes} {a : Nat} (h : ∀ c ∈ (ns.at a).children, (ns.at c).kind ≠ .swizzle) :
    ns.width a = 1 := by
  unfold Nodes.width
  have : ns.child a .swizzle = none := by
    unfold Nodes.child
    rw [List.find?_eq_none]
    intro c hc
    simpa using h c hc
  rw [this]

theorem argChild_eq {ns : Nodes} {i : Nat} : ∀ {cs : List Nat} {j k : Nat},
    (∀ a ∈ cs, ns.width a = 1) → j ≤ i → i < j + cs.length → ns.argChild i cs j k = k + (i - j)
  | [], j, k, _, h1, h2 => by simp at h2; omega
  | c :: cs, j, k, hw, h1, h2 => by
    rw [Nodes.argChild, hw c (by simp)]
    split
    · have : i = j := by omega
      subst this
      omega
    · simp only [List.length_cons] at h2
      rw [argChild_eq (fun a ha => hw a (by simp [ha])) (by omega) (by omega)]
      omega

namespace Spec

/-- The call `c` has no swizzles among its arguments. -/
def NoSwizzle (ns : Nodes) (c : Nat) : Prop :=
  ∀ a ∈ (ns.at c).children, ∀ b ∈ (ns.at a).children, (ns.at b).kind ≠ .swizzle

/-- The expression at the start of `n`, below brackets and the like, is a variable. -/
inductive Variable (ns : Nodes) : Nat → Prop
  | item {n} : (ns.at n).kind = .item → Variable ns n
  | first {n c cs} : (ns.at n).kind ≠ .call → (ns.at n).children = c :: cs → Variable ns c →
      Variable ns n

end Spec

theorem isRef_variable {ns : Nodes} (m : Nat) : ∀ n, ns.length - n ≤ m → ns.isRef n = true →
    Variable ns n := by
  induction m with
  | zero =>
    intro n hn h
    rw [Nodes.isRef.eq_def] at h
    split at h
    · exact .item (by assumption)
    · cases h
    · split at h
      · cases h
      · split at h
        · omega
        · cases h
  | succ m ih =>
    intro n hn h
    rw [Nodes.isRef.eq_def] at h
    split at h
    · exact .item (by assumption)
    · cases h
    · rename_i h1 h2
      split at h
      · cases h
      · rename_i hc
        split at h
        · exact .first h2 hc (ih _ (by omega) h)
        · cases h

/-- C57 (partial: for calls without swizzles, and for arguments in which one variable is
mentioned, see `C57_swizzle`).  In an accepted file, the argument of a call is a variable if the
parameter is annotated with a lifetime; and if the parameter is annotated with another
parameter, then the variable lives longer than the variable given for that one. -/
theorem C57_param_partial {ns : Nodes} (h : ns.checkLifetimes = .accept) {c f k a r : Nat} {lt : String}
    (hc : c < ns.length) (hk : (ns.at c).kind = .call) (hf : (ns.at c).declaration = some f)
    (ha : (ns.at f).children[k]? = some a) (hka : (ns.at a).kind = .arg)
    (hlt : (ns.at a).lifetime = some lt)
    (hr : (ns.at c).children[k]? = some r) (hs : NoSwizzle ns c) :
    Variable ns r ∧ (lt ≠ "return" → ∃ (j b : Nat), (ns.args f)[j]? = some b ∧ (ns.at b).name.getD "" = lt ∧
      ∀ l x d, (ns.at c).children[j]? = some l → Only ns l x → Only ns r d →
        (ns.at x).kind ≠ .current ∧
        ((ns.at x).kind ≠ .arg → OutlivesLocal ns d x) ∧
        ((ns.at x).kind = .arg → ∀ f g, (ns.at x).parent = some f → (ns.at d).parent = some g →
          OutlivesArg ns g d f x)) := by
  have h' := (checkLifetimes_accept h).2.2.2.2.2.2.2.2.2
  rw [Nodes.checkConstraints, checkAll_accept] at h'
  have := h' c (by simp [Nodes.calls, hc, hk])
  rw [hf] at this
  simp only at this
  rw [checkAll_accept] at this
  have := this (a, k) (by
    rw [List.mem_zipIdx_iff_getElem?]
    exact ha)
  simp only [hka, if_true] at this
  unfold Nodes.checkParam at this
  rw [hlt] at this
  simp only at this
  have hlen : k < (ns.at c).children.length := by
    rw [List.getElem?_eq_some_iff] at hr
    exact hr.1
  have hi : ns.argChild k (ns.at c).children 0 0 = k := by
    rw [argChild_eq (fun a ha => width_one (hs a ha)) (by omega) (by omega)]
    omega
  rw [hi] at this
  cases hal : ns.argLifetime a with
  | crash => rw [hal] at this; cases this
  | endless => rw [hal] at this; cases this
  | done L =>
    rw [hal, hr] at this
    simp only [Bool.not_eq_true', beq_iff_eq] at this
    split at this
    · cases this
    · rename_i href
      refine ⟨isRef_variable _ r (Nat.le_refl _) (by simpa using href), fun hne => ?_⟩
      rw [if_neg hne] at this
      cases hidx : Lt.argIndex (ns.sig f) lt with
      | none => rw [hidx] at this; cases this
      | some j =>
        rw [hidx] at this
        simp only at this
        obtain ⟨x, hx, hn⟩ := Lt.argIndex_some hidx
        have hsig : ns.sig f = (ns.args f).map fun a => ⟨(ns.at a).name.getD "", (ns.at a).lifetime⟩ := by
          unfold Nodes.sig
          rw [if_pos (sig_get hx).1]
        rw [hsig, List.getElem?_map, Option.map_eq_some_iff] at hx
        obtain ⟨b, hb, rfl⟩ := hx
        refine ⟨j, b, hb, hn, fun l x d hl hx hd => ?_⟩
        unfold Nodes.compareArgs at this
        rw [hl, hr] at this
        obtain ⟨l', r', h1, h2, h3⟩ := compare_accept this
        obtain ⟨ll, rfl, hlv⟩ := lifetime_only hx h1
        obtain ⟨rl, rfl, hrv⟩ := lifetime_only hd h2
        exact varLife_outlives hrv hlv (compare_less h3)

/-- C57: in an accepted file, `go` is not used with a function that has lifetime annotations. -/
theorem C57_go {ns : Nodes} (h : ns.checkLifetimes = .accept) {c p f a : Nat}
    (hc : c < ns.length) (hk : (ns.at c).kind = .call) (hp : (ns.at c).parent = some p)
    (hg : (ns.at p).kind = .go) (hf : (ns.at c).declaration = some f)
    (ha : a ∈ (ns.at f).children) (hka : (ns.at a).kind = .arg) : (ns.at a).lifetime = none := by
  have h' := (checkLifetimes_accept h).2.2.2.2.2.2.2.2.1
  rw [Nodes.checkGo, checkAll_accept] at h'
  have := h' c (by simp [Nodes.calls, hc, hk])
  simp only [hp, hg, hf, ne_eq, not_true_eq_false, if_false] at this
  rw [checkAll_accept] at this
  have := this a (by simp [Nodes.args, ha, hka])
  split at this
  · cases this
  · rename_i hn
    cases hl : (ns.at a).lifetime with
    | none => rfl
    | some _ => rw [hl] at hn; simp at hn

/-- C57: in an accepted file, a function without result has no parameter annotated with `'return`. -/
theorem C57_void {ns : Nodes} (h : ns.checkLifetimes = .accept) {f a : Nat} (hf : f < ns.length)
    (hk : (ns.at f).kind = .fn) (ht : (ns.at f).ty = some .void) (ha : a ∈ (ns.at f).children) (hka : (ns.at a).kind = .arg) :
    (ns.at a).lifetime ≠ some "return" := by
  have h' := (checkLifetimes_accept h).2.2.2.2.2.1
  rw [Nodes.checkVoid, checkAll_accept] at h'
  have := h' f (by simp [Nodes.functions, hf, hk])
  rw [ht] at this
  simp only at this
  rw [checkAll_accept] at this
  have := this a (by simp [Nodes.args, ha, hka])
  intro e
  simp [e] at this

/-- C57 (partial: for arguments in which one variable is mentioned).  In an accepted file, the variables that a call is
given references to are declared before it. -/
theorem C57_call_args_partial {ns : Nodes} (h : ns.checkLifetimes = .accept) {c a d : Nat} (hc : c < ns.length)
    (hk : (ns.at c).kind = .call) (ha : a ∈ (ns.at c).children) (hka : (ns.at a).kind = .callArg) (hd : Only ns a d) :
    OutlivesLocal ns d c := by
  have h' := (checkLifetimes_accept h).2.2.2.2.2.2.2.1
  rw [Nodes.checkCallArgs, checkAll_accept] at h'
  have := h' c (by simp [Nodes.calls, hc, hk])
  rw [checkAll_accept] at this
  obtain ⟨r, h1, h2⟩ := compare_only hd (this a (by simp [Nodes.callArgs, ha, hka]))
  exact varLife_local h1 h2

/-- C57: in an accepted file, `go` is not used with a host function that has annotations for the arguments given. -/
theorem C57_go_host {ns : Nodes} (h : ns.checkLifetimes = .accept) {c p k : Nat} {lt : Mod.Lt} (hc : c < ns.length)
    (hk : (ns.at c).kind = .call) (hp : (ns.at c).parent = some p) (hg : (ns.at p).kind = .go)
    (hf : (ns.at c).declaration = none) (hl : (ns.at c).lts[k]? = some lt)
    (hn : k < ((ns.at c).children.filter fun a => (ns.at a).kind = .callArg).length) : lt = .default := by
  have h' := (checkLifetimes_accept h).2.2.2.2.2.2.2.2.1
  rw [Nodes.checkGo, checkAll_accept] at h'
  have := h' c (by simp [Nodes.calls, hc, hk])
  simp only [hp, hg, hf, ne_eq, not_true_eq_false, if_false] at this
  rw [checkAll_accept] at this
  have := this (lt, (ns.callArgs c)[k]'hn) (by
    refine List.mem_of_getElem? (i := k) ?_
    rw [List.getElem?_zip_eq_some]
    exact ⟨hl, List.getElem?_eq_getElem hn⟩)
  by_contra hlt
  simp [hlt] at this

/-- C57 (partial: for calls without swizzles, and for arguments in which one variable is mentioned).  The same as
`C57_param_partial` for host functions: an annotated argument is a variable, which lives longer than the variable given for the
argument that the annotation names. -/
theorem C57_host_param_partial {ns : Nodes} (h : ns.checkLifetimes = .accept) {c k r : Nat} {lt : Mod.Lt}
    (hc : c < ns.length) (hk : (ns.at c).kind = .call) (hf : (ns.at c).declaration = none)
    (hl : (ns.at c).lts[k]? = some lt) (hr : (ns.at c).children[k]? = some r) (hs : NoSwizzle ns c) :
    (lt ≠ .default → Variable ns r) ∧ ∀ j, lt = .arg j →
      ∀ l x d, (ns.at c).children[j]? = some l → Only ns l x → Only ns r d →
        (ns.at x).kind ≠ .current ∧
        ((ns.at x).kind ≠ .arg → OutlivesLocal ns d x) ∧
        ((ns.at x).kind = .arg → ∀ f g, (ns.at x).parent = some f → (ns.at d).parent = some g →
          OutlivesArg ns g d f x) := by
  have h' := (checkLifetimes_accept h).2.2.2.2.2.2.2.2.2
  rw [Nodes.checkConstraints, checkAll_accept] at h'
  have := h' c (by simp [Nodes.calls, hc, hk])
  rw [hf] at this
  simp only at this
  rw [checkAll_accept] at this
  have := this (lt, k) (by
    rw [List.mem_zipIdx_iff_getElem?]
    exact hl)
  have hlen : k < (ns.at c).children.length := by
    rw [List.getElem?_eq_some_iff] at hr
    exact hr.1
  have hi : ns.argChild k (ns.at c).children 0 0 = k := by
    rw [argChild_eq (fun a ha => width_one (hs a ha)) (by omega) (by omega)]
    omega
  simp only [Nodes.checkHostParam, hi, hr] at this
  cases lt with
  | default => exact ⟨fun e => absurd rfl e, fun j e => by cases e⟩
  | ret =>
    simp only at this
    split at this
    · rename_i href
      exact ⟨fun _ => isRef_variable _ r (Nat.le_refl _) href, fun j e => by cases e⟩
    · cases this
  | arg j =>
    simp only at this
    split at this
    · rename_i href
      refine ⟨fun _ => isRef_variable _ r (Nat.le_refl _) href, fun j' e l x d hl hx hd => ?_⟩
      cases e
      unfold Nodes.compareArgs at this
      rw [hl, hr] at this
      obtain ⟨l', r', h1, h2, h3⟩ := compare_accept this
      obtain ⟨ll, rfl, hlv⟩ := lifetime_only hx h1
      obtain ⟨rl, rfl, hrv⟩ := lifetime_only hd h2
      exact varLife_outlives hrv hlv (compare_less h3)
    · cases this

/-! ## Results of host functions -/

/-- C57: a call to a host function of which no parameter leads to `'return` has no lifetime: its result refers to nothing, so
that it may be stored and returned anywhere. -/
theorem C57_host_call {ns : Nodes} {c : Nat} (hk : (ns.at c).kind = .call) (hd : (ns.at c).declaration = none)
    (hn : (ns.at c).lts ≠ []) (hf : ∀ lt ∈ (ns.at c).lts, ∃ n, Frees (ns.at c).lts n lt) :
    ns.lifetime c = .done (.err .none) := by
  have key : ∀ l : List Mod.Lt, (∀ lt ∈ l, ∃ n, Frees (ns.at c).lts n lt) → returnsArg (ns.at c).lts l = .nowhere := by
    intro l
    induction l with
    | nil => intro _; rfl
    | cons lt l ih =>
      intro h
      obtain ⟨n, hn⟩ := h lt (by simp)
      rw [returnsArg, hn.leads _ (by have := hn.bound; omega)]
      exact ih fun x hx => h x (by simp [hx])
  rw [Nodes.lifetime.eq_def]
  simp [hk, hd, hn, key _ hf, Node.hasLifetime]

/-- C57: a call to a host function with parameters that has a lifetime has a parameter that leads to `'return`. -/
theorem C57_host_call_lives {ns : Nodes} {c : Nat} {L : Lt.Lifetime} (hk : (ns.at c).kind = .call)
    (hd : (ns.at c).declaration = none) (hn : (ns.at c).lts ≠ []) (hl : ns.lifetime c = .done (.ok L)) :
    ∃ lt ∈ (ns.at c).lts, GivesBack (ns.at c).lts lt := by
  have key : ∀ l : List Mod.Lt, returnsArg (ns.at c).lts l = .toReturn → ∃ lt ∈ l, GivesBack (ns.at c).lts lt := by
    intro l
    induction l with
    | nil => intro h; cases h
    | cons lt l ih =>
      intro h
      rw [returnsArg] at h
      split at h
      · obtain ⟨x, hx, hr⟩ := ih h
        exact ⟨x, by simp [hx], hr⟩
      · exact ⟨lt, by simp, leadsTo_returns h⟩
  refine key _ ?_
  rw [Nodes.lifetime.eq_def] at hl
  simp only [hk, hd, Node.hasLifetime] at hl
  cases hr : returnsArg (ns.at c).lts (ns.at c).lts <;> simp [hr, hn] at hl ⊢

/-- The hypotheses of `C57_host_call` are met by `push_ref(mut list, item: 'list)`: both parameters end without annotation. -/
example : ∀ lt ∈ [Mod.Lt.default, .arg 0], ∃ n, Frees [Mod.Lt.default, .arg 0] n lt := by
  simp only [List.mem_cons, List.not_mem_nil, or_false, forall_eq_or_imp, forall_eq]
  exact ⟨⟨0, .default⟩, 1, .arg rfl .default⟩

/-! ## Examples and findings -/

namespace Demo

/-- An argument with a lifetime. -/
def argLt (n lt : String) : T := .mk { kind := .arg, names := [n], lifetime := some lt } []

/-- An object. -/
def obj (kvs : List (String × T)) : T :=
  nd .object (kvs.map fun (k, e) => .mk { kind := .keyValue, names := [k] } [nd .expr [e]])

/-- `return e` -/
def ret (e : T) : T := nd .expr [nd .ret [nd .expr [e]]]

/-- The links to declarations are made. -/
def linked (ns : Nodes) : Nodes := match ns.linkAll with
  | .ok ns' => ns'
  | .error _ => []

/-- The links to declarations and functions are made. -/
def linkedCalls (ns : Nodes) : Nodes := match (linked ns).linkCalls ⟨⟨Mod.Map.empty, [], []⟩, Mod.Map.empty⟩ with
  | .ok ns' => ns'
  | .error _ => []

theorem only_of {ns : Nodes} {n d : Nat} (S : List Nat) (hn : n ∈ S)
    (hc : ∀ s ∈ S, ∀ c ∈ (ns.at s).children, c ∈ S)
    (hd : ∀ s ∈ S, (ns.at s).kind = .item → (ns.at s).declaration = some d)
    (hp : ∃ i, Part ns n i ∧ (ns.at i).declaration = some d) : Only ns n d := by
  refine ⟨hp, fun j hj => hd j ?_ hj.2⟩
  have : ∀ {a b}, Below ns a b → a ∈ S → b ∈ S := by
    intro a b h
    induction h with
    | refl n => exact id
    | step hc' _ ih => exact fun ha => ih (hc _ ha _ hc')
  exact this hj.1 hn

/-- ```
fn f(a: 'return, mut b, c: 'b) -> {
    x := a
    y := {p: x}
    y = {p: x}
    b = {q: c}
    return {p: a}
}
``` -/
def goodProg : Nodes := linked (file [.mk { kind := .fn, names := ["f"], ty := some .any } [argLt "a" "return", argMut "b",
  argLt "c" "b", nd .block [decl "x" (item "a"), decl "y" (obj [("p", item "x")]),
  stmt .set (item "y") (obj [("p", item "x")]), stmt .set (item "b") (obj [("q", item "c")]),
  ret (obj [("p", item "a")])]]])

unseal Nodes.search Nodes.lifetime Nodes.isRef Lt.followCheck in
theorem good_accepted : goodProg.checkLifetimes = .accept := by rfl

unseal Nodes.search in
theorem good_assigns : Assigns goodProg .assign 13 15 16 ∧ Assigns goodProg .set 23 25 26 ∧
    Assigns goodProg .set 33 35 36 ∧ (goodProg.at 25).declaration = some 15 ∧
    (goodProg.at 35).declaration = some 2 ∧ (goodProg.at 43).kind = .ret ∧
    (goodProg.at 43).children.head? = some 44 :=
  ⟨⟨by decide, by decide, 14, [], [], by decide, by decide⟩,
   ⟨by decide, by decide, 24, [], [], by decide, by decide⟩,
   ⟨by decide, by decide, 34, [], [], by decide, by decide⟩,
   by decide, by decide, by decide, by decide⟩

unseal Nodes.search in
/-- The values stored in `y` and `b` and the returned one hold one variable each. -/
theorem good_only : Only goodProg 16 8 ∧ Only goodProg 26 8 ∧ Only goodProg 36 3 ∧ Only goodProg 44 1 := by
  refine ⟨only_of [16, 17, 18, 19, 20, 21] (by decide) (by decide) (by decide) ⟨21, ?_, by decide⟩,
    only_of [26, 27, 28, 29, 30, 31] (by decide) (by decide) (by decide) ⟨31, ?_, by decide⟩,
    only_of [36, 37, 38, 39, 40, 41] (by decide) (by decide) (by decide) ⟨41, ?_, by decide⟩,
    only_of [44, 45, 46, 47, 48] (by decide) (by decide) (by decide) ⟨48, ?_, by decide⟩⟩
  · exact .into (c := 17) (by decide) (by simp only [Carries]; decide) <|
      .into (c := 18) (by decide) (by simp only [Carries]; decide) <|
      .into (c := 19) (by decide) (by simp only [Carries]; decide) <|
      .into (c := 20) (by decide) (by simp only [Carries]; decide) <|
      .into (c := 21) (by decide) (by simp only [Carries]; decide) <| .here (by decide)
  · exact .into (c := 27) (by decide) (by simp only [Carries]; decide) <|
      .into (c := 28) (by decide) (by simp only [Carries]; decide) <|
      .into (c := 29) (by decide) (by simp only [Carries]; decide) <|
      .into (c := 30) (by decide) (by simp only [Carries]; decide) <|
      .into (c := 31) (by decide) (by simp only [Carries]; decide) <| .here (by decide)
  · exact .into (c := 37) (by decide) (by simp only [Carries]; decide) <|
      .into (c := 38) (by decide) (by simp only [Carries]; decide) <|
      .into (c := 39) (by decide) (by simp only [Carries]; decide) <|
      .into (c := 40) (by decide) (by simp only [Carries]; decide) <|
      .into (c := 41) (by decide) (by simp only [Carries]; decide) <| .here (by decide)
  · exact .into (c := 45) (by decide) (by simp only [Carries]; decide) <|
      .into (c := 46) (by decide) (by simp only [Carries]; decide) <|
      .into (c := 47) (by decide) (by simp only [Carries]; decide) <|
      .into (c := 48) (by decide) (by simp only [Carries]; decide) <| .here (by decide)

unseal Nodes.search in
example : OutlivesLocal goodProg 8 15 :=
  C57_declare_partial good_accepted good_assigns.1 (by decide) good_only.1

unseal Nodes.search in
example : OutlivesLocal goodProg 8 15 :=
  (C57_set_partial good_accepted good_assigns.2.1 (by decide)
    good_assigns.2.2.2.1 good_only.2.1).2.1 (by decide)

unseal Nodes.search in
example : OutlivesArg goodProg 0 3 0 2 :=
  (C57_set_partial good_accepted good_assigns.2.2.1 (by decide)
    good_assigns.2.2.2.2.1 good_only.2.2.1).2.2 (by decide) 0 0
    (by decide) (by decide)

unseal Nodes.search in
example : ∃ l, Follows goodProg 0 1 l true :=
  (C57_return_partial good_accepted (by decide) good_assigns.2.2.2.2.2.1
    good_assigns.2.2.2.2.2.2 good_only.2.2.2).2 0 (by decide)

/-- ```
g(a: 'return) = a
fn h(mut p, q: 'p) {}
fn k(r) {}
fn f() {
    x := "a"
    y := {}
    y.b := x
    h(mut y, x)
    z := { x }
    go k(x)
}
``` -/
def goodProg2 : Nodes := linkedCalls (file [
  fn "g" [argLt "a" "return", nd .expr [item "a"]],
  fn "h" [argMut "p", argLt "q" "p", nd .block []],
  fn "k" [arg "r", nd .block []],
  fn "f" [nd .block [decl "x" (val .str), decl "y" (obj []), stmt .assign (prop "y" "b") (item "x"),
    call "h" [item "y", item "x"],
    decl "z" (nd .block [nd .expr [item "x"]]),
    nd .expr [nd .go [.mk { kind := .call, names := ["k"] } [nd .callArg [item "x"]]]]]]])

unseal Nodes.search Nodes.lifetime Nodes.isRef Lt.followCheck in
theorem good2_accepted : goodProg2.checkLifetimes = .accept := by rfl

unseal Nodes.search in
/-- One level of brackets around a variable. -/
theorem good2_only {n c d : Nat} (hc : (goodProg2.at n).children = [c])
    (hk : (goodProg2.at n).kind = .expr ∨ (goodProg2.at n).kind = .callArg)
    (hi : (goodProg2.at c).kind = .item) (hcc : (goodProg2.at c).children = [])
    (hd : (goodProg2.at c).declaration = some d) : Only goodProg2 n d := by
  refine only_of [n, c] (by simp) ?_ ?_ ⟨c, .into (c := c) (by simp [hc]) ?_ (.here hi), hd⟩
  · simp [hc, hcc]
  · rcases hk with hk | hk <;> simp [hk, hd]
  · rcases hk with hk | hk <;> rw [hk, hi] <;> simp [Carries]

unseal Nodes.search in
example : OutlivesLocal goodProg2 16 23 :=
  C57_property_partial good2_accepted (a := 28) (it := 30) (r := 32)
    ⟨by decide, by decide, 29, [], [], by decide, by decide⟩ (by decide) (by decide) (by decide)
    (only_of [32, 33, 34] (by decide) (by decide) (by decide) ⟨34,
      .into (c := 33) (by decide) (by simp only [Carries]; decide) <|
      .into (c := 34) (by decide) (by simp only [Carries]; decide) <| .here (by decide), by decide⟩)

unseal Nodes.search in
example : ∃ l, Follows goodProg2 0 1 l true :=
  (C57_math_partial good2_accepted (e := 2) (f := 0) (by decide) (by decide) (by decide) (Or.inl (by decide))
    (good2_only (c := 3) (by decide) (by decide) (by decide) (by decide) (by decide))).2 0 (by decide)

unseal Nodes.search in
theorem good2_ordered : Ordered goodProg2 := by
  intro p c hc
  by_cases hp : p < goodProg2.length
  · have : ∀ p ∈ List.range goodProg2.length, ∀ c ∈ (goodProg2.at p).children, p < c := by decide
    exact this p (List.mem_range.2 hp) c hc
  · have : goodProg2.at p = default := by
      simp only [Nodes.at, List.getD_eq_getElem?_getD,
        List.getElem?_eq_none (by omega : goodProg2.length ≤ p)]
      rfl
    rw [this] at hc
    cases hc

unseal Nodes.search in
example : ¬ Below goodProg2 47 16 := by
  have := C57_block_partial good2_accepted good2_ordered (e := 48) (p := 47) (d := 16) (by decide)
    (by decide) (by decide) (by decide)
    (good2_only (c := 49) (by decide) (by decide) (by decide) (by decide) (by decide))
  rcases this with h | h | h
  · exact absurd h (by decide)
  · exact absurd h (by decide)
  · exact h

unseal Nodes.search in
example : OutlivesLocal goodProg2 16 23 := by
  obtain ⟨_, h⟩ := C57_param_partial good2_accepted (c := 36) (f := 4) (k := 1) (a := 6) (r := 39)
    (lt := "p") (by decide) (by decide) (by decide) (by decide) (by decide) (by decide) (by decide)
    (by unfold NoSwizzle; decide)
  obtain ⟨j, b, h1, h2, h3⟩ := h (by decide)
  have hj : j = 0 := by
    have e : goodProg2.args 4 = [5, 6] := by decide
    rw [e] at h1
    match j, h1 with
    | 0, _ => rfl
    | 1, h1 => cases h1; exact absurd h2 (by decide)
    | j + 2, h1 => simp at h1
  subst hj
  exact (h3 37 23 16 (by decide)
    (good2_only (c := 38) (by decide) (by decide) (by decide) (by decide) (by decide))
    (good2_only (c := 40) (by decide) (by decide) (by decide) (by decide) (by decide))).2.1 (by decide)

unseal Nodes.search in
example : (goodProg2.at 9).lifetime = none :=
  C57_go good2_accepted (c := 52) (p := 51) (f := 8) (by decide) (by decide) (by decide) (by decide)
    (by decide) (by decide) (by decide)

/-- A call as part of an expression. -/
def callOf (f : String) (args : List T) : T := .mk { kind := .call, names := [f] } (args.map fun a => nd .callArg [a])

/-- ```
g(a: 'return) = a
fn f() {
    x := "a"
    y := {p: g(x)}
}
``` -/
def goodProg3 : Nodes := linkedCalls (file [
  fn "g" [argLt "a" "return", nd .expr [item "a"]],
  fn "f" [nd .block [decl "x" (val .str), decl "y" (obj [("p", callOf "g" [item "x"])])]]])

unseal Nodes.search Nodes.lifetime Nodes.isRef Lt.followCheck in
theorem good3_accepted : goodProg3.checkLifetimes = .accept := by rfl

unseal Nodes.search in
/-- The value of `y` holds `x`, which `g` may return. -/
theorem good3_only : Only goodProg3 17 9 := by
  have hg : (goodProg3.at 1).lifetime = some "return" := by decide
  refine only_of [17, 18, 19, 20, 21, 22, 23, 24] (by decide) (by decide) (by decide) ⟨24, ?_, by decide⟩
  refine .into (c := 18) (by decide) (by simp only [Carries]; decide) <|
    .into (c := 19) (by decide) (by simp only [Carries]; decide) <|
    .into (c := 20) (by decide) (by simp only [Carries]; decide) <|
    .into (c := 21) (by decide) (by simp only [Carries]; decide) <|
    .into (c := 22) (by decide) (by simp only [Carries]; decide) <|
    .call (c := 23) (pre := []) (post := []) (by decide) (by decide) (by decide) (Or.inl ⟨0, 1, [1], by decide, by decide,
      by decide, .ret hg, fun l' h => ?_⟩) <|
    .into (c := 24) (by decide) (by simp only [Carries]; decide) <| .here (by decide)
  cases h with
  | free h => rw [hg] at h; cases h
  | step h hn => rw [hg] at h; cases h; exact hn rfl

unseal Nodes.search in
example : OutlivesLocal goodProg3 9 16 :=
  C57_declare_partial good3_accepted (a := 14) (r := 17) ⟨by decide, by decide, 15, [], [], by decide, by decide⟩ (by decide) good3_only

unseal Nodes.search Nodes.lifetime Nodes.isRef Lt.followCheck in
/-- The result of `g` is not put where it lives longer than the argument. -/
example : ∃ i, (linkedCalls (file [fn "g" [argLt "a" "return", nd .expr [item "a"]],
    fn "f" [nd .block [decl "y" (obj []), nd .expr [nd .block [decl "x" (val .str),
      stmt .set (item "y") (obj [("p", callOf "g" [item "x"])])]]]]])).checkLifetimes =
    .reject i "`x` does not live long enough" := ⟨_, rfl⟩

/-- The functions `push_ref(mut list, item: 'list)` and `println(a)` of the host. -/
def withPush (ns : Nodes) : Nodes := match (linked ns).linkCalls ⟨((⟨Mod.Map.empty, [], []⟩ : Mod.Prelude).insert [] "push_ref(mut,_)"
    ⟨[.default, .arg 0], [.array .any, .any], .void, [], []⟩).insert [] "println" ⟨[.default], [.any], .void, [], []⟩,
    Mod.Map.empty⟩ with
  | .ok ns' => ns'
  | .error _ => []

/-- ```
fn f() {
    x := "a"
    y := []
    push_ref(mut y, x)
    go println(x)
}
``` -/
def goodProg4 : Nodes := withPush (file [.mk { kind := .fn, names := ["f"], ty := some .void } [arg "u", nd .block [
  decl "x" (val .str), decl "y" (nd .array []),
  nd .expr [.mk { kind := .call, names := ["push_ref(mut,_)"] } [nd .callArg [item "y"], nd .callArg [item "x"]]],
  nd .expr [nd .go [callOf "println" [item "x"]]]]]])

unseal Nodes.search Nodes.lifetime Nodes.isRef Lt.followCheck in
theorem good4_accepted : goodProg4.checkLifetimes = .accept := by rfl

unseal Nodes.search in
theorem good4_only {n c d : Nat} (hc : (goodProg4.at n).children = [c]) (hk : (goodProg4.at n).kind = .callArg)
    (hi : (goodProg4.at c).kind = .item) (hcc : (goodProg4.at c).children = [])
    (hd : (goodProg4.at c).declaration = some d) : Only goodProg4 n d := by
  refine only_of [n, c] (by simp) ?_ ?_ ⟨c, .into (c := c) (by simp [hc]) ?_ (.here hi), hd⟩
  · simp [hc, hcc]
  · simp [hk, hd]
  · rw [hk, hi]; simp [Carries]

unseal Nodes.search in
/-- The hypotheses of `C57_void`, `C57_call_args_partial`, `C57_go_host`, `C57_host_param_partial` and `C57_host_call` are met. -/
example : (goodProg4.at 1).lifetime ≠ some "return" ∧ OutlivesLocal goodProg4 6 18 ∧ OutlivesLocal goodProg4 6 13 ∧
    (∀ lt, (goodProg4.at 25).lts[0]? = some lt → lt = .default) ∧ goodProg4.lifetime 18 = .done (.err .none) :=
  ⟨C57_void good4_accepted (f := 0) (by decide) (by decide) rfl (by decide) (by decide),
   C57_call_args_partial good4_accepted (a := 21) (by decide) (by decide) (by decide) (by decide)
     (good4_only (c := 22) (by decide) (by decide) (by decide) (by decide) (by decide)),
   ((C57_host_param_partial good4_accepted (c := 18) (k := 1) (r := 21) (lt := .arg 0) (by decide) (by decide) (by decide)
     (by decide) (by decide) (by unfold NoSwizzle; decide)).2 0 rfl 19 13 6 (by decide)
     (good4_only (c := 20) (by decide) (by decide) (by decide) (by decide) (by decide))
     (good4_only (c := 22) (by decide) (by decide) (by decide) (by decide) (by decide))).2.1 (by decide),
   fun lt h => C57_go_host good4_accepted (c := 25) (p := 24) (k := 0) (by decide) (by decide) (by decide) (by decide)
     (by decide) h (by decide),
   C57_host_call (by decide) (by decide) (by decide) (by
     have : (goodProg4.at 18).lts = [.default, .arg 0] := by decide
     rw [this]
     simp only [List.mem_cons, List.not_mem_nil, or_false, forall_eq_or_imp, forall_eq]
     exact ⟨⟨0, .default⟩, 1, .arg rfl .default⟩)⟩


/-- ```
fn f() -> {
    a := "x"
    b := {}
    {
        c := "hi"
        b = {p: a, q: c}
    }
    d := "bye"
    return clone(b.q)
}
``` without the last line -/
def longestProg : Nodes := linked (file [fn "f" [nd .block [
  decl "a" (val .str), decl "b" (obj []),
  nd .expr [nd .block [decl "c" (val .str),
    stmt .set (item "b") (obj [("p", item "a"), ("q", item "c")])]],
  decl "d" (val .str)]]])

unseal Nodes.search Nodes.lifetime Nodes.isRef Lt.followCheck in
/-- Finding: of a value with several parts only the part that lives longest is compared, so a
reference to `c`, which is gone after the inner block, may be stored in `b` together with a
reference to `a`. -/
theorem C57_longest_part : longestProg.checkLifetimes = .accept := by rfl

unseal Nodes.search Nodes.lifetime Nodes.isRef Lt.followCheck in
/-- Without `p: a` it is refused. -/
example : ∃ i, (linked (file [fn "f" [nd .block [decl "a" (val .str), decl "b" (obj []),
    nd .expr [nd .block [decl "c" (val .str), stmt .set (item "b") (obj [("q", item "c")])]],
    decl "d" (val .str)]]])).checkLifetimes = .reject i "`c` does not live long enough" := ⟨_, rfl⟩

unseal Nodes.search Nodes.lifetime Nodes.isRef Lt.followCheck in
/-- Finding: for the same reason `fn f(b: 'return) -> { x := "a"; return {p: x, q: b} }` is
accepted and returns a reference to `x`. -/
theorem C57_return_longest_part : (linked (file [fn "f" [argLt "b" "return", nd .block [
    decl "x" (val .str), ret (obj [("p", item "x"), ("q", item "b")])]]])).checkLifetimes = .accept := by
  rfl

/-- ```
fn f() {
    a := {}
    {
        c := "hi"
        g(mut a, c)
    }
}
fn g(mut a, b) { a.x := {y: b} }
``` -/
def propertyProg : Nodes := linkedCalls (file [
  fn "f" [nd .block [decl "a" (obj []), nd .expr [nd .block [decl "c" (val .str),
    call "g" [item "a", item "c"]]]]],
  fn "g" [argMut "a", arg "b", nd .block [stmt .assign (prop "a" "x") (obj [("y", item "b")])]]])

unseal Nodes.search Nodes.lifetime Nodes.isRef Lt.followCheck in
/-- Finding: `a.x := ..` for an argument `a` is checked as if `a` were a local variable, so `b`
may be stored in `a` without the annotation `b: 'a` that `a.x = ..` requires. -/
theorem C57_property_of_argument : propertyProg ≠ [] ∧ propertyProg.checkLifetimes = .accept ∧
    ∃ i m, (linked (file [fn "g" [argMut "a", arg "b",
      nd .block [stmt .set (prop "a" "x") (obj [("y", item "b")])]]])).checkLifetimes = .reject i m :=
  ⟨by decide, by rfl, _, _, rfl⟩

unseal Nodes.search Nodes.lifetime Nodes.isRef Lt.followCheck in
/-- Finding: the position of a parameter is used as position of a child of the call, also when a
swizzle stands for several arguments: for `fn f(a, b, c: 'd, d) {}` the checker panics on the
call `f(xy v, y, z)`. -/
theorem C57_swizzle : (linkedCalls (file [
    fn "f" [arg "a", arg "b", argLt "c" "d", arg "d", nd .block []],
    fn "g" [nd .block [decl "v" (val .vec4), decl "z" (val .f64), decl "y" (val .f64),
      nd .expr [.mk { kind := .call, names := ["f"] }
        [nd .callArg [nd .swizzle [nd .sw0 [], nd .sw1 [], nd .expr [item "v"]]],
         nd .callArg [item "y"], nd .callArg [item "z"]]]]]])).checkLifetimes = .crash := by rfl

section
variable [FloatOps] [VecMath]

open Dyon.Demo in
set_option maxHeartbeats 4000000 in
/-- The program of `longestProg` runs, and returns what is in the variable `d`, although
`b.q` was set to `c`. -/
theorem C57_longest_part_runs : ∃ st, eval (cfg []) 12 (.block [
    Dyon.Demo.decl "a" (str "x"), Dyon.Demo.decl "b" (.object []),
    .block [Dyon.Demo.decl "c" (str "hi"),
      .assign .set (var "b" 2) (.object [("p", var "a" 3), ("q", var "c" 1)])],
    Dyon.Demo.decl "d" (str "bye"),
    .ret (.call (.ret (lib .clone)) "clone" [.item (.mk "b" (some 2) false false [.str "q"] [])])]) .right
    { empty with calls := [⟨"f", 0, none, 0, 0, 0⟩] } = .ok (some (.str "bye"), .ret) st := ⟨_, rfl⟩

open Dyon.Demo in
set_option maxHeartbeats 4000000 in
/-- The call of `propertyProg`: afterwards `a`, in slot 0, has a reference to `c`, in slot 1, which
is declared in the inner block. -/
theorem C57_property_of_argument_runs :
    eval (cfg [Dyon.Demo.fn "g" ["a", "b"] false
        [.assign .assign (.item (.mk "a" (some 2) false false [.str "x"] [])) (.object [("y", var "b" 1)])]])
      7 (.call (.loaded 0) "g" [var "a" 2, var "c" 2]) .right
      { empty with
        calls := [⟨"f", 0, none, 0, 0, 0⟩], stack := [.object [], .str "hi"], locals := [("a", 0), ("c", 1)] } =
    .ok (none, .cont) { empty with
        calls := [⟨"f", 0, none, 0, 0, 0⟩],
        stack := [.object [("x", .object [("y", .ref 1)])], .str "hi"], locals := [("a", 0), ("c", 1)] } := rfl

end

end Demo

end Dyon.Check
