import Verif.Check.Ranges
import Verif.Check.ResolveProps
import Verif.Check.TextProps

/-!
# C78: loops whose range is left out
-/

namespace Dyon.Check

open Spec

/-! ## Specification -/

namespace Spec

/-- `p` is the index `[..]` that has nothing in it but `i`: between the two there are only nodes
for expressions, and sums and products of one term. -/
inductive Alone (ns : Nodes) : Nat → Nat → Prop
  | index {i p} : (ns.at i).parent = some p → (ns.at p).kind = .id → Alone ns i p
  | wrap {i q p} : (ns.at i).parent = some q →
      (ns.at q).kind = .val ∨ (ns.at q).kind = .expr ∨
        ((ns.at q).kind = .mul ∨ (ns.at q).kind = .add) ∧ (ns.at q).children.length ≤ 1 →
      Alone ns q p → Alone ns i p

/-- `l` is a loop over numbers for which no range is written. -/
def NoRange (ns : Nodes) (l : Nat) : Prop :=
  l < ns.length ∧ ((ns.at l).kind ∈ [.forN, .sum, .prod, .sumVec4, .prodVec4, .min, .max, .sift, .any, .all,
      .linkFor]) ∧ ∀ c ∈ (ns.at l).children, (ns.at c).kind ≠ .end'

/-- The variable `x` of the loop `l` is somewhere used as an index, as in `list[x]`. -/
def IndexedBy (ns : Nodes) (l : Nat) (x : String) : Prop :=
  ∃ i p, Uses ns i x ∧ Means ns i x l ∧ Alone ns i p

end Spec

theorem alone_iff {ns : Nodes} (hf : Forest ns) : ∀ i, ns.indexAlone i = true ↔ ∃ p, Alone ns i p := by
  intro i
  induction i using Nat.strongRecOn with
  | ind i ih =>
    rw [Nodes.indexAlone]
    cases hp : (ns.at i).parent with
    | none =>
      simp only [Bool.false_eq_true, false_iff, not_exists]
      intro p h
      cases h with
      | index h _ => rw [hp] at h; cases h
      | wrap h _ _ => rw [hp] at h; cases h
    | some q =>
      have hlt := (hf i q hp).1
      simp only [hlt, if_true]
      have inv : ∀ p, Alone ns i p ↔ ((ns.at q).kind = .id ∧ p = q) ∨
          (((ns.at q).kind = .val ∨ (ns.at q).kind = .expr ∨
            ((ns.at q).kind = .mul ∨ (ns.at q).kind = .add) ∧ (ns.at q).children.length ≤ 1) ∧ Alone ns q p) := by
        intro p
        constructor
        · intro h
          cases h with
          | index h hk => rw [hp] at h; cases h; exact Or.inl ⟨hk, rfl⟩
          | wrap h hk ha => rw [hp] at h; cases h; exact Or.inr ⟨hk, ha⟩
        · rintro (⟨hk, rfl⟩ | ⟨hk, ha⟩)
          · exact .index hp hk
          · exact .wrap hp hk ha
      simp only [inv]
      have ih' := ih q hlt
      cases hk : (ns.at q).kind <;> simp [ih', exists_or] <;> omega

theorem openLoops_iff (ns : Nodes) (l : Nat) : l ∈ ns.openLoops ↔ NoRange ns l := by
  simp only [Nodes.openLoops, List.mem_filter, List.mem_range, NoRange, Nodes.child, Bool.and_eq_true,
    Option.isNone_iff_eq_none, List.find?_eq_none, decide_eq_true_eq]
  refine and_congr_right fun _ => and_congr_left fun _ => ?_
  cases (ns.at l).kind <;> simp [Kind.isDeclLoop]

theorem linkItems_length {ns' : Nodes} : ∀ {is : List Nat} {ns : Nodes}, ns.linkItems is = .ok ns' →
    ns'.length = ns.length
  | [], ns, h => by cases h; rfl
  | i :: is, ns, h => by
    rw [Nodes.linkItems] at h
    cases hr : ns.resolve i with
    | error e => rw [hr] at h; cases h
    | ok r =>
      rw [hr] at h
      cases r with
      | none => exact linkItems_length h
      | some j => exact (linkItems_length h).trans (setDecl_length ns i j)

theorem linkItems_none {ns' : Nodes} {k : Nat} : ∀ {is : List Nat} {ns : Nodes}, ns.linkItems is = .ok ns' →
    ns.resolve k = .ok none → (ns'.at k).declaration = (ns.at k).declaration
  | [], ns, h, _ => by cases h; rfl
  | i :: is, ns, h, hk => by
    rw [Nodes.linkItems] at h
    cases hr : ns.resolve i with
    | error e => rw [hr] at h; cases h
    | ok r =>
      rw [hr] at h
      cases r with
      | none => exact linkItems_none h hk
      | some j =>
        have hne : i ≠ k := by
          rintro rfl
          rw [hk] at hr
          cases hr
        rw [linkItems_none h (((alike_setDecl ns i j).resolve k).symm.trans hk), setDecl_at]
        simp [hne]

theorem items_spec {ns : Nodes} {i : Nat} : i ∈ ns.items ↔
    i < ns.length ∧ (ns.at i).kind = .item ∧ ¬ IsDeclared ns i := by
  constructor
  · intro hi
    simp only [Nodes.items, List.mem_filter, List.mem_range, Bool.and_eq_true,
      decide_eq_true_eq, Bool.not_eq_true', List.contains_eq_mem, decide_eq_false_iff_not] at hi
    refine ⟨hi.1, hi.2.1, fun ⟨a, l, ha, hop, hc, hl, hch⟩ => hi.2.2 ?_⟩
    simp only [Nodes.locals, List.mem_filterMap, List.mem_filter, List.mem_range]
    refine ⟨a, ⟨ha, ?_⟩, ?_⟩
    · simp only [Nodes.isDeclare, hop, hc, decide_true, Bool.true_and]
      cases hcl : (ns.at l).children with
      | nil => rw [hcl] at hl; cases hl
      | cons _ _ => rfl
    · rw [Option.filter_eq_some_iff]
      exact ⟨by simp [Nodes.leftItem, hc, hl], by simp [Node.itemIds, hch]⟩
  · rintro ⟨h1, h2, h5⟩
    simp only [Nodes.items, List.mem_filter, List.mem_range, h1, h2, decide_true, Bool.true_and,
      true_and, Bool.not_eq_true', List.contains_eq_mem, decide_eq_false_iff_not]
    intro hm
    apply h5
    simp only [Nodes.locals, List.mem_filterMap, List.mem_filter, List.mem_range] at hm
    obtain ⟨a, ⟨ha, hd⟩, hl⟩ := hm
    rw [Option.filter_eq_some_iff] at hl
    obtain ⟨hl, hids⟩ := hl
    simp only [Nodes.isDeclare, Bool.and_eq_true, decide_eq_true_eq] at hd
    simp only [Nodes.leftItem] at hl
    cases hc : (ns.at a).children.head? with
    | none => rw [hc] at hl; cases hl
    | some l =>
      rw [hc] at hl
      exact ⟨a, l, ha, hd.1, hc, hl, by simpa [Node.itemIds, h2] using hids⟩

theorem Alike.items {ns ns' : Nodes} (h : Alike ns ns') (hl : ns'.length = ns.length) (i : Nat) :
    i ∈ ns'.items ↔ i ∈ ns.items := by
  simp only [items_spec, IsDeclared, hl, h.kind, h.op, h.children]

theorem Alike.openLoops {ns ns' : Nodes} (h : Alike ns ns') (hl : ns'.length = ns.length) (l : Nat) :
    l ∈ ns'.openLoops ↔ NoRange ns l := by
  simp only [openLoops_iff, NoRange, hl, h.kind, h.children]

theorem Alike.alone {ns ns' : Nodes} (h : Alike ns ns') {i p : Nat} (ha : Alone ns i p) : Alone ns' i p := by
  induction ha with
  | index hp hk => exact .index (h.parent _ ▸ hp) (h.kind _ ▸ hk)
  | wrap hp hk _ ih =>
    rw [h.parent] at hp
    rw [h.kind, h.children] at hk
    exact .wrap hp hk ih

theorem Alike.symm {ns ns' : Nodes} (h : Alike ns ns') : Alike ns' ns := fun k => (h k).symm

theorem rangeFound_iff {ns ns' : Nodes} (hf : Forest ns) (hd : ∀ i, (ns.at i).declaration = none)
    (h : ns.linkAll = .ok ns') (l : Nat) (x : String) : ns'.rangeFound l x = true ↔ IndexedBy ns l x := by
  obtain ⟨ha, _, h3⟩ := linkItems_ok (items_nodup ns) (items_lt ns) h
  have hl := linkItems_length h
  have hf' : Forest ns' := by
    intro i p hp
    rw [← ha.parent] at hp
    rw [← ha.children]
    exact hf i p hp
  simp only [Nodes.rangeFound, List.any_eq_true, ha.items hl, Bool.and_eq_true, decide_eq_true_eq, alone_iff hf']
  have hn : ∀ i, (ns'.at i).name = (ns.at i).name := fun i => by simp only [Node.name, ha.names]
  constructor
  · rintro ⟨i, hi, ⟨hdec, hx⟩, p, hp⟩
    rw [hn] at hx
    obtain ⟨r, hr, hr'⟩ := h3 i hi
    cases r with
    | none =>
      rw [linkItems_none h hr, hd] at hdec
      cases hdec
    | some j =>
      rw [hr' j rfl] at hdec
      cases hdec
      obtain ⟨i1, i2, i3⟩ := items_spec.1 hi
      refine ⟨i, p, ⟨i1, i2, hx, ?_, i3⟩, resolve_means hx hr, ha.symm.alone hp⟩
      rintro rfl
      simp [Nodes.resolve, hx] at hr
  · rintro ⟨i, p, hu, hm, hp⟩
    have hi := uses_items hu
    obtain ⟨r, hr, hr'⟩ := h3 i hi
    rw [means_resolve hf hu.2.2.1 hu.2.2.2.1 hm] at hr
    cases hr
    exact ⟨i, hi, ⟨hr' l rfl, (hn i).trans hu.2.2.1⟩, p, ha.alone hp⟩

/-! ## C78 -/

/-- **C78.** A file whose variables have declarations passes the check of ranges if and only if
every variable of a loop without range is somewhere used as an index: as the only thing in the
brackets of `list[x]`, where `x` means the variable of this loop and not of another. -/
theorem C78_accepted_iff {ns ns' : Nodes} (hf : Forest ns) (hd : ∀ i, (ns.at i).declaration = none)
    (h : ns.linkAll = .ok ns') :
    ns'.ranges = .ok () ↔ ∀ l, NoRange ns l → ∀ x ∈ (ns.at l).names, IndexedBy ns l x := by
  obtain ⟨ha, _, _⟩ := linkItems_ok (items_nodup ns) (items_lt ns) h
  have hl := linkItems_length h
  unfold Nodes.ranges
  cases hr : ns'.openLoops.find? fun inf => (ns'.at inf).names.any fun x => !ns'.rangeFound inf x with
  | some l =>
    simp only [reduceCtorEq, false_iff]
    intro hall
    have h1 := List.find?_some hr
    have h2 := (ha.openLoops hl l).1 (List.mem_of_find?_eq_some hr)
    simp only [List.any_eq_true, Bool.not_eq_true'] at h1
    obtain ⟨x, hx, hb⟩ := h1
    rw [← ha.names] at hx
    rw [(rangeFound_iff hf hd h l x).2 (hall l h2 x hx)] at hb
    cases hb
  | none =>
    simp only [true_iff]
    intro l hn x hx
    rw [List.find?_eq_none] at hr
    have := hr l ((ha.openLoops hl l).2 hn)
    simp only [List.any_eq_true, Bool.not_eq_true', not_exists, not_and, Bool.not_eq_false] at this
    rw [ha.names] at hx
    exact (rangeFound_iff hf hd h l x).1 (this x hx)

/-- **C78.** A refused file is refused because of a loop without range that has a variable that is
nowhere used as an index, and this loop is the one that is reported. -/
theorem C78_refused {ns ns' : Nodes} (hf : Forest ns) (hd : ∀ i, (ns.at i).declaration = none)
    (h : ns.linkAll = .ok ns') {l : Nat} (he : ns'.ranges = .error l) :
    NoRange ns l ∧ (∃ x ∈ (ns.at l).names, ¬ IndexedBy ns l x) ∧
      ∀ l' < l, NoRange ns l' → ∀ x ∈ (ns.at l').names, IndexedBy ns l' x := by
  obtain ⟨ha, _, _⟩ := linkItems_ok (items_nodup ns) (items_lt ns) h
  have hl := linkItems_length h
  unfold Nodes.ranges at he
  cases hr : ns'.openLoops.find? fun inf => (ns'.at inf).names.any fun x => !ns'.rangeFound inf x with
  | none => rw [hr] at he; cases he
  | some l0 =>
    rw [hr] at he
    cases he
    have h1 := List.find?_some hr
    simp only [List.any_eq_true, Bool.not_eq_true'] at h1
    obtain ⟨x, hx, hb⟩ := h1
    refine ⟨(ha.openLoops hl l).1 (List.mem_of_find?_eq_some hr), ⟨x, ha.names l ▸ hx, fun hi => ?_⟩, ?_⟩
    · rw [(rangeFound_iff hf hd h l x).2 hi] at hb
      cases hb
    · intro l' hlt hn y hy
      obtain ⟨_, as, bs, he, hall⟩ := List.find?_eq_some_iff_append.1 hr
      have hm := (ha.openLoops hl l').2 hn
      have hs : ns'.openLoops.Pairwise (· < ·) := List.pairwise_lt_range.filter _
      rw [he] at hm hs
      have hmem : l' ∈ as := by
        rcases List.mem_append.1 hm with h | h
        · exact h
        · exfalso
          rcases List.mem_cons.1 h with rfl | h
          · omega
          · have := (List.pairwise_cons.1 (List.pairwise_append.1 hs).2.1).1 l' h
            omega
      have := hall l' hmem
      simp only [Bool.not_eq_true', List.any_eq_false, Bool.not_eq_true, Bool.not_eq_false'] at this
      rw [ha.names] at hy
      exact (rangeFound_iff hf hd h l' y).1 (by simpa using this y hy)

/-! ## Examples and findings -/

namespace RangeDemo

open TextDemo (v letv call fn)
open Front (Src FnSrc)

variable [FloatOps] [Data.Lex]

/-- `list[i]..` -/
def at' (x : String) (is : List Src) : Src := .item (.mk false x false (is.map fun i => .expr i false))

/-- Whether the checker finds the declarations and the ranges of a file of one function. -/
def Passes (f : FnSrc) : Bool :=
  match built [f.tree] with
  | .error _ => false
  | .ok ts => match (arena ts).linkAll with
    | .error _ => false
    | .ok ns => match ns.ranges with
      | .error _ => false
      | .ok _ => true

/-- `fn main(a) { for i { print(a[i]) } }` -/
def indexed : FnSrc := fn ["a"] [.forN .forN none [.plain "i"] [call "print" [at' "a" [v "i"]]]]

example : Passes indexed = true := by with_unfolding_all rfl

/-- `fn main(a) { for i { for i { print(a[i]) } } }` -/
def shadowed : FnSrc := fn ["a"] [.forN .forN none [.plain "i"] [
  .forN .forN none [.plain "i"] [call "print" [at' "a" [v "i"]]]]]

example : Passes shadowed = false := by with_unfolding_all rfl

/-- `fn main(a) { for i { print(a[i + i]) } }` -/
def computed : FnSrc := fn ["a"] [.forN .forN none [.plain "i"] [call "print" [at' "a" [
  .add (.mk (.plain (v "i")) []) [(.add, .mk (.plain (v "i")) [])]]]]]

example : Passes computed = false := by with_unfolding_all rfl

/-- The hypotheses of the theorems hold for the file with `indexed`. -/
example : ∃ ts ns', built [indexed.tree] = .ok ts ∧ (arena ts).linkAll = .ok ns' ∧ Forest (arena ts) ∧
    (∀ i, ((arena ts).at i).declaration = none) ∧ ns'.ranges = .ok () ∧ ∃ l, NoRange (arena ts) l := by
  obtain ⟨ts, h⟩ : ∃ ts, built [indexed.tree] = .ok ts := ⟨_, rfl⟩
  have h' := h
  cases h
  refine ⟨_, _, h', (by with_unfolding_all rfl), Demo.forest_of (by with_unfolding_all decide), ?_,
    (by with_unfolding_all rfl), 4, ?_⟩
  · intro i
    by_cases hi : i < 13
    · revert i; with_unfolding_all decide
    · unfold Nodes.at
      rw [List.getD_eq_getElem?_getD, List.getElem?_eq_none (by change 13 ≤ i; omega)]
      rfl
  · with_unfolding_all exact ⟨by decide, by decide, by decide⟩

/-- `for i 3, j { }` -/
def secondOpen (three : F64) : Src := .forN .forN none [.upto "i" (.num three), .plain "j"] []

/-- **Finding (C78).** One written range makes the check skip all variables of the loop: `for i 3, j { }`
passes, and the file then fails to be converted, without a message. -/
theorem C78_second_range (three : F64) (file : String) :
    Passes (fn [] [secondOpen three]) = true ∧ Front.toExpr file (secondOpen three).tree = .error .err :=
  ⟨by with_unfolding_all rfl, Front.C68_expression file (secondOpen three)⟩

/-- `for i { b := [true]  print(b[i]) }` -/
def localList : Src := .forN .forN none [.plain "i"] [letv "b" (.array [.bool true]), call "print" [at' "b" [v "i"]]]

/-- `b`, without a place on the stack. -/
def lostB : Dyon.Item := .mk "b" none false false [] []

open Dyon.Demo in
/-- **Finding (C78).** A loop that indexes only a list that is declared in the loop passes the check.
Its range is the length of `b`, but there is no `b` outside of the loop: `b` gets no place on the
stack and reading it panics. -/
theorem C78_local_list [VecMath] (file : String) : Passes (fn [] [localList]) = true ∧
    ∃ body, Front.toExpr file localList.tree =
        .ok (.forN .forN "i" none (.call .none "len" [.item lostB]) body none) ∧
      (∀ k, ∃ body', (getLocals k (.forN .forN "i" none (.call .none "len" [.item lostB]) body none) [] []).1 =
        .forN .forN "i" none (.call .none "len" [.item lostB]) body' none) ∧
      ∃ msg, eval (cfg []) 7 (.item lostB) .right { empty with calls := [⟨"main", 0, none, 0, 0, 0⟩] } = .panic msg :=
  ⟨by with_unfolding_all rfl, _, (Front.C68_expression file localList).trans rfl, fun _ => ⟨_, rfl⟩, _, rfl⟩

/-- `for i { print(a[x + x][i]) }` -/
def behindSum : Src := .forN .forN none [.plain "i"] [call "print" [at' "a" [
  .add (.mk (.plain (v "x")) []) [(.add, .mk (.plain (v "x")) [])], v "i"]]]

/-- **Finding (C78).** So does a loop that indexes behind a computed index. -/
theorem C78_behind_sum (file : String) :
    Passes (fn ["a", "x"] [behindSum]) = true ∧ Front.toExpr file behindSum.tree = .error .err :=
  ⟨by with_unfolding_all rfl, Front.C68_expression file behindSum⟩

end RangeDemo

end Dyon.Check
