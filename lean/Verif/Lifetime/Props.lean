import Verif.Lifetime.Lemmas

/-!
# C07–C10, C52, C53: lifetimes
-/

namespace Dyon.Lt

/-! ## C07: the order on lifetimes -/

/-- Specification: `Outlives a b` — `a` strictly outlives `b`. -/
inductive Outlives : Lifetime → Lifetime → Prop
  /-- current objects, arguments and the return value outlive every local -/
  | curLoc (a b) : Outlives (.cur a) (.loc b)
  | argLoc (a b) : Outlives (.arg a) (.loc b)
  | retLoc (a b) : Outlives (.ret a) (.loc b)
  /-- a local outlives the locals declared after it -/
  | locLoc {a b} : a < b → Outlives (.loc a) (.loc b)
  /-- an argument with `'return` lifetime outlives the return value -/
  | retRet (i a) : Outlives (.ret (i :: a)) (.ret [])
  /-- among related arguments the longer chain outlives the shorter -/
  | chain {a b i} : i ∈ a → i ∈ b → b.length < a.length → Outlives (.arg a) (.arg b)
  | retChain {a b i} : i ∈ a → i ∈ b → b.length < a.length → Outlives (.ret a) (.ret b)

/-- Specification: the two lifetimes last equally long. -/
inductive Same : Lifetime → Lifetime → Prop
  | cur (a) : Same (.cur a) (.cur a)
  | loc (a) : Same (.loc a) (.loc a)
  | ret : Same (.ret []) (.ret [])
  | chain {a b i} : i ∈ a → i ∈ b → a.length = b.length → Same (.arg a) (.arg b)
  | retChain {a b i} : i ∈ a → i ∈ b → a.length = b.length → Same (.ret a) (.ret b)

theorem cmp_ret (a b : List Nat) : partialCmp (.ret a) (.ret b) =
    match a, b with
    | [], [] => some .eq
    | [], _ :: _ => some .lt
    | _ :: _, [] => some .gt
    | a, b => compareArgumentOutlives a b := by
  cases a <;> cases b <;> simp [partialCmp]

/-- **C07** The comparison answers "greater" exactly when the left side outlives the
right side. -/
theorem C07_greater (l r : Lifetime) : partialCmp l r = some .gt ↔ Outlives l r := by
  constructor
  · intro h
    cases l <;> cases r
    case ret.ret a b =>
      rw [cmp_ret] at h
      split at h <;> try cases h
      · exact .retRet _ _
      · rw [cao] at h
        split at h
        · next hc =>
          obtain ⟨i, h1, h2⟩ := hc
          simp only [Option.some.injEq, cmpNat_gt] at h
          exact .retChain h1 h2 h
        · cases h
    case arg.arg a b =>
      simp only [partialCmp, cao] at h
      split at h
      · next hc =>
        obtain ⟨i, h1, h2⟩ := hc
        simp only [Option.some.injEq, cmpNat_gt] at h
        exact .chain h1 h2 h
      · cases h
    case loc.loc a b =>
      simp only [partialCmp, Option.some.injEq, cmpNat_gt] at h
      exact .locLoc h
    case cur.cur a b =>
      simp only [partialCmp] at h
      split at h <;> cases h
    all_goals first
      | (simp [partialCmp] at h; done)
      | constructor
  · intro h
    cases h with
    | curLoc a b => rfl
    | argLoc a b => rfl
    | retLoc a b => rfl
    | locLoc h => simp [partialCmp, cmpNat_gt, h]
    | retRet i a => rw [cmp_ret]
    | chain h1 h2 h3 =>
      simp only [partialCmp, cao]
      rw [if_pos ⟨_, h1, h2⟩, Option.some.injEq, cmpNat_gt]; exact h3
    | retChain h1 h2 h3 =>
      rename_i a b i
      rw [cmp_ret]
      cases a with
      | nil => simp at h1
      | cons x a =>
        cases b with
        | nil => simp at h2
        | cons y b =>
          simp only [cao]
          rw [if_pos ⟨_, h1, h2⟩, Option.some.injEq, cmpNat_gt]; exact h3

theorem Same.symm' {l r : Lifetime} (h : Same l r) : Same r l := by
  cases h with
  | cur a => exact .cur a
  | loc a => exact .loc a
  | ret => exact .ret
  | chain h1 h2 h3 => exact .chain h2 h1 h3.symm
  | retChain h1 h2 h3 => exact .retChain h2 h1 h3.symm

/-- **C07** Swapping the operands reverses the answer. -/
theorem C07_antisymm (l r : Lifetime) : partialCmp r l = (partialCmp l r).map Ordering.swap := by
  have hc : ∀ a b : List Nat, compareArgumentOutlives b a =
      (compareArgumentOutlives a b).map Ordering.swap := by
    intro a b
    simp only [cao]
    have : (∃ i, i ∈ b ∧ i ∈ a) ↔ ∃ i, i ∈ a ∧ i ∈ b := by
      constructor <;> rintro ⟨i, h1, h2⟩ <;> exact ⟨i, h2, h1⟩
    simp only [this]
    split
    · simp only [Option.map_some, Option.some.injEq]; exact cmpNat_swap _ _
    · rfl
  cases l <;> cases r
  case ret.ret a b =>
    rw [cmp_ret, cmp_ret]
    cases a <;> cases b <;> first | rfl | exact hc _ _
  case arg.arg a b => exact hc a b
  case loc.loc a b => simp only [partialCmp, Option.map_some, Option.some.injEq]; exact cmpNat_swap _ _
  case cur.cur a b =>
    simp only [partialCmp]
    by_cases h : a = b
    · subst h; simp [Ordering.swap]
    · rw [if_neg h, if_neg (fun e => h e.symm)]; rfl
  all_goals rfl

/-- **C07** The comparison answers "less" exactly when the right side outlives the
left side. -/
theorem C07_less (l r : Lifetime) : partialCmp l r = some .lt ↔ Outlives r l := by
  rw [← C07_greater, C07_antisymm l r]
  cases partialCmp l r with
  | none => simp
  | some o => cases o <;> simp [Ordering.swap]

/-- **C07** The comparison answers "equal" exactly for lifetimes that last equally
long. -/
theorem C07_equal (l r : Lifetime) : partialCmp l r = some .eq ↔ Same l r := by
  constructor
  · intro h
    cases l <;> cases r
    case ret.ret a b =>
      rw [cmp_ret] at h
      split at h <;> try cases h
      · exact .ret
      · rw [cao] at h
        split at h
        · next hc =>
          obtain ⟨i, h1, h2⟩ := hc
          simp only [Option.some.injEq, cmpNat_eq] at h
          exact .retChain h1 h2 h
        · cases h
    case arg.arg a b =>
      simp only [partialCmp, cao] at h
      split at h
      · next hc =>
        obtain ⟨i, h1, h2⟩ := hc
        simp only [Option.some.injEq, cmpNat_eq] at h
        exact .chain h1 h2 h
      · cases h
    case loc.loc a b =>
      simp only [partialCmp, Option.some.injEq, cmpNat_eq] at h
      subst h
      exact .loc _
    case cur.cur a b =>
      simp only [partialCmp] at h
      split at h
      · next e => subst e; exact .cur _
      · cases h
    all_goals (simp [partialCmp] at h; done)
  · intro h
    cases h with
    | cur a => simp [partialCmp]
    | loc a => simp [partialCmp, cmpNat_eq]
    | ret => rw [cmp_ret]
    | chain h1 h2 h3 =>
      simp only [partialCmp, cao]
      rw [if_pos ⟨_, h1, h2⟩, Option.some.injEq, cmpNat_eq]; exact h3
    | retChain h1 h2 h3 =>
      rename_i a b i
      rw [cmp_ret]
      cases a with
      | nil => simp at h1
      | cons x a =>
        cases b with
        | nil => simp at h2
        | cons y b =>
          simp only [cao]
          rw [if_pos ⟨_, h1, h2⟩, Option.some.injEq, cmpNat_eq]; exact h3

/-- **C07** Every lifetime compares equal to itself (argument lifetimes always list
at least the argument itself). -/
theorem C07_refl (l : Lifetime) (h : l ≠ .arg []) : partialCmp l l = some .eq := by
  rw [C07_equal]
  cases l with
  | ret a =>
    cases a with
    | nil => exact .ret
    | cons x a => exact .retChain (i := x) (by simp) (by simp) rfl
  | arg a =>
    cases a with
    | nil => exact (h rfl).elim
    | cons x a => exact .chain (i := x) (by simp) (by simp) rfl
  | loc a => exact .loc a
  | cur a => exact .cur a

/-- **C07** A local outlives neither an argument, nor a current object, nor the return
value, nor a local declared before it (or itself). -/
theorem C07_local_shortest (n : Nat) (r : Lifetime) (h : Outlives (.loc n) r) :
    ∃ m, r = .loc m ∧ n < m := by
  cases h with
  | locLoc h => exact ⟨_, rfl, h⟩

/-! ### Transitivity

`Outlives` is not transitive on arbitrary lists of arguments, but the lists the
checker builds are chains of one signature, and on those it is. -/

/-- **C07** finding: on arbitrary lists the order is not transitive. -/
theorem C07_not_transitive_in_general :
    Outlives (.arg [0, 1, 2]) (.arg [2, 3]) ∧ Outlives (.arg [2, 3]) (.arg [3]) ∧
    ¬ Outlives (.arg [0, 1, 2]) (.arg [3]) := by
  refine ⟨.chain (i := 2) (by simp) (by simp) (by simp), .chain (i := 3) (by simp) (by simp) (by simp), ?_⟩
  intro h
  cases h with
  | chain h1 h2 _ => simp at h1 h2; omega

/-- The argument that argument `i` is annotated with (`'return` and no annotation
give none). -/
def next (args : List Arg) (i : Nat) : Option Nat :=
  match lifetimeOf args i with
  | none => none
  | some lt => if lt = "return" then none else argIndex args lt

/-- Specification: `l` is the chain of arguments that starts with `i` and follows the
annotations to the end. -/
inductive Chain (args : List Arg) : Nat → List Nat → Prop
  | last {i} : next args i = none → Chain args i [i]
  | step {i j l} : next args i = some j → Chain args j l → Chain args i (i :: l)

/-- Specification: argument `i` is annotated, directly or through other arguments,
with `'return`. -/
inductive ToReturn (args : List Arg) : Nat → Prop
  | here {i} : lifetimeOf args i = some "return" → ToReturn args i
  | step {i j} : next args i = some j → ToReturn args j → ToReturn args i

theorem Chain.unique {args : List Arg} {i : Nat} {l l' : List Nat}
    (h : Chain args i l) (h' : Chain args i l') : l = l' := by
  induction h generalizing l' with
  | last hn =>
    cases h' with
    | last _ => rfl
    | step hs _ => rw [hn] at hs; cases hs
  | step hs _ ih =>
    cases h' with
    | last hn => rw [hs] at hn; cases hn
    | step hs' hc' =>
      rw [hs] at hs'; cases hs'
      rw [ih hc']

theorem Chain.suffix {args : List Arg} {i k : Nat} {l : List Nat}
    (h : Chain args i l) (hk : k ∈ l) : ∃ m, Chain args k m ∧ ∃ p, l = p ++ m := by
  induction h with
  | last hn =>
    simp at hk; subst hk
    exact ⟨_, .last hn, [], rfl⟩
  | step hs hc ih =>
    rcases List.mem_cons.1 hk with rfl | hk
    · exact ⟨_, .step hs hc, [], rfl⟩
    · obtain ⟨m, h1, p, h2⟩ := ih hk
      exact ⟨m, h1, _ :: p, by rw [h2]; rfl⟩

theorem Chain.ne_nil {args : List Arg} {i : Nat} {l : List Nat} (h : Chain args i l) :
    ∃ z, l.getLast? = some z ∧ z ∈ l ∧ next args z = none := by
  induction h with
  | @last i hn => exact ⟨i, rfl, by simp, hn⟩
  | @step i j l hs hc ih =>
    obtain ⟨z, h1, h2, h3⟩ := ih
    refine ⟨z, ?_, by simp [h2], h3⟩
    cases l with
    | nil => simp at h2
    | cons x l => simpa [List.getLast?_cons_cons] using h1

/-- Two chains of one signature that meet end in the same argument. -/
theorem Chain.last_eq {args : List Arg} {i j k : Nat} {l m : List Nat}
    (hl : Chain args i l) (hm : Chain args j m) (h1 : k ∈ l) (h2 : k ∈ m) :
    l.getLast? = m.getLast? := by
  obtain ⟨s, hs, p, rfl⟩ := hl.suffix h1
  obtain ⟨t, ht, q, rfl⟩ := hm.suffix h2
  have := hs.unique ht
  subst this
  obtain ⟨z, h3, h4, -⟩ := hs.ne_nil
  have hne : s ≠ [] := by rintro rfl; simp at h4
  rw [List.getLast?_append, List.getLast?_append, h3]
  rfl

/-- The lifetimes the checker computes for expressions in a function with signature
`args` are locals, current objects, the return value, and chains. -/
inductive Computed (args : List Arg) : Lifetime → Prop
  | loc (n) : Computed args (.loc n)
  | cur (n) : Computed args (.cur n)
  | ret : Computed args (.ret [])
  | arg {i l} : Chain args i l → Computed args (.arg l)
  | retChain {i l} : Chain args i l → Computed args (.ret l)

/-- **C07** The order is transitive on the lifetimes that the checker computes for a
function signature. -/
theorem C07_transitive (args : List Arg) (a b c : Lifetime)
    (ha : Computed args a) (hb : Computed args b) (hc : Computed args c)
    (hab : Outlives a b) (hbc : Outlives b c) : Outlives a c := by
  have meet : ∀ {i j k x y : Nat} {l m n : List Nat}, Chain args i l → Chain args j m →
      Chain args k n → x ∈ l → x ∈ m → y ∈ m → y ∈ n → ∃ z, z ∈ l ∧ z ∈ n := by
    intro i j k x y l m n hl hm hn h1 h2 h3 h4
    have e1 := hl.last_eq hm h1 h2
    have e2 := hm.last_eq hn h3 h4
    obtain ⟨z, h5, h6, -⟩ := hl.ne_nil
    obtain ⟨w, h7, h8, -⟩ := hn.ne_nil
    rw [e1, e2, h7] at h5
    cases h5
    exact ⟨_, h6, h8⟩
  cases hab with
  | curLoc a b => cases hbc with | locLoc h => exact .curLoc _ _
  | argLoc a b => cases hbc with | locLoc h => exact .argLoc _ _
  | retLoc a b => cases hbc with | locLoc h => exact .retLoc _ _
  | locLoc h => cases hbc with | locLoc h' => exact .locLoc (Nat.lt_trans h h')
  | retRet i a =>
    cases hbc with
    | retLoc _ _ => exact .retLoc _ _
    | retChain h1 => simp at h1
  | chain h1 h2 h3 =>
    cases hbc with
    | argLoc _ _ => exact .argLoc _ _
    | chain h4 h5 h6 =>
      cases ha with | arg ha => cases hb with | arg hb => cases hc with | arg hc =>
      obtain ⟨z, hz1, hz2⟩ := meet ha hb hc h1 h2 h4 h5
      exact .chain hz1 hz2 (Nat.lt_trans h6 h3)
  | retChain h1 h2 h3 =>
    rename_i l m x
    cases hbc with
    | retLoc _ _ => exact .retLoc _ _
    | retRet i a =>
      cases l with
      | nil => simp at h1
      | cons y l => exact .retRet _ _
    | retChain h4 h5 h6 =>
      cases ha with
      | ret => simp at h1
      | retChain ha =>
        cases hb with
        | ret => simp at h2
        | retChain hb =>
          cases hc with
          | ret => simp at h5
          | retChain hc =>
            obtain ⟨z, hz1, hz2⟩ := meet ha hb hc h1 h2 h4 h5
            exact .retChain hz1 hz2 (Nat.lt_trans h6 h3)

/-- Non-vacuity: `fn f(a: 'b, b: 'c, c)` gives three ordered lifetimes. -/
example :
    let args : List Arg := [⟨"a", some "b"⟩, ⟨"b", some "c"⟩, ⟨"c", none⟩]
    Chain args 0 [0, 1, 2] ∧ Chain args 1 [1, 2] ∧ Chain args 2 [2] ∧
    Outlives (.arg [0, 1, 2]) (.arg [1, 2]) ∧ Outlives (.arg [1, 2]) (.arg [2]) := by
  have h2 : Chain [⟨"a", some "b"⟩, ⟨"b", some "c"⟩, ⟨"c", none⟩] 2 [2] := .last (by decide)
  have h1 : Chain [⟨"a", some "b"⟩, ⟨"b", some "c"⟩, ⟨"c", none⟩] 1 [1, 2] := .step (by decide) h2
  exact ⟨.step (by decide) h1, h1, h2, .chain (i := 1) (by simp) (by simp) (by simp),
    .chain (i := 2) (by simp) (by simp) (by simp)⟩

/-! ## C08: the decision -/

/-- The nodes a lifetime talks about exist and have names, and arguments belong to a
named function; a computed argument lifetime names at least the argument itself. -/
def Known (nodes : List NodeInfo) : LtRes → Prop
  | .err _ => True
  | .ok (.loc n) => (nameOf nodes n).isSome
  | .ok (.cur n) => (nameOf nodes n).isSome
  | .ok (.ret l) => ∀ i ∈ l, (nameOf nodes i).isSome
  | .ok (.arg l) => l ≠ [] ∧ ∀ i ∈ l, (nameOf nodes i).isSome ∧
      ∃ n p, nodes[i]? = some n ∧ n.parent = some p ∧ (nameOf nodes p).isSome

/-- Specification of acceptance: one of the sides has no lifetime, or the right side
outlives the left side, or the left side is a local and the parts of the right side
are unrelated. -/
inductive Accepted : LtRes → LtRes → Prop
  | outlives {l r} : Outlives r l → Accepted (.ok l) (.ok r)
  | noRight {l} : Accepted (.ok l) (.err .none)
  | noLeft {r} : Accepted (.err .none) (.ok r)
  | noBoth : Accepted (.err .none) (.err .none)
  | unrelated {n} : Accepted (.ok (.loc n)) (.err .failedToUnify)

theorem notLongEnough_ne {nodes : List NodeInfo} {i : Nat} (h : (nameOf nodes i).isSome) :
    ∃ m, notLongEnough nodes i = .reject m := by
  unfold notLongEnough
  cases hn : nameOf nodes i with
  | none => simp [hn] at h
  | some n => exact ⟨_, rfl⟩

theorem requires_ne {nodes : List NodeInfo} {p : String} {i j : Nat}
    (h : (nameOf nodes i).isSome) (h' : (nameOf nodes j).isSome) :
    ∃ m, requires nodes p i j = .reject m := by
  unfold requires
  cases hn : nameOf nodes i with
  | none => simp [hn] at h
  | some n =>
    cases hm : nameOf nodes j with
    | none => simp [hm] at h'
    | some n => exact ⟨_, rfl⟩

theorem lastOf_mem {l : List Nat} (h : l ≠ []) : ∃ x ∈ l, lastOf l = some x := by
  induction l with
  | nil => exact (h rfl).elim
  | cons x l ih =>
    cases l with
    | nil => exact ⟨x, by simp, rfl⟩
    | cons y l =>
      obtain ⟨z, h1, h2⟩ := ih (by simp)
      exact ⟨z, by simp [h1], by simpa [lastOf] using h2⟩

/-- The pairs on which the checker crashes: the right side is the return value itself
and the left side is an argument or the return value. -/
def Crashes : LtRes → LtRes → Prop
  | .ok (.arg _), .ok (.ret []) => True
  | .ok (.ret _), .ok (.ret []) => True
  | _, _ => False

/-- All three outcomes of the check at once. -/
theorem verdict (nodes : List NodeInfo) (l r : LtRes) (hl : Known nodes l) (hr : Known nodes r) :
    (Accepted l r ∧ ¬ Crashes l r ∧ compareLifetimes nodes l r = .accept) ∨
    (¬ Accepted l r ∧ ¬ Crashes l r ∧ ∃ m, compareLifetimes nodes l r = .reject m) ∨
    (¬ Accepted l r ∧ Crashes l r ∧ compareLifetimes nodes l r = .crash) := by
  cases l with
  | err e =>
    cases r with
    | err e' =>
      cases e <;> cases e'
      · exact .inl ⟨.noBoth, id, rfl⟩
      all_goals exact .inr (.inl ⟨(fun h => by cases h), id, _, rfl⟩)
    | ok r =>
      cases e
      · exact .inl ⟨.noLeft, (by cases r <;> exact id), rfl⟩
      · exact .inr (.inl ⟨(fun h => by cases h), (by cases r <;> exact id), _, rfl⟩)
  | ok l =>
    cases r with
    | err e' =>
      cases e'
      · exact .inl ⟨.noRight, (by cases l <;> exact id), by cases l <;> rfl⟩
      · cases l
        case loc n => exact .inl ⟨.unrelated, id, rfl⟩
        all_goals exact .inr (.inl ⟨(fun h => by cases h), id, _, rfl⟩)
    | ok r =>
      have hacc : Accepted (.ok l) (.ok r) ↔ partialCmp l r = some .lt := by
        rw [C07_less]
        constructor
        · intro h; cases h with | outlives h => exact h
        · exact .outlives
      rw [hacc]
      cases hc : partialCmp l r with
      | none =>
        right
        cases l <;> cases r <;> try (simp [partialCmp] at hc; done)
        case ret.ret a b =>
          cases a with
          | nil => cases b <;> simp [partialCmp] at hc
          | cons x a =>
            cases b with
            | nil => simp [partialCmp] at hc
            | cons y b =>
              refine .inl ⟨by simp, by simp [Crashes], ?_⟩
              simp only [compareLifetimes, unordered, notOutlived, requiresHeads, hc]
              exact requires_ne (hr y (by simp)) (hl x (by simp))
        case ret.arg a b =>
          refine .inl ⟨by simp, by simp [Crashes], ?_⟩
          simp only [compareLifetimes, unordered, notOutlived, requiresHeads, hc]
          cases a with
          | nil =>
            obtain ⟨z, h1, h2⟩ := lastOf_mem hr.1
            simp only [h2]
            have := (hr.2 z h1).1
            cases hn : nameOf nodes z with
            | none => simp [hn] at this
            | some n => exact ⟨_, rfl⟩
          | cons x a =>
            cases b with
            | nil => exact (hr.1 rfl).elim
            | cons y b => exact notLongEnough_ne (hr.2 y (by simp)).1
        case ret.cur a b =>
          refine .inl ⟨by simp, by simp [Crashes], ?_⟩
          simp only [compareLifetimes, unordered, notOutlived, requiresHeads, hc, isCurrent]
          simp only [Known] at hr
          cases hn : nameOf nodes b with
          | none => simp [hn] at hr
          | some n => exact ⟨_, rfl⟩
        case arg.ret a b =>
          cases b with
          | nil => exact .inr ⟨by simp, trivial, by simp only [compareLifetimes, unordered, notOutlived, requiresHeads, hc]⟩
          | cons y b =>
            refine .inl ⟨by simp, by simp [Crashes], ?_⟩
            simp only [compareLifetimes, unordered, notOutlived, requiresHeads, hc]
            cases a with
            | nil => exact (hl.1 rfl).elim
            | cons x a => exact requires_ne (hr y (by simp)) (hl.2 x (by simp)).1
        case arg.arg a b =>
          refine .inl ⟨by simp, by simp [Crashes], ?_⟩
          simp only [compareLifetimes, unordered, notOutlived, requiresHeads, hc]
          cases a with
          | nil => exact (hl.1 rfl).elim
          | cons x a =>
            cases b with
            | nil => exact (hr.1 rfl).elim
            | cons y b =>
              obtain ⟨h1, n, p, h2, h3, h4⟩ := hr.2 y (by simp)
              simp only [requiresFn, h2, h3]
              cases hn : nameOf nodes p with
              | none => simp [hn] at h4
              | some f => exact requires_ne h1 (hl.2 x (by simp)).1
        case arg.cur a b =>
          refine .inl ⟨by simp, by simp [Crashes], ?_⟩
          simp only [compareLifetimes, unordered, notOutlived, requiresHeads, hc, isCurrent]
          simp only [Known] at hr
          cases hn : nameOf nodes b with
          | none => simp [hn] at hr
          | some n => exact ⟨_, rfl⟩
        all_goals
          refine .inl ⟨by simp, by simp [Crashes], ?_⟩
          simp only [compareLifetimes, unordered, notOutlived, requiresHeads, hc, isCurrent]
          simp only [Known] at hl
          rename_i n _
          cases hn : nameOf nodes n with
          | none => simp [hn] at hl
          | some n => exact ⟨_, rfl⟩
      | some o =>
        cases o with
        | lt =>
          refine .inl ⟨rfl, ?_, by simp only [compareLifetimes, unordered, notOutlived, requiresHeads, hc]⟩
          cases l <;> cases r <;> try exact id
          case arg.ret a b => simp [partialCmp] at hc
          case ret.ret a b =>
            cases b with
            | nil => cases a <;> simp [partialCmp] at hc
            | cons y b => exact id
        | eq =>
          right
          cases r with
          | ret b =>
            cases b with
            | nil =>
              right
              refine ⟨by simp, ?_, by simp only [compareLifetimes, unordered, notOutlived, requiresHeads, hc, notLongEnoughHead]⟩
              cases l <;> simp [partialCmp] at hc
              simp [Crashes]
            | cons y b =>
              left
              refine ⟨by simp, by cases l <;> exact id, ?_⟩
              simp only [compareLifetimes, unordered, notOutlived, requiresHeads, hc, notLongEnoughHead]
              exact notLongEnough_ne (hr y (by simp))
          | arg b =>
            left
            refine ⟨by simp, by cases l <;> exact id, ?_⟩
            simp only [compareLifetimes, unordered, notOutlived, requiresHeads, hc]
            cases b with
            | nil => exact (hr.1 rfl).elim
            | cons y b => exact notLongEnough_ne (hr.2 y (by simp)).1
          | loc n =>
            left
            refine ⟨by simp, by cases l <;> exact id, ?_⟩
            simp only [compareLifetimes, unordered, notOutlived, requiresHeads, hc]
            exact notLongEnough_ne hr
          | cur n =>
            left
            refine ⟨by simp, by cases l <;> exact id, ?_⟩
            simp only [compareLifetimes, unordered, notOutlived, requiresHeads, hc]
            exact notLongEnough_ne hr
        | gt =>
          right
          cases r with
          | ret b =>
            cases b with
            | nil =>
              right
              refine ⟨by simp, ?_, by simp only [compareLifetimes, unordered, notOutlived, requiresHeads, hc, notLongEnoughHead]⟩
              cases l <;> simp [partialCmp] at hc
              simp [Crashes]
            | cons y b =>
              left
              refine ⟨by simp, by cases l <;> exact id, ?_⟩
              simp only [compareLifetimes, unordered, notOutlived, requiresHeads, hc, notLongEnoughHead]
              exact notLongEnough_ne (hr y (by simp))
          | arg b =>
            left
            refine ⟨by simp, by cases l <;> exact id, ?_⟩
            simp only [compareLifetimes, unordered, notOutlived, requiresHeads, hc]
            cases b with
            | nil => exact (hr.1 rfl).elim
            | cons y b => exact notLongEnough_ne (hr.2 y (by simp)).1
          | loc n =>
            left
            refine ⟨by simp, by cases l <;> exact id, ?_⟩
            simp only [compareLifetimes, unordered, notOutlived, requiresHeads, hc]
            exact notLongEnough_ne hr
          | cur n =>
            left
            refine ⟨by simp, by cases l <;> exact id, ?_⟩
            simp only [compareLifetimes, unordered, notOutlived, requiresHeads, hc]
            exact notLongEnough_ne hr

/-- **C08** A store is accepted exactly when it satisfies the specification: in
particular one between two known lifetimes is accepted exactly when the right side
outlives the left side. -/
theorem C08_accept_iff (nodes : List NodeInfo) (l r : LtRes)
    (hl : Known nodes l) (hr : Known nodes r) :
    compareLifetimes nodes l r = .accept ↔ Accepted l r := by
  rcases verdict nodes l r hl hr with ⟨a, b, c⟩ | ⟨a, b, m, c⟩ | ⟨a, b, c⟩ <;> simp [c, a]

/-- **C08** (partial: except on the pairs of `C08_crash_iff`.)  A store that is not
accepted is rejected with a message. -/
theorem C08_reject_partial (nodes : List NodeInfo) (l r : LtRes)
    (hl : Known nodes l) (hr : Known nodes r) (hc : ¬ Crashes l r) (ha : ¬ Accepted l r) :
    ∃ m, compareLifetimes nodes l r = .reject m := by
  rcases verdict nodes l r hl hr with ⟨a, b, c⟩ | ⟨a, b, m, c⟩ | ⟨a, b, c⟩
  · exact (ha a).elim
  · exact ⟨m, c⟩
  · exact (hc b).elim

/-- **C08** finding: the checker crashes exactly when the right side is the return
value itself (the item `return`) and the left side is an argument or the return
value, as in `fn foo(mut a) -> { return = [1]  a = return }`. -/
theorem C08_crash_iff (nodes : List NodeInfo) (l r : LtRes)
    (hl : Known nodes l) (hr : Known nodes r) :
    compareLifetimes nodes l r = .crash ↔ Crashes l r := by
  rcases verdict nodes l r hl hr with ⟨a, b, c⟩ | ⟨a, b, m, c⟩ | ⟨a, b, c⟩ <;> simp [c, b]

/-- Non-vacuity: a store that is accepted, one that is rejected, one that crashes. -/
example :
    let nodes : List NodeInfo := [⟨some "foo", none⟩, ⟨some "a", some 0⟩, ⟨some "b", some 0⟩]
    Known nodes (.ok (.arg [1])) ∧ Known nodes (.ok (.arg [2, 1])) ∧
    compareLifetimes nodes (.ok (.arg [1])) (.ok (.arg [2, 1])) = .accept ∧
    compareLifetimes nodes (.ok (.arg [1])) (.ok (.arg [2])) =
      .reject "Function `foo` requires `b: 'a`" ∧
    compareLifetimes nodes (.ok (.arg [1])) (.ok (.ret [])) = .crash := by
  refine ⟨⟨by simp, ?_⟩, ⟨by simp, ?_⟩, by decide, by decide, by decide⟩
  · intro i hi
    simp at hi; subst hi
    exact ⟨by decide, _, _, rfl, rfl, by decide⟩
  · intro i hi
    simp at hi
    rcases hi with rfl | rfl <;> exact ⟨by decide, _, _, rfl, rfl, by decide⟩

/-! ## C52: compound expressions -/

/-- **C52** (partial) The lifetime of a compound expression is that of one of its
parts. -/
theorem C52_one_of_the_parts_partial (rs : List LtRes) (m : Option Lifetime) (l : Lifetime)
    (h : unify m rs = .ok l) : m = some l ∨ .ok l ∈ rs := by
  induction rs generalizing m with
  | nil =>
    cases m with
    | none => simp [unify] at h
    | some x => simp [unify] at h; simp [h]
  | cons r rs ih =>
    cases r with
    | err e =>
      cases e with
      | none => simp only [unify] at h; rcases ih m h with h | h <;> simp [h]
      | failedToUnify => simp [unify] at h
    | ok x =>
      simp only [unify] at h
      cases m with
      | none =>
        simp only at h
        rcases ih _ h with h | h
        · cases h; simp
        · simp [h]
      | some y =>
        simp only at h
        split at h
        · rcases ih _ h with h | h
          · cases h; simp
          · simp [h]
        · cases h
        · rcases ih _ h with h | h <;> simp [h]

/-- **C52** finding: the code keeps the *longest* lifetime of the parts although the
shortest is meant, so a compound containing a too short-lived part is accepted:
with `x` declared before `a` and `y` after it, `a = [x, y]` passes the check
although `a = [y]` does not. -/
theorem C52_keeps_longest_part :
    unify none [.ok (.loc 1), .ok (.loc 3)] = .ok (.loc 1) ∧
    (∀ nodes, compareLifetimes nodes (.ok (.loc 2)) (unify none [.ok (.loc 1), .ok (.loc 3)])
      = .accept) ∧
    (∀ nodes, compareLifetimes nodes (.ok (.loc 2)) (unify none [.ok (.loc 3)]) ≠ .accept) := by
  have h1 : unify none [.ok (.loc 1), .ok (.loc 3)] = .ok (.loc 1) := by decide
  have h2 : unify none [.ok (.loc 3)] = .ok (.loc 3) := by decide
  refine ⟨h1, fun nodes => by rw [h1]; rfl, fun nodes => ?_⟩
  rw [h2]
  have hc : partialCmp (.loc 2) (.loc 3) = some .gt := by decide
  simp only [compareLifetimes, unordered, notOutlived, requiresHeads, hc, notLongEnough]
  split <;> simp

/-- **C52** (partial: locals only.) Among locals the result is the earliest declared
part, that is the longest-lived one. -/
theorem C52_locals (ns : List Nat) (n : Nat) :
    unify none ((n :: ns).map fun k => .ok (.loc k)) = .ok (.loc (ns.foldl min n)) := by
  have key : ∀ (ns : List Nat) (n : Nat),
      unify (some (.loc n)) (ns.map fun k => .ok (.loc k)) = .ok (.loc (ns.foldl min n)) := by
    intro ns
    induction ns with
    | nil => intro n; rfl
    | cons k ns ih =>
      intro n
      simp only [List.map_cons, unify, partialCmp, List.foldl_cons]
      rcases Nat.lt_trichotomy k n with h | h | h
      · rw [(cmpNat_lt).2 h]; simp only; rw [ih, Nat.min_eq_right (Nat.le_of_lt h)]
      · rw [(cmpNat_eq).2 h]; simp only; rw [ih, h, Nat.min_self]
      · rw [(cmpNat_gt).2 h]; simp only; rw [ih, Nat.min_eq_left (Nat.le_of_lt h)]
  exact key ns n

/-! ## C09: argument lifetimes -/

/-- The lifetime annotations of a signature form a cycle reachable from `i`: the
walk along the annotations never ends. -/
def Endless (args : List Arg) (i : Nat) : Prop := ¬ ∃ l, Chain args i l

/-- Every annotation names an argument (or `'return`). -/
def AllExist (args : List Arg) : Prop :=
  ∀ a ∈ args, ∀ lt, a.lifetime = some lt → lt ≠ "return" → ∃ j, argIndex args lt = some j

theorem checkExists_ok (args rest : List Arg) :
    checkExists args rest = .ok ↔
      ∀ a ∈ rest, ∀ lt, a.lifetime = some lt → lt ≠ "return" → ∃ j, argIndex args lt = some j := by
  induction rest with
  | nil => simp [checkExists]
  | cons a rest ih =>
    simp only [checkExists, List.mem_cons, forall_eq_or_imp, ← ih]
    cases hl : a.lifetime with
    | none => simp
    | some lt =>
      simp only [Option.some.injEq, forall_eq']
      by_cases hr : lt = "return"
      · simp [hr]
      · simp only [beq_iff_eq, hr, if_false, ne_eq, not_false_eq_true, true_imp_iff]
        cases argIndex args lt <;> simp

theorem next_some {args : List Arg} {i j : Nat} (h : next args i = some j) :
    ∃ lt, lifetimeOf args i = some lt ∧ lt ≠ "return" ∧ argIndex args lt = some j := by
  unfold next at h
  cases hl : lifetimeOf args i with
  | none => simp [hl] at h
  | some lt =>
    simp only [hl] at h
    by_cases hr : lt = "return"
    · simp [hr] at h
    · rw [if_neg hr] at h; exact ⟨lt, rfl, hr, h⟩

theorem next_lt {args : List Arg} {i j : Nat} (h : next args i = some j) : j < args.length := by
  obtain ⟨lt, _, _, h⟩ := next_some h
  exact argIndex_lt h

theorem lifetimeOf_mem {args : List Arg} {i : Nat} {lt : String}
    (h : lifetimeOf args i = some lt) : ∃ a ∈ args, a.lifetime = some lt := by
  unfold lifetimeOf at h
  cases ha : args[i]? with
  | none => simp [ha] at h
  | some a => simp [ha] at h; exact ⟨a, List.mem_of_getElem? ha, h⟩

/-- What `followCheck` decides, in terms of chains and the visited set. -/
theorem followCheck_spec (args : List Arg) (lt : String) (hex : AllExist args)
    (visited : List Bool) (ind : Nat) (hlen : visited.length = args.length)
    (hind : ind < args.length) :
    (followCheck args lt visited ind = .ok ∧
      ∃ l, Chain args ind l ∧ ∀ k ∈ l, visited[k]? = some false) ∨
    (followCheck args lt visited ind = .cyclic lt ∧
      ¬ ∃ l, Chain args ind l ∧ l.Nodup ∧ ∀ k ∈ l, visited[k]? = some false) := by
  have hv : ∃ b, visited[ind]? = some b := ⟨_, List.getElem?_eq_getElem (by omega)⟩
  obtain ⟨b, hb⟩ := hv
  rw [followCheck.eq_def]
  split
  · next h => rw [hb] at h; cases h
  · next h =>
    refine .inr ⟨rfl, ?_⟩
    rintro ⟨l, hl, -, hall⟩
    have : ind ∈ l := by cases hl <;> simp
    rw [hall ind this] at h
    cases h
  · next h =>
    cases hl : lifetimeOf args ind with
    | none =>
      exact .inl ⟨rfl, [ind], .last (by simp [next, hl]), by simpa using h⟩
    | some name =>
      simp only
      by_cases hr : name = "return"
      · rw [if_pos (by simp [hr])]
        refine .inl ⟨rfl, [ind], .last (by simp [next, hl, hr]), by simpa using h⟩
      · rw [if_neg (by simpa using hr)]
        obtain ⟨a, ha, ha'⟩ := lifetimeOf_mem hl
        obtain ⟨j, hj⟩ := hex a ha name ha' hr
        rw [hj]
        simp only
        have hn : next args ind = some j := by simp [next, hl, hr, hj]
        have hlt : (visited.set ind true).count false < visited.count false := count_set_true h
        rcases followCheck_spec args lt hex (visited.set ind true) j (by simpa using hlen)
          (argIndex_lt hj) with ⟨h1, l, h2, h3⟩ | ⟨h1, h2⟩
        · refine .inl ⟨h1, ind :: l, .step hn h2, ?_⟩
          intro k hk
          rcases List.mem_cons.1 hk with rfl | hk
          · exact h
          · have := h3 k hk
            rw [List.getElem?_set] at this
            split at this
            · split at this <;> simp at this
            · exact this
        · refine .inr ⟨h1, ?_⟩
          rintro ⟨l, hc, hnd, hall⟩
          apply h2
          cases hc with
          | last hl' => rw [hn] at hl'; cases hl'
          | step hs hc =>
            rename_i l
            rw [hn] at hs; cases hs
            simp only [List.nodup_cons] at hnd
            refine ⟨l, hc, hnd.2, ?_⟩
            intro k hk
            have hne : ind ≠ k := fun e => hnd.1 (e ▸ hk)
            rw [List.getElem?_set_ne hne]
            exact hall k (by simp [hk])
termination_by visited.count false

theorem Chain.len_of_mem {args : List Arg} {i k : Nat} {l : List Nat} (h : Chain args i l)
    (hk : k ∈ l) : ∃ m, Chain args k m ∧ m.length ≤ l.length := by
  obtain ⟨m, h1, p, h2⟩ := h.suffix hk
  exact ⟨m, h1, by rw [h2]; simp⟩

theorem Chain.nodup {args : List Arg} {i : Nat} {l : List Nat} (h : Chain args i l) : l.Nodup := by
  induction h with
  | last _ => simp
  | step hs hc ih =>
    rename_i i j l
    rw [List.nodup_cons]
    refine ⟨?_, ih⟩
    intro hm
    obtain ⟨m, h1, h2⟩ := hc.len_of_mem hm
    have := h1.unique (.step hs hc)
    subst this
    simp at h2

theorem Chain.bound {args : List Arg} {i : Nat} {l : List Nat} (h : Chain args i l)
    (hi : i < args.length) : ∀ k ∈ l, k < args.length := by
  induction h with
  | last _ => simpa using hi
  | step hs hc ih =>
    intro k hk
    rcases List.mem_cons.1 hk with rfl | hk
    · exact hi
    · exact ih (next_lt hs) k hk

/-- The arguments before the first one annotated with `'return`. -/
def beforeReturn : List Arg → List Arg
  | [] => []
  | a :: rest => if a.lifetime = some "return" then [] else a :: beforeReturn rest

theorem checkCyclic_spec (args : List Arg) (hex : AllExist args) (rest : List Arg)
    (hsub : ∀ a ∈ rest, a ∈ args) :
    (checkCyclic args rest = .ok ∨ ∃ lt, checkCyclic args rest = .cyclic lt) ∧
    (checkCyclic args rest = .ok ↔
      ∀ a ∈ beforeReturn rest, ∀ lt j, a.lifetime = some lt → argIndex args lt = some j →
        ∃ l, Chain args j l) := by
  induction rest with
  | nil => simp [checkCyclic, beforeReturn]
  | cons a rest ih =>
    have ih := ih (fun b hb => hsub b (by simp [hb]))
    simp only [checkCyclic, beforeReturn]
    cases hl : a.lifetime with
    | none =>
      simp only [reduceCtorEq, if_false, List.mem_cons, forall_eq_or_imp, hl]
      refine ⟨ih.1, ?_⟩
      rw [ih.2]
      simp
    | some lt =>
      by_cases hr : lt = "return"
      · subst hr
        simp
      · have hr' : ¬ (some lt = some "return") := by simpa using hr
        simp only [hr', if_false, List.mem_cons, forall_eq_or_imp, hl, Option.some.injEq]
        rw [if_neg (by simpa using hr)]
        obtain ⟨j, hj⟩ := hex a (hsub a (by simp)) lt hl hr
        rw [hj]
        simp only
        rcases followCheck_spec args lt hex (List.replicate args.length false) j (by simp)
          (argIndex_lt hj) with ⟨h1, l, h2, h3⟩ | ⟨h1, h2⟩
        · rw [h1]
          simp only
          refine ⟨ih.1, ?_⟩
          rw [ih.2]
          constructor
          · intro h
            refine ⟨?_, h⟩
            intro lt' j' e hj'
            subst e
            rw [hj] at hj'; cases hj'
            exact ⟨l, h2⟩
          · exact fun h => h.2
        · rw [h1]
          simp only
          refine ⟨.inr ⟨lt, rfl⟩, ?_⟩
          constructor
          · intro h; cases h
          · intro h
            obtain ⟨l, hc⟩ := h.1 lt j rfl hj
            refine (h2 ⟨l, hc, hc.nodup, ?_⟩).elim
            intro k hk
            have := hc.bound (argIndex_lt hj) k hk
            simp [this]

theorem checkExists_total (args rest : List Arg) :
    checkExists args rest = .ok ∨ ∃ lt, checkExists args rest = .missing lt := by
  induction rest with
  | nil => simp [checkExists]
  | cons a rest ih =>
    simp only [checkExists]
    split
    · exact ih
    · split
      · exact ih
      · split
        · exact ih
        · exact .inr ⟨_, rfl⟩

/-- **C09** The check of a signature always gives an answer: accepted, a missing
argument, or a cycle. -/
theorem C09_check_total (args : List Arg) :
    checkSignature args = .ok ∨ (∃ lt, checkSignature args = .missing lt) ∨
      ∃ lt, checkSignature args = .cyclic lt := by
  unfold checkSignature
  rcases checkExists_total args args with h | ⟨lt, h⟩
  · rw [h]
    simp only
    have := (checkCyclic_spec args ((checkExists_ok args args).1 h) args (fun _ h => h)).1
    rcases this with h | h
    · exact .inl h
    · exact .inr (.inr h)
  · rw [h]; exact .inr (.inl ⟨lt, rfl⟩)

/-- The chain of argument `a` (an element of the list) ends. -/
def Ends (args : List Arg) (a : Arg) : Prop :=
  ∀ lt j, a.lifetime = some lt → argIndex args lt = some j → ∃ l, Chain args j l

/-- **C09** A signature is accepted exactly when every annotation names an argument or
`'return`, and the annotations of all arguments *before the first one annotated with
`'return`* lead to an end. -/
theorem C09_accept_iff (args : List Arg) :
    checkSignature args = .ok ↔
      (∀ a ∈ args, ∀ lt, a.lifetime = some lt → lt ≠ "return" → ∃ b ∈ args, b.name = lt) ∧
      ∀ a ∈ beforeReturn args, Ends args a := by
  have hE : AllExist args ↔
      ∀ a ∈ args, ∀ lt, a.lifetime = some lt → lt ≠ "return" → ∃ b ∈ args, b.name = lt := by
    have : ∀ lt, (∃ j, argIndex args lt = some j) ↔ ∃ b ∈ args, b.name = lt := by
      intro lt
      have h := @argIndex_none args lt
      cases hc : argIndex args lt with
      | none => simp; exact h.1 hc
      | some j =>
        obtain ⟨a, h1, h2⟩ := argIndex_some hc
        simp; exact ⟨a, List.mem_of_getElem? h1, h2⟩
    simp only [AllExist, this]
  rw [← hE]
  unfold checkSignature
  rcases checkExists_total args args with h | ⟨lt, h⟩
  · rw [h]
    simp only
    have hex : AllExist args := (checkExists_ok args args).1 h
    rw [(checkCyclic_spec args hex args (fun _ h => h)).2]
    exact ⟨fun h => ⟨hex, h⟩, fun h => h.2⟩
  · rw [h]
    simp only [reduceCtorEq, false_iff]
    rintro ⟨h1, -⟩
    rw [(checkExists_ok args args).2 h1] at h
    cases h

theorem walk_chain (args : List Arg) (hex : AllExist args) (lt : String) (j : Nat)
    (hj : argIndex args lt = some j) (l : List Nat) (hc : Chain args j l) (acc : List Nat)
    (n : Nat) (hn : l.length ≤ n) :
    (ToReturn args j ∧ walk args n lt acc = .done (.ret (acc ++ l))) ∨
    (¬ ToReturn args j ∧ walk args n lt acc = .done (.arg (acc ++ l))) := by
  induction hc generalizing lt acc n with
  | last hnx =>
    rename_i i
    cases n with
    | zero => simp at hn
    | succ n =>
      simp only [walk, hj]
      cases hl : lifetimeOf args i with
      | none =>
        refine .inr ⟨?_, by simp⟩
        intro h
        cases h with
        | here h => rw [hl] at h; cases h
        | step h _ => rw [hnx] at h; cases h
      | some lt' =>
        by_cases hr : lt' = "return"
        · subst hr
          exact .inl ⟨.here hl, by simp⟩
        · exfalso
          obtain ⟨a, ha, ha'⟩ := lifetimeOf_mem hl
          obtain ⟨j, hj⟩ := hex a ha _ ha' hr
          simp [next, hl, hr, hj] at hnx
  | step hs hc ih =>
    rename_i i k l
    cases n with
    | zero => simp at hn
    | succ n =>
      obtain ⟨lt', h1, h2, h3⟩ := next_some hs
      simp only [walk, hj, h1]
      rw [if_neg (by simpa using h2)]
      have hn' : l.length ≤ n := by simp at hn; omega
      rcases ih lt' h3 (acc ++ [i]) n hn' with ⟨a, b⟩ | ⟨a, b⟩
      · exact .inl ⟨.step hs a, by rw [b]; simp⟩
      · refine .inr ⟨?_, by rw [b]; simp⟩
        intro h
        cases h with
        | here h => rw [h1] at h; cases h; exact h2 rfl
        | step h h' => rw [hs] at h; cases h; exact a h'

/-- **C09** Resolving the lifetime of argument `i` gives the chain of arguments it
outlives, whenever that chain ends: after finitely many steps the loop stops, and
the result tells whether the chain leads to `'return`. -/
theorem C09_resolves (args : List Arg) (hex : checkExists args args = .ok) (i : Nat)
    (l : List Nat) (hc : Chain args i l) (n : Nat) (hn : l.length ≤ n) :
    (ToReturn args i → argLifetime args n i = .done (.ret l)) ∧
    (¬ ToReturn args i → argLifetime args n i = .done (.arg l)) := by
  have hex : AllExist args := (checkExists_ok args args).1 hex
  unfold argLifetime
  cases hc with
  | last hnx =>
    cases hl : lifetimeOf args i with
    | none =>
      refine ⟨fun h => ?_, fun _ => rfl⟩
      cases h with
      | here h => rw [hl] at h; cases h
      | step h _ => rw [hnx] at h; cases h
    | some lt =>
      by_cases hr : lt = "return"
      · subst hr
        refine ⟨fun _ => by simp, fun h => (h (.here hl)).elim⟩
      · exfalso
        obtain ⟨a, ha, ha'⟩ := lifetimeOf_mem hl
        obtain ⟨j, hj⟩ := hex a ha _ ha' hr
        simp [next, hl, hr, hj] at hnx
  | step hs hc =>
    rename_i j l
    obtain ⟨lt, h1, h2, h3⟩ := next_some hs
    rw [h1]
    simp only
    rw [if_neg (by simpa using h2)]
    have hn' : l.length ≤ n := by simp at hn; omega
    have hret : ToReturn args i ↔ ToReturn args j := by
      constructor
      · intro h
        cases h with
        | here h => rw [h1] at h; cases h; exact (h2 rfl).elim
        | step h h' => rw [hs] at h; cases h; exact h'
      · exact .step hs
    rw [hret]
    rcases walk_chain args hex lt j h3 l hc [i] n hn' with ⟨a, b⟩ | ⟨a, b⟩
    · exact ⟨fun _ => b, fun h => (h a).elim⟩
    · exact ⟨fun h => (a h).elim, fun _ => b⟩

/-- **C09** (partial: no argument is annotated with `'return`.)  For an accepted
signature, resolving the lifetime of every argument terminates and yields the chain
of arguments it outlives. -/
theorem C09_accepted_resolves_partial (args : List Arg) (h : checkSignature args = .ok)
    (hr : ∀ a ∈ args, a.lifetime ≠ some "return") (i : Nat) (hi : i < args.length) :
    ∃ l, Chain args i l ∧ ∀ n, l.length ≤ n → argLifetime args n i = .done (.arg l) := by
  have hb : ∀ rest : List Arg, (∀ a ∈ rest, a.lifetime ≠ some "return") →
      beforeReturn rest = rest := by
    intro rest
    induction rest with
    | nil => intro _; rfl
    | cons a rest ih =>
      intro h
      simp only [beforeReturn]
      rw [if_neg (h a (by simp)), ih (fun b hb => h b (by simp [hb]))]
  have hacc := (C09_accept_iff args).1 h
  rw [hb args hr] at hacc
  have hex : checkExists args args = .ok := by
    unfold checkSignature at h
    cases hc : checkExists args args <;> simp_all
  have hchain : ∃ l, Chain args i l := by
    cases hnx : next args i with
    | none => exact ⟨_, .last hnx⟩
    | some j =>
      obtain ⟨lt, h1, h2, h3⟩ := next_some hnx
      obtain ⟨a, ha, ha'⟩ := lifetimeOf_mem h1
      obtain ⟨l, hl⟩ := hacc.2 a ha lt j ha' h3
      exact ⟨_, .step hnx hl⟩
  obtain ⟨l, hl⟩ := hchain
  refine ⟨l, hl, fun n hn => ?_⟩
  refine (C09_resolves args hex i l hl n hn).2 ?_
  intro ht
  clear hn
  induction ht generalizing l with
  | here h =>
    obtain ⟨a, ha, ha'⟩ := lifetimeOf_mem h
    exact hr a ha ha'
  | step h _ ih =>
    cases hl with
    | last h' => rw [h] at h'; cases h'
    | step h' hl' =>
      rw [h] at h'; cases h'
      exact ih (next_lt h) _ hl'

/-- The signature `fn f(a: 'return, b: 'c, c: 'b)`. -/
def loopSig : List Arg := [⟨"a", some "return"⟩, ⟨"b", some "c"⟩, ⟨"c", some "b"⟩]

/-- **C09** finding: the signature `fn f(a: 'return, b: 'c, c: 'b)` passes the check
because the search for cycles stops at the first `'return`, and resolving the
lifetime of `b` then runs forever. -/
theorem C09_endless : checkSignature loopSig = .ok ∧ ∀ n, argLifetime loopSig n 1 = .running := by
  constructor
  · have h1 : checkExists loopSig loopSig = .ok := by decide
    have h2 : checkCyclic loopSig loopSig = .ok := by simp [loopSig, checkCyclic]
    simp [checkSignature, h1, h2]
  · have hb : argIndex loopSig "b" = some 1 := by decide
    have hc : argIndex loopSig "c" = some 2 := by decide
    have lb : lifetimeOf loopSig 1 = some "c" := by decide
    have lc : lifetimeOf loopSig 2 = some "b" := by decide
    have key : ∀ n acc, walk loopSig n "b" acc = .running ∧ walk loopSig n "c" acc = .running := by
      intro n
      induction n with
      | zero => intro acc; exact ⟨rfl, rfl⟩
      | succ n ih =>
        intro acc
        constructor
        · simp only [walk, hb, lb]
          exact (ih _).2
        · simp only [walk, hc, lc]
          exact (ih _).1
    intro n
    simp only [argLifetime, lb]
    exact (key n _).2

/-- Non-vacuity: `fn f(a: 'b, b: 'c, c)` is accepted; `fn f(a: 'b, b: 'a)` is rejected
as cyclic. -/
example : checkSignature [⟨"a", some "b"⟩, ⟨"b", some "c"⟩, ⟨"c", none⟩] = .ok := by
  rw [C09_accept_iff]
  have h2 : Chain [⟨"a", some "b"⟩, ⟨"b", some "c"⟩, ⟨"c", none⟩] 2 [2] := .last (by decide)
  have h1 : Chain [⟨"a", some "b"⟩, ⟨"b", some "c"⟩, ⟨"c", none⟩] 1 [1, 2] := .step (by decide) h2
  have e1 : argIndex [⟨"a", some "b"⟩, ⟨"b", some "c"⟩, ⟨"c", none⟩] "b" = some 1 := by decide
  have e2 : argIndex [⟨"a", some "b"⟩, ⟨"b", some "c"⟩, ⟨"c", none⟩] "c" = some 2 := by decide
  refine ⟨by simp, ?_⟩
  intro a ha lt j hl hj
  simp [beforeReturn] at ha
  rcases ha with rfl | rfl | rfl <;> cases hl
  · rw [e1] at hj; cases hj; exact ⟨_, h1⟩
  · rw [e2] at hj; cases hj; exact ⟨_, h2⟩

/-! ## C53: the order follows from the annotations -/

/-- Actual lifetimes (larger lives longer) that obey the annotations of a signature:
an argument outlives the argument it is annotated with. -/
def Obeys (args : List Arg) (life : Nat → Nat) : Prop :=
  ∀ i j, next args i = some j → life j < life i

/-- **C53** (partial: one chain is part of the other, i.e. the first argument is
annotated, directly or indirectly, with the second.)  If the checker concludes that
argument `i` outlives argument `j`, it does in every call that obeys the
annotations. -/
theorem C53_outlives_sound_partial (args : List Arg) (i j : Nat) (p l m : List Nat)
    (hi : Chain args i l) (hj : Chain args j m) (hsuf : l = p ++ m)
    (h : Outlives (.arg l) (.arg m)) (life : Nat → Nat) (ho : Obeys args life) :
    life j < life i := by
  have hlen : m.length < l.length := by cases h with | chain _ _ h => exact h
  clear h
  induction hi generalizing p with
  | last hn =>
    have : m.length ≠ 0 := by cases hj <;> simp
    simp only [List.length_cons, List.length_nil] at hlen
    omega
  | step hs hc ih =>
    rename_i i k l
    cases p with
    | nil => simp at hsuf; subst hsuf; simp at hlen
    | cons x p =>
      simp at hsuf
      obtain ⟨-, rfl⟩ := hsuf
      cases p with
      | nil =>
        simp at hc
        have : k = j := by
          cases hc <;> cases hj <;> rfl
        subst this
        exact ho _ _ hs
      | cons y p =>
        exact Nat.lt_trans (ih (y :: p) rfl (by simp; omega)) (ho _ _ hs)

/-- **C53** finding: two arguments that merely outlive a common third one are ordered
by the length of their chains.  In `fn f(mut a: 'c, b: 'd, c, d: 'c)` the checker
accepts storing `b` in `a`, although a call may pass an `a` that outlives `b`. -/
theorem C53_siblings_unsound :
    let args : List Arg := [⟨"a", some "c"⟩, ⟨"b", some "d"⟩, ⟨"c", none⟩, ⟨"d", some "c"⟩]
    Chain args 0 [0, 2] ∧ Chain args 1 [1, 3, 2] ∧
    (∀ nodes, compareLifetimes nodes (.ok (.arg [0, 2])) (.ok (.arg [1, 3, 2])) = .accept) ∧
    ∃ life, Obeys args life ∧ life 1 < life 0 := by
  intro args
  have h2 : Chain args 2 [2] := .last (by decide)
  have h3 : Chain args 3 [3, 2] := .step (by decide) h2
  refine ⟨.step (by decide) h2, .step (by decide) h3, fun nodes => ?_, ?_⟩
  · have : partialCmp (.arg [0, 2]) (.arg [1, 3, 2]) = some .lt := by decide
    simp only [compareLifetimes, this]
  · refine ⟨fun i => if i = 0 then 9 else if i = 1 then 2 else if i = 3 then 1 else 0, ?_, by decide⟩
    intro i j h
    have hi : i < 4 := by
      obtain ⟨lt, h1, _⟩ := next_some h
      unfold lifetimeOf at h1
      by_contra hc
      have : args[i]? = none := by simp [args]; omega
      simp [this] at h1
    have e0 : next args 0 = some 2 := by decide
    have e1 : next args 1 = some 3 := by decide
    have e2 : next args 2 = none := by decide
    have e3 : next args 3 = some 2 := by decide
    have : i = 0 ∨ i = 1 ∨ i = 2 ∨ i = 3 := by omega
    rcases this with rfl | rfl | rfl | rfl
    · rw [e0] at h; cases h; decide
    · rw [e1] at h; cases h; decide
    · rw [e2] at h; cases h
    · rw [e3] at h; cases h; decide

/-! ## C10: run-time check -/

/-- Specification: the reference `k` occurs in the value, looking through arrays and
objects. -/
inductive Holds : Val → Nat → Prop
  | ref (k) : Holds (.ref k) k
  | array {xs v k} : v ∈ xs → Holds v k → Holds (.array xs) k
  | object {kvs key v k} : (key, v) ∈ kvs → Holds v k → Holds (.object kvs) k

mutual
theorem minRef_spec (v : Val) (m : Option Nat) :
    ∀ b, (∃ a, minRef m v = some a ∧ a ≤ b) ↔ (∃ a, m = some a ∧ a ≤ b) ∨ ∃ k, Holds v k ∧ k ≤ b := by
  intro b
  cases v with
  | ref i =>
    have hh : (∃ k, Holds (.ref i) k ∧ k ≤ b) ↔ i ≤ b :=
      ⟨fun ⟨k, h, hk⟩ => by cases h; exact hk, fun h => ⟨i, .ref i, h⟩⟩
    rw [hh]
    cases m with
    | none => simp [minRef]
    | some m =>
      simp only [minRef]
      split <;> simp <;> omega
  | array xs =>
    simp only [minRef]
    rw [minRefs_spec xs m b]
    constructor
    · rintro (h | ⟨v, hv, k, hk, hb⟩)
      · exact .inl h
      · exact .inr ⟨k, .array hv hk, hb⟩
    · rintro (h | ⟨k, hk, hb⟩)
      · exact .inl h
      · cases hk with | array hv hk => exact .inr ⟨_, hv, k, hk, hb⟩
  | object kvs =>
    simp only [minRef]
    rw [minRefObj_spec kvs m b]
    constructor
    · rintro (h | ⟨key, v, hv, k, hk, hb⟩)
      · exact .inl h
      · exact .inr ⟨k, .object hv hk, hb⟩
    · rintro (h | ⟨k, hk, hb⟩)
      · exact .inl h
      · cases hk with | object hv hk => exact .inr ⟨_, _, hv, k, hk, hb⟩
  | _ =>
    simp only [minRef]
    constructor
    · exact .inl
    · rintro (h | ⟨k, hk, -⟩)
      · exact h
      · cases hk
theorem minRefs_spec (xs : List Val) (m : Option Nat) :
    ∀ b, (∃ a, minRefs m xs = some a ∧ a ≤ b) ↔
      (∃ a, m = some a ∧ a ≤ b) ∨ ∃ v ∈ xs, ∃ k, Holds v k ∧ k ≤ b := by
  intro b
  match xs with
  | [] => simp [minRefs]
  | x :: xs =>
    simp only [minRefs]
    rw [minRefs_spec xs _ b, minRef_spec x m b]
    simp [or_assoc]
theorem minRefObj_spec (kvs : List (String × Val)) (m : Option Nat) :
    ∀ b, (∃ a, minRefObj m kvs = some a ∧ a ≤ b) ↔
      (∃ a, m = some a ∧ a ≤ b) ∨ ∃ key v, (key, v) ∈ kvs ∧ ∃ k, Holds v k ∧ k ≤ b := by
  intro b
  match kvs with
  | [] => simp [minRefObj]
  | (key, x) :: kvs =>
    simp only [minRefObj]
    rw [minRefObj_spec kvs _ b, minRef_spec x m b]
    constructor
    · rintro ((h | h) | ⟨k', v, h, h'⟩)
      · exact .inl h
      · exact .inr ⟨key, x, by simp, h⟩
      · exact .inr ⟨k', v, by simp [h], h'⟩
    · rintro (h | ⟨k', v, h, h'⟩)
      · exact .inl (.inl h)
      · rcases List.mem_cons.1 h with h | h
        · cases h; exact .inl (.inr h')
        · exact .inr ⟨k', v, h, h'⟩
end

/-- Specification of the run-time check for argument `i` with annotation `lt`: the
argument is a reference and, unless the annotation is `'return`, it refers to a stack
slot below every reference inside the argument it has to outlive. -/
def ArgOk (fargs : List Arg) (args : List Val) (i : Nat) (lt : String) : Prop :=
  ∃ b, args[i]? = some (.ref b) ∧
    (lt = "return" ∨ ∃ ind left, argIndex fargs lt = some ind ∧ args[ind]? = some left ∧
      ∀ k, Holds left k → b < k)

theorem runCheckLoop_ok (fargs : List Arg) (args : List Val) (rest : List Arg) (i : Nat) :
    runCheckLoop fargs args rest i = .ok ↔
      ∀ k a lt, rest[k]? = some a → a.lifetime = some lt → ArgOk fargs args (i + k) lt := by
  induction rest generalizing i with
  | nil => simp [runCheckLoop]
  | cons a rest ih =>
    have split0 : (∀ k a' lt, (a :: rest)[k]? = some a' → a'.lifetime = some lt →
          ArgOk fargs args (i + k) lt) ↔
        (∀ lt, a.lifetime = some lt → ArgOk fargs args i lt) ∧
        runCheckLoop fargs args rest (i + 1) = .ok := by
      rw [ih]
      constructor
      · intro h
        refine ⟨fun lt hl => by simpa using h 0 a lt rfl hl, fun k a' lt hk hl => ?_⟩
        have := h (k + 1) a' lt (by simpa using hk) hl
        rwa [show i + (k + 1) = i + 1 + k by omega] at this
      · rintro ⟨h1, h2⟩ k a' lt hk hl
        cases k with
        | zero => simp at hk; subst hk; exact h1 lt hl
        | succ k =>
          have := h2 k a' lt (by simpa using hk) hl
          rwa [show i + 1 + k = i + (k + 1) by omega] at this
    rw [split0]
    simp only [runCheckLoop]
    cases hl : a.lifetime with
    | none => simp
    | some lt =>
      simp only [Option.some.injEq, forall_eq']
      cases ha : args[i]? with
      | none => simp [ArgOk, ha]
      | some v =>
        cases v with
        | ref b =>
          simp only [ArgOk, ha, Option.some.injEq, Val.ref.injEq, exists_eq_left']
          by_cases hr : lt = "return"
          · simp [hr]
          · rw [if_neg (by simpa using hr)]
            simp only [hr, false_or]
            cases hi : argIndex fargs lt with
            | none => simp
            | some ind =>
              simp only [Option.some.injEq, exists_and_left, exists_eq_left']
              cases hv : args[ind]? with
              | none => simp
              | some left =>
                simp only [Option.some.injEq, exists_eq_left', minRef]
                have hs := minRef_spec left none b
                simp only [reduceCtorEq, false_and, exists_false, false_or] at hs
                cases hm : minRef none left with
                | none =>
                  simp only [hm, reduceCtorEq, false_and, exists_false, false_iff, not_exists,
                    not_and, Nat.not_le] at hs
                  simp only
                  exact ⟨fun h => ⟨hs, h⟩, fun h => h.2⟩
                | some m =>
                  simp only [hm, Option.some.injEq, exists_eq_left'] at hs
                  simp only
                  by_cases hmb : m ≤ b
                  · rw [if_pos hmb]
                    obtain ⟨k, hk, hkb⟩ := hs.1 hmb
                    simp only [reduceCtorEq, false_iff, not_and]
                    intro h
                    have := h k hk
                    omega
                  · rw [if_neg hmb]
                    refine ⟨fun h => ⟨fun k hk => ?_, h⟩, fun h => h.2⟩
                    by_contra hc
                    exact hmb (hs.2 ⟨k, hk, by omega⟩)
        | _ => simp [ArgOk, ha]

/-- **C10** A dynamic call passes the run-time lifetime check exactly when every
argument with a lifetime annotation is a reference that, unless annotated with
`'return`, outlives everything referred to by the argument it is annotated with,
looking through arrays and objects. -/
theorem C10_check_iff (fargs : List Arg) (args : List Val) :
    runCheck fargs args = .ok ↔
      ∀ i a lt, fargs[i]? = some a → a.lifetime = some lt → ArgOk fargs args i lt := by
  unfold runCheck
  by_cases h : fargs.any (fun a => a.lifetime.isSome) = true
  · rw [if_pos h, runCheckLoop_ok]
    simp
  · rw [if_neg h]
    simp only [true_iff]
    intro i a lt hi hl
    exfalso
    apply h
    rw [List.any_eq_true]
    exact ⟨a, List.mem_of_getElem? hi, by simp [hl]⟩

/-- Non-vacuity: `fn f(mut a, b: 'a)` called with references: `b` below `a` passes,
`b` above `a` does not, also when `a` is an array of references. -/
example :
    let f : List Arg := [⟨"a", none⟩, ⟨"b", some "a"⟩]
    runCheck f [.ref 5, .ref 3] = .ok ∧ runCheck f [.ref 3, .ref 5] ≠ .ok ∧
    runCheck f [.array [.ref 9, .array [.ref 4]], .ref 4] ≠ .ok := by
  refine ⟨by decide, by decide, by decide⟩

end Dyon.Lt
