import Verif.Check.Lifetime
import Verif.Lifetime.Props
import Mathlib.Data.List.Perm.Subperm

/-!
# Lemmas about the lifetime checks
-/

namespace Dyon.Check

namespace Spec

/-- The node `i` is `n` or is below it in the tree. -/
inductive Below (ns : Nodes) : Nat → Nat → Prop
  | refl (n : Nat) : Below ns n n
  | step {n c i : Nat} : c ∈ (ns.at n).children → Below ns c i → Below ns n i

/-- The expression `n` mentions the variable `i`. -/
def Mentions (ns : Nodes) (n i : Nat) : Prop := Below ns n i ∧ (ns.at i).kind = .item

/-- The value of a child of kind `c` is the value of the parent of kind `p`, or is put into it. -/
def Carries (p c : Kind) : Prop :=
  (p ∈ [.expr, .right, .callArg, .arrayItem, .keyValue, .fill] ∧
      c ∈ [.expr, .item, .array, .arrayFill, .object, .if', .block, .call]) ∨
    (p = .array ∧ c = .arrayItem) ∨ (p = .object ∧ c = .keyValue) ∨ (p = .arrayFill ∧ c = .fill) ∨
    (p = .if' ∧ c ∈ [.trueBlock, .elseIfBlock, .elseBlock]) ∨
    (p ∈ [.block, .trueBlock, .elseIfBlock, .elseBlock] ∧ c = .expr)

/-- Following the annotations of the arguments of `f` from the argument `a` one passes the
arguments `l`; whether the last one is annotated with `'return` (otherwise, it has no
annotation). -/
inductive Follows (ns : Nodes) (f : Nat) : Nat → List Nat → Bool → Prop
  | free {a} : (ns.at a).lifetime = none → Follows ns f a [a] false
  | ret {a} : (ns.at a).lifetime = some "return" → Follows ns f a [a] true
  | step {a b lt l r} : (ns.at a).lifetime = some lt → lt ≠ "return" → (ns.at f).kind = .fn →
      b ∈ (ns.at f).children → (ns.at b).kind = .arg → (ns.at b).name.getD "" = lt →
      Follows ns f b l r → Follows ns f a (a :: l) r

/-- Following the annotations of the parameters of a host function from `lt`, `n` names are passed and then a parameter
without annotation is reached. -/
inductive Frees (lts : List Mod.Lt) : Nat → Mod.Lt → Prop
  | default : Frees lts 0 .default
  | arg {x n : Nat} {lt : Mod.Lt} : lts[x]? = some lt → Frees lts n lt → Frees lts (n + 1) (.arg x)

/-- ... and then `'return` is reached. -/
inductive GivesBack (lts : List Mod.Lt) : Mod.Lt → Prop
  | ret : GivesBack lts .ret
  | arg {x : Nat} {lt : Mod.Lt} : lts[x]? = some lt → GivesBack lts lt → GivesBack lts (.arg x)

/-- The argument number `k` of the call `n` may be part of the result.  For a function of the file, the annotations of the
parameter lead to `'return` (and only there, should two parameters have the same name); for a host function, those of its
list do. -/
def Returned (ns : Nodes) (n k : Nat) : Prop :=
  (∃ f a l, (ns.at n).declaration = some f ∧ (ns.args f)[k]? = some a ∧ (ns.at a).parent = some f ∧ Follows ns f a l true ∧
    ∀ l', ¬ Follows ns f a l' false) ∨
  ((ns.at n).declaration = none ∧ ∃ lt, (ns.at n).lts[k]? = some lt ∧ GivesBack (ns.at n).lts lt)

/-- The value of `n` may be, or contain, a reference to the variable of the item `i`: `n` is that
item, a list or an object with it as part, an `if` with it as result, a call that may return an argument with it as part,
and so on.  (Every statement of a block is counted, not only the last.) -/
inductive Part (ns : Nodes) : Nat → Nat → Prop
  | here {n} : (ns.at n).kind = .item → Part ns n n
  | into {n c i} : c ∈ (ns.at n).children → Carries (ns.at n).kind (ns.at c).kind →
      Part ns c i → Part ns n i
  | call {n c i pre post} : (ns.at n).kind = .call → (ns.at n).children = pre ++ c :: post → (ns.at c).kind = .callArg →
      Returned ns n (pre.filter fun x => (ns.at x).kind = .callArg).length → Part ns c i → Part ns n i

/-- The variable declared by `d` is a part of the value of `n`, and no other variable is mentioned
in `n`. -/
def Only (ns : Nodes) (n d : Nat) : Prop :=
  (∃ i, Part ns n i ∧ (ns.at i).declaration = some d) ∧
    ∀ j, Mentions ns n j → (ns.at j).declaration = some d

end Spec

open Spec

/-! ## Lists of checks -/

theorem and_accept {a b : Outcome} : a.and b = .accept ↔ a = .accept ∧ b = .accept := by
  cases a <;> simp [Outcome.and]

theorem checkAll_accept {α : Type} {f : α → Outcome} : ∀ {xs : List α},
    checkAll f xs = .accept ↔ ∀ x ∈ xs, f x = .accept
  | [] => by simp [checkAll]
  | x :: xs => by
    rw [checkAll, and_accept, checkAll_accept]
    simp

/-! ## Comparisons -/

theorem notLongEnough_accept {nodes : List Lt.NodeInfo} {i : Nat} :
    Lt.notLongEnough nodes i ≠ .accept := by
  unfold Lt.notLongEnough; split <;> simp

theorem notLongEnoughHead_accept {nodes : List Lt.NodeInfo} {l : List Nat} :
    Lt.notLongEnoughHead nodes l ≠ .accept := by
  unfold Lt.notLongEnoughHead
  split
  · exact notLongEnough_accept
  · simp

theorem requires_accept {nodes : List Lt.NodeInfo} {p : String} {r l : Nat} :
    Lt.requires nodes p r l ≠ .accept := by
  unfold Lt.requires
  split
  · simp
  · split <;> simp

theorem requiresFn_accept {nodes : List Lt.NodeInfo} {r l : Nat} :
    Lt.requiresFn nodes r l ≠ .accept := by
  unfold Lt.requiresFn
  split
  · simp
  · split
    · simp
    · split
      · simp
      · exact requires_accept

theorem requiresHeads_accept {nodes : List Lt.NodeInfo} {r l : List Nat} :
    Lt.requiresHeads nodes r l ≠ .accept := by
  unfold Lt.requiresHeads
  split
  · exact requires_accept
  · simp

theorem isCurrent_accept {nodes : List Lt.NodeInfo} {n : Nat} :
    Lt.isCurrent nodes n ≠ .accept := by
  unfold Lt.isCurrent; split <;> simp

theorem unordered_accept {nodes : List Lt.NodeInfo} {l r : Lt.Lifetime} :
    Lt.unordered nodes l r ≠ .accept := by
  unfold Lt.unordered
  repeat' split
  all_goals first
    | exact isCurrent_accept
    | exact requiresHeads_accept
    | exact requiresFn_accept
    | exact notLongEnoughHead_accept
    | simp

theorem notOutlived_accept {nodes : List Lt.NodeInfo} {r : Lt.Lifetime} :
    Lt.notOutlived nodes r ≠ .accept := by
  cases r <;> simp only [Lt.notOutlived]
  · exact notLongEnoughHead_accept
  · exact notLongEnoughHead_accept
  · exact notLongEnough_accept
  · exact notLongEnough_accept

theorem compare_less {nodes : List Lt.NodeInfo} {l r : Lt.Lifetime}
    (h : Lt.compareLifetimes nodes (.ok l) (.ok r) = .accept) : Lt.Outlives r l := by
  rw [← Lt.C07_less]
  simp only [Lt.compareLifetimes] at h
  split at h
  · exact absurd h notOutlived_accept
  · exact absurd h notOutlived_accept
  · exact absurd h unordered_accept
  · assumption

theorem compare_accept {ns : Nodes} {i : Nat} {l r : LtOut} (h : ns.compare i l r = .accept) :
    ∃ l' r', l = .done l' ∧ r = .done r' ∧ Lt.compareLifetimes ns.info l' r' = .accept := by
  cases l <;> cases r <;> simp only [Nodes.compare] at h <;> try cases h
  rename_i l r
  refine ⟨l, r, rfl, rfl, ?_⟩
  split at h
  · assumption
  · cases h
  · cases h

/-! ## Annotations -/

theorem sig_get {ns : Nodes} {f k : Nat} {x : Lt.Arg} (h : (ns.sig f)[k]? = some x) :
    (ns.at f).kind = .fn ∧ (ns.args f).getD k 0 ∈ (ns.at f).children ∧
      (ns.at ((ns.args f).getD k 0)).kind = .arg ∧
      (ns.at ((ns.args f).getD k 0)).name.getD "" = x.name ∧
      (ns.at ((ns.args f).getD k 0)).lifetime = x.lifetime := by
  unfold Nodes.sig at h
  split at h
  · rename_i hk
    rw [List.getElem?_map, Option.map_eq_some_iff] at h
    obtain ⟨b, hb, rfl⟩ := h
    have e : (ns.args f).getD k 0 = b := by simp [List.getD_eq_getElem?_getD, hb]
    have hm := List.mem_of_getElem? hb
    simp only [Nodes.args, List.mem_filter, decide_eq_true_eq] at hm
    rw [e]
    exact ⟨hk, hm.1, hm.2, rfl, rfl⟩
  · simp at h

theorem walk_leads {ns : Nodes} {f : Nat} : ∀ (n : Nat) (lt : String) (acc : List Nat) (L : Lt.Lifetime),
    Lt.walk (ns.sig f) n lt acc = .done L →
      ∃ b l r, (L = if r then .ret (acc ++ l) else .arg (acc ++ l)) ∧ (ns.at f).kind = .fn ∧
        b ∈ (ns.at f).children ∧ (ns.at b).kind = .arg ∧ (ns.at b).name.getD "" = lt ∧
        Follows ns f b (l.map fun i => (ns.args f).getD i 0) r
  | 0, _, _, _, h => by simp [Lt.walk] at h
  | n + 1, lt, acc, L, h => by
    rw [Lt.walk] at h
    cases hk : Lt.argIndex (ns.sig f) lt with
    | none => rw [hk] at h; cases h
    | some k =>
      rw [hk] at h
      simp only at h
      obtain ⟨x, hx, hn⟩ := Lt.argIndex_some hk
      obtain ⟨h1, h2, h3, h4, h5⟩ := sig_get hx
      have hlt : Lt.lifetimeOf (ns.sig f) k = x.lifetime := by simp [Lt.lifetimeOf, hx]
      rw [hlt] at h
      cases hxl : x.lifetime with
      | none =>
        rw [hxl] at h h5
        cases h
        exact ⟨_, [k], false, rfl, h1, h2, h3, h4.trans hn, .free h5⟩
      | some lt' =>
        rw [hxl] at h h5
        simp only [beq_iff_eq] at h
        split at h
        · rename_i hr
          subst hr
          cases h
          exact ⟨_, [k], true, rfl, h1, h2, h3, h4.trans hn, .ret h5⟩
        · rename_i hr
          obtain ⟨b, l, r, e, g1, g2, g3, g4, g5⟩ := walk_leads n lt' _ L h
          refine ⟨_, k :: l, r, ?_, h1, h2, h3, h4.trans hn, ?_⟩
          · rw [e]; simp
          · exact .step h5 hr g1 g2 g3 g4 g5

theorem argLifetime_leads {ns : Nodes} {a f : Nat} {L : Lt.LtRes} (hf : (ns.at a).parent = some f)
    (h : ns.argLifetime a = .done L) :
    ∃ l r, L = .ok (if r then .ret l else .arg l) ∧ Follows ns f a l r := by
  unfold Nodes.argLifetime at h
  cases hl : (ns.at a).lifetime with
  | none =>
    rw [hl] at h
    cases h
    exact ⟨[a], false, rfl, .free hl⟩
  | some lt =>
    rw [hl] at h
    simp only [beq_iff_eq] at h
    split at h
    · rename_i hr
      subst hr
      cases h
      exact ⟨[a], true, rfl, .ret hl⟩
    · rename_i hr
      rw [hf] at h
      simp only at h
      cases hw : Lt.walk (ns.sig f) ((ns.sig f).length + 1) lt [] with
      | crash => rw [hw] at h; cases h
      | running => rw [hw] at h; cases h
      | done M =>
        obtain ⟨b, l, r, e, g1, g2, g3, g4, g5⟩ := walk_leads _ _ _ _ hw
        rw [hw, e] at h
        cases r with
        | true =>
          cases h
          exact ⟨_, true, rfl, .step hl hr g1 g2 g3 g4 g5⟩
        | false =>
          cases h
          exact ⟨_, false, rfl, .step hl hr g1 g2 g3 g4 g5⟩

theorem argLifetime_ok {ns : Nodes} {a : Nat} {L : Lt.LtRes} (h : ns.argLifetime a = .done L) :
    ∃ l, L = .ok l ∧ Lt.partialCmp l l = some .eq := by
  unfold Nodes.argLifetime at h
  repeat' split at h
  all_goals first
    | (cases h; done)
    | (cases h
       exact ⟨_, rfl, Lt.C07_refl _ (by simp)⟩)

/-! ## The lifetime of an expression -/

/-- The lifetime of the variable declared by `d`. -/
def VarLife (ns : Nodes) (d : Nat) (l : Lt.Lifetime) : Prop :=
  match (ns.at d).kind with
  | .arg => ns.argLifetime d = .done (.ok l)
  | .current => l = .cur d
  | _ => l = .loc d

theorem lifetime_item {ns : Nodes} {i d : Nat} (hk : (ns.at i).kind = .item)
    (hd : (ns.at i).declaration = some d) :
    ns.lifetime i = match (ns.at d).kind with
      | .arg => ns.argLifetime d
      | .current => .done (.ok (.cur d))
      | _ => .done (.ok (.loc d)) := by
  rw [Nodes.lifetime.eq_def]
  simp only [hk, hd]
  simp [Node.hasLifetime, hk]
  cases (ns.at d).kind <;> rfl

/-- The outcome of looking up a variable. -/
theorem lifetime_var {ns : Nodes} {i d : Nat} (hk : (ns.at i).kind = .item)
    (hd : (ns.at i).declaration = some d) {r : Lt.LtRes} (h : ns.lifetime i = .done r) :
    ∃ l, r = .ok l ∧ VarLife ns d l ∧ Lt.partialCmp l l = some .eq := by
  rw [lifetime_item hk hd] at h
  unfold VarLife
  split at h
  · rename_i hk'
    obtain ⟨l, rfl, hl⟩ := argLifetime_ok h
    exact ⟨l, rfl, h, hl⟩
  · rename_i hk'
    cases h
    exact ⟨_, rfl, rfl, Lt.C07_refl _ (by simp)⟩
  · rename_i h1 h2
    cases h
    exact ⟨_, rfl, rfl, Lt.C07_refl _ (by simp)⟩

theorem varLife_unique {ns : Nodes} {d : Nat} {l l' : Lt.Lifetime} (h : VarLife ns d l)
    (h' : VarLife ns d l') : l = l' := by
  unfold VarLife at h h'
  cases hk : (ns.at d).kind <;> rw [hk] at h h' <;> simp only at h h' <;> first
    | rw [h, h']
    | (rw [h] at h'; cases h'; rfl)

/-- The only kind of a node whose lifetime is not computed from its children. -/
theorem lifetime_parts {ns : Nodes} {n : Nat} (hl : (ns.at n).hasLifetime = true)
    (hi : (ns.at n).kind ≠ .item) (hc : (ns.at n).kind ≠ .call) :
    ns.lifetime n = ns.unite (fun c => if n < c ∧ c < ns.length then ns.lifetime c else .crash)
      (ns.at n) none 0 (ns.at n).children := by
  rw [Nodes.lifetime.eq_def]
  simp [hl, hi, hc]

theorem lifetime_cases (ns : Nodes) (n : Nat) :
    ns.lifetime n = .done (.err .none) ∨
    (∃ d, (ns.at n).kind = .item ∧ (ns.at n).declaration = some d) ∨
    ((ns.at n).kind = .item ∧ (ns.at n).declaration = none ∧ ns.lifetime n = .done (.ok (.ret []))) ∨
    (ns.lifetime n = ns.unite (fun c => if n < c ∧ c < ns.length then ns.lifetime c else .crash)
      (ns.at n) none 0 (ns.at n).children) ∨
    ns.lifetime n = .crash ∨ ns.lifetime n = .endless := by
  rw [Nodes.lifetime.eq_def]
  simp only
  split
  · exact Or.inl rfl
  · split
    · rename_i hk
      cases hd : (ns.at n).declaration with
      | some d => exact Or.inr (Or.inl ⟨d, hk, rfl⟩)
      | none =>
        simp only
        split
        · exact Or.inr (Or.inr (Or.inl ⟨hk, by simp, rfl⟩))
        · exact Or.inr (Or.inr (Or.inr (Or.inl rfl)))
    · split
      · split
        · exact Or.inr (Or.inr (Or.inr (Or.inl rfl)))
        · exact Or.inl rfl
        · exact Or.inr (Or.inr (Or.inr (Or.inr (Or.inl rfl))))
        · exact Or.inr (Or.inr (Or.inr (Or.inr (Or.inr rfl))))
      · exact Or.inr (Or.inr (Or.inr (Or.inl rfl)))

theorem partOfResult_done {ns : Nodes} {d : Option Nat} {k : Nat} {r : Lt.LtRes} :
    ns.partOfResult d k ≠ .error (.done r) := by
  unfold Nodes.partOfResult
  split
  · simp
  · split
    · simp
    · split
      · simp
      · simp
      · rename_i h1 h2
        intro h
        exact h2 _ (Except.error.inj h)

theorem unite_mem {ns : Nodes} {life : Nat → LtOut} {n : Node} : ∀ {cs : List Nat}
    {min : Option Lt.Lifetime} {k : Nat} {l : Lt.Lifetime},
    ns.unite life n min k cs = .done (.ok l) → min = some l ∨ ∃ c ∈ cs, life c = .done (.ok l)
  | [], min, k, l, h => by
    simp only [Nodes.unite] at h
    cases min with
    | none => simp at h
    | some m => simp at h; exact Or.inl (by rw [h])
  | c :: cs, min, k, l, h => by
    have key : ∀ k, (match life c with
        | .done (.ok l) => match longer min l with
          | some m => ns.unite life n (some m) k cs
          | none => .done (.err .failedToUnify)
        | .done (.err .none) => ns.unite life n min k cs
        | r => r) = .done (.ok l) → min = some l ∨ ∃ c' ∈ c :: cs, life c' = .done (.ok l) := by
      intro k h
      split at h
      · rename_i l' hl'
        cases hm : longer min l' with
        | none => rw [hm] at h; cases h
        | some m =>
          rw [hm] at h
          rcases unite_mem h with h1 | ⟨c', hc', h1⟩
          · cases h1
            unfold longer at hm
            split at hm
            · cases hm
              exact Or.inr ⟨c, by simp, hl'⟩
            · split at hm
              · cases hm
                exact Or.inr ⟨c, by simp, hl'⟩
              · cases hm
              · cases hm
                exact Or.inl rfl
          · exact Or.inr ⟨c', by simp [hc'], h1⟩
      · rcases unite_mem h with h1 | ⟨c', hc', h1⟩
        · exact Or.inl h1
        · exact Or.inr ⟨c', by simp [hc'], h1⟩
      · exact Or.inr ⟨c, by simp, h⟩
    have skip : ∀ k, ns.unite life n min k cs = .done (.ok l) →
        min = some l ∨ ∃ c' ∈ c :: cs, life c' = .done (.ok l) := by
      intro k h
      rcases unite_mem h with h1 | ⟨c', hc', h1⟩
      · exact Or.inl h1
      · exact Or.inr ⟨c', by simp [hc'], h1⟩
    rw [Nodes.unite] at h
    split at h
    · exact skip _ h
    · cases h
    · exact key _ h
    · split at h
      · exact key _ h
      · exact skip _ h
      · rename_i r hr
        subst h
        exact absurd hr partOfResult_done

/-- The lifetime of an expression is the one of a variable that it mentions. -/
theorem lifetime_mentions {ns : Nodes} (m : Nat) : ∀ (n : Nat) (l : Lt.Lifetime), ns.length - n ≤ m →
    ns.lifetime n = .done (.ok l) → ∃ j, Mentions ns n j ∧ ns.lifetime j = .done (.ok l) ∧
      ((∃ d, (ns.at j).declaration = some d ∧ VarLife ns d l) ∨
        (ns.at j).declaration = none ∧ l = .ret []) := by
  induction m with
  | zero =>
    intro n l hn h
    rcases lifetime_cases ns n with h1 | ⟨d, h1, h2⟩ | ⟨h1, h2, h3⟩ | h1 | h1 | h1
    · rw [h1] at h; cases h
    · obtain ⟨l', e, h3, _⟩ := lifetime_var h1 h2 h
      cases e
      exact ⟨n, ⟨.refl n, h1⟩, h, Or.inl ⟨d, h2, h3⟩⟩
    · have h' := h
      rw [h3] at h'
      cases h'
      exact ⟨n, ⟨.refl n, h1⟩, h, Or.inr ⟨h2, rfl⟩⟩
    · rw [h1] at h
      rcases unite_mem h with h2 | ⟨c, hc, h2⟩
      · cases h2
      · split at h2
        · omega
        · cases h2
    · rw [h1] at h; cases h
    · rw [h1] at h; cases h
  | succ m ih =>
    intro n l hn h
    rcases lifetime_cases ns n with h1 | ⟨d, h1, h2⟩ | ⟨h1, h2, h3⟩ | h1 | h1 | h1
    · rw [h1] at h; cases h
    · obtain ⟨l', e, h3, _⟩ := lifetime_var h1 h2 h
      cases e
      exact ⟨n, ⟨.refl n, h1⟩, h, Or.inl ⟨d, h2, h3⟩⟩
    · have h' := h
      rw [h3] at h'
      cases h'
      exact ⟨n, ⟨.refl n, h1⟩, h, Or.inr ⟨h2, rfl⟩⟩
    · rw [h1] at h
      rcases unite_mem h with h2 | ⟨c, hc, h2⟩
      · cases h2
      · split at h2
        · obtain ⟨j, ⟨h3, h4⟩, h5⟩ := ih c l (by omega) h2
          exact ⟨j, ⟨.step hc h3, h4⟩, h5⟩
        · cases h2
    · rw [h1] at h; cases h
    · rw [h1] at h; cases h

/-! ## Parts are not missed -/

theorem unite_some {ns : Nodes} {life : Nat → LtOut} {n : Node} : ∀ {cs : List Nat}
    {m : Lt.Lifetime} {k : Nat}, (∀ c, life c ≠ .done (.err .none) ∨ True) →
    ns.unite life n (some m) k cs ≠ .done (.err .none)
  | [], m, k, _ => by simp [Nodes.unite]
  | c :: cs, m, k, hl => by
    have key : ∀ k, (match life c with
        | .done (.ok l) => match longer (some m) l with
          | some m => ns.unite life n (some m) k cs
          | none => .done (.err .failedToUnify)
        | .done (.err .none) => ns.unite life n (some m) k cs
        | r => r) ≠ .done (.err .none) := by
      intro k
      split
      · split
        · exact unite_some hl
        · simp
      · exact unite_some hl
      · assumption
    rw [Nodes.unite]
    split
    · exact unite_some hl
    · simp
    · exact key _
    · split
      · exact key _
      · exact unite_some hl
      · rename_i r hr
        intro e
        subst e
        exact partOfResult_done hr

theorem unite_part {ns : Nodes} {life : Nat → LtOut} {n : Node} {c : Nat}
    (hr : rule n.kind (ns.at c).kind = .take) (hc : life c ≠ .done (.err .none)) :
    ∀ {cs : List Nat} {min : Option Lt.Lifetime} {k : Nat}, c ∈ cs →
      ns.unite life n min k cs ≠ .done (.err .none)
  | [], min, k, h => by cases h
  | c' :: cs, min, k, h => by
    by_cases he : c' = c
    · subst he
      rw [Nodes.unite, hr]
      simp only
      split
      · split
        · exact unite_some fun _ => Or.inr trivial
        · simp
      · rename_i e; exact absurd e hc
      · exact hc
    · have hm : c ∈ cs := by
        rcases List.mem_cons.1 h with h | h
        · exact absurd h.symm he
        · exact h
      have key : ∀ k, (match life c' with
          | .done (.ok l) => match longer min l with
            | some m => ns.unite life n (some m) k cs
            | none => .done (.err .failedToUnify)
          | .done (.err .none) => ns.unite life n min k cs
          | r => r) ≠ .done (.err .none) := by
        intro k
        split
        · split
          · exact unite_part hr hc hm
          · simp
        · exact unite_part hr hc hm
        · assumption
      rw [Nodes.unite]
      split
      · exact unite_part hr hc hm
      · simp
      · exact key _
      · split
        · exact key _
        · exact unite_part hr hc hm
        · rename_i r hr'
          intro e
          subst e
          exact partOfResult_done hr'

theorem carries_rule {n : Node} {c : Kind} (h : Carries n.kind c) :
    rule n.kind c = .take ∧ n.hasLifetime = true ∧ n.kind ≠ .item ∧ n.kind ≠ .call := by
  unfold Node.hasLifetime
  simp only [Carries, List.mem_cons, List.not_mem_nil, or_false] at h
  rcases h with ⟨h1, h2⟩ | ⟨h1, h2⟩ | ⟨h1, h2⟩ | ⟨h1, h2⟩ | ⟨h1, h2⟩ | ⟨h1, h2⟩
  · rcases h1 with h1 | h1 | h1 | h1 | h1 | h1 <;> rw [h1] <;>
      rcases h2 with h2 | h2 | h2 | h2 | h2 | h2 | h2 | h2 <;> subst h2 <;> simp [rule]
  · rw [h1, h2]; simp [rule]
  · rw [h1, h2]; simp [rule]
  · rw [h1, h2]; simp [rule]
  · rw [h1]
    rcases h2 with h2 | h2 | h2 <;> subst h2 <;> simp [rule]
  · subst h2
    rcases h1 with h1 | h1 | h1 | h1 <;> rw [h1] <;> simp [rule]

theorem Spec.Frees.unique {lts : List Mod.Lt} {n m : Nat} {lt : Mod.Lt} (h : Frees lts n lt) (h' : Frees lts m lt) : n = m := by
  induction h generalizing m with
  | default => cases h'; rfl
  | arg hx _ ih =>
    cases h' with
    | arg hx' h' => rw [hx] at hx'; cases hx'; rw [ih h']

theorem Spec.Frees.passed {lts : List Mod.Lt} {n : Nat} {lt : Mod.Lt} (h : Frees lts n lt) :
    ∃ xs : List Nat, xs.length = n ∧ xs.Nodup ∧ ∀ x ∈ xs, x < lts.length ∧ ∃ d, d ≤ n ∧ Frees lts d (.arg x) := by
  induction h with
  | default => exact ⟨[], rfl, .nil, by simp⟩
  | @arg x n lt hx hf ih =>
    obtain ⟨xs, h1, h2, h3⟩ := ih
    refine ⟨x :: xs, by simp [h1], List.nodup_cons.2 ⟨fun hm => ?_, h2⟩, fun y hy => ?_⟩
    · obtain ⟨_, d, hd, g⟩ := h3 x hm
      have := g.unique (.arg hx hf)
      omega
    · rcases List.mem_cons.1 hy with rfl | hy
      · exact ⟨(List.getElem?_eq_some_iff.1 hx).1, n + 1, Nat.le_refl _, .arg hx hf⟩
      · obtain ⟨a, d, hd, g⟩ := h3 y hy
        exact ⟨a, d, by omega, g⟩

theorem Spec.Frees.bound {lts : List Mod.Lt} {n : Nat} {lt : Mod.Lt} (h : Frees lts n lt) : n ≤ lts.length := by
  obtain ⟨xs, rfl, h2, h3⟩ := h.passed
  have := (List.Nodup.subperm (l₂ := List.range lts.length) h2 fun x hx => List.mem_range.2 (h3 x hx).1).length_le
  simpa using this

theorem Spec.Frees.leads {lts : List Mod.Lt} {n : Nat} {lt : Mod.Lt} (h : Frees lts n lt) :
    ∀ m, n < m → leadsTo lts m lt = .nowhere := by
  induction h with
  | default => intro m hm; match m, hm with | m + 1, _ => rfl
  | arg hx _ ih =>
    intro m hm
    match m, hm with
    | m + 1, hm => rw [leadsTo, hx]; exact ih m (by omega)

theorem leadsTo_returns {lts : List Mod.Lt} : ∀ {m : Nat} {lt : Mod.Lt}, leadsTo lts m lt = .toReturn → GivesBack lts lt
  | 0, _, h => by cases h
  | m + 1, .default, h => by cases h
  | m + 1, .ret, _ => .ret
  | m + 1, .arg x, h => by
    rw [leadsTo] at h
    cases hx : lts[x]? with
    | none => rw [hx] at h; cases h
    | some lt => rw [hx] at h; exact .arg hx (leadsTo_returns h)

theorem leadsTo_nowhere {lts : List Mod.Lt} : ∀ {m : Nat} {lt : Mod.Lt}, leadsTo lts m lt = .nowhere → ¬ GivesBack lts lt
  | 0, _, h, _ => by cases h
  | m + 1, .default, _, g => by cases g
  | m + 1, .ret, h, _ => by cases h
  | m + 1, .arg x, h, g => by
    cases g with
    | arg hx g =>
      rw [leadsTo, hx] at h
      exact leadsTo_nowhere h g

theorem returnsArg_nowhere {lts : List Mod.Lt} : ∀ {l : List Mod.Lt}, returnsArg lts l = .nowhere →
    ∀ lt ∈ l, ¬ GivesBack lts lt
  | [], _ => by simp
  | lt :: l, h => by
    rw [returnsArg] at h
    split at h
    · rename_i e
      intro x hx
      rcases List.mem_cons.1 hx with rfl | hx
      · exact leadsTo_nowhere e
      · exact returnsArg_nowhere h x hx
    · rename_i e; exact absurd h e

theorem unite_arg {ns : Nodes} {life : Nat → LtOut} {n : Node} {c : Nat} {post : List Nat} (hn : n.kind = .call)
    (hk : (ns.at c).kind = .callArg) (hc : life c ≠ .done (.err .none)) : ∀ {pre : List Nat} {min : Option Lt.Lifetime} {k : Nat},
    ns.partOfResult n.declaration (k + (pre.filter fun x => (ns.at x).kind = .callArg).length) ≠ .ok false →
      ns.unite life n min k (pre ++ c :: post) ≠ .done (.err .none)
  | [], min, k, hp => by
    have hr : rule n.kind (ns.at c).kind = .callArg := by simp [rule, hn, hk]
    simp only [List.filter_nil, List.length_nil, Nat.add_zero] at hp
    rw [List.nil_append, Nodes.unite, hr]
    cases hq : ns.partOfResult n.declaration k with
    | error r => simp only; intro e; subst e; exact partOfResult_done hq
    | ok b =>
      cases b with
      | false => exact absurd hq hp
      | true =>
        simp only
        split
        · split
          · exact unite_some fun _ => Or.inr trivial
          · simp
        · rename_i e; exact absurd e hc
        · exact hc
  | c' :: pre, min, k, hp => by
    have key : ∀ k', k' = k + (if (ns.at c').kind = .callArg then 1 else 0) → ∀ min, 
        ns.unite life n min k' (pre ++ c :: post) ≠ .done (.err .none) := by
      intro k' hk' min
      refine unite_arg hn hk hc ?_
      subst hk'
      by_cases h : (ns.at c').kind = .callArg
      · simp only [h, if_true, List.filter_cons, decide_true, List.length_cons] at hp ⊢
        rwa [Nat.add_assoc, Nat.add_comm 1]
      · simpa [h, List.filter_cons] using hp
    have key2 : ∀ k', k' = k + (if (ns.at c').kind = .callArg then 1 else 0) → (match life c' with
        | .done (.ok l) => match longer min l with
          | some m => ns.unite life n (some m) k' (pre ++ c :: post)
          | none => .done (.err .failedToUnify)
        | .done (.err .none) => ns.unite life n min k' (pre ++ c :: post)
        | r => r) ≠ .done (.err .none) := by
      intro k' hk'
      split
      · split
        · exact key _ hk' _
        · simp
      · exact key _ hk' _
      · assumption
    rw [List.cons_append, Nodes.unite]
    by_cases h : (ns.at c').kind = .callArg
    · rw [show rule n.kind (ns.at c').kind = .callArg by simp [rule, hn, h]]
      simp only
      split
      · exact key2 _ (by simp [h])
      · exact key _ (by simp [h]) _
      · rename_i r hr
        intro e
        subst e
        exact partOfResult_done hr
    · have hr : rule n.kind (ns.at c').kind ≠ .callArg := by
        rw [hn]
        cases hc' : (ns.at c').kind <;> first
          | exact absurd hc' h
          | simp [rule]
      split
      · exact key _ (by simp [h]) _
      · simp
      · exact key2 _ (by simp [h])
      · rename_i e; exact absurd e hr

theorem returned_part {ns : Nodes} {n k : Nat} (h : Returned ns n k) : ns.partOfResult (ns.at n).declaration k ≠ .ok false := by
  rcases h with ⟨f, a, l, h1, h2, h3, h4, h5⟩ | ⟨h1, _⟩
  · intro e
    simp only [Nodes.partOfResult, h1, h2] at e
    split at e
    · cases e
    · rename_i r hr hn
      obtain ⟨L, rfl, _⟩ := argLifetime_ok hn
      obtain ⟨l', b, e', hl⟩ := argLifetime_leads h3 hn
      cases b with
      | true => cases e'; exact hr _ rfl
      | false => exact h5 _ hl
    · cases e
  · simp [Nodes.partOfResult, h1]

theorem lifetime_call {ns : Nodes} {n k : Nat} (hk : (ns.at n).kind = .call) (h : Returned ns n k)
    (hu : ns.unite (fun c => if n < c ∧ c < ns.length then ns.lifetime c else .crash) (ns.at n) none 0 (ns.at n).children ≠
      .done (.err .none)) : ns.lifetime n ≠ .done (.err .none) := by
  rw [Nodes.lifetime.eq_def]
  rcases h with ⟨f, a, l, h1, -⟩ | ⟨h1, lt, h2, h3⟩
  · simp [hk, h1, Node.hasLifetime]
    simpa [hk, h1] using hu
  · have hn : (ns.at n).lts ≠ [] := by intro e; rw [e] at h2; cases h2
    have := fun e => returnsArg_nowhere (l := (ns.at n).lts) e lt (List.mem_of_getElem? h2) h3
    cases hr : returnsArg (ns.at n).lts (ns.at n).lts with
    | nowhere => exact absurd hr this
    | toReturn => simpa [hk, h1, hn, Node.hasLifetime, hr] using hu
    | crash => simp [hk, h1, hn, Node.hasLifetime, hr]
    | endless => simp [hk, h1, hn, Node.hasLifetime, hr]

/-- A variable that is part of a value is not overlooked. -/
theorem lifetime_part {ns : Nodes} {n i d : Nat} (h : Part ns n i)
    (hd : (ns.at i).declaration = some d) : ns.lifetime n ≠ .done (.err .none) := by
  induction h with
  | here hk =>
    intro e
    obtain ⟨l, e', _⟩ := lifetime_var hk hd e
    cases e'
  | @into n c i hc hcar _ ih =>
    obtain ⟨h1, h2, h3, h4⟩ := carries_rule hcar
    rw [lifetime_parts h2 h3 h4]
    refine unite_part h1 ?_ hc
    split
    · exact ih hd
    · simp
  | @call n c i pre post hk hcs hc hr _ ih =>
    refine lifetime_call hk hr ?_
    rw [hcs]
    refine unite_arg hk hc ?_ (by rw [Nat.zero_add]; exact returned_part hr)
    split
    · exact ih hd
    · simp

/-! ## Only one variable: nothing to unify -/

theorem unite_same {ns : Nodes} {life : Nat → LtOut} {n : Node} {L : Lt.Lifetime}
    (hL : Lt.partialCmp L L = some .eq) : ∀ {cs : List Nat} {min : Option Lt.Lifetime} {k : Nat},
    (∀ c ∈ cs, ∀ r, life c = .done r → r = .ok L ∨ r = .err .none) →
    (min = none ∨ min = some L) → ns.unite life n min k cs ≠ .done (.err .failedToUnify)
  | [], min, k, _, hm => by rcases hm with rfl | rfl <;> simp [Nodes.unite]
  | c :: cs, min, k, h, hm => by
    have hcs : ∀ c ∈ cs, ∀ r, life c = .done r → r = .ok L ∨ r = .err .none :=
      fun c' hc' => h c' (List.mem_cons_of_mem _ hc')
    have key : ∀ k, (match life c with
        | .done (.ok l) => match longer min l with
          | some m => ns.unite life n (some m) k cs
          | none => .done (.err .failedToUnify)
        | .done (.err .none) => ns.unite life n min k cs
        | r => r) ≠ .done (.err .failedToUnify) := by
      intro k
      split
      · rename_i l hl
        rcases h c (by simp) _ hl with e | e
        · cases e
          have : longer min L = some L := by
            rcases hm with rfl | rfl
            · rfl
            · simp [longer, hL]
          rw [this]
          exact unite_same hL hcs (Or.inr rfl)
        · cases e
      · exact unite_same hL hcs hm
      · rename_i h1 h2
        intro e
        rcases h c (by simp) _ e with e | e <;> cases e
    rw [Nodes.unite]
    split
    · exact unite_same hL hcs hm
    · simp
    · exact key _
    · split
      · exact key _
      · exact unite_same hL hcs hm
      · rename_i r hr
        intro e
        subst e
        exact partOfResult_done hr

theorem lifetime_same {ns : Nodes} {d : Nat} (m : Nat) : ∀ (n : Nat), ns.length - n ≤ m →
    (∀ j, Mentions ns n j → (ns.at j).declaration = some d) →
    ns.lifetime n ≠ .done (.err .failedToUnify) := by
  induction m with
  | zero =>
    intro n hn hd e
    rcases lifetime_cases ns n with h1 | ⟨d', h1, h2⟩ | ⟨h1, h2, h3⟩ | h1 | h1 | h1
    · rw [h1] at e; cases e
    · obtain ⟨l, e', _⟩ := lifetime_var h1 h2 e
      cases e'
    · rw [h3] at e; cases e
    · rw [h1] at e
      refine unite_same (L := .loc 0) (Lt.C07_refl _ (by simp)) ?_ (Or.inl rfl) e
      intro c hc r hr
      split at hr
      · omega
      · cases hr
    · rw [h1] at e; cases e
    · rw [h1] at e; cases e
  | succ m ih =>
    intro n hn hd e
    rcases lifetime_cases ns n with h1 | ⟨d', h1, h2⟩ | ⟨h1, h2, h3⟩ | h1 | h1 | h1
    · rw [h1] at e; cases e
    · obtain ⟨l, e', _⟩ := lifetime_var h1 h2 e
      cases e'
    · rw [h3] at e; cases e
    · rw [h1] at e
      by_cases hL : ∃ L, VarLife ns d L ∧ Lt.partialCmp L L = some .eq
      · obtain ⟨L, hL, hLL⟩ := hL
        refine unite_same hLL ?_ (Or.inl rfl) e
        intro c hc r hr
        split at hr
        · have hd' : ∀ j, Mentions ns c j → (ns.at j).declaration = some d :=
            fun j hj => hd j ⟨.step hc hj.1, hj.2⟩
          cases r with
          | ok l =>
            obtain ⟨j, hj, _, h5 | h5⟩ := lifetime_mentions _ c l (Nat.le_refl _) hr
            · obtain ⟨d'', h6, h7⟩ := h5
              rw [hd' j hj] at h6
              cases h6
              rw [varLife_unique h7 hL]
              exact Or.inl rfl
            · rw [hd' j hj] at h5
              exact absurd h5.1 (by simp)
          | err er =>
            cases er with
            | none => exact Or.inr rfl
            | failedToUnify => exact absurd hr (ih c (by omega) hd')
        · cases hr
      · refine unite_same (L := .loc 0) (Lt.C07_refl _ (by simp)) ?_ (Or.inl rfl) e
        intro c hc r hr
        split at hr
        · have hd' : ∀ j, Mentions ns c j → (ns.at j).declaration = some d :=
            fun j hj => hd j ⟨.step hc hj.1, hj.2⟩
          cases r with
          | ok l =>
            exfalso
            obtain ⟨j, hj, h4, _⟩ := lifetime_mentions _ c l (Nat.le_refl _) hr
            obtain ⟨l', e', h6, h7⟩ := lifetime_var hj.2 (hd' j hj) h4
            exact hL ⟨l', h6, h7⟩
          | err er =>
            cases er with
            | none => exact Or.inr rfl
            | failedToUnify => exact absurd hr (ih c (by omega) hd')
        · cases hr
    · rw [h1] at e; cases e
    · rw [h1] at e; cases e

/-- An expression in which one variable is a part and no other is mentioned lives as long as the
variable. -/
theorem lifetime_only {ns : Nodes} {n d : Nat} (h : Only ns n d) {r : Lt.LtRes}
    (hr : ns.lifetime n = .done r) : ∃ l, r = .ok l ∧ VarLife ns d l := by
  obtain ⟨⟨i, hp, hi⟩, hm⟩ := h
  cases r with
  | ok l =>
    obtain ⟨j, hj, _, h5 | h5⟩ := lifetime_mentions _ n l (Nat.le_refl _) hr
    · obtain ⟨d', h6, h7⟩ := h5
      rw [hm j hj] at h6
      cases h6
      exact ⟨l, rfl, h7⟩
    · rw [hm j hj] at h5
      exact absurd h5.1 (by simp)
  | err e =>
    cases e with
    | none => exact absurd hr (lifetime_part hp hi)
    | failedToUnify => exact absurd hr (lifetime_same _ n (Nat.le_refl _) hm)

/-- A value that refers to one variable is accepted only if the variable outlives the place. -/
theorem compare_only {ns : Nodes} {k n d : Nat} (h : Only ns n d) {l : Lt.Lifetime}
    (hc : ns.compare k (.done (.ok l)) (ns.lifetime n) = .accept) :
    ∃ r, VarLife ns d r ∧ Lt.Outlives r l := by
  obtain ⟨l', r', h1, h2, h3⟩ := compare_accept hc
  cases h1
  obtain ⟨r, rfl, hv⟩ := lifetime_only h h2
  exact ⟨r, hv, compare_less h3⟩

end Dyon.Check
