import Verif.Sound.SmallBuild
import Verif.Sound.Operators

/-!
# The nodes of small programs

Lemmas for C81: in the arena of a file of the language of `Sound/Small.lean`, after linking, the nodes of an expression are
among those that `Sound/Checked.lean` is about, and what types they can have are types of the program that runs.
-/

namespace Dyon.Sound.Small

open Check Check.Spec
open Check.EndDemo (nd)
open Lost (box)
open Sound.Spec (Frag TypedNode Honest HostFn Plain Vague)
open Ty (HasTy)

/-! ## Which nodes there are -/

/-- The kinds of nodes of bodies. -/
def calm : List Kind := [.expr, .item, .call, .callArg, .if', .cond, .trueBlock, .elseBlock, .block, .ret, .arg, .assign, .left, .right]

/-- What holds of the nodes of bodies. -/
def Still (n : Node) : Prop := n.kind ∈ calm ∧ n.op = none ∧ n.declaration = none ∧ n.lifetime = none

/-- All nodes of a tree. -/
inductive AllTr (P : Node → Prop) : Tr → Prop
  | mk {n ops ks} : P n → (∀ k ∈ ks, AllTr P k) → AllTr P (.mk n ops ks)

theorem still_nd {k : Kind} {names : List String} {ty : Option Ty} {ts : List Tr} (hk : k ∈ calm) (h : ∀ t ∈ ts, AllTr Still t) :
    AllTr Still (nd k names ty ts) := .mk ⟨hk, rfl, rfl, rfl⟩ h

theorem still_box {k : Kind} {ts : List Tr} (hk : k ∈ calm) (h : ∀ t ∈ ts, AllTr Still t) : AllTr Still (box k ts) := .mk ⟨hk, rfl, rfl, rfl⟩ h

theorem still_one {k : Kind} {t : Tr} (hk : k ∈ calm) (h : AllTr Still t) : AllTr Still (box k [t]) :=
  still_box hk (by simpa using h)

theorem still_atomic {t : Tr} (h : AllTr Still t) (w : Bool) : AllTr Still (atomicTr w t) := by
  cases w
  · exact still_one (by decide) h
  · exact h

theorem still_compound {t : Tr} (h : AllTr Still t) (w : Bool) : AllTr Still (compoundTr w t) := by
  cases w
  · exact h
  · exact still_one (by decide) h

theorem still_op {op : Syn.BinOp} {l r : Tr} (hl : AllTr Still l) (hr : AllTr Still r) : AllTr Still (opTr op l r) :=
  still_nd (by decide) (by
    simp only [List.mem_cons, List.not_mem_nil, or_false]
    rintro t (rfl | rfl)
    · exact still_one (by decide) hl
    · exact still_one (by decide) hr)

mutual
theorem still_tr : ∀ (e : Ex) (w : Bool), AllTr Still (e.tr w)
  | .num _, w | .bool _, w | .text _, w => by
    rw [Ex.tr]; exact still_atomic (still_nd (by decide) (by simp)) w
  | .var x, w => by
    rw [Ex.tr]; exact still_atomic (still_one (by decide) (still_nd (by decide) (by simp))) w
  | .call f args, w => by
    rw [Ex.tr]; exact still_atomic (still_one (by decide) (still_nd (by decide) (still_args args))) w
  | .ite c a b, w => by
    rw [Ex.tr]
    refine still_compound (still_box (by decide) ?_) w
    simp only [List.mem_cons, List.not_mem_nil, or_false]
    rintro t (rfl | rfl | rfl)
    · exact still_one (by decide) (still_tr c false)
    · exact still_one (by decide) (still_one (by decide) (still_tr a false))
    · exact still_one (by decide) (still_one (by decide) (still_tr b false))
  | .neg e, w => by
    rw [Ex.tr]
    exact still_compound (still_one (by decide) (still_nd (by decide) (by simpa using still_one (by decide) (still_tr e true)))) w
  | .pow l r, w => by
    rw [Ex.tr]; exact still_compound (still_one (by decide) (still_op (still_tr l true) (still_tr r true))) w
  | .mul _ l r, w => by
    rw [Ex.tr]; exact still_compound (still_one (by decide) (still_op (still_tr l true) (still_tr r true))) w
  | .add _ l r, w => by
    rw [Ex.tr]
    exact still_compound (still_op (still_one (by decide) (still_tr l true)) (still_one (by decide) (still_tr r true))) w
  | .cmp _ l r, w => by
    rw [Ex.tr]
    exact still_compound (still_op (still_one (by decide) (still_tr l false)) (still_one (by decide) (still_tr r false))) w
theorem still_args : ∀ (es : List Ex), ∀ t ∈ argTrs es, AllTr Still t
  | [] => by simp [argTrs]
  | e :: es => by
    rw [argTrs]
    simp only [List.mem_cons]
    rintro t (rfl | ht)
    · exact still_one (by decide) (still_tr e false)
    · exact still_args es t ht
end

theorem still_guard (c e : Ex) : AllTr Still (guardBox (c.tr false) (e.tr false)) := by
  refine still_one (by decide) (still_box (by decide) ?_)
  simp only [List.mem_cons, List.not_mem_nil, or_false]
  rintro t (rfl | rfl)
  · exact still_one (by decide) (still_tr c false)
  · exact still_one (by decide) (still_one (by decide) (still_one (by decide) (still_tr e false)))

theorem laid_mem {ns : Nodes} {p : Nat} : ∀ {cs : List Nat} {ts : List Tr}, LaidAll ns p cs ts → ∀ c ∈ cs, ∃ t ∈ ts, Laid ns (some p) c t
  | _, _, .nil, c, h => by cases h
  | _, _, .cons _ _ h1 h2, c, h => by
    rcases List.mem_cons.1 h with rfl | h
    · exact ⟨_, by simp, h1⟩
    · obtain ⟨t, ht, h⟩ := laid_mem h2 c h
      exact ⟨t, by simp [ht], h⟩

theorem laid_get {ns : Nodes} {p : Nat} : ∀ {cs : List Nat} {ts : List Tr}, LaidAll ns p cs ts → cs.length = ts.length ∧
    ∀ (k : Nat) t, ts[k]? = some t → ∃ c, cs[k]? = some c ∧ Laid ns (some p) c t
  | _, _, .nil => ⟨rfl, fun k t h => by cases h⟩
  | _, _, .cons _ _ h1 h2 => by
    obtain ⟨e, h⟩ := laid_get h2
    refine ⟨by simp [e], fun k t hk => ?_⟩
    cases k with
    | zero => cases hk; exact ⟨_, rfl, h1⟩
    | succ k => exact h k t hk

theorem laid_nodup {ns : Nodes} {p : Nat} : ∀ {cs : List Nat} {ts : List Tr}, LaidAll ns p cs ts → cs.Nodup
  | _, _, .nil => .nil
  | _, _, .cons _ h _ h2 => List.nodup_cons.2 ⟨fun hm => Nat.lt_irrefl _ (h _ hm), laid_nodup h2⟩

theorem roots_get {ns : Nodes} : ∀ {is : List Nat} {ts : List Tr}, Roots ns is ts → is.length = ts.length ∧
    ∀ (k : Nat) i t, is[k]? = some i → ts[k]? = some t → Laid ns none i t
  | _, _, .nil => ⟨rfl, fun k i t h => by cases h⟩
  | _, _, .cons _ h1 h2 => by
    obtain ⟨e, h⟩ := roots_get h2
    refine ⟨by simp [e], fun k i t hi hk => ?_⟩
    cases k with
    | zero => cases hi; cases hk; exact h1
    | succ k => exact h k i t hi hk

theorem laid_snoc {ns : Nodes} {p : Nat} {t : Tr} : ∀ {ts : List Tr} {cs : List Nat}, LaidAll ns p cs (ts ++ [t]) →
    ∃ cs' c, cs = cs' ++ [c] ∧ LaidAll ns p cs' ts ∧ Laid ns (some p) c t
  | [], _, .cons _ _ h1 .nil => ⟨[], _, rfl, .nil, h1⟩
  | _ :: _, _, .cons a b h1 h2 => by
    obtain ⟨cs', c, rfl, h3, h4⟩ := laid_snoc h2
    exact ⟨_ :: cs', c, rfl, .cons a (fun c' hc => b c' (by simp [hc])) h1 h3, h4⟩

theorem roots_nodup {ns : Nodes} : ∀ {is : List Nat} {ts : List Tr}, Roots ns is ts → is.Nodup
  | _, _, .nil => List.nodup_nil
  | _, _, .cons h _ h2 => List.nodup_cons.2 ⟨fun hm => Nat.lt_irrefl _ (h _ hm), roots_nodup h2⟩

/-- The arena of a file and what linking makes of it. -/
structure Setup (env : Check.Env) (fs : List Fn) (ns0 ns1 ns2 : Nodes) (is : List Nat) : Prop where
  roots : Roots ns0 is (fs.map Fn.tr)
  all : ∀ i < ns0.length, Below ns0 is i ∨ Dropped (ns0.at i)
  back : ∀ p c, c ∈ (ns0.at p).children → (ns0.at c).parent = some p
  parent : ∀ c p, (ns0.at c).parent = some p → p < c ∧ c ∈ (ns0.at p).children
  link1 : ns0.linkAll = .ok ns1
  link2 : ns1.linkFns env = .ok ns2

/-- The block `b` of the function `f` at `r`. -/
structure InFn (ns : Nodes) (is : List Nat) (fs : List Fn) (j r : Nat) (f : Fn) (b : Nat) : Prop where
  root : is[j]? = some r
  fn : fs[j]? = some f
  last : (ns.at r).children.getLast? = some b
  block : Laid ns (some r) b f.block

/-- Where nodes can be. -/
inductive Spot (ns : Nodes) (is : List Nat) (fs : List Fn) : Nat → Prop
  | root {j i : Nat} {f} : is[j]? = some i → fs[j]? = some f → Spot ns is fs i
  | block {j r f b} : InFn ns is fs j r f b → Spot ns is fs b
  | stmt {j r f b s q} : InFn ns is fs j r f b → Laid ns (some b) s (letTr q) → Spot ns is fs s
  | asg {j r f b s a q} : InFn ns is fs j r f b → Laid ns (some b) s (letTr q) →
      Laid ns (some s) a (asgTr q.1 (q.2.tr false)) → Spot ns is fs a
  | still {p i t} : Laid ns (some p) i t → AllTr Still t → Spot ns is fs i

section
variable {env : Check.Env} {fs : List Fn} {ns0 ns1 ns2 : Nodes} {is : List Nat}

theorem Setup.root (S : Setup env fs ns0 ns1 ns2 is) {j r : Nat} {f : Fn} (hr : is[j]? = some r) (hf : fs[j]? = some f) : Laid ns0 none r f.tr :=
  (roots_get S.roots).2 j r f.tr hr (by rw [List.getElem?_map, hf]; rfl)

theorem Setup.some_root (S : Setup env fs ns0 ns1 ns2 is) {j r : Nat} (hr : is[j]? = some r) : ∃ f, fs[j]? = some f := by
  have h := (List.getElem?_eq_some_iff.1 hr).1
  have e := (roots_get S.roots).1
  rw [List.length_map] at e
  exact ⟨_, List.getElem?_eq_getElem (by omega)⟩

theorem Setup.root_of (S : Setup env fs ns0 ns1 ns2 is) {j : Nat} {f : Fn} (hf : fs[j]? = some f) : ∃ r, is[j]? = some r := by
  have h := (List.getElem?_eq_some_iff.1 hf).1
  have e := (roots_get S.roots).1
  rw [List.length_map] at e
  exact ⟨_, List.getElem?_eq_getElem (by omega)⟩

theorem Setup.below (S : Setup env fs ns0 ns1 ns2 is) {i : Nat} (h : Below ns0 is i) : Spot ns0 is fs i := by
  induction h with
  | root h =>
    obtain ⟨j, hj⟩ := List.mem_iff_getElem?.1 h
    obtain ⟨f, hf⟩ := S.some_root hj
    exact .root hj hf
  | @child p c _ hc ih =>
    cases ih with
    | @root j _ f hj hf =>
      cases S.root hj hf with
      | mk e hl =>
        obtain ⟨cs', b, rfl, h1, h2⟩ := laid_snoc hl
        rw [e] at hc
        rcases List.mem_append.1 hc with hc | hc
        · obtain ⟨t, ht, h⟩ := laid_mem h1 c hc
          obtain ⟨q, -, rfl⟩ := List.mem_map.1 ht
          exact .still h (still_nd (by decide) (by simp))
        · rw [List.mem_singleton.1 hc]
          exact .block ⟨hj, hf, by rw [e]; simp, h2⟩
    | block F =>
      have hb := F.block
      cases hb with
      | mk e hl =>
        rw [e] at hc
        obtain ⟨t, ht, h⟩ := laid_mem hl c hc
        rcases List.mem_append.1 ht with ht | ht
        · obtain ⟨q, -, rfl⟩ := List.mem_map.1 ht
          cases q with
          | decl x e => exact .stmt (q := (x, e)) F h
          | guard c e => exact .still h (still_guard c e)
        · rw [List.mem_singleton.1 ht] at h
          exact .still h (still_one (by decide) (still_one (by decide) (still_tr _ _)))
    | stmt F hs =>
      have hs' := hs
      cases hs' with
      | mk e hl =>
        rw [e] at hc
        obtain ⟨t, ht, h⟩ := laid_mem hl c hc
        rw [List.mem_singleton.1 ht] at h
        exact .asg F hs h
    | asg F hs ha =>
      cases ha with
      | mk e hl =>
        rw [e] at hc
        obtain ⟨t, ht, h⟩ := laid_mem hl c hc
        refine .still h ?_
        simp only [List.mem_cons, List.not_mem_nil, or_false] at ht
        rcases ht with rfl | rfl
        · exact still_one (by decide) (still_nd (by decide) (by simp))
        · exact still_one (by decide) (still_tr _ _)
    | still hl hq =>
      cases hl with
      | mk e hl =>
        rw [e] at hc
        obtain ⟨t, ht, h⟩ := laid_mem hl c hc
        cases hq with
        | mk _ hq => exact .still h (hq t ht)

/-- All nodes. -/
theorem Setup.every (S : Setup env fs ns0 ns1 ns2 is) (i : Nat) : ((ns0.at i).op ≠ none → ∃ j r f b s q, InFn ns0 is fs j r f b ∧
      Laid ns0 (some b) s (letTr q) ∧ Laid ns0 (some s) i (asgTr q.1 (q.2.tr false))) ∧ (ns0.at i).declaration = none ∧
    (ns0.at i).kind ∈ .fn :: .add :: .mul :: (default : Node).kind :: calm ∧
    ((ns0.at i).kind = .fn → i < ns0.length → ∃ (j : Nat) (f : Fn), is[j]? = some i ∧ fs[j]? = some f) := by
  by_cases hi : i < ns0.length
  · rcases S.all i hi with h | h
    · cases S.below h with
      | @root j _ f hj hf =>
        cases S.root hj hf with
        | mk e _ => rw [e]; exact ⟨fun h => absurd rfl h, rfl, by simp, fun _ _ => ⟨j, f, hj, hf⟩⟩
      | block F =>
        cases F.block with
        | mk e _ => rw [e]; exact ⟨fun h => absurd rfl h, rfl, by simp [calm], fun h => by cases h⟩
      | stmt F h =>
        cases h with
        | mk e _ => rw [e]; exact ⟨fun h => absurd rfl h, rfl, by simp [calm], fun h => by cases h⟩
      | asg F h1 h2 =>
        refine ⟨fun _ => ⟨_, _, _, _, _, _, F, h1, h2⟩, ?_⟩
        cases h2 with
        | mk e _ => rw [e]; exact ⟨rfl, by simp [calm], fun h => by cases h⟩
      | still hl hq =>
        cases hl with
        | mk e _ =>
          cases hq with
          | mk hq _ =>
            rw [e]
            refine ⟨fun h => absurd hq.2.1 h, hq.2.2.1, by simp [hq.1], fun h => ?_⟩
            have := hq.1
            simp only at h
            rw [h] at this
            exact absurd this (by decide)
    · refine ⟨fun h' => absurd h.op h', h.declaration, ?_, fun h' => ?_⟩
      · rcases h.kind with h | h <;> rw [h] <;> simp
      · rcases h.kind with h | h <;> rw [h] at h' <;> cases h'
  · rw [at_none (Nat.not_lt.1 hi)]
    exact ⟨fun h => absurd rfl h, rfl, by simp, fun _ h => absurd h hi⟩

/-- Parameters have no lifetimes. -/
theorem Setup.free (S : Setup env fs ns0 ns1 ns2 is) {d : Nat} (hk : (ns0.at d).kind = .arg) :
    (ns0.at d).lifetime = none ∧ ∃ p, (ns0.at d).parent = some p := by
  by_cases hi : d < ns0.length
  · rcases S.all d hi with h | h
    · cases S.below h with
      | root hj hf =>
        cases S.root hj hf with
        | mk e _ => rw [e] at hk; cases hk
      | block F =>
        cases F.block with
        | mk e _ => rw [e] at hk; cases hk
      | stmt F h =>
        cases h with
        | mk e _ => rw [e] at hk; cases hk
      | asg F _ h =>
        cases h with
        | mk e _ => rw [e] at hk; cases hk
      | @still p _ _ hl hq =>
        cases hl with
        | mk e _ =>
          cases hq with
          | mk hq _ => rw [e]; exact ⟨hq.2.2.2, p, rfl⟩
    · rcases h.kind with h | h <;> rw [h] at hk <;> cases hk
  · rw [at_none (Nat.not_lt.1 hi)] at hk
    cases hk

theorem Setup.like1 (S : Setup env fs ns0 ns1 ns2 is) : Like ns0 ns1 := by
  obtain ⟨h1, h2, -⟩ := linkItems_decl S.link1
  refine ⟨h1, fun i => ?_⟩
  have := h2 i
  have e := congrArg (fun n : Node => { n with lts := [] }) this
  exact e.symm

theorem Setup.like (S : Setup env fs ns0 ns1 ns2 is) : Like ns0 ns2 := S.like1.trans (linkFns_decl S.link2).1

end

/-! ## Parents -/

/-- From `i` one comes to `r` by parents. -/
inductive Chain (ns : Nodes) : Nat → Nat → Prop
  | refl {i} : Chain ns i i
  | step {i p r} : (ns.at i).parent = some p → Chain ns p r → Chain ns i r

theorem Chain.snoc {ns : Nodes} {i p q : Nat} (h : Chain ns i p) (hq : (ns.at p).parent = some q) : Chain ns i q := by
  induction h with
  | refl => exact .step hq .refl
  | step h1 _ ih => exact .step h1 (ih hq)

theorem Chain.top {ns : Nodes} {i p r : Nat} (h : Chain ns i p) (h' : Chain ns i r) (hp : (ns.at p).parent = none)
    (hr : (ns.at r).parent = none) : p = r := by
  induction h with
  | refl =>
    cases h' with
    | refl => rfl
    | step h _ => rw [hp] at h; cases h
  | step h _ ih =>
    cases h' with
    | refl => rw [hr] at h; cases h
    | step h1 h2 => rw [h] at h1; cases h1; exact ih h2 hp

theorem Chain.trans {ns : Nodes} {i p q : Nat} (h : Chain ns i p) (hq : Chain ns p q) : Chain ns i q := by
  induction h with
  | refl => exact hq
  | step h1 _ ih => exact .step h1 (ih hq)

/-- Parents are stored before children. -/
theorem Chain.le {ns : Nodes} (hp : ∀ c p, (ns.at c).parent = some p → p < c) {i p : Nat} (h : Chain ns i p) : p ≤ i := by
  induction h with
  | refl => exact Nat.le_refl _
  | step h1 _ ih => have := hp _ _ h1; omega

theorem Chain.linear {ns : Nodes} {i a b : Nat} (h : Chain ns i a) (h' : Chain ns i b) : Chain ns a b ∨ Chain ns b a := by
  induction h with
  | refl => exact .inl h'
  | step h1 h2 ih =>
    cases h' with
    | refl => exact .inr (.step h1 h2)
    | step h3 h4 => rw [h1] at h3; cases h3; exact ih h4

/-- On the way up there is one child of a node. -/
theorem Chain.same {ns : Nodes} (hp : ∀ c p, (ns.at c).parent = some p → p < c) {i a b p : Nat} (h : Chain ns i a) (h' : Chain ns i b)
    (ha : (ns.at a).parent = some p) (hb : (ns.at b).parent = some p) : a = b := by
  have one : ∀ {a b}, (ns.at a).parent = some p → (ns.at b).parent = some p → Chain ns a b → a = b := by
    intro a b ha hb h
    cases h with
    | refl => rfl
    | step h1 h2 =>
      rw [ha] at h1
      cases h1
      have := h2.le hp
      have := hp _ _ hb
      omega
  rcases h.linear h' with h | h
  · exact one ha hb h
  · exact (one hb ha h).symm

theorem sees_child {ns : Nodes} {i : Nat} {x : String} {c p g : Nat} (h : Check.Spec.Sees ns i x c p g) : Chain ns i c ∧ (ns.at c).parent = some p := by
  induction h with
  | start h => exact ⟨.refl, h⟩
  | out _ _ h _ _ ih => exact ⟨ih.1.snoc ih.2, h⟩
  | grab _ _ h _ ih => exact ⟨ih.1.snoc ih.2, h⟩
  | leave _ _ h _ _ ih => exact ⟨ih.1.snoc ih.2, h⟩

/-- What is passed on the way up does not declare the name. -/
theorem sees_passed {ns : Nodes} (hp : ∀ c p, (ns.at c).parent = some p → p < c) {i : Nat} {x : String} {c p g : Nat}
    (h : Check.Spec.Sees ns i x c p g) : ∀ {s b}, Chain ns i s → (ns.at s).parent = some b → Chain ns b c → ¬ Binds ns x s b := by
  have up : ∀ {c p q g s b}, Check.Spec.Sees ns i x c p g → ¬ Binds ns x c p → (ns.at p).parent = some q →
      (∀ {s b}, Chain ns i s → (ns.at s).parent = some b → Chain ns b c → ¬ Binds ns x s b) →
      Chain ns i s → (ns.at s).parent = some b → Chain ns b p → ¬ Binds ns x s b := by
    intro c p q g s b h hn hq ih h1 h2 h3
    obtain ⟨a1, a2⟩ := sees_child h
    rcases a1.linear (h1.snoc h2) with h4 | h4
    · cases h4 with
      | refl => exact ih h1 h2 .refl
      | step h5 h6 =>
        rw [a2] at h5
        cases h5
        have e : b = p := by
          have := h6.le hp
          have := h3.le hp
          omega
        subst e
        rw [h1.same hp a1 h2 a2]
        exact hn
    · exact ih h1 h2 h4
  induction h with
  | start h =>
    intro s b h1 h2 h3
    have := h1.le hp
    have := hp _ _ h2
    have := h3.le hp
    omega
  | out h hn hq _ _ ih => intro s b h1 h2 h3; exact up h hn hq ih h1 h2 h3
  | grab h hn hq _ ih => intro s b h1 h2 h3; exact up h hn hq ih h1 h2 h3
  | leave h hn hq _ _ ih => intro s b h1 h2 h3; exact up h hn hq ih h1 h2 h3

theorem sees_chain {ns : Nodes} {i : Nat} {x : String} {c p g : Nat} (h : Check.Spec.Sees ns i x c p g) : Chain ns i p := by
  induction h with
  | start h => exact .step h .refl
  | out _ _ h _ _ ih => exact ih.snoc h
  | grab _ _ h _ ih => exact ih.snoc h
  | leave _ _ h _ _ ih => exact ih.snoc h

theorem laid_parent {ns : Nodes} {p : Option Nat} {i : Nat} {t : Tr} (h : Laid ns p i t) : (ns.at i).parent = p := by
  cases h with
  | mk e _ => rw [e]

theorem laid_lt {ns : Nodes} {p : Nat} {i : Nat} {t : Tr} (h : Laid ns (some p) i t) : i < ns.length := by
  by_contra hi
  have := laid_parent h
  rw [at_none (Nat.not_lt.1 hi)] at this
  cases this

theorem laid_chain {ns : Nodes} {p : Nat} {i r : Nat} {t : Tr} (h : Laid ns (some p) i t) (hc : Chain ns p r) : Chain ns i r :=
  .step (laid_parent h) hc

section
variable {env : Check.Env} {fs : List Fn} {ns0 ns1 ns2 : Nodes} {is : List Nat}

theorem Like.ty' {a b : Nodes} (h : Like a b) (i : Nat) : (b.at i).ty = (a.at i).ty := by
  have := congrArg Node.ty (h.2 i); exact this
theorem Like.tryFlag' {a b : Nodes} (h : Like a b) (i : Nat) : (b.at i).tryFlag = (a.at i).tryFlag := by
  have := congrArg Node.tryFlag (h.2 i); exact this

/-! ## Calls -/

theorem linkCall_declared {env : Check.Env} {look : Mod.Map Nat} {ns ns' : Nodes} {c : Nat} (h : ns.linkCall env look c = .ok ns') {k d : Nat}
    (hd : (ns'.at k).declaration = some d) : (ns.at k).declaration = some d ∨
      ((ns.at k).alias = none → ∃ n i, (ns.at k).name = some n ∧ look n = some i ∧ ns.functions[i]? = some d) := by
  simp only [Nodes.linkCall, Nodes.setDecl, Mod.checkCall] at h
  by_cases hkc : k = c
  · subst hkc
    cases hal : (ns.at k).alias with
    | some al => exact .inr fun h => by cases h
    | none =>
      rw [hal] at h
      split at h
      · cases h
      rename_i name hname
      simp only at h
      cases hlk : look name with
      | some i =>
        rw [hlk] at h
        simp only at h
        split at h
        · split at h
          · rename_i f hf
            cases h
            rw [at_modify'] at hd
            split at hd
            · simp only [Option.some.injEq] at hd
              subst hd
              exact .inr fun _ => ⟨name, i, hname, hlk, hf⟩
            · exact .inl hd
          · cases h
        · cases h
      | none =>
        rw [hlk] at h
        simp only at h
        left
        cases hpf : env.prelude.functions name with
        | none => rw [hpf] at h; cases h
        | some q =>
          rw [hpf] at h
          simp only at h
          split at h
          · split at h
            · cases h
              rw [at_modify'] at hd
              split at hd <;> exact hd
            · cases h
          · cases h
  · left
    have := (linkCall_ok (env := env) (look := look) (ns := ns) (ns' := ns') (c := c) (by
      simp only [Nodes.linkCall, Nodes.setDecl, Mod.checkCall]; exact h)).2 k hkc
    rw [this] at hd
    exact hd

theorem linkCallList_declared {env : Check.Env} {look : Mod.Map Nat} : ∀ {cs : List Nat} {ns out : Nodes}, ns.linkCallList env look cs = .ok out →
    ∀ {k d : Nat}, (out.at k).declaration = some d → (ns.at k).declaration = some d ∨
      ((ns.at k).alias = none → ∃ n i, (ns.at k).name = some n ∧ look n = some i ∧ ns.functions[i]? = some d)
  | [], ns, out, h, k, d, hd => by
    cases h
    exact .inl hd
  | c :: cs, ns, out, h, k, d, hd => by
    simp only [Nodes.linkCallList] at h
    split at h
    · cases h
    · rename_i ns1 h1
      have hL := (linkCall_ok h1).1
      rcases linkCallList_declared h hd with h2 | h2
      · exact linkCall_declared h1 h2
      · right
        rw [hL.alias, hL.name, hL.functions] at h2
        exact h2

theorem Setup.fns (S : Setup env fs ns0 ns1 ns2 is) {g : Nat} {n : String} (hg : g < ns0.length) (hk : (ns0.at g).kind = .fn)
    (hn : (ns0.at g).name = some n) : ∃ (j : Nat) (f : Fn), is[j]? = some g ∧ fs[j]? = some f ∧ f.name = n := by
  obtain ⟨j, f, hj, hf⟩ := (S.every g).2.2.2 hk hg
  refine ⟨j, f, hj, hf, ?_⟩
  cases S.root hj hf with
  | mk e _ =>
    rw [e] at hn
    simpa [Node.name] using hn

theorem Setup.root_lt (S : Setup env fs ns0 ns1 ns2 is) {j r : Nat} {f : Fn} (hr : is[j]? = some r) (hf : fs[j]? = some f) : r < ns0.length ∧
    (ns0.at r).kind = .fn ∧ (ns0.at r).name = some f.name := by
  cases S.root hr hf with
  | mk e _ =>
    refine ⟨?_, by rw [e], by rw [e]; rfl⟩
    by_contra hi
    rw [at_none (Nat.not_lt.1 hi)] at e
    have := congrArg Node.names e
    cases this

theorem Setup.named (S : Setup env fs ns0 ns1 ns2 is) : Named ns1 := by
  intro g hg hk
  rw [S.like1.1] at hg
  rw [S.like1.kind] at hk
  obtain ⟨j, f, hj, hf⟩ := (S.every g).2.2.2 hk hg
  rw [S.like1.name]
  exact ⟨_, (S.root_lt hj hf).2.2⟩

theorem gives_all {ns : Nodes} : ∀ {cs : List Nat} {n : Nat}, Check.Spec.Gives ns cs n → (∀ c ∈ cs, (ns.at c).kind = .callArg ∧
    ∀ s ∈ (ns.at c).children, (ns.at s).kind ≠ .swizzle) → n = cs.length
  | _, _, .nil, _ => rfl
  | c :: _, _, .other h _, hc => absurd (hc c (by simp)).1 h
  | _, _, .one _ _ h, hc => by rw [gives_all h (fun c h => hc c (by simp [h]))]; rfl
  | c :: _, _, .swizzle _ h1 _ h2 _, hc => absurd h2 ((hc c (by simp)).2 _ (by rw [h1]; simp))

/-- The nodes of parameters. -/
theorem params_args (ns : Nodes) {r : Nat} {f : Fn} {p : Option Nat} (h : Laid ns p r f.tr) : (ns.args r).length = f.params.length ∧
    (∀ (k : Nat) (q : String × Ft), f.params[k]? = some q → ∃ c, (ns.at r).children[k]? = some c ∧ (ns.at c).kind = .arg ∧
      (ns.at c).ty = some q.2.ty ∧ (ns.at c).name = some q.1) ∧
    (∀ k ∈ (ns.at r).children, (ns.at k).kind ≠ .ty) ∧ (ns.at r).ty = some f.ret.ty ∧
    ns.args r = (ns.at r).children.take f.params.length := by
  cases h with
  | @mk _ _ _ _ _ cs e hl =>
    obtain ⟨hlen, hget⟩ := laid_get hl
    have hk : ∀ (k : Nat) (q : String × Ft), f.params[k]? = some q → ∃ c, cs[k]? = some c ∧ (ns.at c).kind = .arg ∧
        (ns.at c).ty = some q.2.ty ∧ (ns.at c).name = some q.1 := by
      intro k q hq
      have hlt := (List.getElem?_eq_some_iff.1 hq).1
      obtain ⟨c, hc, hlc⟩ := hget k (argTr q) (by
        rw [List.getElem?_append_left (by simpa using hlt), List.getElem?_map, hq]; rfl)
      cases hlc with
      | mk e' _ => exact ⟨c, hc, by rw [e'], by rw [e'], by rw [e']; rfl⟩
    have hb : ∃ c, cs[f.params.length]? = some c ∧ (ns.at c).kind = .block := by
      obtain ⟨c, hc, hlc⟩ := hget f.params.length f.block (by
        rw [List.getElem?_append_right (by simp)]; simp)
      cases hlc with
      | mk e' _ => exact ⟨c, hc, by rw [e']⟩
    have hlen' : cs.length = f.params.length + 1 := by rw [hlen]; simp
    have hsplit : cs = cs.take f.params.length ++ [cs[f.params.length]'(by omega)] := by
      rw [List.take_append_getElem (by omega : f.params.length < cs.length), List.take_of_length_le (by omega)]
    obtain ⟨b, hb1, hb2⟩ := hb
    have hargs : ∀ c ∈ cs.take f.params.length, (ns.at c).kind = .arg := by
      intro c hc
      obtain ⟨k, hk1, hk2⟩ := List.mem_take_iff_getElem.1 hc
      obtain ⟨c', h1, h2, -⟩ := hk k (f.params[k]'(by omega)) (List.getElem?_eq_getElem _)
      rw [List.getElem?_eq_getElem (by omega)] at h1
      cases h1
      rw [← hk2]
      exact h2
    have hbk : (ns.at (cs[f.params.length]'(by omega))).kind = .block := by
      rw [List.getElem?_eq_getElem (by omega)] at hb1
      cases hb1
      exact hb2
    have hfil : ns.args r = cs.take f.params.length := by
      rw [Nodes.args, e]
      simp only
      conv_lhs => rw [hsplit]
      rw [List.filter_append, List.filter_eq_self.2 (by simpa using hargs), List.filter_cons_of_neg (by simp [hbk])]
      simp
    refine ⟨?_, ?_, ?_, by rw [e], ?_⟩
    · rw [hfil]; simp; omega
    · rw [e]; exact hk
    · rw [e]
      intro k hk'
      simp only at hk'
      rw [hsplit] at hk'
      rcases List.mem_append.1 hk' with h | h
      · rw [hargs k h]; decide
      · simp only [List.mem_cons, List.not_mem_nil, or_false] at h
        rw [h, hbk]; decide
    · rw [hfil, e]

/-- A call is linked to the function of the file with the name, else it is one of the host. -/
theorem Setup.call (S : Setup env fs ns0 ns1 ns2 is) {i : Nat} {n : String} (hlt : i < ns0.length) (hk : (ns0.at i).kind = .call)
    (hn : (ns0.at i).name = some n) (hal : (ns0.at i).alias = none)
    (hc : ∀ c ∈ (ns0.at i).children, (ns0.at c).kind = .callArg ∧ ∀ s ∈ (ns0.at c).children, (ns0.at s).kind ≠ .swizzle) :
    (∃ (j d : Nat) (g : Fn), is[j]? = some d ∧ fs[j]? = some g ∧ g.name = n ∧ (ns2.at i).declaration = some d ∧
      (ns0.at i).children.length = g.params.length) ∨
    ((∀ g ∈ fs, g.name ≠ n) ∧ (ns2.at i).declaration = none ∧ ∃ k d, env.prelude.functions n = some k ∧
      env.prelude.list[k]? = some d ∧ d.lts.length = (ns0.at i).children.length) := by
  have h2 := S.link2
  simp only [Nodes.linkFns] at h2
  split at h2
  · cases h2
  rename_i ns1' h1
  have hdecl : (ns2.at i).declaration = (ns1'.at i).declaration := by
    simp only [Nodes.linkIns] at h2
    split at h2
    · cases h2
    · exact (linkInList_decl h2).2 i
  obtain ⟨m, hm, hlk, har⟩ := C59_resolved_partial S.named h1 (c := i) (by rw [S.like1.1]; exact hlt) (by rw [S.like1.kind, hk])
  have har := har (by rw [S.like1.alias, hal])
  have hcount : m.arity ns1 = (ns0.at i).children.length := by
    rw [gives_all har, S.like1.children]
    rw [S.like1.children]
    intro c hc'
    rw [S.like1.kind, S.like1.children]
    refine ⟨(hc c hc').1, fun s hs => ?_⟩
    rw [S.like1.kind]
    exact (hc c hc').2 s hs
  cases hm with
  | @declared g n' ha hna hg hgk hgn =>
    rw [S.like1.name, hn] at hna
    cases hna
    rw [S.like1.1] at hg
    rw [S.like1.kind] at hgk
    rw [S.like1.name] at hgn
    obtain ⟨j, f, hj, hf, he⟩ := S.fns hg hgk hgn
    refine .inl ⟨j, g, f, hj, hf, he, by rw [hdecl]; exact hlk, ?_⟩
    rw [← hcount]
    simp only [Callee.arity, S.like1.args]
    exact (params_args ns0 (S.root hj hf)).1
  | @imported n' k d ha hna hno hfn hl =>
    rw [S.like1.name, hn] at hna
    cases hna
    have hno' : ∀ g ∈ fs, g.name ≠ n := by
      intro g hg he
      obtain ⟨j, hj⟩ := List.mem_iff_getElem?.1 hg
      obtain ⟨r, hr⟩ := S.root_of hj
      obtain ⟨a, b, c⟩ := S.root_lt hr hj
      exact hno r (by rw [S.like1.1]; exact a) (by rw [S.like1.kind]; exact b) (by rw [S.like1.name, c, he])
    refine .inr ⟨hno', ?_, k, d, hfn, hl, hcount⟩
    rw [hdecl]
    cases hd : (ns1'.at i).declaration with
    | none => rfl
    | some d' =>
      exfalso
      simp only [Nodes.linkCalls] at h1
      split at h1
      · cases h1
      split at h1
      · cases h1
      split at h1
      · cases h1
      rename_i look hlook
      rcases linkCallList_declared h1 hd with h | h
      · rcases (linkItems_decl S.link1).2.2 i d' h with h | ⟨h, -⟩
        · rw [(S.every i).2.1] at h; cases h
        · simp only [Nodes.items, List.mem_filter, hk] at h
          simp at h
      · obtain ⟨n', q, hn', hq, -⟩ := h (by rw [S.like1.alias, hal])
        rw [S.like1.name, hn] at hn'
        cases hn'
        obtain ⟨g, -, hg, hgk, hgn⟩ := (lookup_spec S.named hlook n).1 q hq
        exact hno g hg hgk hgn
  | aliased ha => rw [S.like1.alias, hal] at ha; cases ha

end

end Dyon.Sound.Small
