import Verif.Syntax.UnloopProps
import Verif.Eval.CallProps
import Verif.Eval.Fold
import Verif.Eval.Demo
import Mathlib.Data.List.Forall2

/-! # C40: the value of an unrolled vector loop, for formulas -/

namespace Dyon.Syn

/-! ## Specification -/

namespace Spec

mutual
/-- Formulas: constants, variables with properties and indices that are formulas, and
operators. -/
def Formula (i : String) : Expr → Prop
  | .const v => RefFree v
  | .item (.mk n _ _ t ids tids) => t = false ∧ tids = [] ∧ (n = i → ids = []) ∧ FormulaIds i ids
  | .call (.binop _) _ [a, b] => Formula i a ∧ Formula i b
  | .call (.unop _) _ [a] => Formula i a
  | _ => False
/-- Properties. -/
def FormulaIds (i : String) : List Id → Prop
  | [] => True
  | .expr e :: r => Formula i e ∧ FormulaIds i r
  | .str _ :: r => FormulaIds i r
  | .num _ :: r => FormulaIds i r
end

/-- All references inside arrays and objects go to slots below `N`. -/
def RefsBelow (N : Nat) (v : Val) : Prop := ∀ path j, v.atPath path = some (.ref j) → j < N

/-- A state between expressions of a running function. -/
structure Running (st : St) : Prop where
  refs : ∀ v ∈ st.stack, RefsBelow st.stack.length v
  locals : ∀ l ∈ st.locals, l.2 < st.stack.length
  call : ∃ r, st.calls.getLast? = some r ∧ r.localLen ≤ st.locals.length

/-- Operators do not make references. -/
structure OpsRefFree (c : ECfg) : Prop where
  binop : ∀ f a b v, c.binopFn f a b = .ok v → RefsBelow 0 v
  unop : ∀ f a v, c.unopFn f a = .ok v → RefsBelow 0 v

/-- The state in which a variable `i` with the number `x` has been declared. -/
def bindVar (i : String) (x : F64) (st : St) : St :=
  { st with locals := st.locals ++ [(i, st.stack.length)], stack := st.stack ++ [.ofF64 x] }

end Spec

open Spec

/-! ## Lemmas -/

theorem EM.ok_bind {α β} {m : EM α} {f : α → EM β} {s s' : St} {b : β} (h : (m >>= f) s = .ok b s') :
    ∃ a s1, m s = .ok a s1 ∧ f a s1 = .ok b s' := by
  have h' : EM.bind m f s = .ok b s' := h
  unfold EM.bind at h'
  cases hm : m s with
  | ok a s1 => rw [hm] at h'; exact ⟨a, s1, rfl, h'⟩
  | err e s1 => rw [hm] at h'; cases h'
  | panic w => rw [hm] at h'; cases h'
  | timeout => rw [hm] at h'; cases h'

theorem slotE_ok {i : Nat} {s s' : St} {v : Val} (h : slotE i s = .ok v s') : s.stack[i]? = some v ∧ s' = s := by
  unfold slotE at h
  split at h
  · cases h; exact ⟨by assumption, rfl⟩
  · cases h

theorem slotE_of {i : Nat} {s : St} {v : Val} (h : s.stack[i]? = some v) : slotE i s = .ok v s := by
  unfold slotE; rw [h]

theorem readE_ok {p : Place} {s s' : St} {v : Val} (h : readE p s = .ok v s') : readPlace s.stack p = some v ∧ s' = s := by
  unfold readE at h
  split at h
  · cases h; exact ⟨by assumption, rfl⟩
  · cases h

theorem readE_of {p : Place} {s : St} {v : Val} (h : readPlace s.stack p = some v) : readE p s = .ok v s := by
  unfold readE; rw [h]

theorem atPath_append {v : Val} {p q : List Step} : v.atPath (p ++ q) = (v.atPath p).bind fun w => w.atPath q := by
  induction p generalizing v with
  | nil => rfl
  | cons s p ih =>
    simp only [List.cons_append, Val.atPath]
    cases v.step s with
    | none => rfl
    | some u => exact ih

theorem RefsBelow.at {N : Nat} {v w : Val} {p : List Step} (h : RefsBelow N v) (hp : v.atPath p = some w) : RefsBelow N w := by
  intro q j hq
  refine h (p ++ q) j ?_
  rw [atPath_append, hp]
  exact hq

theorem RefsBelow.mono {N M : Nat} {v : Val} (h : RefsBelow N v) (hm : N ≤ M) : RefsBelow M v :=
  fun p j hp => Nat.lt_of_lt_of_le (h p j hp) hm

theorem lookup_mem {k : String} {v : Val} : ∀ {kvs : List (String × Val)}, kvs.lookup k = some v → (k, v) ∈ kvs := by
  intro kvs
  induction kvs with
  | nil => intro h; cases h
  | cons x xs ih =>
    obtain ⟨k', v'⟩ := x
    intro h
    rw [List.lookup_cons] at h
    split at h
    · next hk =>
      cases h
      have : k = k' := by simpa using hk
      subst this
      exact List.mem_cons_self
    · exact List.mem_cons_of_mem _ (ih h)

theorem RefFree.below {v : Val} (h : RefFree v) : RefsBelow 0 v := by
  intro p
  induction p generalizing v with
  | nil =>
    intro j hj
    simp only [Val.atPath, Option.some.injEq] at hj
    subst hj
    cases h
  | cons s p ih =>
    intro j hj
    simp only [Val.atPath] at hj
    cases hs : v.step s with
    | none => rw [hs] at hj; cases hj
    | some w =>
      rw [hs] at hj
      refine ih ?_ j hj
      unfold Val.step at hs
      split at hs
      · cases h with
        | object h => exact h _ (lookup_mem hs)
      · cases h with
        | array h => exact h _ (List.mem_of_getElem? hs)
      · cases hs

/-- A value and what it is in the state with the variable. -/
def VR (N : Nat) (x : F64) (v w : Val) : Prop := RefsBelow N v ∧ (w = v ∨ (v = .ofF64 x ∧ w = .ref N))

/-- The state without and with the variable. -/
structure Two (i : String) (x : F64) (S : Stack) (A B : St) : Prop where
  stack : ∃ G P Q, A.stack = S ++ G ++ P ∧ B.stack = S ++ .ofF64 x :: Q ∧ List.Forall₂ (VR S.length x) P Q
  refs : ∀ v ∈ S, RefsBelow S.length v
  locals : B.locals = A.locals ++ [(i, S.length)]
  low : ∀ l ∈ A.locals, l.2 < S.length
  calls : B.calls = A.calls
  call : ∃ r, A.calls.getLast? = some r ∧ r.localLen ≤ A.locals.length

section
variable {i : String} {x : F64} {S : Stack} {A B : St}

theorem Two.lowA (h : Two i x S A B) {j : Nat} (hj : j < S.length) : A.stack[j]? = S[j]? := by
  obtain ⟨G, P, Q, e1, _, _⟩ := h.stack
  rw [e1, List.append_assoc, List.getElem?_append_left hj]

theorem Two.lowB (h : Two i x S A B) {j : Nat} (hj : j < S.length) : B.stack[j]? = S[j]? := by
  obtain ⟨G, P, Q, _, e2, _⟩ := h.stack
  rw [e2, List.getElem?_append_left hj]

theorem Two.atN (h : Two i x S A B) : B.stack[S.length]? = some (.ofF64 x) := by
  obtain ⟨G, P, Q, _, e2, _⟩ := h.stack
  rw [e2, List.getElem?_append_right (Nat.le_refl _), Nat.sub_self]
  rfl

theorem Two.read (h : Two i x S A B) {p : Place} (hp : p.root < S.length) :
    readPlace A.stack p = readPlace B.stack p := by
  unfold readPlace
  rw [h.lowA hp, h.lowB hp]

theorem Two.readBelow (h : Two i x S A B) {p : Place} {v : Val} (hp : p.root < S.length)
    (hv : readPlace B.stack p = some v) : RefsBelow S.length v := by
  unfold readPlace at hv
  rw [h.lowB hp] at hv
  cases hs : S[p.root]? with
  | none => rw [hs] at hv; cases hv
  | some u =>
    rw [hs] at hv
    exact RefsBelow.at (h.refs u (List.mem_of_getElem? hs)) hv

/-- More values on both stacks. -/
theorem Two.push (h : Two i x S A B) {v w : Val} (hv : VR S.length x v w) :
    Two i x S { A with stack := A.stack ++ [v] } { B with stack := B.stack ++ [w] } := by
  obtain ⟨G, P, Q, e1, e2, e3⟩ := h.stack
  refine ⟨⟨G, P ++ [v], Q ++ [w], by simp [e1], by simp [e2], ?_⟩, h.refs, h.locals, h.low, h.calls, h.call⟩
  exact List.rel_append e3 (.cons hv .nil)

end

/-! ### Looking up properties -/

/-- A slot and the matching slot with the variable. -/
structure SlotR (S : Stack) (A B : St) (s s' : Nat) (u : Val) : Prop where
  left : A.stack[s]? = some u
  right : B.stack[s']? = some u
  refs : RefsBelow S.length u
  same : (s = s' ∧ s < S.length) ∨ (S.length ≤ s ∧ S.length ≤ s')

section
variable {i : String} {x : F64} {S : Stack} {A B : St} {c : ECfg}

theorem computedSlot_sim (h : Two i x S A B) {sa sb j : Nat} {v w : Val} (ha : A.stack[sa + j]? = some v)
    (hb : B.stack[sb + j]? = some w) (hv : VR S.length x v w) (hsa : S.length ≤ sa) (hsb : S.length ≤ sb)
    {s' : Nat} {B' : St} (he : computedSlot sb j B = .ok s' B') :
    B' = B ∧ ∃ s u, computedSlot sa j A = .ok s A ∧ SlotR S A B s s' u := by
  unfold computedSlot at he ⊢
  rw [EM.bind_ok (slotE_of hb)] at he
  rw [EM.bind_ok (slotE_of ha)]
  obtain ⟨hr, rfl | ⟨rfl, rfl⟩⟩ := hv
  · by_cases href : ∃ r, w = .ref r
    · obtain ⟨r, rfl⟩ := href
      have hrl : r < S.length := hr [] r rfl
      have he : Ev.ok r B = .ok s' B' := he
      injection he with he1 he2
      subst he1 he2
      obtain ⟨u, hu⟩ : ∃ u, S[r]? = some u := ⟨_, List.getElem?_eq_getElem hrl⟩
      exact ⟨rfl, r, u, rfl, by rw [h.lowA hrl, hu], by rw [h.lowB hrl, hu], h.refs u (List.mem_of_getElem? hu),
        Or.inl ⟨rfl, hrl⟩⟩
    · have e1 : Ev.ok (sb + j) B = .ok s' B' := by
        rw [← he]
        cases w <;> first | rfl | exact absurd ⟨_, rfl⟩ href
      injection e1 with he1 he2
      subst he1 he2
      refine ⟨rfl, sa + j, w, ?_, ha, hb, hr, Or.inr ⟨by omega, by omega⟩⟩
      cases w <;> first | rfl | exact absurd ⟨_, rfl⟩ href
  · cases he
    exact ⟨rfl, sa + j, .ofF64 x, rfl, ha, h.atN, hr, Or.inr ⟨by omega, Nat.le_refl _⟩⟩

theorem prevSlot_sim (h : Two i x S A B) {s s' y : Nat} {u : Val} (hs : SlotR S A B s s' u) (hy : y < S.length)
    {v : Val} {B' : St} (he : prevSlot s' y B = .ok v B') : B' = B ∧ S[y]? = some v ∧ prevSlot s y A = .ok v A := by
  unfold prevSlot at he ⊢
  by_cases hlt : y < s'
  · rw [if_pos hlt] at he
    obtain ⟨h1, h2⟩ := slotE_ok he
    rw [h.lowB hy] at h1
    have : y < s := by rcases hs.same with ⟨rfl, _⟩ | ⟨h3, _⟩ <;> omega
    rw [if_pos this]
    exact ⟨h2, h1, slotE_of (by rw [h.lowA hy, h1])⟩
  · rw [if_neg hlt] at he
    cases he

theorem indexNumber_sim (h : Two i x S A B) {s s' : Nat} {u ind : Val} (hs : SlotR S A B s s' u)
    (hi : RefsBelow S.length ind) {o : Option F64} {B' : St} (he : indexNumber s' ind B = .ok o B') :
    B' = B ∧ indexNumber s ind A = .ok o A := by
  unfold indexNumber at he ⊢
  split at he
  · cases he; exact ⟨rfl, rfl⟩
  · next r =>
    obtain ⟨v, B1, e1, e2⟩ := EM.ok_bind he
    obtain ⟨rfl, _, e3⟩ := prevSlot_sim h hs (hi [] r rfl) e1
    rw [EM.bind_ok e3]
    split at e2 <;> (cases e2; exact ⟨rfl, rfl⟩)
  · next h1 h2 =>
    cases he
    exact ⟨rfl, rfl⟩

theorem indexNext_sim (h : Two i x S A B) {s s' : Nat} {u v : Val} (hs : SlotR S A B s s' u)
    (hi : RefsBelow S.length v) {p : Place} (hp : p.root < S.length) {o : Option Place} {B' : St}
    (he : indexNext s' p v B = .ok o B') :
    B' = B ∧ indexNext s p v A = .ok o A ∧ ∀ q, o = some q → q.root < S.length := by
  unfold indexNext at he ⊢
  split at he
  · cases he; exact ⟨rfl, rfl, fun q hq => by cases hq; exact hp⟩
  · next r =>
    obtain ⟨v, B1, e1, e2⟩ := EM.ok_bind he
    obtain ⟨rfl, _, e3⟩ := prevSlot_sim h hs (hi [] r rfl) e1
    rw [EM.bind_ok e3]
    split at e2
    · cases e2; exact ⟨rfl, rfl, fun q hq => by cases hq; exact hi [] r rfl⟩
    · cases e2; exact ⟨rfl, rfl, fun q hq => by cases hq⟩
  · next h1 h2 =>
    cases he
    exact ⟨rfl, rfl, fun q hq => by cases hq⟩

theorem resolveRef_root {N : Nat} {p : Place} {v : Val} {last : Bool} (hp : p.root < N) (hv : RefsBelow N v) :
    (resolveRef p v last).root < N := by
  unfold resolveRef
  split
  · next r =>
    cases last
    · exact hv [] r rfl
    · exact hp
  · exact hp

theorem RefsBelow.elem {N : Nat} {xs : List Val} {k : Nat} {v : Val} (h : RefsBelow N (.array xs)) (hv : xs[k]? = some v) :
    RefsBelow N v := RefsBelow.at h (p := [.idx k]) (by simp [Val.atPath, Val.step, hv])

theorem indexLast_sim (h : Two i x S A B) {s s' : Nat} {u v : Val} (hs : SlotR S A B s s' u)
    (hi : RefsBelow S.length v) {last : Bool} {p : Place} (hp : p.root < S.length) {q : Place} {B' : St}
    (he : indexLast s' last p v B = .ok q B') :
    B' = B ∧ indexLast s last p v A = .ok q A ∧ q.root < S.length := by
  unfold indexLast at he ⊢
  split at he
  · next r =>
    cases last with
    | true => cases he; exact ⟨rfl, rfl, hp⟩
    | false =>
      obtain ⟨v, B1, e1, e2⟩ := EM.ok_bind he
      obtain ⟨rfl, _, e3⟩ := prevSlot_sim h hs (hi [] r rfl) e1
      cases e2
      refine ⟨rfl, ?_, hi [] r rfl⟩
      show (prevSlot s r >>= fun _ => pure (⟨r, []⟩ : Place)) A = _
      rw [EM.bind_ok e3]
      rfl
  · cases he
    exact ⟨rfl, rfl, hp⟩

theorem lookupIndices_sim (h : Two i x S A B) {s s' : Nat} {u : Val} (hs : SlotR S A B s s' u) {last : Bool} :
    ∀ {inds : List Val} {p : Place}, (∀ v ∈ inds, RefsBelow S.length v) → p.root < S.length →
    ∀ {q : Place} {B' : St}, lookupIndices c s' last p inds B = .ok q B' →
    B' = B ∧ lookupIndices c s last p inds A = .ok q A ∧ q.root < S.length := by
  intro inds
  induction inds with
  | nil => intro p _ _ q B' he; cases he
  | cons ind rest ih =>
    intro p hi hp q B' he
    unfold lookupIndices at he ⊢
    obtain ⟨o, B1, e1, e2⟩ := EM.ok_bind he
    obtain ⟨rfl, e3⟩ := indexNumber_sim h hs (hi _ List.mem_cons_self) e1
    rw [EM.bind_ok e3]
    cases o with
    | none => cases e2
    | some y =>
      simp only at e2 ⊢
      obtain ⟨a, B2, e4, e5⟩ := EM.ok_bind e2
      obtain ⟨e6, rfl⟩ := readE_ok e4
      have hb := h.readBelow hp e6
      rw [EM.bind_ok (readE_of ((h.read hp).trans e6))]
      cases a with
      | array xs =>
        simp only at e5 ⊢
        cases hx : xs[y.toUsize]? with
        | none => rw [hx] at e5; cases e5
        | some v =>
          rw [hx] at e5
          simp only at e5 ⊢
          by_cases hr : rest.isEmpty = true
          · rw [if_pos hr] at e5 ⊢
            exact indexLast_sim h hs (RefsBelow.elem hb hx) (p := p.down (.idx y.toUsize)) hp e5
          · rw [if_neg hr] at e5 ⊢
            obtain ⟨o, B3, e7, e8⟩ := EM.ok_bind e5
            obtain ⟨rfl, e9, e10⟩ := indexNext_sim h hs (RefsBelow.elem hb hx) (p := p.down (.idx y.toUsize)) hp e7
            rw [EM.bind_ok e9]
            cases o with
            | none => cases e8
            | some q' => exact ih (fun v hv => hi v (List.mem_cons_of_mem _ hv)) (e10 q' rfl) e8
      | _ => cases e5

/-- Properties without and with the variable. -/
inductive PropR : Id → Id → Prop
  | str {s} : PropR (.str s) (.str s)
  | num {y} : PropR (.num y) (.num y)
  | expr {e e'} : PropR (.expr e) (.expr e')

/-- The computed properties on the stacks from `j` on. -/
def Computed (S : Stack) (x : F64) (A B : St) (sa sb : Nat) (m : Nat) : Prop :=
  S.length ≤ sa ∧ S.length ≤ sb ∧ ∀ j < m, ∃ v w, A.stack[sa + j]? = some v ∧ B.stack[sb + j]? = some w ∧ VR S.length x v w

/-- Number of computed properties. -/
def exprs : List Id → Nat
  | [] => 0
  | .expr _ :: r => exprs r + 1
  | _ :: r => exprs r

/-- Whether a property is computed. -/
def isExpr : Id → Nat
  | .expr _ => 1
  | _ => 0

theorem itemLookup_sim (h : Two i x S A B) {sa sb m j : Nat} (hc : Computed S x A B sa sb m) {p : Place}
    {prop prop' : Id} (hpr : PropR prop prop') (hj : j + isExpr prop ≤ m) (hp : p.root < S.length) {last : Bool}
    {q : Place × Nat} {B' : St} (he : itemLookup c p prop' sb j false last B = .ok q B') :
    B' = B ∧ itemLookup c p prop sa j false last A = .ok q A ∧ q.1.root < S.length ∧ q.2 ≤ j + isExpr prop := by
  unfold itemLookup at he ⊢
  obtain ⟨a, B1, e1, e2⟩ := EM.ok_bind he
  obtain ⟨e3, rfl⟩ := readE_ok e1
  have hb := h.readBelow hp e3
  rw [EM.bind_ok (readE_of ((h.read hp).trans e3))]
  cases a with
  | object kvs =>
    simp only at e2 ⊢
    unfold lookupObject at e2 ⊢
    obtain ⟨⟨k, j'⟩, B2, e4, e5⟩ := EM.ok_bind e2
    have key : B2 = B1 ∧ objectKey prop sa j A = .ok (k, j') A ∧ j' ≤ j + isExpr prop := by
      cases hpr with
      | str => cases e4; exact ⟨rfl, rfl, Nat.le_refl _⟩
      | num => cases e4
      | expr =>
        simp only [objectKey] at e4 ⊢
        obtain ⟨s', B3, e6, e7⟩ := EM.ok_bind e4
        obtain ⟨v, w, ha, hb', hv⟩ := hc.2.2 j (by simp only [isExpr] at hj; omega)
        obtain ⟨rfl, s, u, e8, hs⟩ := computedSlot_sim h ha hb' hv hc.1 hc.2.1 e6
        rw [EM.bind_ok e8]
        obtain ⟨u', B4, e9, e10⟩ := EM.ok_bind e7
        obtain ⟨e11, rfl⟩ := slotE_ok e9
        rw [hs.right, Option.some.injEq] at e11
        subst e11
        rw [EM.bind_ok (slotE_of hs.left)]
        split at e10
        · cases e10; exact ⟨rfl, rfl, Nat.le_refl _⟩
        · cases e10
    obtain ⟨rfl, e6, e7⟩ := key
    rw [EM.bind_ok e6]
    simp only at e5 ⊢
    cases hk : kvs.lookup k with
    | none =>
      rw [hk] at e5
      cases e5
    | some v =>
      rw [hk] at e5
      cases e5
      refine ⟨rfl, rfl, resolveRef_root hp (RefsBelow.at hb (p := [.key k]) ?_), e7⟩
      simp [Val.atPath, Val.step, hk]
  | array xs =>
    simp only at e2 ⊢
    have index : ∀ {y : F64} {j' : Nat} {B3 : St}, lookupIndex c p xs y j' last B1 = .ok q B3 → j' ≤ j + isExpr prop →
        B3 = B1 ∧ lookupIndex c p xs y j' last A = .ok q A ∧ q.1.root < S.length ∧ q.2 ≤ j + isExpr prop := by
      intro y j' B3 e4 hj'
      unfold lookupIndex at e4 ⊢
      cases hx : xs[y.toUsize]? with
      | none => rw [hx] at e4; cases e4
      | some v =>
        rw [hx] at e4
        cases e4
        exact ⟨rfl, rfl, resolveRef_root hp (RefsBelow.elem hb hx), hj'⟩
    cases hpr with
    | str => cases e2
    | num => exact index e2 (by omega)
    | expr =>
      simp only [lookupArray] at e2 ⊢
      obtain ⟨s', B3, e6, e7⟩ := EM.ok_bind e2
      obtain ⟨v, w, ha, hb', hv⟩ := hc.2.2 j (by simp only [isExpr] at hj; omega)
      obtain ⟨rfl, s, u, e8, hs⟩ := computedSlot_sim h ha hb' hv hc.1 hc.2.1 e6
      rw [EM.bind_ok e8]
      obtain ⟨u', B4, e9, e10⟩ := EM.ok_bind e7
      obtain ⟨e11, rfl⟩ := slotE_ok e9
      rw [hs.right, Option.some.injEq] at e11
      subst e11
      rw [EM.bind_ok (slotE_of hs.left)]
      split at e10
      · exact index e10 (by simp [isExpr])
      · next inds =>
        obtain ⟨q', B5, e12, e13⟩ := EM.ok_bind e10
        obtain ⟨rfl, e14, e15⟩ := lookupIndices_sim h hs (fun v hv => by
          obtain ⟨k, hk⟩ := List.getElem?_of_mem hv
          exact RefsBelow.elem hs.refs hk) hp e12
        rw [EM.bind_ok e14]
        cases e13
        exact ⟨rfl, rfl, e15, by omega⟩
      · cases e10
  | _ => cases e2

theorem itemWalk_sim (h : Two i x S A B) {sa sb m : Nat} (hc : Computed S x A B sa sb m) :
    ∀ {ids ids' : List Id} {k j : Nat} {p : Place}, List.Forall₂ PropR ids ids' → j + exprs ids ≤ m → p.root < S.length →
    ∀ {r : Bool × R} {B' : St}, itemWalk c sb .right k ids' [] p j B = .ok r B' →
    B' = B ∧ ∃ v, r = (true, (some v, .cont)) ∧ RefsBelow S.length v ∧ itemWalk c sa .right k ids [] p j A = .ok r A := by
  intro ids
  induction ids with
  | nil =>
    intro ids' k j p hf hj hp r B' he
    cases hf
    unfold itemWalk at he ⊢
    obtain ⟨v, B1, e1, e2⟩ := EM.ok_bind he
    obtain ⟨e3, rfl⟩ := readE_ok e1
    cases e2
    refine ⟨rfl, v, rfl, h.readBelow hp e3, ?_⟩
    simp only
    rw [EM.bind_ok (readE_of ((h.read hp).trans e3))]
    rfl
  | cons prop rest ih =>
    intro ids' k j p hf hj hp r B' he
    cases hf with
    | @cons _ prop' _ rest' hpr hrest =>
      have hem : rest.isEmpty = rest'.isEmpty := by cases hrest <;> rfl
      have hex : exprs (prop :: rest) = isExpr prop + exprs rest := by
        cases prop <;> simp [exprs, isExpr, Nat.add_comm]
      rw [hex] at hj
      unfold itemWalk at he ⊢
      obtain ⟨q, B1, e1, e2⟩ := EM.ok_bind he
      obtain ⟨rfl, e3, e4, e5⟩ := itemLookup_sim h hc hpr (by omega) hp e1
      simp only [Side.insert, hem] at e1 e3 ⊢
      rw [EM.bind_ok e3]
      simp only [List.head?_nil, reduceCtorEq, if_false] at e2 ⊢
      exact ih hrest (by omega) e4 e2

end

/-! ### Formulas -/

section
variable [FloatOps] [VecMath]
variable {i : String} {x : F64} {S : Stack} {c : ECfg}

/-- What the evaluation of a formula shows about its copy. -/
def Copies (c : ECfg) (i : String) (x : F64) (S : Stack) (n : Nat) (e : Expr) : Prop :=
  ∀ A B, Two i x S A B → ∀ r B', eval c n e .right B = .ok r B' →
    B' = B ∧ ∃ v w, r = (some w, .cont) ∧ VR S.length x v w ∧ eval c n (number i x e) .right A = .ok (some v, .cont) A

theorem derefE_sim {A B : St} (h : Two i x S A B) {v w u : Val} {B' : St} (hv : VR S.length x v w)
    (he : derefE w B = .ok u B') : B' = B ∧ derefE v A = .ok u A := by
  obtain ⟨hr, rfl | ⟨rfl, rfl⟩⟩ := hv
  · by_cases href : ∃ r, w = .ref r
    · obtain ⟨r, rfl⟩ := href
      have hrl : r < S.length := hr [] r rfl
      obtain ⟨h1, h2⟩ := slotE_ok (show slotE r B = .ok u B' from he)
      rw [h.lowB hrl] at h1
      exact ⟨h2, slotE_of (by rw [h.lowA hrl, h1])⟩
    · have e1 : Ev.ok w B = .ok u B' := by
        rw [← he]
        cases w <;> first | rfl | exact absurd ⟨_, rfl⟩ href
      injection e1 with e1 e2
      subst e1 e2
      refine ⟨rfl, ?_⟩
      cases w <;> first | rfl | exact absurd ⟨_, rfl⟩ href
  · obtain ⟨h1, h2⟩ := slotE_ok (show slotE S.length B = .ok u B' from he)
    rw [h.atN, Option.some.injEq] at h1
    subst h1
    exact ⟨h2, rfl⟩

theorem want_sim {n : Nat} {e : Expr} (hc : Copies c i x S n e) {A B : St} (h : Two i x S A B) {msg : String}
    {k : Val → EM R} {r : R} {B' : St} (he : want (eval c n) e .right msg k B = .ok r B') :
    ∃ v w, VR S.length x v w ∧ k w B = .ok r B' ∧
      ∀ k' : Val → EM R, want (eval c n) (number i x e) .right msg k' A = k' v A := by
  unfold want wantK at he
  obtain ⟨r1, B1, e1, e2⟩ := EM.ok_bind he
  obtain ⟨rfl, v, w, rfl, hv, e3⟩ := hc A B h r1 B1 e1
  exact ⟨v, w, hv, e2, fun k' => want_ok e3⟩

theorem pushIds_sim {n : Nat} : ∀ {ids : List Id}, (∀ e, Id.expr e ∈ ids → Copies c i x S n e) →
    ∀ {A B : St}, Two i x S A B → ∀ {K K' : EM (Bool × R)} {r : Bool × R} {B' : St},
    pushIds (eval c n) (fun y => pure (false, (y, .ret))) ids K' B = .ok r B' →
    ∃ Ps Qs, List.Forall₂ (VR S.length x) Ps Qs ∧ Ps.length = exprs ids ∧
      K' { B with stack := B.stack ++ Qs } = .ok r B' ∧
      pushIds (eval c n) (fun y => pure (false, (y, .ret))) (numberIds i x ids) K A = K { A with stack := A.stack ++ Ps } := by
  intro ids
  induction ids with
  | nil =>
    intro _ A B h K K' r B' he
    exact ⟨[], [], .nil, rfl, by simpa [pushIds] using he, by simp [pushIds, numberIds]⟩
  | cons id ids ih =>
    intro hc A B h K K' r B' he
    have hc' : ∀ e, Id.expr e ∈ ids → Copies c i x S n e := fun e he => hc e (List.mem_cons_of_mem _ he)
    cases id with
    | str s =>
      simp only [pushIds, numberIds, exprs] at he ⊢
      exact ih hc' h he
    | num y =>
      simp only [pushIds, numberIds, exprs] at he ⊢
      exact ih hc' h he
    | expr e =>
      simp only [pushIds, numberIds, exprs] at he ⊢
      unfold wantK at he ⊢
      obtain ⟨r1, B1, e1, e2⟩ := EM.ok_bind he
      obtain ⟨rfl, v, w, rfl, hv, e3⟩ := hc e List.mem_cons_self A B h r1 B1 e1
      simp only at e2
      rw [EM.bind_ok (show pushE w B1 = .ok () { B1 with stack := B1.stack ++ [w] } from rfl)] at e2
      obtain ⟨Ps, Qs, h1, h2, h3, h4⟩ := ih hc' (h.push hv) (K := K) e2
      refine ⟨v :: Ps, w :: Qs, .cons hv h1, by simp [h2], ?_, ?_⟩
      · simpa using h3
      · rw [EM.bind_ok e3]
        simp only
        rw [EM.bind_ok (show pushE v A = .ok () { A with stack := A.stack ++ [v] } from rfl), h4]
        simp

theorem Two.more {A B : St} (h : Two i x S A B) {Ps Qs : List Val} (hv : List.Forall₂ (VR S.length x) Ps Qs) :
    Two i x S { A with stack := A.stack ++ Ps } { B with stack := B.stack ++ Qs } := by
  obtain ⟨G, P, Q, e1, e2, e3⟩ := h.stack
  refine ⟨⟨G, P ++ Ps, Q ++ Qs, by simp [e1], by simp [e2], ?_⟩, h.refs, h.locals, h.low, h.calls, h.call⟩
  exact List.rel_append e3 hv

theorem numberIds_propR : ∀ (ids : List Id), List.Forall₂ PropR (numberIds i x ids) ids
  | [] => by simp [numberIds]
  | .str s :: r => by simp only [numberIds]; exact .cons .str (numberIds_propR r)
  | .num s :: r => by simp only [numberIds]; exact .cons .num (numberIds_propR r)
  | .expr s :: r => by simp only [numberIds]; exact .cons .expr (numberIds_propR r)

theorem exprs_numberIds : ∀ (ids : List Id), exprs (numberIds i x ids) = exprs ids
  | [] => by simp [numberIds]
  | .str s :: r => by simp only [numberIds, exprs]; exact exprs_numberIds r
  | .num s :: r => by simp only [numberIds, exprs]; exact exprs_numberIds r
  | .expr s :: r => by simp only [numberIds, exprs]; rw [exprs_numberIds r]

theorem findLast_other {name : String} {l : List (String × Nat)} {k : Nat} (h : name ≠ i) :
    findLast name (l ++ [(i, k)]) = findLast name l := by
  induction l with
  | nil => simp [findLast, Ne.symm h]
  | cons a l ih => obtain ⟨n, j⟩ := a; simp only [List.cons_append, findLast, ih]

theorem findLast_mem {name : String} {l : List (String × Nat)} {k : Nat} (h : findLast name l = some k) : (name, k) ∈ l := by
  induction l with
  | nil => cases h
  | cons a l ih =>
    obtain ⟨n, j⟩ := a
    simp only [findLast] at h
    cases hf : findLast name l with
    | some m => rw [hf] at h; cases h; exact List.mem_cons_of_mem _ (ih hf)
    | none =>
      rw [hf] at h
      simp only at h
      split at h
      · next hn => cases h; subst hn; exact List.mem_cons_self
      · cases h

theorem item_sim (hby : c.byName = true) {n : Nat} {name : String} {sid : Option Nat} {cur : Bool} {ids : List Id}
    (hn : name ≠ i) (hids : ∀ e, Id.expr e ∈ ids → Copies c i x S n e) {A B : St} (h : Two i x S A B) {r : R} {B' : St}
    (he : itemE c (eval c n) (.mk name sid cur false ids []) .right B = .ok r B') :
    B' = B ∧ ∃ v, r = (some v, .cont) ∧ RefsBelow S.length v ∧
      itemE c (eval c n) (.mk name sid cur false (numberIds i x ids) []) .right A = .ok (some v, .cont) A := by
  obtain ⟨rec, hrec, hlen⟩ := h.call
  unfold itemE at he ⊢
  have hA : lastCall A = .ok rec A := by unfold lastCall; rw [hrec]
  have hB : lastCall B = .ok rec B := by unfold lastCall; rw [h.calls, hrec]
  rw [EM.bind_ok hB] at he
  rw [EM.bind_ok hA]
  obtain ⟨id0, B1, e1, e2⟩ := EM.ok_bind he
  -- the slot
  have slot : B1 = B ∧ id0 < S.length ∧ slotOf c (.mk name sid cur false (numberIds i x ids) []) rec A = .ok id0 A := by
    unfold slotOf at e1 ⊢
    rw [EM.bind_ok (show EM.get B = .ok B B from rfl)] at e1
    rw [EM.bind_ok (show EM.get A = .ok A A from rfl)]
    simp only [hby, if_true, Item.name] at e1 ⊢
    rw [h.locals, List.drop_append_of_le_length hlen, findLast_other hn] at e1
    cases hf : findLast name (A.locals.drop rec.localLen) with
    | none =>
      rw [hf] at e1
      simp only at e1
      cases hlost : c.lost with
      | some msg => rw [hlost] at e1; cases e1
      | none =>
      rw [hlost] at e1
      change (if name = "return" then (errT _ : EM Nat) else errT _) B = _ at e1
      by_cases hr : name = "return"
      · rw [if_pos hr] at e1; cases e1
      · rw [if_neg hr] at e1; cases e1
    | some k =>
      rw [hf] at e1
      cases e1
      exact ⟨rfl, h.low _ (List.mem_of_mem_drop (findLast_mem hf)), rfl⟩
  obtain ⟨rfl, hid0, e3⟩ := slot
  rw [EM.bind_ok e3]
  obtain ⟨id, B2, e4, e5⟩ := EM.ok_bind e2
  have rs : B2 = B1 ∧ id < S.length ∧ refSlot id0 A = .ok id A := by
    unfold refSlot at e4 ⊢
    obtain ⟨v, B3, e6, e7⟩ := EM.ok_bind e4
    obtain ⟨e8, rfl⟩ := slotE_ok e6
    rw [h.lowB hid0] at e8
    rw [EM.bind_ok (slotE_of ((h.lowA hid0).trans e8))]
    have hr := h.refs v (List.mem_of_getElem? e8)
    split at e7
    · next r => cases e7; exact ⟨rfl, hr [] _ rfl, rfl⟩
    · cases e7; exact ⟨rfl, hid0, rfl⟩
  obtain ⟨rfl, hid, e6⟩ := rs
  rw [EM.bind_ok e6]
  have hemp : (numberIds i x ids).isEmpty = ids.isEmpty := by
    cases ids with
    | nil => simp [numberIds]
    | cons a l => cases a <;> simp [numberIds]
  change (if ids.isEmpty = true then pure (some (.ref id), .cont) else
    EM.get >>= fun s => scope1 (pushIds (eval c n) (fun y => pure (false, (y, .ret))) ids
      (itemWalk c s.stack.length .right 0 ids [] ⟨id, []⟩ 0))) B2 = _ at e5
  change B' = B2 ∧ ∃ v, r = (some v, .cont) ∧ RefsBelow S.length v ∧ (if (numberIds i x ids).isEmpty = true then pure (some (.ref id), .cont) else
    EM.get >>= fun s => scope1 (pushIds (eval c n) (fun y => pure (false, (y, .ret))) (numberIds i x ids)
      (itemWalk c s.stack.length .right 0 (numberIds i x ids) [] ⟨id, []⟩ 0))) A = _
  simp only [hemp]
  by_cases hi : ids.isEmpty = true
  · simp only [hi, if_true] at e5 ⊢
    cases e5
    refine ⟨rfl, .ref id, rfl, ?_, rfl⟩
    intro p j hp
    cases p with
    | nil => cases hp; exact hid
    | cons s p => simp [Val.atPath, Val.step] at hp
  · simp only [hi, if_false, Bool.false_eq_true] at e5 ⊢
    rw [EM.bind_ok (show EM.get B2 = .ok B2 B2 from rfl)] at e5
    rw [EM.bind_ok (show EM.get A = .ok A A from rfl)]
    unfold scope1 at e5 ⊢
    rw [EM.bind_ok (show EM.get B2 = .ok B2 B2 from rfl)] at e5
    rw [EM.bind_ok (show EM.get A = .ok A A from rfl)]
    obtain ⟨r1, B3, e7, e8⟩ := EM.ok_bind e5
    obtain ⟨Ps, Qs, h1, h2, h3, h4⟩ := pushIds_sim hids h
      (K := itemWalk c A.stack.length .right 0 (numberIds i x ids) [] ⟨id, []⟩ 0) e7
    have h2' := h.more h1
    have hcomp : Computed S x { A with stack := A.stack ++ Ps } { B2 with stack := B2.stack ++ Qs } A.stack.length
        B2.stack.length Ps.length := by
      obtain ⟨G, P, Q, g1, g2, _⟩ := h.stack
      refine ⟨by rw [g1]; simp, by rw [g2]; simp, fun j hj => ?_⟩
      have hq : j < Qs.length := by rw [← h1.length_eq]; exact hj
      refine ⟨Ps[j], Qs[j], ?_, ?_, ?_⟩
      · rw [List.getElem?_append_right (by omega), Nat.add_sub_cancel_left, List.getElem?_eq_getElem]
      · rw [List.getElem?_append_right (by omega), Nat.add_sub_cancel_left, List.getElem?_eq_getElem]
      · exact List.Forall₂.get h1 hj hq
    obtain ⟨rfl, v, rfl, hv, e9⟩ := itemWalk_sim h2' hcomp (numberIds_propR (i := i) (x := x) ids) (by have := exprs_numberIds (i := i) (x := x) ids; omega) hid h3
    rw [EM.bind_ok (h4.trans e9)]
    simp only [if_true] at e8 ⊢
    rw [EM.bind_ok (show truncStack B2.stack.length _ = .ok () _ from rfl)] at e8
    rw [EM.bind_ok (show truncStack A.stack.length _ = .ok () _ from rfl)]
    cases e8
    refine ⟨by simp, v, rfl, hv, ?_⟩
    show Ev.ok _ { A with stack := (A.stack ++ Ps).take A.stack.length } = _
    simp

theorem VR.self {v : Val} (h : RefsBelow S.length v) : VR S.length x v v := ⟨h, Or.inl rfl⟩

theorem formula_sim (hby : c.byName = true) (hops : OpsRefFree c) :
    ∀ (n : Nat) (e : Expr), Formula i e → Copies c i x S n e := by
  intro n
  induction n with
  | zero => intro e _ A B _ r B' he; cases he
  | succ n ih =>
    intro e hf A B h r B' he
    have he : evalStep c n (eval c n) e .right B = .ok r B' := he
    show B' = B ∧ ∃ v w, r = (some w, .cont) ∧ VR S.length x v w ∧
      evalStep c n (eval c n) (number i x e) .right A = .ok (some v, .cont) A
    cases e with
    | const v =>
      simp only [Formula] at hf
      cases he
      exact ⟨rfl, v, v, rfl, VR.self (RefsBelow.mono (RefFree.below hf) (Nat.zero_le _)), by simp only [number]; rfl⟩
    | item it =>
      obtain ⟨name, sid, cur, t, ids, tids⟩ := it
      simp only [Formula] at hf
      obtain ⟨rfl, rfl, hi, hfi⟩ := hf
      have hmem : ∀ {ids : List Id}, FormulaIds i ids → ∀ e, Id.expr e ∈ ids → Formula i e := by
        intro ids
        induction ids with
        | nil => intro _ e he; cases he
        | cons a l ihl =>
          intro hl e he
          cases a <;> simp only [FormulaIds] at hl <;> rcases List.mem_cons.1 he with h' | h'
          · cases h'
          · exact ihl hl e h'
          · cases h'
          · exact ihl hl e h'
          · cases h'; exact hl.1
          · exact ihl hl.2 e h'
      by_cases hn : name = i
      · subst hn
        obtain rfl := hi rfl
        simp only [number, if_true]
        have he : itemE c (eval c n) (.mk name sid cur false [] []) .right B = .ok r B' := he
        obtain ⟨rec, hrec, hlen⟩ := h.call
        have hB : lastCall B = .ok rec B := by unfold lastCall; rw [h.calls, hrec]
        have hslot : slotOf c (.mk name sid cur false [] []) rec B = .ok S.length B := by
          unfold slotOf
          rw [EM.bind_ok (show EM.get B = .ok B B from rfl)]
          simp only [hby, if_true, Item.name]
          rw [h.locals, List.drop_append_of_le_length hlen, findLast_append_self (post := []) (by simp)]
          rfl
        have href : refSlot S.length B = .ok S.length B := by
          unfold refSlot
          rw [EM.bind_ok (slotE_of h.atN)]
          rfl
        have hitem : itemE c (eval c n) (.mk name sid cur false [] []) .right B = .ok (some (.ref S.length), .cont) B := by
          unfold itemE
          rw [EM.bind_ok hB, EM.bind_ok hslot, EM.bind_ok href]
          rfl
        rw [hitem] at he
        injection he with he1 he2
        refine ⟨he2.symm, .ofF64 x, .ref S.length, he1.symm, ⟨?_, Or.inr ⟨rfl, rfl⟩⟩, rfl⟩
        intro p j hp
        cases p <;> simp [Val.atPath, Val.step, Val.ofF64] at hp
      · obtain ⟨h1, v, h2, h3, h4⟩ := item_sim hby hn (fun e he' => ih e (hmem hfi e he')) h he
        refine ⟨h1, v, v, h2, VR.self h3, ?_⟩
        simp only [number, hn, if_false]
        exact h4
    | call f name args =>
      cases f with
      | binop f =>
        match args, hf with
        | [a, b], hf =>
          simp only [Formula] at hf
          simp only [number, numberList]
          have he : callBinop c (eval c n) f [a, b] B = .ok r B' := he
          show B' = B ∧ ∃ v w, r = (some w, .cont) ∧ VR S.length x v w ∧
            callBinop c (eval c n) f [number i x a, number i x b] A = .ok (some v, .cont) A
          simp only [callBinop] at he ⊢
          obtain ⟨v1, w1, hv1, e1, k1⟩ := want_sim (ih a hf.1) h he
          obtain ⟨v2, w2, hv2, e2, k2⟩ := want_sim (ih b hf.2) h e1
          obtain ⟨u1, B1, e3, e4⟩ := EM.ok_bind e2
          obtain ⟨rfl, d1⟩ := derefE_sim h hv1 e3
          obtain ⟨u2, B2, e5, e6⟩ := EM.ok_bind e4
          obtain ⟨rfl, d2⟩ := derefE_sim h hv2 e5
          obtain ⟨u, B3, e7, e8⟩ := EM.ok_bind e6
          cases hop : c.binopFn f u1 u2 with
          | error m => rw [hop] at e7; cases e7
          | ok u' =>
            rw [hop] at e7
            cases e7
            cases e8
            refine ⟨rfl, u, u, rfl, VR.self (RefsBelow.mono (hops.binop f u1 u2 u hop) (Nat.zero_le _)), ?_⟩
            rw [k1, k2, EM.bind_ok d1, EM.bind_ok d2, hop]
            rfl
      | unop f =>
        match args, hf with
        | [a], hf =>
          simp only [Formula] at hf
          simp only [number, numberList]
          have he : callUnop c (eval c n) f [a] B = .ok r B' := he
          show B' = B ∧ ∃ v w, r = (some w, .cont) ∧ VR S.length x v w ∧
            callUnop c (eval c n) f [number i x a] A = .ok (some v, .cont) A
          simp only [callUnop] at he ⊢
          obtain ⟨v1, w1, hv1, e1, k1⟩ := want_sim (ih a hf) h he
          obtain ⟨u1, B1, e3, e4⟩ := EM.ok_bind e1
          obtain ⟨rfl, d1⟩ := derefE_sim h hv1 e3
          obtain ⟨u, B3, e7, e8⟩ := EM.ok_bind e4
          cases hop : c.unopFn f u1 with
          | error m => rw [hop] at e7; cases e7
          | ok u' =>
            rw [hop] at e7
            cases e7
            cases e8
            refine ⟨rfl, u, u, rfl, VR.self (RefsBelow.mono (hops.unop f u1 u hop) (Nat.zero_le _)), ?_⟩
            rw [k1, EM.bind_ok d1, hop]
            rfl
      | _ => simp [Formula] at hf
    | _ => simp [Formula] at hf

/-! ## The property -/

/-- The state with values on top of the stack. -/
def above (A : St) (G : List Val) : St := { A with stack := A.stack ++ G }

theorem two_start {A : St} (h : Running A) (G : List Val) : Two i x A.stack (above A G) (bindVar i x A) :=
  ⟨⟨G, [], [], by simp [above], by simp [bindVar], .nil⟩, h.refs, rfl, h.locals, rfl, h.call⟩

theorem popNum_num {s : St} {v : Val} {x : F64} {sec} (h : derefE v s = .ok (.f64 x sec) s) :
    popNum { s with stack := s.stack ++ [v] } = .ok x s := by
  unfold popNum
  rw [EM.bind_ok (show popE { s with stack := s.stack ++ [v] } = .ok v s by simp [popE]), EM.bind_ok h]
  rfl

theorem vec4_run {n : Nat} {A : St} {e : Nat → Expr} {y : Nat → F64}
    (h : ∀ k < 4, ∀ G, ∃ v, eval c n (e k) .right (above A G) = .ok (some v, .cont) (above A G) ∧
      ∀ G', ∃ s, derefE v (above A G') = .ok (.f64 (y k) s) (above A G')) :
    eval c (n + 1) (.vec4 [e 0, e 1, e 2, e 3]) .right A =
      .ok (some (.vec4 ⟨FloatOps.toF32 (y 0), FloatOps.toF32 (y 1), FloatOps.toF32 (y 2), FloatOps.toF32 (y 3)⟩), .cont) A := by
  show vec4E (eval c n) [e 0, e 1, e 2, e 3] .right A = _
  unfold vec4E
  rw [EM.bind_ok (show EM.get A = .ok A A from rfl)]
  have push : ∀ {e es k v} {G : List Val} {msg : String}, eval c n e .right (above A G) = .ok (some v, .cont) (above A G) →
      vecArgs (eval c n) .right msg (some A.stack.length) (e :: es) k (above A G) =
      vecArgs.vecNext (some A.stack.length) (vecArgs (eval c n) .right msg (some A.stack.length) es k) k
        (above A (G ++ [v])) := by
    intro e es k v G msg h
    rw [vecArgs, EM.bind_ok h]
    simp only [above, ← List.append_assoc]
    rfl
  have more : ∀ {a b : EM R} {G : List Val}, G.length ≤ 3 →
      vecArgs.vecNext (some A.stack.length) a b (above A G) = a (above A G) := by
    intro a b G h
    unfold vecArgs.vecNext
    rw [EM.bind_ok (show EM.get (above A G) = .ok (above A G) (above A G) from rfl)]
    have : ¬ (above A G).stack.length - A.stack.length > 3 := by simp [above]; omega
    simp only
    rw [if_neg this]
  have done : ∀ {a b : EM R} {G : List Val}, 3 < G.length →
      vecArgs.vecNext (some A.stack.length) a b (above A G) = b (above A G) := by
    intro a b G h
    unfold vecArgs.vecNext
    rw [EM.bind_ok (show EM.get (above A G) = .ok (above A G) (above A G) from rfl)]
    have : (above A G).stack.length - A.stack.length > 3 := by simp [above]; omega
    simp only
    rw [if_pos this]
  obtain ⟨v0, e0, d0⟩ := h 0 (by omega) []
  obtain ⟨v1, e1, d1⟩ := h 1 (by omega) [v0]
  obtain ⟨v2, e2, d2⟩ := h 2 (by omega) [v0, v1]
  obtain ⟨v3, e3, d3⟩ := h 3 (by omega) [v0, v1, v2]
  have h0 : above A [] = A := by simp [above]
  have p0 := fun es k msg => push (es := es) (k := k) (msg := msg) e0
  simp only [h0] at p0
  rw [p0, more (by simp)]
  simp only [List.nil_append, List.cons_append]
  rw [push e1, more (by simp)]
  simp only [List.nil_append, List.cons_append]
  rw [push e2, more (by simp)]
  simp only [List.nil_append, List.cons_append]
  rw [push e3, done (by simp)]
  simp only [List.nil_append, List.cons_append]
  have pop : ∀ {G : List Val} {v : Val} {y : F64}, (∀ G', ∃ s, derefE v (above A G') = .ok (.f64 y s) (above A G')) →
      popNum (above A (G ++ [v])) = .ok y (above A G) := by
    intro G v y hd
    obtain ⟨s, hs⟩ := hd G
    have := popNum_num hs
    simpa [above] using this
  rw [EM.bind_ok (show popNum (above A [v0, v1, v2, v3]) = _ from pop (G := [v0, v1, v2]) d3),
    EM.bind_ok (show popNum (above A [v0, v1, v2]) = _ from pop (G := [v0, v1]) d2),
    EM.bind_ok (show popNum (above A [v0, v1]) = _ from pop (G := [v0]) d1),
    EM.bind_ok (show popNum (above A [v0]) = _ from pop (G := []) d0), h0]
  rfl

/-- **C40** (formulas). If evaluating the body of `vec<len> i e` with the variable `i`
declared as 0, 1, .., len-1 gives the numbers `y 0`, `y 1`, .., then evaluating what the loop
is turned into gives the vector of them, with zeros after them, and leaves the state. -/
theorem C40_value (hby : c.byName = true) (hops : OpsRefFree c) {len : Nat} (hl : 2 ≤ len) {e : Expr} (hf : Formula i e)
    {st : St} (hst : Running st) {n : Nat} {y : Nat → F64}
    (hy : ∀ k < len, ∃ w fl st' sec, eval c n e .right (bindVar i (F64.ofNat k) st) = .ok (some w, fl) st' ∧
      derefE w st' = .ok (.f64 (y k) sec) st') :
    eval c (n + 1) (unloop len i e) .right st =
      .ok (some (.vec4 ⟨FloatOps.toF32 (y 0), FloatOps.toF32 (y 1), FloatOps.toF32 (if 2 < len then y 2 else F64.zero),
        FloatOps.toF32 (if 3 < len then y 3 else F64.zero)⟩), .cont) st := by
  have comp : ∀ k < len, ∀ G, ∃ v, eval c n (number i (F64.ofNat k) e) .right (above st G) = .ok (some v, .cont) (above st G) ∧
      ∀ G', ∃ s, derefE v (above st G') = .ok (.f64 (y k) s) (above st G') := by
    intro k hk G
    obtain ⟨w, fl, st', sec, h1, h2⟩ := hy k hk
    obtain ⟨rfl, v, w', hr, hv, h3⟩ := formula_sim hby hops n e hf _ _ (two_start hst G) _ _ h1
    simp only [Prod.mk.injEq, Option.some.injEq] at hr
    obtain ⟨rfl, rfl⟩ := hr
    exact ⟨v, h3, fun G' => ⟨sec, (derefE_sim (two_start hst G') hv h2).2⟩⟩
  obtain ⟨m, rfl⟩ : ∃ m, n = m + 1 := by
    cases n with
    | zero =>
      obtain ⟨w, fl, st', sec, h1, h2⟩ := hy 0 (by omega)
      cases h1
    | succ m => exact ⟨m, rfl⟩
  have zero : ∀ G, ∃ v, eval c (m + 1) (.const (.ofF64 F64.zero)) .right (above st G) = .ok (some v, .cont) (above st G) ∧
      ∀ G', ∃ s, derefE v (above st G') = .ok (.f64 F64.zero s) (above st G') :=
    fun G => ⟨.ofF64 F64.zero, rfl, fun G' => ⟨none, rfl⟩⟩
  have run := vec4_run (c := c) (n := m + 1) (A := st)
    (e := fun k => if k < len then number i (F64.ofNat k) e else .const (.ofF64 F64.zero))
    (y := fun k => if k < len then y k else F64.zero) (by
      intro k hk G
      by_cases hkl : k < len
      · simp only [hkl, if_true]; exact comp k hkl G
      · simp only [hkl, if_false]; exact zero G)
  have h0 : 0 < len := by omega
  have h1 : 1 < len := by omega
  simp only [h0, h1, if_true] at run
  exact run

/-! ### The operators of the library meet the assumption -/

/-- Values without parts. -/
def Flat : Val → Prop
  | .ref _ | .array _ | .object _ => False
  | _ => True

theorem Flat.below {v : Val} (h : Flat v) : RefsBelow 0 v := by
  intro p j hp
  cases p with
  | nil => cases hp; cases h
  | cons s p =>
    cases v <;> first | (exact h.elim) | skip
    all_goals simp [Val.atPath, Val.step] at hp

/-- An operator whose results have no parts. -/
def FlatRes (r : OpRes) : Prop := ∀ v, r = .ok v → Flat v

omit [FloatOps] [VecMath] in
theorem flat_ok {v : Val} (h : Flat v) : FlatRes (.ok v) := fun _ e => by cases e; exact h
omit [FloatOps] [VecMath] in
theorem flat_error {m : String} : FlatRes (.error m) := fun _ e => by cases e
omit [FloatOps] [VecMath] in
theorem flat_negate (r : OpRes) : FlatRes (Op.negate r) := by
  unfold Op.negate
  split <;> first | exact flat_error | exact flat_ok trivial
omit [FloatOps] [VecMath] in
theorem flat_equal (a b : Val) : FlatRes (Op.equal a b) := by
  unfold Op.equal
  split <;> first | exact flat_error | exact flat_ok trivial | skip
  exact flat_equal _ _
termination_by sizeOf a

theorem stdOps (write : Stack → Val → String) (fuel : Nat) (m : Nat → List Func) : OpsRefFree (stdCfg write fuel m) := by
  constructor
  · intro f a b v h
    have h : (match binopTable[f]? with | some g => g a b | none => .error "no such operator") = Except.ok v := h
    split at h
    · next g hg =>
      have hmem := List.mem_of_getElem? hg
      refine Flat.below ?_
      have : FlatRes (g a b) := by
        simp only [binopTable, List.mem_cons, List.not_mem_nil, or_false] at hmem
        rcases hmem with rfl | rfl | rfl | rfl | rfl | rfl | rfl | rfl | rfl | rfl | rfl | rfl | rfl
        · unfold Op.less; split <;> first | exact flat_error | exact flat_ok trivial
        · unfold Op.lessOrEqual; split <;> first | exact flat_error | exact flat_ok trivial
        · exact flat_negate _
        · exact flat_negate _
        · exact flat_equal a b
        · exact flat_negate _
        · unfold Op.add; split <;> first | exact flat_error | exact flat_ok trivial
        · unfold Op.sub; split <;> first | exact flat_error | exact flat_ok trivial
        · unfold Op.mul; split <;> first | exact flat_error | exact flat_ok trivial
        · unfold Op.div; split <;> first | exact flat_error | exact flat_ok trivial
        · unfold Op.rem; split <;> first | exact flat_error | exact flat_ok trivial
        · unfold Op.pow; split <;> first | exact flat_error | exact flat_ok trivial
        · unfold Op.dot; dsimp only; split <;> first | exact flat_error | exact flat_ok trivial
      exact this v h
    · cases h
  · intro f a v h
    have h : (match unopTable[f]? with | some g => g a | none => .error "no such operator") = Except.ok v := h
    split at h
    · next g hg =>
      have hmem := List.mem_of_getElem? hg
      refine Flat.below ?_
      have : FlatRes (g a) := by
        simp only [unopTable, List.mem_cons, List.not_mem_nil, or_false] at hmem
        rcases hmem with rfl | rfl | rfl | rfl
        · unfold Op.not; split <;> first | exact flat_error | exact flat_ok trivial
        · unfold Op.neg; split <;> first | exact flat_error | exact flat_ok trivial
        · unfold Op.norm; split <;> first | exact flat_error | exact flat_ok trivial
        · unfold Op.len; split <;> first | exact flat_error | exact flat_ok trivial
      exact this v h
    · cases h

/-! ### An example: `vec2 i a[i]` -/

/-- Inside a function with the variable `a`, an array of two numbers. -/
def demoSt (x y : F64) : St :=
  { Demo.empty with
    stack := [.array [.ofF64 x, .ofF64 y]], locals := [("a", 0)],
    calls := [⟨"main", 0, none, 0, 0, 0⟩] }

theorem demoSt_running (x y : F64) : Running (demoSt x y) := by
  refine ⟨fun v hv => ?_, fun l hl => ?_, ⟨_, rfl, Nat.zero_le _⟩⟩
  · simp only [demoSt, List.mem_singleton] at hv
    subst hv
    refine RefsBelow.mono (RefFree.below (.array fun w hw => ?_)) (Nat.zero_le _)
    simp only [List.mem_cons, List.not_mem_nil, or_false] at hw
    rcases hw with rfl | rfl <;> exact .f64 (by simp)
  · simp only [demoSt, List.mem_singleton] at hl
    subst hl
    exact Nat.zero_lt_one

/-- `a[i]` -/
def demoBody : Expr := .item (.mk "a" none false false [.expr (plainVar "i")] [])

set_option maxRecDepth 20000 in
/-- `vec2 i a[i]` is the vector of the two elements of `a`. -/
example (write : Stack → Val → String) (x y : F64) :
    eval { stdCfg write 0 (fun _ => []) with byName := true } 3 (unloop 2 "i" demoBody) .right (demoSt x y) =
      .ok (some (.vec4 ⟨FloatOps.toF32 x, FloatOps.toF32 y, FloatOps.toF32 F64.zero, FloatOps.toF32 F64.zero⟩), .cont)
        (demoSt x y) := by
  have hops : OpsRefFree { stdCfg write 0 (fun _ => []) with byName := true } :=
    ⟨(stdOps write 0 fun _ => []).binop, (stdOps write 0 fun _ => []).unop⟩
  have hf : Formula "i" demoBody := by simp [demoBody, plainVar, Formula, FormulaIds]
  refine C40_value (n := 2) (y := fun k => if k = 0 then x else y) rfl hops (Nat.le_refl 2) hf (demoSt_running x y) ?_
  intro k hk
  obtain rfl | rfl : k = 0 ∨ k = 1 := by omega
  · exact ⟨.ofF64 x, _, _, none, rfl, rfl⟩
  · exact ⟨.ofF64 y, _, _, none, rfl, rfl⟩

end

end Dyon.Syn
