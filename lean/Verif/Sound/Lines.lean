import Verif.Sound.Run

/-!
# Typed statements do not go wrong

Lemmas for C81: what statements do to the variables of the function, by induction on the fuel.
-/

namespace Dyon.Sound

open Ty (HasTy)

/-- Values of the types `W`. -/
def Holds (W : List Ty) (vs : List Val) : Prop := List.Forall₂ (fun T v => Flat T ∧ HasTy T v) W vs

theorem Holds.length {W vs} (h : Holds W vs) : W.length = vs.length := by
  induction h with
  | nil => rfl
  | cons _ _ ih => simp [ih]

theorem Holds.get : ∀ {W vs} (_ : Holds W vs) {k : Nat} {T}, W[k]? = some T → ∃ v, vs[k]? = some v ∧ Flat T ∧ HasTy T v
  | _, _, .nil, k, T, h => by simp at h
  | _, _, .cons h1 h2, 0, T, h => by
    simp only [List.getElem?_cons_zero, Option.some.injEq] at h
    subst h
    exact ⟨_, rfl, h1⟩
  | _, _, .cons h1 h2, k + 1, T, h => by
    simp only [List.getElem?_cons_succ] at h ⊢
    exact Holds.get h2 h

theorem Holds.put : ∀ {W vs} (_ : Holds W vs) {k : Nat} {T v}, W[k]? = some T → Flat T → HasTy T v → Holds W (vs.set k v)
  | _, _, .nil, k, T, v, h, _, _ => by simp at h
  | _, _, .cons h1 h2, 0, T, v, h, hf, hv => by
    simp only [List.getElem?_cons_zero, Option.some.injEq] at h
    subst h
    exact .cons ⟨hf, hv⟩ h2
  | _, _, .cons h1 h2, k + 1, T, v, h, hf, hv => by
    simp only [List.getElem?_cons_succ] at h
    exact .cons h1 (Holds.put h2 h hf hv)

theorem Holds.snoc : ∀ {W vs} (_ : Holds W vs) {T v}, Flat T → HasTy T v → Holds (W ++ [T]) (vs ++ [v])
  | _, _, .nil, T, v, hf, hv => .cons ⟨hf, hv⟩ .nil
  | _, _, .cons h1 h2, T, v, hf, hv => .cons h1 (Holds.snoc h2 hf hv)

theorem Holds.snoc_inv {W vs T} (h : Holds (W ++ [T]) vs) : ∃ us v, vs = us ++ [v] ∧ Holds W us ∧ Flat T ∧ HasTy T v := by
  induction W generalizing vs with
  | nil =>
    cases h with
    | cons h1 h2 => cases h2; exact ⟨[], _, rfl, .nil, h1⟩
  | cons A W ih =>
    cases h with
    | cons h1 h2 =>
      obtain ⟨us, v, rfl, h3, h4⟩ := ih h2
      exact ⟨_ :: us, v, rfl, .cons h1 h3, h4⟩

/-- The state is inside a call of the function number `i`: its variables are of the types in `Γ`, those declared by the function, in `M`, are
values on the stack above `F`, of the types `W`, and the others are in `F`. -/
structure At (Γ : List (String × Ty)) (M : List String) (m i : Nat) (F : Stack) (W : List Ty) (s : St) : Prop where
  module : s.module = m
  quiet : ∀ a b, (s.senders a b).1 = false
  vals : ∃ vs, s.stack = F ++ vs ∧ Holds W vs
  vars : ∃ call, s.calls.getLast? = some call ∧ call.index = i ∧ call.localLen ≤ s.locals.length ∧ ∀ x T, (x, T) ∈ Γ → ∃ id,
    findLast x (s.locals.drop call.localLen) = some id ∧
    ((∃ k, id = F.length + k ∧ W[k]? = some T) ∨ (x ∉ M ∧ ∃ v w, F[id]? = some v ∧ Denotes F v w ∧ HasTy T w))

variable {Γ : List (String × Ty)} {M : List String} {m i : Nat} {F : Stack} {W : List Ty} {s s' s'' : St}

theorem At.framed [FloatOps] [VecMath] (h : At Γ M m i F W s) : Framed Γ m i s.stack s := by
  obtain ⟨h1, h2, ⟨vs, h3, h4⟩, call, h5, h6, h7, h8⟩ := h
  refine ⟨h1, h2, ⟨[], by simp⟩, call, h5, h6, h7, fun x T hx => ?_⟩
  obtain ⟨id, a, b⟩ := h8 x T hx
  rcases b with ⟨k, rfl, hk⟩ | ⟨-, v, w, b1, b2, b3⟩
  · obtain ⟨v, hv, hf, ty⟩ := h4.get hk
    refine ⟨_, v, v, a, ?_, denotes_self (hf.not_ref ty), ty⟩
    rw [h3, List.getElem?_append_right (by omega)]
    simpa using hv
  · refine ⟨id, v, w, a, ?_, ?_, b3⟩
    · rw [h3, List.getElem?_append_left (List.getElem?_eq_some_iff.1 b1).1]; exact b1
    · rw [h3]; exact denotes_append _ b2

theorem Framed.at [FloatOps] [VecMath] (h : Framed Γ m i s.stack s) : At Γ [] m i s.stack [] s := by
  obtain ⟨h1, h2, -, call, h5, h6, h7, h8⟩ := h
  refine ⟨h1, h2, ⟨[], by simp, .nil⟩, call, h5, h6, h7, fun x T hx => ?_⟩
  obtain ⟨id, v, w, a, b, d, e⟩ := h8 x T hx
  exact ⟨id, a, .inr ⟨by simp, v, w, b, d, e⟩⟩

/-- Only values of variables have changed, and they are of the same types. -/
def Same (F : Stack) (W : List Ty) (s s' : St) : Prop := ∃ vs, s' = { s with stack := F ++ vs } ∧ Holds W vs

/-- The same with more on the stack. -/
def Later (F : Stack) (W : List Ty) (s s' : St) : Prop :=
  ∃ vs a b, s' = { s with stack := F ++ (vs ++ a), locals := s.locals ++ b } ∧ Holds W vs

theorem At.refl (h : At Γ M m i F W s) : Same F W s s := by
  obtain ⟨-, -, ⟨vs, h3, h4⟩, -⟩ := h
  exact ⟨vs, by rw [← h3], h4⟩

theorem At.same (h : At Γ M m i F W s) (hs : Same F W s s') : At Γ M m i F W s' := by
  obtain ⟨vs, rfl, hv⟩ := hs
  obtain ⟨h1, h2, -, h5⟩ := h
  exact ⟨h1, h2, ⟨vs, rfl, hv⟩, h5⟩

theorem At.length (h : At Γ M m i F W s) : s.stack.length = F.length + W.length := by
  obtain ⟨-, -, ⟨vs, h3, h4⟩, -⟩ := h
  rw [h3, List.length_append, h4.length]

theorem Same.trans (h : Same F W s s') (h' : Same F W s' s'') : Same F W s s'' := by
  obtain ⟨vs, rfl, -⟩ := h
  obtain ⟨us, rfl, hu⟩ := h'
  exact ⟨us, rfl, hu⟩

theorem Same.later (h : Same F W s s') : Later F W s s' := by
  obtain ⟨vs, rfl, hv⟩ := h
  exact ⟨vs, [], [], by simp, hv⟩

theorem Same.trans_later (h : Same F W s s') (h' : Later F W s' s'') : Later F W s s'' := by
  obtain ⟨vs, rfl, -⟩ := h
  obtain ⟨us, a, b, rfl, hu⟩ := h'
  exact ⟨us, a, b, rfl, hu⟩

theorem Same.locals (h : Same F W s s') : s'.locals = s.locals := by
  obtain ⟨vs, rfl, -⟩ := h
  rfl

/-- The state with one variable more. -/
def St.with1 (s : St) (x : String) (v : Val) : St :=
  { s with stack := s.stack ++ [v], locals := s.locals ++ [(x, s.stack.length)] }

theorem At.declare [FloatOps] [VecMath] (h : At Γ M m i F W s) (x : String) {T : Ty} {v : Val} (hf : Flat T) (hv : HasTy T v) :
    At (extend Γ x T) (x :: M) m i F (W ++ [T]) (St.with1 s x v) := by
  have hl := h.length
  obtain ⟨h1, h2, ⟨vs, h3, h4⟩, call, h5, h6, h7, h8⟩ := h
  refine ⟨h1, h2, ⟨vs ++ [v], by simp [St.with1, h3], h4.snoc hf hv⟩, call, h5, h6, by simp [St.with1]; omega, fun y U hy => ?_⟩
  have hd : (St.with1 s x v).locals.drop call.localLen = s.locals.drop call.localLen ++ [(x, s.stack.length)] := by
    simp only [St.with1, List.drop_append_of_le_length h7]
  rw [hd]
  simp only [findLast_snoc]
  rcases List.mem_cons.1 hy with hy | hy
  · cases hy
    exact ⟨s.stack.length, by simp, .inl ⟨W.length, hl, by simp⟩⟩
  · obtain ⟨hy, hne⟩ := List.mem_filter.1 hy
    obtain ⟨id, a, b⟩ := h8 y U hy
    have hne : x ≠ y := fun e => by simp [e] at hne
    refine ⟨id, by rw [if_neg hne]; exact a, ?_⟩
    rcases b with ⟨k, b1, b2⟩ | ⟨b1, b2⟩
    · refine .inl ⟨k, b1, ?_⟩
      rw [List.getElem?_append_left (List.getElem?_eq_some_iff.1 b2).1]; exact b2
    · exact .inr ⟨by simp [Ne.symm hne, b1], b2⟩

theorem Later.outer (h : At Γ M m i F W s) {x : String} {T : Ty} {v : Val} (hs : Later F (W ++ [T]) (St.with1 s x v) s') :
    Later F W s s' := by
  obtain ⟨vs, a, b, rfl, hv⟩ := hs
  obtain ⟨us, w, rfl, hu, -⟩ := hv.snoc_inv
  exact ⟨us, [w] ++ a, [(x, s.stack.length)] ++ b, by simp [St.with1], hu⟩

theorem Same.refl_with [FloatOps] [VecMath] (h : At Γ M m i F W s) {x : String} {T : Ty} {v : Val} (hf : Flat T) (hv : HasTy T v) :
    Same F (W ++ [T]) (St.with1 s x v) (St.with1 s x v) :=
  (h.declare x hf hv).refl

/-- Truncation to what was there before. -/
theorem Later.trunc (h : At Γ M m i F W s) (hs : Later F W s s') :
    Same F W s { s' with stack := s'.stack.take s.stack.length, locals := s'.locals.take s.locals.length } := by
  obtain ⟨vs, a, b, rfl, hv⟩ := hs
  refine ⟨vs, ?_, hv⟩
  have e : s.stack.length = (F ++ vs).length := by rw [h.length, List.length_append, hv.length]
  rw [e, ← List.append_assoc, List.take_left, List.take_left]

/-- How statements end that are inside loops with the labels `L`. -/
inductive Res (T : Option Ty) (L : List (Option String)) (b : Bool) : R → Prop
  | ret {x} : Gave T x → Res T L b (x, .ret)
  | cont : b = false → Res T L b (none, .cont)
  | brk {l} : l ∈ L → Res T L b (none, .brk l)
  | next {l} : l ∈ L → Res T L b (none, .contLoop l)

theorem Res.mono {T L b b' r} (h : Res T L b r) (hb : b = false → b' = false) : Res T L b' r := by
  cases h with
  | ret h => exact .ret h
  | cont h => exact .cont (hb h)
  | brk h => exact .brk h
  | next h => exact .next h

theorem Res.leaves {T L b b' r} (h : Res T L b r) (hc : r.2 ≠ .cont) : Res T L b' r := by
  cases h with
  | ret h => exact .ret h
  | cont h => exact absurd rfl hc
  | brk h => exact .brk h
  | next h => exact .next h

/-- What a statement does. -/
def Ends (T : Option Ty) (L : List (Option String)) (b : Bool) (F : Stack) (W : List Ty) (s : St) (x : Ev R) : Prop :=
  x = .timeout ∨ ∃ r s', x = .ok r s' ∧ Res T L b r ∧ Later F W s s' ∧ (r.2 ≠ .ret → Same F W s s')

/-- What a block does. -/
def Closes (T : Option Ty) (L : List (Option String)) (b : Bool) (F : Stack) (W : List Ty) (s : St) (x : Ev R) : Prop :=
  x = .timeout ∨ ∃ r s', x = .ok r s' ∧ Res T L b r ∧ Same F W s s'

theorem Closes.ends {T L b x} (h : Closes T L b F W s x) : Ends T L b F W s x := by
  rcases h with h | ⟨r, s', h, h1, h2⟩
  · exact .inl h
  · exact .inr ⟨r, s', h, h1, h2.later, fun _ => h2⟩

theorem Closes.mono {T L b b' x} (h : Closes T L b F W s x) (hb : b = false → b' = false) : Closes T L b' F W s x := by
  rcases h with h | ⟨r, s', h, h1, h2⟩
  · exact .inl h
  · exact .inr ⟨r, s', h, h1.mono hb, h2⟩

section
variable {T : Option Ty} {L : List (Option String)} {ev : Evl}

theorem bind_timeout {α β} {a : EM α} {f : α → EM β} (h : a s = .timeout) : EM.bind a f s = .timeout := by
  simp only [EM.bind, h]

theorem bind_ok {α β} {a : EM α} {f : α → EM β} {x} (h : a s = .ok x s') : EM.bind a f s = f x s' := by
  simp only [EM.bind, h]

/-- A block, from its statements. -/
theorem block_closes (hat : At Γ M m i F W s) {es : List Expr} {b : Bool}
    (h : seqs ev es none s = .timeout ∨ ∃ r s', seqs ev es none s = .ok (true, r) s' ∧ Res T L b r ∧ Later F W s s') :
    Closes T L b F W s (block ev es s) := by
  unfold block scope3
  rcases h with h | ⟨r, s', h, h1, h2⟩
  · left
    show EM.bind EM.get _ s = _
    simp only [EM.bind, EM.get]
    exact bind_timeout h
  · refine .inr ⟨r, _, ?_, h1, h2.trunc hat⟩
    obtain ⟨vs, a, bb, rfl, hv⟩ := h2
    show EM.bind EM.get _ s = _
    simp only [EM.bind, EM.get]
    show EM.bind (seqs ev es none) _ s = _
    simp only [EM.bind, h]
    rw [if_pos trivial]
    show EM.bind (truncStack _) _ _ = _
    simp only [EM.bind, truncStack, EM.modify]
    show EM.bind (truncLocals _) _ _ = _
    simp only [EM.bind, truncLocals, EM.modify]
    show EM.bind (truncCurrents _) _ _ = _
    simp only [EM.bind, truncCurrents, EM.modify]
    show Ev.ok _ _ = _
    simp

theorem seqs_timeout {e : Expr} {es : List Expr} (x : Option Val) (h : ev e .right s = .timeout) :
    seqs ev (e :: es) x s = .timeout := by
  show EM.bind (ev e .right) _ s = _
  exact bind_timeout h

theorem seqs_next {e : Expr} {es : List Expr} (x : Option Val) {y} (h : ev e .right s = .ok (y, .cont) s') :
    seqs ev (e :: es) x s = seqs ev es y s' := by
  show EM.bind (ev e .right) _ s = _
  rw [bind_ok h]

theorem seqs_leave {e : Expr} {es : List Expr} (x : Option Val) {r} (h : ev e .right s = .ok r s') (hr : r.2 ≠ .cont) :
    seqs ev (e :: es) x s = .ok (true, r) s' := by
  show EM.bind (ev e .right) _ s = _
  rw [bind_ok h]
  obtain ⟨y, f⟩ := r
  cases f <;> first | rfl | exact absurd rfl hr

end

section
variable [FloatOps] [VecMath] {c : ECfg} {S : Nat → Option Sign}

/-- What a declaration does. -/
def DeclaresOne (m i : Nat) (R : FnIndex → String → List Ty → Ty → Prop) (ev : Evl) : Prop :=
  ∀ Γ s x sid e T, Framed Γ m i s.stack s → Flat T → Typing R Γ e T →
    ev (.assign .assign (.item (.mk x sid false false [] [])) e) .right s = .timeout ∨
    ∃ v, ev (.assign .assign (.item (.mk x sid false false [] [])) e) .right s = .ok (none, .cont) (St.with1 s x v) ∧ HasTy T v

/-- The statements of a row. -/
theorem rows_seqs {R : FnIndex → String → List Ty → Ty → Prop} {Q : FnIndex → String → List Ty → Prop} {ev : Evl} {T : Option Ty} (hdecl : DeclaresOne m i R ev)
    (hst : ∀ Γ M L F W s e b, At Γ M m i F W s → Stmt R Q T Γ M L e b → Ends T L b F W s (ev e .right s)) :
    ∀ (es : List Expr) {Γ M L F W s b}, At Γ M m i F W s → Rows R Q T Γ M L es b →
      seqs ev es none s = .timeout ∨ ∃ r s', seqs ev es none s = .ok (true, r) s' ∧ Res T L b r ∧ Later F W s s'
  | [], Γ, M, L, F, W, s, b, hat, h => by
    cases h
    exact .inr ⟨(none, .cont), s, rfl, .cont rfl, hat.refl.later⟩
  | e :: es, Γ, M, L, F, W, s, b, hat, h => by
    cases h with
    | @decl _ _ _ x sid e U _ _ hU ht hr =>
      rcases hdecl Γ s x sid e U hat.framed hU ht with h | ⟨v, h, ty⟩
      · exact .inl (seqs_timeout _ h)
      · rw [seqs_next _ h]
        rcases rows_seqs hdecl hst es (hat.declare x hU ty) hr with h | ⟨r, s', h, h1, h2⟩
        · exact .inl h
        · exact .inr ⟨r, s', h, h1, h2.outer hat⟩
    | @stmt _ _ _ _ _ b b' h1 h2 =>
      rcases hst _ _ _ _ _ _ _ _ hat h1 with h | ⟨r, s', h, hr, hl, hs⟩
      · exact .inl (seqs_timeout _ h)
      · by_cases hc : r.2 = .cont
        · obtain ⟨y, f⟩ := r
          cases hc
          replace hs := hs (by simp)
          have hy : y = none ∧ b = false := by cases hr; exact ⟨rfl, by assumption⟩
          obtain ⟨rfl, rfl⟩ := hy
          rw [seqs_next _ h]
          rcases rows_seqs hdecl hst es (hat.same hs) h2 with h | ⟨r, s', h, h1, h2⟩
          · exact .inl h
          · exact .inr ⟨r, s', h, by simpa using h1, hs.trans_later h2⟩
        · refine .inr ⟨r, s', seqs_leave _ h hc, ?_, hl⟩
          exact hr.leaves hc

/-! ## Conditions -/

/-- The value of a condition. -/
theorem bool_is {B : Stack} {e : Expr} {v : Val} (h : Is B e .bool v) : ∃ q sec, Denotes B v (.bool q sec) ∧ (Computed e → v = .bool q sec) := by
  obtain ⟨w, d, ty, hc⟩ := h
  have hw : ∃ q sec, w = .bool q sec := by
    cases w <;> simp [HasTy] at ty
    exact ⟨_, _, rfl⟩
  obtain ⟨q, sec, rfl⟩ := hw
  exact ⟨q, sec, d, hc⟩

theorem elifs_closes {R : FnIndex → String → List Ty → Ty → Prop} {Q : FnIndex → String → List Ty → Prop} {ev : Evl} {T : Option Ty} {L : List (Option String)} (hat : At Γ M m i F W s)
    (hE : ∀ e T, Typing R Γ e T → Fits s.stack ev s e T)
    (hB : ∀ es b, Rows R Q T Γ M L es b → Closes T L b F W s (block ev es s)) :
    ∀ {elifs : List (Expr × List Expr)} {els b}, Elifs R Q T Γ M L elifs els b → Closes T L b F W s (elifsE ev els elifs s)
  | _, _, _, .none => .inr ⟨_, _, rfl, .cont rfl, hat.refl⟩
  | _, _, _, .els h => hB _ _ h
  | _, els, _, .elif (c := cnd) (es := es) (elifs := elifs) (b := b) (b' := b') h1 h2 h3 => by
    rcases hE _ _ h1 with h | ⟨x, h, hx⟩
    · exact .inl (bind_timeout (a := ev cnd .right) h)
    · obtain ⟨q, sec, d, -⟩ := bool_is hx
      have e1 : elifsE ev els ((cnd, es) :: elifs) s = if q then block ev es s else elifsE ev els elifs s := by
        show EM.bind (ev cnd .right) _ s = _
        simp only [EM.bind, h]
        show EM.bind (derefE x) _ s = _
        simp only [EM.bind, denotes_deref (s := s) (rest := []) (by simp) d]
        cases q <;> rfl
      rw [e1]
      cases q
      · exact (elifs_closes hat hE hB h3).mono (fun h => by simp [h])
      · exact (hB _ _ h2).mono (fun h => by simp [h])

theorem ite_closes {R : FnIndex → String → List Ty → Ty → Prop} {Q : FnIndex → String → List Ty → Prop} {ev : Evl} {T : Option Ty} {L : List (Option String)} (hat : At Γ M m i F W s)
    (hE : ∀ e T, Typing R Γ e T → Fits s.stack ev s e T)
    (hB : ∀ es b, Rows R Q T Γ M L es b → Closes T L b F W s (block ev es s)) {cnd es elifs els b b'}
    (h1 : Typing R Γ cnd .bool) (h2 : Rows R Q T Γ M L es b) (h3 : Elifs R Q T Γ M L elifs els b') :
    Closes T L (b && b') F W s (iteE ev cnd es elifs els s) := by
  rcases hE _ _ h1 with h | ⟨x, h, hx⟩
  · exact .inl (bind_timeout (a := ev cnd .right) h)
  · obtain ⟨q, sec, d, -⟩ := bool_is hx
    have e1 : iteE ev cnd es elifs els s = if q then block ev es s else elifsE ev els elifs s := by
      show EM.bind (ev cnd .right) _ s = _
      simp only [EM.bind, h]
      show EM.bind (derefE x) _ s = _
      simp only [EM.bind, denotes_deref (s := s) (rest := []) (by simp) d]
      cases q <;> rfl
    rw [e1]
    cases q
    · exact (elifs_closes hat hE hB h3).mono (fun h => by simp [h])
    · exact (hB _ _ h2).mono (fun h => by simp [h])

/-! ## Assignments -/

theorem Assigns.flat {op U V} (h : Assigns op U V) : Flat U := by
  cases h with
  | set h => exact h
  | num _ => exact .f64
  | vec _ => exact .vec4
  | scale _ _ => exact .vec4
  | mat _ => exact .mat4
  | text => exact .str
  | item _ => exact .link
  | link _ => exact .link

theorem Assigns.not_assign {op U V} (h : Assigns op U V) : op ≠ .assign := by
  cases h with
  | set h => simp
  | num h => exact h
  | vec h => exact h
  | scale h _ => exact h
  | mat h => rcases h with rfl | rfl | rfl <;> simp
  | text => simp
  | item _ => simp
  | link h => rcases h with rfl | rfl <;> simp

/-- The table of the operators. -/
theorem Assigns.run {op U V} (h : Assigns op U V) {n d : Val} (hn : HasTy U n) (hd : HasTy V d) :
    ∃ v, assignOp op n d = .ok v ∧ HasTy U v := by
  cases h with
  | set h =>
    cases h <;> cases n <;> simp [HasTy] at hn <;> cases d <;> simp [HasTy] at hd <;>
      exact ⟨_, rfl, by simp [HasTy]⟩
  | num h =>
    cases n <;> simp [HasTy] at hn
    cases d <;> simp [HasTy] at hd
    exact ⟨_, rfl, by simp [HasTy]⟩
  | vec h =>
    cases n <;> simp [HasTy] at hn
    cases d <;> simp [HasTy] at hd
    exact ⟨_, rfl, by simp [HasTy]⟩
  | scale h h' =>
    cases n <;> simp [HasTy] at hn
    cases d <;> simp [HasTy] at hd
    cases op <;> first | exact absurd rfl h | exact absurd rfl h' | exact ⟨_, rfl, by simp [HasTy]⟩
  | mat h =>
    cases n <;> simp [HasTy] at hn
    cases d <;> simp [HasTy] at hd
    rcases h with rfl | rfl | rfl <;> exact ⟨_, rfl, by simp [HasTy]⟩
  | text =>
    cases n <;> simp [HasTy] at hn
    cases d <;> simp [HasTy] at hd
    exact ⟨_, rfl, by simp [HasTy]⟩
  | item h =>
    cases n <;> simp [HasTy] at hn
    rcases h with rfl | rfl | rfl <;> cases d <;> simp [HasTy] at hd <;> exact ⟨_, rfl, by simp [HasTy]⟩
  | link h =>
    cases n <;> simp [HasTy] at hn
    cases d <;> simp [HasTy] at hd
    rcases h with rfl | rfl <;> exact ⟨_, rfl, by simp [HasTy]⟩

/-- A variable of the function on the left side. -/
theorem At.target (hb : c.byName = true) (hat : At Γ M m i F W s) {x U} (hM : x ∈ M) (hx : (x, U) ∈ Γ) (ev : Evl) (sid : Option Nat) (side : Side) :
    ∃ k, W[k]? = some U ∧ itemE c ev (.mk x sid false false [] []) side s = .ok (some (.ref (F.length + k)), .cont) s := by
  obtain ⟨-, -, ⟨vs, h3, h4⟩, call, h5, h6, h7, h8⟩ := hat
  obtain ⟨id, a, b⟩ := h8 x U hx
  rcases b with ⟨k, rfl, hk⟩ | ⟨b, -⟩
  · obtain ⟨v, hv, hf, ty⟩ := h4.get hk
    have hslot : s.stack[F.length + k]? = some v := by
      rw [h3, List.getElem?_append_right (by omega)]; simpa using hv
    refine ⟨k, hk, ?_⟩
    have hl : lastCall s = .ok call s := by simp [lastCall, h5]
    have hs : slotOf c (.mk x sid false false [] []) call s = .ok (F.length + k) s := by
      unfold slotOf
      show EM.bind EM.get _ s = _
      simp only [EM.bind, EM.get, hb, if_true, Item.name, a]
      rfl
    have hr : refSlot (F.length + k) s = .ok (F.length + k) s := by
      show EM.bind (slotE _) _ s = _
      simp only [EM.bind, slotE, hslot]
      have := hf.not_ref ty
      cases v <;> first | rfl | exact absurd rfl (this _)
    show EM.bind lastCall _ s = _
    simp only [EM.bind, hl]
    show EM.bind (slotOf _ _ _) _ s = _
    simp only [EM.bind, hs]
    show EM.bind (refSlot _) _ s = _
    simp only [EM.bind, hr]
    rfl
  · exact absurd hM b

theorem At.put (hat : At Γ M m i F W s) {k U v} (hk : W[k]? = some U) (hf : Flat U) (hv : HasTy U v) :
    writeE ⟨F.length + k, []⟩ v s = .ok () { s with stack := s.stack.set (F.length + k) v } ∧
    Same F W s { s with stack := s.stack.set (F.length + k) v } := by
  obtain ⟨-, -, ⟨vs, h3, h4⟩, -⟩ := hat
  obtain ⟨w, hw, -, -⟩ := h4.get hk
  have hslot : s.stack[F.length + k]? = some w := by
    rw [h3, List.getElem?_append_right (by omega)]; simpa using hw
  constructor
  · simp [writeE, readPlace, hslot, Val.atPath, writePlace, Val.setPath]
  · refine ⟨vs.set k v, ?_, h4.put hk hf hv⟩
    rw [h3, List.set_append_right _ _ (by omega)]
    simp

theorem assign_ends (hb : c.byName = true) (hat : At Γ M m i F W s) {n : Nat} {op x sid e U V} {T : Option Ty} {L : List (Option String)} (hM : x ∈ M) (hx : (x, U) ∈ Γ)
    (he : Fits s.stack (eval c n) s e V) (ha : Assigns op U V) (hc : U = .str → op = .add → Computed e) :
    Ends T L false F W s (eval c (n + 1) (.assign op (.item (.mk x sid false false [] [])) e) .right s) := by
  show Ends T L false F W s (assignE (eval c n) op (.item (.mk x sid false false [] [])) e s)
  unfold assignE
  rw [if_neg ha.not_assign]
  unfold assignSetE
  rcases want_fits he "Expected something from the right side" (fun b =>
    want (eval c n) (.item (.mk x sid false false [] [])) (.leftInsert false) "Expected something from the left side" fun a => do
      let p ← targetOf a
      assignTo op p b) with h | ⟨v, h, w, d, ty, cv⟩
  · exact .inl h
  cases n with
  | zero =>
    left
    rw [h]
    rfl
  | succ n =>
  rw [h]
  obtain ⟨k, hk, hi⟩ := hat.target (c := c) hb hM hx (eval c n) sid (.leftInsert false)
  obtain ⟨vs, h3, h4⟩ := hat.vals
  obtain ⟨old, hold, -, tyold⟩ := h4.get hk
  obtain ⟨v', hop, tyv⟩ := ha.run tyold ty
  obtain ⟨hw, hsame⟩ := hat.put hk ha.flat tyv
  refine .inr ⟨(none, .cont), _, ?_, .cont rfl, hsame.later, fun _ => hsame⟩
  show EM.bind (itemE c (eval c n) _ _) _ s = _
  simp only [EM.bind, hi]
  show EM.bind (targetOf _) _ s = _
  simp only [EM.bind, targetOf]
  show EM.bind (derefE v) _ s = _
  simp only [EM.bind, denotes_deref (s := s) (rest := []) (by simp) d]
  have hslot : s.stack[F.length + k]? = some old := by
    rw [h3, List.getElem?_append_right (by omega)]; simpa using hold
  show EM.bind (readE _) _ s = _
  have hread : readE ⟨F.length + k, []⟩ s = .ok old s := by simp [readE, readPlace, hslot, Val.atPath]
  simp only [EM.bind, hread]
  have hself : selfAppend op ⟨F.length + k, []⟩ v old = false := by
    unfold selfAppend
    split
    · rename_i j t
      have hU : U = .str := by
        have := ha.flat
        cases this <;> simp [HasTy] at tyold
        rfl
      have := cv (hc hU rfl)
      subst this
      rcases d with ⟨i, h1, h2⟩ | ⟨h1, -⟩
      · cases ha <;> first | (cases hU; done) | skip
        simp [HasTy] at ty
      · exact absurd rfl (h1 j)
    · rfl
  have hcont : selfContain op ⟨F.length + k, []⟩ v = false := by
    unfold selfContain
    split <;> simp
  rw [if_neg (by simp [hself]), if_neg (by simp [hcont]), hop]
  show EM.bind (writeE _ _) _ s = _
  simp only [EM.bind, hw]
  rfl

/-! ## Loops -/

theorem loopN_runs {σ α} {body : σ → EM (σ ⊕ α)} (P : σ → St → Prop) (Q : α → St → Prop)
    (h : ∀ a s, P a s → body a s = .timeout ∨ (∃ a' s', body a s = .ok (.inl a') s' ∧ P a' s') ∨
      ∃ r s', body a s = .ok (.inr r) s' ∧ Q r s') :
    ∀ n a s, P a s → loopN n body a s = .timeout ∨ ∃ r s', loopN n body a s = .ok r s' ∧ Q r s'
  | 0, a, s, _ => .inl rfl
  | n + 1, a, s, hp => by
    rcases h a s hp with h1 | ⟨a', s', h1, hp'⟩ | ⟨r, s', h1, hq⟩
    · left
      show EM.bind (body a) _ s = _
      simp only [EM.bind, h1]
    · have e : loopN (n + 1) body a s = loopN n body a' s' := by
        show EM.bind (body a) _ s = _
        simp only [EM.bind, h1]
      rw [e]
      exact loopN_runs P Q h n a' s' hp'
    · refine .inr ⟨r, s', ?_, hq⟩
      show EM.bind (body a) _ s = _
      simp only [EM.bind, h1]
      rfl

theorem scope2_timeout {α} {a : EM (Bool × α)} (h : a s = .timeout) : scope2 a s = .timeout := by
  unfold scope2
  show EM.bind EM.get _ s = _
  simp only [EM.bind, EM.get]
  exact bind_timeout h

theorem scope2_keep {α} {a : EM (Bool × α)} {r} (h : a s = .ok (false, r) s') : scope2 a s = .ok r s' := by
  unfold scope2
  show EM.bind EM.get _ s = _
  simp only [EM.bind, EM.get]
  show EM.bind a _ s = _
  simp only [EM.bind, h]
  rfl

theorem scope2_cut {α} {a : EM (Bool × α)} {r} (h : a s = .ok (true, r) s') :
    scope2 a s = .ok r { s' with stack := s'.stack.take s.stack.length, locals := s'.locals.take s.locals.length } := by
  unfold scope2
  show EM.bind EM.get _ s = _
  simp only [EM.bind, EM.get]
  show EM.bind a _ s = _
  simp only [EM.bind, h]
  rfl

/-- What leaves a loop. -/
structure Out (T : Option Ty) (L : List (Option String)) (F : Stack) (W : List Ty) (s : St) (flag : Bool) (r : R) (s' : St) : Prop where
  res : Res T L false r
  later : Later F W s s'
  cut : r.2 ≠ .ret → flag = true

/-- How the flow out of the body leaves the loop. -/
theorem out_brk {T : Option Ty} {L : List (Option String)} {label l : Option String} (h : l ∈ none :: label :: L) :
    Res T L false (none, onBreak label l) := by
  cases l with
  | none => exact .cont rfl
  | some l =>
    simp only [onBreak]
    split
    · exact .cont rfl
    · rename_i hne
      refine .brk ?_
      simp only [List.mem_cons, reduceCtorEq, false_or] at h
      rcases h with h | h
      · exact absurd h.symm hne
      · exact h

theorem out_next {T : Option Ty} {L : List (Option String)} {label l : Option String} (h : l ∈ none :: label :: L) {f : Flow}
    (hf : onContinue label l = some f) : Res T L false (none, f) := by
  cases l with
  | none => cases hf
  | some l =>
    simp only [onContinue] at hf
    split at hf
    · cases hf
    · rename_i hne
      cases hf
      refine .next ?_
      simp only [List.mem_cons, reduceCtorEq, false_or] at h
      rcases h with h | h
      · exact absurd h.symm hne
      · exact h

theorem not_ret_brk {label l : Option String} : onBreak label l ≠ .ret := by
  cases l with
  | none => simp [onBreak]
  | some l => simp only [onBreak]; split <;> simp

theorem not_ret_next {label l : Option String} {f : Flow} (h : onContinue label l = some f) : f ≠ .ret := by
  cases l with
  | none => cases h
  | some l =>
    simp only [onContinue] at h
    split at h
    · cases h
    · cases h; simp

/-- The end of a loop. -/
theorem scope2_ends (hat : At Γ M m i F W s) {T : Option Ty} {L : List (Option String)} {a : EM (Bool × R)}
    (h : a s = .timeout ∨ ∃ q s', a s = .ok q s' ∧ Out T L F W s q.1 q.2 s') : Ends T L false F W s (scope2 a s) := by
  rcases h with h | ⟨⟨flag, r⟩, s', h, h1, h2, h3⟩
  · exact .inl (scope2_timeout h)
  · cases flag with
    | false => exact .inr ⟨r, s', scope2_keep h, h1, h2, fun hr => absurd (h3 hr) (by simp)⟩
    | true => exact .inr ⟨r, _, scope2_cut h, h1, (h2.trunc hat).later, fun _ => h2.trunc hat⟩

/-- The same for loops with an accumulator. -/
theorem scope2_ends_acc (hat : At Γ M m i F W s) {T : Option Ty} {L : List (Option String)} {a : EM (Bool × (Option Val × R))}
    (h : a s = .timeout ∨ ∃ q s', a s = .ok q s' ∧ q.2.1 = none ∧ Out T L F W s q.1 q.2.2 s') :
    Ends T L false F W s (EM.bind (scope2 a) (fun r => pure (accResult r)) s) := by
  have key : ∀ r : R, Res T L false r → accResult (none, r) = r := by
    intro r h
    cases h with
    | ret h => cases h <;> rfl
    | _ => rfl
  rcases h with h | ⟨⟨flag, acc, r⟩, s', h, h0, h1, h2, h3⟩
  · exact .inl (bind_timeout (scope2_timeout h))
  · simp only at h0 h1 h2 h3
    subst h0
    cases flag with
    | false =>
      refine .inr ⟨r, s', ?_, h1, h2, fun hr => absurd (h3 hr) (by simp)⟩
      rw [bind_ok (scope2_keep h), key r h1]
      rfl
    | true =>
      refine .inr ⟨r, _, ?_, h1, (h2.trunc hat).later, fun _ => h2.trunc hat⟩
      rw [bind_ok (scope2_cut h), key r h1]
      rfl

/-- What follows the body in a counting loop. -/
def roundEnd (st lc : Nat) (acc : Option Val) : Round (Option Val) → EM (Option Val ⊕ (Bool × (Option Val × R)))
  | .go s' => do
    incSlot (st - 1)
    truncStack st
    truncLocals lc
    pure (.inl s')
  | .stop s' f => pure (.inr (true, (s', (none, f))))
  | .exit r => pure (.inr (false, (acc, r)))

theorem countRound_eq {st lc : Nat} {stop y : F64} {sec} {round : Option Val → F64 → EM (Round (Option Val))} {acc : Option Val}
    (h : slotE (st - 1) s = .ok (.f64 y sec) s) : countRound st lc stop round acc s =
      if F64.lt y stop then EM.bind (round acc y) (roundEnd st lc acc) s else .ok (.inr (true, (acc, (none, .cont)))) s := by
  unfold countRound
  show EM.bind (slotE _) _ s = _
  simp only [EM.bind, h]
  split
  · show EM.bind (round acc y) _ s = _
    congr 1
    funext r
    cases r <;> rfl
  · rfl

/-- One round of a counting loop. -/
theorem count_round (hat : At Γ M m i F W s) {x : String} {v0 : F64} {T : Option Ty} {L : List (Option String)} {ev : Evl} {es : List Expr}
    {b : Bool} {label : Option String} (stop : F64)
    (hB : ∀ s', At (extend Γ x .f64) (x :: M) m i F (W ++ [.f64]) s' →
      Closes T (none :: label :: L) b F (W ++ [.f64]) s' (block ev es s'))
    {s1 : St} (hs : Same F (W ++ [.f64]) (St.with1 s x (.ofF64 v0)) s1) :
    countRound (s.stack.length + 1) (s.locals.length + 1) stop
        (fun a ind => bodyRound ev es label (ForKind.step .forN (.ofF64 ind)) a) none s1 = .timeout ∨
    (∃ a' s', countRound (s.stack.length + 1) (s.locals.length + 1) stop
        (fun a ind => bodyRound ev es label (ForKind.step .forN (.ofF64 ind)) a) none s1 = .ok (.inl a') s' ∧
        a' = none ∧ Same F (W ++ [.f64]) (St.with1 s x (.ofF64 v0)) s') ∨
    ∃ q s', countRound (s.stack.length + 1) (s.locals.length + 1) stop
        (fun a ind => bodyRound ev es label (ForKind.step .forN (.ofF64 ind)) a) none s1 = .ok (.inr q) s' ∧
        q.2.1 = none ∧ Out T L F (W ++ [.f64]) (St.with1 s x (.ofF64 v0)) q.1 q.2.2 s' := by
  have hat1 : At (extend Γ x .f64) (x :: M) m i F (W ++ [.f64]) s1 := (hat.declare x .f64 ⟨_, _, rfl⟩).same hs
  have hlen := hat.length
  have hlen1 := hat1.length
  have hloc : s1.locals.length = s.locals.length + 1 := by rw [hs.locals]; simp [St.with1]
  have slot : ∀ s2, At (extend Γ x .f64) (x :: M) m i F (W ++ [.f64]) s2 → ∃ y sec, slotE (s.stack.length + 1 - 1) s2 = .ok (.f64 y sec) s2 := by
    intro s2 h2
    obtain ⟨vs, h3, h4⟩ := h2.vals
    obtain ⟨us, v, rfl, hu, -, y, sec, rfl⟩ := h4.snoc_inv
    refine ⟨y, sec, ?_⟩
    have : s2.stack[s.stack.length + 1 - 1]? = some (.f64 y sec) := by
      rw [h3, ← List.append_assoc, hlen, hu.length]
      simp
    simp only [slotE, this]
  obtain ⟨y, sec, hslot⟩ := slot s1 hat1
  simp only [countRound_eq hslot]
  split
  · -- the body
    have hgo : ∀ s2, Same F (W ++ [.f64]) s1 s2 → ∃ s', roundEnd (s.stack.length + 1) (s.locals.length + 1) none (.go none) s2 =
        .ok (.inl none) s' ∧ Same F (W ++ [.f64]) s1 s' := by
      intro s2 h2
      have hat2 := hat1.same h2
      obtain ⟨y2, sec2, hslot2⟩ := slot s2 hat2
      obtain ⟨hw, hsame⟩ := hat2.put (k := W.length) (U := .f64) (v := .f64 (FloatOps.add y2 F64.one) sec2) (by simp) .f64 ⟨_, _, rfl⟩
      have hidx : s.stack.length + 1 - 1 = F.length + W.length := by rw [hlen]; omega
      rw [← hidx] at hw hsame
      have hinc : incSlot (s.stack.length + 1 - 1) s2 =
          .ok () { s2 with stack := s2.stack.set (s.stack.length + 1 - 1) (.f64 (FloatOps.add y2 F64.one) sec2) } := by
        unfold incSlot
        show EM.bind (slotE _) _ s2 = _
        simp only [EM.bind, hslot2]
        exact hw
      refine ⟨_, ?_, h2.trans hsame⟩
      show EM.bind (incSlot _) _ s2 = _
      rw [bind_ok hinc]
      show EM.bind (truncStack _) _ _ = _
      simp only [EM.bind, truncStack, EM.modify]
      show EM.bind (truncLocals _) _ _ = _
      simp only [EM.bind, truncLocals, EM.modify]
      show Ev.ok _ _ = _
      have l1 : s2.stack.length = s.stack.length + 1 := by rw [hat2.length, hlen]; simp; omega
      have l2 : s2.locals.length = s.locals.length + 1 := by rw [h2.locals, hloc]
      congr 2
      · rw [List.take_of_length_le (by simp [l1])]
      · rw [List.take_of_length_le (by omega)]
    rcases hB s1 hat1 with h | ⟨r, s2, h, hr, h2⟩
    · refine .inl (bind_timeout ?_)
      unfold bodyRound
      exact bind_timeout h
    · right
      have hround : bodyRound ev es label (ForKind.step .forN (.ofF64 y)) none s1 = match r with
          | (x, .ret) => .ok (.exit (x, .ret)) s2
          | (x, .cont) => .ok (.go none) s2
          | (_, .brk l) => .ok (.stop none (onBreak label l)) s2
          | (_, .contLoop l) => .ok (match onContinue label l with | none => .go none | some f => .stop none f) s2 := by
        unfold bodyRound
        show EM.bind (block ev es) _ s1 = _
        rw [bind_ok h]
        obtain ⟨x, f⟩ := r
        cases f <;> rfl
      cases hr with
      | ret ht =>
        rename_i v
        refine .inr ⟨(false, (none, (v, .ret))), s2, ?_, rfl, .ret ht, hs.trans h2 |>.later, fun h => absurd rfl h⟩
        rw [bind_ok hround]; rfl
      | cont _ =>
        obtain ⟨s3, h3, h4⟩ := hgo s2 h2
        refine .inl ⟨none, s3, ?_, rfl, hs.trans h4⟩
        rw [bind_ok hround]
        exact h3
      | brk hl =>
        rename_i l
        refine .inr ⟨(true, (none, (none, onBreak label l))), s2, ?_, rfl, out_brk hl, hs.trans h2 |>.later, fun _ => rfl⟩
        rw [bind_ok hround]; rfl
      | next hl =>
        rename_i l
        cases hc : onContinue label l with
        | none =>
          obtain ⟨s3, h3, h4⟩ := hgo s2 h2
          refine .inl ⟨none, s3, ?_, rfl, hs.trans h4⟩
          rw [bind_ok hround]
          simp only [hc]
          exact h3
        | some f =>
          refine .inr ⟨(true, (none, (none, f))), s2, ?_, rfl, out_next hl hc, hs.trans h2 |>.later, fun _ => rfl⟩
          rw [bind_ok hround]
          simp only [hc]
          rfl
  · exact .inr (.inr ⟨_, _, rfl, rfl, .cont rfl, hs.later, fun _ => rfl⟩)

theorem wantNum_fits {β} {B : Stack} {rest : Stack} (hB : s.stack = B ++ rest) {ev : Evl} {e : Expr} (h : Fits B ev s e .f64) (msg : String)
    (r : Option Val → EM β) (k : F64 → EM β) :
    wantNum ev e msg r k s = .timeout ∨ ∃ y, wantNum ev e msg r k s = k y s := by
  rcases h with h | ⟨v, h, w, d, ⟨y, sec, rfl⟩, -⟩
  · exact .inl (bind_timeout (a := ev e .right) h)
  · refine .inr ⟨y, ?_⟩
    show EM.bind (ev e .right) _ s = _
    simp only [EM.bind, h]
    show EM.bind (derefE v) _ s = _
    simp only [EM.bind, denotes_deref hB d]

/-- A counting loop. -/
theorem count_ends (hat : At Γ M m i F W s) {x : String} {T : Option Ty} {L : List (Option String)} {ev : Evl} {es : List Expr} (n : Nat)
    {b : Bool} {label : Option String} {start : Option Expr} {stop : Expr} (h1 : ∀ e ∈ start, Fits s.stack ev s e .f64)
    (h2 : Fits s.stack ev s stop .f64)
    (hB : ∀ s', At (extend Γ x .f64) (x :: M) m i F (W ++ [.f64]) s' →
      Closes T (none :: label :: L) b F (W ++ [.f64]) s' (block ev es s')) :
    Ends T L false F W s (forNLoop n ev .forN x start stop es label s) := by
  unfold forNLoop
  show Ends T L false F W s (EM.bind (countLoop n ev x start stop none _) _ s)
  unfold countLoop
  refine scope2_ends_acc hat ?_
  have main : ∀ (a b : F64), (do
      let s ← EM.get
      pushLocal x s.stack.length
      pushE (.ofF64 a)
      loopN n (countRound (s.stack.length + 1) (s.locals.length + 1) b
        (fun a ind => bodyRound ev es label (ForKind.step .forN (.ofF64 ind)) a)) (none : Option Val) : EM (Bool × (Option Val × R))) s =
      loopN n (countRound (s.stack.length + 1) (s.locals.length + 1) b
        (fun a ind => bodyRound ev es label (ForKind.step .forN (.ofF64 ind)) a)) none (St.with1 s x (.ofF64 a)) := by
    intro a b
    show EM.bind EM.get _ s = _
    simp only [EM.bind, EM.get]
    show EM.bind (pushLocal _ _) _ s = _
    simp only [EM.bind, pushLocal, EM.modify]
    show EM.bind (pushE _) _ _ = _
    simp only [EM.bind, pushE, EM.modify]
    rfl
  have rounds : ∀ (a b : F64), loopN n (countRound (s.stack.length + 1) (s.locals.length + 1) b
        (fun a ind => bodyRound ev es label (ForKind.step .forN (.ofF64 ind)) a)) none (St.with1 s x (.ofF64 a)) = .timeout ∨
      ∃ q s', loopN n (countRound (s.stack.length + 1) (s.locals.length + 1) b
        (fun a ind => bodyRound ev es label (ForKind.step .forN (.ofF64 ind)) a)) none (St.with1 s x (.ofF64 a)) = .ok q s' ∧
        q.2.1 = none ∧ Out T L F W s q.1 q.2.2 s' := by
    intro a b
    rcases loopN_runs (fun acc st => acc = none ∧ Same F (W ++ [.f64]) (St.with1 s x (.ofF64 a)) st)
      (fun q st => q.2.1 = none ∧ Out T L F (W ++ [.f64]) (St.with1 s x (.ofF64 a)) q.1 q.2.2 st)
      (body := countRound (s.stack.length + 1) (s.locals.length + 1) b
        (fun a ind => bodyRound ev es label (ForKind.step .forN (.ofF64 ind)) a))
      (fun acc st h => by
        obtain ⟨rfl, h⟩ := h
        exact count_round hat b hB h) n none _ ⟨rfl, (hat.declare x .f64 ⟨_, _, rfl⟩).refl⟩ with h | ⟨q, s', h, h0, h1, h2, h3⟩
    · exact .inl h
    · exact .inr ⟨q, s', h, h0, h1, h2.outer hat, h3⟩
  have hstop : ∀ a, wantNum ev stop "Expected number from for end" (fun x => pure (false, (none, (x, .ret)))) (fun b => do
      let s ← EM.get
      pushLocal x s.stack.length
      pushE (.ofF64 a)
      loopN n (countRound (s.stack.length + 1) (s.locals.length + 1) b
        (fun a ind => bodyRound ev es label (ForKind.step .forN (.ofF64 ind)) a)) (none : Option Val)) s = .timeout ∨
      ∃ q s', wantNum ev stop "Expected number from for end" (fun x => pure (false, (none, (x, .ret)))) (fun b => do
      let s ← EM.get
      pushLocal x s.stack.length
      pushE (.ofF64 a)
      loopN n (countRound (s.stack.length + 1) (s.locals.length + 1) b
        (fun a ind => bodyRound ev es label (ForKind.step .forN (.ofF64 ind)) a)) (none : Option Val)) s = .ok q s' ∧
        q.2.1 = none ∧ Out T L F W s q.1 q.2.2 s' := by
    intro a
    rcases wantNum_fits (rest := []) (by simp) h2 "Expected number from for end" (fun x => pure (false, (none, (x, .ret)))) (fun b => do
      let s ← EM.get
      pushLocal x s.stack.length
      pushE (.ofF64 a)
      loopN n (countRound (s.stack.length + 1) (s.locals.length + 1) b
        (fun a ind => bodyRound ev es label (ForKind.step .forN (.ofF64 ind)) a)) (none : Option Val)) with h | ⟨b, h⟩
    · exact .inl h
    · rw [h, main a b]
      exact rounds a b
  cases start with
  | none => exact hstop F64.zero
  | some e =>
    rcases wantNum_fits (rest := []) (by simp) (h1 e rfl) "Expected number from for start" (fun x => pure (false, ((none : Option Val), ((x, .ret) : R)))) (fun a =>
      wantNum ev stop "Expected number from for end" (fun x => pure (false, (none, (x, .ret)))) (fun b => do
      let s ← EM.get
      pushLocal x s.stack.length
      pushE (.ofF64 a)
      loopN n (countRound (s.stack.length + 1) (s.locals.length + 1) b
        (fun a ind => bodyRound ev es label (ForKind.step .forN (.ofF64 ind)) a)) (none : Option Val))) with h | ⟨a, h⟩
    · exact .inl h
    · have := hstop a
      rw [← h] at this
      exact this


theorem forStep_runs {ev : Evl} {step : Expr} {k : EM (Unit ⊕ (Bool × R))} {T : Option Ty} {b : Bool} {s1 : St} (hs : Same F W s s1)
    (h : Ends T [] b F W s1 (ev step .right s1)) (hk : ∀ s2, Same F W s s2 → k s2 = .ok (.inl ()) s2) :
    forStep ev step k s1 = .timeout ∨ (∃ s', forStep ev step k s1 = .ok (.inl ()) s' ∧ Same F W s s') ∨
    ∃ q s', forStep ev step k s1 = .ok (.inr q) s' ∧ ∃ x, q = (false, (x, .ret)) ∧ Gave T x ∧ Later F W s s' := by
  rcases h with h | ⟨r, s2, h, hr, hl, h2⟩
  · left
    show EM.bind (ev step .right) _ s1 = _
    simp only [EM.bind, h]
  · cases hr with
    | ret ht =>
      rename_i v
      refine .inr (.inr ⟨_, s2, ?_, v, rfl, ht, hs.trans_later hl⟩)
      show EM.bind (ev step .right) _ s1 = _
      simp only [EM.bind, h]
      rfl
    | cont _ =>
      have h2 := hs.trans (h2 (by simp))
      refine .inr (.inl ⟨s2, ?_, h2⟩)
      show EM.bind (ev step .right) _ s1 = _
      simp only [EM.bind, h]
      exact hk s2 h2
    | brk hl => cases hl
    | next hl => cases hl

/-- One round of a `for` loop. -/
theorem for_round (hat : At Γ M m i F W s) {T : Option Ty} {L : List (Option String)} {ev : Evl} {cnd step : Expr} {es : List Expr}
    {b b' : Bool} {label : Option String} (hc : Computed cnd)
    (hE : ∀ s', At Γ M m i F W s' → Fits s'.stack ev s' cnd .bool)
    (hS : ∀ s', At Γ M m i F W s' → Ends T [] b F W s' (ev step .right s'))
    (hB : ∀ s', At Γ M m i F W s' → Closes T (none :: label :: L) b' F W s' (block ev es s'))
    {s1 : St} (hs : Same F W s s1) :
    forRound ev cnd step es label s.stack.length s.locals.length () s1 = .timeout ∨
    (∃ a' s', forRound ev cnd step es label s.stack.length s.locals.length () s1 = .ok (.inl a') s' ∧ Same F W s s') ∨
    ∃ q s', forRound ev cnd step es label s.stack.length s.locals.length () s1 = .ok (.inr q) s' ∧ Out T L F W s q.1 q.2 s' := by
  have hat1 := hat.same hs
  rcases hE s1 hat1 with h | ⟨v, h, hv⟩
  · left
    show EM.bind (ev cnd .right) _ s1 = _
    simp only [EM.bind, h]
  obtain ⟨q, sec, -, hv⟩ := bool_is hv
  obtain rfl := hv hc
  cases q with
  | false =>
    refine .inr (.inr ⟨(true, (none, .cont)), s1, ?_, .cont rfl, hs.later, fun _ => rfl⟩)
    show EM.bind (ev cnd .right) _ s1 = _
    simp only [EM.bind, h]
    rfl
  | true =>
  have e1 : forRound ev cnd step es label s.stack.length s.locals.length () s1 =
      forBody ev step es label s.stack.length s.locals.length s1 := by
    show EM.bind (ev cnd .right) _ s1 = _
    simp only [EM.bind, h]
  rw [e1]
  rcases hB s1 hat1 with h | ⟨r, s2, h, hr, h2⟩
  · left
    show EM.bind (block ev es) _ s1 = _
    simp only [EM.bind, h]
  have hs2 := hs.trans h2
  have again : ∀ {k : EM (Unit ⊕ (Bool × R))}, (∀ s2, Same F W s s2 → k s2 = .ok (.inl ()) s2) →
      forBody ev step es label s.stack.length s.locals.length s1 = forStep ev step k s2 →
      forBody ev step es label s.stack.length s.locals.length s1 = .timeout ∨
      (∃ a' s', forBody ev step es label s.stack.length s.locals.length s1 = .ok (.inl a') s' ∧ Same F W s s') ∨
      ∃ q s', forBody ev step es label s.stack.length s.locals.length s1 = .ok (.inr q) s' ∧ Out T L F W s q.1 q.2 s' := by
    intro k hk e
    rw [e]
    rcases forStep_runs hs2 (hS s2 (hat.same hs2)) hk with h | ⟨s', h, h'⟩ | ⟨q, s', h, v, rfl, ty, h'⟩
    · exact .inl h
    · exact .inr (.inl ⟨_, s', h, h'⟩)
    · exact .inr (.inr ⟨_, s', h, .ret ty, h', fun h => absurd rfl h⟩)
  cases hr with
  | ret ht =>
    rename_i v
    refine .inr (.inr ⟨(false, (v, .ret)), s2, ?_, .ret ht, hs2.later, fun h => absurd rfl h⟩)
    show EM.bind (block ev es) _ s1 = _
    simp only [EM.bind, h]
    rfl
  | cont _ =>
    refine again (k := do
      truncStack s.stack.length
      truncLocals s.locals.length
      pure (.inl ())) ?_ ?_
    · intro s3 h3
      show EM.bind (truncStack _) _ _ = _
      simp only [EM.bind, truncStack, EM.modify]
      show EM.bind (truncLocals _) _ _ = _
      simp only [EM.bind, truncLocals, EM.modify]
      show Ev.ok _ _ = _
      congr 1
      have l1 : s3.stack.length = s.stack.length := by rw [(hat.same h3).length, hat.length]
      have l2 : s3.locals.length = s.locals.length := by rw [h3.locals]
      rw [List.take_of_length_le (by omega), List.take_of_length_le (by omega)]
    · show EM.bind (block ev es) _ s1 = _
      simp only [EM.bind, h]
  | brk hl =>
    rename_i l
    refine .inr (.inr ⟨(true, (none, onBreak label l)), s2, ?_, out_brk hl, hs2.later, fun _ => rfl⟩)
    show EM.bind (block ev es) _ s1 = _
    simp only [EM.bind, h]
    rfl
  | next hl =>
    rename_i l
    cases hcl : onContinue label l with
    | none =>
      refine again (k := pure (.inl ())) (fun _ _ => rfl) ?_
      show EM.bind (block ev es) _ s1 = _
      simp only [EM.bind, h, hcl]
    | some f =>
      refine .inr (.inr ⟨(true, (none, f)), s2, ?_, out_next hl hcl, hs2.later, fun _ => rfl⟩)
      show EM.bind (block ev es) _ s1 = _
      simp only [EM.bind, h, hcl]
      rfl

/-- The rounds of a `for` loop. -/
theorem for_rounds (hat : At Γ M m i F W s) {T : Option Ty} {L : List (Option String)} {ev : Evl} {cnd step : Expr} {es : List Expr} (n : Nat)
    {b b' : Bool} {label : Option String} (hc : Computed cnd)
    (hE : ∀ s', At Γ M m i F W s' → Fits s'.stack ev s' cnd .bool)
    (hS : ∀ s', At Γ M m i F W s' → Ends T [] b F W s' (ev step .right s'))
    (hB : ∀ s', At Γ M m i F W s' → Closes T (none :: label :: L) b' F W s' (block ev es s')) :
    loopN n (forRound ev cnd step es label s.stack.length s.locals.length) () s = .timeout ∨
    ∃ q s', loopN n (forRound ev cnd step es label s.stack.length s.locals.length) () s = .ok q s' ∧ Out T L F W s q.1 q.2 s' :=
  loopN_runs (fun _ st => Same F W s st) (fun (q : Bool × R) st => Out T L F W s q.1 q.2 st)
    (fun _ _ h => for_round hat hc hE hS hB h) n () s hat.refl

end

end Dyon.Sound
