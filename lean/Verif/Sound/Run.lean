import Verif.Sound.Typing

/-!
# Typed expressions do not go wrong

Lemmas for C81: by induction on the fuel.
-/

namespace Dyon.Sound

open Ty (HasTy)

section
variable [FloatOps] [VecMath] {c : ECfg} {S : Nat → Option Sign}

/-- The state is inside a call of the function number `i` whose variables are as in `Γ`, at the bottom `B` of the
stack; nobody listens to the functions. -/
structure Framed (Γ : List (String × Ty)) (m i : Nat) (B : Stack) (s : St) : Prop where
  module : s.module = m
  quiet : ∀ a b, (s.senders a b).1 = false
  base : ∃ rest, s.stack = B ++ rest
  vars : ∃ call, s.calls.getLast? = some call ∧ call.index = i ∧ call.localLen ≤ s.locals.length ∧ ∀ x T, (x, T) ∈ Γ → ∃ id v w,
    findLast x (s.locals.drop call.localLen) = some id ∧ B[id]? = some v ∧ Denotes B v w ∧ HasTy T w

/-- A value of the type, or a reference to a variable of the type. -/
def Is (B : Stack) (e : Expr) (T : Ty) (v : Val) : Prop := ∃ w, Denotes B v w ∧ HasTy T w ∧ (Computed e → v = w)

/-- What evaluation gives: nothing yet, or a value of the type in the same state. -/
def Fits (B : Stack) (ev : Evl) (s : St) (e : Expr) (T : Ty) : Prop :=
  ev e .right s = .timeout ∨ ∃ v, ev e .right s = .ok (some v, .cont) s ∧ Is B e T v

theorem Flat.not_ref {T : Ty} (h : Flat T) {w : Val} (hw : HasTy T w) : ∀ i, w ≠ .ref i := by
  rintro i rfl
  cases h <;> simp [HasTy] at hw

theorem Flat.not_ret {T : Ty} (h : Flat T) {w : Val} (hw : HasTy T w) : w ≠ .ret := by
  rintro rfl
  cases h <;> simp [HasTy] at hw

theorem denotes_self {st : Stack} {w : Val} (h : ∀ i, w ≠ .ref i) : Denotes st w w := .inr ⟨h, rfl⟩

theorem denotes_append {st : Stack} (st' : Stack) {v w : Val} (h : Denotes st v w) : Denotes (st ++ st') v w := by
  rcases h with ⟨i, h1, h2⟩ | h
  · refine .inl ⟨i, h1, ?_⟩
    rw [List.getElem?_append_left (List.getElem?_eq_some_iff.1 h2).1]; exact h2
  · exact .inr h

theorem denotes_deref {s : St} {B rest : Stack} (hB : s.stack = B ++ rest) {v w : Val} (h : Denotes B v w) : derefE v s = .ok w s := by
  have h := denotes_append rest h
  rw [← hB] at h
  rcases h with ⟨i, rfl, h2⟩ | ⟨h1, rfl⟩
  · simp [derefE, slotE, h2]
  · unfold derefE
    split
    · rename_i i; exact absurd rfl (h1 i)
    · rfl

theorem args_append {B : Stack} (st : Stack) {ts : List Ty} {vs : List Val} (h : Args B ts vs) : Args (B ++ st) ts vs := by
  induction h with
  | nil => exact .nil
  | cons h1 _ ih =>
    obtain ⟨w, h1, h2⟩ := h1
    exact .cons ⟨w, denotes_append st h1, h2⟩ ih

/-- More on the stack does not matter. -/
theorem Framed.push {Γ m i B s} (h : Framed Γ m i B s) (vs : List Val) :
    Framed Γ m i B { s with stack := s.stack ++ vs } := by
  obtain ⟨h1, h2, ⟨rest, h3⟩, h4⟩ := h
  exact ⟨h1, h2, ⟨rest ++ vs, by simp [h3]⟩, h4⟩

theorem item_fits {Γ m i B s} (hb : c.byName = true) {ev : Evl} (h : Framed Γ m i B s) {x sid T} (hx : (x, T) ∈ Γ) :
    ∃ v w, itemE c ev (.mk x sid false false [] []) .right s = .ok (some v, .cont) s ∧ Denotes B v w ∧ HasTy T w := by
  obtain ⟨-, -, ⟨rest, hB⟩, call, h3, -, -, h5⟩ := h
  obtain ⟨id, v, w, a, b, d, e⟩ := h5 x T hx
  have b' : s.stack[id]? = some v := by
    rw [hB, List.getElem?_append_left (List.getElem?_eq_some_iff.1 b).1]; exact b
  have hl : lastCall s = .ok call s := by simp [lastCall, h3]
  have hs : slotOf c (.mk x sid false false [] []) call s = .ok id s := by
    unfold slotOf
    show EM.bind EM.get _ s = _
    simp only [EM.bind, EM.get, hb, if_true, Item.name, a]
    rfl
  have key : ∃ r, refSlot id s = .ok r s ∧ B[r]? = some w := by
    have : slotE id s = .ok v s := by simp [slotE, b']
    rcases d with ⟨j, rfl, h2⟩ | ⟨h1, rfl⟩
    · refine ⟨j, ?_, h2⟩
      show EM.bind (slotE id) _ s = _
      simp only [EM.bind, this]; rfl
    · refine ⟨id, ?_, b⟩
      show EM.bind (slotE id) _ s = _
      simp only [EM.bind, this]
      cases v <;> first | rfl | exact absurd rfl (h1 _)
  obtain ⟨r, hr, hw⟩ := key
  refine ⟨.ref r, w, ?_, .inl ⟨r, rfl, hw⟩, e⟩
  show EM.bind lastCall _ s = _
  simp only [EM.bind, hl]
  show EM.bind (slotOf _ _ _) _ s = _
  simp only [EM.bind, hs]
  show EM.bind (refSlot _) _ s = _
  simp only [EM.bind, hr]
  rfl

theorem want_fits {B s} {ev : Evl} {e : Expr} {T : Ty} (h : Fits B ev s e T) (msg : String) (k : Val → EM R) :
    want ev e .right msg k s = .timeout ∨ ∃ v, want ev e .right msg k s = k v s ∧ Is B e T v := by
  rcases h with h | ⟨v, h, h1⟩
  · left
    show EM.bind (ev e .right) _ s = _
    simp only [EM.bind, h]
  · refine .inr ⟨v, ?_, h1⟩
    show EM.bind (ev e .right) _ s = _
    simp only [EM.bind, h]

/-- A block of one expression. -/
theorem block_one {ev : Evl} {e : Expr} {s : St} {x : Option Val} {f : Flow} (h : ev e .right s = .ok (x, f) s) :
    block ev [e] s = .ok (x, f) s := by
  unfold block scope3
  show EM.bind EM.get _ s = _
  simp only [EM.bind, EM.get]
  show EM.bind (seqs ev [e] none) _ s = _
  have : seqs ev [e] none s = .ok (true, (x, f)) s := by
    show EM.bind (ev e .right) _ s = _
    simp only [EM.bind, h]
    cases f <;> rfl
  simp only [EM.bind, this]
  rw [if_pos trivial]
  show EM.bind (truncStack _) _ s = _
  simp only [EM.bind, truncStack, truncLocals, truncCurrents, EM.modify]
  show EM.bind (truncLocals _) _ _ = _
  simp only [EM.bind, truncLocals, EM.modify]
  show EM.bind (truncCurrents _) _ _ = _
  simp only [EM.bind, truncCurrents, EM.modify]
  show Ev.ok _ _ = _
  simp

theorem block_timeout {ev : Evl} {e : Expr} {s : St} (h : ev e .right s = .timeout) : block ev [e] s = .timeout := by
  unfold block scope3
  show EM.bind EM.get _ s = _
  simp only [EM.bind, EM.get]
  show EM.bind (seqs ev [e] none) _ s = _
  have : seqs ev [e] none s = .timeout := by
    show EM.bind (ev e .right) _ s = _
    simp only [EM.bind, h]
  simp only [EM.bind, this]

/-- Statements in a block. -/
theorem block_seqs {ev : Evl} {es : List Expr} {s s' : St} {r : R} (h : seqs ev es none s = .ok (true, r) s')
    (hs : ∃ a b, s' = { s with stack := s.stack ++ a, locals := s.locals ++ b }) : block ev es s = .ok r s := by
  obtain ⟨a, b, rfl⟩ := hs
  unfold block scope3
  show EM.bind EM.get _ s = _
  simp only [EM.bind, EM.get]
  show EM.bind (seqs ev es none) _ s = _
  simp only [EM.bind, h]
  rw [if_pos trivial]
  show EM.bind (truncStack _) _ _ = _
  simp only [EM.bind, truncStack, EM.modify]
  show EM.bind (truncLocals _) _ _ = _
  simp only [EM.bind, truncLocals, EM.modify]
  show EM.bind (truncCurrents _) _ _ = _
  simp only [EM.bind, truncCurrents, EM.modify]
  show Ev.ok _ _ = _
  simp

theorem block_seqs_timeout {ev : Evl} {es : List Expr} {s : St} (h : seqs ev es none s = .timeout) : block ev es s = .timeout := by
  unfold block scope3
  show EM.bind EM.get _ s = _
  simp only [EM.bind, EM.get]
  show EM.bind (seqs ev es none) _ s = _
  simp only [EM.bind, h]

theorem findLast_snoc (x y : String) (id : Nat) : ∀ l : List (String × Nat),
    findLast x (l ++ [(y, id)]) = if y = x then some id else findLast x l
  | [] => by
    simp only [List.nil_append, findLast]
  | (a, b) :: l => by
    simp only [List.cons_append, findLast, findLast_snoc x y id l]
    by_cases h : y = x
    · simp [h]
    · simp [h]

/-- A new variable. -/
theorem Framed.declare {Γ m i s} {B : Stack} (h : Framed Γ m i B s) (hB : s.stack = B) (x : String) {T : Ty} {v : Val}
    (hr : ∀ i, v ≠ .ref i) (hv : HasTy T v) :
    Framed (extend Γ x T) m i (B ++ [v]) { s with stack := B ++ [v], locals := s.locals ++ [(x, B.length)] } := by
  obtain ⟨h1, h2, -, call, h4, h5, h6, h7⟩ := h
  refine ⟨h1, h2, ⟨[], by simp⟩, call, h4, h5, by simp; omega, fun y U hy => ?_⟩
  simp only [List.drop_append_of_le_length h6, findLast_snoc]
  rcases List.mem_cons.1 hy with hy | hy
  · cases hy
    exact ⟨B.length, v, v, by simp, by simp, denotes_self hr, hv⟩
  · obtain ⟨hy, hne⟩ := List.mem_filter.1 hy
    obtain ⟨id, a, w, g1, g2, g3, g4⟩ := h7 y U hy
    refine ⟨id, a, w, ?_, ?_, denotes_append _ g3, g4⟩
    · rw [if_neg (fun e => by simp [e] at hne)]; exact g1
    · rw [List.getElem?_append_left (List.getElem?_eq_some_iff.1 g2).1]; exact g2

/-- Arguments without conditions: their values are on the stack, or there is no result yet. -/
theorem args_fit {B : Stack} {ev : Evl} (allow : Bool) (msg : String) (k : EM R) :
    ∀ {args : List Expr} {ts : List Ty} {s : St} (inv : List (List Lazy)), (∀ l ∈ inv, l = []) →
    (∀ vs, List.Forall₂ (fun e t => Fits B ev { s with stack := s.stack ++ vs } e t) args ts) →
    lazyArgs ev allow msg inv args k s = .timeout ∨ ∃ vs, lazyArgs ev allow msg inv args k s = k { s with stack := s.stack ++ vs } ∧
      Args B ts vs
  | [], ts, s, inv, _, h => by
    have := h []
    cases this
    refine .inr ⟨[], ?_, .nil⟩
    simp [lazyArgs]
  | e :: es, ts, s, inv, hi, h => by
    have h0 := h []
    cases h0 with
    | @cons _ t _ ts h1 h2 =>
    have e0 : ({ s with stack := s.stack ++ [] } : St) = s := by simp
    rw [e0] at h1
    have hl : inv.headD [] = [] := by
      cases inv with
      | nil => rfl
      | cons l ls => exact hi l (by simp)
    rcases h1 with h1 | ⟨v, h1, w, d, ty, -⟩
    · left
      show EM.bind (ev e .right) _ s = _
      simp only [EM.bind, h1]
    · have ih := args_fit (B := B) (ev := ev) allow msg k (args := es) (ts := ts)
        (s := { s with stack := s.stack ++ [v] }) inv.tail (fun l hl => hi l (List.mem_of_mem_tail hl)) (fun vs => by
          have h3 := h (v :: vs)
          cases h3 with
          | cons _ h3 => simpa using h3)
      have e1 : lazyArgs ev allow msg inv (e :: es) k s =
          lazyArgs ev allow msg inv.tail es k { s with stack := s.stack ++ [v] } := by
        show EM.bind (ev e .right) _ s = _
        simp only [EM.bind, h1, hl]
        rfl
      rw [e1]
      rcases ih with ih | ⟨vs, ih, ha⟩
      · exact .inl ih
      · exact .inr ⟨v :: vs, by rw [ih]; simp, .cons ⟨w, d, ty⟩ ha⟩

/-- The parameters of a call. -/
theorem findLast_params {x : String} {T : Ty} : ∀ {ps : List (String × Ty)} {vs : List Val} {B : Stack} {k : Nat},
    Args B (ps.map (·.2)) vs → (ps.map (·.1)).Nodup → (x, T) ∈ ps →
    ∃ j v w, findLast x ((ps.map (·.1)).mapIdx fun n a => (a, k + n)) = some (k + j) ∧ vs[j]? = some v ∧ Denotes B v w ∧ HasTy T w
  | [], vs, B, k, _, _, h => by cases h
  | (y, U) :: ps, vs, B, k, ha, hd, h => by
    simp only [List.map_cons, List.nodup_cons] at hd
    obtain ⟨v, vs, w, rfl, d, ty, ha⟩ := args_cons ha
    have e : (((y, U) :: ps).map (·.1)).mapIdx (fun n a => (a, k + n)) =
        (y, k) :: ((ps.map (·.1)).mapIdx fun n a => (a, (k + 1) + n)) := by
      simp only [List.map_cons, List.mapIdx_cons, Nat.add_zero]
      congr 1
      exact List.mapIdx_eq_mapIdx_iff.2 (fun i hi => by simp; omega)
    rcases List.mem_cons.1 h with h | h
    · cases h
      have hn : findLast x ((ps.map (·.1)).mapIdx fun n a => (a, (k + 1) + n)) = none := by
        have key : ∀ (l : List (String × Nat)), (∀ p ∈ l, p.1 ≠ x) → findLast x l = none := by
          intro l
          induction l with
          | nil => intro _; rfl
          | cons p l ih =>
            intro h
            obtain ⟨a, b⟩ := p
            rw [findLast, ih (fun p hp => h p (by simp [hp]))]
            simp [h (a, b) (by simp)]
        refine key _ ?_
        intro p hp
        obtain ⟨i, hi, rfl⟩ := List.mem_mapIdx.1 hp
        intro e
        simp only at e
        refine hd.1 ?_
        rw [← e]
        exact List.getElem_mem hi
      refine ⟨0, v, w, ?_, rfl, d, ty⟩
      rw [e, findLast, hn]
      simp
    · obtain ⟨j, v', w', h1, h2, h3, h4⟩ := findLast_params (k := k + 1) ha hd.2 h
      refine ⟨j + 1, v', w', ?_, by simpa using h2, h3, h4⟩
      rw [e, findLast, h1]
      simp
      omega

theorem pushArgLocals_run (st : Nat) : ∀ (names : List String) (n : Nat) (s : St),
    pushArgLocals st n names s = .ok () { s with locals := s.locals ++ names.mapIdx fun i a => (a, st + (n + i)) }
  | [], n, s => by
    simp only [pushArgLocals, List.mapIdx_nil, List.append_nil]; rfl
  | a :: as, n, s => by
    unfold pushArgLocals
    show EM.bind (pushLocal a (st + n)) _ s = _
    simp only [EM.bind, pushLocal, EM.modify]
    rw [pushArgLocals_run st as (n + 1)]
    simp only [List.mapIdx_cons, Nat.add_zero]
    simp [Nat.add_assoc, Nat.add_comm, Nat.add_left_comm]

/-- The empty slot for the result. -/
def retSlot (fn : Func) : List Val := if fn.returns then [.ret] else []

/-- The state in which the body of a function starts. -/
def inBody (fn : Func) (name : String) (j : Nat) (vs : List Val) (s : St) : St :=
  { s with
    stack := (s.stack ++ retSlot fn) ++ vs
    calls := s.calls ++ [⟨name, j, some fn.file, (s.stack ++ retSlot fn).length, s.locals.length, s.currents.length⟩]
    locals := (s.locals ++ if fn.returns then [("return", (s.stack ++ retSlot fn).length - 1)] else []) ++
      fn.args.mapIdx fun i a => (a, (s.stack ++ retSlot fn).length + (0 + i)) }

theorem inBody_framed {m : Nat} {σ : Sign} {fn : Func} {name : String} {j : Nat} {vs : List Val} {s : St} (hm : s.module = m)
    (hq : ∀ a b, (s.senders a b).1 = false) (hfn : TypedFn c S j σ fn) {B : Stack} {rest : Stack} (hB : s.stack = B ++ rest)
    (ha : Args B (σ.params.map (·.2)) vs) :
    Framed σ.params m j ((s.stack ++ retSlot fn) ++ vs) (inBody fn name j vs s) := by
  refine ⟨hm, hq, ⟨[], by simp [inBody]⟩,
    ⟨name, j, some fn.file, (s.stack ++ retSlot fn).length, s.locals.length, s.currents.length⟩, by simp [inBody], rfl, by simp [inBody], ?_⟩
  intro x T hx
  obtain ⟨k, v, w, h1, h2, h3, h4⟩ := findLast_params (k := (s.stack ++ retSlot fn).length) ha (hfn.names ▸ hfn.distinct) hx
  refine ⟨(s.stack ++ retSlot fn).length + k, v, w, ?_, ?_, ?_, h4⟩
  · simp only [inBody, List.append_assoc, List.drop_left, hfn.names]
    simp only [Nat.zero_add] at h1 ⊢
    split
    · simp only [List.cons_append, List.nil_append, findLast]
      rw [h1]
    · exact h1
  · rw [List.getElem?_append_right (by omega)]
    simpa using h2
  · rw [hB, List.append_assoc, List.append_assoc]
    exact denotes_append _ h3

/-- What the body of a function gives. -/
inductive Done : Option Ty → R → Prop
  | value {T v f} : HasTy T v → f = .ret ∨ f = .cont → Done (some T) (some v, f)
  | nothing {f} : f = .ret ∨ f = .cont → Done none (none, f)

/-- What a call gives. -/
inductive Gave : Option Ty → Option Val → Prop
  | value {T v} : HasTy T v → Gave (some T) (some v)
  | nothing : Gave none none

/-- What the body gives when it is left. -/
theorem enter_run {σ : Sign} {fn : Func} {name rname : String} {j : Nat} {vs : List Val} {s : St}
    (hq : ∀ a b, (s.senders a b).1 = false) (hfn : TypedFn c S j σ fn) (n : Nat) (body : EM R)
    (hbody : body (inBody fn name j vs s) = .timeout ∨
      ∃ r, body (inBody fn name j vs s) = .ok r (inBody fn name j vs s) ∧ Done σ.ret r) :
    enter name rname j fn.file fn.returns fn.args fn.currents (s.stack ++ retSlot fn).length s.locals.length s.currents.length
      (notify c n j (s.stack ++ retSlot fn).length) body { s with stack := (s.stack ++ retSlot fn) ++ vs } = .timeout ∨
    ∃ x, enter name rname j fn.file fn.returns fn.args fn.currents (s.stack ++ retSlot fn).length s.locals.length s.currents.length
      (notify c n j (s.stack ++ retSlot fn).length) body { s with stack := (s.stack ++ retSlot fn) ++ vs } = .ok (x, .cont) s ∧
      Gave σ.ret x := by
  set s1 : St := { s with stack := (s.stack ++ retSlot fn) ++ vs } with hs1
  have e1 : pushCurrents fn.currents s1 = .ok () s1 := by rw [hfn.currents]; rfl
  have e2 : notify c n j (s.stack ++ retSlot fn).length s1 = .ok () s1 := by
    unfold notify
    show EM.bind EM.get _ s1 = _
    simp only [EM.bind, EM.get]
    rw [if_neg (by simp [hs1, hq])]
    rfl
  have e3 : enter name rname j fn.file fn.returns fn.args fn.currents (s.stack ++ retSlot fn).length s.locals.length s.currents.length
      (notify c n j (s.stack ++ retSlot fn).length) body s1 = EM.bind body (fun r => bodyFlow r.2 do
        popFn name
        callResult fn.returns rname r.1) (inBody fn name j vs s) := by
    unfold enter
    show EM.bind (pushCurrents _) _ s1 = _
    simp only [EM.bind, e1]
    show EM.bind (notify _ _ _ _) _ s1 = _
    simp only [EM.bind, e2]
    show EM.bind (pushFn _ _ _ _ _ _) _ s1 = _
    simp only [EM.bind, pushFn, EM.modify]
    cases hr : fn.returns with
    | true =>
      simp only [if_true]
      show EM.bind (pushLocal _ _) _ _ = _
      simp only [EM.bind, pushLocal, EM.modify]
      show EM.bind (pushArgLocals _ _ _) _ _ = _
      simp only [EM.bind, pushArgLocals_run]
      simp only [inBody, hr, if_true]
      rfl
    | false =>
      simp only [Bool.false_eq_true, if_false]
      show EM.bind (pushArgLocals _ _ _) _ _ = _
      simp only [EM.bind, pushArgLocals_run]
      simp only [inBody, hr, Bool.false_eq_true, if_false, List.append_nil]
      rfl
  rw [e3]
  rcases hbody with h | ⟨r, h, hd⟩
  · left
    simp only [EM.bind, h]
  · right
    have hp : popFn name (inBody fn name j vs s) = .ok () { s with stack := s.stack ++ retSlot fn } := by
      simp only [popFn, inBody, List.getLast?_append, List.getLast?_singleton, Option.some_or, if_true, List.dropLast_concat,
        List.append_assoc, List.take_left]
      congr 2
      · rw [← List.append_assoc, List.take_left' rfl]
      · simp
    have e4 : EM.bind body (fun r => bodyFlow r.2 do
        popFn name
        callResult fn.returns rname r.1) (inBody fn name j vs s) = callResult fn.returns rname r.1 { s with stack := s.stack ++ retSlot fn } := by
      have hf : r.2 = .ret ∨ r.2 = .cont := by
        generalize σ.ret = U at hd
        cases hd <;> assumption
      obtain ⟨x, f⟩ := r
      simp only [EM.bind, h]
      rcases hf with rfl | rfl <;>
      · simp only [bodyFlow]
        show EM.bind (popFn name) _ _ = _
        simp only [EM.bind, hp]
    rw [e4]
    have hret := hfn.returns
    have hflat := hfn.flat
    generalize σ.ret = U at hd hret hflat
    cases hd with
    | @value T v f ty hf =>
      refine ⟨some v, ?_, .value ty⟩
      have := Flat.not_ret (hflat T rfl) ty
      simp only [Option.isSome_some] at hret
      rw [hret]
      cases v <;> first | exact absurd rfl this | simp [callResult, retSlot, hret]
    | nothing hf =>
      refine ⟨none, ?_, .nothing⟩
      simp only [Option.isSome_none] at hret
      rw [hret]
      simp only [callResult, retSlot, hret]
      simp
      rfl

variable {m : Nat}

/-- A call of a function of the program. -/
theorem own_fits (n : Nat) (hS : TypedModule c m S)
    (ih' : ∀ Γ i s es T, Framed Γ m i s.stack s → Body (Gives c S i) (Does c S i) Γ es T →
      block (eval c n) es s = .timeout ∨ ∃ r, block (eval c n) es s = .ok r s ∧ Done T r)
    {i B s f name args j σ} (loader : Bool) (hm : s.module = m) (hq : ∀ a b, (s.senders a b).1 = false) (hB : ∃ rest, s.stack = B ++ rest)
    (hrel : (if loader then 0 else (s.calls.getLast?.map CallRec.index).getD 0) = i) (hf : callIndex f i = some j) (hσ : S j = some σ)
    (ha : ∀ vs, List.Forall₂ (fun e t => Fits B (eval c n) { s with stack := s.stack ++ vs } e t) args (σ.params.map (·.2))) :
    callLoaded c n (eval c n) loader f name args s = .timeout ∨
      ∃ x, callLoaded c n (eval c n) loader f name args s = .ok (x, .cont) s ∧ Gave σ.ret x ∧ ∀ T ∈ σ.ret, Flat T := by
  obtain ⟨fn, hfn, T⟩ := hS j σ hσ
  have e1 : callLoaded c n (eval c n) loader f name args s =
      lazyArgs (eval c n) true noValue' fn.lazyInv args (enter name fn.name j fn.file fn.returns fn.args fn.currents
        (s.stack ++ retSlot fn).length s.locals.length s.currents.length (notify c n j (s.stack ++ retSlot fn).length)
        (block (eval c n) fn.body)) { s with stack := s.stack ++ retSlot fn } := by
    unfold callLoaded
    cases loader
    · simp only [Bool.false_eq_true, if_false] at hrel ⊢
      show EM.bind relIndex _ s = _
      simp only [EM.bind, relIndex, hrel]
      show EM.bind EM.get _ s = _
      simp only [EM.bind, EM.get, hf, hm, hfn]
      subst hm
      cases hr : fn.returns with
      | true =>
        simp only [retSlot, hr, if_true]
        rfl
      | false =>
        simp only [retSlot, hr, Bool.false_eq_true, if_false, List.append_nil]
        rfl
    · simp only [if_true] at hrel ⊢
      subst hrel
      show EM.bind (pure 0) _ s = _
      have hp : (pure 0 : EM Nat) s = .ok 0 s := rfl
      simp only [EM.bind, hp]
      show EM.bind EM.get _ s = _
      simp only [EM.bind, EM.get, hf, hm, hfn]
      subst hm
      cases hr : fn.returns with
      | true =>
        simp only [retSlot, hr, if_true]
        rfl
      | false =>
        simp only [retSlot, hr, Bool.false_eq_true, if_false, List.append_nil]
        rfl
  rw [e1]
  have h1 := args_fit (B := B) (ev := eval c n) true noValue' (enter name fn.name j fn.file fn.returns fn.args fn.currents
        (s.stack ++ retSlot fn).length s.locals.length s.currents.length (notify c n j (s.stack ++ retSlot fn).length)
        (block (eval c n) fn.body)) (args := args) (ts := σ.params.map (·.2)) (s := { s with stack := s.stack ++ retSlot fn })
        fn.lazyInv (by simp [T.lazy]) (fun vs => by simpa using ha (retSlot fn ++ vs))
  rcases h1 with h1 | ⟨vs, h1, hvs⟩
  · exact .inl h1
  · rw [h1]
    obtain ⟨rest, hB⟩ := hB
    have fr := inBody_framed (name := name) hm hq T hB hvs
    have h2 := enter_run (rname := fn.name) (name := name) (vs := vs) hq T n (block (eval c n) fn.body)
      (ih' _ _ _ _ _ fr T.body)
    rcases h2 with h2 | ⟨v, h2, ty⟩
    · exact .inl h2
    · exact .inr ⟨v, h2, ty, T.flat⟩

theorem typings_fit {R : FnIndex → String → List Ty → Ty → Prop} {Γ} {P : Expr → Ty → Prop} (h : ∀ e T, Typing R Γ e T → P e T) :
    ∀ {es ts}, Typings R Γ es ts → List.Forall₂ P es ts
  | [], _, .nil => .nil
  | _ :: _, _, .cons h1 h2 => .cons (h _ _ h1) (typings_fit h h2)

/-- A call of a function of the host. -/
theorem host_fits (n : Nat) (ev : Evl) {B s f name args ts T} (loader : Bool) (hB : ∃ rest, s.stack = B ++ rest)
    (hg : HostGives c f ts T)
    (ha : ∀ vs, List.Forall₂ (fun e t => Fits B ev { s with stack := s.stack ++ vs } e t) args ts) :
    callE c n ev loader f name args s = .timeout ∨
      ∃ v, callE c n ev loader f name args s = .ok (some v, .cont) s ∧ HasTy T v := by
  obtain ⟨rest, hB⟩ := hB
  have e0 : ({ s with stack := s.stack ++ [] } : St) = s := by simp
  cases hg with
  | @binop f s1 t1 T h =>
    have h0 := ha []
    rw [e0] at h0
    cases h0 with | @cons l _ _ _ hfst h0 => cases h0 with | @cons r _ _ _ hb h0 =>
    cases h0
    show callBinop c ev f [l, r] s = _ ∨ ∃ v, callBinop c ev f [l, r] s = _ ∧ _
    simp only [callBinop]
    rcases want_fits hfst noValue (fun x => want ev r .right noValue fun y => do
      let x ← derefE x
      let y ← derefE y
      let v ← liftOp (c.binopFn f x y)
      pure (some v, .cont)) with h1 | ⟨x, h1, w, dx, tx, -⟩
    · exact .inl h1
    rw [h1]
    rcases want_fits hb noValue (fun y => do
      let x ← derefE x
      let y ← derefE y
      let v ← liftOp (c.binopFn f x y)
      pure (some v, .cont)) with h1 | ⟨y, h1, z, dy, ty, -⟩
    · exact .inl h1
    rw [h1]
    obtain ⟨v, hv, tv⟩ := h w z tx ty
    refine .inr ⟨v, ?_, tv⟩
    show EM.bind (derefE x) _ s = _
    simp only [EM.bind, denotes_deref hB dx]
    show EM.bind (derefE y) _ s = _
    simp only [EM.bind, denotes_deref hB dy, hv]
    rfl
  | @unop f s1 T h =>
    have h0 := ha []
    rw [e0] at h0
    cases h0 with | @cons l _ _ _ hfst h0 =>
    cases h0
    show callUnop c ev f [l] s = _ ∨ ∃ v, callUnop c ev f [l] s = _ ∧ _
    simp only [callUnop]
    rcases want_fits hfst noValue (fun x => do
      let x ← derefE x
      let v ← liftOp (c.unopFn f x)
      pure (some v, .cont)) with h1 | ⟨x, h1, w, dx, tx, -⟩
    · exact .inl h1
    rw [h1]
    obtain ⟨v, hv, tv⟩ := h w tx
    refine .inr ⟨v, ?_, tv⟩
    show EM.bind (derefE x) _ s = _
    simp only [EM.bind, denotes_deref hB dx, hv]
    rfl
  | @ret f ts T h =>
    show callReturn c ev f args s = _ ∨ ∃ v, callReturn c ev f args s = _ ∧ _
    unfold callReturn
    rcases args_fit (B := B) (ev := ev) false noValue (do let v ← c.retFn f; pure (some v, .cont)) (args := args) (ts := ts) (s := s)
      [] (by simp) ha with h1 | ⟨vs, h1, hvs⟩
    · exact .inl h1
    · rw [h1]
      obtain ⟨v, hv, tv⟩ := h { s with stack := s.stack ++ vs } s.stack vs rfl (by rw [hB]; exact args_append _ hvs)
      refine .inr ⟨v, ?_, tv⟩
      show EM.bind (c.retFn f) _ _ = _
      simp only [EM.bind, hv]
      rfl

/-- A call of a function of the host that gives nothing. -/
theorem host_does (n : Nat) (ev : Evl) {B s f name args ts} (loader : Bool) (hB : ∃ rest, s.stack = B ++ rest)
    (hg : HostDoes c f ts)
    (ha : ∀ vs, List.Forall₂ (fun e t => Fits B ev { s with stack := s.stack ++ vs } e t) args ts) :
    callE c n ev loader f name args s = .timeout ∨ callE c n ev loader f name args s = .ok (none, .cont) s := by
  obtain ⟨rest, hB⟩ := hB
  cases hg with
  | @void f ts h =>
    show callVoid c ev f args s = _ ∨ callVoid c ev f args s = _
    unfold callVoid
    rcases args_fit (B := B) (ev := ev) false noValue (do c.voidFn f; noneR) (args := args) (ts := ts) (s := s)
      [] (by simp) ha with h1 | ⟨vs, h1, hvs⟩
    · exact .inl h1
    · rw [h1]
      have hv := h { s with stack := s.stack ++ vs } s.stack vs rfl (by rw [hB]; exact args_append _ hvs)
      right
      show EM.bind (c.voidFn f) _ _ = _
      simp only [EM.bind, hv]
      rfl

end

end Dyon.Sound
