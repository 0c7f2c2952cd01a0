import Verif.Sound.Good

/-!
# Slots do not matter for types

Lemmas for C81: `get_locals` changes the slots of variables only.
-/

namespace Dyon.Sound

open Ty (HasTy)

section
variable [FloatOps] [VecMath] {c : ECfg} {S : Nat → Option Sign}

mutual
theorem typing_slots {R : FnIndex → String → List Ty → Ty → Prop} (k : Ctx) :
    ∀ {Γ e T}, Typing R Γ e T → ∀ (st : Env) (cs : List Nat), Typing R Γ (getLocals k e st cs).1 T
  | _, _, _, .const h1 h2, st, cs => by simpa [getLocals] using Typing.const h1 h2
  | _, _, _, .var h, st, cs => by simpa [getLocals, getItem, getIds] using Typing.var h
  | _, _, _, .call (f := f) hr ha, st, cs => by
    rw [getLocals.eq_def]
    cases f with
    | binop g => exact .call hr (typings_all k ha st cs)
    | void g => exact .call hr (typings_args k ha _ cs)
    | ret g => exact .call hr (typings_args k ha _ cs)
    | unop g => exact .call hr (typings_args k ha _ cs)
    | loaded g => exact .call hr (typings_args k ha _ cs)
    | lazy g i => exact .call hr (typings_args k ha _ cs)
    | none => exact .call hr (typings_args k ha _ cs)
  | _, _, _, .ite h1 h2 h3, st, cs => by
    simp only [getLocals, getSeq, getElifs, getOptSeq]
    exact .ite (typing_slots k h1 _ _) (typing_slots k h2 _ _) (typing_slots k h3 _ _)
  | _, _, _, .fold (start := start) h0 h1 h2 h3, st, cs => by
    simp only [getLocals, getSeq]
    refine .fold h0 ?_ (typing_slots k h2 _ _) (typing_slots k h3 _ _)
    cases start with
    | none => simp [getOpt]
    | some a =>
      simp only [getOpt, Option.mem_def, Option.some.injEq]
      rintro a' rfl
      exact typing_slots k (h1 a rfl) _ _
  | _, _, _, .vec4 h, st, cs => by
    simp only [getLocals]
    exact .vec4 (typings_args k h _ _)
  | _, _, _, .mat4 h, st, cs => by
    simp only [getLocals]
    exact .mat4 (typings_rows k h _ _)
  | _, _, _, .link h h', st, cs => by
    simp only [getLocals]
    exact .link (typings_seq k h _ _) h'
theorem typings_all {R : FnIndex → String → List Ty → Ty → Prop} (k : Ctx) :
    ∀ {Γ es Ts}, Typings R Γ es Ts → ∀ (st : Env) (cs : List Nat), Typings R Γ (getAll k es st cs) Ts
  | _, _, _, .nil, _, _ => .nil
  | _, _, _, .cons h1 h2, st, cs => by
    simp only [getAll]
    exact .cons (typing_slots k h1 _ _) (typings_all k h2 _ _)
theorem typings_args {R : FnIndex → String → List Ty → Ty → Prop} (k : Ctx) :
    ∀ {Γ es Ts}, Typings R Γ es Ts → ∀ (st : Env) (cs : List Nat), Typings R Γ (getArgs k es st cs) Ts
  | _, _, _, .nil, _, _ => .nil
  | _, _, _, .cons h1 h2, st, cs => by
    simp only [getArgs]
    exact .cons (typing_slots k h1 _ _) (typings_args k h2 _ _)
theorem typings_rows {R : FnIndex → String → List Ty → Ty → Prop} (k : Ctx) :
    ∀ {Γ es Ts}, Typings R Γ es Ts → ∀ (st : Env) (cs : List Nat), Typings R Γ (getRows k es st cs) Ts
  | _, _, _, .nil, _, _ => .nil
  | _, _, _, .cons h1 h2, st, cs => by
    simp only [getRows]
    exact .cons (typing_slots k h1 _ _) (typings_rows k h2 _ _)
theorem typings_seq {R : FnIndex → String → List Ty → Ty → Prop} (k : Ctx) :
    ∀ {Γ es Ts}, Typings R Γ es Ts → ∀ (st : Env) (cs : List Nat), Typings R Γ (getSeq k es st cs).1 Ts
  | _, _, _, .nil, _, _ => .nil
  | _, _, _, .cons h1 h2, st, cs => by
    simp only [getSeq]
    exact .cons (typing_slots k h1 _ _) (typings_seq k h2 _ _)
end

theorem computed_slots (k : Ctx) : ∀ {e}, Computed e → ∀ (st : Env) (cs : List Nat), Computed (getLocals k e st cs).1
  | _, .const, st, cs => by simpa [getLocals] using Computed.const
  | _, .call (f := f), st, cs => by
    rw [getLocals.eq_def]
    cases f <;> exact .call
  | _, .ite h1 h2, st, cs => by
    simp only [getLocals, getSeq, getElifs, getOptSeq]
    exact .ite (computed_slots k h1 _ _) (computed_slots k h2 _ _)
  | _, .fold, st, cs => by
    simp only [getLocals, getSeq]
    exact .fold
  | _, .vec4, st, cs => by
    simp only [getLocals]
    exact .vec4
  | _, .mat4, st, cs => by
    simp only [getLocals]
    exact .mat4
  | _, .link, st, cs => by
    simp only [getLocals]
    exact .link

mutual
theorem typing_mono {R R' : FnIndex → String → List Ty → Ty → Prop} (h : ∀ f n ts T, R f n ts T → R' f n ts T) :
    ∀ {Γ e T}, Typing R Γ e T → Typing R' Γ e T
  | _, _, _, .const h1 h2 => .const h1 h2
  | _, _, _, .var h => .var h
  | _, _, _, .call hr ha => .call (h _ _ _ _ hr) (typings_mono h ha)
  | _, _, _, .ite h1 h2 h3 => .ite (typing_mono h h1) (typing_mono h h2) (typing_mono h h3)
  | _, _, _, .fold h0 h1 h2 h3 => .fold h0 (fun a ha => typing_mono h (h1 a ha)) (typing_mono h h2) (typing_mono h h3)
  | _, _, _, .vec4 h1 => .vec4 (typings_mono h h1)
  | _, _, _, .mat4 h1 => .mat4 (typings_mono h h1)
  | _, _, _, .link h1 h2 => .link (typings_mono h h1) h2
theorem typings_mono {R R' : FnIndex → String → List Ty → Ty → Prop} (h : ∀ f n ts T, R f n ts T → R' f n ts T) :
    ∀ {Γ es Ts}, Typings R Γ es Ts → Typings R' Γ es Ts
  | _, _, _, .nil => .nil
  | _, _, _, .cons h1 h2 => .cons (typing_mono h h1) (typings_mono h h2)
end

mutual
theorem stmt_mono {R R' : FnIndex → String → List Ty → Ty → Prop} {Q Q' : FnIndex → String → List Ty → Prop} {T : Option Ty}
    (h : ∀ f n ts T, R f n ts T → R' f n ts T) (hq : ∀ f n ts, Q f n ts → Q' f n ts) :
    ∀ {Γ M L e b}, Stmt R Q T Γ M L e b → Stmt R' Q' T Γ M L e b
  | _, _, _, _, _, .ret h0 h1 h2 => .ret h0 h1 (typing_mono h h2)
  | _, _, _, _, _, .retVoid h0 => .retVoid h0
  | _, _, _, _, _, .call h1 h2 => .call (hq _ _ _ h1) (typings_mono h h2)
  | _, _, _, _, _, .brk h1 => .brk h1
  | _, _, _, _, _, .next h1 => .next h1
  | _, _, _, _, _, .set h1 h2 h3 h4 h5 => .set h1 h2 (typing_mono h h3) h4 h5
  | _, _, _, _, _, .cond h1 h2 h3 => .cond (typing_mono h h1) (rows_mono h hq h2) (elifs_mono h hq h3)
  | _, _, _, _, _, .block h1 => .block (rows_mono h hq h1)
  | _, _, _, _, _, .count h1 h2 h3 => .count (fun e he => typing_mono h (h1 e he)) (typing_mono h h2) (rows_mono h hq h3)
  | _, _, _, _, _, .loop h1 h2 h3 h4 h5 => .loop (init_mono h hq h1) h2 (typing_mono h h3) (stmt_mono h hq h4) (rows_mono h hq h5)
theorem rows_mono {R R' : FnIndex → String → List Ty → Ty → Prop} {Q Q' : FnIndex → String → List Ty → Prop} {T : Option Ty}
    (h : ∀ f n ts T, R f n ts T → R' f n ts T) (hq : ∀ f n ts, Q f n ts → Q' f n ts) :
    ∀ {Γ M L es b}, Rows R Q T Γ M L es b → Rows R' Q' T Γ M L es b
  | _, _, _, _, _, .nil => .nil
  | _, _, _, _, _, .decl h1 h2 h3 => .decl h1 (typing_mono h h2) (rows_mono h hq h3)
  | _, _, _, _, _, .stmt h1 h2 => .stmt (stmt_mono h hq h1) (rows_mono h hq h2)
theorem elifs_mono {R R' : FnIndex → String → List Ty → Ty → Prop} {Q Q' : FnIndex → String → List Ty → Prop} {T : Option Ty}
    (h : ∀ f n ts T, R f n ts T → R' f n ts T) (hq : ∀ f n ts, Q f n ts → Q' f n ts) :
    ∀ {Γ M L es els b}, Elifs R Q T Γ M L es els b → Elifs R' Q' T Γ M L es els b
  | _, _, _, _, _, _, .none => .none
  | _, _, _, _, _, _, .els h1 => .els (rows_mono h hq h1)
  | _, _, _, _, _, _, .elif h1 h2 h3 => .elif (typing_mono h h1) (rows_mono h hq h2) (elifs_mono h hq h3)
theorem init_mono {R R' : FnIndex → String → List Ty → Ty → Prop} {Q Q' : FnIndex → String → List Ty → Prop} {T : Option Ty}
    (h : ∀ f n ts T, R f n ts T → R' f n ts T) (hq : ∀ f n ts, Q f n ts → Q' f n ts) :
    ∀ {Γ M e Γ' M'}, Init R Q T Γ M e Γ' M' → Init R' Q' T Γ M e Γ' M'
  | _, _, _, _, _, .stmt h1 => .stmt (stmt_mono h hq h1)
  | _, _, _, _, _, .decl h1 h2 => .decl h1 (typing_mono h h2)
end

theorem final_mono {R R' : FnIndex → String → List Ty → Ty → Prop} {Q Q' : FnIndex → String → List Ty → Prop} {U : Ty}
    (h : ∀ f n ts T, R f n ts T → R' f n ts T) (hq : ∀ f n ts, Q f n ts → Q' f n ts) :
    ∀ {Γ M es}, Final R Q U Γ M es → Final R' Q' U Γ M es
  | _, _, _, .here h1 h2 => .here h1 (typing_mono h h2)
  | _, _, _, .decl h1 h2 h3 => .decl h1 (typing_mono h h2) (final_mono h hq h3)
  | _, _, _, .stmt h1 h2 => .stmt (stmt_mono h hq h1) (final_mono h hq h2)

theorem body_mono {R R' : FnIndex → String → List Ty → Ty → Prop} {Q Q' : FnIndex → String → List Ty → Prop}
    (h : ∀ f n ts T, R f n ts T → R' f n ts T) (hq : ∀ f n ts, Q f n ts → Q' f n ts)
    {Γ : List (String × Ty)} {es T} (hb : Body R Q Γ es T) : Body R' Q' Γ es T := by
  cases hb with
  | returns hb => exact .returns (rows_mono h hq hb)
  | value hb => exact .value (final_mono h hq hb)
  | nothing hb => exact .nothing (rows_mono h hq hb)

theorem declName_set {op U V} (h : Assigns op U V) (l : Expr) : declName op l = none := by
  unfold declName
  split
  · exact absurd rfl h.not_assign
  · rfl

theorem start_slots {R : FnIndex → String → List Ty → Ty → Prop} {Γ : List (String × Ty)} (k : Ctx) {start : Option Expr}
    (h : ∀ e ∈ start, Typing R Γ e .f64) (st : Env) (cs : List Nat) : ∀ e ∈ getOpt k start st cs, Typing R Γ e .f64 := by
  cases start with
  | none => simp [getOpt]
  | some e =>
    simp only [getOpt, Option.mem_def, Option.some.injEq]
    rintro e' rfl
    exact typing_slots k (h e rfl) _ _

mutual
theorem stmt_slots {R : FnIndex → String → List Ty → Ty → Prop} {Q : FnIndex → String → List Ty → Prop} {T : Option Ty} (k : Ctx) :
    ∀ {Γ M L e b}, Stmt R Q T Γ M L e b → ∀ (st : Env) (cs : List Nat), Stmt R Q T Γ M L (getLocals k e st cs).1 b
  | _, _, _, _, _, .ret h0 h1 h2, st, cs => by
    simp only [getLocals]
    exact .ret h0 (computed_slots _ h1 _ _) (typing_slots _ h2 _ _)
  | _, _, _, _, _, .retVoid h0, st, cs => by
    simp only [getLocals]
    exact .retVoid h0
  | _, _, _, _, _, .call (f := f) hr ha, st, cs => by
    rw [getLocals.eq_def]
    cases f with
    | binop g => exact .call hr (typings_all k ha st cs)
    | void g => exact .call hr (typings_args k ha _ cs)
    | ret g => exact .call hr (typings_args k ha _ cs)
    | unop g => exact .call hr (typings_args k ha _ cs)
    | loaded g => exact .call hr (typings_args k ha _ cs)
    | lazy g i => exact .call hr (typings_args k ha _ cs)
    | none => exact .call hr (typings_args k ha _ cs)
  | _, _, _, _, _, .brk h, st, cs => by
    simp only [getLocals]
    exact .brk h
  | _, _, _, _, _, .next h, st, cs => by
    simp only [getLocals]
    exact .next h
  | _, _, _, _, _, .set h1 h2 h3 h4 h5, st, cs => by
    simp only [getLocals, declName_set h4, getItem, getIds]
    exact .set h1 h2 (typing_slots _ h3 _ _) h4 (fun a b => computed_slots _ (h5 a b) _ _)
  | _, _, _, _, _, .cond h1 h2 h3, st, cs => by
    simp only [getLocals]
    exact .cond (typing_slots _ h1 _ _) (rows_slots k h2 _ _) (elifs_slots k h3 _ _)
  | _, _, _, _, _, .block h, st, cs => by
    simp only [getLocals]
    exact .block (rows_slots k h _ _)
  | _, _, _, _, _, .count h1 h2 h3, st, cs => by
    simp only [getLocals]
    exact .count (start_slots k h1 _ _) (typing_slots _ h2 _ _) (rows_slots k h3 _ _)
  | _, _, _, _, _, .loop h1 h2 h3 h4 h5, st, cs => by
    simp only [getLocals]
    exact .loop (init_slots k h1 _ _) (computed_slots _ h2 _ _) (typing_slots _ h3 _ _) (stmt_slots k h4 _ _) (rows_slots k h5 _ _)
theorem rows_slots {R : FnIndex → String → List Ty → Ty → Prop} {Q : FnIndex → String → List Ty → Prop} {T : Option Ty} (k : Ctx) :
    ∀ {Γ M L es b}, Rows R Q T Γ M L es b → ∀ (st : Env) (cs : List Nat), Rows R Q T Γ M L (getSeq k es st cs).1 b
  | _, _, _, _, _, .nil, st, cs => by
    simp only [getSeq]
    exact .nil
  | _, _, _, _, _, .decl h1 h2 h3, st, cs => by
    simp only [getSeq, getLocals, declName, List.isEmpty_nil, and_self, if_true]
    exact .decl h1 (typing_slots _ h2 _ _) (rows_slots k h3 _ _)
  | _, _, _, _, _, .stmt h1 h2, st, cs => by
    simp only [getSeq]
    exact .stmt (stmt_slots k h1 _ _) (rows_slots k h2 _ _)
theorem elifs_slots {R : FnIndex → String → List Ty → Ty → Prop} {Q : FnIndex → String → List Ty → Prop} {T : Option Ty} (k : Ctx) :
    ∀ {Γ M L es els b}, Elifs R Q T Γ M L es els b → ∀ (st : Env) (cs : List Nat),
      Elifs R Q T Γ M L (getElifs k es st cs) (getOptSeq k els st cs) b
  | _, _, _, _, _, _, .none, st, cs => by
    simp only [getElifs, getOptSeq]
    exact .none
  | _, _, _, _, _, _, .els h, st, cs => by
    simp only [getElifs, getOptSeq]
    exact .els (rows_slots k h _ _)
  | _, _, _, _, _, _, .elif h1 h2 h3, st, cs => by
    simp only [getElifs]
    exact .elif (typing_slots _ h1 _ _) (rows_slots k h2 _ _) (elifs_slots k h3 _ _)
theorem init_slots {R : FnIndex → String → List Ty → Ty → Prop} {Q : FnIndex → String → List Ty → Prop} {T : Option Ty} (k : Ctx) :
    ∀ {Γ M e Γ' M'}, Init R Q T Γ M e Γ' M' → ∀ (st : Env) (cs : List Nat), Init R Q T Γ M (getLocals k e st cs).1 Γ' M'
  | _, _, _, _, _, .stmt h, st, cs => .stmt (stmt_slots k h st cs)
  | _, _, _, _, _, .decl h1 h2, st, cs => by
    simp only [getLocals, declName, List.isEmpty_nil, and_self, if_true]
    exact .decl h1 (typing_slots _ h2 _ _)
end

theorem final_slots {R : FnIndex → String → List Ty → Ty → Prop} {Q : FnIndex → String → List Ty → Prop} {U : Ty} (k : Ctx) :
    ∀ {Γ M es}, Final R Q U Γ M es → ∀ (st : Env) (cs : List Nat), Final R Q U Γ M (getSeq k es st cs).1
  | _, _, _, .here h1 h2, st, cs => by
    simp only [getSeq]
    exact .here (computed_slots _ h1 _ _) (typing_slots _ h2 _ _)
  | _, _, _, .decl h1 h2 h3, st, cs => by
    simp only [getSeq, getLocals, declName, List.isEmpty_nil, and_self, if_true]
    exact .decl h1 (typing_slots _ h2 _ _) (final_slots k h3 _ _)
  | _, _, _, .stmt h1 h2, st, cs => by
    simp only [getSeq]
    exact .stmt (stmt_slots k h1 _ _) (final_slots k h2 _ _)

theorem body_slots {R : FnIndex → String → List Ty → Ty → Prop} {Q : FnIndex → String → List Ty → Prop} (k : Ctx)
    {Γ : List (String × Ty)} {es T} (h : Body R Q Γ es T) (st : Env) (cs : List Nat) : Body R Q Γ (getSeq k es st cs).1 T := by
  cases h with
  | returns h => exact .returns (rows_slots k h st cs)
  | value h => exact .value (final_slots k h st cs)
  | nothing h => exact .nothing (rows_slots k h st cs)

omit [VecMath] [FloatOps] in
theorem hostGives_named (lost : Option String) {f ts T} (h : HostGives c f ts T) : HostGives (c.resolve.named lost) f ts T := by
  cases h with
  | binop h => exact .binop h
  | unop h => exact .unop h
  | ret h => exact .ret h

omit [VecMath] [FloatOps] in
theorem gives_named (lost : Option String) {i f name ts T} (h : Gives c S i f name ts T) :
    Gives (c.resolve.named lost) S i f name ts T := by
  cases h with
  | own h1 h2 h3 => exact .own h1 h2 h3
  | host h1 h2 h3 => exact .host h1 h2 (hostGives_named lost h3)

omit [VecMath] [FloatOps] in
theorem does_named (lost : Option String) {i f name ts} (h : Does c S i f name ts) : Does (c.resolve.named lost) S i f name ts := by
  cases h with
  | own h1 h2 h3 => exact .own h1 h2 h3
  | host h =>
    cases h with
    | void h => exact .host (.void h)

/-- The functions with their slots are typed. -/
theorem typed_named (lost : Option String) {m : Nat} (h : TypedModule c m S) : TypedModule (c.resolve.named lost) m S := by
  intro j σ hj
  obtain ⟨fn, h1, h2⟩ := h j σ hj
  refine ⟨_, (by show (c.resolve.modules m)[j]? = _; rw [resolve_getElem?, h1]; rfl), ?_⟩
  refine ⟨h2.names, h2.distinct, h2.returns, h2.currents, h2.lazy, h2.flat, h2.flats, ?_⟩
  exact body_slots _ (body_mono (fun _ _ _ _ => gives_named lost) (fun _ _ _ => does_named lost) h2.body) _ _

/-- Calls of the host, when variables are looked up by name. -/
theorem loaded_named {m n i : Nat} {name : String} {σ : Sign} {args : List Val} {s : St} (hb : c.byName = true) (hS : TypedModule c m S)
    (loader : Bool) (hl : loader = true ∨ s.calls = [])
    (hq : ∀ a b, (s.senders a b).1 = false) (hσ : S i = some σ) (ha : List.Forall₂ HasTy (σ.params.map (·.2)) args) :
    inModule m (callE c n (eval c n) loader (.loaded i) name (args.map Expr.const)) s = .timeout ∨
    ∃ x, inModule m (callE c n (eval c n) loader (.loaded i) name (args.map Expr.const)) s = .ok (x, .cont) s ∧ Gave σ.ret x := by
  obtain ⟨ih, ih'⟩ := typed_fits hb hS n
  obtain ⟨fn, hfn, T⟩ := hS i σ hσ
  have hargs : ∀ vs, List.Forall₂ (fun e t => Fits s.stack (eval c n) { { s with module := m } with stack := s.stack ++ vs } e t)
      (args.map Expr.const) (σ.params.map (·.2)) := by
    intro vs
    have hfl : ∀ t ∈ σ.params.map (·.2), Flat t := by
      intro t ht
      obtain ⟨p, hp, rfl⟩ := List.mem_map.1 ht
      exact T.flats p hp
    generalize σ.params.map (·.2) = ts at ha hfl
    induction ha with
    | nil => exact .nil
    | @cons t v ts vs' hv _ ihl =>
      refine .cons ?_ (ihl fun t ht => hfl t (by simp [ht]))
      cases n with
      | zero => exact .inl rfl
      | succ n => exact .inr ⟨v, rfl, v, denotes_self ((hfl t (by simp)).not_ref hv), hv, fun _ => rfl⟩
  have key := own_fits n hS ih' (B := s.stack) (s := { s with module := m }) (f := (i : Int)) (name := name)
    (args := args.map Expr.const) (j := i) (σ := σ) (i := 0) loader rfl hq ⟨[], by simp⟩ (by rcases hl with h | h <;> simp [h])
    (by simp [callIndex]) hσ hargs
  rcases key with h | ⟨x, h, ty, -⟩
  · left
    simp only [inModule, callE, h]
  · refine .inr ⟨x, ?_, ty⟩
    simp only [inModule, callE, h]

theorem outside_named {m n i : Nat} {name : String} {σ : Sign} {args : List Val} {s : St} (hb : c.byName = true) (hS : TypedModule c m S)
    (hq : ∀ a b, (s.senders a b).1 = false) (hσ : S i = some σ) (ha : List.Forall₂ HasTy (σ.params.map (·.2)) args) :
    callOutside c n (.loaded i) name (args.map Expr.const) m s = .timeout ∨
    ∃ x, callOutside c n (.loaded i) name (args.map Expr.const) m s = .ok (x, .cont) s ∧ Gave σ.ret x := by
  unfold callOutside
  rcases loaded_named (n := n) (name := name) hb hS true (.inl rfl) hq hσ ha with h | ⟨x, h, hx⟩
  · exact .inl (by rw [h])
  · exact .inr ⟨x, by rw [h]; simp, hx⟩

end

end Dyon.Sound
