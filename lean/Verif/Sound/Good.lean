import Verif.Sound.Collect

/-!
# Typed programs, at any fuel

Lemmas for C81: expressions, statements and bodies together, by induction on the fuel.
-/

namespace Dyon.Sound

open Ty (HasTy)

section
variable {Γ : List (String × Ty)} {M : List String} {m i : Nat} {F : Stack} {W : List Ty} {s s' s'' : St}
variable {T : Option Ty} {L : List (Option String)} {ev : Evl}
variable [FloatOps] [VecMath] {c : ECfg} {S : Nat → Option Sign}

/-! ## All fuels -/

/-- What is shown for some fuel. -/
structure Good (c : ECfg) (S : Nat → Option Sign) (m n : Nat) : Prop where
  exprs : ∀ Γ i B s e T, Framed Γ m i B s → Typing (Gives c S i) Γ e T → Fits B (eval c n) s e T
  decls : ∀ i, DeclaresOne m i (Gives c S i) (eval c n)
  stmts : ∀ Γ M i F W s T L e b, At Γ M m i F W s → Stmt (Gives c S i) (Does c S i) T Γ M L e b → Ends T L b F W s (eval c n e .right s)

theorem Good.blocks {n : Nat} (g : Good c S m n) {T : Option Ty} {L : List (Option String)} {es : List Expr} {b : Bool} (hat : At Γ M m i F W s)
    (h : Rows (Gives c S i) (Does c S i) T Γ M L es b) : Closes T L b F W s (block (eval c n) es s) :=
  block_closes hat (rows_seqs (g.decls i) (fun Γ M L F W s e b => g.stmts Γ M i F W s T L e b) es hat h)

/-- The statements of a body with a value at its end. -/
theorem final_seqs {R : FnIndex → String → List Ty → Ty → Prop} {Q : FnIndex → String → List Ty → Prop} {ev : Evl} {U : Ty}
    (hexp : ∀ Γ s e T, Framed Γ m i s.stack s → Typing R Γ e T → Fits s.stack ev s e T) (hdecl : DeclaresOne m i R ev)
    (hst : ∀ Γ M L F W s e b, At Γ M m i F W s → Stmt R Q (some U) Γ M L e b → Ends (some U) L b F W s (ev e .right s)) :
    ∀ (es : List Expr) {Γ M F W s}, At Γ M m i F W s → Final R Q U Γ M es →
      seqs ev es none s = .timeout ∨ ∃ r s', seqs ev es none s = .ok (true, r) s' ∧ Done (some U) r ∧ Later F W s s'
  | [], Γ, M, F, W, s, hat, h => by cases h
  | e :: es, Γ, M, F, W, s, hat, h => by
    cases h with
    | here hc ht =>
      rcases hexp Γ s e U hat.framed ht with h | ⟨v, h, w, d, ty, cv⟩
      · exact .inl (seqs_timeout _ h)
      · refine .inr ⟨(some v, .cont), s, ?_, .value ?_ (.inr rfl), hat.refl.later⟩
        · rw [seqs_next _ h]; rfl
        · rw [cv hc]; exact ty
    | @decl _ _ x sid e V _ hV ht hr =>
      rcases hdecl Γ s x sid e V hat.framed hV ht with h | ⟨v, h, ty⟩
      · exact .inl (seqs_timeout _ h)
      · rw [seqs_next _ h]
        rcases final_seqs hexp hdecl hst es (hat.declare x hV ty) hr with h | ⟨r, s', h, h1, h2⟩
        · exact .inl h
        · exact .inr ⟨r, s', h, h1, h2.outer hat⟩
    | @stmt _ _ _ _ b h1 h2 =>
      rcases hst _ _ _ _ _ _ _ _ hat h1 with h | ⟨r, s', h, hr, hl, hs⟩
      · exact .inl (seqs_timeout _ h)
      · cases hr with
        | ret hg =>
          cases hg with
          | value ty => exact .inr ⟨_, s', seqs_leave _ h (by simp), .value ty (.inl rfl), hl⟩
        | cont _ =>
          replace hs := hs (by simp)
          rw [seqs_next _ h]
          rcases final_seqs hexp hdecl hst es (hat.same hs) h2 with h | ⟨r, s', h, h1, h2⟩
          · exact .inl h
          · exact .inr ⟨r, s', h, h1, hs.trans_later h2⟩
        | brk hl => cases hl
        | next hl => cases hl

/-- A block, from its statements. -/
theorem block_done (hat : At Γ M m i F W s) {ev : Evl} {es : List Expr} {T : Option Ty}
    (h : seqs ev es none s = .timeout ∨ ∃ r s', seqs ev es none s = .ok (true, r) s' ∧ Done T r ∧ Later F W s s') :
    block ev es s = .timeout ∨ ∃ r s', block ev es s = .ok r s' ∧ Done T r ∧ Same F W s s' := by
  unfold block scope3
  rcases h with h | ⟨r, s', h, h1, h2⟩
  · left
    show EM.bind EM.get _ s = _
    simp only [EM.bind, EM.get]
    exact bind_timeout h
  · refine .inr ⟨r, _, ?_, h1, h2.trunc hat⟩
    obtain ⟨vs, a, bb, rfl, hv⟩ := h2
    show EM.bind EM.get _ s = _
    simp only [EM.bind, EM.get]
    show EM.bind (seqs ev es none) _ s = _
    simp only [EM.bind, h]
    rw [if_pos trivial]
    show EM.bind (truncStack _) _ _ = _
    simp only [EM.bind, truncStack, EM.modify]
    show EM.bind (truncLocals _) _ _ = _
    simp only [EM.bind, truncLocals, EM.modify]
    show EM.bind (truncCurrents _) _ _ = _
    simp only [EM.bind, truncCurrents, EM.modify]
    show Ev.ok _ _ = _
    simp

theorem Good.body {n : Nat} (g : Good c S m n) {T : Option Ty} {es : List Expr} (fr : Framed Γ m i s.stack s)
    (h : Body (Gives c S i) (Does c S i) Γ es T) :
    block (eval c n) es s = .timeout ∨ ∃ r, block (eval c n) es s = .ok r s ∧ Done T r := by
  have same : ∀ {s'}, Same s.stack [] s s' → s' = s := by
    rintro s' ⟨vs, rfl, hv⟩
    cases hv
    simp
  cases h with
  | returns h =>
    rcases g.blocks fr.at h with h | ⟨r, s', h, hr, hs⟩
    · exact .inl h
    · obtain rfl := same hs
      cases hr with
      | ret ht =>
        cases ht with
        | value ty => exact .inr ⟨_, h, .value ty (.inl rfl)⟩
      | cont hl => cases hl
      | brk hl => cases hl
      | next hl => cases hl
  | value h =>
    rcases block_done fr.at (final_seqs (fun Γ s e T fr h => g.exprs Γ i _ s e T fr h) (g.decls i)
      (fun Γ M L F W s e b => g.stmts Γ M i F W s _ L e b) es fr.at h) with h | ⟨r, s', h, hr, hs⟩
    · exact .inl h
    · obtain rfl := same hs
      exact .inr ⟨r, h, hr⟩
  | nothing h =>
    rcases g.blocks fr.at h with h | ⟨r, s', h, hr, hs⟩
    · exact .inl h
    · obtain rfl := same hs
      cases hr with
      | ret ht =>
        cases ht
        exact .inr ⟨_, h, .nothing (.inl rfl)⟩
      | cont hl => exact .inr ⟨_, h, .nothing (.inr rfl)⟩
      | brk hl => cases hl
      | next hl => cases hl

/-- The `for` loop without the truncation. -/
def forInner (n : Nat) (ev : Evl) (init cond step : Expr) (body : List Expr) (label : Option String) : EM (Bool × R) := do
  match ← ev init .right with
  | (none, .cont) => do
    let s ← EM.get
    loopN n (forRound ev cond step body label s.stack.length s.locals.length) ()
  | (x, .ret) => pure (false, (x, .ret))
  | _ => errT "Expected nothing from for init"

theorem for_ends {n : Nat} (g : Good c S m n) (hat : At Γ M m i F W s) {T : Option Ty} {L : List (Option String)} {init cnd step : Expr}
    {es : List Expr} {b b' : Bool} {label : Option String} {Γ' : List (String × Ty)} {M' : List String}
    (h1 : Init (Gives c S i) (Does c S i) T Γ M init Γ' M') (hc : Computed cnd) (h2 : Typing (Gives c S i) Γ' cnd .bool)
    (h3 : Stmt (Gives c S i) (Does c S i) T Γ' M' [] step b) (h4 : Rows (Gives c S i) (Does c S i) T Γ' M' (none :: label :: L) es b') :
    Ends T L false F W s (forE n (eval c n) init cnd step es label s) := by
  show Ends T L false F W s (scope2 (forInner n (eval c n) init cnd step es label) s)
  refine scope2_ends hat ?_
  have rounds : ∀ W' s1, At Γ' M' m i F W' s1 →
      loopN n (forRound (eval c n) cnd step es label s1.stack.length s1.locals.length) () s1 = .timeout ∨
      ∃ q s', loopN n (forRound (eval c n) cnd step es label s1.stack.length s1.locals.length) () s1 = .ok q s' ∧ Out T L F W' s1 q.1 q.2 s' :=
    fun W' s1 h => for_rounds h n hc (fun s' h' => g.exprs _ _ _ _ _ _ h'.framed h2) (fun s' h' => g.stmts _ _ _ _ _ _ _ _ _ _ h' h3)
      (fun s' h' => g.blocks h' h4)
  have enter : ∀ s1, eval c n init .right s = .ok (none, .cont) s1 →
      forInner n (eval c n) init cnd step es label s =
      loopN n (forRound (eval c n) cnd step es label s1.stack.length s1.locals.length) () s1 := by
    intro s1 h
    show EM.bind (eval c n init .right) _ s = _
    simp only [EM.bind, h]
    show EM.bind EM.get _ s1 = _
    simp only [EM.bind, EM.get]
  cases h1 with
  | stmt h1 =>
    rcases g.stmts _ _ _ _ _ _ _ _ _ _ hat h1 with h | ⟨r, s1, h, hr, hl, hs⟩
    · left
      show EM.bind (eval c n init .right) _ s = _
      simp only [EM.bind, h]
    · cases hr with
      | ret ht =>
        rename_i v
        refine .inr ⟨(false, (v, .ret)), s1, ?_, .ret ht, hl, fun h => absurd rfl h⟩
        show EM.bind (eval c n init .right) _ s = _
        simp only [EM.bind, h]
        rfl
      | cont _ =>
        have hs := hs (by simp)
        rw [enter s1 h]
        rcases rounds W s1 (hat.same hs) with h | ⟨q, s', h, h1, h2, h3⟩
        · exact .inl h
        · exact .inr ⟨q, s', h, h1, hs.trans_later h2, h3⟩
      | brk hl => cases hl
      | next hl => cases hl
  | @decl _ _ x sid e U hU ht =>
    rcases g.decls i Γ s x sid e U hat.framed hU ht with h | ⟨v, h, ty⟩
    · left
      show EM.bind (eval c n _ .right) _ s = _
      simp only [EM.bind, h]
    · rw [enter _ h]
      rcases rounds (W ++ [U]) _ (hat.declare x hU ty) with h | ⟨q, s', h, h1, h2, h3⟩
      · exact .inl h
      · exact .inr ⟨q, s', h, h1, h2.outer hat, h3⟩

/-- Typed expressions and statements, at any fuel. -/
theorem good (hb : c.byName = true) (hS : TypedModule c m S) : ∀ n, Good c S m n
  | 0 => ⟨fun _ _ _ _ _ _ _ _ => .inl rfl, fun _ _ _ _ _ _ _ _ _ _ => .inl rfl, fun _ _ _ _ _ _ _ _ _ _ _ _ => .inl rfl⟩
  | n + 1 => by
    have g := good hb hS n
    have ih := g.exprs
    have ih' : ∀ Γ i s es T, Framed Γ m i s.stack s → Body (Gives c S i) (Does c S i) Γ es T →
        block (eval c n) es s = .timeout ∨ ∃ r, block (eval c n) es s = .ok r s ∧ Done T r :=
      fun Γ i s es T fr h => g.body fr h
    refine ⟨?_, ?_, ?_⟩
    · intro Γ i B s e T fr ht
      cases ht with
      | @const _ v T hf hv => exact .inr ⟨v, rfl, v, denotes_self (hf.not_ref hv), hv, fun _ => rfl⟩
      | @var _ x sid T hx =>
        obtain ⟨v, w, h1, h2, h3⟩ := item_fits (c := c) hb (ev := eval c n) fr (sid := sid) hx
        exact .inr ⟨v, h1, w, h2, h3, fun h => by cases h⟩
      | @call _ f name args ts T hg hargs =>
        have ha : ∀ vs, List.Forall₂ (fun e t => Fits B (eval c n) { s with stack := s.stack ++ vs } e t) args ts :=
          fun vs => typings_fit (fun e t h => ih Γ i B _ e t (fr.push vs) h) hargs
        have key : callE c n (eval c n) false f name args s = .timeout ∨
            ∃ v, callE c n (eval c n) false f name args s = .ok (some v, .cont) s ∧ HasTy T v ∧ Flat T := by
          cases hg with
          | @own f name j σ T h1 h2 h5 =>
            have := own_fits (name := name) n hS ih' false fr.module fr.quiet fr.base (by
              obtain ⟨call, h3, h4, -⟩ := fr.vars
              simp [h3, h4]) h1 h2 ha
            rw [h5] at this
            rcases this with h | ⟨x, h, hx, hT⟩
            · exact .inl h
            · cases hx with
              | value ty => exact .inr ⟨_, h, ty, hT _ rfl⟩
          | host _ hT hg =>
            rcases host_fits n (eval c n) (name := name) false fr.base hg ha with h | ⟨v, h, ty⟩
            · exact .inl h
            · exact .inr ⟨v, h, ty, hT⟩
        rcases key with h | ⟨v, h, ty, hT⟩
        · exact .inl h
        · exact .inr ⟨v, h, v, denotes_self (hT.not_ref ty), ty, fun _ => rfl⟩
      | @ite _ cnd a b T h1 h2 h3 =>
        have hc := ih Γ i B s cnd .bool fr h1
        have fa := ih Γ i B s a T fr h2
        have fb := ih Γ i B s b T fr h3
        have blk : ∀ e, (Computed (.ite cnd [a] [] (some [b])) → Computed e) → Fits B (eval c n) s e T →
            block (eval c n) [e] s = .timeout ∨ ∃ v, block (eval c n) [e] s = .ok (some v, .cont) s ∧
              Is B (.ite cnd [a] [] (some [b])) T v := by
          intro e he hf
          rcases hf with h | ⟨v, h, w, d, ty, cv⟩
          · exact .inl (block_timeout h)
          · exact .inr ⟨v, block_one h, w, d, ty, fun h => cv (he h)⟩
        have ba := blk a (fun h => by cases h; assumption) fa
        have bb := blk b (fun h => by cases h; assumption) fb
        show iteE (eval c n) cnd [a] [] (some [b]) s = _ ∨ ∃ v, iteE (eval c n) cnd [a] [] (some [b]) s = _ ∧ _
        rcases hc with h | ⟨x, h, w, d, ty, -⟩
        · left
          show EM.bind (eval c n cnd .right) _ s = _
          simp only [EM.bind, h]
        obtain ⟨rest, hB⟩ := fr.base
        have hw : ∃ q sec, w = .bool q sec := by
          cases w <;> simp [HasTy] at ty
          exact ⟨_, _, rfl⟩
        obtain ⟨q, sec, rfl⟩ := hw
        have e1 : iteE (eval c n) cnd [a] [] (some [b]) s = if q then block (eval c n) [a] s else block (eval c n) [b] s := by
          show EM.bind (eval c n cnd .right) _ s = _
          simp only [EM.bind, h]
          show EM.bind (derefE x) _ s = _
          simp only [EM.bind, denotes_deref hB d]
          cases q <;> rfl
        rw [e1]
        cases q
        · exact bb
        · exact ba
      | fold h0 h1 h2 h3 =>
        exact fold_fits fr h0 (fun a ha => ih _ _ _ _ _ _ fr (h1 a ha)) (ih _ _ _ _ _ _ fr h2) (fun s' h' => ih _ _ _ _ _ _ h' h3)
      | vec4 h =>
        exact vec4_fits fr fun vs => typings_fit (fun e t h => ih _ i B _ e t (fr.push vs) h) h
      | mat4 h =>
        exact mat4_fits fr fun vs => typings_fit (fun e t h => ih _ i B _ e t (fr.push vs) h) h
      | link h h' => exact link_fits fr h' (typings_fit (fun e t h => ih _ i B s e t fr h) h)
    · intro i Γ s x sid e T fr hT ht
      have := ih Γ i s.stack s e T fr ht
      show want (eval c n) e .right "Expected something from the right side" _ s = _ ∨
        ∃ v, want (eval c n) e .right "Expected something from the right side" _ s = _ ∧ _
      rcases want_fits this "Expected something from the right side" (fun y => do
        let v ← shallow y
        if (Item.mk x sid false false [] []).ids.isEmpty then declare (.mk x sid false false [] []) v
        else want (eval c n) (.item (.mk x sid false false [] [])) (.leftInsert true) "Expected something from the left side" fun y =>
          storeAt y v) with h | ⟨v, h, w, d, ty, -⟩
      · exact .inl h
      · refine .inr ⟨w, ?_, ty⟩
        refine h.trans ?_
        have hsh : shallow v s = .ok w s := by
          rcases d with ⟨j, rfl, h2⟩ | ⟨h1, rfl⟩
          · simp [shallow, slotE, h2]
          · unfold shallow
            split
            · rename_i j; exact absurd rfl (h1 j)
            · rfl
        show EM.bind (shallow v) _ s = _
        simp only [EM.bind, hsh]
        rfl
    · intro Γ M i F W s T L e b hat h
      cases h with
      | @ret _ _ _ e U hT hc ht =>
        have := ih Γ i _ s e U hat.framed ht
        subst hT
        show Ends (some U) L true F W s (want (eval c n) e .right "Expected something" (fun x => pure (some x, .ret)) s)
        rcases want_fits this "Expected something" (fun x => pure (some x, Flow.ret)) with h | ⟨v, h, w, d, ty, cv⟩
        · exact .inl h
        · refine .inr ⟨_, s, h, .ret ?_, hat.refl.later, fun _ => hat.refl⟩
          rw [cv hc]; exact .value ty
      | retVoid hT =>
        subst hT
        exact .inr ⟨_, s, rfl, .ret .nothing, hat.refl.later, fun _ => hat.refl⟩
      | @call _ _ _ f name args ts hg hargs =>
        have fr := hat.framed
        have ha : ∀ vs, List.Forall₂ (fun e t => Fits s.stack (eval c n) { s with stack := s.stack ++ vs } e t) args ts :=
          fun vs => typings_fit (fun e t h => ih Γ i s.stack _ e t (fr.push vs) h) hargs
        have key : callE c n (eval c n) false f name args s = .timeout ∨ callE c n (eval c n) false f name args s = .ok (none, .cont) s := by
          cases hg with
          | @own f name j σ h1 h2 h5 =>
            have := own_fits (name := name) n hS ih' false fr.module fr.quiet fr.base (by
              obtain ⟨call, h3, h4, -⟩ := fr.vars
              simp [h3, h4]) h1 h2 ha
            rw [h5] at this
            rcases this with h | ⟨x, h, hx, -⟩
            · exact .inl h
            · cases hx
              exact .inr h
          | host hg => exact host_does n (eval c n) (name := name) false fr.base hg ha
        rcases key with h | h
        · exact .inl h
        · exact .inr ⟨_, s, h, .cont rfl, hat.refl.later, fun _ => hat.refl⟩
      | brk h => exact .inr ⟨_, s, rfl, .brk h, hat.refl.later, fun _ => hat.refl⟩
      | next h => exact .inr ⟨_, s, rfl, .next h, hat.refl.later, fun _ => hat.refl⟩
      | set hM hx ht ha hc => exact assign_ends hb hat hM hx (ih _ _ _ _ _ _ hat.framed ht) ha hc
      | cond h1 h2 h3 => exact (ite_closes hat (fun e T h => ih _ _ _ _ _ _ hat.framed h) (fun es b h => g.blocks hat h) h1 h2 h3).ends
      | block h => exact (g.blocks hat h).ends
      | count h1 h2 h3 =>
        exact count_ends hat n (fun e he => ih _ _ _ _ _ _ hat.framed (h1 e he)) (ih _ _ _ _ _ _ hat.framed h2)
          (fun s' h' => g.blocks h' h3)
      | loop h1 hc h2 h3 h4 => exact for_ends g hat h1 hc h2 h3 h4

/-- The same, for calls. -/
theorem typed_fits (hb : c.byName = true) (hS : TypedModule c m S) (n : Nat) :
    (∀ Γ i B s e T, Framed Γ m i B s → Typing (Gives c S i) Γ e T → Fits B (eval c n) s e T) ∧
    (∀ Γ i s es T, Framed Γ m i s.stack s → Body (Gives c S i) (Does c S i) Γ es T →
      block (eval c n) es s = .timeout ∨ ∃ r, block (eval c n) es s = .ok r s ∧ Done T r) :=
  ⟨(good hb hS n).exprs, fun _ _ _ _ _ fr h => (good hb hS n).body fr h⟩

end

end Dyon.Sound
