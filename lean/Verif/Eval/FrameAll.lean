import Verif.Eval.FrameGrab

/-!
# What evaluation does to the stacks: the evaluator

Lemmas for C23.
-/

namespace Dyon

variable {c : ECfg} {va ra : Nat → Nat} {ev : Evl} {α β : Type} {st st0 : St}

/-- What a tidy expression leaves; `v` says that it gives a value. -/
structure OutPost (c : ECfg) (va ra : Nat → Nat) (v : Bool) (st : St) (r : R) (s : St) :
    Prop where
  inv : ClosuresWF c va ra s
  ext : Ext st s
  same : r.2 ≠ .ret → Same st s
  valued : r.1 = none → r.2 = .cont → v = false

theorem OutPost.post {e r s v} (h : OutPost c va ra v st r s) (he : e.isSwizzle = false)
    (hv : Valued (kOf c va ra st) e = v) : PostR c va ra e st r s where
  inv := h.inv
  ext := h.ext
  value := fun _ _ hf => h.same (by simp [hf])
  quiet := fun hf _ => h.same hf
  valued := fun hn hf => by rw [hv]; exact h.valued hn hf
  swizzle := fun h' => by simp [he] at h'

theorem OutPost.ret {v x s} (h : Ext st s) (hi : ClosuresWF c va ra s) :
    OutPost c va ra v st (x, .ret) s := ⟨hi, h, fun h => absurd rfl h, by simp⟩
theorem OutPost.val {v x s} (h : Same st s) (hi : ClosuresWF c va ra s) :
    OutPost c va ra v st (Option.some x, .cont) s := ⟨hi, h.ext, fun _ => h, by simp⟩
theorem OutPost.none {s} (h : Same st s) (hi : ClosuresWF c va ra s) :
    OutPost c va ra false st (Option.none, .cont) s := ⟨hi, h.ext, fun _ => h, by simp⟩
theorem ValPost.out {v r s} (h : ValPost c va ra st r s) : OutPost c va ra v st r s :=
  ⟨h.inv, h.ext, h.same, fun hn hf => by have := h.some hf; simp [hn] at this⟩

/-! ## Calls -/

/-- An external function after its arguments. -/
theorem wp_ext_void (hE : ExtFns c va ra) {f s} (h0 : ExtE st0 st) (hs : Grown (va f) st s)
    (hi : ClosuresWF c va ra s) :
    wp (c.voidFn f) (fun _ t => Same st t ∧ ClosuresWF c va ra t) (Err c va ra st0) s := by
  have h := hE.void f s (by have := hs.5; omega) hi
  have hcut : Same st { s with stack := s.stack.take (s.stack.length - va f) } :=
    ⟨hs.1, hs.2, hs.3, hs.4, by have := hs.5; simp; omega⟩
  unfold wp
  split <;> simp_all
  · exact hcut.trans h.1
  · exact ⟨h0.trans (hcut.transE h.1), h.2⟩

theorem wp_ext_ret (hE : ExtFns c va ra) {f s} (h0 : ExtE st0 st) (hs : Grown (ra f) st s)
    (hi : ClosuresWF c va ra s) :
    wp (c.retFn f) (fun _ t => Same st t ∧ ClosuresWF c va ra t) (Err c va ra st0) s := by
  have h := hE.ret f s (by have := hs.5; omega) hi
  have hcut : Same st { s with stack := s.stack.take (s.stack.length - ra f) } :=
    ⟨hs.1, hs.2, hs.3, hs.4, by have := hs.5; simp; omega⟩
  unfold wp
  split <;> simp_all
  · exact hcut.trans h.1
  · exact ⟨h0.trans (hcut.transE h.1), h.2⟩

theorem wp_callLoaded (hM : ModulesWF c va ra) (hev : Good c va ra ev) {n loader f name args}
    (h0 : ExtE st0 st) (hi : ClosuresWF c va ra st) (hw : WFs (kOf c va ra st) args) :
    wp (callLoaded c n ev loader f name args)
      (OutPost c va ra ((ctxAt c va ra st.module (if loader then 0 else st.rel)).rets f) st)
      (Err c va ra st0) st := by
  unfold callLoaded
  have key : ∀ s, Same st s → ClosuresWF c va ra s →
      wp (do
        let s ← EM.get
        match callIndex f (if loader then 0 else st.rel) with
        | none => EM.panic "index out of bounds"
        | some idx =>
          match (c.modules s.module)[idx]? with
          | none => EM.panic "index out of bounds"
          | some fn => do
            if fn.returns then pushE .ret else pure ()
            let s ← EM.get
            lazyArgs ev true noValue' fn.lazyInv args <|
              enter name fn.name idx fn.file fn.returns fn.args fn.currents s.stack.length
                s.locals.length s.currents.length (notify c n idx s.stack.length) (block ev fn.body))
      (OutPost c va ra ((ctxAt c va ra st.module (if loader then 0 else st.rel)).rets f) st)
      (Err c va ra st0) s := by
    intro s hs hi
    refine wp_bind (wp_get ?_)
    cases hidx : callIndex f (if loader then 0 else st.rel) with
    | none => exact wp_panic
    | some idx =>
      simp only
      cases hfn : (c.modules s.module)[idx]? with
      | none => exact wp_panic
      | some fn =>
        have hret : (ctxAt c va ra st.module (if loader then 0 else st.rel)).rets f = fn.returns := by
          simp only [ctxAt, hidx]
          rw [← hs.module, hfn]
        obtain ⟨hbody, hlazy⟩ := hM _ _ _ hfn
        rw [hret]
        have key2 : ∀ s1, Grown (if fn.returns then 1 else 0) s s1 → ClosuresWF c va ra s1 →
            wp (do
              let s ← EM.get
              lazyArgs ev true noValue' fn.lazyInv args <|
                enter name fn.name idx fn.file fn.returns fn.args fn.currents s.stack.length
                  s.locals.length s.currents.length (notify c n idx s.stack.length)
                  (block ev fn.body))
              (OutPost c va ra fn.returns st) (Err c va ra st0) s1 := by
          intro s1 hs1 hi
          have hx := hs.transExt hs1.ext
          refine wp_bind (wp_get ?_)
          refine wp_lazyArgs_loaded hev (h0.trans hx.extE) hi (by rw [hx.kOf]; exact hw) hlazy
            (fun x t ht hi => .ret (hx.trans ht) hi) fun t ht hi => ?_
          refine wp_mono (wp_enter (h0.trans hs.extE) hs1 ht hi (.notify ..) ?_) ?_ fun _ h => h
          · intro t hm hrel hi
            have : kOf c va ra t = ctxAt c va ra s.module idx := by
              simp only [kOf, hm, hrel, hs1.module]
            exact wp_mono (wp_block hev .rfl hi (by rw [this]; exact hbody))
              (fun _ _ h => ⟨h.2.1.ext, h.1⟩) fun _ h => h
          · intro r u hp
            exact ⟨hp.inv, hs.transExt hp.same.ext, fun _ => hs.trans hp.same, fun hn _ => by
              have := hp.value; simpa [hn] using this.symm⟩
        simp only
        cases hr : fn.returns with
        | false =>
          rw [hr] at key2
          simp only [Bool.false_eq_true, if_false]
          exact key2 s Same.rfl.grown hi
        | true =>
          rw [hr] at key2
          simp only [if_true]
          exact wp_bind (wp_modify (key2 _ (Grown.push _) hi))
  cases loader with
  | true => exact key st .rfl hi
  | false => exact wp_bind (show wp relIndex _ _ _ from key st .rfl hi)

theorem wp_callBinop (hev : Good c va ra ev) {f args} (h0 : ExtE st0 st)
    (hi : ClosuresWF c va ra st) (hw : WFs (kOf c va ra st) args) :
    wp (callBinop c ev f args) (ValPost c va ra st) (Err c va ra st0) st := by
  unfold callBinop
  split
  · simp only [WFs] at hw
    refine wp_want hev h0 hi hw.1 (fun x s hs hi => .ret hs hi) fun x s hs hi => ?_
    refine wp_want hev (h0.trans hs.extE) hi (by rw [hs.kOf]; exact hw.2.1)
      (fun x t ht hi => .ret (hs.transExt ht) hi) fun y s' hs' hi => ?_
    have hs := hs.trans hs'
    refine wp_quiet (.derefE _) (h0.trans hs.extE) hi fun x s' hs' hi => ?_
    have hs := hs.trans hs'
    refine wp_quiet (.derefE _) (h0.trans hs.extE) hi fun y s' hs' hi => ?_
    have hs := hs.trans hs'
    exact wp_quiet (.liftOp _) (h0.trans hs.extE) hi fun y s' hs' hi => .val (hs.trans hs') hi
  · exact wp_panic

theorem wp_callUnop (hev : Good c va ra ev) {f args} (h0 : ExtE st0 st)
    (hi : ClosuresWF c va ra st) (hw : WFs (kOf c va ra st) args) :
    wp (callUnop c ev f args) (ValPost c va ra st) (Err c va ra st0) st := by
  unfold callUnop
  split
  · simp only [WFs] at hw
    refine wp_want hev h0 hi hw.1 (fun x s hs hi => .ret hs hi) fun x s hs hi => ?_
    refine wp_quiet (.derefE _) (h0.trans hs.extE) hi fun x s' hs' hi => ?_
    have hs := hs.trans hs'
    exact wp_quiet (.liftOp _) (h0.trans hs.extE) hi fun y s' hs' hi => .val (hs.trans hs') hi
  · exact wp_panic

/-- Whether a call gives a value. -/
def callValued (k : Ctx) : FnIndex → Bool
  | .void _ => false
  | .loaded f => k.rets f
  | _ => true

theorem wp_callE (hE : ExtFns c va ra) (hM : ModulesWF c va ra) (hev : Good c va ra ev)
    {n loader f name args} (h0 : ExtE st0 st) (hi : ClosuresWF c va ra st)
    (hw : (Expr.call f name args).WF (kOf c va ra st)) :
    wp (callE c n ev loader f name args)
      (OutPost c va ra (callValued (ctxAt c va ra st.module (if loader then 0 else st.rel)) f) st)
      (Err c va ra st0) st := by
  cases f with
  | void f =>
    simp only [Expr.WF] at hw
    refine wp_lazyArgs_ext hev h0 hi hw.1 (by simp) (fun x s hs hi => .ret hs hi)
      (fun x s hs hi => .val hs hi) fun s hs hi => ?_
    rw [hw.2] at hs
    exact wp_bind (wp_mono (wp_ext_void hE h0 hs hi) (fun _ t ht => wp_pure (.none ht.1 ht.2))
      fun _ h => h)
  | ret f =>
    simp only [Expr.WF] at hw
    refine wp_lazyArgs_ext hev h0 hi hw.1 (by simp) (fun x s hs hi => .ret hs hi)
      (fun x s hs hi => .val hs hi) fun s hs hi => ?_
    rw [hw.2] at hs
    exact wp_bind (wp_mono (wp_ext_ret hE h0 hs hi) (fun _ t ht => wp_pure (.val ht.1 ht.2))
      fun _ h => h)
  | lazy f inv =>
    simp only [Expr.WF] at hw
    refine wp_lazyArgs_ext hev h0 hi hw.1 hw.2.2 (fun x s hs hi => .ret hs hi)
      (fun x s hs hi => .val hs hi) fun s hs hi => ?_
    rw [hw.2.1] at hs
    exact wp_bind (wp_mono (wp_ext_ret hE h0 hs hi) (fun _ t ht => wp_pure (.val ht.1 ht.2))
      fun _ h => h)
  | binop f =>
    simp only [Expr.WF] at hw
    exact wp_mono (wp_callBinop hev h0 hi hw.1) (fun _ _ h => h.out) fun _ h => h
  | unop f =>
    simp only [Expr.WF] at hw
    exact wp_mono (wp_callUnop hev h0 hi hw.1) (fun _ _ h => h.out) fun _ h => h
  | loaded f =>
    simp only [Expr.WF] at hw
    exact wp_callLoaded hM hev h0 hi hw.1
  | none => exact wp_errT ⟨h0, hi⟩

theorem wp_inModule {m} {act : EM α} {Q : α → St → Prop} {E : St → Prop}
    (h : wp act (fun a s => Q a { s with module := st.module })
      (fun s => E { s with module := st.module }) { st with module := m }) :
    wp (inModule m act) Q E st := by
  unfold wp inModule
  unfold wp at h
  cases hx : act { st with module := m } <;> simp_all

theorem wp_callClosureE (hev : Good c va ra ev) {it args} (h0 : ExtE st0 st)
    (hi : ClosuresWF c va ra st) (hwi : WFitem (kOf c va ra st) it)
    (hw : WFs (kOf c va ra st) args) :
    wp (callClosureE c ev it args) (OutPost c va ra false st) (Err c va ra st0) st := by
  unfold callClosureE
  refine wp_bind (wp_mono (wp_itemE hev h0 hi hwi) ?_ fun _ h => h)
  rintro ⟨_ | x, _ | _ | _ | _⟩ s hp
  case none.ret => exact wp_pure (.ret hp.ext hp.inv)
  case some.ret => exact wp_pure (.ret hp.ext hp.inv)
  case some.cont =>
    have hs := hp.same (by simp)
    have hwc : wp (closureOf x) (fun f t => Same s t ∧ ClosuresWF c va ra t ∧
        f.body.WF (ctxAt c va ra f.module f.relative)) (Err c va ra st0) s := by
      unfold closureOf
      refine wp_quiet (.derefE _) (h0.trans hs.extE) hp.inv fun d t ht hi => ?_
      split
      · refine wp_bind (wp_get ?_)
        rename_i id
        cases hc : t.closures[id]? with
        | none => exact wp_panic
        | some cl => exact wp_pure ⟨ht, hi, hi cl (List.mem_of_getElem? hc)⟩
      · exact wp_bind (wp_get (wp_errT ⟨h0.trans (hs.trans ht).extE, hi⟩))
    refine wp_bind (wp_mono hwc ?_ fun _ h => h)
    rintro f s' ⟨hs', hi, hfb⟩
    have hs := hs.trans hs'
    refine wp_ite (fun _ => wp_errT ⟨h0.trans hs.extE, hi⟩) fun _ => ?_
    have key2 : ∀ s1, Grown (if f.returns then 1 else 0) s' s1 → ClosuresWF c va ra s1 →
        wp (do
          let s ← EM.get
          lazyArgs ev true noValue' [] args <|
            enter it.name it.name f.relative f.file f.returns f.args f.currents s.stack.length
              s.locals.length s.currents.length (pure ()) (inModule f.module (ev f.body .right)))
          (OutPost c va ra false st) (Err c va ra st0) s1 := by
      intro s1 hs1 hi
      have hx := hs.transExt hs1.ext
      refine wp_bind (wp_get ?_)
      refine wp_lazyArgs_loaded hev (h0.trans hx.extE) hi (by rw [hx.kOf]; exact hw) (by simp)
        (fun x t ht hi => .ret (hx.trans ht) hi) fun t ht hi => ?_
      refine wp_mono (wp_enter (h0.trans hs.extE) hs1 ht hi (.pure _) ?_) ?_ fun _ h => h
      · intro t hm hrel hi
        refine wp_inModule (wp_mono (hev f.body .right { t with module := f.module } hi ?_) ?_ ?_)
        · have : kOf c va ra { t with module := f.module } = ctxAt c va ra f.module f.relative := by
            have : ({ t with module := f.module } : St).rel = f.relative := hrel
            simp only [kOf, this]
          rw [this]; exact hfb
        · intro r u hp
          exact ⟨⟨rfl, hp.ext.2, hp.ext.3, hp.ext.4, hp.ext.5⟩, hp.inv⟩
        · intro u hp
          exact ⟨⟨rfl, hp.1.2, hp.1.3, hp.1.4, hp.1.5⟩, hp.2⟩
      · intro r u hp
        exact ⟨hp.inv, hs.transExt hp.same.ext, fun _ => hs.trans hp.same, fun _ _ => rfl⟩
    cases hr : f.returns with
    | false => rw [hr] at key2; exact key2 s' Same.rfl.grown hi
    | true => rw [hr] at key2; exact wp_bind (wp_modify (key2 _ (Grown.push _) hi))
  all_goals exact wp_errT ⟨h0.trans hp.ext.extE, hp.inv⟩

/-! ## Literals -/

theorem wp_linkLit (hev : Good c va ra ev) {items l} {b : Bool} (h0 : ExtE st0 st)
    (hw : WFs (kOf c va ra st) items) : ∀ s, Ext st s → (b = false → Same st s) →
    ClosuresWF c va ra s →
    wp (linkLit ev items l) (fun r t => ClosuresWF c va ra t ∧ Ext st t ∧
      (r.1 = false → r.2.2 ≠ .cont ∧ (r.2.2 ≠ .ret → (b || leavesAny items) = false → Same st t)) ∧
      (r.1 = true → r.2.1.isSome ∧ r.2.2 = .cont)) (Err c va ra st0) s := by
  induction items generalizing l b with
  | nil => exact fun s hs _ hi => wp_pure ⟨hi, hs, by simp, by simp⟩
  | cons e es ih =>
    intro s hs hb hi
    rw [WFs] at hw
    refine wp_ev hev (h0.trans hs.extE) hi (by rw [hs.kOf]; exact hw.1) ?_
    rintro ⟨x, f⟩ t hp
    have hst := hs.trans hp.ext
    have hsame : f ≠ .ret → (b || e.leaves) = false → Same st t := by
      intro hf h
      rw [Bool.or_eq_false_iff] at h
      exact (hb h.1).trans (hp.quiet hf h.2)
    have hor : (b || e.leaves || leavesAny es) = (b || leavesAny (e :: es)) := by
      rw [leavesAny, Bool.or_assoc]
    have hout : f ≠ .cont → wp (pure (false, (x, f)) : EM (Bool × R))
        (fun r t => ClosuresWF c va ra t ∧ Ext st t ∧
        (r.1 = false → r.2.2 ≠ .cont ∧
          (r.2.2 ≠ .ret → (b || leavesAny (e :: es)) = false → Same st t)) ∧
        (r.1 = true → r.2.1.isSome ∧ r.2.2 = .cont)) (Err c va ra st0) t := fun hf =>
      wp_pure ⟨hp.inv, hst, fun _ => ⟨hf, fun h1 h2 => hsame h1 (by
        rw [← hor, Bool.or_eq_false_iff] at h2; exact h2.1)⟩, by simp⟩
    rcases f with _ | _ | f | f
    · have ih := fun l => ih (l := l) (b := b || e.leaves) hw.2
      simp only [hor] at ih
      cases x with
      | none => exact ih _ _ hst (fun h => hsame (by simp) h) hp.inv
      | some x =>
        refine wp_quiet (.derefE _) (h0.trans hst.extE) hp.inv fun d u hu hi => ?_
        split
        · exact ih _ _ (hst.transSame hu) (fun h => (hsame (by simp) h).trans hu) hi
        · exact wp_errT ⟨h0.trans (hst.transSame hu).extE, hi⟩
    all_goals cases x <;> exact hout (by simp)

theorem wp_linkE (hev : Good c va ra ev) {items} (h0 : ExtE st0 st)
    (hi : ClosuresWF c va ra st) (hw : WFs (kOf c va ra st) items) :
    wp (linkE ev items) (PostR c va ra (.link items) st) (Err c va ra st0) st := by
  unfold linkE
  refine wp_ite (fun _ => wp_pure (ValPost.post (.val .rfl hi) rfl)) fun _ => ?_
  refine wp_scope3 (wp_mono (wp_linkLit hev (b := false) h0 hw st .rfl (fun _ => .rfl) hi) ?_
    fun _ h => h)
  rintro ⟨b, x, f⟩ s ⟨hi, hs, h1, h2⟩
  cases b with
  | true =>
    obtain ⟨h3, h4⟩ := h2 rfl
    simp only at h3 h4
    subst h4
    simp only [if_true]
    refine ValPost.post ⟨hi, hs.cut3.ext, fun _ => hs.cut3, fun _ => h3⟩ rfl
  | false =>
    obtain ⟨h3, h4⟩ := h1 rfl
    exact ⟨hi, hs, fun _ _ h => absurd h h3, fun hf hl => h4 hf (by simpa [Expr.leaves] using hl),
      fun _ h => absurd h h3, fun h => by simp [Expr.isSwizzle] at h⟩

theorem wp_objectE (hev : Good c va ra ev) {kvs acc} (h0 : ExtE st0 st)
    (hi : ClosuresWF c va ra st) (hw : WFkvs (kOf c va ra st) kvs) :
    wp (objectE ev kvs acc) (ValPost c va ra st) (Err c va ra st0) st := by
  suffices ∀ s, Same st s → ClosuresWF c va ra s →
      wp (objectE ev kvs acc) (ValPost c va ra st) (Err c va ra st0) s from this st .rfl hi
  induction kvs generalizing acc with
  | nil => exact fun s hs hi => wp_pure (.val hs hi)
  | cons x xs ih =>
    intro s hs hi
    obtain ⟨k, e⟩ := x
    rw [WFkvs] at hw
    refine wp_want hev (h0.trans hs.extE) hi (by rw [hs.kOf]; exact hw.1)
      (fun x t ht hi => .ret (hs.transExt ht) hi) fun x t ht hi => ?_
    exact wp_ite (fun _ => wp_errT ⟨h0.trans (hs.trans ht).extE, hi⟩)
      fun _ => ih hw.2 _ (hs.trans ht) hi

theorem wp_arrayE (hev : Good c va ra ev) {es acc} (h0 : ExtE st0 st)
    (hi : ClosuresWF c va ra st) (hw : WFs (kOf c va ra st) es) :
    wp (arrayE ev es acc) (ValPost c va ra st) (Err c va ra st0) st := by
  suffices ∀ s, Same st s → ClosuresWF c va ra s →
      wp (arrayE ev es acc) (ValPost c va ra st) (Err c va ra st0) s from this st .rfl hi
  induction es generalizing acc with
  | nil => exact fun s hs hi => wp_pure (.val hs hi)
  | cons e es ih =>
    intro s hs hi
    rw [WFs] at hw
    refine wp_want hev (h0.trans hs.extE) hi (by rw [hs.kOf]; exact hw.1)
      (fun x t ht hi => .ret (hs.transExt ht) hi) fun x t ht hi => ?_
    exact ih hw.2 _ (hs.trans ht) hi

theorem wp_arrayFillE (hev : Good c va ra ev) {f m} (h0 : ExtE st0 st)
    (hi : ClosuresWF c va ra st) (hw : (Expr.arrayFill f m).WF (kOf c va ra st)) :
    wp (arrayFillE ev f m) (ValPost c va ra st) (Err c va ra st0) st := by
  rw [Expr.WF] at hw
  refine wp_want hev h0 hi hw.1 (fun x s hs hi => .ret hs hi) fun x s hs hi => ?_
  refine wp_want hev (h0.trans hs.extE) hi (by rw [hs.kOf]; exact hw.2)
    (fun x t ht hi => .ret (hs.transExt ht) hi) fun y s' hs' hi => ?_
  have hs := hs.trans hs'
  refine wp_quiet (.derefE _) (h0.trans hs.extE) hi fun x s' hs' hi => ?_
  have hs := hs.trans hs'
  refine wp_quiet (.derefE _) (h0.trans hs.extE) hi fun y s' hs' hi => ?_
  have hs := hs.trans hs'
  split
  · exact wp_pure (.val hs hi)
  · exact wp_errT ⟨h0.trans hs.extE, hi⟩

/-! ## Branches -/

theorem OutPost.block {es r s v} (hv : v = true → ValuedLast (kOf c va ra st) es = true)
    (h : ClosuresWF c va ra s ∧ Same st s ∧
      (r.1 = Option.none → r.2 = .cont → ValuedLast (kOf c va ra st) es = false)) :
    OutPost c va ra v st r s :=
  ⟨h.1, h.2.1.ext, fun _ => h.2.1, fun h1 h2 => by
    have := h.2.2 h1 h2
    cases v
    · rfl
    · rw [hv rfl] at this; cases this⟩

theorem OutPost.of_same {v r s t} (hs : Same st s) (h : OutPost c va ra v s r t) :
    OutPost c va ra v st r t :=
  ⟨h.inv, hs.transExt h.ext, fun hf => hs.trans (h.same hf), h.valued⟩

theorem wp_blockOut (hev : Good c va ra ev) {es v} {s : St} (h0 : ExtE st0 st) (hs : Same st s)
    (hi : ClosuresWF c va ra s) (hw : WFs (kOf c va ra st) es)
    (hv : v = true → ValuedLast (kOf c va ra st) es = true) :
    wp (block ev es) (OutPost c va ra v st) (Err c va ra st0) s :=
  wp_mono (wp_block hev (h0.trans hs.extE) hi (by rw [hs.kOf]; exact hw))
    (fun _ _ h => .of_same hs (.block (by rw [hs.kOf]; exact hv) h)) fun _ h => h

theorem wp_elifsE (hev : Good c va ra ev) {els elifs v} (h0 : ExtE st0 st)
    (hw : WFelifs (kOf c va ra st) elifs) (hw' : WFoptList (kOf c va ra st) els)
    (hv : v = true → ValuedBlocks (kOf c va ra st) elifs = true ∧
      ∃ b, els = some b ∧ ValuedLast (kOf c va ra st) b = true) :
    ∀ s, Same st s → ClosuresWF c va ra s →
    wp (elifsE ev els elifs) (OutPost c va ra v st) (Err c va ra st0) s := by
  induction elifs with
  | nil =>
    intro s hs hi
    cases els with
    | none =>
      have : v = false := by
        cases v
        · rfl
        · obtain ⟨-, b, hb, -⟩ := hv rfl; cases hb
      subst this
      exact wp_pure (.none hs hi)
    | some b =>
      rw [WFoptList] at hw'
      refine wp_blockOut hev h0 hs hi hw' fun h => ?_
      obtain ⟨-, b', hb, h⟩ := hv h
      cases hb; exact h
  | cons x xs ih =>
    intro s hs hi
    obtain ⟨cnd, b⟩ := x
    rw [WFelifs] at hw
    simp only [ValuedBlocks, Bool.and_eq_true] at hv
    refine wp_want hev (h0.trans hs.extE) hi (by rw [hs.kOf]; exact hw.1)
      (fun x t ht hi => .ret (hs.transExt ht) hi) fun x t ht hi => ?_
    have hs := hs.trans ht
    refine wp_quiet (.derefE _) (h0.trans hs.extE) hi fun d t ht hi => ?_
    have hs := hs.trans ht
    split
    · exact ih hw.2.2 (fun h => ⟨(hv h).1.2, (hv h).2⟩) _ hs hi
    · exact wp_blockOut hev h0 hs hi hw.2.1 fun h => (hv h).1.1
    · exact wp_errT ⟨h0.trans hs.extE, hi⟩

theorem wp_iteE (hev : Good c va ra ev) {cnd t elifs els} (h0 : ExtE st0 st)
    (hi : ClosuresWF c va ra st) (hw : (Expr.ite cnd t elifs els).WF (kOf c va ra st)) :
    wp (iteE ev cnd t elifs els) (PostR c va ra (.ite cnd t elifs els) st)
      (Err c va ra st0) st := by
  rw [Expr.WF] at hw
  have hv : Valued (kOf c va ra st) (.ite cnd t elifs els) = true →
      ValuedLast (kOf c va ra st) t = true ∧ ValuedBlocks (kOf c va ra st) elifs = true ∧
      ∃ b, els = some b ∧ ValuedLast (kOf c va ra st) b = true := by
    intro h
    cases els with
    | none => simp [Valued] at h
    | some b =>
      simp only [Valued, Bool.and_eq_true] at h
      exact ⟨h.1.1, h.1.2, b, rfl, h.2⟩
  refine wp_mono (Q := OutPost c va ra (Valued (kOf c va ra st) (.ite cnd t elifs els)) st) ?_
    (fun _ _ h => h.post rfl rfl) fun _ h => h
  refine wp_want hev h0 hi hw.1 (fun x t ht hi => .ret ht hi) fun x s hs hi => ?_
  refine wp_quiet (.derefE _) (h0.trans hs.extE) hi fun d t ht hi => ?_
  have hs := hs.trans ht
  split
  · exact wp_blockOut hev h0 hs hi hw.2.1 fun h => (hv h).1
  · exact wp_elifsE hev h0 hw.2.2.1 hw.2.2.2 (fun h => (hv h).2) _ hs hi
  · exact wp_errT ⟨h0.trans hs.extE, hi⟩

/-! ## `for` loops -/

/-- What a `for` loop leaves: the declared current objects stay. -/
structure ForPost (c : ECfg) (va ra : Nat → Nat) (st : St) (r : R) (s : St) : Prop where
  inv : ClosuresWF c va ra s
  ext : Ext st s
  none : r.2 ≠ .ret → r.1 = none
  locals : r.2 ≠ .ret → s.locals = st.locals
  stack : r.2 ≠ .ret → s.stack.length = st.stack.length

theorem ForPost.post {i cnd stp b l r s} (h : ForPost c va ra st r s) :
    PostR c va ra (.for_ i cnd stp b l) st r s where
  inv := h.inv
  ext := h.ext
  value := fun v hv hf => by rw [h.none (by simp [hf])] at hv; cases hv
  quiet := fun _ h => by simp [Expr.leaves] at h
  valued := fun _ _ => by simp [Valued]
  swizzle := fun h => by simp [Expr.isSwizzle] at h

theorem wp_forE (hev : Good c va ra ev) {n i cnd stp b label} (h0 : ExtE st0 st)
    (hi : ClosuresWF c va ra st) (hw : (Expr.for_ i cnd stp b label).WF (kOf c va ra st)) :
    wp (forE n ev i cnd stp b label) (ForPost c va ra st) (Err c va ra st0) st := by
  rw [Expr.WF] at hw
  refine wp_scope2 (wp_ev hev h0 hi hw.1 ?_)
  -- after the initialiser
  have main : ∀ s, Ext st s → ClosuresWF c va ra s →
      wp (do
        let s ← EM.get
        loopN n (forRound ev cnd stp b label s.stack.length s.locals.length) ())
        (fun r s => if r.1 then ForPost c va ra st r.2 { s with
            stack := s.stack.take st.stack.length, locals := s.locals.take st.locals.length }
          else ForPost c va ra st r.2 s) (Err c va ra st0) s := by
    intro s hs hi
    refine wp_bind (wp_get ?_)
    refine wp_loopN (fun _ t => Ext s t ∧ ClosuresWF c va ra t) ?_ ⟨.rfl, hi⟩
    rintro - t ⟨ht, hi⟩
    have hx := hs.trans ht
    have hend : ∀ u f, Ext s u → f ≠ Flow.ret → ClosuresWF c va ra u → ForPost c va ra st (none, f) { u with
        stack := u.stack.take st.stack.length, locals := u.locals.take st.locals.length } := by
      intro u f hu hf hi
      have hx := hs.trans hu
      have h1 := prefix_take hx.3
      have h2 : (u.stack.take st.stack.length).length = st.stack.length := by
        have := hx.5; simp; omega
      exact ⟨hi, ⟨hx.1, hx.2, h1.symm ▸ List.prefix_rfl, hx.4, h2.ge⟩, fun _ => rfl, fun _ => h1, fun _ => h2⟩
    have hret : ∀ u x, Ext s u → ClosuresWF c va ra u → ForPost c va ra st (x, .ret) u := by
      intro u x hu hi
      exact ⟨hi, hs.trans hu, fun h => absurd rfl h, fun h => absurd rfl h, fun h => absurd rfl h⟩
    refine wp_wantK hev (h0.trans hx.extE) hi (by rw [hx.kOf]; exact hw.2.1)
      (fun x u hu hi => wp_pure (hret u x (ht.trans hu) hi)) fun v u hu hi => ?_
    have hu := ht.transSame hu
    have hxu := hs.trans hu
    split
    · unfold forBody
      refine wp_bind (wp_mono (wp_block hev (h0.trans hxu.extE) hi (by rw [hxu.kOf]; exact hw.2.2.2))
        ?_ fun _ h => h)
      have hstep : ∀ {k} w, Ext s w → ClosuresWF c va ra w → (∀ y, Ext s y → ClosuresWF c va ra y →
          wp k (fun r st' => match r with
            | .inl _ => Ext s st' ∧ ClosuresWF c va ra st'
            | .inr a => if a.1 then ForPost c va ra st a.2 { st' with
                stack := st'.stack.take st.stack.length,
                locals := st'.locals.take st.locals.length } else ForPost c va ra st a.2 st')
            (Err c va ra st0) y) →
          wp (forStep ev stp k) (fun r st' => match r with
            | .inl _ => Ext s st' ∧ ClosuresWF c va ra st'
            | .inr a => if a.1 then ForPost c va ra st a.2 { st' with
                stack := st'.stack.take st.stack.length,
                locals := st'.locals.take st.locals.length } else ForPost c va ra st a.2 st')
            (Err c va ra st0) w := by
        intro k w hsw hi hk
        have hw' := hs.trans hsw
        refine wp_ev hev (h0.trans hw'.extE) hi (by rw [hw'.kOf]; exact hw.2.2.1) ?_
        rintro ⟨_ | x, _ | _ | _ | _⟩ y hp
        case none.cont => exact hk y (hsw.trans hp.ext) hp.inv
        case none.ret => exact wp_pure (hret _ _ (hsw.trans hp.ext) hp.inv)
        case some.ret => exact wp_pure (hret _ _ (hsw.trans hp.ext) hp.inv)
        all_goals exact wp_errT ⟨h0.trans (hw'.trans hp.ext).extE, hp.inv⟩
      rintro ⟨x, _ | _ | l | l⟩ w ⟨hi, hw', _⟩
      · refine wp_mono (hstep (k := do
          truncStack s.stack.length
          truncLocals s.locals.length
          pure (.inl ())) w (hu.transSame hw') hi fun y hy hi => ?_)
          (fun r _ h => by cases r <;> exact h) fun _ h => h
        refine wp_bind (wp_modify (wp_bind (wp_modify (wp_pure ⟨?_, hi⟩))))
        refine ⟨hy.1, hy.2, ?_, hy.4, ?_⟩
        · show s.locals <+: y.locals.take s.locals.length
          rw [prefix_take hy.3]
          exact List.prefix_rfl
        · have := hy.5; simp; omega
      · exact wp_pure (hret w x (hu.transSame hw') hi)
      · exact wp_pure (hend w _ (hu.transSame hw') onBreak_ne hi)
      · simp only
        cases ho : onContinue label l with
        | none =>
          exact wp_mono (hstep (k := pure (.inl ())) w (hu.transSame hw') hi
            fun y hy hi => wp_pure ⟨hy, hi⟩) (fun r _ h => by cases r <;> exact h) fun _ h => h
        | some f => exact wp_pure (hend w _ (hu.transSame hw') (onContinue_ne ho) hi)
    · exact wp_pure (hend u _ hu (by simp) hi)
    · exact wp_errT ⟨h0.trans hxu.extE, hi⟩
  rintro ⟨_ | x, _ | _ | _ | _⟩ s hp
  case none.cont => exact main s hp.ext hp.inv
  case none.ret =>
    exact wp_pure ⟨hp.inv, hp.ext, fun h => absurd rfl h, fun h => absurd rfl h, fun h => absurd rfl h⟩
  case some.ret =>
    exact wp_pure ⟨hp.inv, hp.ext, fun h => absurd rfl h, fun h => absurd rfl h, fun h => absurd rfl h⟩
  all_goals exact wp_errT ⟨h0.trans hp.ext.extE, hp.inv⟩

/-! ## Other loops -/

theorem wp_forNLoop [FloatOps] (hev : Good c va ra ev) {n} {kd : ForKind}
    {name start stop body label} (hk : kd ≠ .linkFor) (h0 : ExtE st0 st)
    (hi : ClosuresWF c va ra st)
    (hw : (Expr.forN kd name start stop body label).WF (kOf c va ra st)) :
    wp (forNLoop n ev kd name start stop body label) (OutPost c va ra (decide (kd ≠ .forN)) st)
      (Err c va ra st0) st := by
  rw [Expr.WF] at hw
  refine wp_bind (wp_mono (wp_countLoop hev (fun a => kd ≠ .forN → a.isSome) h0 hi hw.1 hw.2.1
    ?_ ?_) ?_ fun _ h => h)
  · cases kd <;> simp [ForKind.init] at *
  · intro a x s hJ hs hi
    refine wp_bodyRound hev (fun a => kd ≠ .forN → a.isSome) hi (by rw [hs.kOf]; exact hw.2.2.1) hJ
      (fun a x => .forStepN ..) fun a x s hJ => ?_
    by_cases hkn : kd = .forN
    · subst hkn
      unfold wp; split <;> simp
    · exact wp_mono (forKind_step_isSome hkn) (fun _ _ h _ => h (hJ hkn)) fun _ h => h
  · rintro ⟨a, x, f⟩ s ⟨hi, hs, hn⟩
    by_cases hf : f = .ret
    · subst hf
      exact wp_pure (.ret hs hi)
    · obtain ⟨h1, h2, h3⟩ := hn hf
      have : accResult (a, (x, f)) = (a, f) := by
        cases f <;> first | rfl | exact absurd rfl hf
      refine wp_pure ?_
      rw [this]
      refine ⟨hi, hs, fun _ => h1, fun ha _ => ?_⟩
      simp only at ha h2
      subst ha
      simpa using h2

theorem wp_forInLoop [FloatOps] (hev : Good c va ra ev) {n} {kd : ForInKind}
    {name iter body label} (h0 : ExtE st0 st) (hi : ClosuresWF c va ra st)
    (hw : (Expr.forIn kd name iter body label).WF (kOf c va ra st)) :
    wp (forInLoop c n ev kd name iter body label) (OutPost c va ra false st)
      (Err c va ra st0) st := by
  rw [Expr.WF] at hw
  refine wp_bind (wp_mono (wp_chanLoop hev (fun _ => True) h0 hi hw.1 trivial trivial ?_) ?_
    fun _ h => h)
  · intro a x s hJ hs hi
    exact wp_bodyRound hev (fun _ => True) hi (by rw [hs.kOf]; exact hw.2.1) trivial
      (fun a x => .forStepIn ..) fun a x s hJ => by unfold wp; split <;> simp
  · rintro ⟨a, x, f⟩ s ⟨hi, hs, hn⟩
    by_cases hf : f = .ret
    · subst hf
      exact wp_pure (.ret hs hi)
    · obtain ⟨h1, h2, h3⟩ := hn hf
      have : accResult (a, (x, f)) = (a, f) := by
        cases f <;> first | rfl | exact absurd rfl hf
      refine wp_pure ?_
      rw [this]
      exact ⟨hi, hs, fun _ => h1, fun _ _ => rfl⟩

theorem LoopPost.link {l r s} (h : LoopPost c va ra (fun _ => True) st (l, r) s) :
    OutPost c va ra true st (linkResult (l, r)) s := by
  obtain ⟨x, f⟩ := r
  obtain ⟨hi, hs, hn⟩ := h
  by_cases hf : f = .ret
  · subst hf
    cases x <;> exact .ret hs hi
  · obtain ⟨h1, -, h3⟩ := hn hf
    simp only at h3
    subst h3
    rcases f with _ | _ | _ | _
    · exact .val h1 hi
    · exact absurd rfl hf
    all_goals exact ⟨hi, hs, fun _ => h1, by simp [linkResult]⟩

/-! ## Vectors and matrices -/

theorem wp_popNum {f : F64 → EM β} {Q} {n : Nat} {s : St} (h0 : ExtE st0 st)
    (hg : Grown (n + 1) st s) (hi : ClosuresWF c va ra s)
    (h : ∀ v s, Grown n st s → ClosuresWF c va ra s → wp (f v) Q (Err c va ra st0) s) :
    wp (popNum >>= f) Q (Err c va ra st0) s := by
  refine wp_bind ?_
  unfold popNum
  refine wp_popE hg hi fun v t ht hi => ?_
  refine wp_quiet (.derefE _) (h0.trans ht.ext.extE) hi fun d u hu hi => ?_
  have hu := ht.trans hu.grown
  split
  · exact wp_pure (h _ _ hu hi)
  · exact wp_errExpected2 ⟨h0.trans hu.ext.extE, hi⟩

theorem wp_popVec {f : Vec4 → EM β} {Q} {n : Nat} {s : St} (h0 : ExtE st0 st)
    (hg : Grown (n + 1) st s) (hi : ClosuresWF c va ra s)
    (h : ∀ v s, Grown n st s → ClosuresWF c va ra s → wp (f v) Q (Err c va ra st0) s) :
    wp (popVec >>= f) Q (Err c va ra st0) s := by
  refine wp_bind ?_
  unfold popVec
  refine wp_popE hg hi fun v t ht hi => ?_
  refine wp_quiet (.derefE _) (h0.trans ht.ext.extE) hi fun d u hu hi => ?_
  have hu := ht.trans hu.grown
  split
  · exact wp_pure (h _ _ hu hi)
  · exact wp_errExpected2 ⟨h0.trans hu.ext.extE, hi⟩

theorem wp_vec4E [FloatOps] (hev : Good c va ra ev) {args side} (h0 : ExtE st0 st)
    (hi : ClosuresWF c va ra st) (hw : (Expr.vec4 args).WF (kOf c va ra st)) :
    wp (vec4E ev args side) (ValPost c va ra st) (Err c va ra st0) st := by
  rw [Expr.WF] at hw
  refine wp_bind (wp_get ?_)
  refine wp_vecArgs4 hev h0 hi hw.1 hw.2.1 hw.2.2 (fun x s hs hi => .ret hs hi) fun s hs hi => ?_
  refine wp_popNum h0 hs hi fun _ s hs hi => ?_
  refine wp_popNum h0 hs hi fun _ s hs hi => ?_
  refine wp_popNum h0 hs hi fun _ s hs hi => ?_
  refine wp_popNum h0 hs hi fun _ s hs hi => ?_
  exact wp_pure (.val hs.same hi)

theorem wp_mat4E (hev : Good c va ra ev) {args side} (h0 : ExtE st0 st)
    (hi : ClosuresWF c va ra st) (hw : (Expr.mat4 args).WF (kOf c va ra st)) :
    wp (mat4E ev args side) (ValPost c va ra st) (Err c va ra st0) st := by
  rw [Expr.WF] at hw
  refine wp_vecArgsAll hev h0 hi hw.1 hw.2.1 (fun x s hs hi => .ret hs hi) fun s hs hi => ?_
  rw [hw.2.2] at hs
  refine wp_popVec h0 hs hi fun _ s hs hi => ?_
  refine wp_popVec h0 hs hi fun _ s hs hi => ?_
  refine wp_popVec h0 hs hi fun _ s hs hi => ?_
  refine wp_popVec h0 hs hi fun _ s hs hi => ?_
  exact wp_pure (.val hs.same hi)

theorem wp_pushComps [FloatOps] {v sel} {E} (hi : ClosuresWF c va ra st) :
    wp (pushComps v sel) (fun _ s => Grown sel.length st s ∧ ClosuresWF c va ra s) E st := by
  induction sel generalizing st with
  | nil => exact wp_pure ⟨Same.rfl.grown, hi⟩
  | cons i is ih =>
    rw [pushComps]
    split
    · refine wp_bind (wp_modify (wp_mono (ih hi) (fun _ s hs => ⟨?_, hs.2⟩) fun _ h => h))
      have := (Grown.push _).trans hs.1
      rwa [Nat.add_comm] at this
    · exact wp_panic

theorem wp_swizzleE [FloatOps] (hev : Good c va ra ev) {sel e} (h0 : ExtE st0 st)
    (hi : ClosuresWF c va ra st) (hw : e.WF (kOf c va ra st)) :
    wp (swizzleE ev sel e) (PostR c va ra (.swizzle sel e) st) (Err c va ra st0) st := by
  refine wp_wantK hev h0 hi hw (fun x s hs hi => wp_pure ?_) fun x s hs hi => ?_
  · exact ⟨hi, hs, by simp, fun h => absurd rfl h, by simp, by simp⟩
  refine wp_quiet (.derefE _) (h0.trans hs.extE) hi fun d t ht hi => ?_
  have hs := hs.trans ht
  split
  · refine wp_bind (wp_mono (wp_pushComps hi) (fun _ u hu => wp_pure ?_) fun _ h => h)
    have hg := hs.grown.trans hu.1
    rw [Nat.zero_add] at hg
    exact ⟨hu.2, hg.ext, by simp, fun _ h => by simp [Expr.leaves] at h, fun _ _ => by simp [Valued],
      fun _ _ => ⟨rfl, hg⟩⟩
  · exact wp_errExpected ⟨h0.trans hs.extE, hi⟩

/-! ## The rest -/

theorem wp_closureE (hev : Good c va ra ev) {n args cur r file e} (h0 : ExtE st0 st)
    (hi : ClosuresWF c va ra st) (hw : e.WF (kOf c va ra st)) :
    wp (closureE n ev args cur r file e) (ValPost c va ra st) (Err c va ra st0) st := by
  refine wp_bind (show wp relIndex _ _ _ from ?_)
  show wp _ _ _ _
  refine wp_bind (wp_mono (wp_grabExpr hev n .right 1 e _ st hi rfl hw) ?_ fun _ h => h.mono h0)
  rintro (x | e') s ⟨hi, hs⟩
  · exact wp_pure (.ret hs hi)
  · refine wp_bind (wp_get (wp_bind (wp_modify (wp_pure (.val ?_ ?_)))))
    · exact ⟨hs.1.1, hs.1.2, hs.1.3, hs.1.4, hs.1.5⟩
    · intro cl hcl
      rcases List.mem_append.1 hcl with h | h
      · exact hi cl h
      · rw [List.mem_singleton] at h
        subst h
        have := hs.2.wf
        rw [kOf, ← hs.1.module] at this
        exact this

theorem wp_goArgs (hev : Good c va ra ev) {n args acc} {k : List Val → EM R} (h0 : ExtE st0 st)
    (hw : WFs (kOf c va ra st) args)
    (hk : ∀ vs s, Same st s → ClosuresWF c va ra s →
      wp (k vs) (ValPost c va ra st) (Err c va ra st0) s) : ∀ s, Same st s → ClosuresWF c va ra s →
    wp (goArgs n ev args acc k) (ValPost c va ra st) (Err c va ra st0) s := by
  induction args generalizing acc with
  | nil => exact fun s hs hi => hk _ _ hs hi
  | cons a as ih =>
    intro s hs hi
    rw [WFs] at hw
    refine wp_want hev (h0.trans hs.extE) hi (by rw [hs.kOf]; exact hw.1)
      (fun x t ht hi => .ret (hs.transExt ht) hi) fun x t ht hi => ?_
    have hs := hs.trans ht
    exact wp_quiet (.cloneE _ _) (h0.trans hs.extE) hi fun v u hu hi => ih hw.2 _ (hs.trans hu) hi

theorem wp_goE (hev : Good c va ra ev) {n name args} (h0 : ExtE st0 st)
    (hi : ClosuresWF c va ra st) (hw : WFs (kOf c va ra st) args) :
    wp (goE c n ev name args) (ValPost c va ra st) (Err c va ra st0) st := by
  unfold goE
  refine wp_quiet .lastCall h0 hi fun call s hs hi => ?_
  refine wp_bind (wp_get ?_)
  refine wp_goArgs hev h0 hw (fun vs s hs hi => ?_) s hs hi
  refine wp_quiet .lastCall (h0.trans hs.extE) hi fun call t ht hi => ?_
  have hs := hs.trans ht
  exact wp_bind (wp_get (wp_bind (wp_modify (wp_pure (.val ⟨hs.1, hs.2, hs.3, hs.4, hs.5⟩ hi)))))

theorem wp_tryExprE (hev : Good c va ra ev) {e} (hi : ClosuresWF c va ra st)
    (hw : e.WF (kOf c va ra st)) :
    wp (tryExprE ev e) (PostR c va ra (.tryExpr e) st) (Err c va ra st) st := by
  have h := hev e .right st hi hw
  unfold wp tryExprE
  unfold wp at h
  cases hx : ev e .right st with
  | ok r s =>
    rw [hx] at h
    obtain ⟨_ | x, _ | _ | _ | _⟩ := r
    case none.cont => exact ⟨h.ext.extE, h.inv⟩
    case some.cont => exact ValPost.post (.val (h.value _ rfl rfl) h.inv) rfl
    all_goals exact ⟨h.inv, h.ext, by simp, fun hf hl => h.quiet hf (by simpa [Expr.leaves] using hl),
      by simp, fun h => by simp [Expr.isSwizzle] at h⟩
  | err m s =>
    rw [hx] at h
    exact ValPost.post (.val h.1.cut4 h.2) rfl
  | panic w => trivial
  | timeout => trivial

theorem wp_tryE (hev : Good c va ra ev) {e side} (h0 : ExtE st0 st) (hi : ClosuresWF c va ra st)
    (hw : e.WF (kOf c va ra st)) :
    wp (tryE ev e side) (ValPost c va ra st) (Err c va ra st0) st := by
  refine wp_want hev h0 hi hw (fun x t ht hi => .ret ht hi) fun x s hs hi => ?_
  refine wp_quiet (.derefE _) (h0.trans hs.extE) hi fun d t ht hi => ?_
  have hs := hs.trans ht
  refine wp_mono (wp_and (wp_quiet' (Q := fun _ t => Same st t ∧ ClosuresWF c va ra t)
    (.tryVal d) (h0.trans hs.extE) hi fun _ t ht hi => ⟨hs.trans ht, hi⟩)
    (tryVal_some (v := d))) ?_ fun _ h => h.1
  rintro ⟨x, f⟩ t ⟨⟨h1, h2⟩, h3, h4⟩
  exact ⟨h2, h1.ext, fun _ => h1, fun _ => h3⟩

/-- What an assignment leaves. -/
structure AssignPost (c : ECfg) (va ra : Nat → Nat) (st : St) (r : R) (s : St) : Prop where
  inv : ClosuresWF c va ra s
  ext : Ext st s
  none : r.2 ≠ .ret → r = (none, .cont)

theorem AssignPost.post {op a b r s} (h : AssignPost c va ra st r s) :
    PostR c va ra (.assign op a b) st r s where
  inv := h.inv
  ext := h.ext
  value := fun v hv hf => by rw [h.none (by simp [hf])] at hv; cases hv
  quiet := fun _ h => by simp [Expr.leaves] at h
  valued := fun _ _ => by simp [Valued]
  swizzle := fun h => by simp [Expr.isSwizzle] at h

theorem AssignPost.ret {x s} (h : Ext st s) (hi : ClosuresWF c va ra s) :
    AssignPost c va ra st (x, .ret) s := ⟨hi, h, fun h => absurd rfl h⟩
theorem AssignPost.done {s} (h : Ext st s) (hi : ClosuresWF c va ra s) :
    AssignPost c va ra st (Option.none, .cont) s := ⟨hi, h, fun _ => rfl⟩

theorem assignTo_none [FloatOps] [VecMath] {op p b} :
    wp (assignTo op p b) (fun r _ => r = (none, .cont)) (fun _ => True) st := by
  unfold assignTo
  refine wp_bind (wp_mono ((Quiet.derefE _).run st) (fun d s _ => ?_) fun _ _ => trivial)
  refine wp_bind (wp_mono ((Quiet.readE _).run s) (fun d s _ => ?_) fun _ _ => trivial)
  refine wp_ite (fun _ => wp_panic) fun _ => wp_ite (fun _ => wp_panic) fun _ => ?_
  split
  · exact wp_bind (wp_mono ((Quiet.writeE _ _).run s) (fun d s _ => wp_pure rfl) fun _ _ => trivial)
  · exact wp_errT trivial
  · exact wp_panic

theorem storeAt_none {x v} :
    wp (storeAt x v) (fun r _ => r = (none, .cont)) (fun _ => True) st := by
  unfold storeAt
  split
  · exact wp_bind (wp_mono ((Quiet.writeE _ _).run st) (fun d s _ => wp_pure rfl) fun _ _ => trivial)
  · exact wp_panic

theorem wp_assignE [FloatOps] [VecMath] (hev : Good c va ra ev) {op l r} (h0 : ExtE st0 st)
    (hi : ClosuresWF c va ra st) (hl : l.WF (kOf c va ra st)) (hr : r.WF (kOf c va ra st)) :
    wp (assignE ev op l r) (AssignPost c va ra st) (Err c va ra st0) st := by
  refine wp_ite (fun _ => ?_) fun _ => ?_
  · unfold declareE
    split
    · rename_i it
      refine wp_want hev h0 hi hr (fun x t ht hi => .ret ht hi) fun x s hs hi => ?_
      refine wp_quiet (.shallow _) (h0.trans hs.extE) hi fun d t ht hi => ?_
      have hs := hs.trans ht
      refine wp_ite (fun _ => ?_) fun _ => ?_
      · refine wp_bind (wp_get (wp_bind (wp_modify ?_)))
        cases it.current
        · exact wp_bind (wp_modify (wp_pure (.done (hs.transExt
            ⟨rfl, rfl, List.prefix_append _ _, List.prefix_rfl, by simp⟩) hi)))
        · exact wp_bind (wp_modify (wp_bind (wp_modify (wp_pure (.done (hs.transExt
            ⟨rfl, rfl, List.prefix_append _ _, List.prefix_append _ _, by simp⟩) hi)))))
      · refine wp_want hev (h0.trans hs.extE) hi (by rw [hs.kOf]; exact hl)
          (fun x t ht hi => .ret (hs.transExt ht) hi) fun x s' hs' hi => ?_
        have hs := hs.trans hs'
        refine wp_mono (wp_and (wp_quiet' (Q := fun _ t => Same st t ∧ ClosuresWF c va ra t)
          (.storeAt x d) (h0.trans hs.extE) hi fun _ t ht hi => ⟨hs.trans ht, hi⟩)
          storeAt_none) (fun r s h => ?_) fun _ h => h.1
        rw [h.2]; exact .done h.1.1.ext h.1.2
    · exact wp_errT ⟨h0, hi⟩
  · refine wp_want hev h0 hi hr (fun x t ht hi => .ret ht hi) fun x s hs hi => ?_
    refine wp_want hev (h0.trans hs.extE) hi (by rw [hs.kOf]; exact hl)
      (fun x t ht hi => .ret (hs.transExt ht) hi) fun y s' hs' hi => ?_
    have hs := hs.trans hs'
    refine wp_quiet (.targetOf _) (h0.trans hs.extE) hi fun p t ht hi => ?_
    have hs := hs.trans ht
    refine wp_mono (wp_and (wp_quiet' (Q := fun _ t => Same st t ∧ ClosuresWF c va ra t)
      (.assignTo op p x) (h0.trans hs.extE) hi fun _ t ht hi => ⟨hs.trans ht, hi⟩)
      assignTo_none) (fun r s h => ?_) fun _ h => h.1
    rw [h.2]; exact .done h.1.1.ext h.1.2

theorem inE_some {f} : wp (inE c f) (fun r _ => r.1.isSome ∧ r.2 = .cont) (fun _ => True) st := by
  unfold inE
  split
  · refine wp_bind (wp_mono (Quiet.relIndex.run st) (fun d s _ => ?_) fun _ _ => trivial)
    refine wp_bind (wp_get ?_)
    split
    · exact wp_panic
    · split
      · exact wp_panic
      · exact wp_bind (wp_modify (wp_pure ⟨rfl, rfl⟩))
  · exact wp_errT trivial

theorem Good.step [FloatOps] [VecMath] (hE : ExtFns c va ra) (hM : ModulesWF c va ra)
    (hev : Good c va ra ev) (n : Nat) : Good c va ra (evalStep c n ev) := by
  intro e side st hi hw
  have hval : ∀ {m : EM R} {e : Expr}, e.isSwizzle = false →
      wp m (ValPost c va ra st) (Err c va ra st) st →
      wp m (PostR c va ra e st) (Err c va ra st) st :=
    fun he h => wp_mono h (fun _ _ h => h.post he) fun _ h => h
  unfold evalStep
  split
  · rw [Expr.WF] at hw; exact wp_linkE hev .rfl hi hw
  · rw [Expr.WF] at hw; exact hval rfl (wp_objectE hev .rfl hi hw)
  · rw [Expr.WF] at hw; exact hval rfl (wp_arrayE hev .rfl hi hw)
  · exact hval rfl (wp_arrayFillE hev .rfl hi hw)
  · rw [Expr.WF] at hw
    exact wp_mono (wp_blockOut (v := ValuedLast _ _) hev .rfl .rfl hi hw id)
      (fun _ _ h => h.post rfl (by rw [Valued])) fun _ h => h
  · rw [Expr.WF] at hw
    refine hval rfl (wp_want hev .rfl hi hw (fun x s hs hi => .ret hs hi) fun x s hs hi => ?_)
    exact wp_pure (.ret hs.ext hi)
  · exact hval rfl (wp_pure (.ret .rfl hi))
  · exact hval rfl (wp_pure ⟨hi, .rfl, fun _ => .rfl, by simp⟩)
  · exact hval rfl (wp_pure ⟨hi, .rfl, fun _ => .rfl, by simp⟩)
  · rw [Expr.WF] at hw; exact hval rfl (wp_goE hev .rfl hi hw)
  · rename_i f _ _
    exact wp_mono (wp_callE hE hM hev .rfl hi hw) (fun _ _ h => h.post rfl (by
      cases f <;> simp [Valued, callValued])) fun _ h => h
  · rw [Expr.WF] at hw; exact hval rfl (wp_itemE hev .rfl hi hw)
  · rw [Expr.WF] at hw
    exact wp_mono (wp_assignE hev .rfl hi hw.1 hw.2) (fun _ _ h => h.post) fun _ h => h
  · exact hval rfl (wp_vec4E hev .rfl hi hw)
  · exact hval rfl (wp_mat4E hev .rfl hi hw)
  · exact wp_mono (wp_forE hev .rfl hi hw) (fun _ _ h => h.post) fun _ h => h
  · exact wp_bind (wp_mono (wp_linkForN hev .rfl hi hw)
      (fun _ _ h => wp_pure (h.link.post rfl (by simp [Valued]))) fun _ h => h)
  · rename_i hk
    exact wp_mono (wp_forNLoop hev (fun h => hk h) .rfl hi hw)
      (fun _ _ h => h.post rfl (by simp [Valued])) fun _ h => h
  · refine wp_bind (wp_mono (wp_linkForIn hev .rfl hi hw)
      (fun _ _ h => wp_pure (OutPost.post (v := false) ⟨h.link.inv, h.link.ext, h.link.same,
        fun _ _ => rfl⟩ rfl (by simp [Valued]))) fun _ h => h)
  · exact wp_mono (wp_forInLoop hev .rfl hi hw)
      (fun _ _ h => h.post rfl (by simp [Valued])) fun _ h => h
  · exact wp_iteE hev .rfl hi hw
  · exact hval rfl (wp_pure (.val .rfl hi))
  · rw [Expr.WF] at hw; exact hval rfl (wp_tryE hev .rfl hi hw)
  · rw [Expr.WF] at hw; exact wp_swizzleE hev .rfl hi hw
  · rw [Expr.WF] at hw; exact hval rfl (wp_closureE hev .rfl hi hw)
  · rw [Expr.WF] at hw
    exact wp_mono (wp_callClosureE hev .rfl hi hw.1 hw.2)
      (fun _ _ h => h.post rfl (by simp [Valued])) fun _ h => h
  · exact wp_errT ⟨.rfl, hi⟩
  · rw [Expr.WF] at hw; exact wp_tryExprE hev hi hw
  · refine hval rfl (wp_mono (wp_and (wp_quiet' (Q := fun _ t => Same st t ∧ ClosuresWF c va ra t)
      (.inE ..) .rfl hi fun _ t ht hi => ⟨ht, hi⟩) inE_some) (fun r s h => ?_) fun _ h => h.1)
    exact ⟨h.1.2, h.1.1.ext, fun _ => h.1.1, fun _ => h.2.1⟩

/-- The evaluator restores the stacks. -/
theorem Good.eval [FloatOps] [VecMath] (hE : ExtFns c va ra) (hM : ModulesWF c va ra) (n : Nat) :
    Good c va ra (eval c n) := by
  induction n with
  | zero => exact fun e side st hi hw => trivial
  | succ n ih => exact Good.step hE hM ih n

end Dyon
