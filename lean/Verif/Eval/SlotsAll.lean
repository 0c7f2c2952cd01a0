import Verif.Eval.SlotsGrab

/-!
# Evaluation by slot and by name agree: all expressions

Lemmas for C24.
-/

namespace Dyon

variable {lost : Option String} {c : ECfg} {va ra : Nat → Nat} {ev ev' : Evl} {α β : Type} {st st0 : St} {Γ : Env}

/-! ## Literals -/

theorem rel_linkLit (hg : Good c va ra ev) (ha : Agrees c va ra ev ev') {items l}
    (hi : ClosuresWF c va ra st) (hc : ClosRes c va ra st) (hw : WFs (kOf c va ra st) items)
    (hr : RSeq (kOf c va ra st) (arOf c st) items Γ []) (hal : Aligned Γ st) :
    Rel c va ra (linkLit ev items l) (linkLit ev' items l) st := by
  induction items generalizing st l Γ with
  | nil => exact rel_pure hc
  | cons e es ih =>
    rw [WFs] at hw
    rw [RSeq] at hr
    refine rel_ev hg ha hi hc hw.1 hr.1 hal ?_
    rintro ⟨_ | x, _ | _ | _ | _⟩ s hp hc hal'
    case none.cont =>
      exact ih hp.inv hc (by rw [hp.ext.kOf]; exact hw.2)
        (by rw [hp.ext.kOf, hp.ext.arOf]; exact hr.2.2) (hal' rfl hr.2.1)
    case some.cont =>
      refine rel_quiet (.derefE _) hp.inv hc fun d u hu hi hc => ?_
      have hx := hp.ext.transSame hu
      split
      · exact ih hi hc (by rw [hx.kOf]; exact hw.2)
          (by rw [hx.kOf, hx.arOf]; exact hr.2.2) ((hal' rfl hr.2.1).same hu)
      · exact rel_errT hc
    all_goals exact rel_pure hc

theorem rel_linkE (hg : Good c va ra ev) (ha : Agrees c va ra ev ev') {items}
    (hi : ClosuresWF c va ra st) (hc : ClosRes c va ra st) (hw : WFs (kOf c va ra st) items)
    (hr : RSeq (kOf c va ra st) (arOf c st) items Γ []) (hal : Aligned Γ st) :
    Rel c va ra (linkE ev items) (linkE ev' items) st := by
  unfold linkE
  split
  · exact rel_pure hc
  · exact rel_scope3 (rel_linkLit hg ha hi hc hw hr hal)

theorem rel_objectE (hg : Good c va ra ev) (ha : Agrees c va ra ev ev') {kvs acc}
    (hi : ClosuresWF c va ra st) (hc : ClosRes c va ra st) (hw : WFkvs (kOf c va ra st) kvs)
    (hr : RKvs (kOf c va ra st) (arOf c st) kvs Γ []) (hal : Aligned Γ st) :
    Rel c va ra (objectE ev kvs acc) (objectE ev' kvs acc) st := by
  induction kvs generalizing acc st with
  | nil => exact rel_pure hc
  | cons x xs ih =>
    obtain ⟨k, e⟩ := x
    rw [WFkvs] at hw
    rw [RKvs] at hr
    refine rel_want hg ha hi hc hw.1 hr.1 hal fun x t ht hi hc => ?_
    split
    · exact rel_errT hc
    · exact ih hi hc (by rw [ht.kOf]; exact hw.2) (by rw [ht.kOf, ht.arOf]; exact hr.2)
        (hal.same ht)

theorem rel_arrayE (hg : Good c va ra ev) (ha : Agrees c va ra ev ev') {es acc}
    (hi : ClosuresWF c va ra st) (hc : ClosRes c va ra st) (hw : WFs (kOf c va ra st) es)
    (hr : RAll (kOf c va ra st) (arOf c st) es Γ []) (hal : Aligned Γ st) :
    Rel c va ra (arrayE ev es acc) (arrayE ev' es acc) st := by
  induction es generalizing acc st with
  | nil => exact rel_pure hc
  | cons x xs ih =>
    rw [WFs] at hw
    rw [RAll] at hr
    refine rel_want hg ha hi hc hw.1 hr.1 hal fun x t ht hi hc => ?_
    exact ih hi hc (by rw [ht.kOf]; exact hw.2) (by rw [ht.kOf, ht.arOf]; exact hr.2)
      (hal.same ht)

theorem rel_arrayFillE (hg : Good c va ra ev) (ha : Agrees c va ra ev ev') {f m}
    (hi : ClosuresWF c va ra st) (hc : ClosRes c va ra st)
    (hw : (Expr.arrayFill f m).WF (kOf c va ra st))
    (hr : (Expr.arrayFill f m).Res (kOf c va ra st) (arOf c st) Γ []) (hal : Aligned Γ st) :
    Rel c va ra (arrayFillE ev f m) (arrayFillE ev' f m) st := by
  rw [Expr.WF] at hw
  rw [Expr.Res] at hr
  refine rel_want hg ha hi hc hw.1 hr.1 hal fun x s hs hi hc => ?_
  refine rel_want hg ha hi hc (by rw [hs.kOf]; exact hw.2) (by rw [hs.kOf, hs.arOf]; exact hr.2)
    (hal.same hs) fun y s' hs' hi hc => ?_
  refine rel_quiet (.derefE _) hi hc fun x s' hs' hi hc => ?_
  refine rel_quiet (.derefE _) hi hc fun y s' hs' hi hc => ?_
  split
  · exact rel_pure hc
  · exact rel_errT hc

/-! ## Branches -/

theorem rel_elifsE (hg : Good c va ra ev) (ha : Agrees c va ra ev ev') {els elifs}
    (hi : ClosuresWF c va ra st) (hc : ClosRes c va ra st)
    (hw : WFelifs (kOf c va ra st) elifs) (hw' : WFoptList (kOf c va ra st) els)
    (hr : RElifs (kOf c va ra st) (arOf c st) elifs Γ [])
    (hr' : ROptSeq (kOf c va ra st) (arOf c st) els Γ []) (hal : Aligned Γ st) :
    Rel c va ra (elifsE ev els elifs) (elifsE ev' els elifs) st := by
  induction elifs generalizing st with
  | nil =>
    cases els with
    | none => exact rel_pure hc
    | some b =>
      rw [WFoptList] at hw'
      rw [ROptSeq] at hr'
      exact rel_block hg ha hi hc hw' hr' hal
  | cons x xs ih =>
    obtain ⟨cnd, b⟩ := x
    rw [WFelifs] at hw
    rw [RElifs] at hr
    refine rel_want hg ha hi hc hw.1 hr.1 hal fun x t ht hi hc => ?_
    refine rel_quiet (.derefE _) hi hc fun d s' hs' hi hc => ?_
    have hs := ht.trans hs'
    split
    · exact ih hi hc (by rw [hs.kOf]; exact hw.2.2) (by rw [hs.kOf]; exact hw')
        (by rw [hs.kOf, hs.arOf]; exact hr.2.2) (by rw [hs.kOf, hs.arOf]; exact hr') (hal.same hs)
    · exact rel_block hg ha hi hc (by rw [hs.kOf]; exact hw.2.1)
        (by rw [hs.kOf, hs.arOf]; exact hr.2.1) (hal.same hs)
    · exact rel_errT hc

theorem rel_iteE (hg : Good c va ra ev) (ha : Agrees c va ra ev ev') {cnd t elifs els}
    (hi : ClosuresWF c va ra st) (hc : ClosRes c va ra st)
    (hw : (Expr.ite cnd t elifs els).WF (kOf c va ra st))
    (hr : (Expr.ite cnd t elifs els).Res (kOf c va ra st) (arOf c st) Γ []) (hal : Aligned Γ st) :
    Rel c va ra (iteE ev cnd t elifs els) (iteE ev' cnd t elifs els) st := by
  rw [Expr.WF] at hw
  rw [Expr.Res] at hr
  refine rel_want hg ha hi hc hw.1 hr.1 hal fun x t ht hi hc => ?_
  refine rel_quiet (.derefE _) hi hc fun d s' hs' hi hc => ?_
  have hs := ht.trans hs'
  split
  · exact rel_block hg ha hi hc (by rw [hs.kOf]; exact hw.2.1)
      (by rw [hs.kOf, hs.arOf]; exact hr.2.1) (hal.same hs)
  · exact rel_elifsE hg ha hi hc (by rw [hs.kOf]; exact hw.2.2.1)
      (by rw [hs.kOf]; exact hw.2.2.2) (by rw [hs.kOf, hs.arOf]; exact hr.2.2.1)
      (by rw [hs.kOf, hs.arOf]; exact hr.2.2.2) (hal.same hs)
  · exact rel_errT hc

/-! ## Loops -/

theorem rel_forStep (hg : Good c va ra ev) (ha : Agrees c va ra ev ev') {stp}
    {k k' : EM (Unit ⊕ (Bool × R))} (hi : ClosuresWF c va ra st) (hc : ClosRes c va ra st)
    (hw : stp.WF (kOf c va ra st)) (hr : stp.Res (kOf c va ra st) (arOf c st) Γ [])
    (hal : Aligned Γ st) (hk : ∀ s, ClosRes c va ra s → Rel c va ra k k' s) :
    Rel c va ra (forStep ev stp k) (forStep ev' stp k') st := by
  refine rel_ev hg ha hi hc hw hr hal ?_
  rintro ⟨_ | x, _ | _ | _ | _⟩ s hp hc -
  case none.cont => exact hk s hc
  case none.ret => exact rel_pure hc
  case some.ret => exact rel_pure hc
  all_goals exact rel_errT hc

/-- The state of a `for` loop between rounds. -/
structure ForSt (c : ECfg) (va ra : Nat → Nat) (s t : St) : Prop where
  inv : ClosuresWF c va ra t
  module : t.module = s.module
  calls : t.calls = s.calls
  locals : t.locals = s.locals
  stack : t.stack.length = s.stack.length

theorem ForSt.same {s t u} (h : ForSt c va ra s t) (hs : Same t u) (hi : ClosuresWF c va ra u) :
    ForSt c va ra s u :=
  ⟨hi, hs.module.trans h.module, hs.calls.trans h.calls, hs.locals.trans h.locals,
    hs.stack.trans h.stack⟩

theorem ForSt.kOf {s t} (h : ForSt c va ra s t) : kOf c va ra t = kOf c va ra s := by
  simp only [Dyon.kOf, St.rel, h.module, h.calls]
theorem ForSt.arOf {s t} (h : ForSt c va ra s t) : arOf c t = arOf c s := by
  simp only [Dyon.arOf, St.rel, h.module, h.calls]
theorem ForSt.aligned {s t} (h : ForSt c va ra s t) (ha : Aligned Γ s) : Aligned Γ t :=
  ha.of_eq h.calls h.locals h.stack

theorem wp_forStep (hg : Good c va ra ev) (ha : Agrees c va ra ev ev') {stp} {s : St}
    {k : EM (Unit ⊕ (Bool × R))} {J : St → Prop}
    (hf : ForSt c va ra s st) (hc : ClosRes c va ra st)
    (hw : stp.WF (kOf c va ra s)) (hr : stp.Res (kOf c va ra s) (arOf c s) Γ [])
    (hal : Aligned Γ s) (hsw : stp.isSwizzle = false) (hd : decl stp = [])
    (hk : ∀ t, ForSt c va ra s t → wp k (fun r st' => match r with
        | .inl _ => J st'
        | .inr _ => True) (fun _ => True) t) :
    wp (forStep ev stp k) (fun r st' => match r with
        | .inl _ => J st'
        | .inr _ => True) (fun _ => True) st := by
  have h1 := hg stp .right st hf.inv (by rw [hf.kOf]; exact hw)
  have h2 := (ha stp .right st Γ hf.inv hc (by rw [hf.kOf]; exact hw)
    (by rw [hf.kOf, hf.arOf]; exact hr) (hf.aligned hal)).2
  refine wp_bind (wp_mono (wp_and h1 h2) ?_ fun _ _ => trivial)
  rintro ⟨_ | x, _ | _ | _ | _⟩ t ⟨hp, hl⟩
  case none.cont =>
    have hl := hl rfl hsw
    rw [hd] at hl
    refine hk t ⟨hp.inv, hp.ext.module.trans hf.module, hl.calls.trans hf.calls,
      (by simpa [slotsOf, hf.locals] using hl.locals), hl.stack.trans hf.stack⟩
  case none.ret => exact wp_pure trivial
  case some.ret => exact wp_pure trivial
  all_goals exact wp_errT trivial

theorem rel_forE (hg : Good c va ra ev) (ha : Agrees c va ra ev ev') {n i cnd stp b label}
    (hi : ClosuresWF c va ra st) (hc : ClosRes c va ra st)
    (hw : (Expr.for_ i cnd stp b label).WF (kOf c va ra st))
    (hr : (Expr.for_ i cnd stp b label).Res (kOf c va ra st) (arOf c st) Γ [])
    (hal : Aligned Γ st) :
    Rel c va ra (forE n ev i cnd stp b label) (forE n ev' i cnd stp b label) st := by
  rw [Expr.WF] at hw
  rw [Expr.Res] at hr
  obtain ⟨hri, hsi, hrc, hrs, hss, hds, hrb⟩ := hr
  refine rel_scope2 (rel_ev hg ha hi hc hw.1 hri hal ?_)
  rintro ⟨_ | x, _ | _ | _ | _⟩ s hp hc hal'
  case none.cont =>
    have hal := hal' rfl hsi
    have hx := hp.ext
    obtain ⟨-, hwc, hws, hwb⟩ := hw
    rw [← hx.kOf] at hwc hws hwb hrc hrs hrb
    rw [← hx.arOf] at hrc hrs hrb
    refine rel_get (rel_loopN (fun _ t => ForSt c va ra s t) ?_ ⟨hp.inv, rfl, rfl, rfl, rfl⟩ hc)
    rintro - t hf hc
    constructor
    · refine rel_wantK hg ha hf.inv hc (by rw [hf.kOf]; exact hwc)
        (by rw [hf.kOf, hf.arOf]; exact hrc) (hf.aligned hal) (fun _ _ hc => rel_pure hc)
        fun v u hu hi hc => ?_
      have hf := hf.same hu hi
      split
      · refine rel_bind (rel_block hg ha hi hc (by rw [hf.kOf]; exact hwb)
          (by rw [hf.kOf, hf.arOf]; exact hrb) (hf.aligned hal))
          (wp_block hg .rfl hi (by rw [hf.kOf]; exact hwb)) ?_
        rintro ⟨x, _ | _ | l | l⟩ w ⟨hi, hw', _⟩ hc
        · have hf := hf.same hw' hi
          exact rel_forStep hg ha hi hc (by rw [hf.kOf]; exact hws)
            (by rw [hf.kOf, hf.arOf]; exact hrs) (hf.aligned hal)
            fun s hc => rel_modify (rel_modify (rel_pure hc))
        · exact rel_pure hc
        · exact rel_pure hc
        · have hf := hf.same hw' hi
          simp only
          cases onContinue label l with
          | none =>
            exact rel_forStep hg ha hi hc (by rw [hf.kOf]; exact hws)
              (by rw [hf.kOf, hf.arOf]; exact hrs) (hf.aligned hal) fun s hc => rel_pure hc
          | some f => exact rel_pure hc
      · exact rel_pure hc
      · exact rel_errT hc
    · have h2 := (ha cnd .right t _ hf.inv hc (by rw [hf.kOf]; exact hwc)
        (by rw [hf.kOf, hf.arOf]; exact hrc) (hf.aligned hal)).1.2
      have h1 := hg cnd .right t hf.inv (by rw [hf.kOf]; exact hwc)
      refine wp_bind (wp_mono (wp_and h1 h2) ?_ fun _ _ => trivial)
      rintro ⟨_ | v, _ | _ | _ | _⟩ u ⟨hp, hc⟩
      case none.ret => exact wp_pure trivial
      case some.ret => exact wp_pure trivial
      case some.cont =>
        have hf := hf.same (hp.value _ rfl rfl) hp.inv
        simp only
        split
        · have h3 := (rel_block hg ha hf.inv hc (by rw [hf.kOf]; exact hwb)
            (by rw [hf.kOf, hf.arOf]; exact hrb) (hf.aligned hal)).2
          have h4 := wp_block hg (st0 := u) .rfl hf.inv (by rw [hf.kOf]; exact hwb)
          refine wp_bind (wp_mono (wp_and h4 h3) ?_ fun _ _ => trivial)
          rintro ⟨x, _ | _ | l | l⟩ w ⟨⟨hi, hw', _⟩, hc⟩
          · have hf := hf.same hw' hi
            refine wp_mono (wp_forStep hg ha (k := do
              truncStack s.stack.length
              truncLocals s.locals.length
              pure (.inl ())) (J := fun t => ForSt c va ra s t) hf hc hws hrs hal hss hds
              fun t ht => ?_) (fun r _ h => by cases r <;> exact h) fun _ h => h
            refine wp_bind (wp_modify (wp_bind (wp_modify (wp_pure ?_))))
            refine ⟨ht.inv, ht.module, ht.calls, ?_, ?_⟩
            · simp [ht.locals]
            · simp [ht.stack]
          · exact wp_pure trivial
          · exact wp_pure trivial
          · have hf := hf.same hw' hi
            simp only
            cases onContinue label l with
            | none =>
              exact wp_mono (wp_forStep hg ha (k := pure (.inl ()))
                (J := fun t => ForSt c va ra s t) hf hc hws hrs hal hss hds
                fun t ht => wp_pure ht) (fun r _ h => by cases r <;> exact h) fun _ h => h
            | some f => exact wp_pure trivial
        · exact wp_pure trivial
        · exact wp_errT trivial
      all_goals exact wp_errT trivial
  case none.ret => exact rel_pure hc
  case some.ret => exact rel_pure hc
  all_goals exact rel_errT hc

theorem rel_forNLoop [FloatOps] (hg : Good c va ra ev) (ha : Agrees c va ra ev ev') {n}
    {kd : ForKind} {name start stop body label}
    (hi : ClosuresWF c va ra st) (hc : ClosRes c va ra st)
    (hw : (Expr.forN kd name start stop body label).WF (kOf c va ra st))
    (hr : (Expr.forN kd name start stop body label).Res (kOf c va ra st) (arOf c st) Γ [])
    (hal : Aligned Γ st) :
    Rel c va ra (forNLoop n ev kd name start stop body label)
      (forNLoop n ev' kd name start stop body label) st := by
  rw [Expr.WF] at hw
  rw [Expr.Res] at hr
  refine rel_map (rel_countLoop hg ha hi hc hw.1 hw.2.1 hr.1 hr.2.1 hal ?_ ?_)
  · intro a x s hs hi
    exact wp_bodyRound hg (fun _ => True) hi (by rw [hs.kOf]; exact hw.2.2.1) trivial
      (fun a x => .forStepN ..) fun a x s hJ => by unfold wp; split <;> simp
  · intro a x s hs hal hi hc
    exact rel_bodyRound hg ha hi hc (by rw [hs.kOf]; exact hw.2.2.1)
      (by rw [hs.kOf, hs.arOf]; exact hr.2.2) hal fun a x => .forStepN ..

theorem rel_forInLoop [FloatOps] (hg : Good c va ra ev) (ha : Agrees c va ra ev ev') {n}
    {kd : ForInKind} {name iter body label}
    (hi : ClosuresWF c va ra st) (hc : ClosRes c va ra st)
    (hw : (Expr.forIn kd name iter body label).WF (kOf c va ra st))
    (hr : (Expr.forIn kd name iter body label).Res (kOf c va ra st) (arOf c st) Γ [])
    (hal : Aligned Γ st) :
    Rel c va ra (forInLoop c n ev kd name iter body label)
      (forInLoop (c.named lost) n ev' kd name iter body label) st := by
  rw [Expr.WF] at hw
  rw [Expr.Res] at hr
  refine rel_map (rel_chanLoop hg ha hi hc hw.1 hr.1 hal ?_ ?_)
  · intro a x s hs hi
    exact wp_bodyRound hg (fun _ => True) hi (by rw [hs.kOf]; exact hw.2.1) trivial
      (fun a x => .forStepIn ..) fun a x s hJ => by unfold wp; split <;> simp
  · intro a x s hs hal hi hc
    exact rel_bodyRound hg ha hi hc (by rw [hs.kOf]; exact hw.2.1)
      (by rw [hs.kOf, hs.arOf]; exact hr.2) hal fun a x => .forStepIn ..

/-! ## Vectors and matrices -/

/-- A computation that keeps the closures. -/
def Still (m : EM α) : Prop := ∀ st, wp m (fun _ s => s.closures = st.closures)
  (fun s => s.closures = st.closures) st

theorem Still.rel {m : EM α} (h : Still m) (hc : ClosRes c va ra st) : Rel c va ra m m st :=
  .refl (wp_mono (h st) (fun _ s h => by simpa only [ClosRes, h] using hc)
    fun s h => by simpa only [ClosRes, h] using hc)

theorem Still.bind {m : EM α} {f : α → EM β} (h : Still m) (hf : ∀ a, Still (f a)) :
    Still (m >>= f) := by
  intro st
  refine wp_bind (wp_mono (h st) (fun a s hs => ?_) fun _ h => h)
  exact wp_mono (hf a s) (fun _ _ h => h.trans hs) fun _ h => h.trans hs

theorem Still.quiet {m : EM α} (h : Quiet m) : Still m :=
  fun st => wp_mono (h.run st) (fun _ _ h => h.2) fun _ h => h.2

theorem Still.popE : Still popE := by
  intro st
  unfold wp Dyon.popE
  cases st.stack.getLast? with
  | none => trivial
  | some v => exact rfl

theorem Still.errExpected2 {v ty} : Still (errExpected2 v ty : EM α) := by
  intro st
  exact wp_errExpected2 rfl

theorem Still.popNum : Still popNum := by
  unfold Dyon.popNum
  refine .bind .popE fun v => .bind (.quiet (.derefE _)) fun d => ?_
  split
  · exact .quiet (.pure _)
  · exact .errExpected2

theorem Still.popVec : Still popVec := by
  unfold Dyon.popVec
  refine .bind .popE fun v => .bind (.quiet (.derefE _)) fun d => ?_
  split
  · exact .quiet (.pure _)
  · exact .errExpected2

theorem rel_vec4E [FloatOps] (hg : Good c va ra ev) (ha : Agrees c va ra ev ev') {args side}
    (hi : ClosuresWF c va ra st) (hc : ClosRes c va ra st)
    (hw : (Expr.vec4 args).WF (kOf c va ra st))
    (hr : (Expr.vec4 args).Res (kOf c va ra st) (arOf c st) Γ []) (hal : Aligned Γ st) :
    Rel c va ra (vec4E ev args side) (vec4E ev' args side) st := by
  rw [Expr.WF] at hw
  rw [Expr.Res] at hr
  refine rel_get (rel_vecArgs hg ha hi hc hw.1 hw.2.1 hr hal fun s hc => Still.rel ?_ hc)
  exact .bind .popNum fun _ => .bind .popNum fun _ => .bind .popNum fun _ => .bind .popNum
    fun _ => .quiet (.pure _)

theorem rel_mat4E (hg : Good c va ra ev) (ha : Agrees c va ra ev ev') {args side}
    (hi : ClosuresWF c va ra st) (hc : ClosRes c va ra st)
    (hw : (Expr.mat4 args).WF (kOf c va ra st))
    (hr : (Expr.mat4 args).Res (kOf c va ra st) (arOf c st) Γ []) (hal : Aligned Γ st) :
    Rel c va ra (mat4E ev args side) (mat4E ev' args side) st := by
  rw [Expr.WF] at hw
  rw [Expr.Res] at hr
  refine rel_vecArgs hg ha hi hc hw.1 hw.2.1 hr hal fun s hc => Still.rel ?_ hc
  exact .bind .popVec fun _ => .bind .popVec fun _ => .bind .popVec fun _ => .bind .popVec
    fun _ => .quiet (.pure _)

theorem Still.pushComps [FloatOps] {v sel} : Still (pushComps v sel) := by
  induction sel with
  | nil => exact .quiet (.pure _)
  | cons i is ih =>
    rw [Dyon.pushComps]
    split
    · exact .bind (fun st => wp_modify rfl) fun _ => ih
    · exact fun st => wp_panic

theorem rel_swizzleE [FloatOps] (hg : Good c va ra ev) (ha : Agrees c va ra ev ev') {sel e}
    (hi : ClosuresWF c va ra st) (hc : ClosRes c va ra st) (hw : e.WF (kOf c va ra st))
    (hr : e.Res (kOf c va ra st) (arOf c st) Γ []) (hal : Aligned Γ st) :
    Rel c va ra (swizzleE ev sel e) (swizzleE ev' sel e) st := by
  refine rel_wantK hg ha hi hc hw hr hal (fun _ _ hc => rel_pure hc) fun x s hs hi hc => ?_
  refine rel_quiet (.derefE _) hi hc fun d t ht hi hc => ?_
  split
  · exact rel_bind (Still.pushComps.rel hc) wp_true fun _ _ _ hc => rel_pure hc
  · exact .quiet (.errExpected ..) hc

/-! ## The rest -/

theorem rel_closureE (hg : Good c va ra ev) (ha : Agrees c va ra ev ev') {n args cur r file e}
    (hi : ClosuresWF c va ra st) (hc : ClosRes c va ra st)
    (hw : (Expr.closure args cur r file e).WF (kOf c va ra st))
    (hr : (Expr.closure args cur r file e).Res (kOf c va ra st) (arOf c st) Γ [])
    (hal : Aligned Γ st) :
    Rel c va ra (closureE n ev args cur r file e) (closureE n ev' args cur r file e) st := by
  rw [Expr.WF] at hw
  rw [Expr.Res] at hr
  unfold closureE
  refine rel_ok (a := st.rel) (s := st) rfl rfl ?_
  have h := grel_grabExpr hg ha n .right e 1 _ _ st Γ _ [] hi hc rfl rfl hal rfl hw hr.2.2
  refine rel_bind h.1 (wp_and (wp_grabExpr hg n .right 1 e _ st hi rfl hw) h.2) ?_
  rintro (x | e') s ⟨⟨hi, hs⟩, hq⟩ hc
  · exact rel_pure hc
  · refine rel_get (rel_modify (rel_pure ?_))
    intro cl hcl
    rcases List.mem_append.1 hcl with h | h
    · exact hc cl h
    · rw [List.mem_singleton] at h
      subst h
      have := (hq e' rfl).res
      simp only [kOf, arOf, ← hs.1.module] at this
      exact ⟨hr.1, hr.2.1, this⟩

theorem rel_goArgs (hg : Good c va ra ev) (ha : Agrees c va ra ev ev') {n args acc}
    {k k' : List Val → EM R} (hi : ClosuresWF c va ra st) (hc : ClosRes c va ra st)
    (hw : WFs (kOf c va ra st) args) (hr : RAll (kOf c va ra st) (arOf c st) args Γ [])
    (hal : Aligned Γ st) (hk : ∀ vs s, ClosRes c va ra s → Rel c va ra (k vs) (k' vs) s) :
    Rel c va ra (goArgs n ev args acc k) (goArgs n ev' args acc k') st := by
  induction args generalizing acc st with
  | nil => exact hk _ _ hc
  | cons a as ih =>
    rw [WFs] at hw
    rw [RAll] at hr
    refine rel_want hg ha hi hc hw.1 hr.1 hal fun x t ht hi hc => ?_
    refine rel_quiet (.cloneE _ _) hi hc fun v u hu hi hc => ?_
    have hs := ht.trans hu
    exact ih hi hc (by rw [hs.kOf]; exact hw.2) (by rw [hs.kOf, hs.arOf]; exact hr.2)
      (hal.same hs)

theorem rel_goE (hg : Good c va ra ev) (ha : Agrees c va ra ev ev') {n name args}
    (hi : ClosuresWF c va ra st) (hc : ClosRes c va ra st)
    (hw : WFs (kOf c va ra st) args) (hr : RAll (kOf c va ra st) (arOf c st) args Γ [])
    (hal : Aligned Γ st) :
    Rel c va ra (goE c n ev name args) (goE (c.named lost) n ev' name args) st := by
  unfold goE
  refine rel_quiet .lastCall hi hc fun call s hs hi hc => ?_
  refine rel_get ?_
  refine rel_goArgs hg ha hi hc (by rw [hs.kOf]; exact hw) (by rw [hs.kOf, hs.arOf]; exact hr)
    (hal.same hs) fun vs s hc => ?_
  refine rel_bind (.quiet .lastCall hc) wp_true fun _ _ _ hc => ?_
  exact rel_get (rel_modify (rel_pure hc))

theorem rel_tryExprE (ha : Agrees c va ra ev ev') {e}
    (hi : ClosuresWF c va ra st) (hc : ClosRes c va ra st) (hw : e.WF (kOf c va ra st))
    (hr : e.Res (kOf c va ra st) (arOf c st) Γ []) (hal : Aligned Γ st) :
    Rel c va ra (tryExprE ev e) (tryExprE ev' e) st := by
  obtain ⟨h1, h2⟩ := (ha e .right st Γ hi hc hw hr hal).1
  refine ⟨by simp only [tryExprE, h1], ?_⟩
  unfold wp tryExprE
  unfold wp at h2
  cases hx : ev e .right st with
  | ok r s =>
    rw [hx] at h2
    obtain ⟨_ | x, _ | _ | _ | _⟩ := r <;> exact h2
  | err m s =>
    rw [hx] at h2
    exact h2
  | panic w => trivial
  | timeout => trivial

theorem rel_tryE (hg : Good c va ra ev) (ha : Agrees c va ra ev ev') {e side}
    (hi : ClosuresWF c va ra st) (hc : ClosRes c va ra st) (hw : e.WF (kOf c va ra st))
    (hr : e.Res (kOf c va ra st) (arOf c st) Γ []) (hal : Aligned Γ st) :
    Rel c va ra (tryE ev e side) (tryE ev' e side) st := by
  refine rel_want hg ha hi hc hw hr hal fun x s hs hi hc => ?_
  exact rel_quiet (.derefE _) hi hc fun d t ht hi hc => .quiet (.tryVal d) hc

theorem declName_of {l : Expr} {it : Item} (hl : l = .item it) (h : it.ids.isEmpty = true) :
    declName .assign l = some it.name := by subst hl; simp [declName, h]

theorem rel_assignE [FloatOps] [VecMath] (hg : Good c va ra ev) (ha : Agrees c va ra ev ev')
    {op l r} (hi : ClosuresWF c va ra st) (hc : ClosRes c va ra st)
    (hw : (Expr.assign op l r).WF (kOf c va ra st))
    (hr : (Expr.assign op l r).Res (kOf c va ra st) (arOf c st) Γ []) (hal : Aligned Γ st) :
    Rel c va ra (assignE ev op l r) (assignE ev' op l r) st := by
  rw [Expr.WF] at hw
  rw [Expr.Res] at hr
  unfold assignE
  split
  · rename_i hop
    subst hop
    unfold declareE
    split
    · rename_i it
      refine rel_want hg ha hi hc hw.2 hr.1 hal fun x s hs hi hc => ?_
      refine rel_quiet (.shallow _) hi hc fun d t ht hi hc => ?_
      have hs := hs.trans ht
      split
      · refine rel_get (rel_modify ?_)
        cases it.current
        · exact rel_modify (rel_pure hc)
        · exact rel_modify (rel_modify (rel_pure hc))
      · rename_i hids
        refine rel_want hg ha hi hc (by rw [hs.kOf]; exact hw.1)
          (by rw [hs.kOf, hs.arOf]; exact hr.2 (by simp [declName, hids])) (hal.same hs)
          fun x s' hs' hi hc => ?_
        exact .quiet (.storeAt x d) hc
    · exact rel_errT hc
  · rename_i hop
    have hd : declName op l = none := by cases op <;> simp_all [declName]
    refine rel_want hg ha hi hc hw.2 hr.1 hal fun x s hs hi hc => ?_
    refine rel_want hg ha hi hc (by rw [hs.kOf]; exact hw.1)
      (by rw [hs.kOf, hs.arOf]; exact hr.2 hd) (hal.same hs) fun y s' hs' hi hc => ?_
    exact rel_quiet (.targetOf _) hi hc fun p t ht hi hc => .quiet (.assignTo op p x) hc

theorem LeftBy.of_same {a b : St} (h : Same a b) : LeftBy [] a b :=
  ⟨h.calls, by simp [slotsOf, h.locals], h.stack⟩

theorem left_assignE [FloatOps] [VecMath] (hg : Good c va ra ev) {op l r}
    (hi : ClosuresWF c va ra st) (hw : (Expr.assign op l r).WF (kOf c va ra st)) :
    wp (assignE ev op l r) (fun x s => x.2 = .cont → LeftBy (decl (.assign op l r)) st s)
      (fun _ => True) st := by
  rw [Expr.WF] at hw
  have key : wp (assignE ev op l r) (fun x s => x.2 = .cont → LeftBy (decl (.assign op l r)) st s)
      (Err c va ra st) st → _ := fun h => wp_mono h (fun _ _ h => h) fun _ _ => trivial
  have hq : ∀ {m : EM R} {s : St}, Quiet m → Same st s → ClosuresWF c va ra s →
      decl (.assign op l r) = [] →
      wp m (fun x s => x.2 = .cont → LeftBy (decl (.assign op l r)) st s) (Err c va ra st) s := by
    intro m s hm hs hi hd
    refine wp_mono (hm.run s) (fun _ t ht _ => ?_) fun t ht => ⟨(hs.trans ht.1).extE, hi.of_eq ht.2⟩
    rw [hd]; exact .of_same (hs.trans ht.1)
  refine key ?_
  unfold assignE
  refine wp_ite (fun hop => ?_) fun hop => ?_
  · subst hop
    unfold declareE
    cases l
    case item it =>
      simp only
      refine wp_want hg .rfl hi hw.2 (fun x t ht hi => by simp) fun x s hs hi => ?_
      refine wp_quiet (.shallow _) hs.extE hi fun d t ht hi => ?_
      have hs := hs.trans ht
      refine wp_ite (fun hid => ?_) fun hid => ?_
      · have hd : decl (.assign .assign (.item it) r) = [some it.name] := by
          simp [decl, declName, hid]
        rw [hd]
        have hfin : ∀ cu, wp (pure (none, .cont) : EM R)
            (fun x s => x.2 = .cont → LeftBy [some it.name] st s) (Err c va ra st)
            { t with stack := t.stack ++ [d],
                     locals := t.locals ++ [(it.name, t.stack.length)], currents := cu } := by
          intro cu
          refine wp_pure fun _ => ⟨hs.calls, ?_, ?_⟩
          · simp [slotsOf, hs.locals, hs.stack]
          · simp [hs.stack]
        refine wp_bind (wp_get (wp_bind (wp_modify ?_)))
        cases it.current
        · exact wp_bind (wp_modify (hfin _))
        · exact wp_bind (wp_modify (wp_bind (wp_modify (hfin _))))
      · have hd : decl (.assign .assign (.item it) r) = [] := by
          simp [decl, declName, hid]
        refine wp_want hg hs.extE hi (by rw [hs.kOf]; exact hw.1)
          (fun x t ht hi => by simp) fun x s' hs' hi => ?_
        exact hq (.storeAt x d) (hs.trans hs') hi hd
    all_goals exact wp_errT ⟨.rfl, hi⟩
  · have hd : decl (.assign op l r) = [] := by cases op <;> simp_all [decl, declName]
    refine wp_want hg .rfl hi hw.2 (fun x t ht hi => by simp) fun x s hs hi => ?_
    refine wp_want hg hs.extE hi (by rw [hs.kOf]; exact hw.1)
      (fun x t ht hi => by simp) fun y s' hs' hi => ?_
    have hs := hs.trans hs'
    refine wp_quiet (.targetOf _) hs.extE hi fun p t ht hi => ?_
    exact hq (.assignTo op p x) (hs.trans ht) hi hd

theorem Agrees.rel [FloatOps] [VecMath] (hb : c.byName = false) (hS : ExtStill c)
    (hM : ModulesWF c va ra) (hR : ModulesRes c va ra) (hg : Good c va ra ev)
    (ha : Agrees c va ra ev ev') (n : Nat) {e side}
    (hi : ClosuresWF c va ra st) (hc : ClosRes c va ra st) (hw : e.WF (kOf c va ra st))
    (hr : e.Res (kOf c va ra st) (arOf c st) Γ []) (hal : Aligned Γ st) :
    Rel c va ra (evalStep c n ev e side) (evalStep (c.named lost) n ev' e side) st := by
  unfold evalStep
  split
  · rw [Expr.WF] at hw; rw [Expr.Res] at hr; exact rel_linkE hg ha hi hc hw hr hal
  · rw [Expr.WF] at hw; rw [Expr.Res] at hr; exact rel_objectE hg ha hi hc hw hr hal
  · rw [Expr.WF] at hw; rw [Expr.Res] at hr; exact rel_arrayE hg ha hi hc hw hr hal
  · exact rel_arrayFillE hg ha hi hc hw hr hal
  · rw [Expr.WF] at hw; rw [Expr.Res] at hr; exact rel_block hg ha hi hc hw hr hal
  · rw [Expr.WF] at hw; rw [Expr.Res] at hr
    exact rel_want hg ha hi hc hw hr hal fun x s hs hi hc => rel_pure hc
  · exact rel_pure hc
  · exact rel_pure hc
  · exact rel_pure hc
  · rw [Expr.WF] at hw; rw [Expr.Res] at hr; exact rel_goE hg ha hi hc hw hr hal
  · exact rel_callE hS hM hR hg ha hi hc (by simp) hw hr hal
  · rw [Expr.WF] at hw; rw [Expr.Res] at hr; exact rel_itemE hb hg ha hi hc hw hr hal
  · exact rel_assignE hg ha hi hc hw hr hal
  · exact rel_vec4E hg ha hi hc hw hr hal
  · exact rel_mat4E hg ha hi hc hw hr hal
  · exact rel_forE hg ha hi hc hw hr hal
  · exact rel_map (rel_linkForN hg ha hi hc hw hr hal)
  · rename_i k name start stop body label hk
    cases k <;> first | exact absurd rfl (hk · ) | exact rel_forNLoop hg ha hi hc hw hr hal
  · exact rel_map (rel_linkForIn hg ha hi hc hw hr hal)
  · rename_i k name iter body label hk
    cases k <;> first | exact absurd rfl (hk · ) | exact rel_forInLoop hg ha hi hc hw hr hal
  · exact rel_iteE hg ha hi hc hw hr hal
  · exact rel_pure hc
  · rw [Expr.WF] at hw; rw [Expr.Res] at hr; exact rel_tryE hg ha hi hc hw hr hal
  · rw [Expr.WF] at hw; rw [Expr.Res] at hr; exact rel_swizzleE hg ha hi hc hw hr hal
  · exact rel_closureE hg ha hi hc hw hr hal
  · rw [Expr.WF] at hw; rw [Expr.Res] at hr
    exact rel_callClosureE hb hg ha hi hc hw.1 hw.2 hr.1 hr.2.1 hr.2.2 hal
  · exact rel_errT hc
  · rw [Expr.WF] at hw; rw [Expr.Res] at hr; exact rel_tryExprE ha hi hc hw hr hal
  · exact .quiet (.inE ..) hc

theorem PostR.left {e r s} (h : PostR c va ra e st r s) (h1 : r.2 = .cont)
    (h2 : e.isSwizzle = false) (hv : e.leaves = true → ∃ v, r.1 = some v) (hd : decl e = []) :
    LeftBy (decl e) st s := by
  rw [hd]
  refine .of_same ?_
  cases hl : e.leaves with
  | false => exact h.quiet (by simp [h1]) hl
  | true =>
    obtain ⟨v, hv⟩ := hv hl
    exact h.value v hv h1

theorem Agrees.step [FloatOps] [VecMath] (hb : c.byName = false) (hE : ExtFns c va ra)
    (hS : ExtStill c) (hM : ModulesWF c va ra) (hR : ModulesRes c va ra) (hg : Good c va ra ev)
    (ha : Agrees c va ra ev ev') (n : Nat) :
    Agrees c va ra (evalStep c n ev) (evalStep (c.named lost) n ev') := by
  intro e side st Γ hi hc hw hr hal
  refine ⟨ha.rel hb hS hM hR hg n hi hc hw hr hal, ?_⟩
  have hpost := Good.step hE hM hg n e side st hi hw
  have main : decl e = [] → (∀ r s, PostR c va ra e st r s → r.2 = .cont → e.leaves = true →
      ∃ v, r.1 = some v) →
      wp (evalStep c n ev e side) (fun r s => r.2 = .cont → e.isSwizzle = false →
        LeftBy (decl e) st s) (fun _ => True) st := fun hd hv =>
    wp_mono hpost (fun r s hp h1 h2 => hp.left h1 h2 (hv r s hp h1) hd) fun _ _ => trivial
  have hval : ∀ {r s}, Valued (kOf c va ra st) e = true → PostR c va ra e st r s → r.2 = .cont →
      ∃ v, r.1 = some v := by
    rintro ⟨_ | x, f⟩ s hv hp hf
    · have := hp.valued rfl hf
      rw [hv] at this; cases this
    · exact ⟨x, rfl⟩
  cases e
  case assign op l r =>
    exact wp_mono (left_assignE hg hi hw) (fun _ _ h h1 _ => h h1) fun _ _ => trivial
  case for_ i cnd stp b l =>
    refine wp_mono (wp_forE hg (st0 := st) .rfl hi hw) (fun r s h h1 _ => ?_) fun _ _ => trivial
    have h1 : r.2 ≠ .ret := by simp [h1]
    exact ⟨h.ext.calls, by simp [decl, slotsOf, h.locals h1], by simp [decl, h.stack h1]⟩
  case link items => exact main rfl fun r s hp h1 _ => hval (by simp [Valued]) hp h1
  case tryExpr e => exact main rfl fun r s hp h1 _ => hval (by simp [Valued]) hp h1
  case swizzle sel e =>
    exact wp_mono hpost (fun r s hp h1 h2 => by simp [Expr.isSwizzle] at h2) fun _ _ => trivial
  all_goals exact main rfl fun r s hp h1 h => by simp [Expr.leaves] at h

/-- Looking variables up by slot and by name agree on resolved programs. -/
theorem Agrees.eval [FloatOps] [VecMath] (hb : c.byName = false) (hE : ExtFns c va ra)
    (hS : ExtStill c) (hM : ModulesWF c va ra) (hR : ModulesRes c va ra) (n : Nat) :
    Agrees c va ra (eval c n) (eval (c.named lost) n) := by
  induction n with
  | zero => exact fun e side st Γ hi hc hw hr hal => ⟨rel_timeout, trivial⟩
  | succ n ih => exact Agrees.step hb hE hS hM hR (Good.eval hE hM n) ih n

end Dyon
