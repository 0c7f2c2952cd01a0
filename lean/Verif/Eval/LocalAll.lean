import Verif.Eval.LocalGrab

/-!
# Evaluation stays within reach: the evaluator

Lemmas for C77.
-/

namespace Dyon.Loc

variable {rd : Prop} {c : ECfg} {va ra : Nat → Nat} {P : Nat → Prop} {ev : Evl} {α β : Type} {st st0 : St}

/-- What is asked of functions of the host and of operators: when the slots in `P` refer to slots
in `P` only, and the arguments are in `P`, the others keep their values and the result refers to
slots in `P` only. -/
structure ExtLocal (c : ECfg) (va ra : Nat → Nat) (P : Nat → Prop) : Prop where
  void : ∀ f st, va f ≤ st.stack.length → Tame P st →
    (∀ i, ¬ P i → i < st.stack.length - va f) →
    wp (c.voidFn f) (fun _ s => Tame P s ∧ Kept P st s) (fun s => Tame P s ∧ Kept P st s) st
  ret : ∀ f st, ra f ≤ st.stack.length → Tame P st →
    (∀ i, ¬ P i → i < st.stack.length - ra f) →
    wp (c.retFn f) (fun v s => Tame P s ∧ Kept P st s ∧ Within P v)
      (fun s => Tame P s ∧ Kept P st s) st
  binop : ∀ f x y v, c.binopFn f x y = .ok v → Within P x → Within P y → Within P v
  unop : ∀ f x v, c.unopFn f x = .ok v → Within P x → Within P v

/-- What is asked of functions of the host, besides, for what is out of reach not to matter to
them: they do not read it. -/
structure ExtBlind (c : ECfg) (va ra : Nat → Nat) (P : Nat → Prop) : Prop where
  void : ∀ f st, va f ≤ st.stack.length → Tame P st →
    (∀ i, ¬ P i → i < st.stack.length - va f) → Blind P (c.voidFn f) st
  ret : ∀ f st, ra f ≤ st.stack.length → Tame P st →
    (∀ i, ¬ P i → i < st.stack.length - ra f) → Blind P (c.retFn f) st

/-- Messages that arrive from other threads refer to nothing outside. -/
def ArriveIn (c : ECfg) (P : Nat → Prop) : Prop := ∀ t ch, ∀ v ∈ c.arrive t ch, Within P v

/-- The constants in the functions of the modules refer to nothing outside. -/
def ModulesIn (c : ECfg) (P : Nat → Prop) : Prop :=
  ∀ (m idx : Nat) (fn : Func), (c.modules m)[idx]? = some fn → EsIn P fn.body

/-! ## Calls -/

/-- Arguments of a loaded function: `s1` is the state with the return slot. -/
theorem wq_lazyArgs (hev : Loc rd c va ra P ev) {b msg inv args} {k : EM R} {s1 : St}
    {Q : R → St → Prop} {E : St → Prop}
    (hw : WFs (Dyon.kOf c va ra s1) args) (hc : EsIn P args)
    (hr : ∀ r s, Lk c va ra P s1 s → RIn P r → Q r s) (hE : ∀ s, LErr c va ra P s1 s → E s)
    (hk : ∀ s, Lk c va ra P s1 s → wq rd P k Q E s) :
    ∀ s, Lk c va ra P s1 s → wq rd P (lazyArgs ev b msg inv args k) Q E s := by
  induction args generalizing inv with
  | nil => exact hk
  | cons a as ih =>
    intro s hs
    rw [WFs] at hw
    rw [EsIn] at hc
    refine wq_bind (wq_mono ((Ok.sub1 hev hw.1 hc.1).run s hs) ?_ hE)
    rintro ⟨_ | x, _ | _ | _ | _⟩ t ⟨ht, hx⟩
    case none.cont => exact wq_ite (fun _ => ih hw.2 hc.2 t ht) fun _ => wq_errT (hE _ ht.err)
    case none.ret => exact wq_pure (hr _ _ ht hx)
    case some.ret => exact wq_pure (hr _ _ ht hx)
    case some.cont =>
      refine wq_bind (wq_mono ((Ok.calm (Calm.lazyCheck hx.val)).run t ht) ?_ hE)
      rintro (_ | r) u ⟨hu, ho⟩
      · exact wq_bind (wq_modify (ih hw.2 hc.2 _ (hu.push hx.val)) fun _ => by
          simp [other, over_push (hu.ge le_rfl)])
      · exact wq_pure (hr _ _ hu (.some (ho r rfl)))
    all_goals exact wq_errT (hE _ ht.err)

theorem Ok.pushCurrents {names} : Ok rd c va ra P st0 (fun _ => True) (pushCurrents names) := by
  induction names with
  | nil => exact .pure trivial
  | cons x xs ih =>
    refine .get fun s hs => ?_
    cases h : findLast x s.currents with
    | none => exact .errT
    | some ind =>
      exact .bind (.pushLocal (hs.ge le_rfl)) fun _ _ =>
        .bind (.pushE (within_ref.2 (hs.inv.currents _ (findLast_mem h)))) fun _ _ => ih

theorem Ok.pushArgLocals {n i args} (h : ∀ j, n ≤ j → P j) :
    Ok rd c va ra P st0 (fun _ => True) (pushArgLocals n i args) := by
  induction args generalizing i with
  | nil => exact .pure trivial
  | cons x xs ih => exact .bind (.pushLocal (h _ (by omega))) fun _ _ => ih

theorem Lk.back {a b d : St} (ha : Lk c va ra P st0 a) (hb : Lk c va ra P st0 b) : Kept P a b :=
  fun i hi => (hb.kept i hi).trans (ha.kept i hi).symm

/-- A call from the arguments on: `st` is the state before the call, `s1` the state with
the return slot, `s` the state with the arguments. -/
theorem wq_enter {name rname index file returns args currents} {note : EM Unit} {body : EM R}
    {s1 s : St} (h0 : Inv P st0) (hst : Lk c va ra P st0 st)
    (hg1 : Grown (if returns then 1 else 0) st s1) (hs1 : Lk c va ra P st0 s1)
    (hs : Lk c va ra P s1 s) (hnote : Calm rd P (fun _ => True) note)
    (hbody : ∀ t, t.module = s1.module → t.rel = index → ClosuresWF c va ra t → Inv P t →
      wq rd P body (fun r u => Lk c va ra P t u ∧ RIn P r) (LErr c va ra P t) t) :
    wq rd P (enter name rname index file returns args currents s1.stack.length s1.locals.length
      s1.currents.length note body) (fun r t => Lk c va ra P st0 t ∧ RIn P r)
      (LErr c va ra P st0) s := by
  have hfresh : ∀ i, s1.stack.length ≤ i → P i := fun i hi => hs1.ge hi
  unfold enter
  refine wq_bind (wq_mono (Ok.pushCurrents.run s hs) (fun _ s2 ⟨hs2, _⟩ => ?_)
    fun _ h => hs1.errTrans h)
  refine wq_bind (wq_mono ((Ok.calm hnote).run s2 hs2) (fun _ s3 ⟨hs3, _⟩ => ?_)
    fun _ h => hs1.errTrans h)
  refine wq_bind (wq_modify ?_)
  generalize ht0 : ({ s3 with calls := s3.calls ++
    [⟨name, index, some file, s1.stack.length, s1.locals.length, s1.currents.length⟩] } : St) = t0
  have hbase : t0.base = s1.locals.length := by subst ht0; simp [St.base]
  have hinv0 : Inv P t0 := by
    have hl := hs3.ext.3.length_le
    refine ⟨?_, ?_, ?_, ?_⟩
    · subst ht0
      exact ⟨hs3.inv.slots, hs3.inv.closures, hs3.inv.queues, hs3.inv.currents⟩
    · subst ht0; exact hs3.inv.fresh
    · rw [hbase]; subst ht0; exact hl
    · rw [hbase]
      intro x hx
      apply hs3.inv.locals
      have hb : s3.base ≤ s1.locals.length := by rw [ext_base hs3.ext]; exact hs1.inv.base
      have : t0.locals = s3.locals := by subst ht0; rfl
      rw [this] at hx
      obtain ⟨k, hk⟩ := Nat.exists_eq_add_of_le hb
      rw [hk, ← List.drop_drop] at hx
      exact List.mem_of_mem_drop hx
  have hwf0 : ClosuresWF c va ra t0 := by subst ht0; exact hs3.wf
  have herr : ∀ u, LErr c va ra P t0 u → LErr c va ra P st0 u := by
    intro u hu
    refine hs1.errTrans (hs3.errTrans ⟨ExtE.trans ?_ hu.ext, hu.wf, hu.tame, ?_⟩)
    · subst ht0; exact ⟨rfl, List.prefix_append _ _, List.prefix_rfl, List.prefix_rfl, le_rfl⟩
    · have := hu.kept; subst ht0; exact this
  have key : ∀ t, Lk c va ra P t0 t →
      wq rd P (do
        let r ← body
        bodyFlow r.2 do
          popFn name
          callResult returns rname r.1) (fun r t => Lk c va ra P st0 t ∧ RIn P r)
        (LErr c va ra P st0) t := by
    intro t ht
    have hcalls : t0.calls = s3.calls ++
      [⟨name, index, some file, s1.stack.length, s1.locals.length, s1.currents.length⟩] := by
      subst ht0; rfl
    have hmod : t.module = s1.module := by
      rw [ht.ext.1]; subst ht0; exact hs3.ext.1
    have hrel : t.rel = index := by simp [St.rel, ht.ext.calls, hcalls]
    refine wq_bind (wq_mono (hbody t hmod hrel ht.wf ht.inv) (fun r u ⟨hu, hr⟩ => ?_)
      fun _ h => herr _ (ht.errTrans h))
    have hu := ht.trans hu
    have hpop : wq rd P (do popFn name; callResult returns rname r.1)
        (fun r t => Lk c va ra P st0 t ∧ RIn P r) (LErr c va ra P st0) u := by
      refine wq_bind ?_
      have hc : u.calls.getLast? = some
          ⟨name, index, some file, s1.stack.length, s1.locals.length, s1.currents.length⟩ := by
        rw [hu.ext.calls, hcalls]; simp
      refine ⟨?_, fun _ g _ => by
        simp only [popFn, other_calls, hc, if_true, Ev.onSt, other, over_take]⟩
      simp only [wp, popFn, hc, if_true]
      have h3 := hs3.ext
      have hl : s1.locals <+: u.locals := h3.3.trans (by have := hu.ext.3; subst ht0; exact this)
      have hcu : s1.currents <+: u.currents := h3.4.trans (by have := hu.ext.4; subst ht0; exact this)
      have hlen : s1.stack.length ≤ u.stack.length :=
        h3.5.trans (by have := hu.ext.5; subst ht0; exact this)
      generalize hu' : ({ u with
        calls := u.calls.dropLast, stack := u.stack.take s1.stack.length,
        locals := u.locals.take s1.locals.length,
        currents := u.currents.take s1.currents.length } : St) = u'
      have hsame : Same s1 u' := by
        subst hu'
        refine ⟨?_, ?_, prefix_take hl, prefix_take hcu, by simpa using hlen⟩
        · show u.module = _
          rw [hu.ext.1]; subst ht0; exact h3.1
        · simp [hu.ext.calls, hcalls, h3.calls]
      have htame : Tame P u' := by
        subst hu'
        have := hu.inv.toTame.take s1.stack.length
        exact ⟨this.slots, this.closures, this.queues,
          fun x hx => this.currents x (List.mem_of_mem_take hx)⟩
      have hkept : Kept P s1 u' := by
        have h1 : Kept P s1 u := hs3.kept.trans (by have := hu.kept; subst ht0; exact this)
        have := h1.take hs1.inv (n := s1.stack.length) le_rfl
        subst hu'; exact this
      have hwf : ClosuresWF c va ra u' := by subst hu'; exact hu.wf
      have h01 : Lk c va ra P s1 u' := ⟨hsame.ext, hwf, hs1.inv.of_same hsame htame hkept, hkept⟩
      have h0u := hs1.trans h01
      have hg := hg1.trans hsame.grown
      rcases returns with _ | _
      · obtain ⟨_ | v, f⟩ := r
        · exact wq_pure ⟨h0u, .none⟩
        · exact wq_errCaller h0u.err
      · obtain ⟨_ | v, f⟩ := r
        · refine wq_popE (n := 0) h0 hst h0u hg fun v w hgw hw hv => ?_
          split
          · exact wq_errCaller hw.err
          · exact wq_pure ⟨hw, .some hv⟩
        · have hp := Lk.pop (n := 0) h0 hst h0u hg
          cases v
          case ret => exact wq_errCaller h0u.err
          all_goals exact ⟨⟨hp.1, .some hr.val⟩, fun _ g _ => by
            simp only [callResult, Ev.onSt, other, over_dropLast]⟩
    have he := herr _ hu.err
    unfold bodyFlow
    split
    · exact wq_errT he
    · exact wq_errT he
    · exact wq_errT he
    · exact wq_errT he
    · exact hpop
  have key2 : ∀ t, Lk c va ra P t0 t →
      wq rd P (do
        pushArgLocals s1.stack.length 0 args
        let r ← body
        bodyFlow r.2 do
          popFn name
          callResult returns rname r.1) (fun r t => Lk c va ra P st0 t ∧ RIn P r)
        (LErr c va ra P st0) t := by
    intro t ht
    exact wq_bind (wq_mono ((Ok.pushArgLocals hfresh).run t ht) (fun _ u hu => key u hu.1) herr)
  have hrfl : Lk c va ra P t0 t0 := .rfl hwf0 hinv0
  cases returns
  · exact key2 _ hrfl
  · refine wq_bind (wq_modify (key2 _ (hrfl.pushLocal ?_)))
    refine hst.ge ?_
    have := hg1.5
    simp only [if_true] at this
    simp only
    omega

/-- What a call gives. -/
abbrev Outcome (c : ECfg) (va ra : Nat → Nat) (P : Nat → Prop) (st0 : St) (r : R) (t : St) : Prop :=
  Lk c va ra P st0 t ∧ RIn P r

/-- A call from the return slot on. -/
theorem wq_call (hev : Loc rd c va ra P ev) {name rname index file returns currents inv msg}
    {args : List Expr} {params : List String} {note : Nat → EM Unit} {body : EM R}
    (h0 : Inv P st0) (hst : Lk c va ra P st0 st) (hw : WFs (Dyon.kOf c va ra st0) args)
    (hc : EsIn P args) (hnote : ∀ n, (∀ i, n ≤ i → P i) → Calm rd P (fun _ => True) (note n))
    (hbody : ∀ t, t.module = st.module → t.rel = index → ClosuresWF c va ra t → Inv P t →
      wq rd P body (fun r u => Lk c va ra P t u ∧ RIn P r) (LErr c va ra P t) t) :
    wq rd P (do
      if returns then pushE .ret else pure ()
      let s ← EM.get
      lazyArgs ev true msg inv args <|
        enter name rname index file returns params currents s.stack.length
          s.locals.length s.currents.length (note s.stack.length) body)
      (fun r t => Lk c va ra P st0 t ∧ RIn P r) (LErr c va ra P st0) st := by
  have key : ∀ s1, Grown (if returns then 1 else 0) st s1 → Lk c va ra P st0 s1 →
      wq rd P (do
        let s ← EM.get
        lazyArgs ev true msg inv args <|
          enter name rname index file returns params currents s.stack.length
            s.locals.length s.currents.length (note s.stack.length) body)
      (fun r t => Lk c va ra P st0 t ∧ RIn P r) (LErr c va ra P st0) s1 := by
    intro s1 hg hs1
    refine wq_get ?_
    refine wq_lazyArgs hev (s1 := s1) (by rw [hs1.kOf]; exact hw) hc
      (fun r s hs hr => ⟨hs1.trans hs, hr⟩) (fun s hs => hs1.errTrans hs) (fun s hs => ?_) s1
      (.rfl hs1.wf hs1.inv)
    exact wq_enter h0 hst hg hs1 hs (hnote _ fun i hi => hs1.ge hi)
      fun t hm => hbody t (hm.trans hg.1)
  cases returns with
  | false => exact key st Same.rfl.grown hst
  | true => exact wq_bind (wq_modify (key _ (Grown.push _) (hst.push within_ret)) fun _ => by
      simp [other, over_push (hst.ge le_rfl)])

theorem Ok.callLoaded (hA : ArriveIn c P) (hM : ModulesWF c va ra) (hMi : ModulesIn c P)
    (hev : Loc rd c va ra P ev) {n loader f name args} (h0 : Inv P st0)
    (hw : WFs (Dyon.kOf c va ra st0) args) (hc : EsIn P args) :
    Ok rd c va ra P st0 (RIn P) (callLoaded c n ev loader f name args) := by
  unfold Dyon.callLoaded
  have key : ∀ rel s, Lk c va ra P st0 s →
      wq rd P (do
        let s ← EM.get
        match callIndex f rel with
        | none => EM.panic "index out of bounds"
        | some idx =>
          match (c.modules s.module)[idx]? with
          | none => EM.panic "index out of bounds"
          | some fn => do
            if fn.returns then Dyon.pushE .ret else Pure.pure ()
            let s ← EM.get
            Dyon.lazyArgs ev true noValue' fn.lazyInv args <|
              enter name fn.name idx fn.file fn.returns fn.args fn.currents s.stack.length
                s.locals.length s.currents.length (Dyon.notify c n idx s.stack.length) (Dyon.block ev fn.body))
      (Outcome c va ra P st0) (LErr c va ra P st0) s := by
    intro rel s hs
    refine wq_get ?_
    cases hidx : callIndex f rel with
    | none => exact wq_panic
    | some idx =>
      simp only
      cases hfn : (c.modules s.module)[idx]? with
      | none => exact wq_panic
      | some fn =>
        simp only
        obtain ⟨hbody, -⟩ := hM _ _ _ hfn
        refine wq_call hev h0 hs hw hc (note := fun k => notify c n idx k)
          (fun k hk => .notify hA hk) fun t hm hrel hwf hi => ?_
        have : Dyon.kOf c va ra t = ctxAt c va ra s.module idx := by
          simp only [Dyon.kOf, hm, hrel]
        exact (Ok.block hev hi (by rw [this]; exact hbody) (hMi _ _ _ hfn)).run t (.rfl hwf hi)
  constructor
  intro s hs
  cases loader with
  | true => exact key 0 s hs
  | false => exact wq_bind ⟨key _ s hs, fun _ _ _ => rfl⟩

theorem Ok.callBinop (hX : ExtLocal c va ra P) (hev : Loc rd c va ra P ev) {f args}
    (hw : WFs (Dyon.kOf c va ra st0) args) (hc : EsIn P args) :
    Ok rd c va ra P st0 (RIn P) (callBinop c ev f args) := by
  unfold Dyon.callBinop
  split
  · simp only [WFs] at hw
    simp only [EsIn] at hc
    exact .want hev hw.1 hc.1 fun x hx => .want hev hw.2.1 hc.2.1 fun y hy =>
      .bind (.calm (.derefE hx)) fun x hx => .bind (.calm (.derefE hy)) fun y hy =>
      .bind (.calm (.liftOp fun v hv => hX.binop _ _ _ _ hv hx hy)) fun v hv => .pure (.some hv)
  · exact .panic

theorem Ok.callUnop (hX : ExtLocal c va ra P) (hev : Loc rd c va ra P ev) {f args}
    (hw : WFs (Dyon.kOf c va ra st0) args) (hc : EsIn P args) :
    Ok rd c va ra P st0 (RIn P) (callUnop c ev f args) := by
  unfold Dyon.callUnop
  split
  · simp only [WFs] at hw
    simp only [EsIn] at hc
    exact .want hev hw.1 hc.1 fun x hx =>
      .bind (.calm (.derefE hx)) fun x hx =>
      .bind (.calm (.liftOp fun v hv => hX.unop _ _ _ hv hx)) fun v hv => .pure (.some hv)
  · exact .panic

/-- An external function after its arguments. -/
theorem wq_ext_void (hX : ExtLocal c va ra P) (hR : rd → ExtBlind c va ra P) (hE : ExtFns c va ra) {f s}
    (hst : Lk c va ra P st0 st) (hg : Grown (va f) st s) (hs : Lk c va ra P st0 s) :
    wq rd P (c.voidFn f) (fun _ t => Lk c va ra P st0 t) (LErr c va ra P st0) s := by
  have h5 := hg.5
  have hfr : ∀ i, ¬ P i → i < s.stack.length - va f := fun i hi => by
    have := hst.inv.fresh i hi; omega
  refine wq_mono (wq_and (Dyon.wp_ext_void hE hst.ext.extE hg hs.wf) ⟨hX.void f s (by omega)
    hs.inv.toTame hfr, fun hr => (hR hr).void f s (by omega) hs.inv.toTame hfr⟩) (fun _ t ⟨⟨h1, h2⟩, h3, h4⟩ => ?_)
    fun t ⟨⟨h1, h2⟩, h3, h4⟩ => ⟨h1, h2, h3, hs.kept.trans h4⟩
  · have hk := (Lk.back (d := t) hst hs).trans h4
    exact ⟨hst.ext.transSame h1, h2, hst.inv.of_same h1 h3 hk, hs.kept.trans h4⟩

theorem wq_ext_ret (hX : ExtLocal c va ra P) (hR : rd → ExtBlind c va ra P) (hE : ExtFns c va ra) {f s}
    (hst : Lk c va ra P st0 st) (hg : Grown (ra f) st s) (hs : Lk c va ra P st0 s) :
    wq rd P (c.retFn f) (fun v t => Lk c va ra P st0 t ∧ Within P v) (LErr c va ra P st0) s := by
  have h5 := hg.5
  have hfr : ∀ i, ¬ P i → i < s.stack.length - ra f := fun i hi => by
    have := hst.inv.fresh i hi; omega
  refine wq_mono (wq_and (Dyon.wp_ext_ret hE hst.ext.extE hg hs.wf) ⟨hX.ret f s (by omega)
    hs.inv.toTame hfr, fun hr => (hR hr).ret f s (by omega) hs.inv.toTame hfr⟩) (fun _ t ⟨⟨h1, h2⟩, h3, h4, h6⟩ => ?_)
    fun t ⟨⟨h1, h2⟩, h3, h4⟩ => ⟨h1, h2, h3, hs.kept.trans h4⟩
  · have hk := (Lk.back (d := t) hst hs).trans h4
    exact ⟨⟨hst.ext.transSame h1, h2, hst.inv.of_same h1 h3 hk, hs.kept.trans h4⟩, h6⟩

theorem Ok.callE (hA : ArriveIn c P) (hX : ExtLocal c va ra P) (hR : rd → ExtBlind c va ra P) (hE : ExtFns c va ra)
    (hM : ModulesWF c va ra) (hMi : ModulesIn c P) (hg : Good c va ra ev)
    (hev : Loc rd c va ra P ev) {n loader f name args} (h0 : Inv P st0)
    (hw : (Expr.call f name args).WF (Dyon.kOf c va ra st0)) (hc : EsIn P args) :
    Ok rd c va ra P st0 (RIn P) (callE c n ev loader f name args) := by
  cases f with
  | void f =>
    simp only [Expr.WF] at hw
    refine ⟨fun st hst => wq_lazyArgs_ext hg hev hw.1 hc hst fun s hgs hs => ?_⟩
    rw [hw.2] at hgs
    exact wq_bind (wq_mono (wq_ext_void hX hR hE hst hgs hs) (fun _ t ht => wq_pure ⟨ht, .none⟩)
      fun _ h => h)
  | ret f =>
    simp only [Expr.WF] at hw
    refine ⟨fun st hst => wq_lazyArgs_ext hg hev hw.1 hc hst fun s hgs hs => ?_⟩
    rw [hw.2] at hgs
    exact wq_bind (wq_mono (wq_ext_ret hX hR hE hst hgs hs)
      (fun _ t ht => wq_pure ⟨ht.1, .some ht.2⟩) fun _ h => h)
  | lazy f inv =>
    simp only [Expr.WF] at hw
    refine ⟨fun st hst => wq_lazyArgs_ext hg hev hw.1 hc hst fun s hgs hs => ?_⟩
    rw [hw.2.1] at hgs
    exact wq_bind (wq_mono (wq_ext_ret hX hR hE hst hgs hs)
      (fun _ t ht => wq_pure ⟨ht.1, .some ht.2⟩) fun _ h => h)
  | binop f => simp only [Expr.WF] at hw; exact .callBinop hX hev hw.1 hc
  | unop f => simp only [Expr.WF] at hw; exact .callUnop hX hev hw.1 hc
  | loaded f => simp only [Expr.WF] at hw; exact .callLoaded hA hM hMi hev h0 hw.1 hc
  | none => exact .errT

theorem wq_inModule {m : Nat} {act : EM α} {Q : α → St → Prop} {E : St → Prop} {s : St}
    (h : wq rd P act (fun a t => Q a { t with module := s.module })
      (fun t => E { t with module := s.module }) { s with module := m }) :
    wq rd P (inModule m act) Q E s := by
  refine ⟨wp_inModule h.1, fun hr g hg => ?_⟩
  have h2 := h.2 hr g hg
  unfold inModule
  have : ({ other P g s with module := m } : St) = other P g { s with module := m } := rfl
  rw [this, h2]
  cases act { s with module := m } <;> rfl

theorem Ok.callClosureE (hev : Loc rd c va ra P ev) (hn : c.byName = true) {it args} (h0 : Inv P st0)
    (hwi : WFitem (Dyon.kOf c va ra st0) it) (hw : WFs (Dyon.kOf c va ra st0) args)
    (hci : ItemIn P it) (hc : EsIn P args) :
    Ok rd c va ra P st0 (RIn P) (callClosureE c ev it args) := by
  refine .bind (.itemE hev hn h0 hwi hci) fun r hr => ?_
  obtain ⟨_ | x, _ | _ | _ | _⟩ := r
  case none.ret => exact .pure hr
  case some.ret => exact .pure hr
  case some.cont =>
    refine ⟨fun s hs => ?_⟩
    have hclo : wp (closureOf x) (fun f t => f.body.WF (ctxAt c va ra f.module f.relative))
        (fun _ => True) s := by
      unfold closureOf
      refine wp_bind (wp_mono (wp_and ((Quiet.derefE x).run s) (((Calm.derefE (rd := rd) hr.val).run s hs.inv).1))
        (fun d t ⟨_, hcm, _⟩ => ?_) fun _ _ => trivial)
      split
      · rename_i id _ _
        refine wp_bind (wp_get ?_)
        cases hc : t.closures[id]? with
        | none => exact wp_panic
        | some cl =>
          exact wp_pure ((hs.calm hcm).wf cl (List.mem_of_getElem? hc))
      · exact wp_bind (wp_get (wp_errT trivial))
    refine wq_bind (wq_mono (wq_and hclo ((Ok.calm (Calm.closureOf hr.val)).run s hs)) ?_
      fun _ h => h.2)
    rintro f s' ⟨hfb, hs', hfc⟩
    refine wq_ite (fun _ => wq_errT hs'.err) fun _ => ?_
    refine wq_call hev h0 hs' hw hc (note := fun _ => (Pure.pure () : EM Unit)) (fun _ _ => .pure trivial)
      fun t hm hrel hwf hi => ?_
    have hk : Dyon.kOf c va ra { t with module := f.module } = ctxAt c va ra f.module f.relative := by
      have : ({ t with module := f.module } : St).rel = f.relative := hrel
      simp only [Dyon.kOf, this]
    refine wq_inModule (wq_mono (hev f.body .right { t with module := f.module } hwf
      ⟨⟨hi.slots, hi.closures, hi.queues, hi.currents⟩, hi.fresh, hi.base, hi.locals⟩
      (by rw [hk]; exact hfb) hfc) ?_ ?_)
    · rintro r u ⟨hu, hr⟩
      have := hu.inv
      exact ⟨⟨⟨rfl, hu.ext.2, hu.ext.3, hu.ext.4, hu.ext.5⟩, hu.wf,
        ⟨⟨this.slots, this.closures, this.queues, this.currents⟩, this.fresh, this.base, this.locals⟩,
        hu.kept⟩, hr⟩
    · intro u hu
      have := hu.tame
      exact ⟨⟨rfl, hu.ext.2, hu.ext.3, hu.ext.4, hu.ext.5⟩, hu.wf,
        ⟨this.slots, this.closures, this.queues, this.currents⟩, hu.kept⟩
  all_goals exact .errT

/-! ## Literals -/

theorem Ok.linkLit (hev : Loc rd c va ra P ev) {items l} (hw : WFs (Dyon.kOf c va ra st0) items)
    (hc : EsIn P items) : Ok rd c va ra P st0 (fun r => RIn P r.2) (linkLit ev items l) := by
  induction items generalizing l with
  | nil => exact .pure (.some within_link)
  | cons e es ih =>
    rw [WFs] at hw
    rw [EsIn] at hc
    have ih := fun l => ih (l := l) hw.2 hc.2
    refine .bind (.sub1 hev hw.1 hc.1) fun r hr => ?_
    obtain ⟨_ | x, _ | _ | _ | _⟩ := r
    case none.cont => exact ih _
    case some.cont =>
      refine .bind (.calm (.derefE hr.val)) fun d _ => ?_
      split
      · exact ih _
      · exact .errT
    all_goals exact .pure hr

theorem Ok.linkE (hev : Loc rd c va ra P ev) {items} (h0 : Inv P st0)
    (hw : WFs (Dyon.kOf c va ra st0) items) (hc : EsIn P items) :
    Ok rd c va ra P st0 (RIn P) (linkE ev items) :=
  .ite (fun _ => .pure (.some within_link)) fun _ => .scope3 h0 (.linkLit hev hw hc)

theorem Ok.objectE (hev : Loc rd c va ra P ev) {kvs acc} (hw : WFkvs (Dyon.kOf c va ra st0) kvs)
    (hc : KvsIn P kvs) (ha : ∀ kv ∈ acc, Within P kv.2) :
    Ok rd c va ra P st0 (RIn P) (objectE ev kvs acc) := by
  induction kvs generalizing acc with
  | nil => exact .pure (.some (within_object.2 ha))
  | cons x xs ih =>
    obtain ⟨k, e⟩ := x
    rw [WFkvs] at hw
    rw [KvsIn] at hc
    refine .want hev hw.1 hc.1 fun x hx => .ite (fun _ => .errT) fun _ => ih hw.2 hc.2 ?_
    intro kv hkv
    rcases List.mem_append.1 hkv with h | h
    · exact ha kv h
    · rw [List.mem_singleton] at h; subst h; exact hx

theorem Ok.arrayE (hev : Loc rd c va ra P ev) {es acc} (hw : WFs (Dyon.kOf c va ra st0) es)
    (hc : EsIn P es) (ha : ∀ v ∈ acc, Within P v) :
    Ok rd c va ra P st0 (RIn P) (arrayE ev es acc) := by
  induction es generalizing acc with
  | nil => exact .pure (.some (within_array.2 ha))
  | cons x xs ih =>
    rw [WFs] at hw
    rw [EsIn] at hc
    refine .want hev hw.1 hc.1 fun x hx => ih hw.2 hc.2 ?_
    intro v hv
    rcases List.mem_append.1 hv with h | h
    · exact ha v h
    · rw [List.mem_singleton] at h; subst h; exact hx

theorem Ok.arrayFillE (hev : Loc rd c va ra P ev) {f m}
    (hw : (Expr.arrayFill f m).WF (Dyon.kOf c va ra st0)) (hc : EIn P (.arrayFill f m)) :
    Ok rd c va ra P st0 (RIn P) (arrayFillE ev f m) := by
  rw [Expr.WF] at hw
  rw [EIn] at hc
  refine .want hev hw.1 hc.1 fun x hx => .want hev hw.2 hc.2 fun k hk =>
    .bind (.calm (.derefE hx)) fun x hx => .bind (.calm (.derefE hk)) fun k hk => ?_
  split
  · refine .pure (.some (within_array.2 fun v hv => ?_))
    rw [(List.mem_replicate.1 hv).2]; exact hx
  · exact .errT

/-! ## Branches and loops -/

theorem Ok.elifsE (hev : Loc rd c va ra P ev) {els elifs} (h0 : Inv P st0)
    (hw : WFelifs (Dyon.kOf c va ra st0) elifs) (hw' : WFoptList (Dyon.kOf c va ra st0) els)
    (hc : ElifsIn P elifs) (hc' : OptListIn P els) :
    Ok rd c va ra P st0 (RIn P) (elifsE ev els elifs) := by
  induction elifs with
  | nil =>
    cases els with
    | none => exact .pure .none
    | some b => rw [WFoptList] at hw'; rw [OptListIn] at hc'; exact .block hev h0 hw' hc'
  | cons x xs ih =>
    obtain ⟨cnd, b⟩ := x
    rw [WFelifs] at hw
    rw [ElifsIn] at hc
    refine .want hev hw.1 hc.1 fun x hx => .bind (.calm (.derefE hx)) fun d _ => ?_
    split
    · exact ih hw.2.2 hc.2.2
    · exact .block hev h0 hw.2.1 hc.2.1
    · exact .errT

theorem Ok.iteE (hev : Loc rd c va ra P ev) {cnd t elifs els} (h0 : Inv P st0)
    (hw : (Expr.ite cnd t elifs els).WF (Dyon.kOf c va ra st0)) (hc : EIn P (.ite cnd t elifs els)) :
    Ok rd c va ra P st0 (RIn P) (iteE ev cnd t elifs els) := by
  rw [Expr.WF] at hw
  rw [EIn] at hc
  refine .want hev hw.1 hc.1 fun x hx => .bind (.calm (.derefE hx)) fun d _ => ?_
  split
  · exact .block hev h0 hw.2.1 hc.2.1
  · exact .elifsE hev h0 hw.2.2.1 hw.2.2.2 hc.2.2.1 hc.2.2.2
  · exact .errT

/-- The rounds of a `for` loop. -/
def ForIn (P : Nat → Prop) : Unit ⊕ (Bool × R) → Prop
  | .inl _ => True
  | .inr r => RIn P r.2

theorem Ok.forStep (hev : Loc rd c va ra P ev) {stp k} (hw : stp.WF (Dyon.kOf c va ra st0))
    (hc : EIn P stp) (hk : Ok rd c va ra P st0 (ForIn P) k) :
    Ok rd c va ra P st0 (ForIn P) (forStep ev stp k) := by
  refine .bind (.sub1 hev hw hc) fun r hr => ?_
  obtain ⟨_ | x, _ | _ | _ | _⟩ := r
  case none.cont => exact hk
  case none.ret => exact .pure hr
  case some.ret => exact .pure hr
  all_goals exact .errT

theorem Ok.forE (hev : Loc rd c va ra P ev) {n i cnd stp b label} (h0 : Inv P st0)
    (hw : (Expr.for_ i cnd stp b label).WF (Dyon.kOf c va ra st0))
    (hc : EIn P (.for_ i cnd stp b label)) :
    Ok rd c va ra P st0 (RIn P) (forE n ev i cnd stp b label) := by
  rw [Expr.WF] at hw
  rw [EIn] at hc
  refine .scope2 h0 (.bind (.sub1 hev hw.1 hc.1) fun r hr => ?_)
  obtain ⟨_ | x, _ | _ | _ | _⟩ := r
  case none.ret => exact .pure hr
  case some.ret => exact .pure hr
  case none.cont =>
    refine .get fun s hs => .loopN (fun _ => True) (fun _ _ => ?_) trivial
    suffices h : Ok rd c va ra P st0 (ForIn P)
        (forRound ev cnd stp b label s.stack.length s.locals.length ()) from
      h.mono fun r hr => by cases r <;> exact hr
    refine .wantK hev hw.2.1 hc.2.1 (fun x f h => .pure (show RIn P _ from h.of)) fun v hv => ?_
    split
    · refine .bind (.block hev h0 hw.2.2.2 hc.2.2.2) fun r hr => ?_
      obtain ⟨x, _ | _ | l | l⟩ := r
      · exact .forStep hev hw.2.2.1 hc.2.2.1 (.bind (.truncStack h0 hs.ext.5) fun _ _ =>
          .bind (.truncLocals h0 hs.ext.3.length_le) fun _ _ => .pure trivial)
      · exact .pure hr
      · exact .pure (show RIn P _ from .none)
      · simp only
        cases onContinue label l with
        | none => exact .forStep hev hw.2.2.1 hc.2.2.1 (.pure trivial)
        | some f => exact .pure (show RIn P _ from .none)
    · exact .pure (show RIn P _ from .none)
    · exact .errT
  all_goals exact .errT

theorem rin_accResult {r : Option Val × R} (h : LoopIn P (AIn P) r) : RIn P (accResult r) := by
  obtain ⟨a, x, f⟩ := r
  obtain ⟨h1, h2⟩ := h
  cases f <;> first | exact h2 | exact fun v hv => h1 v hv

theorem rin_linkResult {r : List Link.Scalar × R} (h : RIn P r.2) : RIn P (linkResult r) := by
  obtain ⟨l, _ | x, f⟩ := r <;> cases f <;>
    first | exact .some within_link | exact .none | exact h

theorem Ok.forNLoop [FloatOps] (hev : Loc rd c va ra P ev) {n kd name start stop body label}
    (h0 : Inv P st0) (hw : (Expr.forN kd name start stop body label).WF (Dyon.kOf c va ra st0))
    (hc : EIn P (.forN kd name start stop body label)) :
    Ok rd c va ra P st0 (RIn P) (forNLoop n ev kd name start stop body label) := by
  rw [Expr.WF] at hw
  rw [EIn] at hc
  refine .bind (.countLoop hev (AIn P) h0 hw.1 hw.2.1 hc.1 hc.2.1 ain_initN fun a x ha => ?_)
    fun r hr => .pure (rin_accResult hr)
  exact .bodyRound hev (AIn P) h0 hw.2.2.1 hc.2.2 ha fun a x ha hx => .forStepN within_ofF64 ha hx

theorem Ok.forInLoop [FloatOps] (hA : ArriveIn c P) (hev : Loc rd c va ra P ev)
    {n kd name iter body label}
    (h0 : Inv P st0) (hw : (Expr.forIn kd name iter body label).WF (Dyon.kOf c va ra st0))
    (hc : EIn P (.forIn kd name iter body label)) :
    Ok rd c va ra P st0 (RIn P) (forInLoop c n ev kd name iter body label) := by
  rw [Expr.WF] at hw
  rw [EIn] at hc
  refine .bind (.chanLoop hev hA (AIn P) h0 hw.1 hc.1 ain_initIn (by simp [AIn]) fun a x ha hx => ?_)
    fun r hr => .pure (rin_accResult hr)
  exact .bodyRound hev (AIn P) h0 hw.2.1 hc.2 ha fun a y ha hy => .forStepIn hx ha hy

/-! ## Vectors and matrices -/

theorem wq_vecArg (hg : Good c va ra ev) (hev : Loc rd c va ra P ev) {a side msg} {next : EM R}
    {n : Nat} {s : St} (hgs : Grown n st s) (hs : Lk c va ra P st0 s)
    (hw : a.WF (Dyon.kOf c va ra st0)) (hc : EIn P a)
    (hv : (Valued (Dyon.kOf c va ra st0) a || a.isSwizzle) = true)
    (hk : ∀ t, Grown (n + a.width) st t → Lk c va ra P st0 t →
      wq rd P next (Outcome c va ra P st0) (LErr c va ra P st0) t) :
    wq rd P (do
      match ← ev a side with
      | (some x, .cont) => do
        pushE x
        next
      | (none, .cont) => next
      | (x, .ret) => retR x
      | _ => errT msg) (Outcome c va ra P st0) (LErr c va ra P st0) s := by
  refine wq_bind (wq_mono (wq_and (hg a side s hs.wf (by rw [hs.kOf]; exact hw))
    ((Ok.sub1 hev hw hc).run s hs)) ?_ fun _ h => h.2)
  rintro ⟨_ | x, _ | _ | _ | _⟩ t ⟨hp, ht, hr⟩
  case none.ret => exact wq_pure ⟨ht, hr⟩
  case some.ret => exact wq_pure ⟨ht, hr⟩
  case none.cont =>
    have hv' := hp.valued rfl rfl
    rw [hs.kOf] at hv'
    rw [hv', Bool.false_or] at hv
    exact hk _ (hgs.trans (hp.swizzle hv rfl).2) ht
  case some.cont =>
    have hsw : a.isSwizzle = false := by
      by_contra h
      have := (hp.swizzle (by simpa using h) rfl).1
      simp at this
    rw [width_one hsw] at hk
    exact wq_bind (wq_modify (hk _ ((hgs.trans (hp.value _ rfl rfl).grown).trans (Grown.push x))
      (ht.push hr.val)) fun _ => by simp [other, over_push (ht.ge le_rfl)])
  all_goals exact wq_errT ht.err

theorem wq_vecArgs4 (hg : Good c va ra ev) (hev : Loc rd c va ra P ev) {side msg args} {k : EM R}
    (hst : Lk c va ra P st0 st) (hw : WFs (Dyon.kOf c va ra st0) args) (hc : EsIn P args)
    (hv : vecArgsOk (Dyon.kOf c va ra st0) args = true) (hf : fits args 4 = true)
    (hk : ∀ s, Grown 4 st s → Lk c va ra P st0 s →
      wq rd P k (Outcome c va ra P st0) (LErr c va ra P st0) s) :
    wq rd P (vecArgs ev side msg (some st.stack.length) args k) (Outcome c va ra P st0)
      (LErr c va ra P st0) st := by
  suffices ∀ g r s, g + r = 4 → (r = 0 → args = []) → fits args r = true → Grown g st s →
      Lk c va ra P st0 s →
      wq rd P (vecArgs ev side msg (some st.stack.length) args k) (Outcome c va ra P st0)
        (LErr c va ra P st0) s from
    this 0 4 st rfl (by simp) hf Same.rfl.grown hst
  clear hf
  induction args with
  | nil =>
    intro g r s hgr _ hf hs hi
    cases r with
    | zero => obtain rfl : g = 4 := by omega
              exact hk s hs hi
    | succ r => simp [fits] at hf
  | cons a as ih =>
    intro g r s hgr hr0 hf hs hi
    rw [WFs] at hw
    rw [EsIn] at hc
    rw [vecArgsOk, Bool.and_eq_true] at hv
    cases r with
    | zero => simp at hr0
    | succ r =>
      rw [fits, Bool.and_eq_true, decide_eq_true_eq] at hf
      rw [vecArgs]
      refine wq_vecArg hg hev hs hi hw.1 hc.1 hv.1 fun t ht hi => ?_
      unfold vecArgs.vecNext
      refine wq_get (wq_ite (fun h => ?_) fun h => ?_)
      · have h5 := ht.5
        obtain he : g + a.width = 4 := by omega
        rw [he] at ht
        exact hk t ht hi
      · have h5 := ht.5
        exact ih hw.2 hc.2 hv.2 (g + a.width) (r + 1 - a.width) t (by omega) (by omega) hf.2 ht hi

theorem wq_vecArgsAll (hg : Good c va ra ev) (hev : Loc rd c va ra P ev) {side msg args} {k : EM R}
    (hst : Lk c va ra P st0 st) (hw : WFs (Dyon.kOf c va ra st0) args) (hc : EsIn P args)
    (hv : vecArgsOk (Dyon.kOf c va ra st0) args = true)
    (hk : ∀ s, Grown ((args.map Expr.width).sum) st s → Lk c va ra P st0 s →
      wq rd P k (Outcome c va ra P st0) (LErr c va ra P st0) s) :
    wq rd P (vecArgs ev side msg none args k) (Outcome c va ra P st0) (LErr c va ra P st0) st := by
  suffices ∀ g s, Grown g st s → Lk c va ra P st0 s →
      (∀ s, Grown (g + (args.map Expr.width).sum) st s → Lk c va ra P st0 s →
        wq rd P k (Outcome c va ra P st0) (LErr c va ra P st0) s) →
      wq rd P (vecArgs ev side msg none args k) (Outcome c va ra P st0) (LErr c va ra P st0) s from
    this 0 st Same.rfl.grown hst (by simpa using hk)
  clear hk
  induction args with
  | nil => exact fun g s hs hl hk => hk s (by simpa using hs) hl
  | cons a as ih =>
    intro g s hs hl hk
    rw [WFs] at hw
    rw [EsIn] at hc
    rw [vecArgsOk, Bool.and_eq_true] at hv
    rw [vecArgs]
    refine wq_vecArg hg hev hs hl hw.1 hc.1 hv.1 fun t ht hi => ?_
    unfold vecArgs.vecNext
    refine wq_get ((ih hw.2 hc.2 hv.2 _ _ ht hi fun s hs hl => hk s ?_ hl))
    have : g + ((a :: as).map Expr.width).sum = g + a.width + (as.map Expr.width).sum := by simp; omega
    rw [this]; exact hs

theorem wq_popNum {f : F64 → EM β} {R : β → Prop} {n : Nat} {s : St} (h0 : Inv P st0)
    (hst : Lk c va ra P st0 st) (hs : Lk c va ra P st0 s) (hg : Grown (n + 1) st s)
    (h : ∀ v s, Grown n st s → Lk c va ra P st0 s →
      wq rd P (f v) (fun r t => Lk c va ra P st0 t ∧ R r) (LErr c va ra P st0) s) :
    wq rd P (popNum >>= f) (fun r t => Lk c va ra P st0 t ∧ R r) (LErr c va ra P st0) s := by
  refine wq_bind ?_
  unfold popNum
  refine wq_popE h0 hst hs hg fun v t hgt ht hv => ?_
  refine wq_bind (wq_mono (wq_and ((Quiet.derefE v).run t) ((Calm.derefE hv).run t ht.inv))
    (fun d u ⟨hu, hcm, hd⟩ => ?_) fun _ hu => (ht.calm hu.2).err)
  have hgu := hgt.trans hu.1.grown
  have hlu := ht.calm hcm
  split
  · exact wq_pure (h _ _ hgu hlu)
  · exact wq_errExpected2 hlu.err

theorem wq_popVec {f : Vec4 → EM β} {R : β → Prop} {n : Nat} {s : St} (h0 : Inv P st0)
    (hst : Lk c va ra P st0 st) (hs : Lk c va ra P st0 s) (hg : Grown (n + 1) st s)
    (h : ∀ v s, Grown n st s → Lk c va ra P st0 s →
      wq rd P (f v) (fun r t => Lk c va ra P st0 t ∧ R r) (LErr c va ra P st0) s) :
    wq rd P (popVec >>= f) (fun r t => Lk c va ra P st0 t ∧ R r) (LErr c va ra P st0) s := by
  refine wq_bind ?_
  unfold popVec
  refine wq_popE h0 hst hs hg fun v t hgt ht hv => ?_
  refine wq_bind (wq_mono (wq_and ((Quiet.derefE v).run t) ((Calm.derefE hv).run t ht.inv))
    (fun d u ⟨hu, hcm, hd⟩ => ?_) fun _ hu => (ht.calm hu.2).err)
  have hgu := hgt.trans hu.1.grown
  have hlu := ht.calm hcm
  split
  · exact wq_pure (h _ _ hgu hlu)
  · exact wq_errExpected2 hlu.err

theorem Ok.vec4E [FloatOps] (hg : Good c va ra ev) (hev : Loc rd c va ra P ev) {args side}
    (h0 : Inv P st0) (hw : (Expr.vec4 args).WF (Dyon.kOf c va ra st0)) (hc : EsIn P args) :
    Ok rd c va ra P st0 (RIn P) (vec4E ev args side) := by
  rw [Expr.WF] at hw
  refine ⟨fun st hst => wq_get ?_⟩
  refine wq_vecArgs4 hg hev hst hw.1 hc hw.2.1 hw.2.2 fun s hgs hs => ?_
  refine wq_popNum h0 hst hs hgs fun _ s hgs hs => ?_
  refine wq_popNum h0 hst hs hgs fun _ s hgs hs => ?_
  refine wq_popNum h0 hst hs hgs fun _ s hgs hs => ?_
  refine wq_popNum h0 hst hs hgs fun _ s hgs hs => ?_
  exact wq_pure ⟨hs, .some within_vec4⟩

theorem Ok.mat4E (hg : Good c va ra ev) (hev : Loc rd c va ra P ev) {args side}
    (h0 : Inv P st0) (hw : (Expr.mat4 args).WF (Dyon.kOf c va ra st0)) (hc : EsIn P args) :
    Ok rd c va ra P st0 (RIn P) (mat4E ev args side) := by
  rw [Expr.WF] at hw
  refine ⟨fun st hst => ?_⟩
  refine wq_vecArgsAll hg hev hst hw.1 hc hw.2.1 fun s hgs hs => ?_
  rw [hw.2.2] at hgs
  refine wq_popVec h0 hst hs hgs fun _ s hgs hs => ?_
  refine wq_popVec h0 hst hs hgs fun _ s hgs hs => ?_
  refine wq_popVec h0 hst hs hgs fun _ s hgs hs => ?_
  refine wq_popVec h0 hst hs hgs fun _ s hgs hs => ?_
  exact wq_pure ⟨hs, .some within_mat4⟩

theorem Ok.pushComps [FloatOps] {v sel} : Ok rd c va ra P st0 (fun _ => True) (pushComps v sel) := by
  induction sel with
  | nil => exact .pure trivial
  | cons i is ih =>
    rw [Dyon.pushComps]
    split
    · exact .bind (.pushE within_ofF64) fun _ _ => ih
    · exact .panic

theorem Ok.swizzleE [FloatOps] (hev : Loc rd c va ra P ev) {sel e} (hw : e.WF (Dyon.kOf c va ra st0))
    (hc : EIn P e) : Ok rd c va ra P st0 (RIn P) (swizzleE ev sel e) := by
  refine .wantK hev hw hc (fun x f h => .pure .none) fun x hx => .bind (.calm (.derefE hx))
    fun d _ => ?_
  split
  · exact .bind .pushComps fun _ _ => .pure .none
  · exact .errExpected

/-! ## The rest -/

theorem wq_closureE (hg : Good c va ra ev) (hev : Loc rd c va ra P ev) {n args cur r file e}
    (hi : ClosuresWF c va ra st) (h0 : Inv P st)
    (hw : e.WF (Dyon.kOf c va ra st)) (hc : EIn P e) :
    wq rd P (closureE n ev args cur r file e) (Outcome c va ra P st) (LErr c va ra P st) st := by
  refine wq_mono (wq_and (Dyon.wp_closureE (n := n) (args := args) (cur := cur) (r := r) (file := file)
    hg .rfl hi hw) (show wq rd P _ (fun r s => Ext st s ∧ Inv P s ∧ Kept P st s ∧ RIn P r)
      (LErr c va ra P st) st from ?_))
    (fun r s h => ⟨⟨h.2.1, h.1.inv, h.2.2.1, h.2.2.2.1⟩, h.2.2.2.2⟩) fun _ h => h.2
  refine wq_bind ⟨?_, fun _ _ _ => rfl⟩
  show wq rd P _ _ _ _
  refine wq_bind (wq_mono ((Ok.grabExpr hev n .right 1 e hw hc).run st (.rfl hi h0)) ?_ fun _ h => h)
  rintro (x | e') s ⟨hs, hr⟩
  · exact wq_pure ⟨hs.ext, hs.inv, hs.kept, hr⟩
  · refine wq_get (wq_bind (wq_modify (wq_pure ⟨?_, ?_, hs.kept, .some within_closure⟩)))
    · exact ⟨hs.ext.1, hs.ext.2, hs.ext.3, hs.ext.4, hs.ext.5⟩
    · refine ⟨⟨hs.inv.slots, ?_, hs.inv.queues, hs.inv.currents⟩, hs.inv.fresh, hs.inv.base,
        hs.inv.locals⟩
      intro cl hcl
      rcases List.mem_append.1 hcl with h | h
      · exact hs.inv.closures cl h
      · rw [List.mem_singleton] at h
        subst h
        exact hr

theorem Ok.goArgs (hev : Loc rd c va ra P ev) {n args acc} {k : List Val → EM R}
    (hw : WFs (Dyon.kOf c va ra st0) args) (hc : EsIn P args)
    (hk : ∀ vs, Ok rd c va ra P st0 (RIn P) (k vs)) :
    Ok rd c va ra P st0 (RIn P) (goArgs n ev args acc k) := by
  induction args generalizing acc with
  | nil => exact hk _
  | cons a as ih =>
    rw [WFs] at hw
    rw [EsIn] at hc
    exact .want hev hw.1 hc.1 fun x hx => .bind (.calm (.cloneE hx)) fun v _ => ih hw.2 hc.2

theorem Ok.goE (hev : Loc rd c va ra P ev) {n name args}
    (hw : WFs (Dyon.kOf c va ra st0) args) (hc : EsIn P args) :
    Ok rd c va ra P st0 (RIn P) (goE c n ev name args) := by
  unfold Dyon.goE
  refine .bind .lastCall fun call _ => .get fun s _ => .goArgs hev hw hc fun vs =>
    .bind .lastCall fun last _ => .get fun s _ => ?_
  refine ⟨fun t ht => wq_bind (wq_modify (wq_pure ⟨⟨⟨ht.ext.1, ht.ext.2, ht.ext.3, ht.ext.4, ht.ext.5⟩,
    ht.wf, ?_, ht.kept⟩, .some within_thread⟩))⟩
  have := ht.inv
  exact ⟨⟨this.slots, this.closures, this.queues, this.currents⟩, this.fresh, this.base, this.locals⟩

theorem wq_tryExprE (hev : Loc rd c va ra P ev) {e} (hi : ClosuresWF c va ra st) (h0 : Inv P st)
    (hw : e.WF (Dyon.kOf c va ra st)) (hc : EIn P e) :
    wq rd P (tryExprE ev e) (Outcome c va ra P st) (LErr c va ra P st) st := by
  have h := hev e .right st hi h0 hw hc
  refine ⟨?_, fun hr g hg => ?_⟩
  case refine_2 =>
    unfold tryExprE
    rw [h.2 hr g hg]
    cases ev e .right st with
    | ok r s => obtain ⟨_ | x, _ | _ | _ | _⟩ := r <;> rfl
    | err m s => simp only [Ev.onSt, other, over_take, over_length]
    | panic w => rfl
    | timeout => rfl
  replace h := h.1
  unfold wp tryExprE
  unfold wp at h
  cases hx : ev e .right st with
  | ok r s =>
    rw [hx] at h
    obtain ⟨hs, hr⟩ := h
    obtain ⟨_ | x, _ | _ | _ | _⟩ := r
    case none.cont => exact hs.err
    case some.cont => exact ⟨hs, .some (within_ok.2 hr.val)⟩
    all_goals exact ⟨hs, hr⟩
  | err m s =>
    rw [hx] at h
    have hsame := h.ext.cut4
    have hk : Kept P st { s with
      calls := s.calls.take st.calls.length
      stack := s.stack.take st.stack.length
      locals := s.locals.take st.locals.length
      currents := s.currents.take st.currents.length } := h.kept.take h0 le_rfl
    have ht := h.tame.take st.stack.length
    exact ⟨⟨hsame.ext, h.wf, h0.of_same hsame ⟨ht.slots, ht.closures, ht.queues,
      fun x hx => ht.currents x (List.mem_of_mem_take hx)⟩ hk, hk⟩, .some (within_err.2 within_str)⟩
  | panic w => trivial
  | timeout => trivial

theorem Ok.tryE (hev : Loc rd c va ra P ev) {e side} (hw : e.WF (Dyon.kOf c va ra st0)) (hc : EIn P e) :
    Ok rd c va ra P st0 (RIn P) (tryE ev e side) :=
  .want hev hw hc fun _ hx => .bind (.calm (.derefE hx)) fun _ hd => .calm (.tryVal hd)

theorem Ok.declare {it v} (hv : Within P v) : Ok rd c va ra P st0 (RIn P) (declare it v) := by
  refine .get fun s hs => ?_
  have hp := hs.ge (i := s.stack.length) le_rfl
  have ht : Ok rd c va ra P st0 (RIn P) (do Dyon.pushE v; noneR) :=
    .bind (.pushE hv) fun _ _ => .pure .none
  refine .bind (.pushLocal hp) fun _ _ => ?_
  cases it.current
  · exact ht
  · exact .bind (.pushCurrent hp) fun _ _ => ht

theorem Ok.assignE [FloatOps] [VecMath] (hev : Loc rd c va ra P ev) {op l r}
    (hl : l.WF (Dyon.kOf c va ra st0)) (hr : r.WF (Dyon.kOf c va ra st0))
    (hlc : EIn P l) (hrc : EIn P r) : Ok rd c va ra P st0 (RIn P) (assignE ev op l r) := by
  refine .ite (fun _ => ?_) fun _ => ?_
  · unfold declareE
    split
    · exact .want hev hr hrc fun x hx => .bind (.calm (.shallow hx)) fun d hd =>
        .ite (fun _ => .declare hd) fun _ => .want hev hl hlc fun y hy => .calm (.storeAt hy hd)
    · exact .errT
  · exact .want hev hr hrc fun x hx => .want hev hl hlc fun y hy => .bind (.calm (.targetOf hy))
      fun p hp => .calm (.assignTo hp hx)

theorem Loc.step [FloatOps] [VecMath] (hn : c.byName = true) (hA : ArriveIn c P)
    (hX : ExtLocal c va ra P) (hR : rd → ExtBlind c va ra P) (hE : ExtFns c va ra)
    (hM : ModulesWF c va ra) (hMi : ModulesIn c P)
    (hg : Good c va ra ev) (hev : Loc rd c va ra P ev) (n : Nat) :
    Loc rd c va ra P (evalStep c n ev) := by
  intro e side st hi h0 hw hc
  have hrfl : Lk c va ra P st st := .rfl hi h0
  unfold evalStep
  split
  all_goals try rw [EIn] at hc
  · rw [Expr.WF] at hw; exact (Ok.linkE hev h0 hw hc).run st hrfl
  · rw [Expr.WF] at hw; exact (Ok.objectE hev hw hc (by simp)).run st hrfl
  · rw [Expr.WF] at hw; exact (Ok.arrayE hev hw hc (by simp)).run st hrfl
  · exact (Ok.arrayFillE hev hw (by rw [EIn]; exact hc)).run st hrfl
  · rw [Expr.WF] at hw; exact (Ok.block hev h0 hw hc).run st hrfl
  · rw [Expr.WF] at hw
    exact (Ok.want hev hw hc fun x hx => .pure (.some hx)).run st hrfl
  · exact wq_pure ⟨hrfl, .none⟩
  · exact wq_pure ⟨hrfl, .none⟩
  · exact wq_pure ⟨hrfl, .none⟩
  · rw [Expr.WF] at hw; exact (Ok.goE hev hw hc).run st hrfl
  · exact (Ok.callE hA hX hR hE hM hMi hg hev h0 hw hc).run st hrfl
  · rw [Expr.WF] at hw; exact (Ok.itemE hev hn h0 hw hc).run st hrfl
  · rw [Expr.WF] at hw; exact (Ok.assignE hev hw.1 hw.2 hc.1 hc.2).run st hrfl
  · exact (Ok.vec4E hg hev h0 hw hc).run st hrfl
  · exact (Ok.mat4E hg hev h0 hw hc).run st hrfl
  · exact (Ok.forE hev h0 hw (by rw [EIn]; exact hc)).run st hrfl
  · exact (Ok.bind (Ok.linkForN hev h0 hw (by rw [EIn]; exact hc))
      fun r hr => .pure (rin_linkResult hr.2)).run st hrfl
  · exact (Ok.forNLoop hev h0 hw (by rw [EIn]; exact hc)).run st hrfl
  · exact (Ok.bind (Ok.linkForIn hev hA h0 hw (by rw [EIn]; exact hc))
      fun r hr => .pure (rin_linkResult hr.2)).run st hrfl
  · exact (Ok.forInLoop hA hev h0 hw (by rw [EIn]; exact hc)).run st hrfl
  · exact (Ok.iteE hev h0 hw (by rw [EIn]; exact hc)).run st hrfl
  · exact wq_pure ⟨hrfl, .some hc⟩
  · rw [Expr.WF] at hw; exact (Ok.tryE hev hw hc).run st hrfl
  · rw [Expr.WF] at hw; exact (Ok.swizzleE hev hw hc).run st hrfl
  · rw [Expr.WF] at hw; exact wq_closureE hg hev hi h0 hw hc
  · rw [Expr.WF] at hw; exact (Ok.callClosureE hev hn h0 hw.1 hw.2 hc.1 hc.2).run st hrfl
  · exact wq_errT hrfl.err
  · rw [Expr.WF] at hw; exact wq_tryExprE hev hi h0 hw hc
  · exact (Ok.calm Calm.inE).run st hrfl

/-- The evaluator stays within reach. -/
theorem Loc.eval [FloatOps] [VecMath] (hn : c.byName = true) (hA : ArriveIn c P)
    (hX : ExtLocal c va ra P) (hR : rd → ExtBlind c va ra P) (hE : ExtFns c va ra)
    (hM : ModulesWF c va ra) (hMi : ModulesIn c P)
    (n : Nat) : Loc rd c va ra P (eval c n) := by
  induction n with
  | zero => exact fun e side st hi h0 hw hc => wq_timeout
  | succ n ih => exact Loc.step hn hA hX hR hE hM hMi (Good.eval hE hM n) ih n

end Dyon.Loc
