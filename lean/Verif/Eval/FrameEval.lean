import Verif.Eval.Frame

/-!
# What evaluation does to the stacks: all expressions

Lemmas for C23.
-/

namespace Dyon

variable {c : ECfg} {va ra : Nat → Nat} {ev : Evl} {α β : Type} {st st0 : St}

/-! ## Items -/

theorem wp_pushIds (hev : Good c va ra ev) {r : Option Val → EM β} {ids} {k : EM β} {Q}
    (h0 : ExtE st0 st) (hi : ClosuresWF c va ra st) (hw : WFids (kOf c va ra st) ids)
    (hr : ∀ x s, Ext st s → ClosuresWF c va ra s → wp (r x) Q (Err c va ra st0) s)
    (hk : ∀ n s, Grown n st s → ClosuresWF c va ra s → wp k Q (Err c va ra st0) s) :
    wp (pushIds ev r ids k) Q (Err c va ra st0) st := by
  suffices ∀ n s, Grown n st s → ClosuresWF c va ra s →
      wp (pushIds ev r ids k) Q (Err c va ra st0) s from this 0 st Same.rfl.grown hi
  induction ids with
  | nil => exact hk
  | cons i is ih =>
    cases i with
    | str x => rw [WFids] at hw; exact ih hw; all_goals simp
    | num x => rw [WFids] at hw; exact ih hw; all_goals simp
    | expr e =>
      rw [WFids] at hw
      intro n s hs hi
      refine wp_wantK hev (h0.trans hs.ext.extE) hi (by rw [hs.ext.kOf]; exact hw.1)
        (fun x t ht hi => hr _ _ (hs.ext.trans ht) hi) fun x t ht hi => ?_
      exact wp_bind (wp_modify (ih hw.2 (n + 0 + 1) _ ((hs.trans ht.grown).trans (Grown.push x)) hi))

theorem tryVal_some {v} : wp (tryVal v) (fun r _ => r.1.isSome ∧ (r.2 = .cont ∨ r.2 = .ret))
    (fun _ => True) st := by
  unfold tryVal
  split
  · exact wp_errT trivial
  · exact wp_pure ⟨rfl, .inl rfl⟩
  · unfold propagate
    refine wp_bind (wp_mono (Quiet.lastCall.run st) (fun call s _ => ?_) fun _ _ => trivial)
    refine wp_ite (fun _ => wp_errT trivial) fun _ => ?_
    refine wp_bind (wp_mono ((Quiet.slotE _).run s) (fun v s _ => ?_) fun _ _ => trivial)
    split
    · exact wp_pure ⟨rfl, .inr rfl⟩
    · exact wp_errT trivial

theorem propagate_ret {m t} : wp (propagate m t) (fun r _ => r.2 = .ret)
    (fun _ => True) st := by
  unfold propagate
  refine wp_bind (wp_mono (Quiet.lastCall.run st) (fun call s _ => ?_) fun _ _ => trivial)
  refine wp_ite (fun _ => wp_errT trivial) fun _ => ?_
  refine wp_bind (wp_mono ((Quiet.slotE _).run s) (fun v s _ => ?_) fun _ _ => trivial)
  split
  · exact wp_pure rfl
  · exact wp_errT trivial

theorem itemWalk_shape {sl side i l t p j} : wp (itemWalk c sl side i l t p j)
    (fun r _ => if r.1 then r.2.1.isSome ∧ r.2.2 = .cont else r.2.2 = .ret) (fun _ => True) st := by
  induction l generalizing i t p j st with
  | nil =>
    unfold itemWalk
    split
    · exact wp_bind (wp_mono ((Quiet.readE _).run st) (fun v s _ => wp_pure ⟨rfl, rfl⟩) fun _ _ => trivial)
    · exact wp_pure ⟨rfl, rfl⟩
  | cons x l ih =>
    unfold itemWalk
    refine wp_bind (wp_mono ((Quiet.itemLookup ..).run st) (fun q s _ => ?_) fun _ _ => trivial)
    refine wp_ite (fun _ => ?_) fun _ => ih
    refine wp_bind (wp_mono ((Quiet.readE _).run s) (fun v s _ => ?_) fun _ _ => trivial)
    split
    · exact wp_errT trivial
    · exact wp_bind (wp_mono ((Quiet.writeE _ _).run s) (fun _ s _ => ih) fun _ _ => trivial)
    · exact wp_bind (wp_mono propagate_ret (fun _ _ h => wp_pure h) fun _ _ => trivial)

/-- What an expression that gives a value or returns leaves. -/
structure ValPost (c : ECfg) (va ra : Nat → Nat) (st : St) (r : R) (s : St) : Prop where
  inv : ClosuresWF c va ra s
  ext : Ext st s
  same : r.2 ≠ .ret → Same st s
  some : r.2 = .cont → r.1.isSome

theorem ValPost.post {e r s} (h : ValPost c va ra st r s) (he : e.isSwizzle = false) :
    PostR c va ra e st r s where
  inv := h.inv
  ext := h.ext
  value := fun _ _ hf => h.same (by simp [hf])
  quiet := fun hf _ => h.same hf
  valued := fun hn hf => by have := h.some hf; simp [hn] at this
  swizzle := fun h' => by simp [he] at h'

theorem ValPost.ret {x s} (h : Ext st s) (hi : ClosuresWF c va ra s) :
    ValPost c va ra st (x, .ret) s := ⟨hi, h, fun h => absurd rfl h, by simp⟩
theorem ValPost.val {x s} (h : Same st s) (hi : ClosuresWF c va ra s) :
    ValPost c va ra st (Option.some x, .cont) s := ⟨hi, h.ext, fun _ => h, by simp⟩

theorem wp_want (hev : Good c va ra ev) {e side msg} {k : Val → EM R} 
    {Q : R → St → Prop}
    (h0 : ExtE st0 st) (hi : ClosuresWF c va ra st) (hw : e.WF (kOf c va ra st))
    (hQ : ∀ x s, Ext st s → ClosuresWF c va ra s → Q (x, .ret) s)
    (hk : ∀ x s, Same st s → ClosuresWF c va ra s → wp (k x) Q (Err c va ra st0) s) :
    wp (want ev e side msg k) Q (Err c va ra st0) st :=
  wp_wantK hev h0 hi hw (fun x s h h' => wp_pure (hQ x s h h')) hk

theorem wp_itemE (hev : Good c va ra ev) {it side} (h0 : ExtE st0 st)
    (hi : ClosuresWF c va ra st) (hw : WFitem (kOf c va ra st) it) :
    wp (itemE c ev it side) (ValPost c va ra st) (Err c va ra st0) st := by
  unfold itemE
  refine wp_quiet .lastCall h0 hi fun call s hs hi => ?_
  refine wp_quiet (.slotOf ..) (h0.trans hs.extE) hi fun id₀ s' hs' hi => ?_
  have hs := hs.trans hs'
  refine wp_quiet (.refSlot _) (h0.trans hs.extE) hi fun id s' hs' hi => ?_
  have hs := hs.trans hs'
  refine wp_ite (fun _ => wp_ite (fun _ => ?_) fun _ => wp_pure (.val hs hi)) fun _ => ?_
  · refine wp_quiet (.slotE _) (h0.trans hs.extE) hi fun v s' hs' hi => ?_
    have hs := hs.trans hs'
    refine wp_mono (wp_and (wp_quiet' (Q := fun _ t => Same st t ∧ ClosuresWF c va ra t)
      (.tryVal v) (h0.trans hs.extE) hi fun _ t ht hi => ⟨hs.trans ht, hi⟩)
      (tryVal_some (v := v))) ?_ fun _ h => h.1
    rintro ⟨x, f⟩ t ⟨⟨h1, h2⟩, h3, h4⟩
    exact ⟨h2, h1.ext, fun _ => h1, fun _ => h3⟩
  · refine wp_bind (wp_get ?_)
    refine wp_scope1 ?_
    have hw : WFids (kOf c va ra s') it.ids := by
      rw [hs.kOf]; cases it; simpa only [WFitem, Item.ids] using hw
    refine wp_pushIds hev (h0.trans hs.extE) hi hw
      (fun x t ht hi => wp_pure ?_) fun n t ht hi => ?_
    · exact .ret (hs.transExt ht) hi
    refine wp_mono (wp_and (wp_quiet' (Q := fun _ u => Same t u ∧ ClosuresWF c va ra u)
      (.itemWalk c s'.stack.length side 0 it.ids it.tryIds ⟨id, []⟩ 0)
      (h0.trans (hs.transE ht.ext.extE)) hi fun _ u hu hi => ⟨hu, hi⟩)
      itemWalk_shape) ?_ fun _ h => h.1
    rintro ⟨b, x, f⟩ u ⟨⟨h1, h2⟩, h3⟩
    have hg := ht.trans h1.grown
    cases b with
    | true =>
      simp only [if_true] at h3 ⊢
      have : Same s' { u with stack := u.stack.take s'.stack.length } :=
        ⟨hg.1, hg.2, hg.3, hg.4, by simp [hg.5]⟩
      exact ⟨h2, (hs.trans this).ext, fun _ => hs.trans this, fun _ => h3.1⟩
    | false =>
      simp only [Bool.false_eq_true, if_false] at h3 ⊢
      subst h3
      exact .ret (hs.transExt hg.ext) h2

/-! ## Arguments -/

/-- Arguments of a loaded function or a closure. -/
theorem wp_lazyArgs_loaded (hev : Good c va ra ev) {msg inv args} {k : EM R} {Q : R → St → Prop}
    (h0 : ExtE st0 st) (hi : ClosuresWF c va ra st) (hw : WFs (kOf c va ra st) args)
    (hinv : ∀ l ∈ inv, l = [])
    (hr : ∀ x s, Ext st s → ClosuresWF c va ra s → Q (x, .ret) s)
    (hk : ∀ s, Ext st s → ClosuresWF c va ra s → wp k Q (Err c va ra st0) s) :
    wp (lazyArgs ev true msg inv args k) Q (Err c va ra st0) st := by
  suffices ∀ s, Ext st s → ClosuresWF c va ra s →
      wp (lazyArgs ev true msg inv args k) Q (Err c va ra st0) s from this st .rfl hi
  induction args generalizing inv with
  | nil => exact hk
  | cons a as ih =>
    intro s hs hi
    rw [WFs] at hw
    have ih := ih (inv := inv.tail) hw.2 fun l hl => hinv l (List.mem_of_mem_tail hl)
    refine wp_ev hev (h0.trans hs.extE) hi (by rw [hs.kOf]; exact hw.1) ?_
    rintro ⟨_ | x, _ | _ | _ | _⟩ t hp
    case none.cont => exact ih _ (hs.trans hp.ext) hp.inv
    case none.ret => exact wp_pure (hr _ _ (hs.trans hp.ext) hp.inv)
    case some.ret => exact wp_pure (hr _ _ (hs.trans hp.ext) hp.inv)
    case some.cont =>
      have hh : inv.headD [] = [] := by
        cases inv with
        | nil => rfl
        | cons l ls => exact hinv l (by simp)
      show wp (lazyCheck x (inv.headD []) >>= _) _ _ _
      rw [hh]
      exact wp_bind (wp_pure (wp_bind (wp_modify (ih _ ((hs.trans hp.ext).trans (Ext.push x)) hp.inv))))
    all_goals exact wp_errT ⟨h0.trans (hs.trans hp.ext).extE, hp.inv⟩

/-- Arguments of an external function. -/
theorem wp_lazyArgs_ext (hev : Good c va ra ev) {msg inv args} {k : EM R} {Q : R → St → Prop}
    (h0 : ExtE st0 st) (hi : ClosuresWF c va ra st) (hw : WFs (kOf c va ra st) args)
    (hinv : ∀ l ∈ inv.tail, l = [])
    (hr : ∀ x s, Ext st s → ClosuresWF c va ra s → Q (x, .ret) s)
    (hl : ∀ x s, Same st s → ClosuresWF c va ra s → Q (some x, .cont) s)
    (hk : ∀ s, Grown args.length st s → ClosuresWF c va ra s → wp k Q (Err c va ra st0) s) :
    wp (lazyArgs ev false msg inv args k) Q (Err c va ra st0) st := by
  suffices ∀ n s inv, n + args.length ≤ args.length ∨ (∀ l ∈ inv, l = []) → (∀ l ∈ inv.tail, l = []) →
      Grown n st s → ClosuresWF c va ra s →
      (∀ s, Grown (n + args.length) st s → ClosuresWF c va ra s → wp k Q (Err c va ra st0) s) →
      wp (lazyArgs ev false msg inv args k) Q (Err c va ra st0) s from
    this 0 st inv (.inl (by omega)) hinv Same.rfl.grown hi (by simpa using hk)
  clear hk
  induction args with
  | nil => exact fun n s inv _ _ hs hi hk => hk s hs hi
  | cons a as ih =>
    intro n s inv hn hinv hs hi hk
    rw [WFs] at hw
    refine wp_ev hev (h0.trans hs.ext.extE) hi (by rw [hs.ext.kOf]; exact hw.1) ?_
    rintro ⟨_ | x, _ | _ | _ | _⟩ t hp
    case none.ret => exact wp_pure (hr _ _ (hs.ext.trans hp.ext) hp.inv)
    case some.ret => exact wp_pure (hr _ _ (hs.ext.trans hp.ext) hp.inv)
    case some.cont =>
      have hst := hs.trans (hp.value _ rfl rfl).grown
      have hnext : ∀ u, Same t u → ClosuresWF c va ra u →
          wp (pushE x >>= fun _ => lazyArgs ev false msg inv.tail as k) Q (Err c va ra st0) u := by
        intro u hu hi
        refine wp_bind (wp_modify (ih hw.2 (n + 0 + 0 + 1) _ _ (.inr hinv) ?_
          ((hst.trans hu.grown).trans (Grown.push x)) hi fun s hs hi => hk s ?_ hi))
        · exact fun l hl => hinv l (List.mem_of_mem_tail hl)
        · have : n + 0 + 0 + 1 + as.length = n + (a :: as).length := by simp; omega
          rwa [this] at hs
      have : n = 0 ∨ inv.headD [] = [] := by
        rcases hn with h | h
        · left; simp at h; omega
        · right
          cases inv with
          | nil => rfl
          | cons l ls => exact h l (by simp)
      show wp (lazyCheck x (inv.headD []) >>= _) _ _ _
      rcases this with rfl | h
      · refine wp_quiet (.lazyCheck ..) (h0.trans hst.ext.extE) hp.inv fun o u hu hi => ?_
        cases o with
        | none => exact hnext u hu hi
        | some r => exact wp_pure (hl _ _ (hst.trans hu.grown).same hi)
      · rw [h]
        exact wp_bind (wp_pure (hnext t .rfl hp.inv))
    all_goals exact wp_errT ⟨h0.trans (hs.ext.trans hp.ext).extE, hp.inv⟩

theorem wp_popE {f : Val → EM β} {Q} {n : Nat} {s : St} (hg : Grown (n + 1) st s)
    (hi : ClosuresWF c va ra s)
    (h : ∀ v s, Grown n st s → ClosuresWF c va ra s → wp (f v) Q (Err c va ra st0) s) :
    wp (popE >>= f) Q (Err c va ra st0) s := by
  have hne : s.stack ≠ [] := by
    intro h; have := hg.5; rw [h] at this; simp at this
  refine wp_bind ?_
  simp only [wp, popE, List.getLast?_eq_some_getLast hne]
  exact h _ _ ⟨hg.1, hg.2, hg.3, hg.4, by have := hg.5; simp; omega⟩ hi

theorem width_one {e : Expr} (h : e.isSwizzle = false) : e.width = 1 := by
  cases e <;> first | rfl | simp [Expr.isSwizzle] at h

/-- One argument of a vector. -/
theorem wp_vecArg (hev : Good c va ra ev) {e side msg} {next : EM R} {Q : R → St → Prop} {g : Nat}
    {s : St} (h0 : ExtE st0 st) (hs : Grown g st s) (hi : ClosuresWF c va ra s)
    (hw : e.WF (kOf c va ra st))
    (hv : (Valued (kOf c va ra st) e || e.isSwizzle) = true)
    (hr : ∀ x s, Ext st s → ClosuresWF c va ra s → Q (x, .ret) s)
    (hk : ∀ s, Grown (g + e.width) st s → ClosuresWF c va ra s → wp next Q (Err c va ra st0) s) :
    wp (do
      match ← ev e side with
      | (some x, .cont) => do
        pushE x
        next
      | (none, .cont) => next
      | (x, .ret) => retR x
      | _ => errT msg) Q (Err c va ra st0) s := by
  refine wp_ev hev (h0.trans hs.ext.extE) hi (by rw [hs.ext.kOf]; exact hw) ?_
  rintro ⟨_ | x, _ | _ | _ | _⟩ t hp
  case none.ret => exact wp_pure (hr _ _ (hs.ext.trans hp.ext) hp.inv)
  case some.ret => exact wp_pure (hr _ _ (hs.ext.trans hp.ext) hp.inv)
  case none.cont =>
    have hv' := hp.valued rfl rfl
    rw [hs.ext.kOf] at hv'
    rw [hv', Bool.false_or] at hv
    exact hk _ (hs.trans (hp.swizzle hv rfl).2) hp.inv
  case some.cont =>
    have hsw : e.isSwizzle = false := by
      by_contra h
      have := (hp.swizzle (by simpa using h) rfl).1
      simp at this
    rw [width_one hsw] at hk
    exact wp_bind (wp_modify (hk _ ((hs.trans (hp.value _ rfl rfl).grown).trans (Grown.push x)) hp.inv))
  all_goals exact wp_errT ⟨h0.trans (hs.ext.trans hp.ext).extE, hp.inv⟩

theorem wp_vecArgs4 (hev : Good c va ra ev) {side msg args} {k : EM R} {Q : R → St → Prop}
    (h0 : ExtE st0 st) (hi : ClosuresWF c va ra st) (hw : WFs (kOf c va ra st) args)
    (hv : vecArgsOk (kOf c va ra st) args = true) (hf : fits args 4 = true)
    (hr : ∀ x s, Ext st s → ClosuresWF c va ra s → Q (x, .ret) s)
    (hk : ∀ s, Grown 4 st s → ClosuresWF c va ra s → wp k Q (Err c va ra st0) s) :
    wp (vecArgs ev side msg (some st.stack.length) args k) Q (Err c va ra st0) st := by
  suffices ∀ g r s, g + r = 4 → (r = 0 → args = []) → fits args r = true → Grown g st s →
      ClosuresWF c va ra s →
      wp (vecArgs ev side msg (some st.stack.length) args k) Q (Err c va ra st0) s from
    this 0 4 st rfl (by simp) hf Same.rfl.grown hi
  clear hf
  induction args with
  | nil =>
    intro g r s hgr _ hf hs hi
    cases r with
    | zero => obtain rfl : g = 4 := by omega
              exact hk s hs hi
    | succ r => simp [fits] at hf
  | cons a as ih =>
    intro g r s hgr hr0 hf hs hi
    rw [WFs] at hw
    rw [vecArgsOk, Bool.and_eq_true] at hv
    cases r with
    | zero => simp at hr0
    | succ r =>
      rw [fits, Bool.and_eq_true, decide_eq_true_eq] at hf
      rw [vecArgs]
      refine wp_vecArg hev h0 hs hi hw.1 hv.1 hr fun t ht hi => ?_
      unfold vecArgs.vecNext
      refine wp_bind (wp_get (wp_ite (fun h => ?_) fun h => ?_))
      · have h5 := ht.5
        obtain he : g + a.width = 4 := by omega
        rw [he] at ht
        exact hk t ht hi
      · have h5 := ht.5
        exact ih hw.2 hv.2 (g + a.width) (r + 1 - a.width) t (by omega) (by omega) hf.2 ht hi

theorem wp_vecArgsAll (hev : Good c va ra ev) {side msg args} {k : EM R} {Q : R → St → Prop}
    (h0 : ExtE st0 st) (hi : ClosuresWF c va ra st) (hw : WFs (kOf c va ra st) args)
    (hv : vecArgsOk (kOf c va ra st) args = true)
    (hr : ∀ x s, Ext st s → ClosuresWF c va ra s → Q (x, .ret) s)
    (hk : ∀ s, Grown (args.map Expr.width).sum st s → ClosuresWF c va ra s →
      wp k Q (Err c va ra st0) s) :
    wp (vecArgs ev side msg none args k) Q (Err c va ra st0) st := by
  suffices ∀ g s, Grown g st s → ClosuresWF c va ra s →
      (∀ s, Grown (g + (args.map Expr.width).sum) st s → ClosuresWF c va ra s →
        wp k Q (Err c va ra st0) s) →
      wp (vecArgs ev side msg none args k) Q (Err c va ra st0) s from
    this 0 st Same.rfl.grown hi (by simpa using hk)
  clear hk
  induction args with
  | nil => exact fun g s hs hi hk => hk s hs hi
  | cons a as ih =>
    intro g s hs hi hk
    rw [WFs] at hw
    rw [vecArgsOk, Bool.and_eq_true] at hv
    rw [vecArgs]
    refine wp_vecArg hev h0 hs hi hw.1 hv.1 hr fun t ht hi => ?_
    unfold vecArgs.vecNext
    refine wp_bind (wp_get ?_)
    exact ih hw.2 hv.2 (g + a.width) t ht hi fun s hs hi => hk s (by
      simpa [Nat.add_assoc] using hs) hi

/-! ## Calls -/

theorem wp_pushCurrents {l : List String} (h0 : ExtE st0 st) (hi : ClosuresWF c va ra st) :
    wp (pushCurrents l) (fun _ s => Ext st s ∧ ClosuresWF c va ra s) (Err c va ra st0) st := by
  induction l generalizing st with
  | nil => exact wp_pure ⟨.rfl, hi⟩
  | cons a as ih =>
    rw [pushCurrents]
    refine wp_bind (wp_get ?_)
    cases findLast a st.currents with
    | none => exact wp_errT ⟨h0, hi⟩
    | some i =>
      refine wp_bind (wp_modify (wp_bind (wp_modify ?_)))
      have hx : Ext st { st with
          locals := st.locals ++ [(a, st.stack.length)]
          stack := st.stack ++ [.ref i] } :=
        ⟨rfl, rfl, List.prefix_append _ _, List.prefix_rfl, by simp⟩
      exact wp_mono (ih (h0.trans hx.extE) hi) (fun _ s h => ⟨hx.trans h.1, h.2⟩) fun _ h => h

theorem wp_pushArgLocals {a i l} {E} (hi : ClosuresWF c va ra st) :
    wp (pushArgLocals a i l) (fun _ s => Ext st s ∧ ClosuresWF c va ra s) E st := by
  induction l generalizing st i with
  | nil => exact wp_pure ⟨.rfl, hi⟩
  | cons x xs ih =>
    refine wp_bind (wp_modify (wp_mono (ih hi) (fun _ s h => ⟨?_, h.2⟩) fun _ h => h))
    exact Ext.trans (Ext.pushLocal _) h.1

/-- What a call leaves. -/
structure CallPost (c : ECfg) (va ra : Nat → Nat) (returns : Bool) (st : St) (r : R) (s : St) :
    Prop where
  inv : ClosuresWF c va ra s
  same : Same st s
  flow : r.2 = .cont
  value : r.1.isSome = returns

/-- A call from the arguments on: `st` is the state before the call, `s1` the state with
the return slot, `s` the state with the arguments. -/
theorem wp_enter {name rname index file returns args currents} {note : EM Unit} {body : EM R}
    {s1 s : St} (h0 : ExtE st0 st) (hs1 : Grown (if returns then 1 else 0) st s1)
    (hs : Ext s1 s) (hi : ClosuresWF c va ra s) (hnote : Quiet note)
    (hbody : ∀ t, t.module = s1.module → t.rel = index → ClosuresWF c va ra t →
      wp body (fun _ u => Ext t u ∧ ClosuresWF c va ra u) (Err c va ra t) t) :
    wp (enter name rname index file returns args currents s1.stack.length s1.locals.length
      s1.currents.length note body) (CallPost c va ra returns st) (Err c va ra st0) s := by
  have h0s : ExtE st0 s := h0.trans (hs1.ext.trans hs).extE
  unfold enter
  refine wp_bind (wp_mono (wp_pushCurrents h0s hi) (fun _ s2 ⟨hs2, hi⟩ => ?_) fun _ h => h)
  have h02 := h0s.trans hs2.extE
  refine wp_quiet hnote h02 hi fun _ s3 hs3 hi => ?_
  have h03 := h02.trans hs3.extE
  have h13 := (hs.trans hs2).trans hs3.ext
  refine wp_bind (wp_modify ?_)
  -- the state with the call record and the locals
  have key : ∀ t, Ext { s3 with calls := s3.calls ++
        [⟨name, index, some file, s1.stack.length, s1.locals.length, s1.currents.length⟩] } t →
      ClosuresWF c va ra t →
      wp (do
        let r ← body
        bodyFlow r.2 do
          popFn name
          callResult returns rname r.1) (CallPost c va ra returns st) (Err c va ra st0) t := by
    intro t ht hi
    have hrel : t.rel = index := by simp [St.rel, ht.calls]
    have h0t : ExtE st0 t := by
      refine h03.trans ⟨ht.1, ?_, ht.3, ht.4, ht.5⟩
      rw [ht.calls]; exact List.prefix_append _ _
    refine wp_bind (wp_mono (hbody t (ht.1.trans h13.1) hrel hi) (fun r u ⟨hu, hi⟩ => ?_)
      fun _ h => h.mono h0t)
    have h0u := h0t.trans hu.extE
    have hpop : wp (do popFn name; callResult returns rname r.1)
        (CallPost c va ra returns st) (Err c va ra st0) u := by
      refine wp_bind ?_
      have hc : u.calls.getLast? = some
          ⟨name, index, some file, s1.stack.length, s1.locals.length, s1.currents.length⟩ := by
        rw [hu.calls, ht.calls]; simp
      simp only [wp, popFn, hc, if_true]
      have hl : s1.locals <+: u.locals := h13.3.trans (ht.3.trans hu.3)
      have hcu : s1.currents <+: u.currents := h13.4.trans (ht.4.trans hu.4)
      have hlen : s1.stack.length ≤ u.stack.length :=
        h13.5.trans (ht.5.trans hu.5)
      generalize hu' : ({ u with
        calls := u.calls.dropLast, stack := u.stack.take s1.stack.length,
        locals := u.locals.take s1.locals.length,
        currents := u.currents.take s1.currents.length } : St) = u'
      have hsame : Same s1 u' := by
        subst hu'
        refine ⟨(hu.1.trans ht.1).trans h13.1, ?_, prefix_take hl, prefix_take hcu, by simpa using hlen⟩
        simp [hu.calls, ht.calls, h13.calls]
      have hi' : ClosuresWF c va ra u' := by subst hu'; exact hi
      have hg := hs1.trans hsame.grown
      rcases returns with _ | _
      · have hsm : Same st u' := hg.same
        rcases r.1 with _ | v
        · exact ⟨hi', hsm, rfl, rfl⟩
        · exact wp_errCaller ⟨h0.trans hsm.extE, hi'⟩
      · rcases r.1 with _ | v
        · refine wp_popE (n := 0) hg hi' fun v w hw hiw => ?_
          have hsm := hw.same
          split
          · exact wp_errCaller ⟨h0.trans hsm.extE, hiw⟩
          · exact wp_pure ⟨hiw, hsm, rfl, rfl⟩
        · have hsm : Same st { u' with stack := u'.stack.dropLast } :=
            ⟨hg.1, hg.2, hg.3, hg.4, by have := hg.5; simp at this ⊢; omega⟩
          cases v
          case ret => exact wp_errCaller ⟨h0.trans hg.ext.extE, hi'⟩
          all_goals exact ⟨hi', hsm, rfl, rfl⟩
    unfold bodyFlow
    split
    · exact wp_errT ⟨h0u, hi⟩
    · exact wp_errT ⟨h0u, hi⟩
    · exact wp_errT ⟨h0u, hi⟩
    · exact wp_errT ⟨h0u, hi⟩
    · exact hpop
  have key2 : ∀ t, Ext { s3 with calls := s3.calls ++
        [⟨name, index, some file, s1.stack.length, s1.locals.length, s1.currents.length⟩] } t →
      ClosuresWF c va ra t →
      wp (do
        pushArgLocals s1.stack.length 0 args
        let r ← body
        bodyFlow r.2 do
          popFn name
          callResult returns rname r.1) (CallPost c va ra returns st) (Err c va ra st0) t := by
    intro t ht hi
    exact wp_bind (wp_mono (wp_pushArgLocals hi) (fun _ u hu => key u (ht.trans hu.1) hu.2)
      fun _ h => h)
  cases returns
  · exact key2 _ .rfl hi
  · exact wp_bind (wp_modify (key2 _ (Ext.pushLocal _) hi))

end Dyon
