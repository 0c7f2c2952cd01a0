import Verif.Eval.SlotsRel

/-!
# Evaluation by slot and by name agree: items, arguments, calls

Lemmas for C24.
-/

namespace Dyon

variable {lost : Option String} {c : ECfg} {va ra : Nat → Nat} {ev ev' : Evl} {α β : Type} {st st0 : St} {Γ : Env}

theorem rel_ok {m m' : EM α} {f f' : α → EM β} {a : α} {s : St} (h1 : m st = .ok a s)
    (h2 : m' st = .ok a s) (h : Rel c va ra (f a) (f' a) s) :
    Rel c va ra (m >>= f) (m' >>= f') st :=
  h.of_eq (EM.bind_ok h1) (EM.bind_ok h2)

/-! ## Items -/

theorem lookupIndices_named (id last p l) :
    lookupIndices (c.named lost) id last p l = lookupIndices c id last p l := by
  induction l generalizing p with
  | nil => rfl
  | cons i l ih =>
    simp only [lookupIndices, ih]
    rfl

theorem itemLookup_named (p prop sl j i l) :
    itemLookup (c.named lost) p prop sl j i l = itemLookup c p prop sl j i l := by
  simp only [itemLookup, lookupArray, lookupIndices_named]
  rfl

theorem itemWalk_named (sl side i l t p j) :
    itemWalk (c.named lost) sl side i l t p j = itemWalk c sl side i l t p j := by
  induction l generalizing i t p j with
  | nil => rfl
  | cons x l ih => simp only [itemWalk, ih, itemLookup_named]

theorem rel_pushIds (hg : Good c va ra ev) (ha : Agrees c va ra ev ev')
    {r r' : Option Val → EM β} {ids} {k k' : EM β}
    (hi : ClosuresWF c va ra st) (hc : ClosRes c va ra st) (hw : WFids (kOf c va ra st) ids)
    (hr : RIds (kOf c va ra st) (arOf c st) ids Γ []) (hal : Aligned Γ st)
    (hret : ∀ x s, ClosRes c va ra s → Rel c va ra (r x) (r' x) s)
    (hk : ∀ s, ClosRes c va ra s → Rel c va ra k k' s) :
    Rel c va ra (pushIds ev r ids k) (pushIds ev' r' ids k') st := by
  induction ids generalizing st Γ with
  | nil => exact hk _ hc
  | cons i is ih =>
    cases i with
    | str x => simp only [WFids, RIds] at hw hr; exact ih hi hc hw hr hal
    | num x => simp only [WFids, RIds] at hw hr; exact ih hi hc hw hr hal
    | expr e =>
      simp only [WFids, RIds] at hw hr
      refine rel_wantK hg ha hi hc hw.1 hr.1 hal hret fun x s hs hi hc => rel_push ?_
      have hx : Ext st { s with stack := s.stack ++ [x] } := hs.transExt (Ext.push x)
      exact ih hi hc (by rw [hx.kOf]; exact hw.2) (by rw [hx.kOf, hx.arOf]; exact hr.2)
        (hal.pushNone hs.calls hs.locals (by simp [hs.stack]))

theorem slotOf_eq {it : Item} {call} (hb : c.byName = false)
    (hs : it.sid.isSome) (hd : it.sid = dist it.name Γ) (hcall : st.calls.getLast? = some call)
    (hal : Aligned Γ st) :
    ∃ id, slotOf c it call st = .ok id st ∧ slotOf (c.named lost) it call st = .ok id st := by
  obtain ⟨call', h1, h2, h3, h4⟩ := hal
  rw [hcall] at h1
  cases h1
  obtain ⟨d, hsd⟩ := Option.isSome_iff_exists.1 hs
  rw [hsd] at hd
  have hdl := (dist_le hd.symm).2
  refine ⟨st.stack.length - d, ?_, ?_⟩
  · have : d ≤ st.stack.length := by omega
    rw [slotOf, EM.bind_ok (show EM.get st = .ok st st from rfl)]
    simp only [hb, hsd, this, if_true, Bool.false_eq_true, if_false]
    rfl
  · rw [slotOf, EM.bind_ok (show EM.get st = .ok st st from rfl)]
    have : findLast it.name (st.locals.drop call.localLen) = some (st.stack.length - d) := by
      rw [h4, ← hd]; rfl
    simp only [ECfg.named, if_true, this]
    rfl

theorem rel_itemE (hb : c.byName = false) (hg : Good c va ra ev) (ha : Agrees c va ra ev ev')
    {it side} (hi : ClosuresWF c va ra st) (hc : ClosRes c va ra st)
    (hw : WFitem (kOf c va ra st) it) (hr : RItem (kOf c va ra st) (arOf c st) it Γ [])
    (hal : Aligned Γ st) :
    Rel c va ra (itemE c ev it side) (itemE (c.named lost) ev' it side) st := by
  have hw' : WFids (kOf c va ra st) it.ids := by cases it; simpa only [WFitem, Item.ids] using hw
  obtain ⟨h1, h2, h3⟩ : it.sid.isSome ∧ it.sid = dist it.name Γ ∧
      RIds (kOf c va ra st) (arOf c st) it.ids Γ [] := by
    cases it; simpa only [RItem, Item.ids, Item.sid, Item.name] using hr
  obtain ⟨call, hcall, -⟩ := id hal
  obtain ⟨id₀, hid, hid'⟩ := slotOf_eq hb h1 h2 hcall hal
  have hlast : lastCall st = .ok call st := by simp [lastCall, hcall]
  unfold itemE
  refine rel_ok hlast hlast (rel_ok hid hid' ?_)
  refine rel_quiet (.refSlot _) hi hc fun id s hs hi hc => ?_
  split
  · split
    · exact rel_quiet (.slotE _) hi hc fun v s hs hi hc => .quiet (.tryVal v) hc
    · exact rel_pure hc
  · refine rel_get (rel_scope1 ?_)
    refine rel_pushIds hg ha hi hc (by rw [hs.kOf]; exact hw') (by rw [hs.kOf, hs.arOf]; exact h3)
      (hal.same hs) (fun _ _ h => rel_pure h) fun s hc => ?_
    rw [itemWalk_named]
    exact .quiet (.itemWalk ..) hc

/-! ## Arguments -/

/-- Arguments of a loaded function or a closure. -/
theorem rel_lazyArgs_loaded (hg : Good c va ra ev) (ha : Agrees c va ra ev ev') {msg inv args}
    {k k' : EM R} (hi : ClosuresWF c va ra st) (hc : ClosRes c va ra st)
    (hw : WFs (kOf c va ra st) args) (hinv : ∀ l ∈ inv, l = [])
    (hr : RArgs (kOf c va ra st) (arOf c st) args Γ []) (hal : Aligned Γ st)
    (hv : vecArgsOk (kOf c va ra st) args = true)
    (hk : ∀ s, Grown (argLen args) st s → ClosuresWF c va ra s → ClosRes c va ra s →
      Rel c va ra k k' s) :
    Rel c va ra (lazyArgs ev true msg inv args k) (lazyArgs ev' true msg inv args k') st := by
  induction args generalizing inv st Γ with
  | nil => exact hk _ Same.rfl.grown hi hc
  | cons a as ih =>
    rw [WFs] at hw
    rw [RArgs] at hr
    rw [vecArgsOk, Bool.and_eq_true] at hv
    have next : ∀ t, Grown a.width st t → ClosuresWF c va ra t → ClosRes c va ra t →
        Rel c va ra (lazyArgs ev true msg inv.tail as k) (lazyArgs ev' true msg inv.tail as k') t := by
      intro t ht hi hc
      refine ih hi hc (by rw [ht.ext.kOf]; exact hw.2) (fun l hl => hinv l (List.mem_of_mem_tail hl))
        (by rw [ht.ext.kOf, ht.ext.arOf]; exact hr.2) (hal.grown ht)
        (by rw [ht.ext.kOf]; exact hv.2) fun s hs hi hc => hk s ?_ hi hc
      have := ht.trans hs
      simpa [argLen] using this
    refine rel_ev hg ha hi hc hw.1 hr.1 hal ?_
    rintro ⟨_ | x, _ | _ | _ | _⟩ t hp hc -
    case none.cont =>
      have hv' := hp.valued rfl rfl
      rw [hv', Bool.false_or] at hv
      exact next t (hp.swizzle hv.1 rfl).2 hp.inv hc
    case none.ret => exact rel_pure hc
    case some.ret => exact rel_pure hc
    case some.cont =>
      have hsw : a.isSwizzle = false := by
        by_contra h
        have := (hp.swizzle (by simpa using h) rfl).1
        simp at this
      rw [width_one hsw] at next
      refine rel_quiet (.lazyCheck ..) hp.inv hc fun o u hu hi hc => ?_
      cases o with
      | some r => exact rel_pure hc
      | none =>
        exact rel_push (next _ (((hp.value _ rfl rfl).trans hu).grown.trans (Grown.push x)) hi hc)
    all_goals exact rel_errT hc

/-- Arguments of an external function. -/
theorem rel_lazyArgs_ext (hg : Good c va ra ev) (ha : Agrees c va ra ev ev') {msg inv args}
    {k k' : EM R} (hi : ClosuresWF c va ra st) (hc : ClosRes c va ra st)
    (hw : WFs (kOf c va ra st) args)
    (hr : RArgs (kOf c va ra st) (arOf c st) args Γ []) (hal : Aligned Γ st)
    (hk : ∀ s, ClosRes c va ra s → Rel c va ra k k' s) :
    Rel c va ra (lazyArgs ev false msg inv args k) (lazyArgs ev' false msg inv args k') st := by
  induction args generalizing inv st Γ with
  | nil => exact hk _ hc
  | cons a as ih =>
    rw [WFs] at hw
    rw [RArgs] at hr
    refine rel_ev hg ha hi hc hw.1 hr.1 hal ?_
    rintro ⟨_ | x, _ | _ | _ | _⟩ t hp hc -
    case none.ret => exact rel_pure hc
    case some.ret => exact rel_pure hc
    case some.cont =>
      have hsw : a.isSwizzle = false := by
        by_contra h
        have := (hp.swizzle (by simpa using h) rfl).1
        simp at this
      rw [width_one hsw] at hr
      have hs := hp.value _ rfl rfl
      refine rel_quiet (.lazyCheck ..) hp.inv hc fun o u hu hi hc => ?_
      have hs := hs.trans hu
      cases o with
      | some r => exact rel_pure hc
      | none =>
        refine rel_push ?_
        have hx : Ext st { u with stack := u.stack ++ [x] } := hs.transExt (Ext.push x)
        exact ih hi hc (by rw [hx.kOf]; exact hw.2) (by rw [hx.kOf, hx.arOf]; exact hr.2)
          (hal.pushNone hs.calls hs.locals (by simp [hs.stack]))
    all_goals exact rel_errT hc

/-- The arguments of vectors. -/
theorem rel_vecArgs (hg : Good c va ra ev) (ha : Agrees c va ra ev ev') {side msg limit args}
    {k : EM R} (hi : ClosuresWF c va ra st) (hc : ClosRes c va ra st)
    (hw : WFs (kOf c va ra st) args) (hv : vecArgsOk (kOf c va ra st) args = true)
    (hr : RArgs (kOf c va ra st) (arOf c st) args Γ []) (hal : Aligned Γ st)
    (hk : ∀ s, ClosRes c va ra s → Rel c va ra k k s) :
    Rel c va ra (vecArgs ev side msg limit args k) (vecArgs ev' side msg limit args k) st := by
  induction args generalizing st Γ with
  | nil => exact hk _ hc
  | cons a as ih =>
    rw [WFs] at hw
    rw [RArgs] at hr
    rw [vecArgsOk, Bool.and_eq_true] at hv
    have next : ∀ t, Grown a.width st t → ClosuresWF c va ra t → ClosRes c va ra t →
        Rel c va ra (vecArgs.vecNext limit (vecArgs ev side msg limit as k) k)
          (vecArgs.vecNext limit (vecArgs ev' side msg limit as k) k) t := by
      intro t ht hi hc
      have hmore := ih hi hc (by rw [ht.ext.kOf]; exact hw.2) (by rw [ht.ext.kOf]; exact hv.2)
        (by rw [ht.ext.kOf, ht.ext.arOf]; exact hr.2) (hal.grown ht)
      unfold vecArgs.vecNext
      refine rel_get ?_
      cases limit with
      | none => exact hmore
      | some l =>
        simp only
        split
        · exact hk _ hc
        · exact hmore
    rw [vecArgs, vecArgs]
    refine rel_ev hg ha hi hc hw.1 hr.1 hal ?_
    rintro ⟨_ | x, _ | _ | _ | _⟩ t hp hc -
    case none.cont =>
      have hv' := hp.valued rfl rfl
      rw [hv', Bool.false_or] at hv
      exact next t (hp.swizzle hv.1 rfl).2 hp.inv hc
    case none.ret => exact rel_pure hc
    case some.ret => exact rel_pure hc
    case some.cont =>
      have hsw : a.isSwizzle = false := by
        by_contra h
        have := (hp.swizzle (by simpa using h) rfl).1
        simp at this
      rw [width_one hsw] at next
      exact rel_push (next _ ((hp.value _ rfl rfl).grown.trans (Grown.push x)) hp.inv hc)
    all_goals exact rel_errT hc

/-! ## Calls -/

/-- What pushing current objects leaves. -/
structure CurPost (l : List String) (a b : St) : Prop where
  module : b.module = a.module
  calls : b.calls = a.calls
  locals : b.locals = a.locals ++ slotsOf a.stack.length (l.map some)
  stack : b.stack.length = a.stack.length + l.length
  closures : b.closures = a.closures

theorem wp_pushCurrents' {l : List String} :
    wp (pushCurrents l) (fun _ s => CurPost l st s) (fun s => s.closures = st.closures) st := by
  induction l generalizing st with
  | nil => exact wp_pure ⟨rfl, rfl, by simp [slotsOf], rfl, rfl⟩
  | cons a as ih =>
    rw [pushCurrents]
    refine wp_bind (wp_get ?_)
    cases findLast a st.currents with
    | none => exact wp_errT rfl
    | some i =>
      refine wp_bind (wp_modify (wp_bind (wp_modify (wp_mono ih (fun _ s h => ?_) fun _ h => h))))
      refine ⟨h.1, h.2, ?_, ?_, h.5⟩
      · rw [h.3]; simp [slotsOf]
      · have := h.4; simp at this ⊢; omega

theorem pushArgLocals_eq {b i l} :
    pushArgLocals b i l st = .ok () { st with locals := st.locals ++ slotsOf (b + i) (l.map some) } := by
  induction l generalizing st i with
  | nil => simp [pushArgLocals, slotsOf]; rfl
  | cons x xs ih =>
    rw [pushArgLocals, EM.bind_ok (show pushLocal x (b + i) st = .ok () _ from rfl), ih]
    simp [slotsOf, Nat.add_assoc]

theorem rel_enter {name rname index file returns args currents} {note note' : EM Unit}
    {body body' : EM R} {s1 s : St} {b : Nat} (hb1 : s1.stack.length = b + (if returns then 1 else 0))
    (hs : Grown args.length s1 s) (hi : ClosuresWF c va ra s) (hc : ClosRes c va ra s)
    (hnote : Quiet note) (hn : note' = note) (hf : freshCurrents args currents)
    (hbody : ∀ t, t.module = s1.module → t.rel = index → Aligned (fnEnv returns args currents) t →
      ClosuresWF c va ra t → ClosRes c va ra t → Rel c va ra body body' t) :
    Rel c va ra (enter name rname index file returns args currents s1.stack.length
        s1.locals.length s1.currents.length note body)
      (enter name rname index file returns args currents s1.stack.length
        s1.locals.length s1.currents.length note' body') s := by
  subst hn
  unfold enter
  have hcur := wp_pushCurrents' (l := currents) (st := s)
  refine rel_bind (P := fun _ t => CurPost currents s t) (E := fun _ => True) ?_
    (wp_mono hcur (fun _ _ h => h) fun _ _ => trivial) fun _ s2 h2 hc => ?_
  · refine .refl (wp_mono hcur (fun _ t h => ?_) fun t h => ?_)
    · simpa only [ClosRes, h.closures] using hc
    · simpa only [ClosRes, h] using hc
  have hi2 : ClosuresWF c va ra s2 := hi.of_eq h2.closures
  refine rel_quiet hnote hi2 hc fun _ s3 hs3 hi hc => ?_
  refine rel_modify ?_
  have hend : ∀ {x : R} {u : St}, ClosRes c va ra u → Rel c va ra
      (bodyFlow x.2 do popFn name; callResult returns rname x.1)
      (bodyFlow x.2 do popFn name; callResult returns rname x.1) u := by
    intro x u hu
    refine .refl ?_
    unfold bodyFlow
    have hpop : wp (do popFn name; callResult returns rname x.1)
        (fun _ s => ClosRes c va ra s) (ClosRes c va ra) u := by
      refine wp_bind ?_
      have : wp (popFn name) (fun _ s => ClosRes c va ra s) (ClosRes c va ra) u := by
        unfold wp popFn
        cases u.calls.getLast? with
        | none => trivial
        | some call =>
          by_cases hn : call.fnName = name
          · simp only [hn, if_true]; exact hu
          · simp only [hn, if_false]
      refine wp_mono this (fun _ v hv => ?_) fun _ h => h
      cases returns with
      | false => cases x.1 <;> first | exact wp_errCaller hv | exact hv
      | true =>
        cases x.1 with
        | some w => cases w <;> first | exact wp_errCaller hv | exact hv
        | none =>
          refine wp_bind ?_
          unfold wp popE
          cases v.stack.getLast? with
          | none => trivial
          | some w =>
            simp only
            cases w <;> first | exact wp_errCaller hv | exact hv
    split
    · exact wp_errT hu
    · exact wp_errT hu
    · exact wp_errT hu
    · exact wp_errT hu
    · exact hpop
  -- the state with the locals
  have key : ∀ t : St, t.module = s1.module → t.closures = s3.closures →
      t.calls = s3.calls ++ [⟨name, index, some file, s1.stack.length, s1.locals.length,
        s1.currents.length⟩] → t.stack.length = s3.stack.length →
      t.locals = s3.locals ++ slotsOf b (if returns then [some "return"] else []) →
      Rel c va ra (do
          pushArgLocals s1.stack.length 0 args
          let r ← body
          bodyFlow r.2 do
            popFn name
            callResult returns rname r.1)
        (do
          pushArgLocals s1.stack.length 0 args
          let r ← body'
          bodyFlow r.2 do
            popFn name
            callResult returns rname r.1) t := by
    intro t hm hcl hcalls hlen hloc
    refine rel_ok pushArgLocals_eq pushArgLocals_eq ?_
    generalize hu : ({ t with locals := t.locals ++ slotsOf (s1.stack.length + 0) (args.map some) } : St) = u
    have hrel : u.rel = index := by subst hu; simp [St.rel, hcalls]
    have hclu : u.closures = s3.closures := by subst hu; exact hcl
    have hsl : s.stack.length = b + (if returns then 1 else 0) + args.length := by
      have := hs.5; omega
    have hu3 : u.locals = s1.locals ++
        (slotsOf (b + (if returns then 1 else 0) + args.length) (currents.map some) ++
        slotsOf b ((if returns then [some "return"] else []) ++ args.map some)) := by
      subst hu
      simp only [hloc, hs3.locals, h2.locals, hs.locals]
      rw [slotsOf_append, hsl, hb1]
      cases returns <;> simp
    have hal : Aligned (fnEnv returns args currents) u := by
      refine aligned_call (call := ⟨name, index, some file, s1.stack.length, s1.locals.length,
        s1.currents.length⟩) (b := b) ?_ ?_ ?_ ?_ hf
      · subst hu; simp [hcalls]
      · rw [hu3]; simp
      · rw [hu3]; simp
      · have h4 := h2.stack
        have h5 := hs3.stack
        subst hu
        simp only [hlen]
        omega
    have hiu : ClosuresWF c va ra u := hi.of_eq hclu
    have hcu : ClosRes c va ra u := by simpa only [ClosRes, hclu] using hc
    exact rel_bind (hbody u (by subst hu; exact hm) hrel hal hiu hcu) wp_true fun _ _ _ h => hend h
  have hm : s3.module = s1.module := hs3.module.trans (h2.module.trans hs.module)
  cases returns with
  | false =>
    simp only [Bool.false_eq_true, if_false] at hb1 key ⊢
    refine (key _ ?_ ?_ ?_ ?_ ?_).of_eq rfl rfl
    · exact hm
    · rfl
    · rfl
    · rfl
    · simp [slotsOf]
  | true =>
    simp only [if_true] at hb1 key ⊢
    refine rel_modify (key _ hm rfl rfl rfl ?_)
    simp [slotsOf, hb1]

/-- A call of a loaded function, whatever its arguments are. -/
theorem rel_callLoaded' (hM : ModulesWF c va ra) (hR : ModulesRes c va ra)
    (hg : Good c va ra ev) (ha : Agrees c va ra ev ev') {n loader f name args}
    (hi : ClosuresWF c va ra st) (hc : ClosRes c va ra st)
    (hl : loader = true → st.rel = 0)
    (hlen : argLen args = arOf c st f)
    (hargs : ∀ s1 msg inv (k k' : EM R), (∀ l ∈ inv, l = []) →
      Grown (if (kOf c va ra st).rets f then 1 else 0) st s1 → ClosuresWF c va ra s1 →
      ClosRes c va ra s1 → (∀ s, Grown (argLen args) s1 s → ClosuresWF c va ra s →
        ClosRes c va ra s → Rel c va ra k k' s) →
      Rel c va ra (lazyArgs ev true msg inv args k) (lazyArgs ev' true msg inv args k') s1) :
    Rel c va ra (callLoaded c n ev loader f name args)
      (callLoaded (c.named lost) n ev' loader f name args) st := by
  unfold callLoaded
  suffices key : Rel c va ra (do
        let s ← EM.get
        match callIndex f st.rel with
        | none => EM.panic "index out of bounds"
        | some idx =>
          match (c.modules s.module)[idx]? with
          | none => EM.panic "index out of bounds"
          | some fn => do
            if fn.returns then pushE .ret else pure ()
            let s ← EM.get
            lazyArgs ev true noValue' fn.lazyInv args <|
              enter name fn.name idx fn.file fn.returns fn.args fn.currents s.stack.length
                s.locals.length s.currents.length (notify c n idx s.stack.length) (block ev fn.body))
      (do
        let s ← EM.get
        match callIndex f st.rel with
        | none => EM.panic "index out of bounds"
        | some idx =>
          match ((c.named lost).modules s.module)[idx]? with
          | none => EM.panic "index out of bounds"
          | some fn => do
            if fn.returns then pushE .ret else pure ()
            let s ← EM.get
            lazyArgs ev' true noValue' fn.lazyInv args <|
              enter name fn.name idx fn.file fn.returns fn.args fn.currents s.stack.length
                s.locals.length s.currents.length (notify (c.named lost) n idx s.stack.length)
                (block ev' fn.body)) st by
    cases loader with
    | false => exact Rel.of_eq key rfl rfl
    | true => rw [hl rfl] at key; exact Rel.of_eq key rfl rfl
  refine rel_get ?_
  cases hidx : callIndex f st.rel with
  | none => exact rel_panic
  | some idx =>
    simp only
    have hnm : (c.named lost).modules = c.modules := rfl
    rw [hnm]
    cases hfn : (c.modules st.module)[idx]? with
    | none => exact rel_panic
    | some fn =>
      have hret : (kOf c va ra st).rets f = fn.returns := by
        simp only [kOf, ctxAt, hidx, hfn]
      have har : arOf c st f = fn.args.length := by simp only [arOf, arAt, hidx, hfn]
      obtain ⟨hbody, hlazy⟩ := hM _ _ _ hfn
      obtain ⟨hfresh, hres⟩ := hR _ _ _ hfn
      rw [hret] at hargs
      have key2 : ∀ s1, Grown (if fn.returns then 1 else 0) st s1 → ClosuresWF c va ra s1 →
          ClosRes c va ra s1 →
          Rel c va ra (do
            let s ← EM.get
            lazyArgs ev true noValue' fn.lazyInv args <|
              enter name fn.name idx fn.file fn.returns fn.args fn.currents s.stack.length
                s.locals.length s.currents.length (notify c n idx s.stack.length)
                (block ev fn.body))
          (do
            let s ← EM.get
            lazyArgs ev' true noValue' fn.lazyInv args <|
              enter name fn.name idx fn.file fn.returns fn.args fn.currents s.stack.length
                s.locals.length s.currents.length (notify (c.named lost) n idx s.stack.length)
                (block ev' fn.body)) s1 := by
        intro s1 hs1 hi hc
        refine rel_get ?_
        refine hargs s1 _ _ _ _ hlazy hs1 hi hc fun t ht hi hc => ?_
        rw [hlen, har] at ht
        refine rel_enter (b := st.stack.length) hs1.stack ht hi hc (.notify ..) rfl hfresh ?_
        intro t hm hrel hal hi hc
        have e1 : kOf c va ra t = ctxAt c va ra st.module idx := by
          simp only [kOf, hm, hrel, hs1.module]
        have e2 : arOf c t = arAt c st.module idx := by
          simp only [arOf, hm, hrel, hs1.module]
        exact rel_block hg ha hi hc (by rw [e1]; exact hbody) (by rw [e1, e2]; exact hres) hal
      simp only
      cases hrt : fn.returns with
      | false =>
        rw [hrt] at key2
        simp only [Bool.false_eq_true, if_false] at key2 ⊢
        exact rel_ok rfl rfl (key2 st Same.rfl.grown hi hc)
      | true =>
        rw [hrt] at key2
        simp only [if_true] at key2 ⊢
        exact rel_push (key2 _ (Grown.push _) hi hc)

theorem rel_callLoaded (hM : ModulesWF c va ra) (hR : ModulesRes c va ra)
    (hg : Good c va ra ev) (ha : Agrees c va ra ev ev') {n loader f name args}
    (hi : ClosuresWF c va ra st) (hc : ClosRes c va ra st)
    (hl : loader = true → st.rel = 0)
    (hw : WFs (kOf c va ra st) args)
    (hr : RArgs (kOf c va ra st) (arOf c st) args (Γ ++ callPre (kOf c va ra st) (.loaded f)) [])
    (hal : Aligned Γ st) (hlen : argLen args = arOf c st f)
    (hv : vecArgsOk (kOf c va ra st) args = true) :
    Rel c va ra (callLoaded c n ev loader f name args)
      (callLoaded (c.named lost) n ev' loader f name args) st := by
  refine rel_callLoaded' hM hR hg ha hi hc hl hlen fun s1 msg inv k k' hinv hs1 hi hc hk => ?_
  have hpre : callPre (kOf c va ra st) (.loaded f) =
      List.replicate (if (kOf c va ra st).rets f then 1 else 0) none := by
    simp only [callPre]; cases (kOf c va ra st).rets f <;> rfl
  rw [hpre] at hr
  exact rel_lazyArgs_loaded hg ha hi hc (by rw [hs1.ext.kOf]; exact hw) hinv
    (by rw [hs1.ext.kOf, hs1.ext.arOf]; exact hr) (hal.grown hs1)
    (by rw [hs1.ext.kOf]; exact hv) hk

theorem rel_callBinop (hg : Good c va ra ev) (ha : Agrees c va ra ev ev') {f args}
    (hi : ClosuresWF c va ra st) (hc : ClosRes c va ra st) (hw : WFs (kOf c va ra st) args)
    (hr : RAll (kOf c va ra st) (arOf c st) args Γ []) (hal : Aligned Γ st) :
    Rel c va ra (callBinop c ev f args) (callBinop (c.named lost) ev' f args) st := by
  unfold callBinop
  split
  · simp only [WFs] at hw
    simp only [RAll] at hr
    refine rel_want hg ha hi hc hw.1 hr.1 hal fun x s hs hi hc => ?_
    refine rel_want hg ha hi hc (by rw [hs.kOf]; exact hw.2.1)
      (by rw [hs.kOf, hs.arOf]; exact hr.2.1) (hal.same hs) fun y s' hs' hi hc => ?_
    refine rel_quiet (.derefE _) hi hc fun x s' hs' hi hc => ?_
    refine rel_quiet (.derefE _) hi hc fun y s' hs' hi hc => ?_
    exact rel_quiet (.liftOp _) hi hc fun y s' hs' hi hc => rel_pure hc
  · exact rel_panic

theorem rel_callUnop (hg : Good c va ra ev) (ha : Agrees c va ra ev ev') {f args}
    (hi : ClosuresWF c va ra st) (hc : ClosRes c va ra st) (hw : WFs (kOf c va ra st) args)
    (hr : RArgs (kOf c va ra st) (arOf c st) args Γ []) (hal : Aligned Γ st) :
    Rel c va ra (callUnop c ev f args) (callUnop (c.named lost) ev' f args) st := by
  unfold callUnop
  split
  · simp only [WFs] at hw
    rw [RArgs] at hr
    refine rel_want hg ha hi hc hw.1 hr.1 hal fun x s hs hi hc => ?_
    refine rel_quiet (.derefE _) hi hc fun x s' hs' hi hc => ?_
    exact rel_quiet (.liftOp _) hi hc fun y s' hs' hi hc => rel_pure hc
  · exact rel_panic

theorem ExtStill.rel_void (hS : ExtStill c) {f} (hc : ClosRes c va ra st) :
    Rel c va ra (c.voidFn f) (c.voidFn f) st :=
  .refl (wp_mono (hS.void f st) (fun _ s h => by simpa only [ClosRes, h] using hc)
    fun s h => by simpa only [ClosRes, h] using hc)

theorem ExtStill.rel_ret (hS : ExtStill c) {f} (hc : ClosRes c va ra st) :
    Rel c va ra (c.retFn f) (c.retFn f) st :=
  .refl (wp_mono (hS.ret f st) (fun _ s h => by simpa only [ClosRes, h] using hc)
    fun s h => by simpa only [ClosRes, h] using hc)

theorem rel_callE (hS : ExtStill c) (hM : ModulesWF c va ra) (hR : ModulesRes c va ra)
    (hg : Good c va ra ev) (ha : Agrees c va ra ev ev') {n loader f name args}
    (hi : ClosuresWF c va ra st) (hc : ClosRes c va ra st) (hl : loader = true → st.rel = 0)
    (hw : (Expr.call f name args).WF (kOf c va ra st))
    (hr : (Expr.call f name args).Res (kOf c va ra st) (arOf c st) Γ []) (hal : Aligned Γ st) :
    Rel c va ra (callE c n ev loader f name args) (callE (c.named lost) n ev' loader f name args) st := by
  cases f with
  | void f =>
    simp only [Expr.WF, Expr.Res, callPre, List.append_nil] at hw hr
    exact rel_lazyArgs_ext hg ha hi hc hw.1 hr.1 hal fun s hc =>
      rel_bind (hS.rel_void hc) wp_true fun _ _ _ hc => rel_pure hc
  | ret f =>
    simp only [Expr.WF, Expr.Res, callPre, List.append_nil] at hw hr
    exact rel_lazyArgs_ext hg ha hi hc hw.1 hr.1 hal fun s hc =>
      rel_bind (hS.rel_ret hc) wp_true fun _ _ _ hc => rel_pure hc
  | lazy f inv =>
    simp only [Expr.WF, Expr.Res, callPre, List.append_nil] at hw hr
    exact rel_lazyArgs_ext hg ha hi hc hw.1 hr.1 hal fun s hc =>
      rel_bind (hS.rel_ret hc) wp_true fun _ _ _ hc => rel_pure hc
  | binop f =>
    simp only [Expr.WF, Expr.Res] at hw hr
    exact rel_callBinop hg ha hi hc hw.1 hr.1 hal
  | unop f =>
    simp only [Expr.WF, Expr.Res, callPre, List.append_nil] at hw hr
    exact rel_callUnop hg ha hi hc hw.1 hr.1 hal
  | loaded f =>
    simp only [Expr.WF, Expr.Res] at hw hr
    exact rel_callLoaded hM hR hg ha hi hc hl hw.1 hr.1 hal hr.2.1 hr.2.2
  | none => exact rel_errT hc

theorem rel_inModule {m} {act act' : EM α} (h : Rel c va ra act act' { st with module := m }) :
    Rel c va ra (inModule m act) (inModule m act') st := by
  refine ⟨?_, wp_inModule h.2⟩
  unfold inModule
  rw [h.1]

theorem rel_callClosureE (hb : c.byName = false) (hg : Good c va ra ev)
    (ha : Agrees c va ra ev ev') {it args} (hi : ClosuresWF c va ra st) (hc : ClosRes c va ra st)
    (hwi : WFitem (kOf c va ra st) it) (hw : WFs (kOf c va ra st) args)
    (hri : RItem (kOf c va ra st) (arOf c st) it Γ [])
    (hv : vecArgsOk (kOf c va ra st) args = true)
    (hr : RArgs (kOf c va ra st) (arOf c st) args (Γ ++ [none]) []) (hal : Aligned Γ st) :
    Rel c va ra (callClosureE c ev it args) (callClosureE (c.named lost) ev' it args) st := by
  unfold callClosureE
  refine rel_bind (rel_itemE hb hg ha hi hc hwi hri hal) (wp_itemE hg .rfl hi hwi) ?_
  rintro ⟨_ | x, _ | _ | _ | _⟩ s hp hc
  case none.ret => exact rel_pure hc
  case some.ret => exact rel_pure hc
  case some.cont =>
    have hs := hp.same (by simp)
    have hwc : wp (closureOf x) (fun f t => Same s t ∧ ClosuresWF c va ra t ∧
        f.body.WF (ctxAt c va ra f.module f.relative) ∧ CloRes c va ra f) (fun _ => True) s := by
      unfold closureOf
      refine wp_bind (wp_mono ((Quiet.derefE _).run s) (fun d t ht => ?_) fun _ _ => trivial)
      have hi := hp.inv.of_eq ht.2
      split
      · refine wp_bind (wp_get ?_)
        rename_i id
        cases hcl : t.closures[id]? with
        | none => exact wp_panic
        | some cl =>
          exact wp_pure ⟨ht.1, hi, hi cl (List.mem_of_getElem? hcl),
            hc cl (by rw [← ht.2]; exact List.mem_of_getElem? hcl)⟩
      · exact wp_bind (wp_get (wp_errT trivial))
    refine rel_bind (.quiet (.closureOf x) hc) hwc ?_
    rintro f s' ⟨hs', hi, hfb, hfr, hfresh, hfres⟩ hc
    have hs := hs.trans hs'
    split
    · exact rel_errT hc
    rename_i hlen
    simp only [ne_eq, not_not] at hlen
    rw [hfr] at hfres ⊢
    simp only [if_true]
    refine rel_push (rel_get ?_)
    have hs1 : Grown 1 st { s' with stack := s'.stack ++ [Val.ret] } := hs.grown.trans (Grown.push _)
    refine rel_lazyArgs_loaded hg ha hi hc (by rw [hs1.ext.kOf]; exact hw) (by simp)
      (by rw [hs1.ext.kOf, hs1.ext.arOf]; exact hr) (hal.grown hs1)
      (by rw [hs1.ext.kOf]; exact hv) fun t ht hi hc => ?_
    rw [hlen] at ht
    refine rel_enter (b := st.stack.length) (returns := true) hs1.stack ht hi hc (.pure _) rfl hfresh ?_
    intro t hm hrel hal hi hc
    refine rel_inModule ?_
    have e0 : ({ t with module := f.module } : St).rel = f.relative := hrel
    have e1 : kOf c va ra { t with module := f.module } = ctxAt c va ra f.module f.relative := by
      simp only [kOf, e0]
    have e2 : arOf c { t with module := f.module } = arAt c f.module f.relative := by
      simp only [arOf, e0]
    exact (ha f.body .right { t with module := f.module } _ hi hc (by rw [e1]; exact hfb)
      (by rw [e1, e2]; exact hfres) (hal.of_eq rfl rfl rfl)).1
  all_goals exact rel_errT hc

end Dyon
