import Verif.Eval.ChanProps

/-!
# C18 and C21 for link loops

`link i n { … }` and `link x in { … }`: the scalars of the rounds, one round after the other.
-/

namespace Dyon

/-! ## Specification -/

/-- The scalars a value adds to a link. -/
def Spec.scalars : Val → Option (List Link.Scalar)
  | .bool b _ => some [.bool b]
  | .f64 x _ => some [.f64 x]
  | .str s => some [.str s]
  | .link l => some l
  | _ => none

section
variable [FloatOps] [VecMath]

/-- `Items c n es st ys s`: the items `es` of a link body are evaluated in order from `st` to
`s`, and the values they have add up to the scalars `ys`. -/
inductive Items (c : ECfg) (n : Nat) : List Expr → St → List Link.Scalar → St → Prop
  | nil (st) : Items c n [] st [] st
  | value {e es st x s d xs ys t} : eval c n e .right st = .ok (some x, .cont) s →
      Spec.deref s.stack x = some d → Spec.scalars d = some xs → Items c n es s ys t →
      Items c n (e :: es) st (xs ++ ys) t
  | nothing {e es st s ys t} : eval c n e .right st = .ok (none, .cont) s → Items c n es s ys t →
      Items c n (e :: es) st ys t

/-- A link loop as an expression and the state before, with the scalars it adds and the
state after. -/
abbrev Runs := Expr → St → List Link.Scalar → St → Prop

/-- One round of a link loop with body `body` that goes on with the next round: all items,
the items before a `continue` meant for this loop, or a link loop inside. -/
inductive LinkRound (c : ECfg) (n : Nat) (inner : Runs) (label : Option String) :
    List Expr → St → List Link.Scalar → St → Prop
  | items {es r st ys s} : Items c n es st ys s → LinkRound c n inner label (.link es :: r) st ys s
  | skipped {es e es' r st ys s x l t} : Items c n es st ys s →
      eval c n e .right s = .ok (x, .contLoop l) t → Targets label l →
      LinkRound c n inner label (.link (es ++ e :: es') :: r) st ys t
  | inner {e r st ys s} : inner e st ys s → LinkRound c n inner label (e :: r) st ys s

/-- One round of a link loop that a `break` meant for this loop ends: the items before it
count. -/
inductive LinkBreak (c : ECfg) (n : Nat) (label : Option String) :
    List Expr → St → List Link.Scalar → St → Prop
  | mk {es e es' r st ys s x l t} : Items c n es st ys s →
      eval c n e .right s = .ok (x, .brk l) t → Targets label l →
      LinkBreak c n label (.link (es ++ e :: es') :: r) st ys t

/-- The state at the next index: the counter in slot `h` is `i`, what the round left above it
is gone. -/
def nextIndex (h lc : Nat) (i : F64) (s : St) : St :=
  { s with stack := (s.stack.set h (.ofF64 i)).take (h + 1), locals := s.locals.take lc }

/-- `LinkRounds … round h lc stop k i st ys i' st'`: `k` rounds from index `i` in `st` to index
`i'` in `st'` add the scalars `ys`.  In every round the index is below `stop`, the round leaves
the counter in slot `h` as it is, and the next index is one more. -/
inductive LinkRounds (round : St → List Link.Scalar → St → Prop) (h lc : Nat) (stop : F64) :
    Nat → F64 → St → List Link.Scalar → F64 → St → Prop
  | nil (i st) : LinkRounds round h lc stop 0 i st [] i st
  | cons {k i st xs s ys i' st'} : F64.lt i stop = true → round st xs s →
      s.stack[h]? = some (.ofF64 i) →
      LinkRounds round h lc stop k (FloatOps.add i F64.one)
        (nextIndex h lc (FloatOps.add i F64.one) s) ys i' st' →
      LinkRounds round h lc stop (k + 1) i st (xs ++ ys) i' st'

/-- `LinkLoop c n m e st ys s`: the counting link loop `e` runs from `st` to `s` and adds the
scalars `ys`.  `m` bounds the rounds and the depth of the loops inside. -/
def LinkLoop (c : ECfg) (n : Nat) : Nat → Runs
  | 0, _, _, _, _ => False
  | m + 1, e, st, ys, t => ∃ name start stop body label, e = .forN .linkFor name start stop body label ∧
    ∃ a b s k i s' xs, Bounds c n start stop st a b s ∧
      LinkRounds (LinkRound c n (LinkLoop c n m) label body) s.stack.length (s.locals.length + 1) b
        k a (enterLoop name a s) xs i s' ∧ k < m ∧
      ((F64.lt i b = false ∧ ys = xs ∧ t = leaveLoop st s') ∨
        (F64.lt i b = true ∧ ∃ zs t', LinkBreak c n label body s' zs t' ∧ ys = xs ++ zs ∧
          t = leaveLoop st t'))

/-- The state with the next message: it is taken from channel `ch` into slot `h`, what the
round left above is gone. -/
def nextMsg (c : ECfg) (h lc ch : Nat) (w : Val) (rest : List Val) (s : St) : St :=
  { sync c s with
    queues := upd (sync c s).queues ch rest
    stack := (s.stack.set h w).take (h + 1)
    locals := s.locals.take lc }

/-- `LinkTakes c round h lc ch k st ys st'`: `k` rounds over channel `ch` add the scalars `ys`;
after each of them a message is waiting, and the next round has the first one waiting. -/
inductive LinkTakes (c : ECfg) (round : St → List Link.Scalar → St → Prop) (h lc ch : Nat) :
    Nat → St → List Link.Scalar → St → Prop
  | nil (st) : LinkTakes c round h lc ch 0 st [] st
  | cons {k st xs s w rest ys st'} : round st xs s → h < s.stack.length →
      (sync c s).queues ch = w :: rest →
      LinkTakes c round h lc ch k (nextMsg c h lc ch w rest s) ys st' →
      LinkTakes c round h lc ch (k + 1) st (xs ++ ys) st'

/-- `LinkChan c n m e st ys s`: the link loop over a channel `e` runs from `st` to `s` and adds
the scalars `ys`.  `m` bounds the rounds and the depth of the loops inside. -/
def LinkChan (c : ECfg) (n : Nat) : Nat → Runs
  | 0, _, _, _, _ => False
  | m + 1, e, st, ys, t => ∃ name iter body label, e = .forIn .link name iter body label ∧
    ∃ ch s, Channel c n iter st ch s ∧
      (((sync c s).queues ch = [] ∧ ys = [] ∧ t = sync c s) ∨
      ∃ v rest k s' xs zs, (sync c s).queues ch = v :: rest ∧
        LinkTakes c (LinkRound c n (LinkChan c n m) label body) s.stack.length (s.locals.length + 1) ch
          k (enterMsg c name ch v rest s) xs s' ∧ k < m ∧ ys = xs ++ zs ∧
        ((∃ t', LinkRound c n (LinkChan c n m) label body s' zs t' ∧ (sync c t').queues ch = [] ∧
            t = leaveLoop st (sync c t')) ∨
          ∃ t', LinkBreak c n label body s' zs t' ∧ t = leaveLoop st t'))

/-! ## Lemmas -/

omit [FloatOps] [VecMath] in
theorem linkPush_scalars {l d xs} (h : Spec.scalars d = some xs) : linkPush l d = .ok (l ++ xs) := by
  cases d <;> cases h <;> rfl

theorem items_run {c n es st ys s} (h : Items c n es st ys s) (label : Option String)
    (es' : List Expr) (l : List Link.Scalar) :
    linkItems (eval c n) label (es ++ es') l st = linkItems (eval c n) label es' (l ++ ys) s := by
  induction h generalizing l with
  | nil st => simp
  | @value e es st x s d xs ys t h1 h2 h3 _ ih =>
    rw [List.cons_append, linkItems, EM.bind_ok h1]
    simp only
    rw [EM.bind_ok (derefE_ok h2)]
    simp only [linkPush_scalars h3]
    rw [ih, List.append_assoc]
  | nothing h1 _ ih =>
    rw [List.cons_append, linkItems, EM.bind_ok h1]
    exact ih l

theorem items_skip {c n es st ys s e es' x l t label} (h : Items c n es st ys s)
    (he : eval c n e .right s = .ok (x, .contLoop l) t) (ht : Targets label l)
    (a : List Link.Scalar) :
    linkItems (eval c n) label (es ++ e :: es') a st = .ok (.go (a ++ ys)) t := by
  rw [items_run h, linkItems, EM.bind_ok he]
  simp only [onContinue_target ht]
  rfl

omit [FloatOps] [VecMath] in
theorem onBreak_target {label l} (h : Targets label l) : onBreak label l = .cont := by
  obtain rfl | rfl := h
  · rfl
  · cases l <;> simp [onBreak]

theorem items_break {c n es st ys s e es' x l t label} (h : Items c n es st ys s)
    (he : eval c n e .right s = .ok (x, .brk l) t) (ht : Targets label l)
    (a : List Link.Scalar) :
    linkItems (eval c n) label (es ++ e :: es') a st = .ok (.stop (a ++ ys) .cont) t := by
  rw [items_run h, linkItems, EM.bind_ok he]
  simp only [onBreak_target ht]
  rfl

omit [FloatOps] [VecMath] in
theorem writeE_slot {h v w} {s : St} (hs : s.stack[h]? = some v) :
    writeE ⟨h, []⟩ w s = .ok () { s with stack := s.stack.set h w } := by
  have : readPlace s.stack ⟨h, []⟩ = some v := by simp [readPlace, hs, Val.atPath]
  simp only [writeE, this, writePlace, hs]
  rfl

omit [VecMath] in
theorem countRound_next {σ h lc stop i st s a a'} {round : σ → F64 → EM (Round σ)}
    (hst : st.stack[h]? = some (.ofF64 i)) (hi : F64.lt i stop = true)
    (hr : round a i st = .ok (.go a') s) (hs : s.stack[h]? = some (.ofF64 i)) :
    countRound (h + 1) lc stop round a st =
      .ok (.inl a') (nextIndex h lc (FloatOps.add i F64.one) s) := by
  rw [countRound, EM.bind_ok (slotE_ok (i := h + 1 - 1) hst)]
  simp only [Val.ofF64, hi, if_true]
  rw [EM.bind_ok hr]
  simp only
  rw [EM.bind_ok (a := ()) (s := { s with stack := s.stack.set h (.ofF64 (FloatOps.add i F64.one)) })]
  · rfl
  · rw [incSlot, EM.bind_ok (slotE_ok (i := h + 1 - 1) hs)]
    exact writeE_slot hs

/-- The round of `linkForN`. -/
def nRound (m : Nat) (ev : Evl) (label : Option String) (body : List Expr) (l : List Link.Scalar) :
    EM (Round (List Link.Scalar)) :=
  match body with
  | .link items :: _ => linkItems ev label items l
  | .forN .linkFor name' start' stop' body' label' :: _ => do
    let r ← linkForN m ev l name' start' stop' body' label'
    pure (linkNested label r)
  | [] => EM.panic "index out of bounds"
  | _ :: _ => EM.panic "Link body is not link"

/-- The round of `linkForIn`. -/
def chRound (c : ECfg) (m : Nat) (ev : Evl) (label : Option String) (body : List Expr)
    (l : List Link.Scalar) : EM (Round (List Link.Scalar)) :=
  match body with
  | .link items :: _ => linkItems ev label items l
  | .forIn .link name' iter' body' label' :: _ => do
    let r ← linkForIn c m ev l name' iter' body' label'
    pure (linkNested label r)
  | [] => EM.panic "index out of bounds"
  | _ :: _ => EM.panic "Link body is not link"

omit [VecMath] in
theorem linkForN_round (m ev l name start stop body label) :
    linkForN (m + 1) ev l name start stop body label =
      countLoop m ev name start stop l fun l _ => nRound m ev label body l := rfl

omit [FloatOps] [VecMath] in
theorem linkForIn_round (c m ev l name iter body label) :
    linkForIn c (m + 1) ev l name iter body label =
      chanLoop c m ev name iter l l fun l _ => chRound c m ev label body l := rfl

theorem linkRound_label {c n m} {label : Option String} {body st ys s}
    (ih : ∀ {e st ys s}, LinkLoop c n m e st ys s → ∀ l, ∃ name start stop body label,
      e = .forN .linkFor name start stop body label ∧
      linkForN m (eval c n) l name start stop body label st = .ok (l ++ ys, (none, .cont)) s)
    (h : LinkRound c n (LinkLoop c n m) label body st ys s) (l : List Link.Scalar) :
    nRound m (eval c n) label body l st = .ok (.go (l ++ ys)) s := by
  cases h with
  | items h =>
    have := items_run h label [] l
    rw [List.append_nil] at this
    exact this
  | skipped h he ht => exact items_skip h he ht l
  | inner h =>
    obtain ⟨name, start, stop, body, label', rfl, hl⟩ := ih h l
    rw [nRound, EM.bind_ok hl]
    rfl

omit [VecMath] in
theorem linkRounds_counter {round : St → List Link.Scalar → St → Prop} {h lc stop k i st ys i' st'}
    (hr : LinkRounds round h lc stop k i st ys i' st') (hst : st.stack[h]? = some (.ofF64 i)) :
    st'.stack[h]? = some (.ofF64 i') := by
  induction hr with
  | nil => exact hst
  | @cons k i st xs s ys i' st' hlt hrd hs _ ih =>
    have hl : h < s.stack.length := (List.getElem?_eq_some_iff.1 hs).1
    exact ih (by simp [nextIndex, hl])

omit [VecMath] in
theorem linkRounds_run {round : St → List Link.Scalar → St → Prop} {h lc stop k i st ys i' st'}
    {f : List Link.Scalar → F64 → EM (Round (List Link.Scalar))}
    (hr : LinkRounds round h lc stop k i st ys i' st') (hst : st.stack[h]? = some (.ofF64 i))
    (l : List Link.Scalar) (m : Nat)
    (hf : ∀ st xs s, round st xs s → ∀ l i, f l i st = .ok (.go (l ++ xs)) s) :
    loopN (m + k) (countRound (h + 1) lc stop f) l st =
      loopN m (countRound (h + 1) lc stop f) (l ++ ys) st' := by
  induction hr generalizing l with
  | nil => simp
  | @cons k i st xs s ys i' st' hlt hrd hs _ ih =>
    have hl : h < s.stack.length := (List.getElem?_eq_some_iff.1 hs).1
    rw [← Nat.add_assoc, loopN_inl (countRound_next hst hlt (hf _ _ _ hrd l i) hs),
      ih (by simp [nextIndex, hl]) (l ++ xs), List.append_assoc]

omit [VecMath] in
theorem countRound_halt {σ h lc stop i st s a a' f} {round : σ → F64 → EM (Round σ)}
    (hst : st.stack[h]? = some (.ofF64 i)) (hi : F64.lt i stop = true)
    (hr : round a i st = .ok (.stop a' f) s) :
    countRound (h + 1) lc stop round a st = .ok (.inr (true, (a', (none, f)))) s := by
  rw [countRound, EM.bind_ok (slotE_ok (i := h + 1 - 1) hst)]
  simp only [Val.ofF64, hi, if_true]
  rw [EM.bind_ok hr]
  rfl

omit [VecMath] in
theorem countRound_leave {σ h lc stop i st s a r} {round : σ → F64 → EM (Round σ)}
    (hst : st.stack[h]? = some (.ofF64 i)) (hi : F64.lt i stop = true)
    (hr : round a i st = .ok (.exit r) s) :
    countRound (h + 1) lc stop round a st = .ok (.inr (false, (a, r))) s := by
  rw [countRound, EM.bind_ok (slotE_ok (i := h + 1 - 1) hst)]
  simp only [Val.ofF64, hi, if_true]
  rw [EM.bind_ok hr]
  rfl

omit [VecMath] in
theorem countRound_fail {σ h lc stop i st s a e} {round : σ → F64 → EM (Round σ)}
    (hst : st.stack[h]? = some (.ofF64 i)) (hi : F64.lt i stop = true)
    (hr : round a i st = .err e s) : countRound (h + 1) lc stop round a st = .err e s := by
  rw [countRound, EM.bind_ok (slotE_ok (i := h + 1 - 1) hst)]
  simp only [Val.ofF64, hi, if_true]
  rw [EM.bind_err hr]

omit [VecMath] in
theorem countRound_over {σ h lc stop i st} {a : σ} {round : σ → F64 → EM (Round σ)}
    (hst : st.stack[h]? = some (.ofF64 i)) (hi : F64.lt i stop = false) :
    countRound (h + 1) lc stop round a st = .ok (.inr (true, (a, (none, .cont)))) st := by
  rw [countRound, EM.bind_ok (slotE_ok (i := h + 1 - 1) hst)]
  simp only [Val.ofF64, hi, Bool.false_eq_true, if_false]
  rfl

theorem linkLoop_run {c n m} : ∀ {e st ys s}, LinkLoop c n m e st ys s → ∀ l,
    ∃ name start stop body label, e = .forN .linkFor name start stop body label ∧
      linkForN m (eval c n) l name start stop body label st = .ok (l ++ ys, (none, .cont)) s := by
  induction m with
  | zero => exact fun h => h.elim
  | succ m ih =>
    rintro e st ys t ⟨name, start, stop, body, label, rfl, a, b, s, k, i, s', xs, hb, hr, hk, hend⟩ l
    refine ⟨name, start, stop, body, label, rfl, ?_⟩
    obtain ⟨p, rfl⟩ : ∃ p, m = (p + 1) + k := ⟨m - k - 1, by omega⟩
    have h0 : (enterLoop name a s).stack[s.stack.length]? = some (.ofF64 a) := by simp [enterLoop]
    have h2 := linkRounds_counter hr h0
    rw [linkForN_round, countLoop_run hb,
      linkRounds_run hr h0 l (p + 1) fun _ _ _ h l _ => linkRound_label ih h l]
    obtain ⟨hlt, rfl, rfl⟩ | ⟨hlt, zs, t', hbr, rfl, rfl⟩ := hend
    · rw [loopN_inr (countRound_over h2 hlt)]
    · obtain ⟨hi, he, ht⟩ := hbr
      rw [loopN_inr (countRound_halt h2 hlt (items_break hi he ht _)), List.append_assoc]

omit [FloatOps] [VecMath] in
theorem chanRound_nextMsg {σ c ch h lc w rest st s} {a a' : σ} {round : σ → Nat → EM (Round σ)}
    (hr : round a h st = .ok (.go a') s) (hs : h < s.stack.length)
    (hq : (sync c s).queues ch = w :: rest) :
    chanRound c ch (h + 1) lc round a st = .ok (.inl a') (nextMsg c h lc ch w rest s) := by
  rw [chanRound, EM.bind_ok (show round a (h + 1 - 1) st = _ from hr)]
  simp only
  rw [EM.bind_ok (recvE_some hq)]
  simp only
  rw [EM.bind_ok (writeE_slot (h := h + 1 - 1) (v := s.stack[h]) (by simp [sync, hs]))]
  rfl

omit [VecMath] in
theorem linkTakes_run {c} {round : St → List Link.Scalar → St → Prop} {h lc ch k st ys st'}
    {f : List Link.Scalar → Nat → EM (Round (List Link.Scalar))}
    (hr : LinkTakes c round h lc ch k st ys st') (l : List Link.Scalar) (m : Nat)
    (hf : ∀ st xs s, round st xs s → ∀ l i, f l i st = .ok (.go (l ++ xs)) s) :
    loopN (m + k) (chanRound c ch (h + 1) lc f) l st =
      loopN m (chanRound c ch (h + 1) lc f) (l ++ ys) st' := by
  induction hr generalizing l with
  | nil => simp
  | @cons k st xs s w rest ys st' hrd hs hq _ ih =>
    rw [← Nat.add_assoc, loopN_inl (chanRound_nextMsg (hf _ _ _ hrd l h) hs hq), ih, List.append_assoc]

theorem linkRound_chan {c n m} {label : Option String} {body st ys s}
    (ih : ∀ {e st ys s}, LinkChan c n m e st ys s → ∀ l, ∃ name iter body label,
      e = .forIn .link name iter body label ∧
      linkForIn c m (eval c n) l name iter body label st = .ok (l ++ ys, (none, .cont)) s)
    (h : LinkRound c n (LinkChan c n m) label body st ys s) (l : List Link.Scalar) :
    chRound c m (eval c n) label body l st = .ok (.go (l ++ ys)) s := by
  cases h with
  | items h =>
    have := items_run h label [] l
    rw [List.append_nil] at this
    exact this
  | skipped h he ht => exact items_skip h he ht l
  | inner h =>
    obtain ⟨name, iter, body, label', rfl, hl⟩ := ih h l
    rw [chRound, EM.bind_ok hl]
    rfl

theorem linkChan_run {c n m} : ∀ {e st ys s}, LinkChan c n m e st ys s → ∀ l,
    ∃ name iter body label, e = .forIn .link name iter body label ∧
      linkForIn c m (eval c n) l name iter body label st = .ok (l ++ ys, (none, .cont)) s := by
  induction m with
  | zero => exact fun h => h.elim
  | succ m ih =>
    rintro e st ys t ⟨name, iter, body, label, rfl, ch, s, hc, hend⟩ l
    refine ⟨name, iter, body, label, rfl, ?_⟩
    rw [linkForIn_round]
    obtain ⟨hq, rfl, rfl⟩ | ⟨v, rest, k, s', xs, zs, hq, hr, hk, rfl, hend⟩ := hend
    · rw [chanLoop_none hc hq, List.append_nil]
    · obtain ⟨p, rfl⟩ : ∃ p, m = (p + 1) + k := ⟨m - k - 1, by omega⟩
      rw [chanLoop_run hc hq, linkTakes_run hr l (p + 1) fun _ _ _ h l _ => linkRound_chan ih h l]
      obtain ⟨t', hl, hq', rfl⟩ | ⟨t', hbr, rfl⟩ := hend
      · rw [loopN_inr (chanRound_last (linkRound_chan ih hl _) hq'), List.append_assoc]
      · obtain ⟨hi, he, ht⟩ := hbr
        rw [loopN_inr (chanRound_stop (items_break hi he ht _)), List.append_assoc]

/-! ## Properties -/

/-- **C18.** A link loop whose rounds (and the loops inside) go through gives the link of all
the scalars of its rounds, in order. -/
theorem C18_link {c n e st ys s} (side : Side) (h : LinkLoop c n n e st ys s) :
    eval c (n + 1) e side st = .ok (some (.link ys), .cont) s := by
  obtain ⟨name, start, stop, body, label, rfl, hl⟩ := linkLoop_run h []
  show (linkForN n (eval c n) [] name start stop body label >>= fun r => pure (linkResult r)) st = _
  rw [EM.bind_ok hl]
  rfl

/-- **C21.** The same for a link loop over a channel; without a message it is the empty
link. -/
theorem C21_link {c n e st ys s} (side : Side) (h : LinkChan c n n e st ys s) :
    eval c (n + 1) e side st = .ok (some (.link ys), .cont) s := by
  obtain ⟨name, iter, body, label, rfl, hl⟩ := linkChan_run h []
  show (linkForIn c n (eval c n) [] name iter body label >>= fun r => pure (linkResult r)) st = _
  rw [EM.bind_ok hl]
  rfl

/-- A counting link loop has run `k` rounds, which add the scalars `xs`, and is about to
evaluate the item `e` of its body with index `i` in state `s'`. -/
structure LinkRan (c : ECfg) (n : Nat) (name : String) (start : Option Expr) (stop : Expr)
    (es : List Expr) (e : Expr) (es' : List Expr) (label : Option String) (st : St)
    (xs : List Link.Scalar) (s' : St) : Prop where
  run : ∃ m a b s k i s₁ xs₁ ys, n = m + 1 ∧ Bounds c n start stop st a b s ∧
    LinkRounds (LinkRound c n (LinkLoop c n m) label [.link (es ++ e :: es')]) s.stack.length
      (s.locals.length + 1) b k a (enterLoop name a s) xs₁ i s₁ ∧ k < m ∧ F64.lt i b = true ∧
    Items c n es s₁ ys s' ∧ xs = xs₁ ++ ys

/-- The same for a link loop over channel `ch`. -/
structure LinkTook (c : ECfg) (n : Nat) (name : String) (iter : Expr)
    (es : List Expr) (e : Expr) (es' : List Expr) (label : Option String) (st : St)
    (xs : List Link.Scalar) (s' : St) : Prop where
  run : ∃ m ch s v rest k s₁ xs₁ ys, n = m + 1 ∧ Channel c n iter st ch s ∧
    (sync c s).queues ch = v :: rest ∧
    LinkTakes c (LinkRound c n (LinkChan c n m) label [.link (es ++ e :: es')]) s.stack.length
      (s.locals.length + 1) ch k (enterMsg c name ch v rest s) xs₁ s₁ ∧ k < m ∧
    Items c n es s₁ ys s' ∧ xs = xs₁ ++ ys

/-- What the item makes of the loop. -/
inductive Leaves (label : Option String) (st : St) : Ev R → Ev R → Prop
  | ret (x t) : Leaves label st (.ok (x, .ret) t) (.ok (x, .ret) t)
  | brk (x l t) : ¬ Targets label l → Leaves label st (.ok (x, .brk l) t) (.ok (none, .brk l) (leaveLoop st t))
  | contLoop (x l t) : ¬ Targets label l →
      Leaves label st (.ok (x, .contLoop l) t) (.ok (none, .contLoop l) (leaveLoop st t))
  | err (m t) : Leaves label st (.err m t) (.err m t)

omit [FloatOps] [VecMath] in
theorem onBreak_other {label l} (h : ¬ Targets label l) : onBreak label l = .brk l := by
  cases l with
  | none => exact absurd (.inl rfl) h
  | some l =>
    have : label ≠ some l := fun e => h (.inr e.symm)
    simp [onBreak, this]

omit [FloatOps] [VecMath] in
theorem onContinue_other {label l} (h : ¬ Targets label l) : onContinue label l = some (.contLoop l) := by
  cases l with
  | none => exact absurd (.inl rfl) h
  | some l =>
    have : label ≠ some l := fun e => h (.inr e.symm)
    simp [onContinue, this]

/-- **C18, C20.** `return` in an item, a failing item, and `break` and `continue` meant for
another loop leave the link loop: it has no value. -/
theorem C18_link_leaves {c n name start stop es e es' label st xs s' r} (side : Side)
    (h : LinkRan c n name start stop es e es' label st xs s')
    (hr : Leaves label st (eval c n e .right s') r) :
    eval c (n + 1) (.forN .linkFor name start stop [.link (es ++ e :: es')] label) side st = r := by
  obtain ⟨m, a, b, s, k, i, s₁, xs₁, ys, rfl, hb, hrs, hk, hlt, hi, rfl⟩ := h.run
  show (linkForN (m + 1) (eval c (m + 1)) [] name start stop [.link (es ++ e :: es')] label >>=
    fun r => pure (linkResult r)) st = r
  obtain ⟨p, rfl⟩ : ∃ p, m = (p + 1) + k := ⟨m - k - 1, by omega⟩
  have h0 : (enterLoop name a s).stack[s.stack.length]? = some (.ofF64 a) := by simp [enterLoop]
  have h2 := linkRounds_counter hrs h0
  have h3 := countLoop_run (name := name) (fuel := (p + 1) + k) (s₀ := ([] : List Link.Scalar)) hb
    (round := fun l _ => nRound ((p + 1) + k) (eval c ((p + 1) + k + 1)) label [.link (es ++ e :: es')] l)
  rw [linkRounds_run hrs h0 [] (p + 1) fun _ _ _ h l _ => linkRound_label linkLoop_run h l] at h3
  have h4 : ∀ l, linkItems (eval c ((p + 1) + k + 1)) label (es ++ e :: es') l s₁ = _ :=
    fun l => items_run hi label (e :: es') l
  have h5 := h4 ([] ++ xs₁)
  rw [linkItems] at h5
  generalize hx : eval c ((p + 1) + k + 1) e .right s' = x at hr
  cases hr with
  | ret x t =>
    rw [EM.bind_ok hx] at h5
    rw [loopN_inr (countRound_leave (r := (x, .ret)) (s := t) h2 hlt
      (h5.trans (by cases x <;> rfl)))] at h3
    exact (EM.bind_ok h3).trans (by cases x <;> rfl)
  | brk x l t hl =>
    rw [EM.bind_ok hx] at h5
    rw [loopN_inr (countRound_halt h2 hlt (h5.trans (by cases x <;> rfl)))] at h3
    exact (EM.bind_ok h3).trans (by rw [onBreak_other hl]; rfl)
  | contLoop x l t hl =>
    rw [EM.bind_ok hx] at h5
    rw [loopN_inr (countRound_halt (a' := [] ++ xs₁ ++ ys) (f := .contLoop l) (s := t) h2 hlt
      (h5.trans (by cases x <;> (simp only [onContinue_other hl]; rfl))))] at h3
    exact (EM.bind_ok h3).trans rfl
  | err x t =>
    rw [EM.bind_err hx] at h5
    rw [loopN_err (countRound_fail (s := t) (e := x) h2 hlt h5)] at h3
    exact EM.bind_err h3

/-- **C20, C21.** The same for link loops over channels. -/
theorem C21_link_leaves {c n name iter es e es' label st xs s' r} (side : Side)
    (h : LinkTook c n name iter es e es' label st xs s')
    (hr : Leaves label st (eval c n e .right s') r) :
    eval c (n + 1) (.forIn .link name iter [.link (es ++ e :: es')] label) side st = r := by
  obtain ⟨m, ch, s, v, rest, k, s₁, xs₁, ys, rfl, hc, hq, hrs, hk, hi, rfl⟩ := h.run
  show (linkForIn c (m + 1) (eval c (m + 1)) [] name iter [.link (es ++ e :: es')] label >>=
    fun r => pure (linkResult r)) st = r
  obtain ⟨p, rfl⟩ : ∃ p, m = (p + 1) + k := ⟨m - k - 1, by omega⟩
  have h3 := chanLoop_run (name := name) (fuel := (p + 1) + k) (s₀ := ([] : List Link.Scalar))
    (e := ([] : List Link.Scalar)) hc hq
    (round := fun l _ => chRound c ((p + 1) + k) (eval c ((p + 1) + k + 1)) label [.link (es ++ e :: es')] l)
  rw [linkTakes_run hrs [] (p + 1) fun _ _ _ h l _ => linkRound_chan linkChan_run h l] at h3
  have h4 : ∀ l, linkItems (eval c ((p + 1) + k + 1)) label (es ++ e :: es') l s₁ = _ :=
    fun l => items_run hi label (e :: es') l
  have h5 := h4 ([] ++ xs₁)
  rw [linkItems] at h5
  generalize hx : eval c ((p + 1) + k + 1) e .right s' = x at hr
  cases hr with
  | ret x t =>
    rw [EM.bind_ok hx] at h5
    rw [loopN_inr (chanRound_exit (r := (x, .ret)) (s := t) (h5.trans (by cases x <;> rfl)))] at h3
    exact (EM.bind_ok h3).trans (by cases x <;> rfl)
  | brk x l t hl =>
    rw [EM.bind_ok hx] at h5
    rw [loopN_inr (chanRound_stop (h5.trans (by cases x <;> rfl)))] at h3
    exact (EM.bind_ok h3).trans (by rw [onBreak_other hl]; rfl)
  | contLoop x l t hl =>
    rw [EM.bind_ok hx] at h5
    rw [loopN_inr (chanRound_stop (a' := [] ++ xs₁ ++ ys) (f := .contLoop l) (s := t)
      (h5.trans (by cases x <;> (simp only [onContinue_other hl]; rfl))))] at h3
    exact (EM.bind_ok h3).trans rfl
  | err x t =>
    rw [EM.bind_err hx] at h5
    rw [loopN_err (chanRound_err (s := t) (m := x) h5)] at h3
    exact EM.bind_err h3

/-! ## Examples -/

omit [VecMath] in
theorem Demo.add_one : FloatOps.add F64.zero F64.one = F64.ofNat 1 := by
  rw [show F64.zero = F64.ofNat 0 from by decide, F64.add_one_ofNat (by decide)]

/-- `link i 1 { i "," }` has one round, with the scalars `0` and `","`. -/
example : LinkLoop (Demo.cfg []) 9 9 (.forN .linkFor "i" none (Demo.num 1)
      [.link [Demo.var "i" 1, Demo.str ","]] none) Demo.inside [.f64 F64.zero, .str ","]
    Demo.inside := by
  refine ⟨"i", none, Demo.num 1, _, none, rfl, F64.zero, F64.ofNat 1, Demo.inside, 1, F64.ofNat 1,
    nextIndex 1 1 (F64.ofNat 1) (enterLoop "i" F64.zero Demo.inside), _,
    ⟨⟨_, ⟨rfl, rfl⟩, _, none, rfl, rfl⟩⟩, .cons (by decide) (.items (.value rfl rfl rfl
      (.value rfl rfl rfl (.nil _)))) rfl (Demo.add_one ▸ .nil _ _), by decide,
      .inl ⟨by decide, rfl, rfl⟩⟩

/-- `link i 1, j 1 { i j }`: the loop inside adds its scalars. -/
example : LinkLoop (Demo.cfg []) 9 9 (.forN .linkFor "i" none (Demo.num 1)
      [.forN .linkFor "j" none (Demo.num 1) [.link [Demo.var "i" 1, Demo.var "j" 2]] none] none)
    Demo.inside [.f64 F64.zero, .f64 F64.zero] Demo.inside := by
  refine ⟨"i", none, Demo.num 1, _, none, rfl, F64.zero, F64.ofNat 1, Demo.inside, 1, F64.ofNat 1,
    nextIndex 1 1 (F64.ofNat 1) (enterLoop "i" F64.zero Demo.inside), [.f64 F64.zero, .f64 F64.zero],
    ⟨⟨_, ⟨rfl, rfl⟩, _, none, rfl, rfl⟩⟩,
    .cons (xs := [.f64 F64.zero, .f64 F64.zero]) (s := enterLoop "i" F64.zero Demo.inside)
      (by decide) (.inner ?_) rfl (Demo.add_one ▸ .nil _ _), by decide, .inl ⟨by decide, rfl, rfl⟩⟩
  refine ⟨"j", none, Demo.num 1, _, none, rfl, F64.zero, F64.ofNat 1, _, 1, F64.ofNat 1,
    nextIndex 2 2 (F64.ofNat 1) (enterLoop "j" F64.zero (enterLoop "i" F64.zero Demo.inside)), _,
    ⟨⟨_, ⟨rfl, rfl⟩, _, none, rfl, rfl⟩⟩, .cons (by decide) (.items (.value rfl rfl rfl
      (.value rfl rfl rfl (.nil _)))) rfl (Demo.add_one ▸ .nil _ _), by decide,
      .inl ⟨by decide, rfl, rfl⟩⟩

/-- `'a: link i 1 { i break 'b }` is about to leave with `break 'b`. -/
example : LinkRan (Demo.cfg []) 9 "i" none (Demo.num 1) [Demo.var "i" 1] (.brk (some "b")) [] (some "a")
      Demo.inside [.f64 F64.zero] (enterLoop "i" F64.zero Demo.inside) ∧
    Leaves (some "a") Demo.inside (eval (Demo.cfg []) 9 (.brk (some "b")) .right
      (enterLoop "i" F64.zero Demo.inside))
      (.ok (none, .brk (some "b")) (leaveLoop Demo.inside (enterLoop "i" F64.zero Demo.inside))) :=
  ⟨⟨⟨8, F64.zero, F64.ofNat 1, Demo.inside, 0, F64.zero, _, [], _, rfl,
    ⟨⟨_, ⟨rfl, rfl⟩, _, none, rfl, rfl⟩⟩, .nil _ _, by decide, by decide,
    .value rfl rfl rfl (.nil _), rfl⟩⟩, .brk _ _ _ (by simp [Targets])⟩

/-- `link v in ch { v }` with the messages `"a"` and `"b"`. -/
example : ∃ t, LinkChan (Demo.cfg []) 9 9 (.forIn .link "v" (.const (.inTy 0)) [.link [Demo.var "v" 1]] none)
    Demo.waiting [.str "a", .str "b"] t :=
  ⟨_, "v", .const (.inTy 0), _, none, rfl, 0, Demo.waiting, ⟨_, rfl, rfl⟩,
    .inr ⟨.str "a", [.str "b"], 1,
      nextMsg (Demo.cfg []) 1 1 0 (.str "b") [] (enterMsg (Demo.cfg []) "v" 0 (.str "a") [.str "b"] Demo.waiting),
      [.str "a"], [.str "b"], rfl,
      .cons (xs := [.str "a"]) (ys := [])
        (LinkRound.items (.value (xs := [.str "a"]) (ys := []) rfl rfl rfl (.nil _))) (by simp [enterMsg]) rfl
        (.nil _), by decide, rfl,
      .inl ⟨nextMsg (Demo.cfg []) 1 1 0 (.str "b") []
          (enterMsg (Demo.cfg []) "v" 0 (.str "a") [.str "b"] Demo.waiting),
        LinkRound.items (.value (xs := [.str "b"]) (ys := []) rfl rfl rfl (.nil _)), rfl, rfl⟩⟩⟩

/-- `'a: link v in ch { v return }` is about to leave with `return`. -/
example : ∃ s, LinkTook (Demo.cfg []) 9 "v" (.const (.inTy 0)) [Demo.var "v" 1] .retVoid [] (some "a")
      Demo.waiting [.str "a"] s ∧
    Leaves (some "a") Demo.waiting (eval (Demo.cfg []) 9 .retVoid .right s) (.ok (none, .ret) s) :=
  ⟨_, ⟨⟨8, 0, Demo.waiting, .str "a", [.str "b"], 0, _, [], _, rfl, ⟨_, rfl, rfl⟩, rfl, .nil _, by decide,
    .value rfl rfl rfl (.nil _), rfl⟩⟩, .ret _ _⟩

end
end Dyon
