import Verif.Eval.FrameEval

/-!
# Grab keeps programs well-formed

Lemmas for C23 and C30.
-/

namespace Dyon

variable {c : ECfg} {va ra : Nat → Nat} {ev : Evl} {α β : Type} {st st0 : St}

/-- Which items of a link leave something. -/
def linkLeaves : Expr → Option (List Bool)
  | .link items => some (items.map Expr.leaves)
  | _ => none

theorem linkBody_iff (es : List Expr) :
    linkBody es ↔ ∀ l, es.head?.bind linkLeaves = some l → ∀ b ∈ l, b = false := by
  cases es with
  | nil => simp [linkBody]
  | cons e es =>
    cases e
    case link items => simp [linkBody, linkLeaves]
    all_goals simp [linkBody, linkLeaves]

theorem fits_congr {es es' : List Expr} (h : es'.map Expr.width = es.map Expr.width) (r : Nat) :
    fits es' r = fits es r := by
  induction es generalizing es' r with
  | nil =>
    have : es' = [] := by simpa using h
    rw [this]
  | cons e es ih =>
    cases es' with
    | nil => simp at h
    | cons e' es' =>
      simp only [List.map_cons, List.cons.injEq] at h
      cases r with
      | zero => rfl
      | succ r => rw [fits, fits, h.1, ih h.2]

theorem leavesAny_eq (es : List Expr) : leavesAny es = (es.map Expr.leaves).any id := by
  induction es with
  | nil => rfl
  | cons e es ih => simp [leavesAny, ih]

/-- What grab keeps of an expression. -/
structure ShapeE (k : Ctx) (e e' : Expr) : Prop where
  wf : e'.WF k
  valued : Valued k e = true → Valued k e' = true
  width : e'.width = e.width
  swizzle : e'.isSwizzle = e.isSwizzle
  leaves : e'.leaves = e.leaves
  link : linkLeaves e' = linkLeaves e

/-- What grab keeps of a list of expressions. -/
structure ShapeL (k : Ctx) (es es' : List Expr) : Prop where
  wf : WFs k es'
  last : ValuedLast k es = true → ValuedLast k es' = true
  vec : vecArgsOk k es = true → vecArgsOk k es' = true
  widths : es'.map Expr.width = es.map Expr.width
  leaves : es'.map Expr.leaves = es.map Expr.leaves
  link : es'.head?.bind linkLeaves = es.head?.bind linkLeaves

theorem ShapeL.length {k es es'} (h : ShapeL k es es') : es'.length = es.length := by
  have := congrArg List.length h.widths; simpa using this

theorem ShapeL.body {k es es'} (h : ShapeL k es es') (hb : linkBody es) : linkBody es' := by
  rw [linkBody_iff] at *; rw [h.link]; exact hb

/-- What grab leaves. -/
def GPost (c : ECfg) (va ra : Nat → Nat) (P : α → Prop) (st : St) (r : Option Val ⊕ α) (s : St) :
    Prop :=
  ClosuresWF c va ra s ∧ (match r with
    | .inl _ => Ext st s
    | .inr a => Same st s ∧ P a)

theorem wp_gbind {m : GM α} {f : α → GM β} {P : α → Prop} {P' : β → Prop}
    (hm : wp m (GPost c va ra P st) (Err c va ra st) st)
    (hf : ∀ a s, Same st s → ClosuresWF c va ra s → P a →
      wp (f a) (GPost c va ra P' s) (Err c va ra s) s) :
    wp (gbind m f) (GPost c va ra P' st) (Err c va ra st) st := by
  refine wp_bind (wp_mono hm ?_ fun _ h => h)
  rintro (x | a) s ⟨hi, h⟩
  · exact wp_pure ⟨hi, h⟩
  · refine wp_mono (hf a s h.1 hi h.2) ?_ fun _ h' => h'.mono h.1.extE
    rintro (x | b) t ⟨hi, h'⟩
    · exact ⟨hi, h.1.transExt h'⟩
    · exact ⟨hi, h.1.trans h'.1, h'.2⟩

theorem wp_gpure {P : α → Prop} {a : α} (hi : ClosuresWF c va ra st) (h : P a) :
    wp (gpure a) (GPost c va ra P st) (Err c va ra st) st := wp_pure ⟨hi, .rfl, h⟩

/-- What grab keeps of else-if conditions. -/
def ShapeC (k : Ctx) (es : List (Expr × List Expr)) (cs : List Expr) : Prop :=
  cs.length = es.length ∧ WFs k cs
/-- What grab keeps of else-if blocks. -/
def ShapeB (k : Ctx) (es : List (Expr × List Expr)) (bs : List (List Expr)) : Prop :=
  bs.length = es.length ∧ (∀ b ∈ bs, WFs k b) ∧
    (ValuedBlocks k es = true → ∀ b ∈ bs, ValuedLast k b = true)

theorem wfElifs_zip {k} {cs : List Expr} {bs : List (List Expr)} (hc : WFs k cs)
    (hb : ∀ b ∈ bs, WFs k b) : WFelifs k (cs.zip bs) := by
  induction cs generalizing bs with
  | nil => simp [WFelifs]
  | cons e cs ih =>
    rw [WFs] at hc
    cases bs with
    | nil => simp [WFelifs]
    | cons b bs =>
      simp only [List.zip_cons_cons, WFelifs]
      exact ⟨hc.1, hb b (by simp), ih hc.2 fun b h => hb b (by simp [h])⟩

theorem valuedBlocks_zip {k} {cs : List Expr} {bs : List (List Expr)}
    (hb : ∀ b ∈ bs, ValuedLast k b = true) : ValuedBlocks k (cs.zip bs) = true := by
  induction cs generalizing bs with
  | nil => simp [ValuedBlocks]
  | cons e cs ih =>
    cases bs with
    | nil => simp [ValuedBlocks]
    | cons b bs =>
      simp only [List.zip_cons_cons, ValuedBlocks, Bool.and_eq_true]
      exact ⟨hb b (by simp), ih fun b h => hb b (by simp [h])⟩

/-- Grab keeps an expression whose parts it does not touch. -/
theorem ShapeE.self {k e} (h : e.WF k) : ShapeE k e e := ⟨h, id, rfl, rfl, rfl, rfl⟩

mutual
theorem wp_grabExpr (hev : Good c va ra ev) (n side level) : (e : Expr) → ∀ k st,
    ClosuresWF c va ra st → kOf c va ra st = k → e.WF k →
    wp (grabExpr n ev side level e) (GPost c va ra (ShapeE k e) st) (Err c va ra st) st
  | .grab l e => by
    intro k st hi hk hw
    rw [grabExpr]
    refine wp_ite (fun _ => ?_) fun _ => wp_gpure hi (.self hw)
    unfold grabHere
    rw [Expr.WF] at hw
    refine wp_wantK hev .rfl hi (by rw [hk]; exact hw) (fun x s hs hi => wp_pure ⟨hi, hs⟩)
      fun v s hs hi => ?_
    refine wp_quiet (.cloneE _ _) hs.extE hi fun w t ht hi => wp_pure ⟨hi, hs.trans ht, ?_⟩
    exact ⟨by simp [Expr.WF], fun _ => by simp [Valued], rfl, rfl, rfl, rfl⟩
  | .ret e => by
    intro k st hi hk hw
    rw [grabExpr]; rw [Expr.WF] at hw
    refine wp_gbind (wp_grabExpr hev n side level e k st hi hk hw) fun e' s hs hi he => ?_
    exact wp_gpure hi ⟨by rw [Expr.WF]; exact he.wf, fun _ => by simp [Valued], rfl, rfl, rfl, rfl⟩
  | .try_ e => by
    intro k st hi hk hw
    rw [grabExpr]; rw [Expr.WF] at hw
    refine wp_gbind (wp_grabExpr hev n side level e k st hi hk hw) fun e' s hs hi he => ?_
    exact wp_gpure hi ⟨by rw [Expr.WF]; exact he.wf, fun _ => by simp [Valued], rfl, rfl, rfl, rfl⟩
  | .retVoid => by intro k st hi hk hw; rw [grabExpr]; exact wp_gpure hi (.self hw)
  | .brk l => by intro k st hi hk hw; rw [grabExpr]; exact wp_gpure hi (.self hw)
  | .cont l => by intro k st hi hk hw; rw [grabExpr]; exact wp_gpure hi (.self hw)
  | .const v => by intro k st hi hk hw; rw [grabExpr]; exact wp_gpure hi (.self hw)
  | .in_ f => by intro k st hi hk hw; rw [grabExpr]; exact wp_gpure hi (.self hw)
  | .closure args cur r f e => by
    intro k st hi hk hw
    rw [grabExpr]; rw [Expr.WF] at hw
    refine wp_gbind (wp_grabExpr hev n side (level + 1) e k st hi hk hw) fun e' s hs hi he => ?_
    exact wp_gpure hi ⟨by rw [Expr.WF]; exact he.wf, fun _ => by simp [Valued], rfl, rfl, rfl, rfl⟩
  | .item it => by
    intro k st hi hk hw
    rw [grabExpr]; rw [Expr.WF] at hw
    refine wp_gbind (wp_grabItem hev n side level it k st hi hk hw) fun e' s hs hi he => ?_
    exact wp_gpure hi ⟨by rw [Expr.WF]; exact he, fun _ => by simp [Valued], rfl, rfl, rfl, rfl⟩
  | .block es => by
    intro k st hi hk hw
    rw [grabExpr]; rw [Expr.WF] at hw
    refine wp_gbind (wp_grabList hev n side level es k st hi hk hw) fun e' s hs hi he => ?_
    exact wp_gpure hi ⟨by rw [Expr.WF]; exact he.wf,
      fun h => by rw [Valued] at *; exact he.last h, rfl, rfl, rfl, rfl⟩
  | .assign op l r => by
    intro k st hi hk hw
    rw [grabExpr]; rw [Expr.WF] at hw
    refine wp_gbind (wp_grabExpr hev n side level l k st hi hk hw.1) fun l' s hs hi hl => ?_
    refine wp_gbind (wp_grabExpr hev n side level r k s hi (by rw [hs.kOf, hk]) hw.2)
      fun r' s hs hi hr => ?_
    exact wp_gpure hi ⟨by rw [Expr.WF]; exact ⟨hl.wf, hr.wf⟩,
      fun h => by simp [Valued] at h, rfl, rfl, rfl, rfl⟩
  | .ite cnd t elifs els => by
    intro k st hi hk hw
    rw [grabExpr]; rw [Expr.WF] at hw
    obtain ⟨h1, h2, h3, h4⟩ := hw
    refine wp_gbind (wp_grabExpr hev n side level cnd k st hi hk h1) fun c' s hs hi hc => ?_
    refine wp_gbind (wp_grabList hev n side level t k s hi (by rw [hs.kOf, hk]) h2)
      fun t' s2 hs2 hi ht => ?_
    refine wp_gbind (wp_grabConds hev n side level elifs k s2 hi (by rw [hs2.kOf, hs.kOf, hk]) h3)
      fun cs' s3 hs3 hi hcs => ?_
    refine wp_gbind (wp_grabBlocks hev n side level elifs k s3 hi
      (by rw [hs3.kOf, hs2.kOf, hs.kOf, hk]) h3) fun bs' s4 hs4 hi hbs => ?_
    refine wp_gbind (wp_grabOptList hev n side level els k s4 hi
      (by rw [hs4.kOf, hs3.kOf, hs2.kOf, hs.kOf, hk]) h4) fun els' s5 hs5 hi hels => ?_
    refine wp_gpure hi ⟨?_, fun h => ?_, rfl, rfl, rfl, rfl⟩
    · rw [Expr.WF]; exact ⟨hc.wf, ht.wf, wfElifs_zip hcs.2 hbs.2.1, hels.1⟩
    · cases els with
      | none => simp [Valued] at h
      | some b =>
        simp only [Valued, Bool.and_eq_true] at h
        obtain ⟨b', rfl, hb'⟩ := hels.2 b rfl
        simp only [Valued, Bool.and_eq_true]
        exact ⟨⟨ht.last h.1.1, valuedBlocks_zip (hbs.2.2 h.1.2)⟩, hb' h.2⟩
  | .go name args => by
    intro k st hi hk hw
    rw [grabExpr]; rw [Expr.WF] at hw
    refine wp_gbind (wp_grabList hev n side level args k st hi hk hw) fun e' s hs hi he => ?_
    exact wp_gpure hi ⟨by rw [Expr.WF]; exact he.wf, fun _ => by simp [Valued], rfl, rfl, rfl, rfl⟩
  | .call f name args => by
    intro k st hi hk hw
    rw [grabExpr]
    have hw1 : WFs k args := by cases f <;> simp only [Expr.WF] at hw <;> exact hw.1
    refine wp_gbind (wp_grabList hev n side level args k st hi hk hw1) fun e' s hs hi he => ?_
    refine wp_gpure hi ⟨?_, fun h => ?_, rfl, rfl, rfl, rfl⟩
    · have := he.length
      cases f <;> simp only [Expr.WF] at hw ⊢ <;> simp_all [he.wf]
      exact hw.2.2
    · cases f <;> simp_all [Valued]
  | .callClosure it args => by
    intro k st hi hk hw
    rw [grabExpr]; rw [Expr.WF] at hw
    refine wp_gbind (wp_grabItem hev n side level it k st hi hk hw.1) fun e' s hs hi he => ?_
    refine wp_gbind (wp_grabList hev n side level args k s hi (by rw [hs.kOf, hk]) hw.2)
      fun e'' s hs hi he' => ?_
    exact wp_gpure hi ⟨by rw [Expr.WF]; exact ⟨he, he'.wf⟩,
      fun h => by simp [Valued] at h, rfl, rfl, rfl, rfl⟩
  | .forN kd name start stop body label => by
    intro k st hi hk hw
    rw [grabExpr]; rw [Expr.WF] at hw
    obtain ⟨h1, h2, h3, h4⟩ := hw
    refine wp_gbind (wp_grabOpt hev n side level start k st hi hk h1) fun c' s hs hi hc => ?_
    refine wp_gbind (wp_grabExpr hev n side level stop k s hi (by rw [hs.kOf, hk]) h2)
      fun t' s2 hs2 hi ht => ?_
    refine wp_gbind (wp_grabList hev n side level body k s2 hi (by rw [hs2.kOf, hs.kOf, hk]) h3)
      fun b' s3 hs3 hi hb => ?_
    refine wp_gpure hi ⟨?_, fun h => ?_, rfl, rfl, rfl, rfl⟩
    · rw [Expr.WF]; exact ⟨hc, ht.wf, hb.wf, fun h => hb.body (h4 h)⟩
    · rw [Valued] at *; exact h
  | .vec4 args => by
    intro k st hi hk hw
    rw [grabExpr]; rw [Expr.WF] at hw
    refine wp_gbind (wp_grabList hev n side level args k st hi hk hw.1) fun e' s hs hi he => ?_
    refine wp_gpure hi ⟨?_, fun _ => by simp [Valued], rfl, rfl, rfl, rfl⟩
    rw [Expr.WF, fits_congr he.widths]
    exact ⟨he.wf, he.vec hw.2.1, hw.2.2⟩
  | .mat4 args => by
    intro k st hi hk hw
    rw [grabExpr]; rw [Expr.WF] at hw
    refine wp_gbind (wp_grabList hev n side level args k st hi hk hw.1) fun e' s hs hi he => ?_
    refine wp_gpure hi ⟨?_, fun _ => by simp [Valued], rfl, rfl, rfl, rfl⟩
    rw [Expr.WF, he.widths]
    exact ⟨he.wf, he.vec hw.2.1, hw.2.2⟩
  | .link items => by
    intro k st hi hk hw
    rw [grabExpr]; rw [Expr.WF] at hw
    refine wp_gbind (wp_grabList hev n side level items k st hi hk hw) fun e' s hs hi he => ?_
    refine wp_gpure hi ⟨by rw [Expr.WF]; exact he.wf, fun _ => by simp [Valued], rfl, rfl, ?_, ?_⟩
    · rw [Expr.leaves, Expr.leaves, leavesAny_eq, leavesAny_eq, he.leaves]
    · simp [linkLeaves, he.leaves]
  | .object kvs => by
    intro k st hi hk hw
    rw [grabExpr]; rw [Expr.WF] at hw
    refine wp_gbind (wp_grabKVs hev n side level kvs k st hi hk hw) fun e' s hs hi he => ?_
    exact wp_gpure hi ⟨by rw [Expr.WF]; exact he, fun _ => by simp [Valued], rfl, rfl, rfl, rfl⟩
  | .array items => by
    intro k st hi hk hw
    rw [grabExpr]; rw [Expr.WF] at hw
    refine wp_gbind (wp_grabList hev n side level items k st hi hk hw) fun e' s hs hi he => ?_
    exact wp_gpure hi ⟨by rw [Expr.WF]; exact he.wf, fun _ => by simp [Valued], rfl, rfl, rfl, rfl⟩
  | .arrayFill f m => by
    intro k st hi hk hw
    rw [grabExpr]; rw [Expr.WF] at hw
    refine wp_gbind (wp_grabExpr hev n side level f k st hi hk hw.1) fun l' s hs hi hl => ?_
    refine wp_gbind (wp_grabExpr hev n side level m k s hi (by rw [hs.kOf, hk]) hw.2)
      fun r' s hs hi hr => ?_
    exact wp_gpure hi ⟨by rw [Expr.WF]; exact ⟨hl.wf, hr.wf⟩,
      fun h => by simp [Valued], rfl, rfl, rfl, rfl⟩
  | .for_ i cnd stp b label => by
    intro k st hi hk hw
    rw [grabExpr]; rw [Expr.WF] at hw
    obtain ⟨h1, h2, h3, h4⟩ := hw
    refine wp_gbind (wp_grabExpr hev n side level i k st hi hk h1) fun c' s hs hi hc => ?_
    refine wp_gbind (wp_grabExpr hev n side level cnd k s hi (by rw [hs.kOf, hk]) h2)
      fun t' s2 hs2 hi ht => ?_
    refine wp_gbind (wp_grabExpr hev n side level stp k s2 hi (by rw [hs2.kOf, hs.kOf, hk]) h3)
      fun cs' s3 hs3 hi hcs => ?_
    refine wp_gbind (wp_grabList hev n side level b k s3 hi
      (by rw [hs3.kOf, hs2.kOf, hs.kOf, hk]) h4) fun bs' s4 hs4 hi hbs => ?_
    exact wp_gpure hi ⟨by rw [Expr.WF]; exact ⟨hc.wf, ht.wf, hcs.wf, hbs.wf⟩,
      fun h => by simp [Valued] at h, rfl, rfl, rfl, rfl⟩
  | .forIn kd name iter body label => by
    intro k st hi hk hw
    rw [grabExpr]; rw [Expr.WF] at hw
    obtain ⟨h1, h2, h3⟩ := hw
    refine wp_gbind (wp_grabExpr hev n side level iter k st hi hk h1) fun c' s hs hi hc => ?_
    refine wp_gbind (wp_grabList hev n side level body k s hi (by rw [hs.kOf, hk]) h2)
      fun b' s3 hs3 hi hb => ?_
    refine wp_gpure hi ⟨?_, fun h => by simp [Valued] at h, rfl, rfl, rfl, rfl⟩
    rw [Expr.WF]; exact ⟨hc.wf, hb.wf, fun h => hb.body (h3 h)⟩
  | .swizzle sel e => by
    intro k st hi hk hw
    rw [grabExpr]; rw [Expr.WF] at hw
    refine wp_gbind (wp_grabExpr hev n side level e k st hi hk hw) fun e' s hs hi he => ?_
    exact wp_gpure hi ⟨by rw [Expr.WF]; exact he.wf, fun h => by simp [Valued] at h,
      rfl, rfl, rfl, rfl⟩
  | .tryExpr e => by
    intro k st hi hk hw
    rw [grabExpr]; rw [Expr.WF] at hw
    refine wp_gbind (wp_grabExpr hev n side level e k st hi hk hw) fun e' s hs hi he => ?_
    exact wp_gpure hi ⟨by rw [Expr.WF]; exact he.wf, fun _ => by simp [Valued], rfl, rfl,
      by rw [Expr.leaves, Expr.leaves, he.leaves], rfl⟩
theorem wp_grabList (hev : Good c va ra ev) (n side level) : (es : List Expr) → ∀ k st,
    ClosuresWF c va ra st → kOf c va ra st = k → WFs k es →
    wp (grabList n ev side level es) (GPost c va ra (ShapeL k es) st) (Err c va ra st) st
  | [] => by
    intro k st hi hk hw
    rw [grabList]; exact wp_gpure hi ⟨hw, id, id, rfl, rfl, rfl⟩
  | e :: es => by
    intro k st hi hk hw
    rw [grabList]; rw [WFs] at hw
    refine wp_gbind (wp_grabExpr hev n side level e k st hi hk hw.1) fun e' s hs hi he => ?_
    refine wp_gbind (wp_grabList hev n side level es k s hi (by rw [hs.kOf, hk]) hw.2)
      fun es' s hs hi hes => ?_
    refine wp_gpure hi ⟨by rw [WFs]; exact ⟨he.wf, hes.wf⟩, ?_, ?_, ?_, ?_, ?_⟩
    · intro h
      have hl := hes.length
      cases es with
      | nil =>
        have : es' = [] := by simpa using hl
        subst this
        simp only [ValuedLast, List.isEmpty_nil, if_true] at h ⊢
        exact he.valued h
      | cons a as =>
        cases es' with
        | nil => simp at hl
        | cons a' as' =>
          rw [ValuedLast] at h ⊢
          simp only [List.isEmpty_cons, Bool.false_eq_true, if_false] at h ⊢
          exact hes.last h
    · intro h
      rw [vecArgsOk, Bool.and_eq_true, Bool.or_eq_true] at *
      exact ⟨h.1.imp he.valued (by rw [he.swizzle]; exact id), hes.vec h.2⟩
    · simp [he.width, hes.widths]
    · simp [he.leaves, hes.leaves]
    · simp [he.link]
theorem wp_grabKVs (hev : Good c va ra ev) (n side level) : (es : List (String × Expr)) → ∀ k st,
    ClosuresWF c va ra st → kOf c va ra st = k → WFkvs k es →
    wp (grabKVs n ev side level es) (GPost c va ra (WFkvs k) st) (Err c va ra st) st
  | [] => by
    intro k st hi hk hw
    rw [grabKVs]; exact wp_gpure hi hw
  | (key, e) :: es => by
    intro k st hi hk hw
    rw [grabKVs]; rw [WFkvs] at hw
    refine wp_gbind (wp_grabExpr hev n side level e k st hi hk hw.1) fun e' s hs hi he => ?_
    refine wp_gbind (wp_grabKVs hev n side level es k s hi (by rw [hs.kOf, hk]) hw.2)
      fun es' s hs hi hes => ?_
    exact wp_gpure hi (by rw [WFkvs]; exact ⟨he.wf, hes⟩)
theorem wp_grabConds (hev : Good c va ra ev) (n side level) :
    (es : List (Expr × List Expr)) → ∀ k st,
    ClosuresWF c va ra st → kOf c va ra st = k → WFelifs k es →
    wp (grabConds n ev side level es) (GPost c va ra (ShapeC k es) st) (Err c va ra st) st
  | [] => by
    intro k st hi hk hw
    rw [grabConds]; exact wp_gpure hi ⟨rfl, by simp [WFs]⟩
  | (e, b) :: es => by
    intro k st hi hk hw
    rw [grabConds]; rw [WFelifs] at hw
    refine wp_gbind (wp_grabExpr hev n side level e k st hi hk hw.1) fun e' s hs hi he => ?_
    refine wp_gbind (wp_grabConds hev n side level es k s hi (by rw [hs.kOf, hk]) hw.2.2)
      fun es' s hs hi hes => ?_
    exact wp_gpure hi ⟨by simp [hes.1], by rw [WFs]; exact ⟨he.wf, hes.2⟩⟩
theorem wp_grabBlocks (hev : Good c va ra ev) (n side level) :
    (es : List (Expr × List Expr)) → ∀ k st,
    ClosuresWF c va ra st → kOf c va ra st = k → WFelifs k es →
    wp (grabBlocks n ev side level es) (GPost c va ra (ShapeB k es) st) (Err c va ra st) st
  | [] => by
    intro k st hi hk hw
    rw [grabBlocks]; exact wp_gpure hi ⟨rfl, by simp, by simp⟩
  | (e, b) :: es => by
    intro k st hi hk hw
    rw [grabBlocks]; rw [WFelifs] at hw
    refine wp_gbind (wp_grabList hev n side level b k st hi hk hw.2.1) fun e' s hs hi he => ?_
    refine wp_gbind (wp_grabBlocks hev n side level es k s hi (by rw [hs.kOf, hk]) hw.2.2)
      fun es' s hs hi hes => ?_
    refine wp_gpure hi ⟨by simp [hes.1], ?_, ?_⟩
    · rintro x hx
      rcases List.mem_cons.1 hx with rfl | hx
      · exact he.wf
      · exact hes.2.1 x hx
    · intro h x hx
      rw [ValuedBlocks, Bool.and_eq_true] at h
      rcases List.mem_cons.1 hx with rfl | hx
      · exact he.last h.1
      · exact hes.2.2 h.2 x hx
theorem wp_grabOptList (hev : Good c va ra ev) (n side level) :
    (es : Option (List Expr)) → ∀ k st,
    ClosuresWF c va ra st → kOf c va ra st = k → WFoptList k es →
    wp (grabOptList n ev side level es) (GPost c va ra (fun es' => WFoptList k es' ∧
      ∀ b, es = some b → ∃ b', es' = some b' ∧ (ValuedLast k b = true → ValuedLast k b' = true))
      st) (Err c va ra st) st
  | none => by
    intro k st hi hk hw
    rw [grabOptList]; exact wp_gpure hi ⟨hw, by simp⟩
  | some b => by
    intro k st hi hk hw
    rw [grabOptList]; rw [WFoptList] at hw
    refine wp_gbind (wp_grabList hev n side level b k st hi hk hw) fun e' s hs hi he => ?_
    exact wp_gpure hi ⟨by rw [WFoptList]; exact he.wf, fun b' hb => ⟨e', rfl, by cases hb; exact he.last⟩⟩
theorem wp_grabOpt (hev : Good c va ra ev) (n side level) : (es : Option Expr) → ∀ k st,
    ClosuresWF c va ra st → kOf c va ra st = k → WFopt k es →
    wp (grabOpt n ev side level es) (GPost c va ra (WFopt k) st) (Err c va ra st) st
  | none => by
    intro k st hi hk hw
    rw [grabOpt]; exact wp_gpure hi hw
  | some e => by
    intro k st hi hk hw
    rw [grabOpt]; rw [WFopt] at hw
    refine wp_gbind (wp_grabExpr hev n side level e k st hi hk hw) fun e' s hs hi he => ?_
    exact wp_gpure hi (by rw [WFopt]; exact he.wf)
theorem wp_grabItem (hev : Good c va ra ev) (n side level) : (it : Item) → ∀ k st,
    ClosuresWF c va ra st → kOf c va ra st = k → WFitem k it →
    wp (grabItem n ev side level it) (GPost c va ra (WFitem k) st) (Err c va ra st) st
  | .mk name sid cur t ids tids => by
    intro k st hi hk hw
    rw [grabItem]; rw [WFitem] at hw
    refine wp_gbind (wp_grabIds hev n side level ids k st hi hk hw) fun e' s hs hi he => ?_
    exact wp_gpure hi (by rw [WFitem]; exact he)
theorem wp_grabIds (hev : Good c va ra ev) (n side level) : (ids : List Id) → ∀ k st,
    ClosuresWF c va ra st → kOf c va ra st = k → WFids k ids →
    wp (grabIds n ev side level ids) (GPost c va ra (WFids k) st) (Err c va ra st) st
  | [] => by
    intro k st hi hk hw
    rw [grabIds]; exact wp_gpure hi hw
  | .str x :: r => by
    intro k st hi hk hw
    simp only [grabIds, WFids] at *
    refine wp_gbind (wp_grabIds hev n side level r k st hi hk hw) fun e' s hs hi he => ?_
    exact wp_gpure hi (by simpa only [WFids] using he)
  | .num x :: r => by
    intro k st hi hk hw
    simp only [grabIds, WFids] at *
    refine wp_gbind (wp_grabIds hev n side level r k st hi hk hw) fun e' s hs hi he => ?_
    exact wp_gpure hi (by simpa only [WFids] using he)
  | .expr e :: r => by
    intro k st hi hk hw
    simp only [grabIds, WFids] at *
    refine wp_gbind (wp_grabExpr hev n side level e k st hi hk hw.1) fun e' s hs hi he => ?_
    refine wp_gbind (wp_grabIds hev n side level r k s hi (by rw [hs.kOf, hk]) hw.2)
      fun es' s hs hi hes => ?_
    exact wp_gpure hi (by simp only [WFids]; exact ⟨he.wf, hes⟩)
end

end Dyon
