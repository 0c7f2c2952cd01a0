import Verif.Eval.SlotsEval

/-!
# Grab keeps expressions resolved

Lemmas for C24.
-/

namespace Dyon

variable {c : ECfg} {va ra : Nat → Nat} {ev ev' : Evl} {α β : Type} {st st0 : St} {Γ : Env}

/-- Two grabs agree, and what they give has a property. -/
def GRel (c : ECfg) (va ra : Nat → Nat) (Q : α → Prop) (m m' : GM α) (st : St) : Prop :=
  Rel c va ra m m' st ∧ wp m (fun r _ => ∀ a, r = .inr a → Q a) (fun _ => True) st

theorem grel_pure {Q : α → Prop} {a : α} (hc : ClosRes c va ra st) (h : Q a) :
    GRel c va ra Q (gpure a) (gpure a) st :=
  ⟨rel_pure hc, wp_pure (by rintro b ⟨⟩; exact h)⟩

theorem grel_bind {m m' : GM α} {f f' : α → GM β} {P Q : α → Prop} {Q' : β → Prop} {E}
    (hm : GRel c va ra Q m m' st) (hg : wp m (GPost c va ra P st) E st)
    (hf : ∀ a s, Same st s → ClosuresWF c va ra s → ClosRes c va ra s → P a → Q a →
      GRel c va ra Q' (f a) (f' a) s) :
    GRel c va ra Q' (gbind m f) (gbind m' f') st := by
  have hgc := wp_and hg (wp_and hm.2 hm.1.2)
  refine ⟨rel_bind hm.1 (wp_and hg hm.2) ?_, wp_bind (wp_mono hgc ?_ fun _ _ => trivial)⟩
  · rintro (x | a) s ⟨⟨hi, h⟩, hq⟩ hc
    · exact rel_pure hc
    · exact (hf a s h.1 hi hc h.2 (hq a rfl)).1
  · rintro (x | a) s ⟨⟨hi, h⟩, hq, hc⟩
    · exact wp_pure (by rintro b ⟨⟩)
    · exact (hf a s h.1 hi hc h.2 (hq a rfl)).2

/-- What grab keeps of a resolved expression. -/
structure KeptE (k : Ctx) (ar : Int → Nat) (e : Expr) (Γ₀ : Env) (os : List Env) (e' : Expr) :
    Prop where
  res : e'.Res k ar Γ₀ os
  name : ∀ op, declName op e' = declName op e
  decl : decl e' = decl e

/-- What grab keeps of a resolved item. -/
structure KeptI (k : Ctx) (ar : Int → Nat) (it : Item) (Γ₀ : Env) (os : List Env) (it' : Item) :
    Prop where
  res : RItem k ar it' Γ₀ os
  name : it'.name = it.name
  empty : it'.ids.isEmpty = it.ids.isEmpty

theorem rElifs_zip {k ar os} {Γ₀ : Env} {cs : List Expr} {bs : List (List Expr)}
    (hc : RAll k ar cs Γ₀ os) (hb : ∀ b ∈ bs, RSeq k ar b Γ₀ os) :
    RElifs k ar (cs.zip bs) Γ₀ os := by
  induction cs generalizing bs with
  | nil => simp [RElifs]
  | cons e cs ih =>
    rw [RAll] at hc
    cases bs with
    | nil => simp [RElifs]
    | cons b bs =>
      simp only [List.zip_cons_cons, RElifs]
      exact ⟨hc.1, hb b (by simp), ih hc.2 fun b h => hb b (by simp [h])⟩

theorem argLen_congr {es es' : List Expr} (h : es'.map Expr.width = es.map Expr.width) :
    argLen es' = argLen es := by rw [argLen, argLen, h]

/-- The expressions of `:=` on a plain name are not touched. -/
theorem grab_declared {n ev side level op l x} (h : declName op l = some x) :
    grabExpr n ev side level l = gpure l := by
  unfold declName at h
  split at h
  · rename_i it
    cases it with
    | mk name sid cur t ids tids =>
      cases ids with
      | nil =>
        rw [grabExpr, grabItem, grabIds]
        rfl
      | cons i is => simp [Item.ids] at h
  · cases h

section
variable (hg : Good c va ra ev) (ha : Agrees c va ra ev ev') (n : Nat) (side : Side)
include hg ha

mutual
theorem grel_grabExpr : (e : Expr) → ∀ level k ar st Γ Γ₀ os, ClosuresWF c va ra st →
    ClosRes c va ra st → kOf c va ra st = k → arOf c st = ar → Aligned Γ st →
    level = os.length + 1 → e.WF k → e.Res k ar Γ₀ (os ++ [Γ]) →
    GRel c va ra (KeptE k ar e Γ₀ os) (grabExpr n ev side level e) (grabExpr n ev' side level e) st
  | .grab l e => by
    intro level k ar st Γ Γ₀ os hi hc hk hr hal hl hw hres
    rw [Expr.WF] at hw
    rw [Expr.Res] at hres
    obtain ⟨h0, Γ', hΓ, he⟩ := hres
    rw [grabExpr, grabExpr]
    by_cases hll : l = level
    · simp only [hll, if_true]
      have hl1 : l - 1 = os.length := by omega
      rw [hl1, List.getElem?_concat_length] at hΓ
      cases hΓ
      refine ⟨rel_wantK hg ha hi hc (by rw [hk]; exact hw) (by rw [hk, hr]; exact he) hal
        (fun x s hc => rel_pure hc) fun v s hs hi hc => ?_, ?_⟩
      · exact rel_quiet (.cloneE _ _) hi hc fun _ _ _ _ hc => rel_pure hc
      · refine wp_mono (wp_wantK (st0 := st) hg .rfl hi (by rw [hk]; exact hw)
          (fun x s _ _ => wp_pure (by rintro _ ⟨⟩)) fun v s hs hi => ?_) (fun _ _ h => h)
          fun _ _ => trivial
        refine wp_quiet (.cloneE _ _) hs.extE hi fun w t ht hi => wp_pure ?_
        rintro e' ⟨⟩
        exact ⟨by simp [Expr.Res], fun _ => by simp [declName], rfl⟩
    · simp only [hll, if_false]
      refine grel_pure hc ⟨?_, fun _ => rfl, rfl⟩
      rw [Expr.Res]
      refine ⟨h0, Γ', ?_, he⟩
      have : l - 1 < (os ++ [Γ]).length := (List.getElem?_eq_some_iff.1 hΓ).1
      rw [List.getElem?_append_left (by simp at this; omega)] at hΓ
      exact hΓ
  | .retVoid => by
    intro level k ar st Γ Γ₀ os hi hc hk hr hal hl hw hres
    rw [grabExpr, grabExpr]
    exact grel_pure hc ⟨by simp [Expr.Res], fun _ => rfl, rfl⟩
  | .brk l => by
    intro level k ar st Γ Γ₀ os hi hc hk hr hal hl hw hres
    rw [grabExpr, grabExpr]
    exact grel_pure hc ⟨by simp [Expr.Res], fun _ => rfl, rfl⟩
  | .cont l => by
    intro level k ar st Γ Γ₀ os hi hc hk hr hal hl hw hres
    rw [grabExpr, grabExpr]
    exact grel_pure hc ⟨by simp [Expr.Res], fun _ => rfl, rfl⟩
  | .const v => by
    intro level k ar st Γ Γ₀ os hi hc hk hr hal hl hw hres
    rw [grabExpr, grabExpr]
    exact grel_pure hc ⟨by simp [Expr.Res], fun _ => rfl, rfl⟩
  | .in_ f => by
    intro level k ar st Γ Γ₀ os hi hc hk hr hal hl hw hres
    rw [grabExpr, grabExpr]
    exact grel_pure hc ⟨by simp [Expr.Res], fun _ => rfl, rfl⟩
  | .ret e => by
    intro level k ar st Γ Γ₀ os hi hc hk hr hal hl hw hres
    rw [Expr.WF] at hw
    rw [Expr.Res] at hres
    rw [grabExpr, grabExpr]
    refine grel_bind (grel_grabExpr e level k ar st Γ Γ₀ os hi hc hk hr hal hl hw hres)
      (wp_grabExpr hg n side level e k st hi hk hw) fun e' s0 hs0 hi hc hp0 hq0 => ?_
    have hk0 : kOf c va ra s0 = k := hs0.kOf.trans hk
    have hr0 : arOf c s0 = ar := hs0.arOf.trans hr
    have hal0 := hal.same hs0
    exact grel_pure hc ⟨by rw [Expr.Res]; exact hq0.res, fun _ => by simp [declName], rfl⟩
  | .try_ e => by
    intro level k ar st Γ Γ₀ os hi hc hk hr hal hl hw hres
    rw [Expr.WF] at hw
    rw [Expr.Res] at hres
    rw [grabExpr, grabExpr]
    refine grel_bind (grel_grabExpr e level k ar st Γ Γ₀ os hi hc hk hr hal hl hw hres)
      (wp_grabExpr hg n side level e k st hi hk hw) fun e' s0 hs0 hi hc hp0 hq0 => ?_
    have hk0 : kOf c va ra s0 = k := hs0.kOf.trans hk
    have hr0 : arOf c s0 = ar := hs0.arOf.trans hr
    have hal0 := hal.same hs0
    exact grel_pure hc ⟨by rw [Expr.Res]; exact hq0.res, fun _ => by simp [declName], rfl⟩
  | .swizzle sel e => by
    intro level k ar st Γ Γ₀ os hi hc hk hr hal hl hw hres
    rw [Expr.WF] at hw
    rw [Expr.Res] at hres
    rw [grabExpr, grabExpr]
    refine grel_bind (grel_grabExpr e level k ar st Γ Γ₀ os hi hc hk hr hal hl hw hres)
      (wp_grabExpr hg n side level e k st hi hk hw) fun e' s0 hs0 hi hc hp0 hq0 => ?_
    have hk0 : kOf c va ra s0 = k := hs0.kOf.trans hk
    have hr0 : arOf c s0 = ar := hs0.arOf.trans hr
    have hal0 := hal.same hs0
    exact grel_pure hc ⟨by rw [Expr.Res]; exact hq0.res, fun _ => by simp [declName], rfl⟩
  | .tryExpr e => by
    intro level k ar st Γ Γ₀ os hi hc hk hr hal hl hw hres
    rw [Expr.WF] at hw
    rw [Expr.Res] at hres
    rw [grabExpr, grabExpr]
    refine grel_bind (grel_grabExpr e level k ar st Γ Γ₀ os hi hc hk hr hal hl hw hres)
      (wp_grabExpr hg n side level e k st hi hk hw) fun e' s0 hs0 hi hc hp0 hq0 => ?_
    have hk0 : kOf c va ra s0 = k := hs0.kOf.trans hk
    have hr0 : arOf c s0 = ar := hs0.arOf.trans hr
    have hal0 := hal.same hs0
    exact grel_pure hc ⟨by rw [Expr.Res]; exact hq0.res, fun _ => by simp [declName], rfl⟩
  | .closure args cur r f e => by
    intro level k ar st Γ Γ₀ os hi hc hk hr hal hl hw hres
    rw [Expr.WF] at hw
    rw [Expr.Res] at hres
    rw [grabExpr, grabExpr]
    refine grel_bind (grel_grabExpr e (level + 1) k ar st Γ (fnEnv r args cur) (Γ₀ :: os) hi hc hk hr hal (by simp [hl]) hw hres.2.2)
      (wp_grabExpr hg n side (level + 1) e k st hi hk hw) fun e' s0 hs0 hi hc hp0 hq0 => ?_
    have hk0 : kOf c va ra s0 = k := hs0.kOf.trans hk
    have hr0 : arOf c s0 = ar := hs0.arOf.trans hr
    have hal0 := hal.same hs0
    exact grel_pure hc ⟨by rw [Expr.Res]; exact ⟨hres.1, hres.2.1, hq0.res⟩, fun _ => by simp [declName], rfl⟩
  | .item it => by
    intro level k ar st Γ Γ₀ os hi hc hk hr hal hl hw hres
    rw [Expr.WF] at hw
    rw [Expr.Res] at hres
    rw [grabExpr, grabExpr]
    refine grel_bind (grel_grabItem it level k ar st Γ Γ₀ os hi hc hk hr hal hl hw hres)
      (wp_grabItem hg n side level it k st hi hk hw) fun it' s0 hs0 hi hc hp0 hq0 => ?_
    have hk0 : kOf c va ra s0 = k := hs0.kOf.trans hk
    have hr0 : arOf c s0 = ar := hs0.arOf.trans hr
    have hal0 := hal.same hs0
    refine grel_pure hc ⟨by rw [Expr.Res]; exact hq0.res, fun op => ?_, rfl⟩
    cases op <;> simp [declName, hq0.name, hq0.empty]
  | .block es => by
    intro level k ar st Γ Γ₀ os hi hc hk hr hal hl hw hres
    rw [Expr.WF] at hw
    rw [Expr.Res] at hres
    rw [grabExpr, grabExpr]
    refine grel_bind (grel_grabSeq es level k ar st Γ Γ₀ os hi hc hk hr hal hl hw hres)
      (wp_grabList hg n side level es k st hi hk hw) fun es' s0 hs0 hi hc hp0 hq0 => ?_
    have hk0 : kOf c va ra s0 = k := hs0.kOf.trans hk
    have hr0 : arOf c s0 = ar := hs0.arOf.trans hr
    have hal0 := hal.same hs0
    exact grel_pure hc ⟨by rw [Expr.Res]; exact hq0, fun _ => by simp [declName], rfl⟩
  | .link es => by
    intro level k ar st Γ Γ₀ os hi hc hk hr hal hl hw hres
    rw [Expr.WF] at hw
    rw [Expr.Res] at hres
    rw [grabExpr, grabExpr]
    refine grel_bind (grel_grabSeq es level k ar st Γ Γ₀ os hi hc hk hr hal hl hw hres)
      (wp_grabList hg n side level es k st hi hk hw) fun es' s0 hs0 hi hc hp0 hq0 => ?_
    have hk0 : kOf c va ra s0 = k := hs0.kOf.trans hk
    have hr0 : arOf c s0 = ar := hs0.arOf.trans hr
    have hal0 := hal.same hs0
    exact grel_pure hc ⟨by rw [Expr.Res]; exact hq0, fun _ => by simp [declName], rfl⟩
  | .array es => by
    intro level k ar st Γ Γ₀ os hi hc hk hr hal hl hw hres
    rw [Expr.WF] at hw
    rw [Expr.Res] at hres
    rw [grabExpr, grabExpr]
    refine grel_bind (grel_grabAll es level k ar st Γ Γ₀ os hi hc hk hr hal hl hw hres)
      (wp_grabList hg n side level es k st hi hk hw) fun es' s0 hs0 hi hc hp0 hq0 => ?_
    have hk0 : kOf c va ra s0 = k := hs0.kOf.trans hk
    have hr0 : arOf c s0 = ar := hs0.arOf.trans hr
    have hal0 := hal.same hs0
    exact grel_pure hc ⟨by rw [Expr.Res]; exact hq0, fun _ => by simp [declName], rfl⟩
  | .object es => by
    intro level k ar st Γ Γ₀ os hi hc hk hr hal hl hw hres
    rw [Expr.WF] at hw
    rw [Expr.Res] at hres
    rw [grabExpr, grabExpr]
    refine grel_bind (grel_grabKVs es level k ar st Γ Γ₀ os hi hc hk hr hal hl hw hres)
      (wp_grabKVs hg n side level es k st hi hk hw) fun es' s0 hs0 hi hc hp0 hq0 => ?_
    have hk0 : kOf c va ra s0 = k := hs0.kOf.trans hk
    have hr0 : arOf c s0 = ar := hs0.arOf.trans hr
    have hal0 := hal.same hs0
    exact grel_pure hc ⟨by rw [Expr.Res]; exact hq0, fun _ => by simp [declName], rfl⟩
  | .vec4 es => by
    intro level k ar st Γ Γ₀ os hi hc hk hr hal hl hw hres
    rw [Expr.WF] at hw
    rw [Expr.Res] at hres
    rw [grabExpr, grabExpr]
    refine grel_bind (grel_grabArgs es level k ar st Γ Γ₀ os hi hc hk hr hal hl hw.1 hres)
      (wp_grabList hg n side level es k st hi hk hw.1) fun es' s0 hs0 hi hc hp0 hq0 => ?_
    have hk0 : kOf c va ra s0 = k := hs0.kOf.trans hk
    have hr0 : arOf c s0 = ar := hs0.arOf.trans hr
    have hal0 := hal.same hs0
    exact grel_pure hc ⟨by rw [Expr.Res]; exact hq0, fun _ => by simp [declName], rfl⟩
  | .mat4 es => by
    intro level k ar st Γ Γ₀ os hi hc hk hr hal hl hw hres
    rw [Expr.WF] at hw
    rw [Expr.Res] at hres
    rw [grabExpr, grabExpr]
    refine grel_bind (grel_grabArgs es level k ar st Γ Γ₀ os hi hc hk hr hal hl hw.1 hres)
      (wp_grabList hg n side level es k st hi hk hw.1) fun es' s0 hs0 hi hc hp0 hq0 => ?_
    have hk0 : kOf c va ra s0 = k := hs0.kOf.trans hk
    have hr0 : arOf c s0 = ar := hs0.arOf.trans hr
    have hal0 := hal.same hs0
    exact grel_pure hc ⟨by rw [Expr.Res]; exact hq0, fun _ => by simp [declName], rfl⟩
  | .go name es => by
    intro level k ar st Γ Γ₀ os hi hc hk hr hal hl hw hres
    rw [Expr.WF] at hw
    rw [Expr.Res] at hres
    rw [grabExpr, grabExpr]
    refine grel_bind (grel_grabAll es level k ar st Γ Γ₀ os hi hc hk hr hal hl hw hres)
      (wp_grabList hg n side level es k st hi hk hw) fun es' s0 hs0 hi hc hp0 hq0 => ?_
    have hk0 : kOf c va ra s0 = k := hs0.kOf.trans hk
    have hr0 : arOf c s0 = ar := hs0.arOf.trans hr
    have hal0 := hal.same hs0
    exact grel_pure hc ⟨by rw [Expr.Res]; exact hq0, fun _ => by simp [declName], rfl⟩
  | .assign op l r => by
    intro level k ar st Γ Γ₀ os hi hc hk hr hal hl hw hres
    rw [Expr.WF] at hw
    rw [Expr.Res] at hres
    rw [grabExpr, grabExpr]
    cases hd : declName op l with
    | some x =>
      rw [grab_declared hd, grab_declared hd]
      refine grel_bind (Q := fun l' => l' = l) (grel_pure hc rfl)
        (wp_gpure (P := fun l' => l' = l) hi rfl) fun l' s0 hs0 hi hc _ hl' => ?_
      subst hl'
      have hk0 : kOf c va ra s0 = k := hs0.kOf.trans hk
      have hr0 : arOf c s0 = ar := hs0.arOf.trans hr
      refine grel_bind (grel_grabExpr r level k ar s0 Γ Γ₀ os hi hc hk0 hr0 (hal.same hs0) hl hw.2
        hres.1) (wp_grabExpr hg n side level r k s0 hi hk0 hw.2) fun r' s1 hs1 hi hc hp1 hq1 => ?_
      refine grel_pure hc ⟨?_, fun _ => by simp [declName], by simp [decl]⟩
      rw [Expr.Res]
      exact ⟨hq1.res, fun h => by rw [hd] at h; cases h⟩
    | none =>
      refine grel_bind (grel_grabExpr l level k ar st Γ Γ₀ os hi hc hk hr hal hl hw.1
        (hres.2 hd)) (wp_grabExpr hg n side level l k st hi hk hw.1) fun l' s0 hs0 hi hc hp0 hq0 => ?_
      have hk0 : kOf c va ra s0 = k := hs0.kOf.trans hk
      have hr0 : arOf c s0 = ar := hs0.arOf.trans hr
      refine grel_bind (grel_grabExpr r level k ar s0 Γ Γ₀ os hi hc hk0 hr0 (hal.same hs0) hl hw.2
        hres.1) (wp_grabExpr hg n side level r k s0 hi hk0 hw.2) fun r' s1 hs1 hi hc hp1 hq1 => ?_
      refine grel_pure hc ⟨?_, fun _ => by simp [declName], by simp [decl, hq0.name]⟩
      rw [Expr.Res]
      exact ⟨hq1.res, fun _ => hq0.res⟩
  | .ite cnd t elifs els => by
    intro level k ar st Γ Γ₀ os hi hc hk hr hal hl hw hres
    rw [Expr.WF] at hw
    rw [Expr.Res] at hres
    rw [grabExpr, grabExpr]
    refine grel_bind (grel_grabExpr cnd level k ar st Γ Γ₀ os hi hc hk hr hal hl hw.1 hres.1)
      (wp_grabExpr hg n side level cnd k st hi hk hw.1) fun c' s0 hs0 hi hc hp0 hq0 => ?_
    have hk0 : kOf c va ra s0 = k := hs0.kOf.trans hk
    have hr0 : arOf c s0 = ar := hs0.arOf.trans hr
    have hal0 := hal.same hs0
    refine grel_bind (grel_grabSeq t level k ar s0 Γ Γ₀ os hi hc hk0 hr0 hal0 hl hw.2.1 hres.2.1)
      (wp_grabList hg n side level t k s0 hi hk0 hw.2.1) fun t' s1 hs1 hi hc hp1 hq1 => ?_
    have hk1 : kOf c va ra s1 = k := hs1.kOf.trans hk0
    have hr1 : arOf c s1 = ar := hs1.arOf.trans hr0
    have hal1 := hal0.same hs1
    refine grel_bind (grel_grabConds elifs level k ar s1 Γ Γ₀ os hi hc hk1 hr1 hal1 hl hw.2.2.1 hres.2.2.1)
      (wp_grabConds hg n side level elifs k s1 hi hk1 hw.2.2.1) fun cs' s2 hs2 hi hc hp2 hq2 => ?_
    have hk2 : kOf c va ra s2 = k := hs2.kOf.trans hk1
    have hr2 : arOf c s2 = ar := hs2.arOf.trans hr1
    have hal2 := hal1.same hs2
    refine grel_bind (grel_grabBlocks elifs level k ar s2 Γ Γ₀ os hi hc hk2 hr2 hal2 hl hw.2.2.1 hres.2.2.1)
      (wp_grabBlocks hg n side level elifs k s2 hi hk2 hw.2.2.1) fun bs' s3 hs3 hi hc hp3 hq3 => ?_
    have hk3 : kOf c va ra s3 = k := hs3.kOf.trans hk2
    have hr3 : arOf c s3 = ar := hs3.arOf.trans hr2
    have hal3 := hal2.same hs3
    refine grel_bind (grel_grabOptSeq els level k ar s3 Γ Γ₀ os hi hc hk3 hr3 hal3 hl hw.2.2.2 hres.2.2.2)
      (wp_grabOptList hg n side level els k s3 hi hk3 hw.2.2.2) fun els' s4 hs4 hi hc hp4 hq4 => ?_
    have hk4 : kOf c va ra s4 = k := hs4.kOf.trans hk3
    have hr4 : arOf c s4 = ar := hs4.arOf.trans hr3
    have hal4 := hal3.same hs4
    exact grel_pure hc ⟨by rw [Expr.Res]; exact ⟨hq0.res, hq1, rElifs_zip hq2 hq3, hq4⟩, fun _ => by simp [declName], rfl⟩
  | .call f name args => by
    intro level k ar st Γ Γ₀ os hi hc hk hr hal hl hw hres
    have hw1 : WFs k args := by cases f <;> simp only [Expr.WF] at hw <;> exact hw.1
    rw [grabExpr, grabExpr]
    have hsh := wp_grabList hg n side level args k st hi hk hw1
    have done : ∀ {a' s}, ClosRes c va ra s → (Expr.call f name a').Res k ar Γ₀ os →
        GRel c va ra (KeptE k ar (.call f name args) Γ₀ os) (gpure (.call f name a'))
          (gpure (.call f name a')) s :=
      fun hc h => grel_pure hc ⟨h, fun _ => by simp [declName], rfl⟩
    cases f with
    | binop f =>
      simp only [Expr.Res] at hres
      refine grel_bind (grel_grabAll args level k ar st Γ Γ₀ os hi hc hk hr hal hl hw1 hres.1) hsh
        fun a' s hs hi hc hp hq => done hc ?_
      simp only [Expr.Res]
      exact ⟨hq, trivial⟩
    | loaded f =>
      simp only [Expr.Res] at hres
      refine grel_bind (grel_grabArgs args level k ar st Γ _ os hi hc hk hr hal hl hw1 hres.1) hsh
        fun a' s hs hi hc hp hq => done hc ?_
      simp only [Expr.Res]
      exact ⟨hq, by rw [argLen_congr hp.widths]; exact hres.2.1, hp.vec hres.2.2⟩
    | _ =>
      simp only [Expr.Res] at hres
      refine grel_bind (grel_grabArgs args level k ar st Γ _ os hi hc hk hr hal hl hw1 hres.1) hsh
        fun a' s hs hi hc hp hq => done hc ?_
      simp only [Expr.Res]
      exact ⟨hq, trivial⟩
  | .callClosure it args => by
    intro level k ar st Γ Γ₀ os hi hc hk hr hal hl hw hres
    rw [Expr.WF] at hw
    rw [Expr.Res] at hres
    rw [grabExpr, grabExpr]
    refine grel_bind (grel_grabItem it level k ar st Γ Γ₀ os hi hc hk hr hal hl hw.1 hres.1)
      (wp_grabItem hg n side level it k st hi hk hw.1) fun it' s0 hs0 hi hc hp0 hq0 => ?_
    have hk0 : kOf c va ra s0 = k := hs0.kOf.trans hk
    have hr0 : arOf c s0 = ar := hs0.arOf.trans hr
    have hal0 := hal.same hs0
    refine grel_bind (grel_grabArgs args level k ar s0 Γ (Γ₀ ++ [none]) os hi hc hk0 hr0 hal0 hl hw.2 hres.2.2)
      (wp_grabList hg n side level args k s0 hi hk0 hw.2) fun a' s1 hs1 hi hc hp1 hq1 => ?_
    have hk1 : kOf c va ra s1 = k := hs1.kOf.trans hk0
    have hr1 : arOf c s1 = ar := hs1.arOf.trans hr0
    have hal1 := hal0.same hs1
    exact grel_pure hc ⟨by rw [Expr.Res]; exact ⟨hq0.res, hp1.vec hres.2.1, hq1⟩, fun _ => by simp [declName], rfl⟩
  | .forN kd name start stop body label => by
    intro level k ar st Γ Γ₀ os hi hc hk hr hal hl hw hres
    rw [Expr.WF] at hw
    rw [Expr.Res] at hres
    rw [grabExpr, grabExpr]
    refine grel_bind (grel_grabOpt start level k ar st Γ Γ₀ os hi hc hk hr hal hl hw.1 hres.1)
      (wp_grabOpt hg n side level start k st hi hk hw.1) fun a' s0 hs0 hi hc hp0 hq0 => ?_
    have hk0 : kOf c va ra s0 = k := hs0.kOf.trans hk
    have hr0 : arOf c s0 = ar := hs0.arOf.trans hr
    have hal0 := hal.same hs0
    refine grel_bind (grel_grabExpr stop level k ar s0 Γ Γ₀ os hi hc hk0 hr0 hal0 hl hw.2.1 hres.2.1)
      (wp_grabExpr hg n side level stop k s0 hi hk0 hw.2.1) fun b' s1 hs1 hi hc hp1 hq1 => ?_
    have hk1 : kOf c va ra s1 = k := hs1.kOf.trans hk0
    have hr1 : arOf c s1 = ar := hs1.arOf.trans hr0
    have hal1 := hal0.same hs1
    refine grel_bind (grel_grabSeq body level k ar s1 Γ (Γ₀ ++ [some name]) os hi hc hk1 hr1 hal1 hl hw.2.2.1 hres.2.2)
      (wp_grabList hg n side level body k s1 hi hk1 hw.2.2.1) fun c' s2 hs2 hi hc hp2 hq2 => ?_
    have hk2 : kOf c va ra s2 = k := hs2.kOf.trans hk1
    have hr2 : arOf c s2 = ar := hs2.arOf.trans hr1
    have hal2 := hal1.same hs2
    exact grel_pure hc ⟨by rw [Expr.Res]; exact ⟨hq0, hq1.res, hq2⟩, fun _ => by simp [declName], rfl⟩
  | .forIn kd name iter body label => by
    intro level k ar st Γ Γ₀ os hi hc hk hr hal hl hw hres
    rw [Expr.WF] at hw
    rw [Expr.Res] at hres
    rw [grabExpr, grabExpr]
    refine grel_bind (grel_grabExpr iter level k ar st Γ Γ₀ os hi hc hk hr hal hl hw.1 hres.1)
      (wp_grabExpr hg n side level iter k st hi hk hw.1) fun b' s0 hs0 hi hc hp0 hq0 => ?_
    have hk0 : kOf c va ra s0 = k := hs0.kOf.trans hk
    have hr0 : arOf c s0 = ar := hs0.arOf.trans hr
    have hal0 := hal.same hs0
    refine grel_bind (grel_grabSeq body level k ar s0 Γ (Γ₀ ++ [some name]) os hi hc hk0 hr0 hal0 hl hw.2.1 hres.2)
      (wp_grabList hg n side level body k s0 hi hk0 hw.2.1) fun c' s1 hs1 hi hc hp1 hq1 => ?_
    have hk1 : kOf c va ra s1 = k := hs1.kOf.trans hk0
    have hr1 : arOf c s1 = ar := hs1.arOf.trans hr0
    have hal1 := hal0.same hs1
    exact grel_pure hc ⟨by rw [Expr.Res]; exact ⟨hq0.res, hq1⟩, fun _ => by simp [declName], rfl⟩
  | .arrayFill f m => by
    intro level k ar st Γ Γ₀ os hi hc hk hr hal hl hw hres
    rw [Expr.WF] at hw
    rw [Expr.Res] at hres
    rw [grabExpr, grabExpr]
    refine grel_bind (grel_grabExpr f level k ar st Γ Γ₀ os hi hc hk hr hal hl hw.1 hres.1)
      (wp_grabExpr hg n side level f k st hi hk hw.1) fun a' s0 hs0 hi hc hp0 hq0 => ?_
    have hk0 : kOf c va ra s0 = k := hs0.kOf.trans hk
    have hr0 : arOf c s0 = ar := hs0.arOf.trans hr
    have hal0 := hal.same hs0
    refine grel_bind (grel_grabExpr m level k ar s0 Γ Γ₀ os hi hc hk0 hr0 hal0 hl hw.2 hres.2)
      (wp_grabExpr hg n side level m k s0 hi hk0 hw.2) fun b' s1 hs1 hi hc hp1 hq1 => ?_
    have hk1 : kOf c va ra s1 = k := hs1.kOf.trans hk0
    have hr1 : arOf c s1 = ar := hs1.arOf.trans hr0
    have hal1 := hal0.same hs1
    exact grel_pure hc ⟨by rw [Expr.Res]; exact ⟨hq0.res, hq1.res⟩, fun _ => by simp [declName], rfl⟩
  | .for_ i cnd stp b label => by
    intro level k ar st Γ Γ₀ os hi hc hk hr hal hl hw hres
    rw [Expr.WF] at hw
    rw [Expr.Res] at hres
    rw [grabExpr, grabExpr]
    refine grel_bind (grel_grabExpr i level k ar st Γ Γ₀ os hi hc hk hr hal hl hw.1 hres.1)
      (wp_grabExpr hg n side level i k st hi hk hw.1) fun i' s0 hs0 hi hc hp0 hq0 => ?_
    have hk0 : kOf c va ra s0 = k := hs0.kOf.trans hk
    have hr0 : arOf c s0 = ar := hs0.arOf.trans hr
    have hal0 := hal.same hs0
    refine grel_bind (grel_grabExpr cnd level k ar s0 Γ (Γ₀ ++ decl i) os hi hc hk0 hr0 hal0 hl hw.2.1 hres.2.2.1)
      (wp_grabExpr hg n side level cnd k s0 hi hk0 hw.2.1) fun c' s1 hs1 hi hc hp1 hq1 => ?_
    have hk1 : kOf c va ra s1 = k := hs1.kOf.trans hk0
    have hr1 : arOf c s1 = ar := hs1.arOf.trans hr0
    have hal1 := hal0.same hs1
    refine grel_bind (grel_grabExpr stp level k ar s1 Γ (Γ₀ ++ decl i) os hi hc hk1 hr1 hal1 hl hw.2.2.1 hres.2.2.2.1)
      (wp_grabExpr hg n side level stp k s1 hi hk1 hw.2.2.1) fun s' s2 hs2 hi hc hp2 hq2 => ?_
    have hk2 : kOf c va ra s2 = k := hs2.kOf.trans hk1
    have hr2 : arOf c s2 = ar := hs2.arOf.trans hr1
    have hal2 := hal1.same hs2
    refine grel_bind (grel_grabSeq b level k ar s2 Γ (Γ₀ ++ decl i) os hi hc hk2 hr2 hal2 hl hw.2.2.2 hres.2.2.2.2.2.2)
      (wp_grabList hg n side level b k s2 hi hk2 hw.2.2.2) fun b' s3 hs3 hi hc hp3 hq3 => ?_
    have hk3 : kOf c va ra s3 = k := hs3.kOf.trans hk2
    have hr3 : arOf c s3 = ar := hs3.arOf.trans hr2
    have hal3 := hal2.same hs3
    refine grel_pure hc ⟨?_, fun _ => by simp [declName], rfl⟩
    rw [Expr.Res, hq0.decl, hq2.decl, hp0.swizzle, hp2.swizzle]
    exact ⟨hq0.res, hres.2.1, hq1.res, hq2.res, hres.2.2.2.2.1, hres.2.2.2.2.2.1, hq3⟩
theorem grel_grabSeq : (e : List Expr) → ∀ level k ar st Γ Γ₀ os, ClosuresWF c va ra st →
    ClosRes c va ra st → kOf c va ra st = k → arOf c st = ar → Aligned Γ st →
    level = os.length + 1 → WFs k e → RSeq k ar e Γ₀ (os ++ [Γ]) →
    GRel c va ra (fun es' => RSeq k ar es' Γ₀ os) (grabList n ev side level e) (grabList n ev' side level e) st
  | [] => by
    intro level k ar st Γ Γ₀ os hi hc hk hr hal hl hw hres
    rw [grabList, grabList]
    exact grel_pure hc (by simp [RSeq])
  | e :: es => by
    intro level k ar st Γ Γ₀ os hi hc hk hr hal hl hw hres
    rw [WFs] at hw
    rw [RSeq] at hres
    rw [grabList, grabList]
    refine grel_bind (grel_grabExpr e level k ar st Γ Γ₀ os hi hc hk hr hal hl hw.1 hres.1)
      (wp_grabExpr hg n side level e k st hi hk hw.1) fun e' s0 hs0 hi hc hp0 hq0 => ?_
    have hk0 : kOf c va ra s0 = k := hs0.kOf.trans hk
    have hr0 : arOf c s0 = ar := hs0.arOf.trans hr
    have hal0 := hal.same hs0
    refine grel_bind (grel_grabSeq es level k ar s0 Γ (Γ₀ ++ decl e) os hi hc hk0 hr0 hal0 hl hw.2 hres.2.2)
      (wp_grabList hg n side level es k s0 hi hk0 hw.2) fun es' s1 hs1 hi hc hp1 hq1 => ?_
    have hk1 : kOf c va ra s1 = k := hs1.kOf.trans hk0
    have hr1 : arOf c s1 = ar := hs1.arOf.trans hr0
    have hal1 := hal0.same hs1
    refine grel_pure hc ?_
    rw [RSeq, hq0.decl, hp0.swizzle]
    exact ⟨hq0.res, hres.2.1, hq1⟩
theorem grel_grabAll : (e : List Expr) → ∀ level k ar st Γ Γ₀ os, ClosuresWF c va ra st →
    ClosRes c va ra st → kOf c va ra st = k → arOf c st = ar → Aligned Γ st →
    level = os.length + 1 → WFs k e → RAll k ar e Γ₀ (os ++ [Γ]) →
    GRel c va ra (fun es' => RAll k ar es' Γ₀ os) (grabList n ev side level e) (grabList n ev' side level e) st
  | [] => by
    intro level k ar st Γ Γ₀ os hi hc hk hr hal hl hw hres
    rw [grabList, grabList]
    exact grel_pure hc (by simp [RAll])
  | e :: es => by
    intro level k ar st Γ Γ₀ os hi hc hk hr hal hl hw hres
    rw [WFs] at hw
    rw [RAll] at hres
    rw [grabList, grabList]
    refine grel_bind (grel_grabExpr e level k ar st Γ Γ₀ os hi hc hk hr hal hl hw.1 hres.1)
      (wp_grabExpr hg n side level e k st hi hk hw.1) fun e' s0 hs0 hi hc hp0 hq0 => ?_
    have hk0 : kOf c va ra s0 = k := hs0.kOf.trans hk
    have hr0 : arOf c s0 = ar := hs0.arOf.trans hr
    have hal0 := hal.same hs0
    refine grel_bind (grel_grabAll es level k ar s0 Γ Γ₀ os hi hc hk0 hr0 hal0 hl hw.2 hres.2)
      (wp_grabList hg n side level es k s0 hi hk0 hw.2) fun es' s1 hs1 hi hc hp1 hq1 => ?_
    have hk1 : kOf c va ra s1 = k := hs1.kOf.trans hk0
    have hr1 : arOf c s1 = ar := hs1.arOf.trans hr0
    have hal1 := hal0.same hs1
    refine grel_pure hc ?_
    rw [RAll]
    exact ⟨hq0.res, hq1⟩
theorem grel_grabArgs : (e : List Expr) → ∀ level k ar st Γ Γ₀ os, ClosuresWF c va ra st →
    ClosRes c va ra st → kOf c va ra st = k → arOf c st = ar → Aligned Γ st →
    level = os.length + 1 → WFs k e → RArgs k ar e Γ₀ (os ++ [Γ]) →
    GRel c va ra (fun es' => RArgs k ar es' Γ₀ os) (grabList n ev side level e) (grabList n ev' side level e) st
  | [] => by
    intro level k ar st Γ Γ₀ os hi hc hk hr hal hl hw hres
    rw [grabList, grabList]
    exact grel_pure hc (by simp [RArgs])
  | e :: es => by
    intro level k ar st Γ Γ₀ os hi hc hk hr hal hl hw hres
    rw [WFs] at hw
    rw [RArgs] at hres
    rw [grabList, grabList]
    refine grel_bind (grel_grabExpr e level k ar st Γ Γ₀ os hi hc hk hr hal hl hw.1 hres.1)
      (wp_grabExpr hg n side level e k st hi hk hw.1) fun e' s0 hs0 hi hc hp0 hq0 => ?_
    have hk0 : kOf c va ra s0 = k := hs0.kOf.trans hk
    have hr0 : arOf c s0 = ar := hs0.arOf.trans hr
    have hal0 := hal.same hs0
    refine grel_bind (grel_grabArgs es level k ar s0 Γ (Γ₀ ++ List.replicate e.width none) os hi hc hk0 hr0 hal0 hl hw.2 hres.2)
      (wp_grabList hg n side level es k s0 hi hk0 hw.2) fun es' s1 hs1 hi hc hp1 hq1 => ?_
    have hk1 : kOf c va ra s1 = k := hs1.kOf.trans hk0
    have hr1 : arOf c s1 = ar := hs1.arOf.trans hr0
    have hal1 := hal0.same hs1
    refine grel_pure hc ?_
    rw [RArgs, hp0.width]
    exact ⟨hq0.res, hq1⟩
theorem grel_grabKVs : (e : List (String × Expr)) → ∀ level k ar st Γ Γ₀ os, ClosuresWF c va ra st →
    ClosRes c va ra st → kOf c va ra st = k → arOf c st = ar → Aligned Γ st →
    level = os.length + 1 → WFkvs k e → RKvs k ar e Γ₀ (os ++ [Γ]) →
    GRel c va ra (fun es' => RKvs k ar es' Γ₀ os) (grabKVs n ev side level e) (grabKVs n ev' side level e) st
  | [] => by
    intro level k ar st Γ Γ₀ os hi hc hk hr hal hl hw hres
    rw [grabKVs, grabKVs]
    exact grel_pure hc (by simp [RKvs])
  | (key, e) :: es => by
    intro level k ar st Γ Γ₀ os hi hc hk hr hal hl hw hres
    rw [WFkvs] at hw
    rw [RKvs] at hres
    rw [grabKVs, grabKVs]
    refine grel_bind (grel_grabExpr e level k ar st Γ Γ₀ os hi hc hk hr hal hl hw.1 hres.1)
      (wp_grabExpr hg n side level e k st hi hk hw.1) fun e' s0 hs0 hi hc hp0 hq0 => ?_
    have hk0 : kOf c va ra s0 = k := hs0.kOf.trans hk
    have hr0 : arOf c s0 = ar := hs0.arOf.trans hr
    have hal0 := hal.same hs0
    refine grel_bind (grel_grabKVs es level k ar s0 Γ Γ₀ os hi hc hk0 hr0 hal0 hl hw.2 hres.2)
      (wp_grabKVs hg n side level es k s0 hi hk0 hw.2) fun es' s1 hs1 hi hc hp1 hq1 => ?_
    have hk1 : kOf c va ra s1 = k := hs1.kOf.trans hk0
    have hr1 : arOf c s1 = ar := hs1.arOf.trans hr0
    have hal1 := hal0.same hs1
    exact grel_pure hc (by rw [RKvs]; exact ⟨hq0.res, hq1⟩)
theorem grel_grabConds : (e : List (Expr × List Expr)) → ∀ level k ar st Γ Γ₀ os, ClosuresWF c va ra st →
    ClosRes c va ra st → kOf c va ra st = k → arOf c st = ar → Aligned Γ st →
    level = os.length + 1 → WFelifs k e → RElifs k ar e Γ₀ (os ++ [Γ]) →
    GRel c va ra (fun es' => RAll k ar es' Γ₀ os) (grabConds n ev side level e) (grabConds n ev' side level e) st
  | [] => by
    intro level k ar st Γ Γ₀ os hi hc hk hr hal hl hw hres
    rw [grabConds, grabConds]
    exact grel_pure hc (by simp [RAll])
  | (e, b) :: es => by
    intro level k ar st Γ Γ₀ os hi hc hk hr hal hl hw hres
    rw [WFelifs] at hw
    rw [RElifs] at hres
    rw [grabConds, grabConds]
    refine grel_bind (grel_grabExpr e level k ar st Γ Γ₀ os hi hc hk hr hal hl hw.1 hres.1)
      (wp_grabExpr hg n side level e k st hi hk hw.1) fun e' s0 hs0 hi hc hp0 hq0 => ?_
    have hk0 : kOf c va ra s0 = k := hs0.kOf.trans hk
    have hr0 : arOf c s0 = ar := hs0.arOf.trans hr
    have hal0 := hal.same hs0
    refine grel_bind (grel_grabConds es level k ar s0 Γ Γ₀ os hi hc hk0 hr0 hal0 hl hw.2.2 hres.2.2)
      (wp_grabConds hg n side level es k s0 hi hk0 hw.2.2) fun es' s1 hs1 hi hc hp1 hq1 => ?_
    have hk1 : kOf c va ra s1 = k := hs1.kOf.trans hk0
    have hr1 : arOf c s1 = ar := hs1.arOf.trans hr0
    have hal1 := hal0.same hs1
    exact grel_pure hc (by rw [RAll]; exact ⟨hq0.res, hq1⟩)
theorem grel_grabBlocks : (e : List (Expr × List Expr)) → ∀ level k ar st Γ Γ₀ os, ClosuresWF c va ra st →
    ClosRes c va ra st → kOf c va ra st = k → arOf c st = ar → Aligned Γ st →
    level = os.length + 1 → WFelifs k e → RElifs k ar e Γ₀ (os ++ [Γ]) →
    GRel c va ra (fun bs => ∀ b ∈ bs, RSeq k ar b Γ₀ os) (grabBlocks n ev side level e) (grabBlocks n ev' side level e) st
  | [] => by
    intro level k ar st Γ Γ₀ os hi hc hk hr hal hl hw hres
    rw [grabBlocks, grabBlocks]
    exact grel_pure hc (by simp)
  | (e, b) :: es => by
    intro level k ar st Γ Γ₀ os hi hc hk hr hal hl hw hres
    rw [WFelifs] at hw
    rw [RElifs] at hres
    rw [grabBlocks, grabBlocks]
    refine grel_bind (grel_grabSeq b level k ar st Γ Γ₀ os hi hc hk hr hal hl hw.2.1 hres.2.1)
      (wp_grabList hg n side level b k st hi hk hw.2.1) fun b' s0 hs0 hi hc hp0 hq0 => ?_
    have hk0 : kOf c va ra s0 = k := hs0.kOf.trans hk
    have hr0 : arOf c s0 = ar := hs0.arOf.trans hr
    have hal0 := hal.same hs0
    refine grel_bind (grel_grabBlocks es level k ar s0 Γ Γ₀ os hi hc hk0 hr0 hal0 hl hw.2.2 hres.2.2)
      (wp_grabBlocks hg n side level es k s0 hi hk0 hw.2.2) fun es' s1 hs1 hi hc hp1 hq1 => ?_
    have hk1 : kOf c va ra s1 = k := hs1.kOf.trans hk0
    have hr1 : arOf c s1 = ar := hs1.arOf.trans hr0
    have hal1 := hal0.same hs1
    refine grel_pure hc fun x hx => ?_
    rcases List.mem_cons.1 hx with rfl | hx
    · exact hq0
    · exact hq1 x hx
theorem grel_grabOptSeq : (e : Option (List Expr)) → ∀ level k ar st Γ Γ₀ os, ClosuresWF c va ra st →
    ClosRes c va ra st → kOf c va ra st = k → arOf c st = ar → Aligned Γ st →
    level = os.length + 1 → WFoptList k e → ROptSeq k ar e Γ₀ (os ++ [Γ]) →
    GRel c va ra (fun es' => ROptSeq k ar es' Γ₀ os) (grabOptList n ev side level e) (grabOptList n ev' side level e) st
  | none => by
    intro level k ar st Γ Γ₀ os hi hc hk hr hal hl hw hres
    rw [grabOptList, grabOptList]
    exact grel_pure hc (by simp [ROptSeq])
  | some b => by
    intro level k ar st Γ Γ₀ os hi hc hk hr hal hl hw hres
    rw [WFoptList] at hw
    rw [ROptSeq] at hres
    rw [grabOptList, grabOptList]
    refine grel_bind (grel_grabSeq b level k ar st Γ Γ₀ os hi hc hk hr hal hl hw hres)
      (wp_grabList hg n side level b k st hi hk hw) fun b' s0 hs0 hi hc hp0 hq0 => ?_
    have hk0 : kOf c va ra s0 = k := hs0.kOf.trans hk
    have hr0 : arOf c s0 = ar := hs0.arOf.trans hr
    have hal0 := hal.same hs0
    exact grel_pure hc (by rw [ROptSeq]; exact hq0)
theorem grel_grabOpt : (e : Option Expr) → ∀ level k ar st Γ Γ₀ os, ClosuresWF c va ra st →
    ClosRes c va ra st → kOf c va ra st = k → arOf c st = ar → Aligned Γ st →
    level = os.length + 1 → WFopt k e → ROpt k ar e Γ₀ (os ++ [Γ]) →
    GRel c va ra (fun e' => ROpt k ar e' Γ₀ os) (grabOpt n ev side level e) (grabOpt n ev' side level e) st
  | none => by
    intro level k ar st Γ Γ₀ os hi hc hk hr hal hl hw hres
    rw [grabOpt, grabOpt]
    exact grel_pure hc (by simp [ROpt])
  | some b => by
    intro level k ar st Γ Γ₀ os hi hc hk hr hal hl hw hres
    rw [WFopt] at hw
    rw [ROpt] at hres
    rw [grabOpt, grabOpt]
    refine grel_bind (grel_grabExpr b level k ar st Γ Γ₀ os hi hc hk hr hal hl hw hres)
      (wp_grabExpr hg n side level b k st hi hk hw) fun b' s0 hs0 hi hc hp0 hq0 => ?_
    have hk0 : kOf c va ra s0 = k := hs0.kOf.trans hk
    have hr0 : arOf c s0 = ar := hs0.arOf.trans hr
    have hal0 := hal.same hs0
    exact grel_pure hc (by rw [ROpt]; exact hq0.res)
theorem grel_grabItem : (e : Item) → ∀ level k ar st Γ Γ₀ os, ClosuresWF c va ra st →
    ClosRes c va ra st → kOf c va ra st = k → arOf c st = ar → Aligned Γ st →
    level = os.length + 1 → WFitem k e → RItem k ar e Γ₀ (os ++ [Γ]) →
    GRel c va ra (KeptI k ar e Γ₀ os) (grabItem n ev side level e) (grabItem n ev' side level e) st
  | .mk name sid cur t ids tids => by
    intro level k ar st Γ Γ₀ os hi hc hk hr hal hl hw hres
    rw [WFitem] at hw
    rw [RItem] at hres
    rw [grabItem, grabItem]
    refine grel_bind (grel_grabIds ids level k ar st Γ Γ₀ os hi hc hk hr hal hl hw hres.2.2)
      (wp_grabIds hg n side level ids k st hi hk hw) fun ids' s0 hs0 hi hc hp0 hq0 => ?_
    have hk0 : kOf c va ra s0 = k := hs0.kOf.trans hk
    have hr0 : arOf c s0 = ar := hs0.arOf.trans hr
    have hal0 := hal.same hs0
    exact grel_pure hc ⟨by rw [RItem]; exact ⟨hres.1, hres.2.1, hq0.1⟩, rfl, hq0.2⟩
theorem grel_grabIds : (e : List Id) → ∀ level k ar st Γ Γ₀ os, ClosuresWF c va ra st →
    ClosRes c va ra st → kOf c va ra st = k → arOf c st = ar → Aligned Γ st →
    level = os.length + 1 → WFids k e → RIds k ar e Γ₀ (os ++ [Γ]) →
    GRel c va ra (fun is => RIds k ar is Γ₀ os ∧ is.isEmpty = e.isEmpty) (grabIds n ev side level e) (grabIds n ev' side level e) st
  | [] => by
    intro level k ar st Γ Γ₀ os hi hc hk hr hal hl hw hres
    rw [grabIds, grabIds]
    exact grel_pure hc (by simp [RIds])
  | .str x :: r => by
    intro level k ar st Γ Γ₀ os hi hc hk hr hal hl hw hres
    simp only [WFids, RIds] at hw hres
    rw [grabIds, grabIds]
    refine grel_bind (grel_grabIds r level k ar st Γ Γ₀ os hi hc hk hr hal hl hw hres)
      (wp_grabIds hg n side level r k st hi hk hw) fun r' s0 hs0 hi hc hp0 hq0 => ?_
    have hk0 : kOf c va ra s0 = k := hs0.kOf.trans hk
    have hr0 : arOf c s0 = ar := hs0.arOf.trans hr
    have hal0 := hal.same hs0
    exact grel_pure hc ⟨by simp only [RIds]; exact hq0.1, rfl⟩
  | .num x :: r => by
    intro level k ar st Γ Γ₀ os hi hc hk hr hal hl hw hres
    simp only [WFids, RIds] at hw hres
    rw [grabIds, grabIds]
    refine grel_bind (grel_grabIds r level k ar st Γ Γ₀ os hi hc hk hr hal hl hw hres)
      (wp_grabIds hg n side level r k st hi hk hw) fun r' s0 hs0 hi hc hp0 hq0 => ?_
    have hk0 : kOf c va ra s0 = k := hs0.kOf.trans hk
    have hr0 : arOf c s0 = ar := hs0.arOf.trans hr
    have hal0 := hal.same hs0
    exact grel_pure hc ⟨by simp only [RIds]; exact hq0.1, rfl⟩
  | .expr e :: r => by
    intro level k ar st Γ Γ₀ os hi hc hk hr hal hl hw hres
    simp only [WFids, RIds] at hw hres
    rw [grabIds, grabIds]
    refine grel_bind (grel_grabExpr e level k ar st Γ Γ₀ os hi hc hk hr hal hl hw.1 hres.1)
      (wp_grabExpr hg n side level e k st hi hk hw.1) fun e' s0 hs0 hi hc hp0 hq0 => ?_
    have hk0 : kOf c va ra s0 = k := hs0.kOf.trans hk
    have hr0 : arOf c s0 = ar := hs0.arOf.trans hr
    have hal0 := hal.same hs0
    refine grel_bind (grel_grabIds r level k ar s0 Γ (Γ₀ ++ [none]) os hi hc hk0 hr0 hal0 hl hw.2 hres.2)
      (wp_grabIds hg n side level r k s0 hi hk0 hw.2) fun r' s1 hs1 hi hc hp1 hq1 => ?_
    have hk1 : kOf c va ra s1 = k := hs1.kOf.trans hk0
    have hr1 : arOf c s1 = ar := hs1.arOf.trans hr0
    have hal1 := hal0.same hs1
    exact grel_pure hc ⟨by simp only [RIds]; exact ⟨hq0.res, hq1.1⟩, rfl⟩
end
end

end Dyon
