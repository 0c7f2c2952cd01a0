import Verif.Front.PlainScope
import Verif.Front.PlainInfer

/-!
# Variables of plain programs that the checker accepts are in scope in the run
-/

namespace Dyon.Plain

open Front (Src Prod' Opd ItemSrc IdSrc Var Callee FnSrc BodySrc)
open Front.Spec (app)
open Syn (BinOp callName)
open Check.Spec (Bind seen usable after afterOpt afters ranges declared plainItem itemName varNames grabLevel closureName
  leftName isVar fitsSeq fitsAll fitsWords fitsVars fitsElifs fitsElse fitsOpt fitsAdd fitsProd fitsMul fitsOpd
  fitsItem fitsIds fitsCallee)

section
variable [FloatOps] [Data.Lex] {file : String} {find : String → FnIndex} {k : Ctx} {C : String → Called}
variable {ar : Int → Nat}

/-- What is known about callees. -/
structure Known (find : String → FnIndex) (k : Ctx) (ar : Int → Nat) (C : String → Called) : Prop where
  called : ∀ name, C name = calledOf k ar (find name)
  lazy : ∀ name f inv, find name = .lazy f inv → ∀ l ∈ inv.tail, l = []

omit [FloatOps] [Data.Lex] in
theorem ok_const {E os v} : Ok find k ar E os (.const v) := ⟨trivial, trivial⟩

theorem afters_ranges {xs B Bt body} {D : List Bind} : ∀ {vars : List Var}, plainVars C xs B Bt body vars → afters (ranges vars) D = D
  | [], _ => rfl
  | .plain _ :: vs, h => by
    simp only [plainVars] at h
    simp only [ranges]
    exact afters_ranges h.2
  | .upto n b :: vs, h => by
    simp only [plainVars] at h
    simp only [ranges, afters, after_none h.1]
    exact afters_ranges h.2.2
  | .range n a b :: vs, h => by
    simp only [plainVars] at h
    simp only [ranges, afters, after_none h.1, after_none h.2.2.1]
    exact afters_ranges h.2.2.2.2

theorem after_opt {B Bt} {D : List Bind} : ∀ {o : Option Src}, plainCompOpt C B Bt o → afterOpt o D = D
  | none, _ => rfl
  | some e, h => by
    simp only [plainCompOpt] at h
    exact after_none h.1.1

theorem after_row {B Bt} {D : List Bind} : ∀ {o : Option Src}, plainRowOpt C B Bt o → afterOpt o D = D
  | none, _ => rfl
  | some e, h => by
    simp only [plainRowOpt] at h
    exact after_none h.1.1

/-- A component: how wide it is, and that it is a value or a swizzle. -/
theorem comp_shape (hk : Known find k ar C) {B Bt} {v : Val} : ∀ {o : Option Src} {e},
    Front.Spec.orElse file (.const v) o = some e → plainCompOpt C B Bt o →
    (e.looked find).width = widthOpt o ∧ (Valued k (e.looked find) || (e.looked find).isSwizzle) = true
  | none, e, h, _ => by parts h; subst h; exact ⟨rfl, rfl⟩
  | some s, e, h, hp => by
    parts h
    simp only [plainCompOpt] at hp
    obtain ⟨a, b, c, d⟩ := shape hk.called s h
    exact ⟨b, by rw [c, a]; simpa using hp.1.2⟩

/-- A row. -/
theorem row_shape (hk : Known find k ar C) {B Bt} {v : Val} : ∀ {o : Option Src} {e},
    Front.Spec.orElse file (.const v) o = some e → plainRowOpt C B Bt o →
    (e.looked find).width = 1 ∧ Valued k (e.looked find) = true
  | none, e, h, _ => by parts h; subst h; exact ⟨rfl, rfl⟩
  | some s, e, h, hp => by
    parts h
    simp only [plainRowOpt] at hp
    obtain ⟨a, b, c, d⟩ := shape hk.called s h
    exact ⟨by rw [b, hp.1.2.2]; rfl, by rw [c]; exact hp.1.2.1⟩

theorem worded_eq (file : String) : ∀ (args : List (String × Src)),
    Front.Spec.worded file args = Front.Spec.exprs file (args.map (·.2))
  | [] => rfl
  | (_, e) :: r => by simp only [Front.Spec.worded, List.map_cons, Front.Spec.exprs, worded_eq file r]

/-- A call with arguments that fit. -/
theorem fit_args (hk : Known find k ar C) {name : String} {ss : List Src} {args : List Expr}
    (h : Front.Spec.exprs file ss = some args) (hfit : fitCall C name ss) :
    match C name with
      | .nothing | .op => True
      | .own n _ => argLen (lookedList find args) = n ∧ vecArgsOk k (lookedList find args) = true
      | .host n _ => args.length = n := by
  obtain ⟨_, _, h3, h4⟩ := shapes hk.called ss h
  unfold fitCall at hfit
  cases hx : C name <;> rw [hx] at hfit <;> dsimp only at hfit ⊢
  · refine ⟨by rw [argLen, h3]; exact hfit.1, ?_⟩
    rw [h4, List.all_eq_true]
    intro s hs
    simpa using hfit.2 s hs
  · have := congrArg List.length h3
    simp only [List.length_map, lookedList_length] at this
    rw [this]
    exact hfit

omit [FloatOps] [Data.Lex] in
theorem linkBody_ok {ss : List Src} {es : List Expr} (h : Dyon.leavesAny es = leavesAny ss)
    (hd : ∀ e es', es = e :: es' → ∃ s ss', ss = s :: ss' ∧ e.leaves = leaves s) (hf : linkFirst ss) : linkBody es := by
  cases es with
  | nil => simp [linkBody]
  | cons e es =>
    cases e <;> simp only [linkBody]
    case link items =>
      obtain ⟨s, ss', rfl, h1⟩ := hd _ _ rfl
      simp only [linkFirst] at hf
      rw [hf, Expr.leaves] at h1
      intro x hx
      clear h hd hf
      induction items with
      | nil => simp at hx
      | cons y ys ih =>
        simp only [Dyon.leavesAny, Bool.or_eq_false_iff] at h1
        rcases List.mem_cons.1 hx with rfl | hx
        · exact h1.1
        · exact ih h1.2 hx

theorem linkFirst_ok (hk : Known find k ar C) {ss : List Src} {es : List Expr} (h : Front.Spec.exprs file ss = some es)
    (hf : linkFirst ss) : linkBody (lookedList find es) := by
  refine linkBody_ok (ss := ss) (shapes hk.called ss h).2.1 ?_ hf
  intro e es' he
  cases ss with
  | nil => parts h; subst h; cases he
  | cons s ss =>
    parts h
    obtain ⟨e', h1, es'', h2, rfl⟩ := h
    simp only [lookedList, List.cons.injEq] at he
    exact ⟨s, ss, rfl, he.1 ▸ (shape hk.called s h1).leaves⟩

theorem elifs_after {B Bt} {D : List Bind} : ∀ (ei : List (Src × List Src)), plainElifs C B Bt ei →
    afters (ei.map (·.1)) D = D
  | [], _ => rfl
  | (c, b) :: r, h => by
    simp only [plainElifs] at h
    simp only [List.map_cons, afters, after_none h.1]
    exact elifs_after r h.2.2.2

omit [FloatOps] [Data.Lex] in
theorem fits_fill (es : List Expr) (n : Nat) : Dyon.fits es n = fill (es.map Expr.width) n := by
  induction es generalizing n with
  | nil => cases n <;> rfl
  | cons e es ih => cases n <;> simp [Dyon.fits, fill, ih]

/-- A range that is inferred. -/
theorem ok_infer (hk : Known find k ar C) {n : String} {vs : List Var} {src : List Src} {kd label} {stop : Expr} {E : Env} {os}
    {inside : List Expr} (hr : rangeOutside C n vs src)
    (he : Front.Spec.expr file (.forN kd label (.plain n :: vs) src) = some (.forN kd n none stop inside label))
    (hi : Syn.infer inside n = some stop) (h : SSeq k ar (lookedList find inside) (E ++ [some n]) os)
    (w : WFs k (lookedList find inside)) : Ok find k ar E os stop := by
  simp only [Syn.infer, Option.map_eq_some_iff] at hi
  obtain ⟨list, hi, rfl⟩ := hi
  obtain ⟨Γ', h1, h2, h3⟩ := (gets_block (i := n) inside h w).scope _ list hi
  obtain ⟨hlen, hr⟩ := hr
  obtain ⟨xs, hx, hout⟩ := hr _ _ _ _ _ he
  have hz : ∀ z, SItem k ar (lookedItem find list) (E ++ z) os := fun z => by
    refine item_below list hx (fun x hm hx' => ?_) h2
    rcases h1 x hx' with h | h
    · simp only [List.mem_append, List.mem_singleton, Option.some.injEq] at h ⊢
      exact .inl (h.resolve_right (hout x hm).1)
    · exact absurd h (hout x hm).2
  refine app_ok hk.called hk.lazy ⟨?_, trivial⟩ (fun z => ⟨hz z, trivial⟩) ⟨h3, trivial⟩ ?_
  · have := hz []
    rw [List.append_nil] at this
    exact this
  · cases hc : C "len" <;> rw [hc] at hlen <;> dsimp only at hlen ⊢
    · exact ⟨by rw [hlen]; rfl, rfl⟩
    · exact hlen.symm

mutual
theorem ok_expr (hk : Known find k ar C) : ∀ (s : Src) {B Bt D E os e}, Front.Spec.expr file s = some e →
    plain C B Bt s → Check.Spec.fits D s → Sees B Bt D E os → Ok find k ar E os e
  | .in_ _ _, _, _, _, _, _, e, h, hp, hf, hs => by parts h; subst h; exact ⟨trivial, trivial⟩
  | .closure args cur b, _, _, _, _, _, e, h, hp, hf, hs => by
    parts h
    obtain ⟨b', hb, rfl⟩ := h
    simp only [plain] at hp
    simp only [Check.Spec.fits] at hf
    obtain ⟨h1, h2⟩ := ok_expr hk b hb hp.2 hf (hs.closure _ _)
    exact ⟨⟨rfl, hp.1, h1⟩, h2⟩
  | .object kvs, _, _, _, _, _, e, h, hp, hf, hs => by
    parts h
    obtain ⟨kvs', hk', rfl⟩ := h
    simp only [plain] at hp
    simp only [Check.Spec.fits] at hf
    have := ok_kvs hk kvs hk' hp hf hs
    exact this
  | .array items, _, _, _, _, _, e, h, hp, hf, hs => by
    parts h
    obtain ⟨es, hes, rfl⟩ := h
    simp only [plain] at hp
    simp only [Check.Spec.fits] at hf
    obtain ⟨h1, _, h3⟩ := ok_all hk items hes hp hf hs
    exact ⟨h1, h3⟩
  | .arrayFill a b, _, _, _, _, _, e, h, hp, hf, hs => by
    parts h
    obtain ⟨a', ha, b', hb, rfl⟩ := h
    simp only [plain] at hp
    simp only [Check.Spec.fits, after_none hp.1] at hf
    obtain ⟨h1, h2⟩ := ok_expr hk a ha hp.2.1 hf.1 hs
    obtain ⟨h3, h4⟩ := ok_expr hk b hb hp.2.2 hf.2 hs
    exact ⟨⟨h1, h3⟩, h2, h4⟩
  | .forIn kd label n iter body, B, Bt, D, E, os, e, h, hp, hf, hs => by
    parts h
    obtain ⟨i', hi, b', hb, rfl⟩ := h
    simp only [plain] at hp
    simp only [Check.Spec.fits, after_none hp.1] at hf
    obtain ⟨h1, h2⟩ := ok_expr hk iter hi hp.2.1 hf.1
      (hs.loop (xs := [n]) (u := [n]) (E' := E) (fun x hx => .inl hx) fun _ h => h)
    obtain ⟨h3, h4⟩ := ok_seq hk body hb hp.2.2.1 hf.2
      (hs.loop (xs := [n]) (u := []) (E' := E ++ [some n]) (fun x hx => .inr (by simp_all)) fun _ h => by simp [h])
    exact ⟨⟨h1, h3⟩, h2, h4, fun hl => linkFirst_ok hk hb (hp.2.2.2 hl)⟩
  | .forN kd label vars body, B, Bt, D, E, os, e, h, hp, hf, hs => by
    parts h
    obtain ⟨vs, hv, b', hb, h⟩ := h
    simp only [plain] at hp
    simp only [Check.Spec.fits, afters_ranges hp.1] at hf
    obtain ⟨h3, h4⟩ := ok_seq hk body hb hp.2.1 hf.2
      (hs.loop (xs := varNames vars) (u := []) (E' := E ++ (varNames vars).map some)
        (fun x hx => .inr (by simp [hx])) fun _ h => by simp [h])
    have := ok_vars hk vars (bound := []) hv hb hp.1 hf.1 hs (by simp) (by simpa using h3) h4
      (fun hl => linkFirst_ok hk hb (hp.2.2 hl)) h
    simpa using this
  | .for_ label init cond step body, B, Bt, D, E, os, e, h, hp, hf, hs => by
    parts h
    obtain ⟨i', hi, c', hc, s', hs', b', hb, rfl⟩ := h
    simp only [plain] at hp
    obtain ⟨p1, p2, p3, p4, p5, p6, p7, p8, p9⟩ := hp
    simp only [Check.Spec.fits, after_none p4, after_none p6] at hf
    obtain ⟨f1, f2, f3, f4⟩ := hf
    obtain ⟨h1, h2⟩ := ok_expr hk init hi p1 f1 hs
    obtain ⟨d1, d2⟩ := decl_of_behind (find := find) init hi p1 p2
    have hs2 := hs.after init
    rw [← d2] at hs2
    obtain ⟨h3, h4⟩ := ok_expr hk cond hc p5 f2 hs2
    obtain ⟨h5, h6⟩ := ok_expr hk step hs' p7 f3 hs2
    obtain ⟨h7, h8⟩ := ok_seq hk body hb p9 f4 hs2
    refine ⟨⟨h1, ?_, d1, h3, h5, ?_, decl_of_none step hs' p7 p6, h7⟩, h2, h4, h6, h8⟩
    · rw [(shape hk.called init hi).sw, p3]; rfl
    · rw [(shape hk.called step hs').sw, p8]; rfl
  | .loop label body, B, Bt, D, E, os, e, h, hp, hf, hs => by
    parts h
    obtain ⟨b', hb, rfl⟩ := h
    simp only [plain] at hp
    simp only [Check.Spec.fits] at hf
    obtain ⟨h1, h2⟩ := ok_seq hk body hb hp hf hs
    refine ⟨⟨trivial, rfl, rfl, trivial, trivial, rfl, rfl, ?_⟩, trivial, trivial, trivial, h2⟩
    show SSeq k ar _ (E ++ []) os
    rw [List.append_nil]
    exact h1
  | .ite c t ei els, B, Bt, D, E, os, e, h, hp, hf, hs => by
    parts h
    obtain ⟨c', hc, t', ht, ei', hei, els', hels, rfl⟩ := h
    simp only [plain] at hp
    obtain ⟨p1, p2, p3, p4, p5⟩ := hp
    have e1 := elifs_after (B := B) (Bt := Bt) (C := C) (D := D) ei p4
    simp only [Check.Spec.fits, after_none p1, e1] at hf
    obtain ⟨f1, f2, f3, f4⟩ := hf
    obtain ⟨h1, h2⟩ := ok_expr hk c hc p2 f1 hs
    obtain ⟨h3, h4⟩ := ok_seq hk t ht p3 f2 hs
    obtain ⟨h5, h6⟩ := ok_elifs hk ei hei p4 f3 hs
    obtain ⟨h7, h8⟩ := ok_else hk els hels p5 f4 hs
    exact ⟨⟨h1, h3, h5, h7⟩, h2, h4, h6, h8⟩
  | .brk _, _, _, _, _, _, e, h, hp, hf, hs => by parts h; subst h; exact ⟨trivial, trivial⟩
  | .cont _, _, _, _, _, _, e, h, hp, hf, hs => by parts h; subst h; exact ⟨trivial, trivial⟩
  | .block es, _, _, _, _, _, e, h, hp, hf, hs => by
    parts h
    obtain ⟨es', hes, rfl⟩ := h
    simp only [plain] at hp
    simp only [Check.Spec.fits] at hf
    have := ok_seq hk es hes hp hf hs
    exact this
  | .assign l op r, _, _, _, E, os, e, h, hp, hf, hs => by
    parts h
    obtain ⟨l', hl, r', hr, rfl⟩ := h
    simp only [plain] at hp
    obtain ⟨p1, p2, p3, p4⟩ := hp
    simp only [Check.Spec.fits, after_none p1] at hf
    obtain ⟨h1, h2⟩ := ok_expr hk r hr p4 hf.2 hs
    have hd := declName_left (find := find) p2 hl
    by_cases hc : op = .assign ∧ (newVar l).isSome
    · obtain ⟨it, hit⟩ := Option.isSome_iff_exists.1 (p2 hc.1)
      obtain ⟨it', h3, rfl⟩ := place_conv l hit hl
      refine ⟨⟨h1, fun hn => ?_⟩, ?_, h2⟩
      · rw [hd, if_pos hc.1] at hn
        rw [hn] at hc
        simp at hc
      · obtain ⟨cur, n, t, ids⟩ := it
        cases ids with
        | nil =>
          parts h3
          obtain ⟨ids', rfl, rfl⟩ := h3
          trivial
        | cons i r =>
          rw [newVar, hit] at hc
          simp [plainItem] at hc
    · have hl' : Ok find k ar E os l' := by
        refine ok_expr hk l hl (p3.resolve_left hc) (hf.1.resolve_left fun hx => hc ⟨hx.1, ?_⟩) hs
        rw [← place_isVar (p2 hx.1)]
        exact hx.2
      exact ⟨⟨h1, fun _ => hl'.1⟩, hl'.2, h2⟩
  | .compare l op r, _, _, _, _, _, e, h, hp, hf, hs => by
    parts h
    obtain ⟨l', hl, r', hr, rfl⟩ := h
    simp only [plain] at hp
    simp only [Check.Spec.fits] at hf
    exact op2_ok hk.called hk.lazy hp.1 (fun z => ok_expr hk l hl hp.2.1 hf.1 (hs.app z))
      fun z => ok_expr hk r hr hp.2.2 hf.2 (hs.app z)
  | .ret x, _, _, _, _, _, e, h, hp, hf, hs => by
    parts h
    obtain ⟨x', hx, rfl⟩ := h
    simp only [plain] at hp
    simp only [Check.Spec.fits] at hf
    have := ok_expr hk x hx hp hf hs
    exact this
  | .retVoid, _, _, _, _, _, e, h, hp, hf, hs => by parts h; subst h; exact ⟨trivial, trivial⟩
  | .add first rest, _, _, _, _, _, e, h, hp, hf, hs => by
    parts h
    obtain ⟨p, hp', h⟩ := h
    simp only [plain] at hp
    simp only [Check.Spec.fits] at hf
    have := ok_add hk rest h hp.2 hf.2 hs (fun z => ok_prod hk first hp' hp.1 hf.1 (hs.app z)) []
    simpa using this
  | .mat4 x y z w, _, _, _, E, os, e, h, hp, hf, hs => by
    parts h
    obtain ⟨x', hx, y', hy, z', hz, w', hw, rfl⟩ := h
    simp only [plain] at hp
    obtain ⟨p1, p2, p3, p4, p5⟩ := hp
    simp only [Check.Spec.fits, after_none p1.1, after_row p3, after_row p4] at hf
    obtain ⟨f1, f2, f3, f4⟩ := hf
    have sx := shape hk.called x hx
    have wx : (x'.looked find).width = 1 := by rw [sx.width, p1.2.2]; rfl
    obtain ⟨wy, vy⟩ := row_shape hk hy p3
    obtain ⟨wz, vz⟩ := row_shape hk hz p4
    obtain ⟨ww, vw⟩ := row_shape hk hw p5
    have hx' := ok_expr hk x hx p2 f1 hs
    have hy' := ok_row hk y hy p3 f2 ((hs.app (List.replicate 1 none)))
    have hz' := ok_row hk z hz p4 f3 ((hs.app (List.replicate 1 none)).app (List.replicate 1 none))
    have hw' := ok_row hk w hw p5 f4 (((hs.app (List.replicate 1 none)).app (List.replicate 1 none)).app (List.replicate 1 none))
    have vx : Valued k (x'.looked find) = true := by rw [sx.valued]; exact p1.2.1
    refine ⟨⟨⟨hx'.1, ?_⟩, ?_⟩, ⟨hx'.2, hy'.2, hz'.2, hw'.2, trivial⟩, ?_, ?_⟩
    · rw [wx]
      refine ⟨hy'.1, ?_⟩
      rw [wy]
      refine ⟨hz'.1, ?_⟩
      rw [wz]
      exact ⟨hw'.1, trivial⟩
    · simp [lookedList, wx, wy, wz, ww]
    · simp [lookedList, vecArgsOk, vx, vy, vz, vw]
    · simp [lookedList, wx, wy, wz, ww]
  | .vec4 x y z w, _, _, _, E, os, e, h, hp, hf, hs => by
    parts h
    obtain ⟨x', hx, y', hy, z', hz, w', hw, rfl⟩ := h
    simp only [plain] at hp
    obtain ⟨p1, p2, p3, p4, p5, p6⟩ := hp
    simp only [Check.Spec.fits, after_none p1.1, after_opt p3, after_opt p4] at hf
    obtain ⟨f1, f2, f3, f4⟩ := hf
    have sx := shape hk.called x hx
    have wx : (x'.looked find).width = width x := sx.width
    obtain ⟨wy, vy⟩ := comp_shape hk hy p3
    obtain ⟨wz, vz⟩ := comp_shape hk hz p4
    obtain ⟨ww, vw⟩ := comp_shape hk hw p5
    have hx' := ok_expr hk x hx p2 f1 hs
    have hy' := fun a => ok_comp hk y hy p3 f2 (hs.app (List.replicate a none))
    have hz' := fun a b => ok_comp hk z hz p4 f3 ((hs.app (List.replicate a none)).app (List.replicate b none))
    have hw' := fun a b c => ok_comp hk w hw p5 f4 (((hs.app (List.replicate a none)).app (List.replicate b none)).app (List.replicate c none))
    have vx : (Valued k (x'.looked find) || (x'.looked find).isSwizzle) = true := by
      rw [sx.valued, sx.sw]; simpa using p1.2
    refine ⟨⟨hx'.1, (hy' _).1, (hz' _ _).1, (hw' _ _ _).1, trivial⟩, ⟨hx'.2, (hy' 0).2, (hz' 0 0).2, (hw' 0 0 0).2, trivial⟩, ?_, ?_⟩
    · simp only [lookedList, vecArgsOk, vx, vy, vz, vw, Bool.and_self]
    · rw [fits_fill]
      simpa only [lookedList, List.map_cons, List.map_nil, wx, wy, wz, ww] using p6
  | .link es, _, _, _, _, _, e, h, hp, hf, hs => by
    parts h
    obtain ⟨es', hes, rfl⟩ := h
    simp only [plain] at hp
    simp only [Check.Spec.fits] at hf
    have := ok_seq hk es hes hp hf hs
    exact this
  | .grab level x, _, _, _, _, _, e, h, hp, hf, hs => by
    parts h
    obtain ⟨x', hx, rfl⟩ := h
    simp only [plain] at hp
    simp only [Check.Spec.fits] at hf
    obtain ⟨p1, Bg, p2, p3⟩ := hp
    have hl : (level.map fun x => min x.toUsize 65535).getD 1 = grabLevel level ∧ 0 < grabLevel level := by
      cases level with
      | none => exact ⟨rfl, Nat.one_pos⟩
      | some x =>
        have := p1 x rfl
        simp only [Option.map_some, Option.getD_some, grabLevel]
        omega
    rw [hl.1]
    rcases foldGrab_shape (grabLevel level) x' with ⟨v, h⟩ | h <;> rw [h]
    · exact ok_const
    · obtain ⟨Γ', h1, h2⟩ := hs.grab hl.2 p2
      obtain ⟨h3, h4⟩ := ok_expr hk x hx p3 hf h2
      exact ⟨⟨hl.2, Γ', h1, h3⟩, h4⟩
  | .tryExpr x, _, _, _, _, _, e, h, hp, hf, hs => by
    parts h
    obtain ⟨x', hx, rfl⟩ := h
    simp only [plain] at hp
    simp only [Check.Spec.fits] at hf
    have := ok_expr hk x hx hp hf hs
    exact this
  | .paren x, _, _, _, _, _, e, h, hp, hf, hs => by
    parts h
    simp only [plain] at hp
    simp only [Check.Spec.fits] at hf
    exact ok_expr hk x h hp hf hs
  | .not x, _, _, _, _, _, e, h, hp, hf, hs => by
    parts h
    obtain ⟨x', hx, rfl⟩ := h
    simp only [plain] at hp
    simp only [Check.Spec.fits] at hf
    exact op1_ok hk.called hk.lazy hp.1 fun z => ok_expr hk x hx hp.2 hf (hs.app z)
  | .norm x, _, _, _, _, _, e, h, hp, hf, hs => by
    parts h
    obtain ⟨x', hx, rfl⟩ := h
    simp only [plain] at hp
    simp only [Check.Spec.fits] at hf
    exact op1_ok hk.called hk.lazy hp.1 fun z => ok_expr hk x hx hp.2 hf (hs.app z)
  | .text _, _, _, _, _, _, e, h, hp, hf, hs => by parts h; subst h; exact ok_const
  | .num _, _, _, _, _, _, e, h, hp, hf, hs => by parts h; subst h; exact ok_const
  | .bool _, _, _, _, _, _, e, h, hp, hf, hs => by parts h; subst h; exact ok_const
  | .color _, _, _, _, _, _, e, h, hp, hf, hs => by parts h; obtain ⟨_, _, _, _, _, rfl⟩ := h; exact ok_const
  | .go c, _, _, _, _, _, e, h, hp, hf, hs => by
    parts h
    obtain ⟨name, args, hc, rfl⟩ := h
    simp only [plain] at hp
    simp only [Check.Spec.fits] at hf
    obtain ⟨h1, h2, h3⟩ := ok_callee hk c hc hp hf hs
    exact ⟨h1, h3⟩
  | .call c, _, _, _, _, _, e, h, hp, hf, hs => by
    parts h
    obtain ⟨name, args, hc, rfl⟩ := h
    simp only [plain] at hp
    simp only [Check.Spec.fits] at hf
    obtain ⟨h1, h2, h3⟩ := ok_callee hk c hc hp.2 hf hs
    have h4 : name = calleeName c ∧ Front.Spec.exprs file (calleeArgs c) = some args := by
      cases c <;> parts hc
      · obtain ⟨_, h, rfl, rfl⟩ := hc; exact ⟨rfl, h⟩
      · obtain ⟨_, h, rfl, rfl⟩ := hc; exact ⟨rfl, (worded_eq _ _).symm.trans h⟩
    obtain ⟨rfl, h4⟩ := h4
    exact app_ok hk.called hk.lazy h1 h2 h3 (fit_args hk h4 hp.1)
  | .callClosure it args, _, _, _, _, _, e, h, hp, hf, hs => by
    parts h
    obtain ⟨it', hit, es, hes, rfl⟩ := h
    simp only [plain] at hp
    simp only [Check.Spec.fits] at hf
    obtain ⟨h1, h2⟩ := ok_item hk it hit hp.2.1 hf.2.1 hs
    obtain ⟨h3, h4, h5⟩ := ok_comps hk args hes hp.2.2 hf.2.2 hs.hide
    exact ⟨⟨h1 (hs.here _ hp.1 hf.1), h5, h3⟩, h2, h4⟩
  | .namedCallClosure it args, B, Bt, D, E, os, e, h, hp, hf, hs => by
    parts h
    obtain ⟨it', hit, es, hes, rfl⟩ := h
    simp only [plain] at hp
    simp only [Check.Spec.fits] at hf
    obtain ⟨⟨w, ws, p1, p2⟩, p3, p4, p5⟩ := hp
    obtain ⟨h3, h4, h5⟩ := ok_wordComps hk args hes p5 hf.2.2 hs.hide
    have hn := hs.here _ p3 hf.1
    rw [p1] at hn ⊢
    obtain ⟨cur, n, t, ids⟩ := it
    parts hit
    obtain ⟨ids', hids, rfl⟩ := hit
    simp only [plainIt] at p4
    simp only [fitsItem] at hf
    obtain ⟨h6, h7⟩ := ok_ids hk ids hids p4 hf.2.1 hs
    have he : some (if ids'.isEmpty then n ++ "__" ++ Front.Spec.joined (w :: ws) else n) ∈ E := by
      cases ids with
      | nil =>
        parts hids
        subst hids
        simp only [closureName, joined_words p2] at hn
        exact hn
      | cons i r =>
        parts hids
        obtain ⟨i', _, r', _, rfl⟩ := hids
        exact hn
    obtain ⟨h8, h9⟩ := closureItem_ok (words := Front.Spec.joined (w :: ws)) (sid := none) (cur := cur) (t := t)
      (tids := Front.Spec.tries 0 ids) he h6 h7
    exact ⟨⟨h8, h5, h3⟩, h9, h4⟩
  | .item it, _, _, _, _, _, e, h, hp, hf, hs => by
    parts h
    obtain ⟨it', hit, rfl⟩ := h
    simp only [plain] at hp
    simp only [Check.Spec.fits] at hf
    obtain ⟨h1, h2⟩ := ok_item hk it hit hp.2 hf.2 hs
    exact ⟨h1 (hs.here _ hp.1 hf.1), h2⟩
  | .mutItem it, _, _, _, _, _, e, h, hp, hf, hs => by
    parts h
    obtain ⟨it', hit, rfl⟩ := h
    simp only [plain] at hp
    simp only [Check.Spec.fits] at hf
    obtain ⟨h1, h2⟩ := ok_item hk it hit hp.2 hf.2 hs
    exact ⟨h1 (hs.here _ hp.1 hf.1), h2⟩
  | .unloop len n x, B, Bt, D, E, os, e, h, hp, hf, hs => by
    parts h
    obtain ⟨x', hx, rfl⟩ := h
    simp only [plain] at hp
    simp only [Check.Spec.fits] at hf
    obtain ⟨p1, p2, p3, p4⟩ := hp
    obtain ⟨h1, h2⟩ := ok_expr hk x hx p4 hf
      (hs.loop (xs := [n]) (u := []) (E' := E ++ [some n]) (fun x hx => .inr (by simp_all)) fun _ h => by simp [h])
    have hfl := flat_conv x hx p1
    have sx := shape hk.called x hx
    have key : ∀ y ∈ [Syn.number n (F64.ofNat 0) x', Syn.number n (F64.ofNat 1) x',
        if len.val + 2 > 2 then Syn.number n (F64.ofNat 2) x' else .const (.ofF64 F64.zero),
        if len.val + 2 > 3 then Syn.number n (F64.ofNat 3) x' else .const (.ofF64 F64.zero)],
        (∀ E', But n (E ++ [some n]) E' → (y.looked find).Scoped k ar E' os) ∧ (y.looked find).WF k ∧
        (y.looked find).width = 1 ∧ Valued k (y.looked find) = true := by
      have num : ∀ v, (∀ E', But n (E ++ [some n]) E' → ((Syn.number n v x').looked find).Scoped k ar E' os) ∧
          ((Syn.number n v x').looked find).WF k ∧ ((Syn.number n v x').looked find).width = 1 ∧
          Valued k ((Syn.number n v x').looked find) = true := fun v => by
        obtain ⟨a, b, c⟩ := number_shape (find := find) (k := k) n v hfl
        exact ⟨fun E' hb => number_scoped n v x' hfl h1 hb, number_wf n v x' hfl h2, by rw [a, sx.width, p3]; rfl,
          by rw [c, sx.valued, p2]⟩
      have con : (∀ E', But n (E ++ [some n]) E' → ((Expr.const (.ofF64 F64.zero)).looked find).Scoped k ar E' os) ∧
          ((Expr.const (.ofF64 F64.zero)).looked find).WF k ∧ ((Expr.const (.ofF64 F64.zero)).looked find).width = 1 ∧
          Valued k ((Expr.const (.ofF64 F64.zero)).looked find) = true := ⟨fun _ _ => trivial, trivial, rfl, rfl⟩
      intro y hy
      simp only [List.mem_cons, List.not_mem_nil, or_false] at hy
      rcases hy with rfl | rfl | rfl | rfl
      · exact num _
      · exact num _
      · split
        · exact num _
        · exact con
      · split
        · exact num _
        · exact con
    have hb : ∀ z : Env, But n (E ++ [some n]) (E ++ z) := fun z y hy hm => by
      simp only [List.mem_append, List.mem_singleton, Option.some.injEq] at hm ⊢
      exact .inl (hm.resolve_right hy)
    unfold Syn.unloop
    generalize Syn.number n (F64.ofNat 0) x' = y1 at key ⊢
    generalize Syn.number n (F64.ofNat 1) x' = y2 at key ⊢
    generalize (if len.val + 2 > 2 then Syn.number n (F64.ofNat 2) x' else .const (.ofF64 F64.zero)) = y3 at key ⊢
    generalize (if len.val + 2 > 3 then Syn.number n (F64.ofNat 3) x' else .const (.ofF64 F64.zero)) = y4 at key ⊢
    obtain ⟨a1, b1, c1, d1⟩ := key y1 (by simp)
    obtain ⟨a2, b2, c2, d2⟩ := key y2 (by simp)
    obtain ⟨a3, b3, c3, d3⟩ := key y3 (by simp)
    obtain ⟨a4, b4, c4, d4⟩ := key y4 (by simp)
    refine ⟨⟨?_, ?_, ?_, ?_, trivial⟩, ⟨b1, b2, b3, b4, trivial⟩, ?_, ?_⟩
    · exact a1 _ (by simpa using hb [])
    · exact a2 _ (hb _)
    · exact a3 _ (by simpa using hb _)
    · exact a4 _ (by simpa using hb _)
    · simp only [lookedList, vecArgsOk, d1, d2, d3, d4, Bool.true_or, Bool.and_self]
    · rw [fits_fill]
      simp only [lookedList, List.map_cons, List.map_nil, c1, c2, c3, c4]
      rfl
  | .try_ x, _, _, _, _, _, e, h, hp, hf, hs => by
    parts h
    obtain ⟨x', hx, rfl⟩ := h
    simp only [plain] at hp
    simp only [Check.Spec.fits] at hf
    have := ok_expr hk x hx hp hf hs
    exact this
  | .swizzle _ _ _ _ x, _, _, _, _, _, e, h, hp, hf, hs => by
    parts h
    obtain ⟨x', hx, rfl⟩ := h
    simp only [plain] at hp
    simp only [Check.Spec.fits] at hf
    have := ok_expr hk x hx hp hf hs
    exact this
theorem ok_seq (hk : Known find k ar C) : ∀ (ss : List Src) {B Bt D E os es}, Front.Spec.exprs file ss = some es →
    plainSeq C B Bt ss → fitsSeq D ss → Sees B Bt D E os →
    SSeq k ar (lookedList find es) E os ∧ WFs k (lookedList find es)
  | [], _, _, _, _, _, es, h, _, _, _ => by parts h; subst h; exact ⟨trivial, trivial⟩
  | s :: ss, _, _, _, _, _, es, h, hp, hf, hs => by
    parts h
    obtain ⟨e, he, es, hes, rfl⟩ := h
    simp only [plainSeq] at hp
    simp only [fitsSeq] at hf
    obtain ⟨p1, p2, p3, p4⟩ := hp
    obtain ⟨h1, h2⟩ := ok_expr hk s he p1 hf.1 hs
    have sw : (e.looked find).isSwizzle = false := by rw [(shape hk.called s he).sw, p2]; rfl
    by_cases hn : ss = []
    · subst hn
      parts hes
      subst hes
      exact ⟨⟨h1, sw, fun h => absurd rfl h, trivial⟩, h2, trivial⟩
    · obtain ⟨d1, d2⟩ := decl_of_behind (find := find) s he p1 (p3 hn)
      have hs2 := hs.after s
      rw [← d2] at hs2
      obtain ⟨h3, h4⟩ := ok_seq hk ss hes p4 hf.2 hs2
      exact ⟨⟨h1, sw, fun _ => d1, h3⟩, h2, h4⟩
theorem ok_all (hk : Known find k ar C) : ∀ (ss : List Src) {B Bt D E os es}, Front.Spec.exprs file ss = some es →
    plainAll C B Bt ss → fitsSeq D ss → Sees B Bt D E os →
    SAll k ar (lookedList find es) E os ∧ (∀ z, SArgs k ar (lookedList find es) (E ++ z) os) ∧ WFs k (lookedList find es)
  | [], _, _, _, _, _, es, h, _, _, _ => by parts h; subst h; exact ⟨trivial, fun _ => trivial, trivial⟩
  | s :: ss, _, _, _, _, _, es, h, hp, hf, hs => by
    parts h
    obtain ⟨e, he, es, hes, rfl⟩ := h
    simp only [plainAll] at hp
    simp only [fitsSeq, after_none hp.1] at hf
    obtain ⟨h1, h2⟩ := ok_expr hk s he hp.2.1 hf.1 hs
    obtain ⟨h3, h4, h5⟩ := ok_all hk ss hes hp.2.2 hf.2 hs
    refine ⟨⟨h1, h3⟩, fun z => ⟨(ok_expr hk s he hp.2.1 hf.1 (hs.app z)).1, ?_⟩, h2, h5⟩
    rw [List.append_assoc]
    exact h4 _
theorem ok_words (hk : Known find k ar C) : ∀ (ss : List (String × Src)) {B Bt D E os es},
    Front.Spec.worded file ss = some es → plainWords C B Bt ss → fitsWords D ss → Sees B Bt D E os →
    SAll k ar (lookedList find es) E os ∧ (∀ z, SArgs k ar (lookedList find es) (E ++ z) os) ∧ WFs k (lookedList find es)
  | [], _, _, _, _, _, es, h, _, _, _ => by parts h; subst h; exact ⟨trivial, fun _ => trivial, trivial⟩
  | (_, s) :: ss, _, _, _, _, _, es, h, hp, hf, hs => by
    parts h
    obtain ⟨e, he, es, hes, rfl⟩ := h
    simp only [plainWords] at hp
    simp only [fitsWords, after_none hp.1] at hf
    obtain ⟨h1, h2⟩ := ok_expr hk s he hp.2.1 hf.1 hs
    obtain ⟨h3, h4, h5⟩ := ok_words hk ss hes hp.2.2 hf.2 hs
    refine ⟨⟨h1, h3⟩, fun z => ⟨(ok_expr hk s he hp.2.1 hf.1 (hs.app z)).1, ?_⟩, h2, h5⟩
    rw [List.append_assoc]
    exact h4 _
theorem ok_kvs (hk : Known find k ar C) : ∀ (ss : List (String × Src)) {B Bt D E os es},
    Front.Spec.pairs file ss = some es → plainWords C B Bt ss → fitsAll D ss → Sees B Bt D E os →
    SKvs k ar (lookedKvs find es) E os ∧ WFkvs k (lookedKvs find es)
  | [], _, _, _, _, _, es, h, _, _, _ => by parts h; subst h; exact ⟨trivial, trivial⟩
  | (_, s) :: ss, _, _, _, _, _, es, h, hp, hf, hs => by
    parts h
    obtain ⟨e, he, es, hes, rfl⟩ := h
    simp only [plainWords] at hp
    simp only [fitsAll] at hf
    obtain ⟨h1, h2⟩ := ok_expr hk s he hp.2.1 hf.1 hs
    obtain ⟨h3, h4⟩ := ok_kvs hk ss hes hp.2.2 hf.2 hs
    exact ⟨⟨h1, h3⟩, h2, h4⟩
theorem ok_comps (hk : Known find k ar C) : ∀ (ss : List Src) {B Bt D E os es}, Front.Spec.exprs file ss = some es →
    plainComps C B Bt ss → fitsSeq D ss → Sees B Bt D E os →
    SArgs k ar (lookedList find es) E os ∧ WFs k (lookedList find es) ∧ vecArgsOk k (lookedList find es) = true
  | [], _, _, _, _, _, es, h, _, _, _ => by parts h; subst h; exact ⟨trivial, trivial, rfl⟩
  | s :: ss, _, _, _, _, _, es, h, hp, hf, hs => by
    parts h
    obtain ⟨e, he, es, hes, rfl⟩ := h
    simp only [plainComps, isComp] at hp
    replace hp : (_ ∧ plain _ _ _ _) ∧ _ := ⟨⟨hp.1, hp.2.1⟩, hp.2.2⟩
    simp only [fitsSeq, after_none hp.1.1.1] at hf
    obtain ⟨h1, h2⟩ := ok_expr hk s he hp.1.2 hf.1 hs
    obtain ⟨h3, h4, h5⟩ := ok_comps hk ss hes hp.2 hf.2 (hs.app (List.replicate (e.looked find).width none))
    refine ⟨⟨h1, h3⟩, ⟨h2, h4⟩, ?_⟩
    simp only [lookedList, vecArgsOk, h5, Bool.and_true, (shape hk.called s he).valued, (shape hk.called s he).sw]
    simpa using hp.1.1.2
theorem ok_wordComps (hk : Known find k ar C) : ∀ (ss : List (String × Src)) {B Bt D E os es},
    Front.Spec.worded file ss = some es →
    plainWordComps C B Bt ss → fitsWords D ss → Sees B Bt D E os →
    SArgs k ar (lookedList find es) E os ∧ WFs k (lookedList find es) ∧ vecArgsOk k (lookedList find es) = true
  | [], _, _, _, _, _, es, h, _, _, _ => by parts h; subst h; exact ⟨trivial, trivial, rfl⟩
  | (_, s) :: ss, _, _, _, _, _, es, h, hp, hf, hs => by
    parts h
    obtain ⟨e, he, es, hes, rfl⟩ := h
    simp only [plainWordComps, isComp] at hp
    replace hp : (_ ∧ plain _ _ _ _) ∧ _ := ⟨⟨hp.1, hp.2.1⟩, hp.2.2⟩
    simp only [fitsWords, after_none hp.1.1.1] at hf
    obtain ⟨h1, h2⟩ := ok_expr hk s he hp.1.2 hf.1 hs
    obtain ⟨h3, h4, h5⟩ := ok_wordComps hk ss hes hp.2 hf.2 (hs.app (List.replicate (e.looked find).width none))
    refine ⟨⟨h1, h3⟩, ⟨h2, h4⟩, ?_⟩
    simp only [lookedList, vecArgsOk, h5, Bool.and_true, (shape hk.called s he).valued, (shape hk.called s he).sw]
    simpa using hp.1.1.2
theorem ok_vars (hk : Known find k ar C) : ∀ (vars : List Var) {B Bt D E os vs xs bound kd label src body e},
    Front.Spec.vars file vars = some vs → Front.Spec.exprs file src = some body → plainVars C xs B Bt src vars → fitsVars xs D vars → Sees B Bt D E os →
    (∀ x ∈ xs, x ∈ bound ∨ x ∈ varNames vars) →
    SSeq k ar (lookedList find body) (E ++ (bound ++ varNames vars).map some) os → WFs k (lookedList find body) →
    (kd = .linkFor → linkBody (lookedList find body)) →
    Syn.createForN kd label vs body = some e → Ok find k ar (E ++ bound.map some) os e
  | [], _, _, _, _, _, vs, _, _, _, _, _, _, _, h, _, _, _, _, _, _, _, _, hc => by parts h; subst h; cases hc
  | .plain n :: vars, B, Bt, D, E, os, vs, xs, bound, kd, label, src, body, e, h, hsrc, hp, hf, hs, hx, hb, hw, hl, hc => by
    have he : Front.Spec.expr file (.forN kd label (.plain n :: vars) src) = some e := by
      simp only [Front.Spec.expr, Option.bind_eq_bind, h, hsrc, Option.bind_some]
      exact hc
    parts h
    obtain ⟨_, _, _, ⟨rfl, rfl, rfl⟩, vs, hvs, rfl⟩ := h
    simp only [plainVars] at hp
    simp only [fitsVars] at hf
    match vars, vs, hvs with
    | [], vs, hvs =>
      parts hvs
      subst hvs
      simp only [Syn.createForN, Option.none_or, Option.map_eq_some_iff] at hc
      obtain ⟨stop, hi, rfl⟩ := hc
      have hb' : SSeq k ar (lookedList find body) (E ++ bound.map some ++ [some n]) os := by simpa [varNames] using hb
      obtain ⟨h1, h2⟩ := ok_infer hk hp.1 he hi hb' hw
      exact ⟨⟨trivial, h1, hb'⟩, trivial, h2, hw, hl⟩
    | v2 :: vars, vs, hvs =>
      have hvs0 := hvs
      parts hvs
      obtain ⟨_, _, _, _, vs2, _, rfl⟩ := hvs
      simp only [Syn.createForN, Option.bind_eq_bind, Option.bind_eq_some_iff, Option.pure_def, Option.some.injEq,
        Option.none_or] at hc
      obtain ⟨inner, hi, stop, hi', rfl⟩ := hc
      have ih := ok_vars hk (v2 :: vars) (bound := bound ++ [n]) hvs0 hsrc hp.2 hf hs
        (fun x h => by have := hx x h; simp only [varNames, List.mem_cons, List.mem_append] at this ⊢; tauto)
        (by simpa [varNames] using hb) hw hl hi
      obtain ⟨_, _, _, _, rfl⟩ := createForN_shape hi
      have hb' := ih.1
      rw [List.map_append, ← List.append_assoc] at hb'
      obtain ⟨h1, h2⟩ := ok_infer hk hp.1 he hi' ⟨hb', rfl, fun h => absurd rfl h, trivial⟩ ⟨ih.2, trivial⟩
      exact ⟨⟨trivial, h1, hb', rfl, fun h => absurd rfl h, trivial⟩, trivial, h2, ⟨ih.2, trivial⟩, fun _ => trivial⟩
  | .upto n b :: vars, B, Bt, D, E, os, vs, xs, bound, kd, label, src, body, e, h, hsrc, hp, hf, hs, hx, hb, hw, hl, hc => by
    parts h
    obtain ⟨_, _, _, ⟨b', hb', rfl, rfl, rfl⟩, vs, hvs, rfl⟩ := h
    simp only [plainVars] at hp
    simp only [fitsVars, after_none hp.1] at hf
    have hs2 : Sees (n :: varNames vars ++ B) (Bt.map (xs ++ ·)) (.loop xs :: D) (E ++ bound.map some) os :=
      hs.loop (xs := xs) (u := n :: varNames vars) (fun x h => (hx x h).symm.imp_right fun h => by simp [h])
        fun _ h => by simp [h]
    obtain ⟨h1, h2⟩ := ok_expr hk b hb' hp.2.1 hf.1 hs2
    match vars, vs, hvs with
    | [], vs, hvs =>
      parts hvs
      subst hvs
      simp only [Syn.createForN, Option.some_or, Option.map_some, Option.some.injEq] at hc
      subst hc
      refine ⟨⟨trivial, h1, ?_⟩, trivial, h2, hw, hl⟩
      simpa [varNames] using hb
    | v2 :: vars, vs, hvs =>
      have hvs0 := hvs
      parts hvs
      obtain ⟨_, _, _, _, vs2, _, rfl⟩ := hvs
      simp only [Syn.createForN, Option.bind_eq_bind, Option.bind_eq_some_iff, Option.pure_def, Option.some.injEq,
        Option.some_or] at hc
      obtain ⟨inner, hi, _, rfl, rfl⟩ := hc
      have ih := ok_vars hk (v2 :: vars) (bound := bound ++ [n]) hvs0 hsrc hp.2.2 hf.2 hs
        (fun x h => by have := hx x h; simp only [varNames, List.mem_cons, List.mem_append] at this ⊢; tauto)
        (by simpa [varNames] using hb) hw hl hi
      obtain ⟨_, _, _, _, rfl⟩ := createForN_shape hi
      refine ⟨⟨trivial, h1, ?_, rfl, fun h => absurd rfl h, trivial⟩, trivial, h2, ⟨ih.2, trivial⟩, fun _ => trivial⟩
      have := ih.1
      simpa using this
  | .range n a b :: vars, B, Bt, D, E, os, vs, xs, bound, kd, label, src, body, e, h, hsrc, hp, hf, hs, hx, hb, hw, hl, hc => by
    parts h
    obtain ⟨_, _, _, ⟨a', ha', b', hb', rfl, rfl, rfl⟩, vs, hvs, rfl⟩ := h
    simp only [plainVars] at hp
    simp only [fitsVars, after_none hp.1, after_none hp.2.2.1] at hf
    have hs2 : Sees (n :: varNames vars ++ B) (Bt.map (xs ++ ·)) (.loop xs :: D) (E ++ bound.map some) os :=
      hs.loop (xs := xs) (u := n :: varNames vars) (fun x h => (hx x h).symm.imp_right fun h => by simp [h])
        fun _ h => by simp [h]
    obtain ⟨h1, h2⟩ := ok_expr hk b hb' hp.2.2.2.1 hf.2.1 hs2
    obtain ⟨h1', h2'⟩ := ok_expr hk a ha' hp.2.1 hf.1 hs2
    match vars, vs, hvs with
    | [], vs, hvs =>
      parts hvs
      subst hvs
      simp only [Syn.createForN, Option.some_or, Option.map_some, Option.some.injEq] at hc
      subst hc
      refine ⟨⟨h1', h1, ?_⟩, h2', h2, hw, hl⟩
      simpa [varNames] using hb
    | v2 :: vars, vs, hvs =>
      have hvs0 := hvs
      parts hvs
      obtain ⟨_, _, _, _, vs2, _, rfl⟩ := hvs
      simp only [Syn.createForN, Option.bind_eq_bind, Option.bind_eq_some_iff, Option.pure_def, Option.some.injEq,
        Option.some_or] at hc
      obtain ⟨inner, hi, _, rfl, rfl⟩ := hc
      have ih := ok_vars hk (v2 :: vars) (bound := bound ++ [n]) hvs0 hsrc hp.2.2.2.2 hf.2.2 hs
        (fun x h => by have := hx x h; simp only [varNames, List.mem_cons, List.mem_append] at this ⊢; tauto)
        (by simpa [varNames] using hb) hw hl hi
      obtain ⟨_, _, _, _, rfl⟩ := createForN_shape hi
      refine ⟨⟨h1', h1, ?_, rfl, fun h => absurd rfl h, trivial⟩, h2', h2, ⟨ih.2, trivial⟩, fun _ => trivial⟩
      have := ih.1
      simpa using this
theorem ok_elifs (hk : Known find k ar C) : ∀ (ss : List (Src × List Src)) {B Bt D E os es},
    Front.Spec.elseIfs file ss = some es → plainElifs C B Bt ss → fitsElifs D ss → Sees B Bt D E os →
    SElifs k ar (lookedElifs find es) E os ∧ WFelifs k (lookedElifs find es)
  | [], _, _, _, _, _, es, h, _, _, _ => by parts h; subst h; exact ⟨trivial, trivial⟩
  | (c, b) :: ss, _, _, _, _, _, es, h, hp, hf, hs => by
    parts h
    obtain ⟨c', hc, b', hb, r, hr, rfl⟩ := h
    simp only [plainElifs] at hp
    simp only [fitsElifs, after_none hp.1] at hf
    obtain ⟨h1, h2⟩ := ok_expr hk c hc hp.2.1 hf.1 hs
    obtain ⟨h3, h4⟩ := ok_seq hk b hb hp.2.2.1 hf.2.1 hs
    obtain ⟨h5, h6⟩ := ok_elifs hk ss hr hp.2.2.2 hf.2.2 hs
    exact ⟨⟨h1, h3, h5⟩, h2, h4, h6⟩
theorem ok_else (hk : Known find k ar C) : ∀ (ss : Option (List Src)) {B Bt D E os es},
    Front.Spec.otherwise file ss = some es → plainElse C B Bt ss → fitsElse D ss → Sees B Bt D E os →
    SOptSeq k ar (lookedOptList find es) E os ∧ WFoptList k (lookedOptList find es)
  | none, _, _, _, _, _, es, h, _, _, _ => by parts h; subst h; exact ⟨trivial, trivial⟩
  | some b, _, _, _, _, _, es, h, hp, hf, hs => by
    parts h
    obtain ⟨b', hb, rfl⟩ := h
    simp only [plainElse] at hp
    simp only [fitsElse] at hf
    have := ok_seq hk b hb hp hf hs
    exact this
theorem ok_comp (hk : Known find k ar C) : ∀ (o : Option Src) {v : Val} {B Bt D E os e},
    Front.Spec.orElse file (.const v) o = some e → plainCompOpt C B Bt o → fitsOpt D o → Sees B Bt D E os →
    Ok find k ar E os e
  | none, _, _, _, _, _, _, e, h, _, _, _ => by parts h; subst h; exact ok_const
  | some s, _, _, _, _, _, _, e, h, hp, hf, hs => by
    parts h
    simp only [plainCompOpt] at hp
    simp only [fitsOpt] at hf
    exact ok_expr hk s h hp.2 hf hs
theorem ok_row (hk : Known find k ar C) : ∀ (o : Option Src) {v : Val} {B Bt D E os e},
    Front.Spec.orElse file (.const v) o = some e → plainRowOpt C B Bt o → fitsOpt D o → Sees B Bt D E os →
    Ok find k ar E os e
  | none, _, _, _, _, _, _, e, h, _, _, _ => by parts h; subst h; exact ok_const
  | some s, _, _, _, _, _, _, e, h, hp, hf, hs => by
    parts h
    simp only [plainRowOpt] at hp
    simp only [fitsOpt] at hf
    exact ok_expr hk s h hp.2 hf hs
theorem ok_add (hk : Known find k ar C) : ∀ (rest : List (BinOp × Prod')) {B Bt D E os l e},
    Front.Spec.addRest file l rest = some e → plainAdd C B Bt rest → fitsAdd D rest → Sees B Bt D E os →
    (∀ z, Ok find k ar (E ++ z) os l) → ∀ z, Ok find k ar (E ++ z) os e
  | [], _, _, _, _, _, l, e, h, _, _, _, hl, z => by
    simp only [Front.Spec.addRest, Option.some.injEq] at h
    subst h
    exact hl z
  | (op, p) :: rest, _, _, _, _, _, l, e, h, hp, hf, hs, hl, z => by
    simp only [Front.Spec.addRest, Option.bind_eq_bind, Option.bind_eq_some_iff] at h
    obtain ⟨p', hp', h⟩ := h
    simp only [plainAdd] at hp
    simp only [fitsAdd] at hf
    refine ok_add hk rest h hp.2.2 hf.2 hs (fun z => ?_) z
    refine op2_ok hk.called hk.lazy hp.1 (fun z' => ?_) fun z' => ok_prod hk p hp' hp.2.1 hf.1 ((hs.app z).app z')
    rw [List.append_assoc]
    exact hl _
theorem ok_prod (hk : Known find k ar C) : ∀ (p : Prod') {B Bt D E os e},
    Front.Spec.product file p = some e → plainProd C B Bt p → fitsProd D p → Sees B Bt D E os →
    Ok find k ar E os e
  | .mk first rest, _, _, _, _, _, e, h, hp, hf, hs => by
    parts h
    obtain ⟨p, hp', h⟩ := h
    simp only [plainProd] at hp
    simp only [fitsProd] at hf
    have := ok_mul hk rest h hp.2 hf.2 hs (fun z => ok_opd hk first hp' hp.1 hf.1 (hs.app z)) []
    simpa using this
theorem ok_mul (hk : Known find k ar C) : ∀ (rest : List (BinOp × Opd)) {B Bt D E os l e},
    Front.Spec.mulRest file l rest = some e → plainMul C B Bt rest → fitsMul D rest → Sees B Bt D E os →
    (∀ z, Ok find k ar (E ++ z) os l) → ∀ z, Ok find k ar (E ++ z) os e
  | [], _, _, _, _, _, l, e, h, _, _, _, hl, z => by
    simp only [Front.Spec.mulRest, Option.some.injEq] at h
    subst h
    exact hl z
  | (op, p) :: rest, _, _, _, _, _, l, e, h, hp, hf, hs, hl, z => by
    simp only [Front.Spec.mulRest, Option.bind_eq_bind, Option.bind_eq_some_iff] at h
    obtain ⟨p', hp', h⟩ := h
    simp only [plainMul] at hp
    simp only [fitsMul] at hf
    refine ok_mul hk rest h hp.2.2 hf.2 hs (fun z => ?_) z
    refine op2_ok hk.called hk.lazy hp.1 (fun z' => ?_) fun z' => ok_opd hk p hp' hp.2.1 hf.1 ((hs.app z).app z')
    rw [List.append_assoc]
    exact hl _
theorem ok_opd (hk : Known find k ar C) : ∀ (o : Opd) {B Bt D E os e},
    Front.Spec.operand file o = some e → plainOpd C B Bt o → fitsOpd D o → Sees B Bt D E os →
    Ok find k ar E os e
  | .neg p, _, _, _, _, _, e, h, hp, hf, hs => by
    parts h
    obtain ⟨p', hp', rfl⟩ := h
    simp only [plainOpd] at hp
    simp only [fitsOpd] at hf
    exact op1_ok hk.called hk.lazy hp.1 fun z => ok_prod hk p hp' hp.2 hf (hs.app z)
  | .pow l r, _, _, _, _, _, e, h, hp, hf, hs => by
    parts h
    obtain ⟨l', hl, r', hr, rfl⟩ := h
    simp only [plainOpd] at hp
    simp only [fitsOpd] at hf
    exact op2_ok hk.called hk.lazy hp.1 (fun z => ok_expr hk l hl hp.2.1 hf.1 (hs.app z))
      fun z => ok_expr hk r hr hp.2.2 hf.2 (hs.app z)
  | .plain e, _, _, _, _, _, _, h, hp, hf, hs => by
    parts h
    simp only [plainOpd] at hp
    simp only [fitsOpd] at hf
    exact ok_expr hk e h hp.2 hf hs
theorem ok_item (hk : Known find k ar C) : ∀ (it : ItemSrc) {B Bt D E os it'},
    Front.Spec.item file it = some it' → plainIt C B Bt it → fitsItem D it → Sees B Bt D E os →
    (some (itemName it) ∈ E → SItem k ar (lookedItem find it') E os) ∧ WFitem k (lookedItem find it')
  | .mk _ n _ ids, _, _, _, _, _, _, h, hp, hf, hs => by
    parts h
    obtain ⟨ids', hids, rfl⟩ := h
    simp only [plainIt] at hp
    simp only [fitsItem] at hf
    obtain ⟨h1, h2⟩ := ok_ids hk ids hids hp hf hs
    exact ⟨fun hn => ⟨hn, h1⟩, h2⟩
theorem ok_ids (hk : Known find k ar C) : ∀ (ids : List IdSrc) {B Bt D E os ids'},
    Front.Spec.ids file ids = some ids' → plainIds C B Bt ids → fitsIds D ids → Sees B Bt D E os →
    SIds k ar (lookedIds find ids') E os ∧ WFids k (lookedIds find ids')
  | [], _, _, _, _, _, _, h, _, _, _ => by parts h; subst h; exact ⟨trivial, trivial⟩
  | .str _ _ :: r, _, _, _, _, _, _, h, hp, hf, hs => by
    parts h
    obtain ⟨i, rfl, r', hr, rfl⟩ := h
    simp only [plainIds] at hp
    simp only [fitsIds] at hf
    have := ok_ids hk r hr hp hf hs
    exact this
  | .num _ _ :: r, _, _, _, _, _, _, h, hp, hf, hs => by
    parts h
    obtain ⟨i, rfl, r', hr, rfl⟩ := h
    simp only [plainIds] at hp
    simp only [fitsIds] at hf
    have := ok_ids hk r hr hp hf hs
    exact this
  | .expr e _ :: r, _, _, _, _, _, _, h, hp, hf, hs => by
    parts h
    obtain ⟨i, ⟨e', he, rfl⟩, r', hr, rfl⟩ := h
    simp only [plainIds] at hp
    simp only [fitsIds, after_none hp.1] at hf
    obtain ⟨h1, h2⟩ := ok_expr hk e he hp.2.1 hf.1 hs
    obtain ⟨h3, h4⟩ := ok_ids hk r hr hp.2.2 hf.2 (hs.app [none])
    exact ⟨⟨h1, h3⟩, h2, h4⟩
theorem ok_callee (hk : Known find k ar C) : ∀ (c : Callee) {B Bt D E os name args},
    Front.Spec.callee file c = some (name, args) → plainCallee C B Bt c → fitsCallee D c → Sees B Bt D E os →
    SAll k ar (lookedList find args) E os ∧ (∀ z, SArgs k ar (lookedList find args) (E ++ z) os) ∧
      WFs k (lookedList find args)
  | .plain _ _ args, _, _, _, _, _, _, _, h, hp, hf, hs => by
    parts h
    obtain ⟨es, hes, rfl, rfl⟩ := h
    simp only [plainCallee] at hp
    simp only [fitsCallee] at hf
    exact ok_all hk args hes hp hf hs
  | .named _ _ args, _, _, _, _, _, _, _, h, hp, hf, hs => by
    parts h
    obtain ⟨es, hes, rfl, rfl⟩ := h
    simp only [plainCallee] at hp
    simp only [fitsCallee] at hf
    exact ok_words hk args hes hp hf hs
end
end

end Dyon.Plain
