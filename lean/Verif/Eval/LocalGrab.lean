import Verif.Eval.LocalEval

/-!
# Evaluation stays within reach: grab

Lemmas for C77.
-/

namespace Dyon.Loc

variable {rd : Prop} {c : ECfg} {va ra : Nat → Nat} {P : Nat → Prop} {ev : Evl} {α β : Type} {st0 : St}

/-- What grab gives is within reach. -/
def GIn (P : Nat → Prop) (Q : α → Prop) : Option Val ⊕ α → Prop
  | .inl x => RIn P (x, .ret)
  | .inr a => Q a

theorem Ok.gbind {m : GM α} {f : α → GM β} {Q : α → Prop} {R : β → Prop}
    (hm : Ok rd c va ra P st0 (GIn P Q) m) (hf : ∀ a, Q a → Ok rd c va ra P st0 (GIn P R) (f a)) :
    Ok rd c va ra P st0 (GIn P R) (gbind m f) := by
  refine .bind hm fun r hr => ?_
  cases r with
  | inl x => exact .pure hr
  | inr a => exact hf a hr

theorem Ok.gpure {Q : α → Prop} {a : α} (h : Q a) : Ok rd c va ra P st0 (GIn P Q) (gpure a) := .pure h

theorem elifsIn_zip {cs : List Expr} {bs : List (List Expr)} (hc : EsIn P cs)
    (hb : ∀ b ∈ bs, EsIn P b) : ElifsIn P (cs.zip bs) := by
  induction cs generalizing bs with
  | nil => simp [ElifsIn]
  | cons e cs ih =>
    rw [EsIn] at hc
    cases bs with
    | nil => simp [ElifsIn]
    | cons b bs =>
      simp only [List.zip_cons_cons, ElifsIn]
      exact ⟨hc.1, hb b (by simp), ih hc.2 fun b h => hb b (by simp [h])⟩

mutual
theorem Ok.grabExpr (hev : Loc rd c va ra P ev) (n side level) : (e : Expr) →
    e.WF (Dyon.kOf c va ra st0) → EIn P e →
    Ok rd c va ra P st0 (GIn P (EIn P)) (grabExpr n ev side level e)
  | .grab l e => by
    intro hw hc
    rw [Dyon.grabExpr]
    refine .ite (fun _ => ?_) fun _ => .gpure hc
    rw [Expr.WF] at hw
    rw [EIn] at hc
    refine .wantK hev hw hc (fun x f h => .pure h.of) fun v hv =>
      .bind (.calm (.cloneE hv)) fun w hw => .gpure ?_
    rw [EIn]; exact hw
  | .ret e => by
    intro hw hc
    rw [Dyon.grabExpr]; rw [Expr.WF] at hw; rw [EIn] at hc
    exact .gbind (Ok.grabExpr hev n side level e hw hc) fun e' he => .gpure (by rw [EIn]; exact he)
  | .try_ e => by
    intro hw hc
    rw [Dyon.grabExpr]; rw [Expr.WF] at hw; rw [EIn] at hc
    exact .gbind (Ok.grabExpr hev n side level e hw hc) fun e' he => .gpure (by rw [EIn]; exact he)
  | .retVoid => by intro hw hc; rw [Dyon.grabExpr]; exact .gpure hc
  | .brk l => by intro hw hc; rw [Dyon.grabExpr]; exact .gpure hc
  | .cont l => by intro hw hc; rw [Dyon.grabExpr]; exact .gpure hc
  | .const v => by intro hw hc; rw [Dyon.grabExpr]; exact .gpure hc
  | .in_ f => by intro hw hc; rw [Dyon.grabExpr]; exact .gpure hc
  | .closure args cur r f e => by
    intro hw hc
    rw [Dyon.grabExpr]; rw [Expr.WF] at hw; rw [EIn] at hc
    exact .gbind (Ok.grabExpr hev n side (level + 1) e hw hc) fun e' he =>
      .gpure (by rw [EIn]; exact he)
  | .item it => by
    intro hw hc
    rw [Dyon.grabExpr]; rw [Expr.WF] at hw; rw [EIn] at hc
    exact .gbind (Ok.grabItem hev n side level it hw hc) fun e' he => .gpure (by rw [EIn]; exact he)
  | .block es => by
    intro hw hc
    rw [Dyon.grabExpr]; rw [Expr.WF] at hw; rw [EIn] at hc
    exact .gbind (Ok.grabList hev n side level es hw hc) fun e' he => .gpure (by rw [EIn]; exact he)
  | .assign op l r => by
    intro hw hc
    rw [Dyon.grabExpr]; rw [Expr.WF] at hw; rw [EIn] at hc
    exact .gbind (Ok.grabExpr hev n side level l hw.1 hc.1) fun l' hl =>
      .gbind (Ok.grabExpr hev n side level r hw.2 hc.2) fun r' hr =>
      .gpure (by rw [EIn]; exact ⟨hl, hr⟩)
  | .ite cnd t elifs els => by
    intro hw hc
    rw [Dyon.grabExpr]; rw [Expr.WF] at hw; rw [EIn] at hc
    exact .gbind (Ok.grabExpr hev n side level cnd hw.1 hc.1) fun c' h1 =>
      .gbind (Ok.grabList hev n side level t hw.2.1 hc.2.1) fun t' h2 =>
      .gbind (Ok.grabConds hev n side level elifs hw.2.2.1 hc.2.2.1) fun cs' h3 =>
      .gbind (Ok.grabBlocks hev n side level elifs hw.2.2.1 hc.2.2.1) fun bs' h4 =>
      .gbind (Ok.grabOptList hev n side level els hw.2.2.2 hc.2.2.2) fun els' h5 =>
      .gpure (by rw [EIn]; exact ⟨h1, h2, elifsIn_zip h3 h4, h5⟩)
  | .go name args => by
    intro hw hc
    rw [Dyon.grabExpr]; rw [Expr.WF] at hw; rw [EIn] at hc
    exact .gbind (Ok.grabList hev n side level args hw hc) fun e' he => .gpure (by rw [EIn]; exact he)
  | .call f name args => by
    intro hw hc
    rw [Dyon.grabExpr]; rw [EIn] at hc
    have hw : WFs (Dyon.kOf c va ra st0) args := by cases f <;> simp only [Expr.WF] at hw <;> exact hw.1
    exact .gbind (Ok.grabList hev n side level args hw hc) fun e' he => .gpure (by rw [EIn]; exact he)
  | .callClosure it args => by
    intro hw hc
    rw [Dyon.grabExpr]; rw [Expr.WF] at hw; rw [EIn] at hc
    exact .gbind (Ok.grabItem hev n side level it hw.1 hc.1) fun l' hl =>
      .gbind (Ok.grabList hev n side level args hw.2 hc.2) fun r' hr =>
      .gpure (by rw [EIn]; exact ⟨hl, hr⟩)
  | .forN kd name start stop body label => by
    intro hw hc
    rw [Dyon.grabExpr]; rw [Expr.WF] at hw; rw [EIn] at hc
    exact .gbind (Ok.grabOpt hev n side level start hw.1 hc.1) fun c' h1 =>
      .gbind (Ok.grabExpr hev n side level stop hw.2.1 hc.2.1) fun t' h2 =>
      .gbind (Ok.grabList hev n side level body hw.2.2.1 hc.2.2) fun cs' h3 =>
      .gpure (by rw [EIn]; exact ⟨h1, h2, h3⟩)
  | .vec4 args => by
    intro hw hc
    rw [Dyon.grabExpr]; rw [Expr.WF] at hw; rw [EIn] at hc
    exact .gbind (Ok.grabList hev n side level args hw.1 hc) fun e' he =>
      .gpure (by rw [EIn]; exact he)
  | .mat4 args => by
    intro hw hc
    rw [Dyon.grabExpr]; rw [Expr.WF] at hw; rw [EIn] at hc
    exact .gbind (Ok.grabList hev n side level args hw.1 hc) fun e' he =>
      .gpure (by rw [EIn]; exact he)
  | .link items => by
    intro hw hc
    rw [Dyon.grabExpr]; rw [Expr.WF] at hw; rw [EIn] at hc
    exact .gbind (Ok.grabList hev n side level items hw hc) fun e' he =>
      .gpure (by rw [EIn]; exact he)
  | .object kvs => by
    intro hw hc
    rw [Dyon.grabExpr]; rw [Expr.WF] at hw; rw [EIn] at hc
    exact .gbind (Ok.grabKVs hev n side level kvs hw hc) fun e' he => .gpure (by rw [EIn]; exact he)
  | .array items => by
    intro hw hc
    rw [Dyon.grabExpr]; rw [Expr.WF] at hw; rw [EIn] at hc
    exact .gbind (Ok.grabList hev n side level items hw hc) fun e' he =>
      .gpure (by rw [EIn]; exact he)
  | .arrayFill f m => by
    intro hw hc
    rw [Dyon.grabExpr]; rw [Expr.WF] at hw; rw [EIn] at hc
    exact .gbind (Ok.grabExpr hev n side level f hw.1 hc.1) fun l' hl =>
      .gbind (Ok.grabExpr hev n side level m hw.2 hc.2) fun r' hr =>
      .gpure (by rw [EIn]; exact ⟨hl, hr⟩)
  | .for_ i cnd stp b label => by
    intro hw hc
    rw [Dyon.grabExpr]; rw [Expr.WF] at hw; rw [EIn] at hc
    exact .gbind (Ok.grabExpr hev n side level i hw.1 hc.1) fun c' h1 =>
      .gbind (Ok.grabExpr hev n side level cnd hw.2.1 hc.2.1) fun t' h2 =>
      .gbind (Ok.grabExpr hev n side level stp hw.2.2.1 hc.2.2.1) fun cs' h3 =>
      .gbind (Ok.grabList hev n side level b hw.2.2.2 hc.2.2.2) fun bs' h4 =>
      .gpure (by rw [EIn]; exact ⟨h1, h2, h3, h4⟩)
  | .forIn kd name iter body label => by
    intro hw hc
    rw [Dyon.grabExpr]; rw [Expr.WF] at hw; rw [EIn] at hc
    exact .gbind (Ok.grabExpr hev n side level iter hw.1 hc.1) fun l' hl =>
      .gbind (Ok.grabList hev n side level body hw.2.1 hc.2) fun r' hr =>
      .gpure (by rw [EIn]; exact ⟨hl, hr⟩)
  | .swizzle sel e => by
    intro hw hc
    rw [Dyon.grabExpr]; rw [Expr.WF] at hw; rw [EIn] at hc
    exact .gbind (Ok.grabExpr hev n side level e hw hc) fun e' he => .gpure (by rw [EIn]; exact he)
  | .tryExpr e => by
    intro hw hc
    rw [Dyon.grabExpr]; rw [Expr.WF] at hw; rw [EIn] at hc
    exact .gbind (Ok.grabExpr hev n side level e hw hc) fun e' he => .gpure (by rw [EIn]; exact he)
theorem Ok.grabList (hev : Loc rd c va ra P ev) (n side level) : (es : List Expr) →
    WFs (Dyon.kOf c va ra st0) es → EsIn P es →
    Ok rd c va ra P st0 (GIn P (EsIn P)) (grabList n ev side level es)
  | [] => by intro hw hc; rw [Dyon.grabList]; exact .gpure hc
  | e :: es => by
    intro hw hc
    rw [Dyon.grabList]; rw [WFs] at hw; rw [EsIn] at hc
    exact .gbind (Ok.grabExpr hev n side level e hw.1 hc.1) fun l' hl =>
      .gbind (Ok.grabList hev n side level es hw.2 hc.2) fun r' hr =>
      .gpure (by rw [EsIn]; exact ⟨hl, hr⟩)
theorem Ok.grabKVs (hev : Loc rd c va ra P ev) (n side level) : (es : List (String × Expr)) →
    WFkvs (Dyon.kOf c va ra st0) es → KvsIn P es →
    Ok rd c va ra P st0 (GIn P (KvsIn P)) (grabKVs n ev side level es)
  | [] => by intro hw hc; rw [Dyon.grabKVs]; exact .gpure hc
  | (k, e) :: es => by
    intro hw hc
    rw [Dyon.grabKVs]; rw [WFkvs] at hw; rw [KvsIn] at hc
    exact .gbind (Ok.grabExpr hev n side level e hw.1 hc.1) fun l' hl =>
      .gbind (Ok.grabKVs hev n side level es hw.2 hc.2) fun r' hr =>
      .gpure (by rw [KvsIn]; exact ⟨hl, hr⟩)
theorem Ok.grabConds (hev : Loc rd c va ra P ev) (n side level) : (es : List (Expr × List Expr)) →
    WFelifs (Dyon.kOf c va ra st0) es → ElifsIn P es →
    Ok rd c va ra P st0 (GIn P (EsIn P)) (grabConds n ev side level es)
  | [] => by intro hw hc; rw [Dyon.grabConds]; exact .gpure (by simp [EsIn])
  | (e, b) :: es => by
    intro hw hc
    rw [Dyon.grabConds]; rw [WFelifs] at hw; rw [ElifsIn] at hc
    exact .gbind (Ok.grabExpr hev n side level e hw.1 hc.1) fun l' hl =>
      .gbind (Ok.grabConds hev n side level es hw.2.2 hc.2.2) fun r' hr =>
      .gpure (by rw [EsIn]; exact ⟨hl, hr⟩)
theorem Ok.grabBlocks (hev : Loc rd c va ra P ev) (n side level) : (es : List (Expr × List Expr)) →
    WFelifs (Dyon.kOf c va ra st0) es → ElifsIn P es →
    Ok rd c va ra P st0 (GIn P fun bs => ∀ b ∈ bs, EsIn P b) (grabBlocks n ev side level es)
  | [] => by intro hw hc; rw [Dyon.grabBlocks]; exact .gpure (by simp)
  | (e, b) :: es => by
    intro hw hc
    rw [Dyon.grabBlocks]; rw [WFelifs] at hw; rw [ElifsIn] at hc
    refine .gbind (Ok.grabList hev n side level b hw.2.1 hc.2.1) fun l' hl =>
      .gbind (Ok.grabBlocks hev n side level es hw.2.2 hc.2.2) fun r' hr => .gpure ?_
    intro x hx
    rcases List.mem_cons.1 hx with rfl | hx
    · exact hl
    · exact hr x hx
theorem Ok.grabOptList (hev : Loc rd c va ra P ev) (n side level) : (es : Option (List Expr)) →
    WFoptList (Dyon.kOf c va ra st0) es → OptListIn P es →
    Ok rd c va ra P st0 (GIn P (OptListIn P)) (grabOptList n ev side level es)
  | none => by intro hw hc; rw [Dyon.grabOptList]; exact .gpure hc
  | some b => by
    intro hw hc
    rw [Dyon.grabOptList]; rw [WFoptList] at hw; rw [OptListIn] at hc
    exact .gbind (Ok.grabList hev n side level b hw hc) fun e' he =>
      .gpure (by rw [OptListIn]; exact he)
theorem Ok.grabOpt (hev : Loc rd c va ra P ev) (n side level) : (es : Option Expr) →
    WFopt (Dyon.kOf c va ra st0) es → OptIn P es →
    Ok rd c va ra P st0 (GIn P (OptIn P)) (grabOpt n ev side level es)
  | none => by intro hw hc; rw [Dyon.grabOpt]; exact .gpure hc
  | some b => by
    intro hw hc
    rw [Dyon.grabOpt]; rw [WFopt] at hw; rw [OptIn] at hc
    exact .gbind (Ok.grabExpr hev n side level b hw hc) fun e' he =>
      .gpure (by rw [OptIn]; exact he)
theorem Ok.grabItem (hev : Loc rd c va ra P ev) (n side level) : (it : Item) →
    WFitem (Dyon.kOf c va ra st0) it → ItemIn P it →
    Ok rd c va ra P st0 (GIn P (ItemIn P)) (grabItem n ev side level it)
  | .mk name sid cur t ids tids => by
    intro hw hc
    rw [Dyon.grabItem]; rw [WFitem] at hw; rw [ItemIn] at hc
    exact .gbind (Ok.grabIds hev n side level ids hw hc) fun e' he =>
      .gpure (by rw [ItemIn]; exact he)
theorem Ok.grabIds (hev : Loc rd c va ra P ev) (n side level) : (ids : List Id) →
    WFids (Dyon.kOf c va ra st0) ids → IdsIn P ids →
    Ok rd c va ra P st0 (GIn P (IdsIn P)) (grabIds n ev side level ids)
  | [] => by intro hw hc; rw [Dyon.grabIds]; exact .gpure hc
  | .str x :: r => by
    intro hw hc
    simp only [Dyon.grabIds, WFids, IdsIn] at *
    exact .gbind (Ok.grabIds hev n side level r hw hc) fun e' he =>
      .gpure (by simpa only [IdsIn] using he)
  | .num x :: r => by
    intro hw hc
    simp only [Dyon.grabIds, WFids, IdsIn] at *
    exact .gbind (Ok.grabIds hev n side level r hw hc) fun e' he =>
      .gpure (by simpa only [IdsIn] using he)
  | .expr e :: r => by
    intro hw hc
    simp only [Dyon.grabIds, WFids, IdsIn] at *
    exact .gbind (Ok.grabExpr hev n side level e hw.1 hc.1) fun e' he =>
      .gbind (Ok.grabIds hev n side level r hw.2 hc.2) fun r' hr =>
      .gpure (by simp only [IdsIn]; exact ⟨he, hr⟩)
end

end Dyon.Loc
