import Verif.Syntax.PrintStmt

/-!
# C39: `return` in front of a parenthesis or a bracket

For the alternatives `assign` and `compare` of the grammar, which are tried first, `return` is a
name: `return (a, b)` begins with a call of a function `return`, and `return [a]` with an item of
a list `return`.  They still fail unless the expression behind `return` is a comparison.
-/

namespace Dyon.Syn

open Spec

/-- Neither an assignment nor a comparison goes on. -/
def Calm (ts : List Tok) : Prop :=
  (∀ op us, ts ≠ .asg op :: us) ∧ ∀ op us, ts = .bin op :: us → precedence op ≠ 0

/-- Behind `return` the text is not taken for an assignment or a comparison. -/
def RetOk (T : List Tok) : Prop :=
  ∀ rest, Stop (fun k => k < 4 ∧ k ≠ 0) rest → (∀ op us, rest ≠ .asg op :: us) →
    Ev fun n => ∀ l us, gL n (.name "return" :: (T ++ rest)) = some (l, us) → Calm us

/-- Taken for a call of a function `return`. -/
def RetCall (T : List Tok) : Prop :=
  ∃ c, ∀ rest, Ev fun n => gL n (.name "return" :: (T ++ rest)) = gTry (some (c, rest))

theorem calm_of {ts : List Tok} (h : Stop (fun k => k < 4 ∧ k ≠ 0) ts) (ha : ∀ op us, ts ≠ .asg op :: us) : Calm ts :=
  ⟨ha, by rintro op us rfl; exact (h : precedence op < 4 ∧ precedence op ≠ 0).2⟩

theorem RetCall.ok {T : List Tok} (h : RetCall T) : RetOk T := by
  obtain ⟨c, h⟩ := h
  intro rest hr ha
  refine (h rest).mono fun n hn l us hl => ?_
  rw [hn, gTry_stop hr] at hl
  cases hl
  exact calm_of hr ha

theorem RetCall.quest {T : List Tok} (h : RetCall T) : RetOk (T ++ [.quest]) := by
  obtain ⟨c, h⟩ := h
  intro rest hr ha
  refine (h (.quest :: rest)).mono fun n hn l us hl => ?_
  rw [show T ++ [.quest] ++ rest = T ++ .quest :: rest by simp, hn] at hl
  cases hl
  exact calm_of hr ha

theorem retOk_other {T : List Tok} (h : Heads T fun t => leafTok t = true ∧ t ≠ .lp ∧ t ≠ .lb) : RetOk T := by
  obtain ⟨t, ts, rfl, hl, hp, hb⟩ := h
  intro rest _ _
  have hs : Stop (· < 4) (t :: ts ++ rest) := by
    cases t with
    | bin op => cases op <;> first | exact (by decide : precedence .sub < 4) | cases hl
    | lp => exact absurd rfl hp
    | lb => exact absurd rfl hb
    | dot => cases hl
    | quest => cases hl
    | _ => trivial
  have hL := (good_reads (good_var "return")).1.L rfl _ hs
  refine hL.mono fun n hn l us hl' => ?_
  have hn' : gL n (.name "return" :: (t :: ts ++ rest)) = some (unlinked (var "return"), t :: ts ++ rest) := hn
  rw [hn'] at hl'
  cases hl'
  refine ⟨?_, ?_⟩
  · intro op us hc
    simp only [List.cons_append, List.cons.injEq] at hc
    rw [hc.1] at hl
    cases hl
  · intro op us hc
    simp only [List.cons_append, List.cons.injEq] at hc
    rw [hc.1] at hl
    cases op <;> first | decide | cases hl

theorem retCall_of {T : List Tok} {es : List Expr}
    (h : ∀ rest, Ev fun n => gSep n (T ++ .rp :: rest) = some (es, .rp :: rest)) : RetCall (.lp :: T ++ [.rp]) := by
  refine ⟨.call .none "return" es, fun rest => ?_⟩
  refine Ev.succ ((h rest).step fun n hn => ?_)
  rw [show Tok.name "return" :: (.lp :: T ++ [.rp] ++ rest) = .name "return" :: .lp :: (T ++ .rp :: rest) by simp,
    gL_other ⟨_, _, rfl, by simp⟩]
  simp only [gItems, hn]

/-- One expression in parentheses. -/
theorem retCall_one {T : List Tok} {v : Expr} (h : ∀ rest, Ev fun n => gExpr n (T ++ .rp :: rest) = some (v, .rp :: rest)) :
    RetCall (.lp :: T ++ [.rp]) := by
  refine retCall_of (es := [v]) fun rest => (h rest).step fun n hn => ?_
  simp only [gSep, hn]

theorem retCall_vec (shown : List Expr) (hne : shown ≠ []) (ih : ∀ e ∈ shown, ReadsE (printE e) (unlinked e)) :
    RetCall (vecToks (printAll shown)) := by
  match shown with
  | [] => exact absurd rfl hne
  | [x] =>
    have : vecToks (printAll [x]) = .lp :: (printE x ++ [.comma]) ++ [.rp] := by simp [vecToks, printAll]
    rw [this]
    refine retCall_of (es := [unlinked x]) fun rest => ?_
    have h1 := ih x (by simp) (.comma :: .rp :: rest) trivial
    have h2 := reads_sep [] (by simp) (t := .rp) (Or.inl rfl) rest
    refine (h1.and h2).step fun n hn => ?_
    have h2' : gSep n (.rp :: rest) = some ([], .rp :: rest) := hn.2
    rw [show printE x ++ [.comma] ++ .rp :: rest = printE x ++ .comma :: .rp :: rest by simp]
    simp only [gSep, hn.1, h2']
  | x :: y :: zs =>
    have : vecToks (printAll (x :: y :: zs)) = .lp :: commas (printAll (x :: y :: zs)) ++ [.rp] := by
      simp [vecToks, printAll]
    rw [this]
    exact retCall_of fun rest => reads_sep (x :: y :: zs) ih (Or.inl rfl) rest

/-! ## Lists -/

/-- What is behind a constant at the start of an expression. -/
theorem lit_head {e : Expr} (h : Good e) :
    ∀ v ts, printE e = .lit v :: ts → ts = [] ∨ ∃ op us, ts = .bin op :: us := by
  induction h with
  | const v _ => intro w ts hp; simp only [printE] at hp; cases hp; exact Or.inl rfl
  | item name sid cur ids tr _ _ _ =>
    intro w ts hp
    cases cur <;> simp [printE, printItem] at hp
  | callClosure => intro w ts hp; simp [printE] at hp
  | array es => intro w ts hp; simp [printE] at hp
  | vec4 shown m _ _ _ hlast =>
    intro w ts hp
    rw [print_vec shown m hlast] at hp
    unfold vecToks at hp
    split at hp <;> cases hp
  | grab l e => intro w ts hp; simp [printE] at hp
  | tryExpr e => intro w ts hp; simp [printE] at hp
  | try_ e h ht ih =>
    intro w ts hp
    cases h with
    | call f name args hc => simp [printE] at hp; have := print_call (f := f) hc; simp only [printE] at this; rw [this] at hp; simp at hp
    | callClosure => simp [printE] at hp
    | vec4 shown m _ _ _ hlast =>
      simp only [printE] at hp
      have := print_vec shown m hlast
      simp only [printE] at this
      rw [this] at hp
      unfold vecToks at hp
      split at hp <;> cases hp
    | grab => simp [printE] at hp
    | tryExpr => simp [printE] at hp
    | norm f e => simp [printE, printAll, callToks] at hp
    | not f e => simp [printE, printAll, callToks] at hp
    | neg f e => simp [printE, printAll, callToks] at hp
    | bin f op l r =>
      rcases ht with ht | ht
      · have := ht.2 rfl
        rw [opNamed_callName] at this
        cases this
      · exact absurd ht.2 (by simp)
    | const => exact ht.elim
    | item => exact ht.elim
    | array => exact ht.elim
    | try_ => exact ht.elim
  | norm f e => intro w ts hp; simp [printE, printAll, callToks] at hp
  | not f e => intro w ts hp; simp [printE, printAll, callToks] at hp
  | neg f e => intro w ts hp; simp [printE, printAll, callToks] at hp
  | bin f op l r _ _ _ _ ihl _ =>
    intro w ts hp
    rw [print_bin] at hp
    cases hb : needsParens op l false with
    | true => rw [hb] at hp; simp [paren] at hp
    | false =>
      rw [hb] at hp
      simp only [paren, Bool.false_eq_true, if_false] at hp
      cases hl : printE l with
      | nil => rw [hl] at hp; cases hp
      | cons t us =>
        rw [hl] at hp
        simp only [List.cons_append, List.cons.injEq] at hp
        obtain ⟨rfl, rfl⟩ := hp
        rcases ihl w us hl with rfl | ⟨q, vs, rfl⟩
        · exact Or.inr ⟨_, _, rfl⟩
        · exact Or.inr ⟨q, _, rfl⟩
  | call f name args hp' => intro w ts hp; rw [print_call hp'] at hp; simp at hp

/-- A list literal as the index of an item: one index, or none. -/
theorem gId_array (es : List Expr) (hg : ∀ e ∈ es, Good e) (rest : List Tok) :
    Ev fun n => gId n (.lb :: (commas (printAll es) ++ .rb :: rest)) = none ∨
      ∃ d, gId n (.lb :: (commas (printAll es) ++ .rb :: rest)) = some (d, rest) := by
  match es with
  | [] =>
    refine Ev.succ (Ev.of fun n => Or.inl ?_)
    show gId (n + 1) (.lb :: .rb :: rest) = none
    rw [gId_bracket (by simp), closes_none (Or.inr rfl)]
  | e :: es =>
    have he := hg e (by simp)
    obtain ⟨tail, htl, hE, hcase⟩ : ∃ tail, commas (printAll (e :: es)) ++ .rb :: rest = printE e ++ tail ∧
        (Ev fun n => gExpr n (printE e ++ tail) = some (unlinked e, tail)) ∧
        (tail = .rb :: rest ∨ ∃ us, tail = .comma :: us) := by
      cases es with
      | nil =>
        exact ⟨.rb :: rest, by simp [printAll, commas], (good_reads he).1.E _ trivial, Or.inl rfl⟩
      | cons e' es' =>
        exact ⟨.comma :: (commas (printAll (e' :: es')) ++ .rb :: rest), by simp [printAll, commas],
          (good_reads he).1.E _ trivial, Or.inr ⟨_, rfl⟩⟩
    rw [htl]
    obtain ⟨t, ts, ht, _⟩ := leaf_head he
    refine hE.step fun n hn => ?_
    rw [ht] at hn ⊢
    have hgen : (match gExpr n (t :: ts ++ tail) with
        | some (e, .rb :: ts) => some (Id.expr e, ts)
        | _ => none) = none ∨ ∃ d, (match gExpr n (t :: ts ++ tail) with
        | some (e, .rb :: ts) => some (Id.expr e, ts)
        | _ => none) = some (d, rest) := by
      rw [hn]
      rcases hcase with rfl | ⟨us, rfl⟩
      · exact Or.inr ⟨_, rfl⟩
      · exact Or.inl rfl
    have hlit : ∀ v, t = .lit v → (∃ us, ts ++ tail = .rb :: us ∧ us = rest) ∨ ∀ us, ts ++ tail ≠ .rb :: us := by
      rintro v rfl
      rcases lit_head he v ts ht with rfl | ⟨op, us, rfl⟩
      · rcases hcase with rfl | ⟨us, rfl⟩
        · exact Or.inl ⟨rest, rfl, rfl⟩
        · exact Or.inr (by simp)
      · exact Or.inr (by simp)
    cases t with
    | lit v =>
      have hl := hlit v rfl
      cases v with
      | str s =>
        rcases hl with ⟨us, hu, rfl⟩ | hl
        · exact Or.inr ⟨.str s, by simp only [List.cons_append, hu, gId]⟩
        · left
          simp only [List.cons_append, gId]
      | f64 x s =>
        cases s with
        | none =>
          rcases hl with ⟨us, hu, rfl⟩ | hl
          · exact Or.inr ⟨.num x, by simp only [List.cons_append, hu, gId]⟩
          · left
            simp only [List.cons_append, gId]
        | some s => exact hgen
      | _ => exact hgen
    | _ => exact hgen

theorem retOk_array (es : List Expr) (hg : ∀ e ∈ es, Good e) : RetOk (printE (.array es)) := by
  intro rest hr ha
  have heq : printE (.array es) ++ rest = .lb :: (commas (printAll es) ++ .rb :: rest) := by simp [printE]
  rw [heq]
  refine Ev.succ (Ev.succ (Ev.succ ((gId_array es hg rest).step fun n hn l us hl => ?_)))
  rw [gL_other ⟨_, _, rfl, by simp⟩] at hl
  have h1 : gItems (n + 1 + 1 + 1) (.name "return" :: .lb :: (commas (printAll es) ++ .rb :: rest)) =
      match gIds (n + 1) 0 (.lb :: (commas (printAll es) ++ .rb :: rest)) with
        | (ids, tr, ts) => some (.item (.mk "return" none false false ids tr), ts) := rfl
  rw [h1] at hl
  have hids : ∀ m i, gIds m i rest = ([], [], rest) := by
    intro m i
    cases m with
    | zero => rfl
    | succ m => simp only [gIds, gId_stop hr.item]
  rcases hn with hn | ⟨d, hn⟩
  · simp only [gIds, hn] at hl
    cases hl
    exact ⟨by simp, by simp⟩
  · have h2 : gIds (n + 1) 0 (.lb :: (commas (printAll es) ++ .rb :: rest)) = ([d], [], rest) := by
      simp only [gIds, hn]
      split
      · rename_i heq
        cases heq
        exact absurd hr (by simp [Stop])
      · rename_i heq
        cases heq
        rw [hids]
      · rename_i heq
        cases heq
    rw [h2] at hl
    have h3 := gTry_stop (e := .item (.mk "return" none false false [d] [])) hr
    rw [h3] at hl
    cases hl
    exact calm_of hr ha

/-! ## All expressions that are no comparisons -/

theorem retOk {e : Expr} (h : Good e) : 1 ≤ level e → RetOk (printE e) := by
  have other : ∀ {e : Expr}, Good e → (∀ ts, printE e ≠ .lp :: ts) → (∀ ts, printE e ≠ .lb :: ts) → RetOk (printE e) := by
    intro e hg h1 h2
    obtain ⟨t, ts, ht, hl⟩ := leaf_head hg
    exact retOk_other ⟨t, ts, ht, hl, fun h => h1 ts (by rw [ht, h]), fun h => h2 ts (by rw [ht, h])⟩
  have vec : ∀ (shown : List Expr) (m : Nat), shown ≠ [] → (∀ e ∈ shown, Good e) →
      (∀ e, shown.getLast? = some e → isZeroConst e = false) →
      RetCall (printE (.vec4 (shown ++ List.replicate m zeroConst))) := by
    intro shown m hne hg hlast
    rw [print_vec shown m hlast]
    exact retCall_vec shown hne fun e he => (good_reads (hg e he)).1.E
  have grab : ∀ (l : Nat) (e : Expr), Good e → RetCall (printE (.grab l e)) := by
    intro l e hg
    have hR := (good_reads hg).1
    have : printE (.grab l e) = .lp :: grabToks l (printE e) ++ [.rp] := by simp [printE, grabToks]
    rw [this]
    refine retCall_one (gExpr_kw ⟨_, _, rfl, by simp, by simp⟩ (grab_inner l e (head_ne hR) ?_ hR.E))
    intro k ts hc
    obtain ⟨t, us, ht, hk⟩ := good_head hg
    rw [hc] at ht
    exact hk k (List.cons.inj ht).1.symm
  have tryE : ∀ e : Expr, Good e → RetCall (printE (.tryExpr e)) := by
    intro e hg
    have : printE (.tryExpr e) = .lp :: (.kw "try" :: printE e) ++ [.rp] := by simp [printE]
    rw [this]
    exact retCall_one (gExpr_kw ⟨_, _, rfl, by simp, by simp⟩ (try_inner e (good_reads hg).1.E))
  induction h with
  | const v hv => exact fun _ => other (.const v hv) (by simp [printE]) (by simp [printE])
  | item name sid cur ids tr h1 h2 h3 =>
    refine fun _ => other (.item name sid cur ids tr h1 h2 h3) ?_ ?_ <;> cases cur <;> simp [printE, printItem]
  | callClosure name sid cur ids tr args h1 h2 h3 h4 =>
    exact fun _ => other (.callClosure name sid cur ids tr args h1 h2 h3 h4) (by simp [printE]) (by simp [printE])
  | array es h => exact fun _ => retOk_array es h
  | vec4 shown m _ hne h3 hlast => exact fun _ => (vec shown m hne h3 hlast).ok
  | grab l e h => exact fun _ => (grab l e h).ok
  | tryExpr e h => exact fun _ => (tryE e h).ok
  | try_ e h ht ih =>
    intro _
    have hp : printE (.try_ e) = printE e ++ [.quest] := by simp only [printE]
    by_cases hlp : ∃ ts, printE e = .lp :: ts
    · rw [hp]
      cases h with
      | vec4 shown m _ hne h3 hlast => exact (vec shown m hne h3 hlast).quest
      | grab l e h => exact (grab l e h).quest
      | tryExpr e h => exact (tryE e h).quest
      | callClosure => simp [printE] at hlp
      | call f name args hc => rw [print_call hc] at hlp; simp at hlp
      | norm f e => simp [printE, printAll, callToks] at hlp
      | not f e => simp [printE, printAll, callToks] at hlp
      | neg f e => simp [printE, printAll, callToks] at hlp
      | bin f op l r =>
        rcases ht with ht | ht
        · have := ht.2 rfl
          rw [opNamed_callName] at this
          cases this
        · exact absurd ht.2 (by simp)
      | const => exact ht.elim
      | item => exact ht.elim
      | array => exact ht.elim
      | try_ => exact ht.elim
    · have hna : ¬ isArr e := by cases e <;> first | exact ht.elim | exact id
      obtain ⟨t, ts, hts, hl⟩ := leaf_head h
      obtain ⟨u, us, hu, hk⟩ := (good_reads h).1.head
      rw [hp, hts]
      refine retOk_other ⟨t, ts ++ [.quest], rfl, hl, fun hc => hlp ⟨ts, by rw [hts, hc]⟩, fun hc => hna (hk.1 ?_)⟩
      rw [hts] at hu
      exact (List.cons.inj hu).1.symm.trans hc
  | norm f e h => exact fun _ => other (.norm f e h) (by simp [printE, printAll, callToks]) (by simp [printE, printAll, callToks])
  | not f e h hl => exact fun _ => other (.not f e h hl) (by simp [printE, printAll, callToks]) (by simp [printE, printAll, callToks])
  | neg f e h hl => exact fun _ => other (.neg f e h hl) (by simp [printE, printAll, callToks]) (by simp [printE, printAll, callToks])
  | bin f op l r hgl _ hl _ ihl _ =>
    intro hlev
    rw [level_bin] at hlev
    have hp4 : precedence op < 4 ∧ precedence op ≠ 0 := ⟨by cases op <;> decide, by omega⟩
    have hR : RetOk (paren (needsParens op l false) (printE l)) := by
      cases hb : needsParens op l false with
      | true => exact (retCall_one fun rest => (good_reads hgl).1.E (.rp :: rest) trivial).ok
      | false =>
        refine ihl ?_
        rcases hl with hl | ⟨_, hl⟩
        · rw [hb] at hl; cases hl
        · omega
    intro rest _ _
    rw [print_bin, List.append_assoc]
    exact hR _ hp4 (by simp)
  | call f name args hp h =>
    refine fun _ => other (.call f name args hp h) ?_ ?_ <;> (rw [print_call hp]; simp)

end Dyon.Syn
