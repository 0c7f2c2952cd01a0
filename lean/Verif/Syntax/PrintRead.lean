import Verif.Syntax.PrintLemmas

/-!
# C39: every good expression is read back

The induction behind `C39_round_trip_partial`.
-/

namespace Dyon.Syn

open Spec

/-- How the printed form of an expression is read, in every position it may be printed in. -/
structure Reads (e : Expr) : Prop where
  L : level e = 4 → ReadsL (printE e) (unlinked e)
  head : Heads (printE e) fun t => (t = .lb → isArr e) ∧ (t = .bin .sub → level e < 3)
  F : 3 ≤ level e → ReadsF 3 (printE e) (unlinked e)
  N : isNeg e → ReadsF 2 (printE e) (unlinked e)
  Mk : 2 ≤ level e → ¬ endsNeg e → ReadsMk (printE e) (unlinked e)
  M : 2 ≤ level e → ReadsM (printE e) (unlinked e)
  Dk : 1 ≤ level e → ReadsDk (printE e) (unlinked e)
  NC : 1 ≤ level e → NoCmp (printE e)
  E : ReadsE (printE e) (unlinked e)

theorem Heads.imp {T : List Tok} {p q : Tok → Prop} (h : Heads T p) (hpq : ∀ t, p t → q t) : Heads T q :=
  let ⟨t, ts, ht, hp⟩ := h; ⟨t, ts, ht, hpq t hp⟩

theorem isNeg_level {e : Expr} (h : isNeg e) : level e = 2 := by
  unfold isNeg at h
  split at h
  · simp [level, h]
  · exact h.elim

theorem ReadsF.mono {j k : Nat} {T v} (h : ReadsF k T v) (hjk : j ≤ k) : ReadsF j T v :=
  fun rest hr => h rest (hr.mono (by omega))

/-- Closed expressions. -/
theorem Reads.closed {e : Expr} (hl : level e = 4) (hL : ReadsL (printE e) (unlinked e))
    (hh : Heads (printE e) fun t => t ≠ .bin .sub ∧ (t = .lb → isArr e))
    (hE : isArr e → ReadsE (printE e) (unlinked e)) : Reads e := by
  have hF := hL.toF (hh.imp fun t ht => ht.1)
  refine ⟨fun _ => hL, hh.imp fun t ht => ⟨ht.2, fun h => absurd h ht.1⟩, fun _ => hF,
    fun h => absurd (isNeg_level h) (by omega), fun _ _ => hF.toMk, fun _ => hF.toMk.toM,
    fun _ => hF.toMk.toM.toDk, fun _ => hL.toNoCmp, ?_⟩
  by_cases ha : isArr e
  · exact hE ha
  · exact toE (hh.imp fun t ht h => ha (ht.2 h)) hL.toNoCmp hF.toMk.toM.toDk

/-- Closed expressions other than arrays: what `items` does with them. -/
theorem Reads.ofItems {e : Expr} (hl : level e = 4)
    (hh : Heads (printE e) fun t => t ≠ .bin .sub ∧ t ≠ .lb)
    (hI : ∀ rest, Stop (· < 4) rest → Ev fun n => gItems n (printE e ++ rest) = some (unlinked e, rest)) :
    Reads e := by
  refine Reads.closed hl ?_ (hh.imp fun t ht => ⟨ht.1, fun h => absurd h ht.2⟩) ?_
  · intro rest hr
    refine (hI rest hr).step fun n hn => ?_
    rw [gL_other ((hh.imp fun t ht => ht.2).append rest), hn]
    exact gTry_stop hr
  · intro ha
    obtain ⟨t, ts, ht, hp⟩ := hh
    cases e <;> first | exact ha.elim | (simp only [printE] at ht; exact absurd (List.cons.inj ht).1.symm hp.2)

theorem print_call {f : FnIndex} {name : String} {args : List Expr} (h : PlainCall name args) :
    printE (.call f name args) = .name name :: .lp :: commas (printAll args) ++ [.rp] := by
  match args with
  | [] => simp [printE, printAll, callToks]
  | [a] =>
    obtain ⟨h1, h2, h3⟩ := h.1 rfl
    simp [printE, printAll, callToks, h1, h2, h3, commas]
  | [a, b] => simp [printE, printAll, callToks, h.2 rfl]
  | a :: b :: c :: ds => simp [printE, printAll, callToks]

theorem opNamed_callName (op : BinOp) : opNamed (callName op) = some op := by cases op <;> rfl

theorem print_bin (f : FnIndex) (op : BinOp) (l r : Expr) :
    printE (.call f (callName op) [l, r]) =
      paren (needsParens op l false) (printE l) ++ .bin op :: paren (needsParens op r true) (printE r) := by
  simp [printE, printAll, callToks, opNamed_callName]

theorem level_bin (f : FnIndex) (op : BinOp) (l r : Expr) : level (.call f (callName op) [l, r]) = precedence op := by
  simp [level, opNamed_callName]

theorem level_plain {f : FnIndex} {name : String} {args : List Expr} (h : PlainCall name args) :
    level (.call f name args) = 4 := by
  match args with
  | [] => rfl
  | [a] => simp [level, (h.1 rfl).2.2]
  | [a, b] => simp [level, h.2 rfl]
  | a :: b :: c :: ds => rfl

theorem tryable_level {e : Expr} (h : Tryable e) : level e = 4 := by
  cases e with
  | call f name args =>
    rcases h with h | ⟨rfl, h⟩
    · exact level_plain h
    · match args, h with
      | [a], _ => rfl
  | callClosure _ _ => rfl
  | grab _ _ => rfl
  | tryExpr _ => rfl
  | vec4 _ => rfl
  | _ => exact h.elim

/-- What is behind a `?`-able expression is read by `items`, before the `?`. -/
theorem ReadsL.quest {T : List Tok} {v : Expr} (hT : Heads T (· ≠ .lb))
    (hI : ∀ rest, Ev fun n => gItems n (T ++ rest) = some (v, rest)) : ReadsL (T ++ [.quest]) (.try_ v) := by
  intro rest hr
  refine (hI (.quest :: rest)).step fun n hn => ?_
  have : T ++ [.quest] ++ rest = T ++ .quest :: rest := by simp
  rw [this, gL_other (hT.append _), hn]
  rfl

/-! ## The cases -/

theorem reads_vec (shown : List Expr) (m : Nat) (hlen : shown.length + m = 4) (hne : shown ≠ [])
    (ih : ∀ e ∈ shown, ReadsE (printE e) (unlinked e)) (rest : List Tok) :
    Ev fun n => gItems n (vecToks (printAll shown) ++ rest) =
      some (.vec4 (unlinkedAll shown ++ List.replicate m zeroConst), rest) := by
  have hul : ∀ es, (unlinkedAll es).length = es.length := by
    intro es
    induction es with
    | nil => rfl
    | cons e es ih => simp [unlinkedAll, ih]
  cases shown with
  | nil => exact absurd rfl hne
  | cons x ys =>
    have hx := ih x (by simp)
    cases ys with
    | nil =>
      have h1 := hx (.comma :: .rp :: rest) trivial
      have h2 := reads_sep [] (by simp) (t := .rp) (Or.inl rfl) rest
      have hv : Ev fun n => gVec n (printE x ++ .comma :: .rp :: rest) =
          some (.vec4 ([unlinked x] ++ List.replicate 3 zeroConst), rest) := by
        refine (h1.and h2).step fun n hn => ?_
        have h2' : gSep n (.rp :: rest) = some ([], .rp :: rest) := hn.2
        simp only [gVec, hn.1, h2']
        rfl
      refine hv.step fun n hn => ?_
      have : vecToks (printAll [x]) ++ rest = .lp :: (printE x ++ .comma :: .rp :: rest) := by
        simp [printAll, vecToks]
      rw [this]
      simp only [gItems, hn]
      have hm : m = 3 := by simp at hlen; omega
      subst hm
      rfl
    | cons y zs =>
      have h1 := hx (.comma :: (commas (printAll (y :: zs)) ++ .rp :: rest)) trivial
      have h2 := reads_sep (y :: zs) (fun e he => ih e (by simp [he])) (t := .rp) (Or.inl rfl) rest
      have hv : Ev fun n => gVec n (printE x ++ .comma :: (commas (printAll (y :: zs)) ++ .rp :: rest)) =
          some (.vec4 (unlinkedAll (x :: y :: zs) ++ List.replicate m zeroConst), rest) := by
        refine (h1.and h2).step fun n hn => ?_
        simp only [gVec, hn.1, hn.2]
        have hl := hul (y :: zs)
        simp only [List.length_cons] at hl hlen
        rw [if_pos (by omega)]
        have : 3 - (unlinkedAll (y :: zs)).length = m := by omega
        rw [this]
        rfl
      refine hv.step fun n hn => ?_
      have : vecToks (printAll (x :: y :: zs)) ++ rest =
          .lp :: (printE x ++ .comma :: (commas (printAll (y :: zs)) ++ .rp :: rest)) := by
        simp [printAll, vecToks, commas]
      rw [this]
      simp only [gItems, hn]

theorem printAll_append (a b : List Expr) : printAll (a ++ b) = printAll a ++ printAll b := by
  induction a with
  | nil => rfl
  | cons e a ih => simp [printAll, ih]

theorem printAll_length (a : List Expr) : (printAll a).length = a.length := by
  induction a with
  | nil => rfl
  | cons e a ih => simp [printAll, ih]

theorem vecShown_append (shown : List Expr) (m : Nat)
    (hlast : ∀ e, shown.getLast? = some e → isZeroConst e = false) :
    vecShown (shown ++ List.replicate m zeroConst) = shown.length := by
  unfold vecShown
  have hz : isZeroConst zeroConst = true := by simp [zeroConst, isZeroConst]
  rw [List.reverse_append, List.reverse_replicate, List.dropWhile_append]
  have : (List.replicate m zeroConst).dropWhile isZeroConst = [] := by
    induction m with
    | zero => rfl
    | succ m ih => rw [List.replicate_succ, List.dropWhile_cons, if_pos hz, ih]
  rw [this]
  simp only [List.isEmpty_nil, if_true]
  rcases List.eq_nil_or_concat shown with rfl | ⟨init, e, rfl⟩
  · rfl
  · have he : isZeroConst e = false := hlast e (by simp)
    simp [he]

theorem unlinkedAll_append (a b : List Expr) : unlinkedAll (a ++ b) = unlinkedAll a ++ unlinkedAll b := by
  induction a with
  | nil => rfl
  | cons e a ih => simp [unlinkedAll, ih]

theorem unlinkedAll_replicate (m : Nat) : unlinkedAll (List.replicate m zeroConst) = List.replicate m zeroConst := by
  induction m with
  | zero => rfl
  | succ m ih => simp only [List.replicate_succ, unlinkedAll, ih]; rfl

theorem print_vec (shown : List Expr) (m : Nat)
    (hlast : ∀ e, shown.getLast? = some e → isZeroConst e = false) :
    printE (.vec4 (shown ++ List.replicate m zeroConst)) = vecToks (printAll shown) := by
  simp only [printE, vecShown_append shown m hlast, printAll_append]
  rw [← printAll_length shown, List.take_left]

theorem gItems_vec (shown : List Expr) (m : Nat) (hlen : shown.length + m = 4) (hne : shown ≠ [])
    (ih : ∀ e ∈ shown, ReadsE (printE e) (unlinked e))
    (hlast : ∀ e, shown.getLast? = some e → isZeroConst e = false) (rest : List Tok) :
    Ev fun n => gItems n (printE (.vec4 (shown ++ List.replicate m zeroConst)) ++ rest) =
      some (unlinked (.vec4 (shown ++ List.replicate m zeroConst)), rest) := by
  rw [print_vec shown m hlast]
  simp only [unlinked, unlinkedAll_append, unlinkedAll_replicate]
  exact reads_vec shown m hlen hne ih rest

theorem gItems_call (f : FnIndex) (name : String) (args : List Expr) (hp : PlainCall name args)
    (ih : ∀ a ∈ args, ReadsE (printE a) (unlinked a)) (rest : List Tok) :
    Ev fun n => gItems n (printE (.call f name args) ++ rest) = some (unlinked (.call f name args), rest) := by
  rw [print_call hp]
  refine (reads_sep args ih (t := .rp) (Or.inl rfl) rest).step fun n hn => ?_
  have : (.name name :: .lp :: commas (printAll args) ++ [.rp]) ++ rest =
      Tok.name name :: .lp :: (commas (printAll args) ++ .rp :: rest) := by simp
  rw [this]
  simp only [gItems, hn, unlinked]

theorem gItems_norm (f : FnIndex) (e : Expr) (ih : ReadsE (printE e) (unlinked e)) (rest : List Tok) :
    Ev fun n => gItems n (printE (.call f "norm" [e]) ++ rest) = some (unlinked (.call f "norm" [e]), rest) := by
  refine (ih (.bar :: rest) trivial).step fun n hn => ?_
  have : printE (.call f "norm" [e]) ++ rest = .bar :: (printE e ++ .bar :: rest) := by
    simp [printE, printAll, callToks]
  rw [this]
  simp only [gItems, hn, unlinked, unlinkedAll]

theorem gItems_paren {T : List Tok} {v : Expr} (hT : ReadsE T v) (rest : List Tok) :
    Ev fun n => gItems n (.lp :: (T ++ .rp :: rest)) = some (v, rest) := by
  have h1 := hT (.rp :: rest) trivial
  have h2 : Ev fun n => gVec n (T ++ .rp :: rest) = none := by
    refine h1.step fun n hn => ?_
    simp only [gVec, hn]
  refine (h1.and h2).step fun n hn => ?_
  simp only [gItems, hn.1, hn.2]

/-- A keyword with an expression behind it. -/
theorem gExpr_kw {T : List Tok} {v : Expr} (hh : Heads T fun t => t ≠ .bin .sub ∧ t ≠ .lb)
    (hI : ∀ rest, Ev fun n => gItems n (T ++ .rp :: rest) = some (v, .rp :: rest)) (rest : List Tok) :
    Ev fun n => gExpr n (T ++ .rp :: rest) = some (v, .rp :: rest) := by
  have hL : Ev fun n => gL n (T ++ .rp :: rest) = some (v, .rp :: rest) := by
    refine (hI rest).step fun n hn => ?_
    rw [gL_other ((hh.imp fun t ht => ht.2).append _), hn]
    rfl
  have hF : Ev fun n => gFactor n (T ++ .rp :: rest) = some (v, .rp :: rest) := by
    refine hL.step fun n hn => ?_
    rw [gFactor_other ((hh.imp fun t ht => ht.1).append _), hn]
  have hM : Ev fun n => gMul n (T ++ .rp :: rest) = some (v, .rp :: rest) := by
    refine (hF.and (Ev.succ (Ev.of fun n => gMulRest_stop (v := v) (rest := .rp :: rest) trivial n) :
      Ev fun n => gMulRest n v (.rp :: rest) = some (v, .rp :: rest))).step fun n hn => ?_
    simp only [gMul, hn.1]
    exact hn.2
  have hA : Ev fun n => gAdd n (T ++ .rp :: rest) = some (v, .rp :: rest) := by
    refine (hM.and (Ev.succ (Ev.of fun n => gAddRest_stop (v := v) (rest := .rp :: rest) trivial n) :
      Ev fun n => gAddRest n v (.rp :: rest) = some (v, .rp :: rest))).step fun n hn => ?_
    simp only [gAdd, hn.1]
    exact hn.2
  have hC : Ev fun n => gCompare n (T ++ .rp :: rest) = none := by
    refine hL.step fun n hn => ?_
    simp only [gCompare, hn]
  refine (hC.and hA).step fun n hn => ?_
  rw [gExpr_other ((hh.imp fun t ht => ht.2).append _), hn.1, hn.2]
  rfl

/-- The same in parentheses. -/
theorem reads_kw {T : List Tok} {v : Expr} (hh : Heads T fun t => t ≠ .bin .sub ∧ t ≠ .lb)
    (hI : ∀ rest, Ev fun n => gItems n (T ++ .rp :: rest) = some (v, .rp :: rest)) (rest : List Tok) :
    Ev fun n => gItems n (.lp :: (T ++ .rp :: rest)) = some (v, rest) := by
  have hE := gExpr_kw hh hI rest
  have h2 : Ev fun n => gVec n (T ++ .rp :: rest) = none := by
    refine hE.step fun n hn => ?_
    simp only [gVec, hn]
  refine (hE.and h2).step fun n hn => ?_
  simp only [gItems, hn.1, hn.2]

/-- What is written behind the parenthesis of `grab`. -/
def grabToks (l : Nat) (T : List Tok) : List Tok := .kw "grab" :: (if l = 1 then [] else [.level l]) ++ T

theorem grab_inner (l : Nat) (e : Expr) (hne : printE e ≠ []) (hnl : ∀ k ts, printE e ≠ .level k :: ts)
    (ih : ReadsE (printE e) (unlinked e)) (rest : List Tok) :
    Ev fun n => gItems n (grabToks l (printE e) ++ .rp :: rest) = some (.grab l (unlinked e), .rp :: rest) := by
  refine (ih (.rp :: rest) trivial).step fun n hn => ?_
  by_cases hl : l = 1
  · subst hl
    have h1 : gItems (n + 1) (grabToks 1 (printE e) ++ .rp :: rest) = match gExpr n (printE e ++ .rp :: rest) with
        | some (e, ts) => some (.grab 1 e, ts)
        | none => none := by
      cases hp : printE e with
      | nil => exact absurd hp hne
      | cons t ts => cases t <;> first | exact absurd hp (hnl _ _) | rfl
    rw [h1, hn]
  · have h1 : gItems (n + 1) (grabToks l (printE e) ++ .rp :: rest) = match gExpr n (printE e ++ .rp :: rest) with
        | some (e, ts) => some (.grab l e, ts)
        | none => none := by
      unfold grabToks
      rw [if_neg hl]
      rfl
    rw [h1, hn]

theorem gItems_grab (l : Nat) (e : Expr) (hne : printE e ≠ []) (hnl : ∀ k ts, printE e ≠ .level k :: ts)
    (ih : ReadsE (printE e) (unlinked e)) (rest : List Tok) :
    Ev fun n => gItems n (printE (.grab l e) ++ rest) = some (unlinked (.grab l e), rest) := by
  have : printE (.grab l e) ++ rest = .lp :: (grabToks l (printE e) ++ .rp :: rest) := by
    simp [printE, grabToks]
  rw [this]
  exact reads_kw ⟨_, _, rfl, by simp, by simp⟩ (grab_inner l e hne hnl ih) rest

theorem try_inner (e : Expr) (ih : ReadsE (printE e) (unlinked e)) (rest : List Tok) :
    Ev fun n => gItems n ((.kw "try" :: printE e) ++ .rp :: rest) = some (.tryExpr (unlinked e), .rp :: rest) := by
  refine (ih (.rp :: rest) trivial).step fun n hn => ?_
  have h1 : gItems (n + 1) (.kw "try" :: printE e ++ .rp :: rest) =
      match gExpr n (printE e ++ .rp :: rest) with
      | some (e, ts) => some (.tryExpr e, ts)
      | none => none := rfl
  rw [h1, hn]

theorem gItems_tryExpr (e : Expr) (ih : ReadsE (printE e) (unlinked e)) (rest : List Tok) :
    Ev fun n => gItems n (printE (.tryExpr e) ++ rest) = some (unlinked (.tryExpr e), rest) := by
  have : printE (.tryExpr e) ++ rest = .lp :: ((.kw "try" :: printE e) ++ .rp :: rest) := by simp [printE]
  rw [this]
  exact reads_kw ⟨_, _, rfl, by simp, by simp⟩ (try_inner e ih) rest

theorem gItems_callClosure (name : String) (sid : Option Nat) (cur : Bool) (ids : List Id) (trs : List Nat)
    (args : List Expr) (ht : TryInOrder ids.length trs)
    (h : ∀ e, Id.expr e ∈ ids → ReadsE (printE e) (unlinked e))
    (hl : ∀ e, Id.expr e ∈ ids → ∀ v ts, printE e ≠ .lit v :: ts) (hne : ∀ e, Id.expr e ∈ ids → printE e ≠ [])
    (ih : ∀ a ∈ args, ReadsE (printE a) (unlinked a)) (rest : List Tok) :
    Ev fun n => gItems n (printE (.callClosure (.mk name sid cur false ids trs) args) ++ rest) =
      some (unlinked (.callClosure (.mk name sid cur false ids trs) args), rest) := by
  have h1 := reads_item name sid cur ids trs ht h hl hne (.lp :: (commas (printAll args) ++ .rp :: rest)) trivial
  have h2 := reads_sep args ih (t := .rp) (Or.inl rfl) rest
  refine (h1.and h2).step fun n hn => ?_
  have : printE (.callClosure (.mk name sid cur false ids trs) args) ++ rest =
      .backslash :: (printItem (.mk name sid cur false ids trs) ++ .lp :: (commas (printAll args) ++ .rp :: rest)) := by
    simp [printE]
  rw [this]
  simp only [gItems, hn.1, hn.2, unlinked]

theorem gItems_item (name : String) (sid : Option Nat) (cur : Bool) (ids : List Id) (trs : List Nat)
    (ht : TryInOrder ids.length trs)
    (h : ∀ e, Id.expr e ∈ ids → ReadsE (printE e) (unlinked e))
    (hl : ∀ e, Id.expr e ∈ ids → ∀ v ts, printE e ≠ .lit v :: ts) (hne : ∀ e, Id.expr e ∈ ids → printE e ≠ [])
    (rest : List Tok) (hr : Stop (· < 4) rest) :
    Ev fun n => gItems n (printE (.item (.mk name sid cur false ids trs)) ++ rest) =
      some (unlinked (.item (.mk name sid cur false ids trs)), rest) := by
  refine (reads_item name sid cur ids trs ht h hl hne rest hr.item).step fun n hn => ?_
  have hg : ∀ ts, (∃ us, ts = Tok.tilde :: us) ∨ (∃ us, ts = Tok.name name :: us ∧ ∀ vs, us ≠ .lp :: vs) →
      gItems (n + 1) ts = match gItem n ts with
        | some (it, ts) => some (.item it, ts)
        | none => none := by
    intro ts hts
    rcases hts with ⟨us, rfl⟩ | ⟨us, rfl, hus⟩
    · rfl
    · cases us with
      | nil => rfl
      | cons t vs => cases t <;> first | exact absurd rfl (hus _) | rfl
  show gItems (n + 1) (printItem _ ++ rest) = _
  rw [hg, hn]
  · rfl
  · cases cur with
    | true => exact Or.inl ⟨_, by simp only [printItem]; rfl⟩
    | false =>
      refine Or.inr ⟨printIds trs 0 ids ++ rest, by simp [printItem], ?_⟩
      intro vs hc
      cases ids with
      | nil =>
        simp only [printIds, List.nil_append] at hc
        rw [hc] at hr
        exact hr
      | cons d ds => cases d <;> simp [printIds, printId] at hc

theorem reads_not (f : FnIndex) (e : Expr) (ih : ReadsL (printE e) (unlinked e)) : Reads (.call f "not" [e]) := by
  have hp : printE (.call f "not" [e]) = .bang :: printE e := by simp [printE, printAll, callToks]
  refine Reads.ofItems rfl (by rw [hp]; exact ⟨_, _, rfl, by simp, by simp⟩) fun rest hr => ?_
  refine (ih rest hr).step fun n hn => ?_
  rw [hp]
  show gItems (n + 1) (.bang :: (printE e ++ rest)) = _
  simp only [gItems, hn, unlinked, unlinkedAll]

theorem reads_neg (f : FnIndex) (e : Expr) (ih : ReadsM (printE e) (unlinked e)) : Reads (.call f "neg" [e]) := by
  have hp : printE (.call f "neg" [e]) = .bin .sub :: printE e := by simp [printE, printAll, callToks]
  have hl : level (.call f "neg" [e]) = 2 := rfl
  have hF : ReadsF 2 (printE (.call f "neg" [e])) (unlinked (.call f "neg" [e])) := by
    intro rest hr
    refine (ih rest hr).step fun n hn => ?_
    rw [hp]
    show gFactor (n + 1) (.bin .sub :: (printE e ++ rest)) = _
    simp only [gFactor, hn, unlinked, unlinkedAll]
  have hg : ∀ n ts, gL n (.bin .sub :: ts) = none := by
    intro n ts
    match n with
    | 0 => rfl
    | 1 => rfl
    | 2 => rfl
    | n + 3 => rfl
  have hc : NoCmp (printE (.call f "neg" [e])) := by
    intro rest _
    refine Ev.of fun n l op ts hh => ?_
    rw [hp] at hh
    rw [show (.bin .sub :: printE e) ++ rest = Tok.bin .sub :: (printE e ++ rest) from rfl, hg] at hh
    cases hh
  have hh : Heads (printE (.call f "neg" [e])) fun t => t = .bin .sub := by rw [hp]; exact ⟨_, _, rfl, rfl⟩
  refine ⟨fun h => by omega, hh.imp fun t ht => ⟨by simp [ht], by simp [hl]⟩, fun h => by omega, fun _ => hF,
    fun _ h => absurd rfl h, fun _ => hF.toM, fun _ => hF.toM.toDk, fun _ => hc, ?_⟩
  exact toE (hh.imp fun t ht => by simp [ht]) hc hF.toM.toDk

/-! ## Operators -/

theorem NoCmp.bin {T : List Tok} (h : NoCmp T) (op : BinOp) (ho : precedence op ≠ 0) (U : List Tok) :
    NoCmp (T ++ .bin op :: U) := by
  intro rest _
  have hp : precedence op < 4 := by cases op <;> decide
  have := h (.bin op :: (U ++ rest)) ⟨hp, ho⟩
  simpa using this

theorem unlinked_bin (f : FnIndex) (op : BinOp) (l r : Expr) :
    unlinked (.call f (callName op) [l, r]) = binCall op (unlinked l) (unlinked r) := by
  simp [unlinked, unlinkedAll, binCall]

theorem reads_bin (f : FnIndex) (op : BinOp) (l r : Expr) (il : Reads l) (ir : Reads r) (hl : LeftOk op l)
    (hr : RightOk op r) : Reads (.call f (callName op) [l, r]) := by
  have hp := print_bin f op l r
  have hv := level_bin f op l r
  have hu := unlinked_bin f op l r
  have hnn : ¬ isNeg (.call f (callName op) [l, r]) := id
  -- the text of the left operand
  have hhead : Heads (paren (needsParens op l false) (printE l)) fun t =>
      t ≠ .lb ∧ (t = .bin .sub → precedence op < 3) := by
    rcases hl with hl | ⟨ha, hl⟩
    · rw [hl]; exact ⟨_, _, rfl, by simp, by simp⟩
    · unfold paren
      split
      · exact ⟨_, _, rfl, by simp, by simp⟩
      · refine il.head.imp fun t ht => ⟨fun h => ha (ht.1 h), fun h => ?_⟩
        have := ht.2 h
        omega
  have hlp : needsParens op l false = true →
      ReadsL (paren (needsParens op l false) (printE l)) (unlinked l) ∧
      Heads (paren (needsParens op l false) (printE l)) (· ≠ .bin .sub) := by
    intro h
    rw [h]
    exact ⟨il.E.paren, _, _, rfl, by simp⟩
  have hrp : needsParens op r true = true →
      ReadsL (paren (needsParens op r true) (printE r)) (unlinked r) ∧
      Heads (paren (needsParens op r true) (printE r)) (· ≠ .bin .sub) := by
    intro h
    rw [h]
    exact ⟨ir.E.paren, _, _, rfl, by simp⟩
  have hsplit : ∀ rest, printE (.call f (callName op) [l, r]) ++ rest =
      paren (needsParens op l false) (printE l) ++
        .bin op :: (paren (needsParens op r true) (printE r) ++ rest) := by
    intro rest; rw [hp]; simp
  have h4 : precedence op = 0 ∨ precedence op = 1 ∨ precedence op = 2 ∨ precedence op = 3 := by
    cases op <;> decide
  have hhd : Heads (printE (.call f (callName op) [l, r])) fun t => t ≠ .lb ∧ (t = .bin .sub → precedence op < 3) := by
    rw [hp]; exact hhead.append _
  have hhd' : Heads (printE (.call f (callName op) [l, r])) fun t =>
      (t = .lb → isArr (.call f (callName op) [l, r])) ∧
      (t = .bin .sub → level (.call f (callName op) [l, r]) < 3) :=
    hhd.imp fun t ht => ⟨fun h => absurd h ht.1, by rw [hv]; exact ht.2⟩
  rcases h4 with h0 | h1 | h2 | h3
  · -- comparison
    have nl : needsParens op l false = false := by
      unfold needsParens; split
      · simp [precParens, h0]
      · rfl
    have nr : needsParens op r true = false := by
      unfold needsParens; split
      · simp [precParens, h0]
      · rfl
    have hl4 : level l = 4 := by
      rcases hl with hl | ⟨_, hl⟩
      · rw [nl] at hl; cases hl
      · omega
    have hE : ReadsE (printE (.call f (callName op) [l, r])) (unlinked (.call f (callName op) [l, r])) := by
      intro rest hr0
      have e1 := il.L hl4 (.bin op :: (printE r ++ rest)) (show precedence op < 4 by omega)
      have e2 := ir.E rest hr0
      have e3 : Ev fun n => gCompare n (printE l ++ .bin op :: (printE r ++ rest)) =
          some (binCall op (unlinked l) (unlinked r), rest) := by
        refine (e1.and e2).step fun n hn => ?_
        simp only [gCompare, hn.1, if_pos h0, hn.2]
      have hspl := hsplit rest
      rw [nl, nr] at hspl
      refine e3.step fun n hn => ?_
      rw [gExpr_other ((hhd.imp fun t ht => ht.1).append rest), hspl]
      show gTry (match gCompare n (printE l ++ .bin op :: (printE r ++ rest)) with
        | some r => some r
        | none => _) = _
      rw [hn, hu]
      exact gTry_stop hr0
    exact ⟨fun h => by omega, hhd', fun h => by omega, fun h => absurd h hnn, fun h => by omega,
      fun h => by omega, fun h => by omega, fun h => by omega, hE⟩
  · -- sum
    have hlD : ReadsDk (paren (needsParens op l false) (printE l)) (unlinked l) := by
      cases hb : needsParens op l false with
      | true => rw [← hb]; exact ((hlp hb).1.toF (hlp hb).2).toMk.toM.toDk
      | false =>
        rcases hl with hl | ⟨_, hl⟩
        · rw [hb] at hl; cases hl
        · exact il.Dk (by omega)
    have hlN : NoCmp (paren (needsParens op l false) (printE l)) := by
      cases hb : needsParens op l false with
      | true => rw [← hb]; exact (hlp hb).1.toNoCmp
      | false =>
        rcases hl with hl | ⟨_, hl⟩
        · rw [hb] at hl; cases hl
        · exact il.NC (by omega)
    have hrM : ReadsM (paren (needsParens op r true) (printE r)) (unlinked r) := by
      cases hb : needsParens op r true with
      | true => rw [← hb]; exact ((hrp hb).1.toF (hrp hb).2).toMk.toM
      | false =>
        rcases hr with hr | hr
        · rw [hb] at hr; cases hr
        · exact ir.M (by omega)
    have hDk : ReadsDk (printE (.call f (callName op) [l, r])) (unlinked (.call f (callName op) [l, r])) := by
      intro rest w hs hk
      rw [hsplit rest]
      refine hlD _ w (show precedence op < 2 by omega) ?_
      refine ((hrM rest hs).and hk).step fun n hn => ?_
      simp only [gAddRest, if_pos h1, hn.1]
      rw [← hu]
      exact hn.2
    have hNC : NoCmp (printE (.call f (callName op) [l, r])) := by
      rw [hp]; exact hlN.bin op (by omega) _
    exact ⟨fun h => by omega, hhd', fun h => by omega, fun h => absurd h hnn, fun h => by omega,
      fun h => by omega, fun _ => hDk, fun _ => hNC, toE (hhd.imp fun t ht => ht.1) hNC hDk⟩
  · -- product
    have hlM : ReadsMk (paren (needsParens op l false) (printE l)) (unlinked l) := by
      cases hb : needsParens op l false with
      | true => rw [← hb]; exact ((hlp hb).1.toF (hlp hb).2).toMk
      | false =>
        rcases hl with hl | ⟨_, hl⟩
        · rw [hb] at hl; cases hl
        · obtain ⟨ha, hn⟩ : 2 ≤ level l ∧ ¬ endsNeg l := by
            rcases hl with h | h | h | h
            · omega
            · exact h.2
            · omega
            · omega
          exact il.Mk ha hn
    have hlN : NoCmp (paren (needsParens op l false) (printE l)) := by
      cases hb : needsParens op l false with
      | true => rw [← hb]; exact (hlp hb).1.toNoCmp
      | false =>
        rcases hl with hl | ⟨_, hl⟩
        · rw [hb] at hl; cases hl
        · exact il.NC (by omega)
    have hrF : ReadsF 2 (paren (needsParens op r true) (printE r)) (unlinked r) ∧
        (¬ isNeg r → ReadsF 3 (paren (needsParens op r true) (printE r)) (unlinked r)) := by
      cases hb : needsParens op r true with
      | true =>
        rw [← hb]
        have := (hrp hb).1.toF (hrp hb).2
        exact ⟨this.mono (by omega), fun _ => this⟩
      | false =>
        rcases hr with hr | hr
        · rw [hb] at hr; cases hr
        · have : 3 ≤ level r ∨ isNeg r := by
            rcases hr with h | h | h | h
            · omega
            · exact h.2
            · omega
            · omega
          rcases this with h | h
          · exact ⟨(ir.F h).mono (by omega), fun _ => ir.F h⟩
          · exact ⟨ir.N h, fun hn => absurd h hn⟩
    have step : ∀ rest w, (Ev fun n => gFactor n (paren (needsParens op r true) (printE r) ++ rest) = some (unlinked r, rest)) →
        (Ev fun n => gMulRest n (unlinked (.call f (callName op) [l, r])) rest = some w) →
        Ev fun n => gMul n (printE (.call f (callName op) [l, r]) ++ rest) = some w := by
      intro rest w hf hk
      rw [hsplit rest]
      refine hlM _ w (show precedence op < 3 by omega) ?_
      refine (hf.and hk).step fun n hn => ?_
      simp only [gMulRest, if_pos h2, hn.1]
      rw [← hu]
      exact hn.2
    have hM : ReadsM (printE (.call f (callName op) [l, r])) (unlinked (.call f (callName op) [l, r])) := fun rest hs =>
      step rest _ (hrF.1 rest hs) (Ev.succ (Ev.of fun n => gMulRest_stop (hs.mono (by omega)) n))
    have hNC : NoCmp (printE (.call f (callName op) [l, r])) := by
      rw [hp]; exact hlN.bin op (by omega) _
    exact ⟨fun h => by omega, hhd', fun h => by omega, fun h => absurd h hnn,
      fun _ hne rest w hs hk => step rest w ((hrF.2 hne) rest hs) hk,
      fun _ => hM, fun _ => hM.toDk, fun _ => hNC, toE (hhd.imp fun t ht => ht.1) hNC hM.toDk⟩
  · -- power
    have hlL : ReadsL (paren (needsParens op l false) (printE l)) (unlinked l) := by
      cases hb : needsParens op l false with
      | true => rw [← hb]; exact (hlp hb).1
      | false =>
        rcases hl with hl | ⟨_, hl⟩
        · rw [hb] at hl; cases hl
        · exact il.L (by omega)
    have hrL : ReadsL (paren (needsParens op r true) (printE r)) (unlinked r) := by
      cases hb : needsParens op r true with
      | true => rw [← hb]; exact (hrp hb).1
      | false =>
        rcases hr with hr | hr
        · rw [hb] at hr; cases hr
        · exact ir.L (by omega)
    have hpow : op = .pow := by cases op <;> first | rfl | (exact absurd h3 (by decide))
    have hF : ReadsF 3 (printE (.call f (callName op) [l, r])) (unlinked (.call f (callName op) [l, r])) := by
      intro rest hs
      have e1 := hlL (.bin op :: (paren (needsParens op r true) (printE r) ++ rest)) (show precedence op < 4 by omega)
      have e2 := hrL rest (hs.mono (by omega))
      rw [hsplit rest]
      refine (e1.and e2).step fun n hn => ?_
      have hhs : Heads (paren (needsParens op l false) (printE l) ++
          .bin op :: (paren (needsParens op r true) (printE r) ++ rest)) (· ≠ .bin .sub) :=
        (hhead.append _).imp fun t ht h => absurd (ht.2 h) (by omega)
      rw [gFactor_other hhs, hn.1]
      subst hpow
      simp only [hn.2]
      rw [hu]
    have hNC : NoCmp (printE (.call f (callName op) [l, r])) := by
      rw [hp]; exact hlL.toNoCmp.bin op (by omega) _
    exact ⟨fun h => by omega, hhd', fun _ => hF, fun h => absurd h hnn, fun _ _ => hF.toMk, fun _ => hF.toMk.toM,
      fun _ => hF.toMk.toM.toDk, fun _ => hNC, toE (hhd.imp fun t ht => ht.1) hNC hF.toMk.toM.toDk⟩

/-! ## All expressions -/

/-- The first token of an expression, as `items` sees it. -/
theorem head_ne {e : Expr} (h : Reads e) : printE e ≠ [] := by
  obtain ⟨t, ts, ht, _⟩ := h.head
  rw [ht]; simp

end Dyon.Syn
