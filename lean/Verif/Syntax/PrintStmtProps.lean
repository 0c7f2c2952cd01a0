import Verif.Syntax.PrintReturn

/-!
# C39: printed statements parse back

Printing a statement (an assignment, an object, a block, `if`, a loop, `return`, `break` or
`continue`, nested in any way) and parsing the text gives the statement, without what linking
added to it.
-/

namespace Dyon.Syn

open Spec

/-! ## The cases -/

/-- `return` is a name for the alternatives in front. -/
theorem return_name {ts : List Tok} (h1 : Stop (· < 4) ts) (h2 : ∀ op us, ts ≠ .asg op :: us)
    (h3 : ∀ op us, ts = .bin op :: us → precedence op ≠ 0) :
    Ev fun n => gAssign n (.name "return" :: ts) = none ∧ gCompare n (.name "return" :: ts) = none := by
  have hL := (good_reads (good_var "return")).1.L rfl ts h1
  have hp : printE (var "return") ++ ts = .name "return" :: ts := rfl
  rw [hp] at hL
  refine hL.step fun n hn => ⟨?_, ?_⟩
  · unfold gAssign
    rw [hn]
    cases ts with
    | nil => rfl
    | cons t us => cases t <;> first | exact absurd rfl (h2 _ _) | rfl
  · unfold gCompare
    rw [hn]
    cases ts with
    | nil => rfl
    | cons t us => cases t <;> first | rfl | exact if_neg (h3 _ _ rfl)

theorem gKw_return (n : Nat) (ts : List Tok) : gKw (n + 1) "return" ts = gReturn n ts := by simp [gKw]
theorem gKw_if (n : Nat) (ts : List Tok) : gKw (n + 1) "if" ts = gIf n ts := by simp [gKw]

/-- A statement that begins with a word. -/
theorem reads_word {w : String} {ts rest : List Tok} {v : Expr} (hs : Stop (· < 0) rest)
    (h : Ev fun n => gKw n w ts = some (v, rest)) : Ev fun n => gStmt n (.kw w :: ts) = some (v, rest) := by
  refine h.step fun n hn => ?_
  simp only [gStmt, hn]
  exact gTry_stop hs

theorem reads_retVoid : ReadsS (printE .retVoid) (unlinked .retVoid) := by
  intro rest hr
  refine reads_word hr.follow.1 (ts := rest) ?_
  have h1 := return_name (hr.follow.1.mono (by omega)) hr.follow.2 (by
    rintro op us rfl
    exact absurd hr.follow.1 (Nat.not_lt_zero _))
  refine Ev.succ (h1.step fun n hn => ?_)
  rw [gKw_return]
  simp only [gReturn, hn.1, hn.2, dead_none hr.dead]
  rfl

/-- A statement that is no expression does not begin with a parenthesis or a bracket. -/
theorem stmt_open {e : Expr} (h : Stmt e) : Good e ∨ Heads (printE e) fun t => t ≠ .lp ∧ t ≠ .lb := by
  have item : ∀ {it : Item} (op : AssignOp) (r : Expr), Good (.item it) →
      Heads (printE (.assign op (.item it) r)) fun t => t ≠ .lp ∧ t ≠ .lb := by
    intro it op r h
    cases h with
    | item name sid cur ids tr => cases cur <;> exact ⟨_, _, by simp only [printE, printItem]; rfl, by simp, by simp⟩
  cases h with
  | plain _ h =>
    cases h with
    | expr _ h => exact Or.inl h
    | object kvs => exact Or.inr ⟨_, _, by simp only [printE]; rfl, by simp, by simp⟩
    | assign op it r h => exact Or.inr (item op r h)
  | assign op it r h => exact Or.inr (item op r h)
  | ret e => exact Or.inr ⟨_, _, by simp only [printE]; rfl, by simp, by simp⟩
  | retVoid => exact Or.inr ⟨_, _, by simp only [printE]; rfl, by simp, by simp⟩
  | brk l => cases l <;> exact Or.inr ⟨_, _, by simp only [printE]; rfl, by simp, by simp⟩
  | cont l => cases l <;> exact Or.inr ⟨_, _, by simp only [printE]; rfl, by simp, by simp⟩
  | block es =>
    right
    simp only [printE]
    exact (block_head _).imp fun t ht => by rw [ht]; exact ⟨by simp, by simp⟩
  | ite => exact Or.inr ⟨_, _, by simp only [printE]; rfl, by simp, by simp⟩
  | loop => exact Or.inr ⟨_, _, by simp only [printE, isLoop]; rfl, by simp, by simp⟩
  | for_ => exact Or.inr ⟨_, _, by simp only [printE, isLoop]; rfl, by simp, by simp⟩
  | forN k => exact Or.inr ⟨.kw (forWord k), _, by simp only [printE]; rfl, by simp, by simp⟩
  | forIn k => exact Or.inr ⟨.kw (forInWord k), _, by simp only [printE]; rfl, by simp, by simp⟩

theorem return_free {e : Expr} (h : Stmt e) (h0 : level e = 0 → ∀ ts, printE e ≠ .lp :: ts) {rest : List Tok}
    (hr : Follow rest) : Ev fun n => gAssign n (.name "return" :: (printE e ++ rest)) = none ∧
      gCompare n (.name "return" :: (printE e ++ rest)) = none := by
  by_cases hg : Good e ∧ 1 ≤ level e
  · refine (retOk hg.1 hg.2 rest (hr.1.mono (by omega)) hr.2).step fun n hn => ⟨?_, ?_⟩
    · unfold gAssign
      split
      · rename_i heq
        exact absurd rfl ((hn _ _ heq).1 _ _)
      · rfl
    · unfold gCompare
      split
      · rename_i heq
        exact if_neg ((hn _ _ heq).2 _ _ rfl)
      · rfl
  · have hh : Heads (printE e) fun t => t ≠ .lp ∧ t ≠ .lb := by
      rcases stmt_open h with hG | hh
      · have hl : level e = 0 := by
          by_contra hc
          exact hg ⟨hG, by omega⟩
        obtain ⟨t, ts, ht, hk⟩ := (good_reads hG).1.head
        refine ⟨t, ts, ht, fun hc => h0 hl ts (by rw [ht, hc]), fun hc => ?_⟩
        have := hk.1 hc
        cases e <;> first | exact this.elim | cases hl
      · exact hh
    obtain ⟨t, ts, ht, hp, hb⟩ := hh
    obtain ⟨u, us, hu, hk⟩ := stmt_head h
    rw [ht] at hu
    cases hu
    rw [ht]
    refine return_name ?_ ?_ ?_
    · cases t with
      | bin op => cases op <;> first | exact (by decide : precedence .sub < 4) | cases hk
      | lp => exact absurd rfl hp
      | lb => exact absurd rfl hb
      | dot => cases hk
      | quest => cases hk
      | _ => trivial
    · rintro op us hc
      cases hc
      cases hk
    · rintro op us hc
      cases hc
      cases op <;> first | decide | cases hk

theorem reads_ret {e : Expr} (hs : Stmt e) (h0 : level e = 0 → ∀ ts, printE e ≠ .lp :: ts)
    (h : ReadsS (printE e) (unlinked e)) : ReadsS (printE (.ret e)) (unlinked (.ret e)) := by
  intro rest hr
  have heq : printE (.ret e) ++ rest = .kw "return" :: (printE e ++ rest) := by simp [printE]
  rw [heq]
  refine reads_word hr.follow.1 ?_
  refine Ev.succ (((return_free hs h0 hr.follow).and (h rest hr)).step fun n hn => ?_)
  rw [gKw_return]
  simp only [gReturn, hn.1.1, hn.1.2, hn.2]
  rfl

theorem reads_brk (l : Option String) : ReadsS (printE (.brk l)) (unlinked (.brk l)) := by
  intro rest hr
  cases l with
  | none =>
    refine reads_word hr.follow.1 (ts := rest) (Ev.succ (Ev.of fun n => ?_))
    rcases hr.1 with rfl | ⟨ts, rfl⟩ | ⟨ts, rfl⟩ <;> simp [gKw, unlinked]
  | some l =>
    refine reads_word hr.follow.1 (ts := .label l :: rest) (Ev.succ (Ev.of fun n => ?_))
    simp [gKw, unlinked]

theorem reads_cont (l : Option String) : ReadsS (printE (.cont l)) (unlinked (.cont l)) := by
  intro rest hr
  cases l with
  | none =>
    refine reads_word hr.follow.1 (ts := rest) (Ev.succ (Ev.of fun n => ?_))
    rcases hr.1 with rfl | ⟨ts, rfl⟩ | ⟨ts, rfl⟩ <;> simp [gKw, unlinked]
  | some l =>
    refine reads_word hr.follow.1 (ts := .label l :: rest) (Ev.succ (Ev.of fun n => ?_))
    simp [gKw, unlinked]

/-- A block as a statement is not an object. -/
theorem reads_blockStmt {es : List Expr} (hne : es ≠ []) (hh : ∀ e ∈ es, Heads (printE e) fun t => stmtTok t = true)
    (h : ∀ e ∈ es, ReadsS (printE e) (unlinked e)) : ReadsS (printE (.block es)) (unlinked (.block es)) := by
  intro rest hr
  have hB := reads_block es hh h rest
  obtain ⟨us, hus, hsk⟩ : ∃ us, blockToks (printAll es) ++ rest = .lc :: us ∧
      Heads (skipNl us) fun t => stmtTok t = true := by
    match es with
    | [] => exact absurd rfl hne
    | [e] =>
      have hs := (hh e (by simp)).append (.rc :: rest)
      refine ⟨printE e ++ .rc :: rest, by simp [printAll, blockToks], ?_⟩
      rw [skipNl_head (hs.imp fun t => stmt_nl)]
      exact hs
    | e :: e' :: es =>
      have hs : Heads (lines (printAll (e :: e' :: es)) ++ .rc :: rest) fun t => stmtTok t = true := by
        simp only [printAll, lines, List.append_assoc]
        exact (hh e (by simp)).append _
      refine ⟨.nl :: (lines (printAll (e :: e' :: es)) ++ .rc :: rest), by simp [printAll, blockToks], ?_⟩
      show Heads (skipNl (lines (printAll (e :: e' :: es)) ++ .rc :: rest)) _
      rw [skipNl_head (hs.imp fun t => stmt_nl)]
      exact hs
  have hO : ∀ n, gObject n us = none := by
    intro n
    cases n with
    | zero => rfl
    | succ n =>
      obtain ⟨t, ts, ht, hk⟩ := hsk
      have hkv : gKVs n (t :: ts) = ([], t :: ts) := by
        cases n with
        | zero => rfl
        | succ n => cases t <;> first | rfl | cases hk
      have hsk' : skipNl (t :: ts) = t :: ts := skipNl_head ⟨t, ts, rfl, stmt_nl hk⟩
      simp only [gObject, ht, hkv, hsk']
      cases t <;> first | rfl | cases hk
  refine hB.step fun n hn => ?_
  have heq : printE (.block es) ++ rest = .lc :: us := by simp only [printE]; exact hus
  rw [hus] at hn
  rw [heq]
  simp only [gStmt, hO, hn]
  exact gTry_stop hr.follow.1

theorem follow_block (ts : List (List Tok)) (rest : List Tok) : Follow (blockToks ts ++ rest) := by
  obtain ⟨t, us, ht, rfl⟩ := block_head ts
  rw [ht]
  exact ⟨trivial, by simp⟩

/-- The condition and the block of a branch. -/
theorem reads_elifs (elifs : List (Expr × List Expr)) (hc : ∀ p ∈ elifs, Good p.1)
    (hh : ∀ p ∈ elifs, ∀ e ∈ p.2, Heads (printE e) fun t => stmtTok t = true)
    (h : ∀ p ∈ elifs, ∀ e ∈ p.2, ReadsS (printE e) (unlinked e)) (rest : List Tok)
    (hr : afterElseIf (skipNl rest) = none) :
    Ev fun n => gElifs n (printElifs elifs ++ rest) = (unlinkedElifs elifs, rest) := by
  induction elifs with
  | nil =>
    refine Ev.succ (Ev.of fun n => ?_)
    simp only [printElifs, List.nil_append, gElifs, hr, unlinkedElifs]
  | cons p elifs ih =>
    obtain ⟨c, b⟩ := p
    have h1 := reads_leaf (hc (c, b) (by simp)) (blockToks (printAll b) ++ (printElifs elifs ++ rest)) (follow_block _ _)
    have h2 := reads_block b (hh (c, b) (by simp)) (h (c, b) (by simp)) (printElifs elifs ++ rest)
    have h3 := ih (fun x hx => hc x (by simp [hx])) (fun x hx => hh x (by simp [hx])) (fun x hx => h x (by simp [hx]))
    refine ((h1.and h2).and h3).step fun n hn => ?_
    have heq : printElifs ((c, b) :: elifs) ++ rest =
        .kw "else" :: .kw "if" :: (printE c ++ (blockToks (printAll b) ++ (printElifs elifs ++ rest))) := by
      simp [printElifs]
    have ha : afterElseIf (skipNl (.kw "else" :: .kw "if" :: (printE c ++ (blockToks (printAll b) ++ (printElifs elifs ++ rest))))) =
        some (printE c ++ (blockToks (printAll b) ++ (printElifs elifs ++ rest))) := by
      simp [skipNl, afterElseIf]
    rw [heq]
    simp only [gElifs, ha, hn.1.1, hn.1.2, hn.2, unlinkedElifs]

theorem afterElseIf_none {ts : List Tok} (h : afterElse ts = none) : afterElseIf ts = none := by
  unfold afterElseIf
  split
  · rename_i a b us
    by_cases ha : a = "else"
    · simp [afterElse, ha] at h
    · simp [ha]
  · rfl

theorem reads_ite {c : Expr} {thn : List Expr} {elifs : List (Expr × List Expr)} {els : Option (List Expr)}
    (hc : Good c) (ht : ∀ e ∈ thn, Heads (printE e) fun t => stmtTok t = true)
    (hT : ∀ e ∈ thn, ReadsS (printE e) (unlinked e)) (hi : ∀ p ∈ elifs, Good p.1)
    (he : ∀ p ∈ elifs, ∀ e ∈ p.2, Heads (printE e) fun t => stmtTok t = true)
    (hE : ∀ p ∈ elifs, ∀ e ∈ p.2, ReadsS (printE e) (unlinked e))
    (hl : ∀ b ∈ els, ∀ e ∈ b, Heads (printE e) fun t => stmtTok t = true)
    (hL : ∀ b ∈ els, ∀ e ∈ b, ReadsS (printE e) (unlinked e)) :
    ReadsS (printE (.ite c thn elifs els)) (unlinked (.ite c thn elifs els)) := by
  intro rest hr
  have heq : printE (.ite c thn elifs els) ++ rest =
      .kw "if" :: (printE c ++ (blockToks (printAll thn) ++ (printElifs elifs ++ (printElse els ++ rest)))) := by
    simp [printE]
  rw [heq]
  refine reads_word hr.follow.1 ?_
  have h1 := reads_leaf hc (blockToks (printAll thn) ++ (printElifs elifs ++ (printElse els ++ rest))) (follow_block _ _)
  have h2 := reads_block thn ht hT (printElifs elifs ++ (printElse els ++ rest))
  have h4 : afterElseIf (skipNl (printElse els ++ rest)) = none ∧
      Ev fun n => gElse n (printElse els ++ rest) = (unlinkedElse els, rest) := by
    cases els with
    | none =>
      refine ⟨afterElseIf_none hr.2, Ev.succ (Ev.of fun n => ?_)⟩
      simp only [printElse, List.nil_append, gElse, hr.2, unlinkedElse]
    | some b =>
      have heq : printElse (some b) ++ rest = .kw "else" :: (blockToks (printAll b) ++ rest) := by simp [printElse]
      rw [heq]
      constructor
      · obtain ⟨t, us, hu, rfl⟩ := block_head (printAll b)
        rw [hu]
        rfl
      · refine (reads_block b (hl b rfl) (hL b rfl) rest).step fun n hn => ?_
        have ha : afterElse (skipNl (.kw "else" :: (blockToks (printAll b) ++ rest))) = some (blockToks (printAll b) ++ rest) := by
          simp [skipNl, afterElse]
        simp only [gElse, ha, hn, unlinkedElse]
  have h3 := reads_elifs elifs hi he hE (printElse els ++ rest) h4.1
  refine Ev.succ (((h1.and h2).and (h3.and h4.2)).step fun n hn => ?_)
  rw [gKw_if]
  simp only [gIf, hn.1.1, hn.1.2, hn.2.1, hn.2.2, unlinked]

theorem reads_loop {body : List Expr} (hh : ∀ e ∈ body, Heads (printE e) fun t => stmtTok t = true)
    (h : ∀ e ∈ body, ReadsS (printE e) (unlinked e)) :
    ReadsS (printE (.for_ (.block []) (.const (.bool true none)) (.block []) body none))
      (unlinked (.for_ (.block []) (.const (.bool true none)) (.block []) body none)) := by
  intro rest hr
  have heq : printE (.for_ (.block []) (.const (.bool true none)) (.block []) body none) ++ rest =
      .kw "loop" :: (blockToks (printAll body) ++ rest) := by simp [printE, isLoop]
  rw [heq]
  refine reads_word hr.follow.1 ((reads_block body hh h rest).step fun n hn => ?_)
  simp [gKw, hn, unlinked, unlinkedAll]

theorem gForIn_none (n : Nat) (k : ForInKind) (x : String) {ts : List Tok} (h : ∀ w us, ts ≠ .kw w :: us) :
    gForIn n k (.name x :: ts) = none := by
  cases n with
  | zero => rfl
  | succ n =>
    cases ts with
    | nil => rfl
    | cons t us => cases t <;> first | exact absurd rfl (h _ _) | rfl

theorem reads_for {op : AssignOp} {x : String} {sid : Option Nat} {r cond step : Expr} {body : List Expr}
    (hr : Flat r) (hc : Good cond) (hs : Flat step)
    (hh : ∀ e ∈ body, Heads (printE e) fun t => stmtTok t = true)
    (h : ∀ e ∈ body, ReadsS (printE e) (unlinked e)) :
    ReadsS (printE (.for_ (.assign op (.item (.mk x sid false false [] [])) r) cond step body none))
      (unlinked (.for_ (.assign op (.item (.mk x sid false false [] [])) r) cond step body none)) := by
  intro rest he
  have hi : Flat (.assign op (.item (.mk x sid false false [] [])) r) :=
    .assign op _ r (.item x sid false [] [] rfl (by simp) (by simp)) hr
  have heq : printE (.for_ (.assign op (.item (.mk x sid false false [] [])) r) cond step body none) ++ rest =
      .kw "for" :: (printE (.assign op (.item (.mk x sid false false [] [])) r) ++ .semi ::
        (printE cond ++ .semi :: (printE step ++ (blockToks (printAll body) ++ rest)))) := by
    simp [printE, isLoop]
  rw [heq]
  refine reads_word he.follow.1 ?_
  have h1 := flat_reads hi (.semi :: (printE cond ++ .semi :: (printE step ++ (blockToks (printAll body) ++ rest))))
    ⟨trivial, by simp⟩
  have h2 := reads_leaf hc (.semi :: (printE step ++ (blockToks (printAll body) ++ rest))) ⟨trivial, by simp⟩
  have h3 := flat_reads hs (blockToks (printAll body) ++ rest) (follow_block _ _)
  have h4 := reads_block body hh h rest
  obtain ⟨us, hus⟩ : ∃ us, printE (.assign op (.item (.mk x sid false false [] [])) r) ++ .semi ::
        (printE cond ++ .semi :: (printE step ++ (blockToks (printAll body) ++ rest))) = .name x :: .asg op :: us :=
    ⟨_, by simp [printE, printItem, printIds]; rfl⟩
  have hf : Ev fun n => gFor n (.name x :: .asg op :: us) =
      some (unlinked (.for_ (.assign op (.item (.mk x sid false false [] [])) r) cond step body none), rest) := by
    rw [← hus]
    refine ((h1.and h2).and (h3.and h4)).step fun n hn => ?_
    simp only [gFor, hn.1.1, hn.1.2, hn.2.1, hn.2.2]
    simp only [unlinked]
  have hn1 : ∀ n, gForIn n .forIn (.name x :: .asg op :: us) = none := fun n => gForIn_none n _ _ (by simp)
  have hn2 : ∀ n, gForN n .forN (.name x :: .asg op :: us) = none := by
    intro n
    match n with
    | 0 => rfl
    | 1 => rfl
    | n + 2 =>
      have hp : gPair n (.asg op :: us) = none := by cases n <;> rfl
      have hg : gRange (n + 1) (.asg op :: us) = none := by
        simp only [gRange, hp, dead_none (Or.inr (Or.inr (Or.inr ⟨op, us, rfl⟩)))]
      simp only [gForN, hg]
  rw [hus]
  refine hf.step fun n hn => ?_
  simp [gKw, hn1, hn2, hn]

theorem shortKind_forWord {k : ForKind} (h : k ≠ .linkFor) : forWord k = "for" ∧ k = .forN ∨
    (forWord k ≠ "for" ∧ forWord k ≠ "loop" ∧ forWord k ≠ "if" ∧ forWord k ≠ "break" ∧ forWord k ≠ "continue" ∧
      forWord k ≠ "return" ∧ shortKind (forWord k) = some k) := by
  cases k <;> first | exact absurd rfl h | decide

theorem inKind_forInWord {k : ForInKind} (h : k ≠ .link) : forInWord k = "for" ∧ k = .forIn ∨
    (forInWord k ≠ "for" ∧ forInWord k ≠ "loop" ∧ forInWord k ≠ "if" ∧ forInWord k ≠ "break" ∧
      forInWord k ≠ "continue" ∧ forInWord k ≠ "return" ∧ inKind (forInWord k) = some k) := by
  cases k <;> first | exact absurd rfl h | decide

theorem reads_range {start : Option Expr} {stop : Expr} (ha : ∀ a ∈ start, Good a) (hs : Good stop)
    (hb : start = none → ∀ ts, printE stop ≠ .lb :: ts) {rest : List Tok} (hr : Follow rest) :
    (Ev fun n => gRange n (printRange start (printE stop) ++ rest) = some ((unlinkedStart start, unlinked stop), rest)) ∧
      ∀ w us, printRange start (printE stop) ++ rest ≠ .kw w :: us := by
  cases start with
  | none =>
    obtain ⟨t, ts, ht, hl⟩ := leaf_head hs
    have hb' := hb rfl
    rw [ht] at hb'
    have hnlb : t ≠ .lb := fun h => hb' ts (by rw [h])
    have hp : ∀ n, gPair n (printE stop ++ rest) = none := by
      intro n
      rw [ht]
      cases n with
      | zero => rfl
      | succ n => cases t <;> first | exact absurd rfl hnlb | rfl
    constructor
    · refine (reads_leaf hs rest hr).step fun n hn => ?_
      simp only [printRange, gRange, hp, unlinkedStart]
      rw [ht] at hn ⊢
      cases t <;> first | cases hl; done | (simp only [List.cons_append] at hn ⊢; simp only [hn])
    · intro w us
      simp only [printRange]
      rw [ht]
      intro hc
      simp only [List.cons_append, List.cons.injEq] at hc
      rw [hc.1] at hl
      cases hl
  | some a =>
    have heq : printRange (some a) (printE stop) ++ rest = .lb :: (printE a ++ .comma :: (printE stop ++ .rp :: rest)) := by
      simp [printRange]
    rw [heq]
    refine ⟨?_, by simp⟩
    have h1 := reads_leaf (ha a rfl) (.comma :: (printE stop ++ .rp :: rest)) ⟨trivial, by simp⟩
    have h2 := reads_leaf hs (.rp :: rest) ⟨trivial, by simp⟩
    have h3 : Ev fun n => gPair n (.lb :: (printE a ++ .comma :: (printE stop ++ .rp :: rest))) =
        some ((some (unlinked a), unlinked stop), rest) := by
      refine (h1.and h2).step fun n hn => ?_
      simp only [gPair, hn.1, hn.2]
    refine h3.step fun n hn => ?_
    simp only [gRange, hn, unlinkedStart]

theorem reads_forN {k : ForKind} {x : String} {start : Option Expr} {stop : Expr} {body : List Expr}
    (hk : k ≠ .linkFor) (ha : ∀ a ∈ start, Good a) (hs : Good stop)
    (hb : start = none → ∀ ts, printE stop ≠ .lb :: ts)
    (hh : ∀ e ∈ body, Heads (printE e) fun t => stmtTok t = true)
    (h : ∀ e ∈ body, ReadsS (printE e) (unlinked e)) :
    ReadsS (printE (.forN k x start stop body none)) (unlinked (.forN k x start stop body none)) := by
  intro rest hr
  have heq : printE (.forN k x start stop body none) ++ rest =
      .kw (forWord k) :: .name x :: (printRange start (printE stop) ++ (blockToks (printAll body) ++ rest)) := by
    simp [printE]
  rw [heq]
  refine reads_word hr.follow.1 ?_
  obtain ⟨h1, hw⟩ := reads_range ha hs hb (follow_block (printAll body) rest)
  have hf : Ev fun n => gForN n k (.name x :: (printRange start (printE stop) ++ (blockToks (printAll body) ++ rest))) =
      some (unlinked (.forN k x start stop body none), rest) := by
    refine (h1.and (reads_block body hh h rest)).step fun n hn => ?_
    simp only [gForN, hn.1, hn.2, unlinked]
  refine hf.step fun n hn => ?_
  have hi : ∀ n k, gForIn n k (.name x :: (printRange start (printE stop) ++ (blockToks (printAll body) ++ rest))) = none :=
    fun n k => gForIn_none n k x hw
  have hin : ∀ n w, gShortIn n w (.name x :: (printRange start (printE stop) ++ (blockToks (printAll body) ++ rest))) = none := by
    intro n w
    cases n with
    | zero => rfl
    | succ n =>
      simp only [gShortIn]
      split
      · exact hi _ _
      · rfl
  rcases shortKind_forWord hk with ⟨hw', rfl⟩ | ⟨a, b, c, d, e, f, g⟩
  · simp [gKw, hw', hi, hn]
  · simp [gKw, a, b, c, d, e, f, g, hin, hn]

theorem reads_forIn {k : ForInKind} {x : String} {iter : Expr} {body : List Expr} (hk : k ≠ .link) (hi : Good iter)
    (hh : ∀ e ∈ body, Heads (printE e) fun t => stmtTok t = true)
    (h : ∀ e ∈ body, ReadsS (printE e) (unlinked e)) :
    ReadsS (printE (.forIn k x iter body none)) (unlinked (.forIn k x iter body none)) := by
  intro rest hr
  have heq : printE (.forIn k x iter body none) ++ rest =
      .kw (forInWord k) :: .name x :: .kw "in" :: (printE iter ++ (blockToks (printAll body) ++ rest)) := by
    simp [printE]
  rw [heq]
  refine reads_word hr.follow.1 ?_
  have hf : Ev fun n => gForIn n k (.name x :: .kw "in" :: (printE iter ++ (blockToks (printAll body) ++ rest))) =
      some (unlinked (.forIn k x iter body none), rest) := by
    refine ((reads_leaf hi _ (follow_block (printAll body) rest)).and (reads_block body hh h rest)).step fun n hn => ?_
    simp [gForIn, hn.1, hn.2, unlinked]
  rcases inKind_forInWord hk with ⟨hw', rfl⟩ | ⟨a, b, c, d, e, f, g⟩
  · refine hf.step fun n hn => ?_
    simp [gKw, hw', hn]
  · refine Ev.succ (hf.step fun n hn => ?_)
    simp [gKw, a, b, c, d, e, f, gShortIn, g, hn]

/-! ## The induction -/

theorem stmt_reads {e : Expr} (h : Stmt e) : ReadsS (printE e) (unlinked e) := by
  induction h with
  | plain e h => exact fun rest hr => flat_reads h rest hr.follow
  | assign op it r h _ ih => exact fun rest hr => reads_assign op h hr.follow.1 (ih rest hr)
  | ret e h h0 ih => exact reads_ret h h0 ih
  | retVoid => exact reads_retVoid
  | brk l => exact reads_brk l
  | cont l => exact reads_cont l
  | block es hne h ih => exact reads_blockStmt hne (fun e he => stmt_head (h e he)) ih
  | ite c thn elifs els hc ht hi he hl iht ihe ihl =>
    exact reads_ite hc (fun e h => stmt_head (ht e h)) iht hi (fun p hp e h => stmt_head (he p hp e h)) ihe
      (fun b hb e h => stmt_head (hl b hb e h)) ihl
  | loop body h ih => exact reads_loop (fun e he => stmt_head (h e he)) ih
  | for_ op x sid r cond step body hr hc hs h ih => exact reads_for hr hc hs (fun e he => stmt_head (h e he)) ih
  | forN k x start stop body hk ha hs hb h ih => exact reads_forN hk ha hs hb (fun e he => stmt_head (h e he)) ih
  | forIn k x iter body hk hi h ih => exact reads_forIn hk hi (fun e he => stmt_head (h e he)) ih

/-- **C39** (partial).  The printed text of a statement parses, as a whole, to the statement:
blocks, branches and loops, nested to any depth.  Missing: statements inside of arguments,
arrays and operators, labels (which are not printed), link loops, closures, and that the
characters are cut into these tokens. -/
theorem C39_statement_partial (e : Expr) (h : Stmt e) :
    ∃ N, ∀ n, N ≤ n → gStmt n (printE e) = some (unlinked e, []) := by
  obtain ⟨N, hN⟩ := stmt_reads h [] ⟨Or.inl rfl, rfl⟩
  exact ⟨N, fun n hn => by simpa using hN n hn⟩

/-- Two statements printed alike are the same up to linking. -/
theorem C39_statement_injective_partial (a b : Expr) (ha : Stmt a) (hb : Stmt b) (h : printE a = printE b) :
    unlinked a = unlinked b := by
  obtain ⟨N, hN⟩ := C39_statement_partial a ha
  obtain ⟨M, hM⟩ := C39_statement_partial b hb
  have h1 := hN (max N M) (by omega)
  have h2 := hM (max N M) (by omega)
  rw [h, h2] at h1
  simpa using h1.symm

/-! ## Examples -/

/-- ```
for i := 0; i < n; i += 1 {
    if f(i) {
        x = {a: i, b: [i]}
        continue
    } else if g {} else { return (i, x) }
    y := sum j [i, n) { j * x }
    loop { break 'outer }
}
``` -/
def sample : Expr :=
  .for_ (.assign .assign (var "i") (.const (.f64 F64.zero none))) (.call .none "less" [var "i", var "n"])
    (.assign .add (var "i") (.const (.f64 (F64.ofNat 1) none)))
    [.ite (.call .none "f" [var "i"])
      [.assign .set (var "x") (.object [("a", var "i"), ("b", .array [var "i"])]), .cont none]
      [(var "g", [])]
      (some [.ret (.vec4 ([var "i", var "x"] ++ List.replicate 2 zeroConst))]),
     .assign .assign (var "y") (.forN .sum "j" (some (var "i")) (var "n") [.call .none "mul" [var "j", var "x"]] none),
     .for_ (.block []) (.const (.bool true none)) (.block []) [.brk (some "outer")] none] none

/-- It meets the hypothesis. -/
theorem sample_stmt : Stmt sample := by
  have v := good_var
  have one : Good (.const (.f64 (F64.ofNat 1) none)) := .const _ (show BitVec.msb _ = false by decide)
  have zero : Good (.const (.f64 F64.zero none)) := .const _ (show BitVec.msb _ = false by decide)
  refine .for_ .assign "i" none _ _ _ _ (.expr _ zero) ?_ (.assign _ _ _ (v "i") (.expr _ one)) ?_
  · exact .bin .none .less _ _ (v _) (v _) (Or.inr ⟨id, by simp [precedence, level, var]⟩)
      (Or.inr (by simp [precedence]))
  · intro e he
    simp only [List.mem_cons, List.not_mem_nil, or_false] at he
    rcases he with rfl | rfl | rfl
    · refine .ite _ _ _ _ (.call _ _ _ ⟨by simp, by simp⟩ (by simpa using v "i")) ?_ ?_ ?_ ?_
      · intro e he
        simp only [List.mem_cons, List.not_mem_nil, or_false] at he
        rcases he with rfl | rfl
        · refine .plain _ (.assign _ _ _ (v "x") (.object _ ?_))
          intro kv hkv
          simp only [List.mem_cons, List.not_mem_nil, or_false] at hkv
          rcases hkv with rfl | rfl
          · exact .expr _ (v _)
          · exact .expr _ (.array _ (by simpa using v "i"))
        · exact .cont _
      · simpa using v "g"
      · simp
      · intro b hb
        simp only [Option.mem_def, Option.some.injEq] at hb
        subst hb
        intro e he
        simp only [List.mem_cons, List.not_mem_nil, or_false] at he
        subst he
        refine .ret _ (.plain _ (.expr _ (.vec4 _ 2 rfl (by simp) ?_ (by simp [var, isZeroConst])))) (by simp [level])
        intro e he
        simp only [List.mem_cons, List.not_mem_nil, or_false] at he
        rcases he with rfl | rfl <;> exact v _
    · refine .assign _ _ _ (v "y") (.forN _ _ _ _ _ (by simp) ?_ (v _) (by simp) ?_)
      · simpa using v "i"
      · intro e he
        simp only [List.mem_cons, List.not_mem_nil, or_false] at he
        subst he
        exact .plain _ (.expr _ (.bin .none .mul _ _ (v _) (v _)
          (Or.inr ⟨id, by simp [precedence, level, var, endsNeg]⟩) (Or.inr (by simp [precedence, level, var]))))
    · refine .loop _ ?_
      intro e he
      simp only [List.mem_cons, List.not_mem_nil, or_false] at he
      subst he
      exact .brk _

/-- A line break and no more is between the statements of a block, and none around a single
one. -/
example : printE (.block [.brk none, .block [.retVoid]]) =
    [.lc, .nl, .kw "break", .nl, .lc, .kw "return", .rc, .nl, .rc] := rfl

/-- Only a loop with the condition `true`, without first statement and without step, is printed as `loop`. -/
theorem C39_loop_word {init cond step : Expr} {body : List Expr} {l : Option String} {ts : List Tok}
    (h : printE (.for_ init cond step body l) = .kw "loop" :: ts) :
    init = .block [] ∧ (∃ s, cond = .const (.bool true s)) ∧ step = .block [] := by
  rw [printE] at h
  split at h
  · rename_i hl
    unfold isLoop at hl
    split at hl
    · exact ⟨rfl, ⟨_, rfl⟩, rfl⟩
    · cases hl
  · simp at h

/-! ## Findings -/

/-- `return (a, b) == c` is not a `return`: it is read as a comparison of the result of calling
a function named `return`. -/
theorem C39_return_compared :
    ∃ N, ∀ n, N ≤ n → gStmt n (printE (.ret (.call .none "equal"
        [.vec4 ([var "a", var "b"] ++ List.replicate 2 zeroConst), var "c"]))) =
      some (.call .none "equal" [.call .none "return" [var "a", var "b"], var "c"], []) := by
  refine ⟨20, fun n hn => ?_⟩
  obtain ⟨m, rfl⟩ : ∃ m, n = m + 20 := ⟨n - 20, by omega⟩
  have h := print_vec [var "a", var "b"] 2 (by simp [var, isZeroConst])
  have hp : printE (.ret (.call .none "equal" [.vec4 ([var "a", var "b"] ++ List.replicate 2 zeroConst), var "c"])) =
      [.kw "return", .lp, .name "a", .comma, .name "b", .rp, .bin .equal, .name "c"] := by
    have hb := print_bin .none .equal (.vec4 ([var "a", var "b"] ++ List.replicate 2 zeroConst)) (var "c")
    rw [show callName .equal = "equal" from rfl] at hb
    rw [printE, hb, h]
    rfl
  rw [hp]
  rfl

end Dyon.Syn
