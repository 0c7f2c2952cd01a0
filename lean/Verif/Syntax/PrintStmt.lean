import Verif.Syntax.PrintProps
import Verif.Syntax.ParseStmt

/-!
# C39: specification and lemmas for statements

`Spec.Stmt` describes the statements whose printed form is read back; the theorem itself is in
`Verif.Syntax.PrintStmtProps`.
-/

namespace Dyon.Syn

namespace Spec

/-- Expressions, objects of them and assignments of them: what is read back wherever it
stands. -/
inductive Flat : Expr → Prop
  | expr (e : Expr) : Good e → Flat e
  | object (kvs : List (String × Expr)) : (∀ kv ∈ kvs, Flat kv.2) → Flat (.object kvs)
  | assign (op : AssignOp) (it : Item) (r : Expr) : Good (.item it) → Flat r →
      Flat (.assign op (.item it) r)

/-- The statements the printed form of which is read back: loops without labels, other than
link loops; `for` with a declaration or an assignment of a variable in front; the result of
`return` is not a comparison that begins with a parenthesis. -/
inductive Stmt : Expr → Prop
  | plain (e : Expr) : Flat e → Stmt e
  | assign (op : AssignOp) (it : Item) (r : Expr) : Good (.item it) → Stmt r →
      Stmt (.assign op (.item it) r)
  | ret (e : Expr) : Stmt e → (level e = 0 → ∀ ts, printE e ≠ .lp :: ts) → Stmt (.ret e)
  | retVoid : Stmt .retVoid
  | brk (l : Option String) : Stmt (.brk l)
  | cont (l : Option String) : Stmt (.cont l)
  | block (es : List Expr) : es ≠ [] → (∀ e ∈ es, Stmt e) → Stmt (.block es)
  | ite (c : Expr) (thn : List Expr) (elifs : List (Expr × List Expr)) (els : Option (List Expr)) :
      Good c → (∀ e ∈ thn, Stmt e) → (∀ p ∈ elifs, Good p.1) → (∀ p ∈ elifs, ∀ e ∈ p.2, Stmt e) →
      (∀ b ∈ els, ∀ e ∈ b, Stmt e) → Stmt (.ite c thn elifs els)
  | loop (body : List Expr) : (∀ e ∈ body, Stmt e) →
      Stmt (.for_ (.block []) (.const (.bool true none)) (.block []) body none)
  | for_ (op : AssignOp) (x : String) (sid : Option Nat) (r cond step : Expr) (body : List Expr) :
      Flat r → Good cond → Flat step → (∀ e ∈ body, Stmt e) →
      Stmt (.for_ (.assign op (.item (.mk x sid false false [] [])) r) cond step body none)
  | forN (k : ForKind) (x : String) (start : Option Expr) (stop : Expr) (body : List Expr) :
      k ≠ .linkFor → (∀ a ∈ start, Good a) → Good stop →
      (start = none → ∀ ts, printE stop ≠ .lb :: ts) → (∀ e ∈ body, Stmt e) →
      Stmt (.forN k x start stop body none)
  | forIn (k : ForInKind) (x : String) (iter : Expr) (body : List Expr) :
      k ≠ .link → Good iter → (∀ e ∈ body, Stmt e) → Stmt (.forIn k x iter body none)

end Spec

open Spec

/-! ## First tokens -/

/-- The tokens an expression may begin with. -/
def leafTok : Tok → Bool
  | .name _ | .lit _ | .lp | .lb | .bang | .bar | .tilde | .backslash | .bin .sub => true
  | _ => false

theorem leaf_head {e : Expr} (h : Good e) : Heads (printE e) fun t => leafTok t = true := by
  induction h with
  | const v _ => exact ⟨_, _, by simp only [printE]; rfl, rfl⟩
  | item name sid cur ids tr _ _ _ =>
    cases cur <;> exact ⟨_, _, by simp only [printE, printItem]; rfl, rfl⟩
  | callClosure => exact ⟨_, _, by simp only [printE]; rfl, rfl⟩
  | array es => exact ⟨_, _, by simp only [printE]; rfl, rfl⟩
  | vec4 shown m _ _ _ hlast =>
    rw [print_vec shown m hlast]
    unfold vecToks
    split <;> exact ⟨_, _, rfl, rfl⟩
  | grab l e => exact ⟨_, _, by simp only [printE]; rfl, rfl⟩
  | tryExpr e => exact ⟨_, _, by simp only [printE]; rfl, rfl⟩
  | try_ e _ _ ih =>
    simp only [printE]
    exact ih.append _
  | norm f e => exact ⟨.bar, _, by simp [printE, printAll, callToks]; rfl, rfl⟩
  | not f e => exact ⟨.bang, _, by simp [printE, printAll, callToks]; rfl, rfl⟩
  | neg f e => exact ⟨.bin .sub, _, by simp [printE, printAll, callToks]; rfl, rfl⟩
  | bin f op l r _ _ _ _ ihl _ =>
    rw [print_bin]
    refine Heads.append ?_ _
    unfold paren
    split
    · exact ⟨_, _, rfl, rfl⟩
    · exact ihl
  | call f name args hp =>
    rw [print_call hp]
    exact ⟨_, _, rfl, rfl⟩

/-- The tokens a statement may begin with. -/
def stmtTok : Tok → Bool
  | .lc => true
  | .kw w => w != "else"
  | t => leafTok t

theorem leaf_stmt {t : Tok} (h : leafTok t = true) : stmtTok t = true := by
  cases t <;> first | exact h | rfl | cases h

theorem flat_head {e : Expr} (h : Flat e) : Heads (printE e) fun t => stmtTok t = true := by
  cases h with
  | expr _ h => exact (leaf_head h).imp fun _ => leaf_stmt
  | object kvs _ => exact ⟨_, _, by simp only [printE]; rfl, rfl⟩
  | assign op it r h _ =>
    simp only [printE]
    have := leaf_head h
    simp only [printE] at this
    exact (this.append _).imp fun _ => leaf_stmt

theorem block_head (ts : List (List Tok)) : Heads (blockToks ts) fun t => t = .lc := by
  unfold blockToks
  split <;> exact ⟨_, _, rfl, rfl⟩

theorem forWord_else (k : ForKind) : (forWord k != "else") = true := by cases k <;> decide
theorem forInWord_else (k : ForInKind) : (forInWord k != "else") = true := by cases k <;> decide

theorem stmt_head {e : Expr} (h : Stmt e) : Heads (printE e) fun t => stmtTok t = true := by
  cases h with
  | plain _ h => exact flat_head h
  | assign op it r h _ =>
    simp only [printE]
    have := leaf_head h
    simp only [printE] at this
    exact (this.append _).imp fun _ => leaf_stmt
  | ret e => exact ⟨_, _, by simp only [printE]; rfl, by decide⟩
  | retVoid => exact ⟨_, _, by simp only [printE]; rfl, by decide⟩
  | brk l => cases l <;> exact ⟨_, _, by simp only [printE]; rfl, by decide⟩
  | cont l => cases l <;> exact ⟨_, _, by simp only [printE]; rfl, by decide⟩
  | block es =>
    simp only [printE]
    exact (block_head _).imp fun t ht => by rw [ht]; rfl
  | ite => exact ⟨_, _, by simp only [printE]; rfl, by decide⟩
  | loop => exact ⟨_, _, by simp only [printE, isLoop]; rfl, by decide⟩
  | for_ => exact ⟨_, _, by simp only [printE, isLoop]; rfl, by decide⟩
  | forN k => exact ⟨.kw (forWord k), _, by simp only [printE]; rfl, forWord_else k⟩
  | forIn k => exact ⟨.kw (forInWord k), _, by simp only [printE]; rfl, forInWord_else k⟩

/-! ## Not an assignment -/

/-- What begins with the text is not read as the left side of an assignment. -/
def NoAsg (T : List Tok) : Prop :=
  ∀ rest, Stop (· < 4) rest → (∀ op ts, rest ≠ .asg op :: ts) →
    Ev fun n => ∀ l op ts, gL n (T ++ rest) ≠ some (l, .asg op :: ts)

theorem ReadsL.toNoAsg {T v} (h : ReadsL T v) : NoAsg T := by
  intro rest hr ha
  refine (h rest hr).mono fun n hn l op ts hl => ?_
  rw [hn] at hl
  cases hl
  exact ha _ _ rfl

theorem gL_sub (n : Nat) (ts : List Tok) : gL n (.bin .sub :: ts) = none := by
  match n with
  | 0 => rfl
  | 1 => rfl
  | 2 => rfl
  | n + 3 => rfl

theorem noAsg_four {e : Expr} (h : Good e) (hl : level e = 4) : NoAsg (printE e) :=
  ((good_reads h).1.L hl).toNoAsg

theorem noAsg {e : Expr} (h : Good e) : NoAsg (printE e) := by
  induction h with
  | const v hv => exact noAsg_four (.const v hv) rfl
  | item name sid cur ids tr h1 h2 h3 => exact noAsg_four (.item name sid cur ids tr h1 h2 h3) rfl
  | callClosure name sid cur ids tr args h1 h2 h3 h4 =>
    exact noAsg_four (.callClosure name sid cur ids tr args h1 h2 h3 h4) rfl
  | array es h => exact noAsg_four (.array es h) rfl
  | vec4 shown m h1 h2 h3 h4 => exact noAsg_four (.vec4 shown m h1 h2 h3 h4) rfl
  | grab l e h => exact noAsg_four (.grab l e h) rfl
  | tryExpr e h => exact noAsg_four (.tryExpr e h) rfl
  | try_ e h ht => exact noAsg_four (.try_ e h ht) rfl
  | norm f e h => exact noAsg_four (.norm f e h) rfl
  | not f e h hl => exact noAsg_four (.not f e h hl) rfl
  | neg f e =>
    intro rest _ _
    refine Ev.of fun n l op ts hh => ?_
    have hp : printE (.call f "neg" [e]) = .bin .sub :: printE e := by simp [printE, printAll, callToks]
    rw [hp, List.cons_append, gL_sub] at hh
    cases hh
  | bin f op l r hgl _ _ _ ihl _ =>
    intro rest _ _
    have hp4 : precedence op < 4 := by cases op <;> decide
    rw [print_bin, List.append_assoc]
    have hN : NoAsg (paren (needsParens op l false) (printE l)) := by
      cases needsParens op l false with
      | true => exact (good_reads hgl).1.E.paren.toNoAsg
      | false => exact ihl
    exact hN _ hp4 (by simp)
  | call f name args hp h => exact noAsg_four (.call f name args hp h) (level_plain hp)

/-! ## Expressions, objects and assignments -/

/-- What may follow. -/
def Follow (rest : List Tok) : Prop := Stop (· < 0) rest ∧ ∀ op ts, rest ≠ .asg op :: ts

/-- Read as a statement, whatever follows. -/
def ReadsP (T : List Tok) (v : Expr) : Prop :=
  ∀ rest, Follow rest → Ev fun n => gStmt n (T ++ rest) = some (v, rest)

theorem gStmt_leaf {T : List Tok} (h : Heads T fun t => leafTok t = true ∧ t ≠ .lb) (n : Nat) :
    gStmt (n + 1) T = match gAssign n T with
      | some r => gTry (some r)
      | none => gExpr n T := by
  obtain ⟨t, ts, rfl, h1, h2⟩ := h
  cases t <;> first | exact absurd rfl h2 | rfl | cases h1

theorem gAssign_none {T rest : List Tok} (h : NoAsg T) (hr : Stop (· < 4) rest)
    (ha : ∀ op ts, rest ≠ .asg op :: ts) : Ev fun n => gAssign n (T ++ rest) = none := by
  refine (h rest hr ha).step fun n hn => ?_
  unfold gAssign
  split
  · rename_i heq
    exact absurd heq (hn _ _ _)
  · rfl

theorem reads_leaf {e : Expr} (h : Good e) : ReadsP (printE e) (unlinked e) := by
  intro rest hr
  have hE := (good_reads h).1.E rest hr.1
  obtain ⟨t, ts, ht, hl⟩ := leaf_head h
  by_cases hb : t = .lb
  · subst hb
    obtain ⟨N, hN⟩ := hE
    refine ⟨N + 1, fun n hn => ?_⟩
    obtain ⟨m, rfl⟩ : ∃ m, n = m + 1 := ⟨n - 1, by omega⟩
    have := hN (m + 1) (by omega)
    rw [ht] at this ⊢
    exact this
  · have hA := gAssign_none (noAsg h) (hr.1.mono (by omega)) hr.2
    refine (hA.and hE).step fun n hn => ?_
    have hh : Heads (printE e ++ rest) fun t => leafTok t = true ∧ t ≠ .lb :=
      Heads.append ⟨t, ts, ht, hl, hb⟩ _
    rw [gStmt_leaf hh, hn.1, hn.2]

theorem reads_assign {it : Item} (op : AssignOp) {r : Expr} (h : Good (.item it)) {rest : List Tok}
    (hs : Stop (· < 0) rest) (hr : Ev fun n => gStmt n (printE r ++ rest) = some (unlinked r, rest)) :
    Ev fun n => gStmt n (printE (.assign op (.item it) r) ++ rest) =
      some (unlinked (.assign op (.item it) r), rest) := by
  have hR := (good_reads h).1
  have hL := hR.L rfl (.asg op :: (printE r ++ rest)) trivial
  have hT : printE (.assign op (.item it) r) ++ rest = printE (.item it) ++ .asg op :: (printE r ++ rest) := by
    simp [printE]
  have hA : Ev fun n => gAssign n (printE (.item it) ++ .asg op :: (printE r ++ rest)) =
      some (unlinked (.assign op (.item it) r), rest) := by
    refine (hL.and hr).step fun n hn => ?_
    simp only [gAssign, hn.1, hn.2, unlinked]
  have hh : Heads (printE (.item it) ++ .asg op :: (printE r ++ rest)) fun t => leafTok t = true ∧ t ≠ .lb := by
    refine Heads.append ?_ _
    obtain ⟨t, ts, ht, hl⟩ := leaf_head h
    obtain ⟨u, us, hu, hp⟩ := hR.head
    refine ⟨t, ts, ht, hl, fun hb => ?_⟩
    rw [ht] at hu
    exact hp.1 ((List.cons.inj hu).1.symm.trans hb)
  refine hA.step fun n hn => ?_
  rw [hT, gStmt_leaf hh, hn]
  exact gTry_stop hs

theorem reads_kvs (kvs : List (String × Expr)) (h : ∀ kv ∈ kvs, ReadsP (printE kv.2) (unlinked kv.2))
    (rest : List Tok) :
    Ev fun n => gKVs n (commas (printKVs kvs) ++ .rc :: rest) = (unlinkedKVs kvs, .rc :: rest) := by
  induction kvs with
  | nil => exact Ev.succ (Ev.of fun n => rfl)
  | cons kv kvs ih =>
    obtain ⟨k, e⟩ := kv
    cases kvs with
    | nil =>
      refine (h (k, e) (by simp) (.rc :: rest) ⟨trivial, by simp⟩).step fun n hn => ?_
      have heq : commas (printKVs [(k, e)]) ++ .rc :: rest = .key k :: .colon :: (printE e ++ .rc :: rest) := by
        simp [printKVs, commas]
      rw [heq]
      simp only [gKVs, hn, unlinkedKVs]
    | cons kv' kvs' =>
      have h1 := h (k, e) (by simp) (.comma :: (commas (printKVs (kv' :: kvs')) ++ .rc :: rest)) ⟨trivial, by simp⟩
      have h2 := ih fun x hx => h x (by simp [hx])
      refine (h1.and h2).step fun n hn => ?_
      have heq : commas (printKVs ((k, e) :: kv' :: kvs')) ++ .rc :: rest =
          .key k :: .colon :: (printE e ++ .comma :: (commas (printKVs (kv' :: kvs')) ++ .rc :: rest)) := by
        obtain ⟨k', e'⟩ := kv'
        simp [printKVs, commas]
      rw [heq]
      simp only [gKVs, hn.1, hn.2]
      simp only [unlinkedKVs]

theorem flat_reads {e : Expr} (h : Flat e) : ReadsP (printE e) (unlinked e) := by
  induction h with
  | expr e h => exact reads_leaf h
  | object kvs _ ih =>
    intro rest hr
    have h1 : Ev fun n => gObject n (commas (printKVs kvs) ++ .rc :: rest) = some (unlinked (.object kvs), rest) := by
      refine (reads_kvs kvs ih rest).step fun n hn => ?_
      have hs : skipNl (commas (printKVs kvs) ++ .rc :: rest) = commas (printKVs kvs) ++ .rc :: rest := by
        match kvs with
        | [] => rfl
        | [(k, e)] => rfl
        | (k, e) :: kv :: kvs => rfl
      simp only [gObject, hs, hn, unlinked]
      rfl
    refine h1.step fun n hn => ?_
    have heq : printE (.object kvs) ++ rest = .lc :: (commas (printKVs kvs) ++ .rc :: rest) := by simp [printE]
    rw [heq]
    simp only [gStmt, hn]
    exact gTry_stop hr.1
  | assign op it r h _ ih =>
    intro rest hr
    exact reads_assign op h hr.1 (ih rest hr)

/-! ## Statements -/

/-- What follows a statement: the end, a line break or a brace, and no `else` behind it. -/
def Ends (rest : List Tok) : Prop :=
  (rest = [] ∨ (∃ ts, rest = .nl :: ts) ∨ ∃ ts, rest = .rc :: ts) ∧ afterElse (skipNl rest) = none

theorem Ends.follow {rest : List Tok} (h : Ends rest) : Follow rest := by
  obtain ⟨h | ⟨ts, h⟩ | ⟨ts, h⟩, _⟩ := h <;> subst h <;> exact ⟨trivial, by simp⟩

/-- Read as a statement. -/
def ReadsS (T : List Tok) (v : Expr) : Prop :=
  ∀ rest, Ends rest → Ev fun n => gStmt n (T ++ rest) = some (v, rest)

/-- Text no statement begins with. -/
def Dead (ts : List Tok) : Prop :=
  ts = [] ∨ (∃ us, ts = .nl :: us) ∨ (∃ us, ts = .rc :: us) ∨ ∃ op us, ts = .asg op :: us

theorem Ends.dead {rest : List Tok} (h : Ends rest) : Dead rest := by
  rcases h.1 with h | h | h
  · exact Or.inl h
  · exact Or.inr (Or.inl h)
  · exact Or.inr (Or.inr (Or.inl h))

theorem dead_none {ts : List Tok} (h : Dead ts) (n : Nat) : gStmt n ts = none := by
  have hi : ∀ n, gItem n ts = none := by
    intro n
    cases n with
    | zero => rfl
    | succ n => rcases h with rfl | ⟨us, rfl⟩ | ⟨us, rfl⟩ | ⟨op, us, rfl⟩ <;> rfl
  have hI : ∀ n, gItems n ts = none := by
    intro n
    cases n with
    | zero => rfl
    | succ n => rcases h with rfl | ⟨us, rfl⟩ | ⟨us, rfl⟩ | ⟨op, us, rfl⟩ <;> simp [gItems, hi]
  have hL : ∀ n, gL n ts = none := by
    intro n
    cases n with
    | zero => rfl
    | succ n => rcases h with rfl | ⟨us, rfl⟩ | ⟨us, rfl⟩ | ⟨op, us, rfl⟩ <;> simp [gL, hI, gTry]
  have hF : ∀ n, gFactor n ts = none := by
    intro n
    cases n with
    | zero => rfl
    | succ n => rcases h with rfl | ⟨us, rfl⟩ | ⟨us, rfl⟩ | ⟨op, us, rfl⟩ <;> simp [gFactor, hL]
  have hM : ∀ n, gMul n ts = none := by
    intro n
    cases n with
    | zero => rfl
    | succ n => simp only [gMul, hF]
  have hA : ∀ n, gAdd n ts = none := by
    intro n
    cases n with
    | zero => rfl
    | succ n => simp only [gAdd, hM]
  have hC : ∀ n, gCompare n ts = none := by
    intro n
    cases n with
    | zero => rfl
    | succ n => simp only [gCompare, hL]
  have hE : ∀ n, gExpr n ts = none := by
    intro n
    cases n with
    | zero => rfl
    | succ n => rcases h with rfl | ⟨us, rfl⟩ | ⟨us, rfl⟩ | ⟨op, us, rfl⟩ <;> simp [gExpr, hC, hA, gTry]
  have hS : ∀ n, gAssign n ts = none := by
    intro n
    cases n with
    | zero => rfl
    | succ n => simp only [gAssign, hL]
  cases n with
  | zero => rfl
  | succ n => rcases h with rfl | ⟨us, rfl⟩ | ⟨us, rfl⟩ | ⟨op, us, rfl⟩ <;> simp [gStmt, hS, hE]

theorem skipNl_head {T : List Tok} (h : Heads T (· ≠ .nl)) : skipNl T = T := by
  obtain ⟨t, ts, rfl, ht⟩ := h
  cases t <;> first | exact absurd rfl ht | rfl

theorem stmt_nl {t : Tok} (h : stmtTok t = true) : t ≠ .nl := by rintro rfl; cases h

theorem stmt_else {T : List Tok} (h : Heads T fun t => stmtTok t = true) : afterElse T = none := by
  obtain ⟨t, ts, rfl, ht⟩ := h
  cases t with
  | kw w =>
    have : w ≠ "else" := by simpa [stmtTok] using ht
    simp [afterElse, this]
  | _ => rfl

/-- The statements of a block of several lines. -/
theorem reads_lines (es : List Expr) (hh : ∀ e ∈ es, Heads (printE e) fun t => stmtTok t = true)
    (h : ∀ e ∈ es, ReadsS (printE e) (unlinked e)) (rest : List Tok) :
    Ev fun n => gLines n (lines (printAll es) ++ .rc :: rest) = (unlinkedAll es, .rc :: rest) := by
  induction es with
  | nil =>
    refine Ev.succ (Ev.of fun n => ?_)
    simp only [printAll, lines, List.nil_append, gLines, dead_none (Or.inr (Or.inr (Or.inl ⟨rest, rfl⟩))), unlinkedAll]
  | cons e es ih =>
    have hsk : skipNl (lines (printAll es) ++ .rc :: rest) = lines (printAll es) ++ .rc :: rest ∧
        afterElse (lines (printAll es) ++ .rc :: rest) = none := by
      cases es with
      | nil => exact ⟨rfl, rfl⟩
      | cons e' es' =>
        have := hh e' (by simp)
        have h' : Heads (lines (printAll (e' :: es')) ++ .rc :: rest) fun t => stmtTok t = true := by
          simp only [printAll, lines, List.append_assoc]
          exact this.append _
        exact ⟨skipNl_head (h'.imp fun t => stmt_nl), stmt_else h'⟩
    have h1 := h e (by simp) (.nl :: (lines (printAll es) ++ .rc :: rest))
      ⟨Or.inr (Or.inl ⟨_, rfl⟩), by
        show afterElse (skipNl (lines (printAll es) ++ .rc :: rest)) = none
        rw [hsk.1]; exact hsk.2⟩
    have h2 := ih (fun x hx => hh x (by simp [hx])) fun x hx => h x (by simp [hx])
    refine (h1.and h2).step fun n hn => ?_
    have heq : lines (printAll (e :: es)) ++ .rc :: rest = printE e ++ .nl :: (lines (printAll es) ++ .rc :: rest) := by
      simp [printAll, lines]
    rw [heq]
    simp only [gLines, hn.1, hsk.1, hn.2, unlinkedAll]

theorem reads_block (es : List Expr) (hh : ∀ e ∈ es, Heads (printE e) fun t => stmtTok t = true)
    (h : ∀ e ∈ es, ReadsS (printE e) (unlinked e)) (rest : List Tok) :
    Ev fun n => gBlock n (blockToks (printAll es) ++ rest) = some (unlinkedAll es, rest) := by
  match es with
  | [] =>
    refine (reads_lines [] (by simp) (by simp) rest).step fun n hn => ?_
    have hn' : gLines n (.rc :: rest) = ([], .rc :: rest) := hn
    show (match gLines n (skipNl (.rc :: rest)) with
      | (es, ts) => match skipNl ts with
        | .rc :: ts => some (es, ts)
        | _ => none) = _
    rw [show skipNl (.rc :: rest) = .rc :: rest from rfl, hn']
    rfl
  | [e] =>
    have h1 := h e (by simp) (.rc :: rest) ⟨Or.inr (Or.inr ⟨_, rfl⟩), rfl⟩
    refine Ev.succ (h1.step fun n hn => ?_)
    have heq : blockToks (printAll [e]) ++ rest = .lc :: (printE e ++ .rc :: rest) := by
      simp [printAll, blockToks]
    have hs : skipNl (printE e ++ .rc :: rest) = printE e ++ .rc :: rest :=
      skipNl_head (((hh e (by simp)).imp fun t => stmt_nl).append _)
    rw [heq]
    simp only [gBlock, hs, gLines, hn]
    rfl
  | e :: e' :: es =>
    refine (reads_lines (e :: e' :: es) hh h rest).step fun n hn => ?_
    have heq : blockToks (printAll (e :: e' :: es)) ++ rest = .lc :: .nl :: (lines (printAll (e :: e' :: es)) ++ .rc :: rest) := by
      simp [printAll, blockToks]
    have hs : skipNl (.nl :: (lines (printAll (e :: e' :: es)) ++ .rc :: rest)) =
        lines (printAll (e :: e' :: es)) ++ .rc :: rest := by
      show skipNl (lines (printAll (e :: e' :: es)) ++ .rc :: rest) = _
      refine skipNl_head ?_
      simp only [printAll, lines, List.append_assoc]
      exact ((hh e (by simp)).imp fun t => stmt_nl).append _
    rw [heq]
    simp only [gBlock, hs, hn]
    rfl

end Dyon.Syn
