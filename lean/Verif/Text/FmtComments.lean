import Verif.Text.FmtProps

/-!
# C37: comments in formatted text
-/

namespace Dyon.Text

/-! ## Lemmas -/

/-- Outside of strings and comments. -/
structure Plain (s : Fmt) : Prop where
  string : s.string = false
  stringEscape : s.stringEscape = false
  comment : s.comment = .none

theorem fmtCode_comment (tab s ch) : (fmtCode tab s ch).comment = s.comment := by
  rw [fmtCode]; split <;> rfl

theorem fmtStep_outside {tab s ch} (hs : s.string = false) (hq : ch ≠ '"') : fmtStep tab s ch = fmtOutside tab s ch := by
  rw [fmtStep, if_neg hq, if_neg (by simp [hs]), fmtRest, if_neg (by simp [hs])]

theorem Plain.step {tab s ch} (h : Plain s) (hq : ch ≠ '"') (hc : ch ≠ '/') : Plain (fmtStep tab s ch) := by
  rw [fmtStep_outside h.string hq]
  refine ⟨by rw [(fmtOutside_flags tab s ch).1, h.string], by rw [(fmtOutside_flags tab s ch).2, h.stringEscape], ?_⟩
  have : fmtComment s ch = s := by
    obtain ⟨_, _, _, c, _, _⟩ := s
    have := h.comment
    simp only at this
    subst this
    simp [fmtComment, Comment.advance, hc, Comment.isTerminated]
  rw [fmtOutside, fmtActive, this, if_neg (by simp [h.comment, Comment.isActive]), fmtCode_comment, h.comment]

theorem Plain.foldl {tab} {pre : List Char} {s} (h : Plain s) (hq : '"' ∉ pre) (hc : '/' ∉ pre) :
    Plain (pre.foldl (fmtStep tab) s) := by
  induction pre generalizing s with
  | nil => exact h
  | cons c r ih =>
    rw [List.mem_cons, not_or] at hq hc
    exact ih (h.step (Ne.symm hq.1) (Ne.symm hc.1)) hq.2 hc.2

theorem fmtStep_first {tab s} (h : Plain s) : ∃ w, ink w = [] ∧ (fmtStep tab s '/').res = s.res ++ w ++ ['/'] ∧
    (fmtStep tab s '/').string = false ∧ (fmtStep tab s '/').stringEscape = false ∧ (fmtStep tab s '/').comment = .first := by
  rw [fmtStep_outside h.string (by decide)]
  have hf : fmtComment s '/' = { s with comment := .first } := by
    simp [fmtComment, h.comment, Comment.advance, Comment.isTerminated]
  rw [(fmtOutside_flags tab s '/').1, (fmtOutside_flags tab s '/').2, fmtOutside, fmtActive, hf, if_neg (by simp [Comment.isActive]),
    fmtCode_comment]
  refine ⟨if s.newline then '\n' :: spaces (s.tabs * tab) else [], ?_, ?_, h.string, h.stringEscape, rfl⟩
  · split
    · exact ink_newline _
    · rfl
  · cases hn : s.newline <;> simp [fmtCode, closes, hn]

theorem fmtStep_second {tab s} (hs : s.string = false) (hc : s.comment = .first) :
    fmtStep tab s '/' = { s with res := s.res ++ ['/'], comment := .activeLine } := by
  rw [fmtStep_outside hs (by decide), fmtOutside]
  have hf : fmtComment s '/' = { s with comment := .activeLine } := by
    simp [fmtComment, hc, Comment.advance, Comment.isTerminated]
  rw [hf, fmtActive, if_pos (by simp [Comment.isActive])]

theorem foldl_line {tab} {body : List Char} {s} (hs : s.string = false) (hc : s.comment = .activeLine)
    (hq : '"' ∉ body) (hn : '\n' ∉ body) : body.foldl (fmtStep tab) s = { s with res := s.res ++ body } := by
  induction body generalizing s with
  | nil => simp
  | cons c r ih =>
    rw [List.mem_cons, not_or] at hq hn
    have hf : fmtComment s c = s := by
      obtain ⟨_, _, _, c', _, _⟩ := s
      simp only at hc
      subst hc
      simp [fmtComment, Comment.advance, Comment.isTerminated, Ne.symm hn.1]
    have h1 : fmtStep tab s c = { s with res := s.res ++ [c] } := by
      rw [fmtStep_outside hs (Ne.symm hq.1), fmtOutside, hf, fmtActive, if_pos (by simp [hc, Comment.isActive])]
    rw [List.foldl_cons, h1, ih (s := { s with res := s.res ++ [c] }) hs hc hq.2 hn.2]
    simp

theorem fmtStep_end {tab s} (hs : s.string = false) (hc : s.comment = .activeLine) :
    fmtStep tab s '\n' = { s with newline := true, comment := .none } := by
  rw [fmtStep_outside hs (by decide), fmtOutside]
  have hf : fmtComment s '\n' = { s with newline := true, comment := .none } := by
    simp [fmtComment, hc, Comment.advance, Comment.isTerminated]
  rw [hf, fmtActive, if_neg (by simp [Comment.isActive]), fmtCode, if_pos (.inl rfl)]

theorem fmtStep_grows (tab s ch) : ∃ u, (fmtStep tab s ch).res = s.res ++ u := by
  have hr : ∀ s, ∃ u, (fmtRest tab s ch).res = s.res ++ u := by
    intro s
    rw [fmtRest]
    split
    · exact ⟨_, rfl⟩
    · rw [fmtOutside, fmtActive]
      split
      · exact ⟨[ch], by rw [(fmtComment_same s ch).1]⟩
      · rw [fmtCode]
        split
        · exact ⟨[], by rw [(fmtComment_same s ch).1, List.append_nil]⟩
        · rw [(fmtComment_same s ch).1]
          dsimp only
          split <;> split <;> split <;> first
            | exact ⟨_, rfl⟩
            | exact ⟨[], (List.append_nil _).symm⟩
            | exact ⟨_, by simp only [List.append_assoc]; rfl⟩
  rw [fmtStep]
  split
  · split
    · exact hr { s with stringEscape := false }
    · exact ⟨_, rfl⟩
  · split
    · exact hr { s with stringEscape := true }
    · exact hr s

theorem foldl_grows (tab) (text : List Char) (s) : ∃ u, (text.foldl (fmtStep tab) s).res = s.res ++ u := by
  induction text generalizing s with
  | nil => exact ⟨[], by simp⟩
  | cons c r ih =>
    obtain ⟨u, hu⟩ := fmtStep_grows tab s c
    obtain ⟨v, hv⟩ := ih (fmtStep tab s c)
    exact ⟨u ++ v, by rw [List.foldl_cons, hv, hu, List.append_assoc]⟩

theorem foldl_newline {tab} {rest : List Char} {s} (h : Plain s) (hn : s.newline = true) (hq : (ink rest).head? ≠ some '"') :
    (rest.foldl (fmtStep tab) s).res = s.res ∨ ∃ v, (rest.foldl (fmtStep tab) s).res = s.res ++ '\n' :: v := by
  induction rest with
  | nil => exact .inl rfl
  | cons c r ih =>
    by_cases hb : c = '\n' ∨ c = ' '
    · have h1 : fmtStep tab s c = s := by
        have hc : c ≠ '"' ∧ c ≠ '/' := by rcases hb with rfl | rfl <;> decide
        have hf : fmtComment s c = s := by
          obtain ⟨_, _, _, c', _, _⟩ := s
          have := h.comment
          simp only at this
          subst this
          simp [fmtComment, Comment.advance, hc.2, Comment.isTerminated]
        rw [fmtStep_outside h.string hc.1, fmtOutside, hf, fmtActive, if_neg (by simp [h.comment, Comment.isActive]), fmtCode, if_pos hb]
      rw [List.foldl_cons, h1]
      refine ih ?_
      rwa [ink_cons, ink_blank (by rcases hb with rfl | rfl <;> rfl), List.nil_append] at hq
    · have hc : c ≠ '"' := by
        rintro rfl
        exact hq (by simp [ink, blank])
      right
      obtain ⟨v, hv⟩ := foldl_grows tab r (fmtStep tab s c)
      have h1 : ∃ u, (fmtStep tab s c).res = s.res ++ '\n' :: u := by
        have hk : (fmtComment s c).comment.isActive = false ∧ (fmtComment s c).newline = true := by
          rw [fmtComment, h.comment, Comment.advance]
          split <;> split <;> simp_all [Comment.isActive, Comment.isTerminated]
        rw [fmtStep_outside h.string hc, fmtOutside, fmtActive, if_neg (by simp [hk.1]), fmtCode, if_neg hb, (fmtComment_same s c).1]
        simp only [hk.2, Bool.true_or, if_true]
        split <;> split <;> first
          | exact ⟨_, rfl⟩
          | exact ⟨_, by simp only [List.append_assoc, List.cons_append]; rfl⟩
      obtain ⟨u, hu⟩ := h1
      exact ⟨u ++ v, by rw [List.foldl_cons, hv, hu]; simp⟩

/-! ## Theorems -/

/-- **C37**, comments: the first line comment of a text is unchanged, blanks included, and what comes after it stays behind it; it begins on
a new line unless it begins with a string.  Before the comment there are no strings and no other comments; there is no quote in it. -/
theorem C37_line_comment_partial (tab : Int) (pre body rest : List Char) (h1 : '"' ∉ pre) (h2 : '/' ∉ pre) (h3 : '"' ∉ body)
    (h4 : '\n' ∉ body) :
    ∃ u v, fmt tab (pre ++ ['/', '/'] ++ body ++ ['\n'] ++ rest) = u ++ ['/', '/'] ++ body ++ v ∧
      ink u = ink pre ∧ ink v = ink rest ∧ ((ink rest).head? ≠ some '"' → v = [] ∨ ∃ v', v = '\n' :: v') := by
  have hp : Plain (pre.foldl (fmtStep tab) {}) := Plain.foldl ⟨rfl, rfl, rfl⟩ h1 h2
  have hi : ink (pre.foldl (fmtStep tab) {}).res = ink pre := C37_ink tab pre
  simp only [fmt, List.foldl_append, List.foldl_cons, List.foldl_nil]
  generalize pre.foldl (fmtStep tab) {} = s at hp hi
  obtain ⟨w, hw, hr, hs, he, hc⟩ := fmtStep_first (tab := tab) hp
  generalize fmtStep tab s '/' = s1 at hr hs he hc
  rw [fmtStep_second hs hc, foldl_line (by exact hs) rfl h3 h4, fmtStep_end (by exact hs) rfl]
  obtain ⟨v, hv⟩ := foldl_grows tab rest { s1 with res := s1.res ++ ['/'] ++ body, newline := true, comment := .none }
  have hk := foldl_ink tab rest { s1 with res := s1.res ++ ['/'] ++ body, newline := true, comment := .none }
  refine ⟨s.res ++ w, v, ?_, ?_, ?_, ?_⟩
  · rw [hv, hr]; simp
  · rw [ink_append, hw, hi, List.append_nil]
  · rw [hv, ink_append] at hk
    exact List.append_cancel_left hk
  · intro hq
    have := foldl_newline (tab := tab) (rest := rest) (s := { s1 with res := s1.res ++ ['/'] ++ body, newline := true, comment := .none })
      ⟨hs, he, rfl⟩ rfl hq
    rw [hv] at this
    rcases this with h | ⟨v', h⟩
    · exact .inl (List.append_right_eq_self.1 h)
    · exact .inr ⟨v', List.append_cancel_left h⟩

/-- Finding: a string after a line comment is put into the comment. -/
theorem C37_comment_takes_string (tab : Int) : fmt tab "//a\n\"b\"".toList = "//a\"b\"".toList := by
  simp [fmt, fmtStep, fmtRest, fmtOutside, fmtActive, fmtComment, fmtCode, Comment.advance, Comment.isTerminated,
    Comment.isActive, opens, closes]

/-- The blanks of a comment are kept. -/
example : fmt 4 "{a // b  c\nd}".toList = "{\n    a// b  c\n    d\n}".toList := by decide

end Dyon.Text
