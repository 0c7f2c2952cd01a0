import Verif.Text.Fmt

/-!
# C37: the formatter changes layout only
-/

namespace Dyon.Text

/-- Blank characters. -/
def blank (c : Char) : Bool := c == ' ' || c == '\n'

/-- The characters that are not blank, in order. -/
def ink (s : List Char) : List Char := s.filter fun c => !blank c

/-- The pieces between the quotes `"`. -/
def pieces : List Char → List (List Char)
  | [] => [[]]
  | c :: r => if c = '"' then [] :: pieces r else
    match pieces r with
    | p :: ps => (c :: p) :: ps
    | [] => [[c]]

/-- The pieces outside strings differ in layout only, and those inside are the same.
`inside` tells on which side the first piece is. -/
def SameStrings : Bool → List (List Char) → List (List Char) → Prop
  | _, [], [] => True
  | inside, p :: ps, q :: qs =>
    (if inside then p = q else ink p = ink q) ∧ SameStrings (!inside) ps qs
  | _, _, _ => False

/-! ## Ink -/

theorem ink_append (a b) : ink (a ++ b) = ink a ++ ink b := List.filter_append ..

theorem ink_spaces (n) : ink (spaces n) = [] := by
  simp [ink, spaces, blank]

theorem ink_blank {c} (h : blank c = true) : ink [c] = [] := by simp [ink, h]
theorem ink_cons (c r) : ink (c :: r) = ink [c] ++ ink r := by
  rw [← ink_append]; rfl

theorem ink_newline (n) : ink ('\n' :: spaces n) = [] := by
  rw [ink_cons, ink_spaces]; rfl

theorem fmtCode_ink (tab s ch) : ink (fmtCode tab s ch).res = ink s.res ++ ink [ch] := by
  rw [fmtCode]
  by_cases hb : ch = '\n' ∨ ch = ' '
  · rw [if_pos hb, ink_blank, List.append_nil]
    rcases hb with rfl | rfl <;> rfl
  · rw [if_neg hb]
    have hs : (ch == ' ') = false := by simpa using fun h => hb (.inr h)
    simp only [hs, Bool.and_false, Bool.false_eq_true, if_false]
    have h1 : ∀ r : List Char, ink (if ch = ':' then r ++ [' '] else r) = ink r := by
      intro r; split
      · rw [ink_append]; simp [ink, blank]
      · rfl
    rw [h1, ink_append]
    congr 1
    split
    · rw [ink_append, ink_newline, List.append_nil]
    · rfl

theorem fmtComment_same (s ch) : (fmtComment s ch).res = s.res ∧ (fmtComment s ch).string = s.string ∧
    (fmtComment s ch).stringEscape = s.stringEscape := by
  rw [fmtComment]; split <;> exact ⟨rfl, rfl, rfl⟩

theorem fmtRest_ink (tab s ch) : ink (fmtRest tab s ch).res = ink s.res ++ ink [ch] := by
  rw [fmtRest]
  split
  · exact ink_append ..
  · rw [fmtOutside, fmtActive]
    split
    · rw [ink_append, (fmtComment_same s ch).1]
    · rw [fmtCode_ink, (fmtComment_same s ch).1]

theorem fmtStep_ink (tab s ch) : ink (fmtStep tab s ch).res = ink s.res ++ ink [ch] := by
  rw [fmtStep]
  split
  · split
    · rw [fmtRest_ink]
    · exact ink_append ..
  · split
    · rw [fmtRest_ink]
    · rw [fmtRest_ink]

theorem foldl_ink (tab text s) : ink (text.foldl (fmtStep tab) s).res = ink s.res ++ ink text := by
  induction text generalizing s with
  | nil => simp [ink]
  | cons c r ih => rw [List.foldl_cons, ih, fmtStep_ink, List.append_assoc, ← ink_cons]

/-- **C37.** The sequence of characters that are not blank is unchanged. -/
theorem C37_ink (tab : Int) (text : List Char) : ink (fmt tab text) = ink text := by
  rw [fmt, foldl_ink]; simp [ink]

/-! ## Strings -/

theorem pieces_ne (s) : pieces s ≠ [] := by
  cases s with
  | nil => simp [pieces]
  | cons c r =>
    rw [pieces]
    split
    · simp
    · split <;> simp

theorem pieces_snoc_quote (s : List Char) : pieces (s ++ ['"']) = pieces s ++ [[]] := by
  induction s with
  | nil => simp [pieces]
  | cons c r ih =>
    rw [List.cons_append, pieces, pieces]
    split
    · rw [ih]; rfl
    · rw [ih]
      cases h : pieces r with
      | nil => exact absurd h (pieces_ne r)
      | cons p ps => rfl

theorem pieces_append_noquote {t : List Char} (ht : '"' ∉ t) (s : List Char) :
    ∃ ps p, pieces s = ps ++ [p] ∧ pieces (s ++ t) = ps ++ [p ++ t] := by
  induction s with
  | nil =>
    refine ⟨[], [], rfl, ?_⟩
    rw [List.nil_append, List.nil_append]
    induction t with
    | nil => rfl
    | cons c r ih =>
      rw [List.mem_cons, not_or] at ht
      rw [pieces, if_neg (Ne.symm ht.1), ih ht.2]
  | cons c r ih =>
    obtain ⟨ps, p, h1, h2⟩ := ih
    rw [List.cons_append, pieces, pieces]
    split
    · exact ⟨[] :: ps, p, by rw [h1]; rfl, by rw [h2]; rfl⟩
    · rw [h1, h2]
      cases ps with
      | nil => exact ⟨[], c :: p, rfl, rfl⟩
      | cons q qs => exact ⟨(c :: q) :: qs, p, rfl, rfl⟩

/-- Whether the last piece is inside a string. -/
def lastInside : Bool → List (List Char) → Bool
  | b, [] => b
  | b, [_] => b
  | b, _ :: q :: qs => lastInside (!b) (q :: qs)

theorem SameStrings.snoc {b ps qs p q} (h : SameStrings b (ps ++ [p]) (qs ++ [q])) :
    SameStrings b (ps ++ [p, []]) (qs ++ [q, []]) := by
  induction ps generalizing b qs with
  | nil =>
    cases qs with
    | nil => simp only [List.nil_append, SameStrings] at h ⊢; refine ⟨h.1, ?_, trivial⟩; split <;> trivial
    | cons r rs => simp [SameStrings] at h
  | cons r rs ih =>
    cases qs with
    | nil => simp [SameStrings] at h
    | cons t ts => exact ⟨h.1, ih h.2⟩

theorem SameStrings.set {b ps qs p q p' q'} (h : SameStrings b (ps ++ [p]) (qs ++ [q]))
    (hp : if lastInside b (ps ++ [p]) then p' = q' else ink p' = ink q') :
    SameStrings b (ps ++ [p']) (qs ++ [q']) := by
  induction ps generalizing b qs with
  | nil =>
    cases qs with
    | nil => exact ⟨hp, trivial⟩
    | cons r rs => simp [SameStrings] at h
  | cons r rs ih =>
    cases qs with
    | nil => simp [SameStrings] at h
    | cons t ts =>
      refine ⟨h.1, ih h.2 ?_⟩
      cases rs <;> exact hp

theorem SameStrings.last {b ps qs p q} (h : SameStrings b (ps ++ [p]) (qs ++ [q])) :
    if lastInside b (ps ++ [p]) then p = q else ink p = ink q := by
  induction ps generalizing b qs with
  | nil =>
    cases qs with
    | nil => exact h.1
    | cons r rs => simp [SameStrings] at h
  | cons r rs ih =>
    cases qs with
    | nil => simp [SameStrings] at h
    | cons t ts =>
      have := ih h.2
      cases rs <;> exact this

theorem lastInside_snoc (b ps p) : lastInside b (ps ++ [p, []]) = !lastInside b (ps ++ [p]) := by
  induction ps generalizing b with
  | nil => rfl
  | cons r rs ih => cases rs <;> simpa [lastInside] using ih (!b)

theorem lastInside_set (b ps p q) : lastInside b (ps ++ [p]) = lastInside b (ps ++ [q]) := by
  induction ps generalizing b with
  | nil => rfl
  | cons r rs ih => cases rs <;> simpa [lastInside] using ih (!b)

/-- What holds while the text `t` is read. -/
structure Inv (t : List Char) (s : Fmt) : Prop where
  same : SameStrings false (pieces t) (pieces s.res)
  inside : s.string = lastInside false (pieces t)
  noescape : s.stringEscape = false

theorem fmtCode_out (tab s ch) (h : ch ≠ '"') : ∃ u, (fmtCode tab s ch).res = s.res ++ u ∧ '"' ∉ u := by
  have hsp : ∀ n, '"' ∉ spaces n := fun n h => by
    rw [spaces, List.mem_replicate] at h; exact absurd h.2 (by decide)
  rw [fmtCode]
  split
  · exact ⟨[], (List.append_nil _).symm, List.not_mem_nil⟩
  · rename_i hb
    have hs : (ch == ' ') = false := by simpa using fun h => hb (.inr h)
    simp only [hs, Bool.and_false, Bool.false_eq_true, if_false]
    have h1 : ∀ r : List Char, (∃ u, r = s.res ++ u ∧ '"' ∉ u) → ∃ u, (if ch = ':' then r ++ [' '] else r) = s.res ++ u ∧ '"' ∉ u := by
      rintro r ⟨u, rfl, hu⟩
      split
      · exact ⟨u ++ [' '], List.append_assoc .., by simp [hu]⟩
      · exact ⟨u, rfl, hu⟩
    apply h1
    split
    · exact ⟨_, List.append_assoc .., by simp [hsp, Ne.symm h]⟩
    · exact ⟨[ch], rfl, by simpa using Ne.symm h⟩

theorem fmtOutside_out (tab s ch) (h : ch ≠ '"') : ∃ u, (fmtOutside tab s ch).res = s.res ++ u ∧ '"' ∉ u := by
  rw [fmtOutside, fmtActive]
  split
  · exact ⟨[ch], by rw [(fmtComment_same s ch).1], by simpa using Ne.symm h⟩
  · obtain ⟨u, h1, h2⟩ := fmtCode_out tab (fmtComment s ch) ch h
    exact ⟨u, by rw [h1, (fmtComment_same s ch).1], h2⟩

theorem fmtCode_flags (tab s ch) : (fmtCode tab s ch).string = s.string ∧ (fmtCode tab s ch).stringEscape = s.stringEscape := by
  rw [fmtCode]; split <;> exact ⟨rfl, rfl⟩

theorem fmtOutside_flags (tab s ch) : (fmtOutside tab s ch).string = s.string ∧
    (fmtOutside tab s ch).stringEscape = s.stringEscape := by
  rw [fmtOutside, fmtActive]
  split
  · exact (fmtComment_same s ch).2
  · rw [(fmtCode_flags tab _ ch).1, (fmtCode_flags tab _ ch).2]
    exact (fmtComment_same s ch).2

theorem fmtOutside_ink (tab s ch) (h : s.string = false) : ink (fmtOutside tab s ch).res = ink s.res ++ ink [ch] := by
  have := fmtRest_ink tab s ch
  rw [fmtRest, h] at this
  exact this

theorem snoc_of_ne {α} {l : List α} (h : l ≠ []) : ∃ ps p, l = ps ++ [p] :=
  ⟨l.dropLast, l.getLast h, (List.dropLast_concat_getLast h).symm⟩

theorem Inv.step {tab t s ch} (h : Inv t s) (hc : ch ≠ '\\') : Inv (t ++ [ch]) (fmtStep tab s ch) := by
  rw [fmtStep]
  by_cases hq : ch = '"'
  · subst hq
    rw [if_pos rfl, if_neg (by rw [h.noescape]; decide)]
    obtain ⟨ps, p, h1⟩ := snoc_of_ne (pieces_ne t)
    obtain ⟨qs, q, h2⟩ := snoc_of_ne (pieces_ne s.res)
    have hs := h.same
    have hi := h.inside
    rw [h1] at hi
    rw [h1, h2] at hs
    refine ⟨?_, ?_, h.noescape⟩
    · simp only [pieces_snoc_quote]
      rw [h1, h2]
      simpa using hs.snoc
    · simp only [pieces_snoc_quote]
      rw [h1, hi]
      simpa using (lastInside_snoc false ps p).symm
  · rw [if_neg hq, if_neg (fun h => hc h.1), fmtRest]
    obtain ⟨ps, p, h1, h2⟩ := pieces_append_noquote (t := [ch]) (by simpa using Ne.symm hq) t
    have hi := h.inside
    have hs := h.same
    rw [h1] at hi hs
    by_cases hin : s.string = true
    · rw [if_pos hin]
      obtain ⟨qs, q, h3, h4⟩ := pieces_append_noquote (t := [ch]) (by simpa using Ne.symm hq) s.res
      rw [h3] at hs
      refine ⟨?_, ?_, h.noescape⟩
      · simp only
        rw [h2, h4]
        refine hs.set ?_
        have := hs.last
        rw [← hi, hin] at this ⊢
        simp only [if_true] at this ⊢
        rw [this]
      · simp only; rw [h2, hi]; exact lastInside_set ..
    · rw [if_neg hin]
      obtain ⟨u, h5, h6⟩ := fmtOutside_out tab s ch hq
      obtain ⟨qs, q, h3, h4⟩ := pieces_append_noquote h6 s.res
      rw [h3] at hs
      refine ⟨?_, ?_, ?_⟩
      · rw [h5, h2, h4]
        refine hs.set ?_
        have := hs.last
        rw [← hi] at this ⊢
        rw [if_neg hin] at this ⊢
        have hk := fmtOutside_ink tab s ch (by simpa using hin)
        rw [h5, ink_append] at hk
        rw [ink_append, ink_append, this, List.append_cancel_left hk]
      · rw [(fmtOutside_flags tab s ch).1, h2, hi]; exact lastInside_set ..
      · rw [(fmtOutside_flags tab s ch).2, h.noescape]

theorem Inv.foldl {tab text t s} (h : Inv t s) (hc : '\\' ∉ text) : Inv (t ++ text) (text.foldl (fmtStep tab) s) := by
  induction text generalizing t s with
  | nil => simpa using h
  | cons c r ih =>
    rw [List.mem_cons, not_or] at hc
    have := ih (h.step (tab := tab) (Ne.symm hc.1)) hc.2
    rw [List.append_assoc] at this
    exact this

/-- **C37**, strings: in a text without backslashes the strings are unchanged, blanks
included. -/
theorem C37_strings_partial (tab : Int) (text : List Char) (h : '\\' ∉ text) :
    SameStrings false (pieces text) (pieces (fmt tab text)) := by
  have h0 : Inv [] {} := ⟨⟨rfl, trivial⟩, rfl, rfl⟩
  exact (h0.foldl h).same

/-- Finding: after an escape sequence the ends of strings are missed, so that blanks inside
of later strings are dropped. -/
theorem C37_escape (tab : Int) : fmt tab "\"\\n\", \"b c\"".toList = "\"\\n\", \"bc\"".toList := by
  simp [fmt, fmtStep, fmtRest, fmtOutside, fmtActive, fmtComment, fmtCode, Comment.advance, Comment.isTerminated,
    Comment.isActive, opens, closes]

/-- Finding: words are joined. -/
theorem C37_joins (tab : Int) : fmt tab "a b".toList = "ab".toList := by
  simp [fmt, fmtStep, fmtRest, fmtOutside, fmtActive, fmtComment, fmtCode, Comment.advance, Comment.isTerminated,
    Comment.isActive, opens, closes]

example : fmt 4 "{a: [1, \"b c\"]}".toList =
    "{\n    a: [\n        1,\"b c\"\n    ]\n}".toList := by decide

end Dyon.Text
