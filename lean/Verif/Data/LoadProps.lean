import Verif.Data.Load

/-!
# C35, C36: the loader terminates, comments are skipped, colours
-/

namespace Dyon.Data

/-! ## Specification -/

/-- Skips to the end of `d` open comments: `/*` opens, `*/` closes. An unclosed comment goes
to the end of the text. -/
def Spec.nest : Nat → List Char → List Char
  | 0, s => s
  | _ + 1, [] => []
  | d + 1, '/' :: '*' :: r => Spec.nest (d + 2) r
  | d + 1, '*' :: '/' :: r => Spec.nest d r
  | d + 1, _ :: r => Spec.nest (d + 1) r

/-- `t` is what follows the white space and the comments at the start of `s`. -/
inductive Skips [Lex] : List Char → List Char → Prop
  | ws {c s t} : Lex.isWs c = true → Skips s t → Skips (c :: s) t
  | line {l s t} : '\n' ∉ l → (s = [] ∨ s.head? = some '\n') → Skips s t → Skips ('/' :: '/' :: (l ++ s)) t
  | block {s t} : Skips (Spec.nest 1 s) t → Skips ('/' :: '*' :: s) t
  | done {s} : (∀ c r, s = c :: r → Lex.isWs c = false) → (∀ r, s ≠ '/' :: '/' :: r) →
      (∀ r, s ≠ '/' :: '*' :: r) → Skips s s

/-! ## Lemmas -/

theorem nest_zero (s) : Spec.nest 0 s = s := by cases s <;> rw [Spec.nest]
theorem nest_nil (d) : Spec.nest d [] = [] := by cases d <;> rw [Spec.nest]
theorem nest_open (d r) : Spec.nest (d + 1) ('/' :: '*' :: r) = Spec.nest (d + 2) r := by rw [Spec.nest]
theorem nest_close (d r) : Spec.nest (d + 1) ('*' :: '/' :: r) = Spec.nest d r := by
  rw [Spec.nest]
theorem nest_other (d c r) (h1 : ∀ x, ¬ (c = '/' ∧ r = '*' :: x)) (h2 : ∀ x, ¬ (c = '*' ∧ r = '/' :: x)) :
    Spec.nest (d + 1) (c :: r) = Spec.nest (d + 1) r := by
  rw [Spec.nest]
  · intro x hc hr; exact h1 x ⟨hc, hr⟩
  · intro x hc hr; exact h2 x ⟨hc, hr⟩

theorem nest_length (d s) : (Spec.nest d s).length ≤ s.length := by
  fun_induction Spec.nest d s <;> simp_all <;> omega

theorem nest_add (d s) : Spec.nest (d + 1) s = Spec.nest d (Spec.nest 1 s) := by
  suffices ∀ n (s : List Char), s.length ≤ n → ∀ d, Spec.nest (d + 1) s = Spec.nest d (Spec.nest 1 s) from
    this _ s (Nat.le_refl _) d
  intro n
  induction n with
  | zero =>
    intro s hs d
    cases s with
    | nil => simp [nest_nil]
    | cons => simp at hs
  | succ n ih =>
    intro s hs d
    match s, hs with
    | [], _ => simp [nest_nil]
    | '/' :: '*' :: r, hs =>
      simp only [List.length_cons] at hs
      rw [nest_open, nest_open, ih r (by omega) (d + 1), ih r (by omega) 1,
        ih (Spec.nest 1 r) (by have := nest_length 1 r; omega) d]
    | '*' :: '/' :: r, hs => rw [nest_close, nest_close, nest_zero]
    | c :: r, hs =>
      simp only [List.length_cons] at hs
      by_cases h1 : ∃ x, c = '/' ∧ r = '*' :: x
      · obtain ⟨x, rfl, rfl⟩ := h1
        simp only [List.length_cons] at hs
        rw [nest_open, nest_open, ih x (by omega) (d + 1), ih x (by omega) 1,
          ih (Spec.nest 1 x) (by have := nest_length 1 x; omega) d]
      · by_cases h2 : ∃ x, c = '*' ∧ r = '/' :: x
        · obtain ⟨x, rfl, rfl⟩ := h2
          rw [nest_close, nest_close, nest_zero]
        · rw [nest_other d c r (fun x hx => h1 ⟨x, hx⟩) (fun x hx => h2 ⟨x, hx⟩),
            nest_other 0 c r (fun x hx => h1 ⟨x, hx⟩) (fun x hx => h2 ⟨x, hx⟩), ih r (by omega) d]

theorem untilAny_length (cs s) : (untilAny cs s).length ≤ s.length := by
  rw [untilAny]; exact (List.dropWhile_sublist _).length_le

theorem nest_untilAny (s) : Spec.nest 1 (untilAny ['*', '/'] s) = Spec.nest 1 s := by
  induction s with
  | nil => rfl
  | cons c r ih =>
    by_cases h : c = '*' ∨ c = '/'
    · have : untilAny ['*', '/'] (c :: r) = c :: r := by
        rcases h with rfl | rfl <;> simp [untilAny]
      rw [this]
    · have : untilAny ['*', '/'] (c :: r) = untilAny ['*', '/'] r := by
        simp only [untilAny]
        rw [List.dropWhile_cons_of_pos (by simp; exact not_or.1 h)]
      rw [this, ih, nest_other 0 c r (fun x hx => h (.inr hx.1)) (fun x hx => h (.inl hx.1))]

/-- At the end, or at one of the characters. -/
def AtMark (s : List Char) : Prop := ∀ c r, s = c :: r → c = '*' ∨ c = '/'

theorem atMark_untilAny (s) : AtMark (untilAny ['*', '/'] s) := by
  intro c r h
  induction s with
  | nil => cases h
  | cons d t ih =>
    by_cases hd : d = '*' ∨ d = '/'
    · have : untilAny ['*', '/'] (d :: t) = d :: t := by
        rcases hd with rfl | rfl <;> simp [untilAny]
      rw [this] at h
      cases h
      exact hd
    · have : untilAny ['*', '/'] (d :: t) = untilAny ['*', '/'] t := by
        simp only [untilAny]
        rw [List.dropWhile_cons_of_pos (by simp; exact not_or.1 hd)]
      rw [this] at h
      exact ih h

theorem tag_some {t : String} {s r} : tag t s = some r ↔ s = t.toList ++ r := by
  rw [tag]
  constructor
  · intro h
    split at h
    · rename_i hp
      rw [List.isPrefixOf_iff_prefix] at hp
      obtain ⟨x, rfl⟩ := hp
      cases h
      rw [← String.length_toList, List.drop_left]
    · cases h
  · rintro rfl
    rw [if_pos (by rw [List.isPrefixOf_iff_prefix]; exact List.prefix_append _ _), ← String.length_toList,
      List.drop_left]

theorem tag_none {t : String} {s} : tag t s = none ↔ ∀ r, s ≠ t.toList ++ r := by
  constructor
  · intro h r hs
    rw [tag_some.2 hs] at h
    cases h
  · intro h
    cases hx : tag t s with
    | none => rfl
    | some r => exact absurd (tag_some.1 hx) (h r)

theorem tag_length {t : String} {s r} (h : tag t s = some r) : s.length = t.length + r.length := by
  rw [tag_some.1 h, List.length_append, String.length_toList]

/-- What a comment at the start of the text is skipped to. -/
def inner (s : List Char) : List Char :=
  match tag "/*" s with
  | some r => Spec.nest 1 r
  | none => s

theorem inner_open (r) : inner ('/' :: '*' :: r) = Spec.nest 1 r := by
  rw [inner, tag_some.2 (show '/' :: '*' :: r = "/*".toList ++ r from rfl)]

theorem inner_other {s} (h : ∀ r, s ≠ '/' :: '*' :: r) : inner s = s := by
  rw [inner, tag_none.2 h]

theorem starPart_spec {s} (h : AtMark s) : AtMark (starPart s) ∧ Spec.nest 1 (starPart s) = Spec.nest 1 s ∧
    (starPart s).length ≤ s.length := by
  rw [starPart]
  cases h1 : tag "*/" s with
  | some r => exact ⟨h, rfl, Nat.le_refl _⟩
  | none =>
    cases h2 : tag "*" s with
    | none => exact ⟨h, rfl, Nat.le_refl _⟩
    | some r =>
      have hs : s = '*' :: r := tag_some.1 h2
      subst hs
      refine ⟨atMark_untilAny r, ?_, ?_⟩
      · simp only
        rw [nest_untilAny, nest_other 0 '*' r (by simp)]
        rintro x ⟨-, rfl⟩
        exact tag_none.1 h1 x rfl
      · have := untilAny_length ['*', '/'] r
        simp only [List.length_cons]; omega

theorem slashPart_spec {s} (h : AtMark s) : AtMark (slashPart s (inner s)) ∧
    Spec.nest 1 (slashPart s (inner s)) = Spec.nest 1 s ∧ (slashPart s (inner s)).length ≤ s.length ∧
    ((slashPart s (inner s)).length = s.length → slashPart s (inner s) = s ∧ ∀ r, s ≠ '/' :: r) := by
  by_cases ho : ∃ r, s = '/' :: '*' :: r
  · obtain ⟨r, rfl⟩ := ho
    have hl := nest_length 1 r
    have hlt : (inner ('/' :: '*' :: r)).length < ('/' :: '*' :: r).length := by
      rw [inner_open]; simp only [List.length_cons]; omega
    rw [slashPart, if_pos hlt, inner_open]
    have hl2 := untilAny_length ['*', '/'] (Spec.nest 1 r)
    refine ⟨atMark_untilAny _, ?_, ?_, ?_⟩
    · rw [nest_untilAny, nest_open, nest_add 1]
    · simp only [List.length_cons]; omega
    · intro he; simp only [List.length_cons] at he; omega
  · have ho' : ∀ r, s ≠ '/' :: '*' :: r := fun r hr => ho ⟨r, hr⟩
    rw [inner_other ho', slashPart, if_neg (by omega)]
    cases h1 : tag "/" s with
    | none => exact ⟨h, rfl, Nat.le_refl _, fun _ => ⟨rfl, tag_none.1 h1⟩⟩
    | some r =>
      have hs : s = '/' :: r := tag_some.1 h1
      subst hs
      have hl2 := untilAny_length ['*', '/'] r
      refine ⟨atMark_untilAny _, ?_, ?_, ?_⟩
      · simp only
        rw [nest_untilAny, nest_other 0 '/' r (fun x hx => ho' x (by rw [hx.2])) (by simp)]
      · simp only [List.length_cons]; omega
      · intro he; simp only [List.length_cons] at he; omega

theorem mlcLoop_spec {mlc : List Char → Option (List Char)} {m} (hm : ∀ s, s.length ≤ m → mlc s = some (inner s)) :
    ∀ k (s : List Char), s.length < k → s.length ≤ m → AtMark s →
      ∃ t, mlcLoop mlc k s = some t ∧ (tag "*/" t).getD t = Spec.nest 1 s := by
  intro k
  induction k with
  | zero => intro s hs; omega
  | succ k ih =>
    intro s hs hsm ha
    obtain ⟨h1, h2, h3⟩ := starPart_spec ha
    obtain ⟨h4, h5, h6, h7⟩ := slashPart_spec h1
    rw [mlcLoop, hm _ (by omega)]
    simp only
    split
    · rename_i he
      have hlen : (slashPart (starPart s) (inner (starPart s))).length = (starPart s).length := by omega
      obtain ⟨h8, h9⟩ := h7 hlen
      refine ⟨_, rfl, ?_⟩
      rw [h8, ← h2]
      match hsp : starPart s with
      | [] => rfl
      | c :: r =>
        rcases h1 c r hsp with rfl | rfl
        · cases h10 : tag "*/" ('*' :: r) with
          | some x =>
            rw [Option.getD_some, show '*' :: r = '*' :: '/' :: x from tag_some.1 h10, nest_close, nest_zero]
          | none =>
            exfalso
            have hs' : (starPart s).length = s.length := by omega
            rw [starPart] at hsp hs'
            cases h11 : tag "*/" s with
            | some x =>
              rw [h11] at hsp
              simp only at hsp
              rw [hsp] at h11
              rw [h11] at h10; cases h10
            | none =>
              rw [h11] at hsp hs'
              simp only at hsp hs'
              cases h12 : tag "*" s with
              | none =>
                rw [h12] at hsp
                exact tag_none.1 h12 r hsp
              | some x =>
                rw [h12] at hsp hs'
                have := untilAny_length ['*', '/'] x
                have := tag_length h12
                have : "*".length = 1 := rfl
                simp only at hs'
                omega
        · exact absurd hsp (h9 r)
    · obtain ⟨t, ht1, ht2⟩ := ih (slashPart (starPart s) (inner (starPart s))) (by omega) (by omega) h4
      exact ⟨t, ht1, by rw [ht2, h5, h2]⟩

theorem mlc_spec {n s} (h : s.length < n) : mlcN n s = some (inner s) := by
  induction n generalizing s with
  | zero => omega
  | succ n ih =>
    rw [mlcN, inner]
    cases ht : tag "/*" s with
    | none => rfl
    | some r =>
      have hl := tag_length ht
      have hlen : "/*".length = 2 := rfl
      have hu := untilAny_length ['*', '/'] r
      cases n with
      | zero => omega
      | succ n =>
        obtain ⟨t, h1, h2⟩ := mlcLoop_spec (m := n) (fun s hs => ih (by omega)) (n + 1)
          (untilAny ['*', '/'] r) (by omega) (by omega) (atMark_untilAny r)
        simp only [h1, h2, nest_untilAny]

section
variable [Lex]

theorem inner_length (s) : (inner s).length ≤ s.length := by
  rw [inner]
  cases ht : tag "/*" s with
  | none => exact Nat.le_refl _
  | some r =>
    have := tag_length ht
    have := nest_length 1 r
    simp only
    omega

/-- One round of `opt_w`. -/
def round (s : List Char) : List Char :=
  inner (match tag "//" (skipWs s) with
    | some r => untilAny ['\n'] r
    | none => skipWs s)

theorem skipWs_length (s) : (skipWs s).length ≤ s.length := by
  rw [skipWs]; exact (List.dropWhile_sublist _).length_le

theorem round_length (s) : (round s).length ≤ s.length := by
  rw [round]
  have h0 := skipWs_length s
  cases ht : tag "//" (skipWs s) with
  | none => have := inner_length (skipWs s); simp only; omega
  | some r =>
    have := tag_length ht
    have := untilAny_length ['\n'] r
    have := inner_length (untilAny ['\n'] r)
    simp only
    omega

theorem optWN_succ (n s) : optWN (n + 1) s =
    if (round s).length = s.length then some (round s) else optWN n (round s) := by
  rw [optWN, mlc_spec (Nat.lt_succ_self _)]
  rfl

theorem skipWs_skips {s t} (h : Skips (skipWs s) t) : Skips s t := by
  induction s with
  | nil => exact h
  | cons c r ih =>
    cases hc : Lex.isWs c with
    | true =>
      rw [skipWs, List.dropWhile_cons_of_pos hc] at h
      exact .ws hc (ih h)
    | false =>
      rw [skipWs, List.dropWhile_cons_of_neg (by simp [hc])] at h
      exact h

theorem untilNl_split (r) : ∃ l, r = l ++ untilAny ['\n'] r ∧ '\n' ∉ l ∧
    (untilAny ['\n'] r = [] ∨ (untilAny ['\n'] r).head? = some '\n') := by
  induction r with
  | nil => exact ⟨[], rfl, by simp, .inl rfl⟩
  | cons c r ih =>
    by_cases hc : c = '\n'
    · subst hc
      have : untilAny ['\n'] ('\n' :: r) = '\n' :: r := by simp [untilAny]
      rw [this]
      exact ⟨[], rfl, by simp, .inr rfl⟩
    · have : untilAny ['\n'] (c :: r) = untilAny ['\n'] r := by
        simp only [untilAny]
        rw [List.dropWhile_cons_of_pos (by simpa using hc)]
      obtain ⟨l, h1, h2, h3⟩ := ih
      rw [this]
      refine ⟨c :: l, by rw [List.cons_append, ← h1], ?_, h3⟩
      simp only [List.mem_cons, not_or]
      exact ⟨fun h => hc h.symm, h2⟩

theorem round_skips {s t} (h : Skips (round s) t) : Skips s t := by
  apply skipWs_skips
  rw [round] at h
  have key : ∀ {x}, Skips (inner x) t → Skips x t := by
    intro x hx
    by_cases ho : ∃ r, x = '/' :: '*' :: r
    · obtain ⟨r, rfl⟩ := ho
      rw [inner_open] at hx
      exact .block hx
    · rw [inner_other fun r hr => ho ⟨r, hr⟩] at hx
      exact hx
  cases ht : tag "//" (skipWs s) with
  | none =>
    rw [ht] at h
    exact key h
  | some r =>
    rw [ht] at h
    obtain ⟨l, h1, h2, h3⟩ := untilNl_split r
    have h4 : skipWs s = '/' :: '/' :: (l ++ untilAny ['\n'] r) := by rw [← h1]; exact tag_some.1 ht
    rw [h4]
    exact .line h2 h3 (key h)

theorem round_stop {s} (h : (round s).length = s.length) : round s = s ∧ Skips s s := by
  have h0 := skipWs_length s
  have hw : (skipWs s).length = s.length := by
    rw [round] at h
    cases ht : tag "//" (skipWs s) with
    | none => rw [ht] at h; have := inner_length (skipWs s); simp only at h; omega
    | some r =>
      rw [ht] at h
      have := tag_length ht
      have := untilAny_length ['\n'] r
      have := inner_length (untilAny ['\n'] r)
      simp only at h
      omega
  have hws : skipWs s = s := (List.dropWhile_sublist _).eq_of_length hw
  have ht : tag "//" s = none := by
    cases ht : tag "//" s with
    | none => rfl
    | some r =>
      rw [round, hws, ht] at h
      have := tag_length ht
      have := untilAny_length ['\n'] r
      have := inner_length (untilAny ['\n'] r)
      have : "//".length = 2 := rfl
      simp only at h
      omega
  have ho : ∀ r, s ≠ '/' :: '*' :: r := by
    rintro r rfl
    rw [round, hws, ht] at h
    simp only [inner_open] at h
    have := nest_length 1 r
    simp only [List.length_cons] at h
    omega
  refine ⟨by rw [round, hws, ht]; exact inner_other ho, .done ?_ (tag_none.1 ht) ho⟩
  rintro c r rfl
  cases hc : Lex.isWs c with
  | false => rfl
  | true =>
    rw [skipWs, List.dropWhile_cons_of_pos hc] at hws
    have := (List.dropWhile_sublist Lex.isWs (l := r)).length_le
    rw [hws] at this
    simp at this

theorem optWN_spec {n s} (h : s.length < n) : ∃ t, optWN n s = some t ∧ Skips s t := by
  induction n generalizing s with
  | zero => omega
  | succ n ih =>
    rw [optWN_succ]
    split
    · rename_i he
      obtain ⟨h1, h2⟩ := round_stop he
      exact ⟨_, rfl, by rw [h1]; exact h2⟩
    · rename_i hne
      have := round_length s
      obtain ⟨t, h1, h2⟩ := ih (s := round s) (by omega)
      exact ⟨t, h1, round_skips h2⟩

theorem Skips.length {s t} (h : Skips s t) : t.length ≤ s.length := by
  induction h with
  | ws _ _ ih => simp only [List.length_cons]; omega
  | line _ _ _ ih => simp only [List.length_cons, List.length_append]; omega
  | @block s t _ ih => have := nest_length 1 s; simp only [List.length_cons]; omega
  | done => exact Nat.le_refl _

theorem untilNl_of {l s : List Char} (hl : '\n' ∉ l) (hs : s = [] ∨ s.head? = some '\n') :
    untilAny ['\n'] (l ++ s) = s := by
  induction l with
  | nil =>
    cases s with
    | nil => rfl
    | cons c r =>
      simp only [List.head?_cons, Option.some.injEq, reduceCtorEq, false_or] at hs
      subst hs
      simp [untilAny]
  | cons c l ih =>
    simp only [List.mem_cons, not_or] at hl
    rw [List.cons_append, untilAny, List.dropWhile_cons_of_pos (by simpa using fun h => hl.1 h.symm)]
    exact ih hl.2

theorem isWs_slash : Lex.isWs '/' = false := by
  rw [Lex.ws_ascii '/' (by decide)]; decide

theorem Skips.unique {s t u} (h : Skips s t) (h' : Skips s u) : t = u := by
  induction h generalizing u with
  | @ws c s t hc _ ih =>
    cases h' with
    | ws _ h => exact ih h
    | line => rw [isWs_slash] at hc; cases hc
    | block => rw [isWs_slash] at hc; cases hc
    | done h => rw [h _ _ rfl] at hc; cases hc
  | @line l s t hl hs _ ih =>
    generalize hx : '/' :: '/' :: (l ++ s) = x at h'
    cases h' with
    | ws hc _ => cases hx; rw [isWs_slash] at hc; cases hc
    | @line l' s' _ hl' hs' h =>
      simp only [List.cons.injEq, true_and] at hx
      have : s = s' := by rw [← untilNl_of hl hs, hx, untilNl_of hl' hs']
      subst this
      exact ih h
    | block => cases hx
    | done _ h _ => exact absurd hx.symm (h _)
  | @block s t _ ih =>
    cases h' with
    | ws hc _ => rw [isWs_slash] at hc; cases hc
    | block h => exact ih h
    | done _ _ h => exact absurd rfl (h _)
  | @done s h1 h2 h3 =>
    cases h' with
    | ws hc _ => rw [h1 _ _ rfl] at hc; cases hc
    | line => exact absurd rfl (h2 _)
    | block => exact absurd rfl (h3 _)
    | done => rfl

/-- **C35.** `opt_w` ends for every text, and what it leaves is what follows the white space
and the comments, nested ones included. -/
theorem C35_opt_w (s : List Char) : Skips s (optW s) := by
  obtain ⟨t, h1, h2⟩ := optWN_spec (Nat.lt_succ_self s.length)
  rw [optW, h1]
  exact h2

/-- **C35.** This determines it. -/
theorem C35_skips_unique {s t u : List Char} (h : Skips s t) (h' : Skips s u) : t = u := h.unique h'

/-- **C35.** A comment is skipped up to the mark that closes it, for every depth of nesting,
given enough fuel for one step per character. -/
theorem C35_comment (n : Nat) (s : List Char) (h : s.length + 2 < n) :
    mlcN n ('/' :: '*' :: s) = some (Spec.nest 1 s) := by
  rw [mlc_spec (by simpa using h), inner_open]

theorem optW_length (s) : (optW s).length ≤ s.length := (C35_opt_w s).length

/-! ## Termination -/

/-- A reader ends on texts up to a length, and uses up at least one character. -/
def Ends (m : Nat) (ex : List Char → Res Val) : Prop :=
  ∀ s, s.length ≤ m → match ex s with
    | .ok _ r => r.length < s.length
    | .err _ => True
    | .running => False

theorem comma_length (s) : (comma s).2.length ≤ s.length := by
  rw [comma]
  have h0 := optW_length s
  cases h : tag "," (optW s) with
  | some r =>
    have := tag_length h
    have := optW_length r
    simp only; omega
  | none => have := optW_length (optW s); simp only; omega

theorem readKey_length {s k r} (h : readKey s = .ok k r) : r.length < s.length := by
  rw [readKey] at h
  cases hs : Lex.string s with
  | some n =>
    rw [hs] at h
    have := Lex.string_len s n hs
    cases hp : Lex.parseString (s.take n) with
    | ok t =>
      simp only [hp] at h
      cases h
      rw [List.length_drop]; omega
    | error e => simp only [hp] at h; cases h
  | none =>
    rw [hs] at h
    simp only at h
    split at h
    · cases h
    · cases h
      have : (rawWord s).length ≤ s.length := by
        rw [rawWord]; exact (List.takeWhile_sublist _).length_le
      rw [List.length_drop]; omega

theorem readKey_running {s} : readKey s ≠ .running := by
  rw [readKey]
  split
  · split <;> simp
  · split <;> simp

theorem objectLoop_ends {ex m} (h : Ends m ex) : ∀ k acc b (s : List Char), s.length < k → s.length ≤ m + 1 →
    match objectLoop ex k acc b s with
    | .ok _ r => r.length < s.length
    | .err _ => True
    | .running => False := by
  intro k
  induction k with
  | zero => intro acc b s hs; omega
  | succ k ih =>
    intro acc b s hs hm
    have h0 := optW_length s
    rw [objectLoop]
    cases h1 : tag "}" (optW s) with
    | some r =>
      have := tag_length h1
      have : "}".length = 1 := rfl
      simp only; omega
    | none =>
      simp only
      by_cases hc : (!acc.isEmpty && !b) = true
      · rw [if_pos hc]; trivial
      · rw [if_neg hc]
        cases h2 : readKey (optW s) with
        | err e => trivial
        | running => exact absurd h2 readKey_running
        | ok key r =>
          have h3 := readKey_length h2
          simp only
          cases h4 : tag ":" (optW r) with
          | none => trivial
          | some r2 =>
            have h5 := tag_length h4
            have h6 := optW_length r
            have h7 := optW_length r2
            have h8 : ":".length = 1 := rfl
            have h9 := h (optW r2) (by omega)
            simp only
            cases h10 : ex (optW r2) with
            | err e => trivial
            | running => rw [h10] at h9; exact h9
            | ok v r3 =>
              rw [h10] at h9
              simp only at h9 ⊢
              have h11 := comma_length r3
              have h12 := ih (insertKey key v acc) (comma r3).1 (comma r3).2 (by omega) (by omega)
              cases h13 : objectLoop ex k (insertKey key v acc) (comma r3).1 (comma r3).2 with
              | ok v' r4 => rw [h13] at h12; simp only at h12 ⊢; omega
              | err e => trivial
              | running => rw [h13] at h12; exact h12

theorem arrayLoop_ends {ex m} (h : Ends m ex) : ∀ k acc b (s : List Char), s.length < k → s.length ≤ m →
    match arrayLoop ex k acc b s with
    | .ok _ r => r.length < s.length
    | .err _ => True
    | .running => False := by
  intro k
  induction k with
  | zero => intro acc b s hs; omega
  | succ k ih =>
    intro acc b s hs hm
    have h0 := optW_length s
    rw [arrayLoop]
    cases h1 : tag "]" (optW s) with
    | some r =>
      have := tag_length h1
      have : "]".length = 1 := rfl
      simp only; omega
    | none =>
      simp only
      by_cases hc : (!acc.isEmpty && !b) = true
      · rw [if_pos hc]; trivial
      · rw [if_neg hc]
        have h9 := h (optW s) (by omega)
        cases h10 : ex (optW s) with
        | err e => trivial
        | running => rw [h10] at h9; exact h9
        | ok v r3 =>
          rw [h10] at h9
          simp only at h9 ⊢
          have h11 := comma_length r3
          have h12 := ih (acc ++ [v]) (comma r3).1 (comma r3).2 (by omega) (by omega)
          cases h13 : arrayLoop ex k (acc ++ [v]) (comma r3).1 (comma r3).2 with
          | ok v' r4 => rw [h13] at h12; simp only at h12 ⊢; omega
          | err e => trivial
          | running => rw [h13] at h12; exact h12

theorem linkLoop_ends {ex m} (h : Ends m ex) : ∀ k acc (s : List Char), s.length < k → s.length ≤ m →
    match linkLoop ex k acc s with
    | .ok _ r => r.length < s.length
    | .err _ => True
    | .running => False := by
  intro k
  induction k with
  | zero => intro acc s hs; omega
  | succ k ih =>
    intro acc s hs hm
    have h0 := optW_length s
    have go : ∀ acc r, r.length < (optW s).length → match linkLoop ex k acc r with
        | .ok _ r => r.length < s.length
        | .err _ => True
        | .running => False := by
      intro acc r hr
      have h12 := ih acc r (by omega) (by omega)
      cases h13 : linkLoop ex k acc r with
      | ok v' r4 => rw [h13] at h12; simp only at h12 ⊢; omega
      | err e => trivial
      | running => rw [h13] at h12; exact h12
    rw [linkLoop]
    cases h1 : tag "}" (optW s) with
    | some r =>
      have := tag_length h1
      have : "}".length = 1 := rfl
      simp only; omega
    | none =>
      simp only
      have h9 := h (optW s) (by omega)
      cases h10 : ex (optW s) with
      | err e => trivial
      | running => rw [h10] at h9; exact h9
      | ok v r3 =>
        rw [h10] at h9
        simp only at h9
        cases v with
        | link l => exact go _ _ h9
        | _ => first | exact go _ _ h9 | trivial

theorem numberTok_ends {s x} (h : numberTok s = some x) : match x with
    | .ok _ r => r.length < s.length
    | .err _ => True
    | .running => False := by
  rw [numberTok] at h
  cases hn : Lex.number s with
  | none => rw [hn] at h; cases h
  | some n =>
    rw [hn] at h
    have := Lex.number_len s n hn
    cases hp : Lex.parseNumber (s.take n) with
    | ok y =>
      simp only [hp, Option.some.injEq] at h
      subst h
      simp only [List.length_drop]; omega
    | error e =>
      simp only [hp, Option.some.injEq] at h
      subst h
      trivial

variable [FloatOps]

theorem vec4End_ends {x y z w s} : match vec4End x y z w s with
    | .ok _ r => r.length < s.length
    | .err _ => True
    | .running => False := by
  rw [vec4End]
  have h0 := optW_length s
  cases h1 : tag ")" (optW s) with
  | none => trivial
  | some r =>
    have := tag_length h1
    have : ")".length = 1 := rfl
    simp only; omega

theorem vec4E_ends {s} : match vec4E s with
    | .ok _ r => r.length < s.length
    | .err _ => True
    | .running => False := by
  have lift : ∀ {a : Res Val} {s t : List Char}, t.length ≤ s.length →
      (match a with | .ok _ r => r.length < t.length | .err _ => True | .running => False) →
      (match a with | .ok _ r => r.length < s.length | .err _ => True | .running => False) := by
    intro a s t hst ha
    cases a with
    | ok v r => simp only at ha ⊢; omega
    | err e => trivial
    | running => exact ha
  have hrest : ∀ x y (s : List Char), match vec4Rest x y s with
      | .ok _ r => r.length < s.length | .err _ => True | .running => False := by
    intro x y s
    rw [vec4Rest]
    have h0 := comma_length s
    cases hc : comma s with
    | mk b t =>
      rw [hc] at h0
      cases b with
      | false => exact lift h0 vec4End_ends
      | true =>
        simp only
        cases hn : numberTok t with
        | none => exact lift h0 vec4End_ends
        | some a =>
          have h1 := numberTok_ends hn
          cases a with
          | err e => trivial
          | running => exact h1
          | ok z r =>
            simp only at h1 h0 ⊢
            have h2 := comma_length r
            cases hn2 : numberTok (comma r).2 with
            | none => exact lift (by omega) vec4End_ends
            | some a2 =>
              have h3 := numberTok_ends hn2
              cases a2 with
              | err e => trivial
              | running => exact h3
              | ok w r2 => simp only at h3; exact lift (by omega) vec4End_ends
  rw [vec4E]
  cases hn : numberTok s with
  | none => trivial
  | some a =>
    have h1 := numberTok_ends hn
    cases a with
    | err e => trivial
    | running => exact h1
    | ok x r =>
      simp only at h1 ⊢
      have h2 := comma_length r
      cases hn2 : numberTok (comma r).2 with
      | none => trivial
      | some a2 =>
        have h3 := numberTok_ends hn2
        cases a2 with
        | err e => trivial
        | running => exact h3
        | ok w r2 => simp only at h3 ⊢; exact lift (by omega) (hrest _ _ _)

theorem expr_ends : ∀ n, Ends n (expr (n + 1)) := by
  intro n
  induction n with
  | zero =>
    intro s hs
    have hs0 : s = [] := List.eq_nil_of_length_eq_zero (by omega)
    subst hs0
    rw [expr]
    have hn : ∀ t : String, t.toList ≠ [] → tag t [] = none := by
      intro t ht
      rw [tag_none]
      intro r hr
      cases hx : t.toList with
      | nil => exact ht hx
      | cons => rw [hx] at hr; cases hr
    have hstr : Lex.string ([] : List Char) = none := by
      cases h : Lex.string ([] : List Char) with
      | none => rfl
      | some k => have := Lex.string_len _ _ h; simp at this; omega
    have hnum : Lex.number ([] : List Char) = none := by
      cases h : Lex.number ([] : List Char) with
      | none => rfl
      | some k => have := Lex.number_len _ _ h; simp at this; omega
    simp only [hn "{" (by decide), hn "[" (by decide), hn "(" (by decide), hn "#" (by decide),
      hn "link" (by decide), scalarE, hstr, numberTok, hnum, wordE, hn "false" (by decide),
      hn "true" (by decide), hn "none()" (by decide), hn "some(" (by decide)]
  | succ n ih =>
    intro s hs
    have lift : ∀ {a : Res Val} {s t : List Char}, t.length ≤ s.length →
        (match a with | .ok _ r => r.length < t.length | .err _ => True | .running => False) →
        (match a with | .ok _ r => r.length < s.length | .err _ => True | .running => False) := by
      intro a s t hst ha
      cases a with
      | ok v r => simp only at ha ⊢; omega
      | err e => trivial
      | running => exact ha
    rw [expr]
    cases h1 : tag "{" s with
    | some r =>
      have h2 := tag_length h1
      have : "{".length = 1 := rfl
      exact lift (by omega) (objectLoop_ends ih (n + 1) [] false r (by omega) (by omega))
    | none =>
      cases h1 : tag "[" s with
      | some r =>
        have h2 := tag_length h1
        have : "[".length = 1 := rfl
        exact lift (by omega) (arrayLoop_ends ih (n + 1) [] false r (by omega) (by omega))
      | none =>
        cases h1 : tag "(" s with
        | some r =>
          have h2 := tag_length h1
          have : "(".length = 1 := rfl
          exact lift (by omega) (vec4E_ends (s := r))
        | none =>
          cases h1 : tag "#" s with
          | some r =>
            have h2 := tag_length h1
            have : "#".length = 1 := rfl
            simp only [colorE]
            cases Lex.rgba (rawWord r) with
            | none => trivial
            | some c => obtain ⟨a, b, c, d⟩ := c; simp only; omega
          | none =>
            cases h1 : tag "link" s with
            | some r =>
              have h2 := tag_length h1
              have h3 : "link".length = 4 := rfl
              have h4 := optW_length r
              simp only [linkE]
              cases h5 : tag "{" (optW r) with
              | none => trivial
              | some r2 =>
                have h6 := tag_length h5
                have h7 := optW_length r2
                exact lift (by omega) (linkLoop_ends ih (n + 1) [] (optW r2) (by omega) (by omega))
            | none =>
              simp only [scalarE]
              cases h1 : Lex.string s with
              | some k =>
                have := Lex.string_len s k h1
                simp only
                cases Lex.parseString (s.take k) with
                | error e => trivial
                | ok t => simp only [List.length_drop]; omega
              | none =>
                cases h1 : numberTok s with
                | some a =>
                  have h2 := numberTok_ends h1
                  cases a with
                  | err e => trivial
                  | running => exact h2
                  | ok x r => exact h2
                | none =>
                  simp only [wordE]
                  cases h1 : tag "false" s with
                  | some r => have := tag_length h1; have : "false".length = 5 := rfl; simp only; omega
                  | none =>
                    cases h1 : tag "true" s with
                    | some r => have := tag_length h1; have : "true".length = 4 := rfl; simp only; omega
                    | none =>
                      cases h1 : tag "none()" s with
                      | some r => have := tag_length h1; have : "none()".length = 6 := rfl; simp only; omega
                      | none =>
                        cases h1 : tag "some(" s with
                        | none => trivial
                        | some r =>
                          have h2 := tag_length h1
                          have h3 : "some(".length = 5 := rfl
                          have h4 := optW_length r
                          have h5 := ih (optW r) (by omega)
                          simp only [someE]
                          cases h6 : expr (n + 1) (optW r) with
                          | err e => trivial
                          | running => rw [h6] at h5; exact h5
                          | ok v r2 =>
                            rw [h6] at h5
                            simp only at h5 ⊢
                            have h7 := optW_length r2
                            cases h8 : tag ")" (optW r2) with
                            | none => trivial
                            | some r3 =>
                              have := tag_length h8
                              simp only; omega

/-- **C35.** The loader ends on every text, after at most one nested step per character. -/
theorem C35_terminates (text : List Char) (n : Nat) (h : text.length < n) :
    loadData n text ≠ .running := by
  obtain ⟨m, rfl⟩ : ∃ m, n = m + 1 := ⟨n - 1, by omega⟩
  have h0 := optW_length text
  have := expr_ends m (optW text) (by omega)
  intro hc
  rw [loadData] at hc
  rw [hc] at this
  exact this

/-! ## The result does not depend on the fuel -/

/-- More fuel only helps. -/
def Res.le {α} (a b : Res α) : Prop := a = .running ∨ a = b

omit [Lex] [FloatOps] in
theorem Res.le_rfl {α} (a : Res α) : Res.le a a := .inr rfl

omit [FloatOps] in
theorem objectLoop_le {ex ex' : List Char → Res Val} (h : ∀ s, Res.le (ex s) (ex' s)) {n m} (hnm : n ≤ m)
    (acc b s) : Res.le (objectLoop ex n acc b s) (objectLoop ex' m acc b s) := by
  induction n generalizing m acc b s with
  | zero => exact .inl rfl
  | succ n ih =>
    obtain ⟨m, rfl⟩ : ∃ k, m = k + 1 := ⟨m - 1, by omega⟩
    rw [objectLoop, objectLoop]
    cases tag "}" (optW s) with
    | some r => exact .inr rfl
    | none =>
      simp only
      split
      · exact .inr rfl
      · cases readKey (optW s) with
        | err e => exact .inr rfl
        | running => exact .inr rfl
        | ok k r =>
          simp only
          cases tag ":" (optW r) with
          | none => exact .inr rfl
          | some r2 =>
            simp only
            rcases h (optW r2) with he | he
            · rw [he]; exact .inl rfl
            · rw [he]
              cases ex' (optW r2) with
              | err e => exact .inr rfl
              | running => exact .inr rfl
              | ok v r3 => exact ih (by omega) _ _ _

omit [FloatOps] in
theorem arrayLoop_le {ex ex' : List Char → Res Val} (h : ∀ s, Res.le (ex s) (ex' s)) {n m} (hnm : n ≤ m)
    (acc b s) : Res.le (arrayLoop ex n acc b s) (arrayLoop ex' m acc b s) := by
  induction n generalizing m acc b s with
  | zero => exact .inl rfl
  | succ n ih =>
    obtain ⟨m, rfl⟩ : ∃ k, m = k + 1 := ⟨m - 1, by omega⟩
    rw [arrayLoop, arrayLoop]
    cases tag "]" (optW s) with
    | some r => exact .inr rfl
    | none =>
      simp only
      split
      · exact .inr rfl
      · rcases h (optW s) with he | he
        · rw [he]; exact .inl rfl
        · rw [he]
          cases ex' (optW s) with
          | err e => exact .inr rfl
          | running => exact .inr rfl
          | ok v r3 => exact ih (by omega) _ _ _

omit [FloatOps] in
theorem linkLoop_le {ex ex' : List Char → Res Val} (h : ∀ s, Res.le (ex s) (ex' s)) {n m} (hnm : n ≤ m)
    (acc s) : Res.le (linkLoop ex n acc s) (linkLoop ex' m acc s) := by
  induction n generalizing m acc s with
  | zero => exact .inl rfl
  | succ n ih =>
    obtain ⟨m, rfl⟩ : ∃ k, m = k + 1 := ⟨m - 1, by omega⟩
    rw [linkLoop, linkLoop]
    cases tag "}" (optW s) with
    | some r => exact .inr rfl
    | none =>
      simp only
      rcases h (optW s) with he | he
      · rw [he]; exact .inl rfl
      · rw [he]
        cases ex' (optW s) with
        | err e => exact .inr rfl
        | running => exact .inr rfl
        | ok v r3 =>
          cases v with
          | link l => exact ih (by omega) _ _
          | _ => first | exact ih (by omega) _ _ | exact .inr rfl

theorem expr_le {n m} (h : n ≤ m) (s) : Res.le (expr n s) (expr m s) := by
  induction n generalizing m s with
  | zero => exact .inl rfl
  | succ n ih =>
    obtain ⟨m, rfl⟩ : ∃ k, m = k + 1 := ⟨m - 1, by omega⟩
    have hnm : n ≤ m := by omega
    have ihm : ∀ s, Res.le (expr n s) (expr m s) := fun s => ih hnm s
    rw [expr, expr]
    cases tag "{" s with
    | some r => exact objectLoop_le ihm hnm _ _ _
    | none => cases tag "[" s with
      | some r => exact arrayLoop_le ihm hnm _ _ _
      | none => cases tag "(" s with
        | some r => exact .inr rfl
        | none => cases tag "#" s with
          | some r => exact .inr rfl
          | none => cases tag "link" s with
            | some r =>
              simp only [linkE]
              cases tag "{" (optW r) with
              | none => exact .inr rfl
              | some r2 => exact linkLoop_le ihm hnm _ _
            | none =>
              simp only [scalarE]
              cases Lex.string s with
              | some k => exact .inr rfl
              | none =>
                simp only
                cases numberTok s with
                | some a => cases a <;> exact .inr rfl
                | none =>
                  simp only [wordE]
                  cases tag "false" s with
                  | some r => exact .inr rfl
                  | none => cases tag "true" s with
                    | some r => exact .inr rfl
                    | none => cases tag "none()" s with
                      | some r => exact .inr rfl
                      | none => cases tag "some(" s with
                        | none => exact .inr rfl
                        | some r =>
                          simp only [someE]
                          rcases ihm (optW r) with he | he
                          · rw [he]; exact .inl rfl
                          · rw [he]; exact .inr rfl

/-- **C35.** The result is the same for all fuel that suffices. -/
theorem C35_fuel (text : List Char) (n m : Nat) (hn : text.length < n) (hm : text.length < m) :
    loadData n text = loadData m text := by
  rcases Nat.le_total n m with h | h
  · rcases expr_le h (optW text) with he | he
    · exact absurd he (C35_terminates text n hn)
    · exact he
  · rcases expr_le h (optW text) with he | he
    · exact absurd he (C35_terminates text m hm)
    · exact he.symm

/-! ## Colours -/

omit [FloatOps] in
theorem optW_id {c : Char} {s} (h1 : Lex.isWs c = false) (h2 : c ≠ '/') : optW (c :: s) = c :: s :=
  (C35_opt_w (c :: s)).unique (.done (by rintro d r h; cases h; exact h1)
    (by rintro r h; cases h; exact h2 rfl) (by rintro r h; cases h; exact h2 rfl))

omit [FloatOps] in
theorem optW_nil : optW [] = [] :=
  (C35_opt_w []).unique (.done (by intro d r h; cases h) (by intro r h; cases h) (by intro r h; cases h))

omit [Lex] [FloatOps] in
theorem tag_ne {t : String} {c : Char} {s : List Char} (h : t.toList.head? ≠ some c) (h0 : t.toList ≠ []) :
    tag t (c :: s) = none := by
  rw [tag_none]
  intro r hr
  cases hx : t.toList with
  | nil => exact h0 hx
  | cons d ds =>
    rw [hx] at hr h
    cases hr
    exact h rfl

omit [Lex] [FloatOps] in
theorem tag_cons (c : Char) (s) : tag (String.ofList [c]) (c :: s) = some s :=
  tag_some.2 (by simp)

theorem expr_color {n} {c : List Char} {r g b : Nat} {a : Option Nat}
    (hc : Lex.rgba (rawWord c) = some (r, g, b, a)) :
    expr (n + 1) ('#' :: c) =
      .ok (.vec4 ⟨Lex.channel r, Lex.channel g, Lex.channel b, Lex.channel (a.getD 255)⟩) c := by
  rw [expr, tag_ne (by decide) (by decide), tag_ne (by decide) (by decide), tag_ne (by decide) (by decide),
    tag_some.2 (show '#' :: c = "#".toList ++ c from rfl)]
  simp only [colorE, hc]

/-- **C36**, the part that holds: a text that starts with a colour loads as that colour. -/
theorem C36_top_level_partial (n : Nat) (c : List Char) (r g b : Nat) (a : Option Nat)
    (hc : Lex.rgba (rawWord c) = some (r, g, b, a)) :
    ∃ rest, loadData (n + 1) ('#' :: c) =
      .ok (.vec4 ⟨Lex.channel r, Lex.channel g, Lex.channel b, Lex.channel (a.getD 255)⟩) rest := by
  refine ⟨c, ?_⟩
  rw [loadData, optW_id (by rw [Lex.ws_ascii '#' (by decide)]; decide) (by decide), expr_color hc]

/-- Finding, the negation of C36: an array with a colour in it never loads, whatever the colour
and whatever follows, because the text of the colour is not consumed. -/
theorem C36_not_in_array (n : Nat) (d : Char) (c : List Char) (r g b : Nat) (a : Option Nat)
    (hd : d.isAlphanum = true) (hd' : d.toNat < 128) (hc : Lex.rgba (rawWord (d :: c)) = some (r, g, b, a)) :
    loadData (n + 4) ('[' :: '#' :: d :: c) = .err "Expected `,`" := by
  have hws : Lex.isWs d = false := Lex.alnum_ws d (by rw [Lex.alnum_ascii d hd']; exact hd)
  have hne : ∀ x : Char, x.isAlphanum = false → d ≠ x := by
    rintro x hx rfl; rw [hx] at hd; cases hd
  have ho : ∀ s, optW (d :: s) = d :: s := fun s => optW_id hws (hne _ (by decide))
  have hcomma : ∀ s, comma (d :: s) = (false, d :: s) := by
    intro s
    rw [comma, ho, tag_ne (by simpa using (hne ',' (by decide)).symm) (by decide)]
    simp only [ho]
  have hh : ∀ s, optW ('#' :: s) = '#' :: s := fun s =>
    optW_id (by rw [Lex.ws_ascii '#' (by decide)]; decide) (by decide)
  rw [loadData, optW_id (by rw [Lex.ws_ascii '[' (by decide)]; decide) (by decide), expr,
    tag_ne (by decide) (by decide), tag_some.2 (show '[' :: '#' :: d :: c = "[".toList ++ _ from rfl)]
  simp only
  rw [arrayLoop, hh, tag_ne (by decide) (by decide)]
  simp only [List.isEmpty_nil, Bool.not_true, Bool.false_and, Bool.false_eq_true, if_false]
  rw [expr_color hc]
  simp only
  rw [hcomma]
  simp only
  rw [arrayLoop, ho, tag_ne (by simpa using (hne ']' (by decide)).symm) (by decide)]
  simp

end

end Dyon.Data
