import Verif.Data.Demo
import Verif.Data.LoadProps

/-!
# C34: what is written loads as the same data
-/

namespace Dyon.Data

/-- Not infinite and not NaN. -/
def finite32 (x : F32) : Bool := decide (F32.mag x < 255 * 2 ^ 23)

/-- What follows a number in written text. -/
def Delim (rest : List Char) : Prop := rest = [] ∨ ∃ c r, rest = c :: r ∧ c ∈ [' ', ',', ')', ']', '}']

/-- What is assumed of the external code: strings and finite numbers that were written are
read back. -/
class LawfulText [Lex] [Show] [FloatOps] : Prop where
  /-- A string token starts with a quote. -/
  string_head : ∀ s n, Lex.string s = some n → s.head? = some '"'
  /-- A number token starts with a digit, a sign or a point. -/
  number_head : ∀ s n, Lex.number s = some n → ∃ c r, s = c :: r ∧ (c.isDigit = true ∨ c = '-' ∨ c = '+' ∨ c = '.')
  string_show : ∀ s rest, Lex.string (Show.string s ++ rest) = some (Show.string s).length
  parse_string : ∀ s, Lex.parseString (Show.string s) = .ok s
  number_f64 : ∀ x rest, F64.isFinite x = true → Delim rest →
    Lex.number (Show.f64 x ++ rest) = some (Show.f64 x).length
  parse_f64 : ∀ x, F64.isFinite x = true → Lex.parseNumber (Show.f64 x) = .ok x
  number_f32 : ∀ x rest, finite32 x = true → Delim rest →
    Lex.number (Show.f32 x ++ rest) = some (Show.f32 x).length
  /-- Reading with double precision and rounding gives the number back. -/
  parse_f32 : ∀ x, finite32 x = true → ∃ y, Lex.parseNumber (Show.f32 x) = .ok y ∧ FloatOps.toF32 y = x
  /-- Zero stays zero. -/
  zero32 : F32.feq (FloatOps.toF32 F64.zero) F32.zero = true

/-- Equal, or both zero. -/
def SameComp (a b : F32) : Prop := a = b ∨ (F32.feq a F32.zero = true ∧ F32.feq b F32.zero = true)

/-- The same vector up to the sign of zeros in the last two components. -/
def SameVec (a b : Vec4) : Prop := a.x = b.x ∧ a.y = b.y ∧ SameComp a.z b.z ∧ SameComp a.w b.w

/-- All components finite. -/
def FiniteVec (a : Vec4) : Prop :=
  finite32 a.x = true ∧ finite32 a.y = true ∧ finite32 a.z = true ∧ finite32 a.w = true

/-- Numbers are finite. -/
def FiniteItem : Link.Scalar → Prop
  | .f64 x => F64.isFinite x = true
  | _ => True

mutual
/-- `v` is data, and `w` is the same data: references are followed, secrets are left out. -/
inductive Same (stk : List Val) : Val → Val → Prop
  | bool {b sec} : Same stk (.bool b sec) (.bool b none)
  | num {x sec} : F64.isFinite x = true → Same stk (.f64 x sec) (.f64 x none)
  | str {s} : Same stk (.str s) (.str s)
  | vec {a b} : FiniteVec a → SameVec a b → Same stk (.vec4 a) (.vec4 b)
  | none : Same stk (.option none) (.option none)
  | some {v w} : Same stk v w → Same stk (.option (some v)) (.option (some w))
  | array {vs ws} : SameList stk vs ws → Same stk (.array vs) (.array ws)
  | object {vs ws} : SameEntries stk vs ws → (vs.map (·.1)).Nodup → "" ∉ vs.map (·.1) →
      Same stk (.object vs) (.object ws)
  | link {l} : (∀ x ∈ l, FiniteItem x) → Same stk (.link l) (.link l)
  | ref {i v w} : stk[i]? = some v → Same stk v w → Same stk (.ref i) w
/-- Item by item. -/
inductive SameList (stk : List Val) : List Val → List Val → Prop
  | nil : SameList stk [] []
  | cons {v w vs ws} : Same stk v w → SameList stk vs ws → SameList stk (v :: vs) (w :: ws)
/-- Entry by entry. -/
inductive SameEntries (stk : List Val) : List (String × Val) → List (String × Val) → Prop
  | nil : SameEntries stk [] []
  | cons {k v w vs ws} : Same stk v w → SameEntries stk vs ws → SameEntries stk ((k, v) :: vs) ((k, w) :: ws)
end

section
variable [Lex] [Show] [FloatOps]

/-- Heads of written text. -/
def headOk (c : Char) : Prop :=
  c.toNat < 128 ∧ (c.isAlphanum = true ∨ c ∈ ['{', '[', '(', '"', '-', '+', '.'])

/-- Written text starts with such a character. -/
def Head (t : List Char) : Prop := ∃ c r, t = c :: r ∧ headOk c

omit [Show] [FloatOps] in
theorem headOk_ws {c} (h : headOk c) : Lex.isWs c = false := by
  rcases h with ⟨h1, h2 | h2⟩
  · exact Lex.alnum_ws c (by rw [Lex.alnum_ascii c h1]; exact h2)
  · rw [Lex.ws_ascii c h1]
    exact (by decide : ∀ c ∈ ['{', '[', '(', '"', '-', '+', '.'],
      (c == ' ' || decide (9 ≤ c.toNat) && decide (c.toNat ≤ 13)) = false) c h2

omit [Lex] [Show] [FloatOps] in
theorem headOk_ne {c x} (h : headOk c) (hx : x.isAlphanum = false)
    (hx' : x ∉ ['{', '[', '(', '"', '-', '+', '.']) : c ≠ x := by
  rintro rfl
  rcases h with ⟨_, h | h⟩
  · rw [hx] at h; cases h
  · exact hx' h

omit [Show] [FloatOps] in
theorem optW_head {c s} (h : headOk c) : optW (c :: s) = c :: s :=
  optW_id (headOk_ws h) (headOk_ne h (by decide) (by decide))

omit [Show] [FloatOps] in
theorem optW_app {t : List Char} (h : Head t) (s) : optW (t ++ s) = t ++ s := by
  obtain ⟨c, r, rfl, hc⟩ := h
  exact optW_head hc

omit [Show] [FloatOps] in
theorem ws_space : Lex.isWs ' ' = true := by rw [Lex.ws_ascii ' ' (by decide)]; decide

omit [Show] [FloatOps] in
theorem optW_space (s : List Char) : optW (' ' :: s) = optW s :=
  (C35_opt_w _).unique (.ws ws_space (C35_opt_w s))

omit [Show] [FloatOps] in
theorem optW_punct {c : Char} (s) (h : c ∈ [',', ')', ']', '}', ':']) : optW (c :: s) = c :: s := by
  refine optW_id ?_ ?_
  · rw [Lex.ws_ascii c ((by decide : ∀ c ∈ [',', ')', ']', '}', ':'], c.toNat < 128) c h)]
    exact (by decide : ∀ c ∈ [',', ')', ']', '}', ':'],
      (c == ' ' || decide (9 ≤ c.toNat) && decide (c.toNat ≤ 13)) = false) c h
  · exact (by decide : ∀ c ∈ [',', ')', ']', '}', ':'], c ≠ '/') c h

omit [Show] [FloatOps] in
theorem comma_yes {t : List Char} (h : optW t = t) : comma (", ".toList ++ t) = (true, t) := by
  show comma (',' :: ' ' :: t) = _
  rw [comma, optW_punct _ (by decide), tag_some.2 (show ',' :: ' ' :: t = ",".toList ++ (' ' :: t) from rfl)]
  simp only
  rw [optW_space, h]

omit [Show] [FloatOps] in
theorem comma_no {c : Char} (s) (h : c ∈ [')', ']', '}']) : comma (c :: s) = (false, c :: s) := by
  have h' : c ∈ [',', ')', ']', '}', ':'] := 
    (by decide : ∀ c ∈ [')', ']', '}'], c ∈ [',', ')', ']', '}', ':']) c h
  have hn : tag "," (c :: s) = none := tag_ne
    ((by decide : ∀ c ∈ [')', ']', '}'], ",".toList.head? ≠ some c) c h) (by decide)
  rw [comma, optW_punct _ h', hn]
  simp only
  rw [optW_punct _ h']

omit [Lex] [Show] [FloatOps] in
theorem Delim.cons {c : Char} (r) (h : c ∈ [' ', ',', ')', ']', '}']) : Delim (c :: r) := .inr ⟨c, r, rfl, h⟩

variable [LawfulText]

theorem head_string (s : String) : ∃ r, Show.string s = '"' :: r := by
  have h := LawfulText.string_head _ _ (LawfulText.string_show s [])
  rw [List.append_nil] at h
  cases hx : Show.string s with
  | nil => rw [hx] at h; cases h
  | cons c r => rw [hx] at h; cases h; exact ⟨r, rfl⟩

omit [Lex] [Show] [FloatOps] [LawfulText] in
theorem headOk_number {c : Char} (h : c.isDigit = true ∨ c = '-' ∨ c = '+' ∨ c = '.') : headOk c := by
  rcases h with h | rfl | rfl | rfl
  · refine ⟨?_, .inl ?_⟩
    · simp only [Char.isDigit, Bool.and_eq_true, decide_eq_true_eq, UInt32.le_iff_toNat_le] at h
      have : '9'.val.toNat = 57 := rfl
      have h2 := h.2
      show c.val.toNat < 128
      omega
    · simp [Char.isAlphanum, h]
  all_goals exact ⟨by decide, .inr (by decide)⟩

theorem head_number {s n} (h : Lex.number s = some n) : ∃ c r, s = c :: r ∧ headOk c := by
  obtain ⟨c, r, h1, h2⟩ := LawfulText.number_head _ _ h
  exact ⟨c, r, h1, headOk_number h2⟩

theorem head_f64 {x} (h : F64.isFinite x = true) : ∃ c r, Show.f64 x = c :: r ∧
    (c.isDigit = true ∨ c = '-' ∨ c = '+' ∨ c = '.') := by
  have := LawfulText.number_f64 x [] h (.inl rfl)
  rw [List.append_nil] at this
  exact LawfulText.number_head _ _ this

theorem head_f32 {x} (h : finite32 x = true) : ∃ c r, Show.f32 x = c :: r ∧
    (c.isDigit = true ∨ c = '-' ∨ c = '+' ∨ c = '.') := by
  have := LawfulText.number_f32 x [] h (.inl rfl)
  rw [List.append_nil] at this
  exact LawfulText.number_head _ _ this

theorem f32_head {x} (h : finite32 x = true) : Head (Show.f32 x) :=
  let ⟨c, r, h1, h2⟩ := head_f32 h
  ⟨c, r, h1, headOk_number h2⟩

theorem numberTok_f32 {x rest} (h : finite32 x = true) (hr : Delim rest) :
    ∃ y, numberTok (Show.f32 x ++ rest) = some (.ok y rest) ∧ FloatOps.toF32 y = x := by
  obtain ⟨y, h1, h2⟩ := LawfulText.parse_f32 x h
  refine ⟨y, ?_, h2⟩
  rw [numberTok, LawfulText.number_f32 x rest h hr]
  simp only [List.take_left, List.drop_left, h1]

theorem numberTok_f64 {x rest} (h : F64.isFinite x = true) (hr : Delim rest) :
    numberTok (Show.f64 x ++ rest) = some (.ok x rest) := by
  rw [numberTok, LawfulText.number_f64 x rest h hr]
  simp only [List.take_left, List.drop_left, LawfulText.parse_f64 x h]

/-! ## Scalars -/

omit [Show] [LawfulText] in
theorem expr_scalar {n} {c : Char} {s} (h : c ∉ ['{', '[', '(', '#', 'l']) :
    expr (n + 1) (c :: s) = scalarE (expr n) (c :: s) := by
  simp only [List.mem_cons, List.not_mem_nil, or_false, not_or] at h
  obtain ⟨h1, h2, h3, h4, h5⟩ := h
  rw [expr, tag_ne (by simpa using Ne.symm h1) (by decide), tag_ne (by simpa using Ne.symm h2) (by decide),
    tag_ne (by simpa using Ne.symm h3) (by decide), tag_ne (by simpa using Ne.symm h4) (by decide),
    tag_ne (by simpa using Ne.symm h5) (by decide)]

theorem read_string (n s rest) : expr (n + 1) (Show.string s ++ rest) = .ok (.str s) rest := by
  obtain ⟨r, hr⟩ := head_string s
  have : expr (n + 1) (Show.string s ++ rest) = scalarE (expr n) (Show.string s ++ rest) := by
    rw [hr, List.cons_append]; exact expr_scalar (by decide)
  rw [this, scalarE, LawfulText.string_show s rest]
  simp only [List.take_left, List.drop_left, LawfulText.parse_string]

theorem string_none {c : Char} {s} (h : c ≠ '"') : Lex.string (c :: s) = none := by
  cases hs : Lex.string (c :: s) with
  | none => rfl
  | some n => have := LawfulText.string_head _ _ hs; cases this; exact absurd rfl h

theorem numberTok_none {c : Char} {s} (h : ¬ (c.isDigit = true ∨ c = '-' ∨ c = '+' ∨ c = '.')) :
    numberTok (c :: s) = none := by
  rw [numberTok]
  cases hs : Lex.number (c :: s) with
  | none => rfl
  | some n =>
    obtain ⟨d, r, h1, h2⟩ := LawfulText.number_head _ _ hs
    cases h1
    exact absurd h2 h

omit [Lex] [Show] [FloatOps] [LawfulText] in
theorem numHead_ne {c x : Char} (h : c.isDigit = true ∨ c = '-' ∨ c = '+' ∨ c = '.')
    (hx : ¬ (x.isDigit = true ∨ x = '-' ∨ x = '+' ∨ x = '.')) : c ≠ x := by
  rintro rfl; exact hx h

theorem read_f64 {n x rest} (h : F64.isFinite x = true) (hr : Delim rest) :
    expr (n + 1) (Show.f64 x ++ rest) = .ok (.ofF64 x) rest := by
  obtain ⟨c, r, h1, h2⟩ := head_f64 h
  have he : expr (n + 1) (Show.f64 x ++ rest) = scalarE (expr n) (Show.f64 x ++ rest) := by
    rw [h1, List.cons_append]
    refine expr_scalar ?_
    intro hc
    exact (by decide : ∀ c ∈ ['{', '[', '(', '#', 'l'], ¬ (c.isDigit = true ∨ c = '-' ∨ c = '+' ∨ c = '.')) c hc h2
  have hs : Lex.string (Show.f64 x ++ rest) = none := by
    rw [h1, List.cons_append]; exact string_none (numHead_ne h2 (by decide))
  rw [he, scalarE, hs, numberTok_f64 h hr]

theorem read_bool (n b rest) : expr (n + 1) (writeBool b ++ rest) = .ok (.ofBool b) rest := by
  cases b
  · show expr (n + 1) ('f' :: ("alse".toList ++ rest)) = _
    rw [expr_scalar (by decide), scalarE, string_none (by decide), numberTok_none (by decide)]
    simp only [wordE]
    rw [tag_some.2 (show 'f' :: ("alse".toList ++ rest) = "false".toList ++ rest from rfl)]
  · show expr (n + 1) ('t' :: ("rue".toList ++ rest)) = _
    rw [expr_scalar (by decide), scalarE, string_none (by decide), numberTok_none (by decide)]
    simp only [wordE]
    rw [tag_ne (by decide) (by decide), tag_some.2 (show 't' :: ("rue".toList ++ rest) = "true".toList ++ rest from rfl)]

theorem read_none (n rest) : expr (n + 1) ("none()".toList ++ rest) = .ok (.option none) rest := by
  show expr (n + 1) ('n' :: ("one()".toList ++ rest)) = _
  rw [expr_scalar (by decide), scalarE, string_none (by decide), numberTok_none (by decide)]
  simp only [wordE]
  rw [tag_ne (by decide) (by decide), tag_ne (by decide) (by decide),
    tag_some.2 (show 'n' :: ("one()".toList ++ rest) = "none()".toList ++ rest from rfl)]

theorem expr_some (n rest) : expr (n + 1) ("some(".toList ++ rest) = someE (expr n) rest := by
  show expr (n + 1) ('s' :: ("ome(".toList ++ rest)) = _
  rw [expr_scalar (by decide), scalarE, string_none (by decide), numberTok_none (by decide)]
  simp only [wordE]
  rw [tag_ne (by decide) (by decide), tag_ne (by decide) (by decide), tag_ne (by decide) (by decide),
    tag_some.2 (show 's' :: ("ome(".toList ++ rest) = "some(".toList ++ rest from rfl)]

/-! ## Vectors -/

omit [Show] [LawfulText] in
theorem vec4End_ok (x y z w rest) : vec4End x y z w (')' :: rest) =
    .ok (.vec4 ⟨FloatOps.toF32 x, FloatOps.toF32 y, FloatOps.toF32 z, FloatOps.toF32 w⟩) rest := by
  rw [vec4End, optW_punct _ (by decide), tag_some.2 (show ')' :: rest = ")".toList ++ rest from rfl)]

theorem read_vec4 {a : Vec4} (n rest) (h : FiniteVec a) :
    ∃ b, expr (n + 1) (writeVec4 a ++ rest) = .ok (.vec4 b) rest ∧ SameVec a b := by
  obtain ⟨hx, hy, hz, hw⟩ := h
  have he : ∀ s, expr (n + 1) ('(' :: s) = vec4E s := by
    intro s
    rw [expr, tag_ne (by decide) (by decide), tag_ne (by decide) (by decide),
      tag_some.2 (show '(' :: s = "(".toList ++ s from rfl)]
  rw [writeVec4, List.cons_append, he, vec4E]
  simp only [List.append_assoc]
  have hc : ∀ s, Delim (", ".toList ++ s) := fun s => Delim.cons _ (by decide)
  have hp : ∀ s, Delim (')' :: s) := fun s => Delim.cons _ (by decide)
  obtain ⟨x, hx1, hx2⟩ := numberTok_f32 hx (hc (Show.f32 a.y ++
    ((if (nonzero a.z || nonzero a.w) = true then ", ".toList ++ (Show.f32 a.z ++
        if nonzero a.w = true then ", ".toList ++ (Show.f32 a.w ++ [')']) else [')']) else [')']) ++ rest)))
  rw [hx1]
  simp only
  rw [comma_yes (optW_app (f32_head hy) _)]
  simp only
  by_cases hzw : (nonzero a.z || nonzero a.w) = true
  · rw [if_pos hzw]
    simp only [List.append_assoc]
    obtain ⟨y, hy1, hy2⟩ := numberTok_f32 hy (hc (Show.f32 a.z ++
      ((if nonzero a.w = true then ", ".toList ++ (Show.f32 a.w ++ [')']) else [')']) ++ rest)))
    rw [hy1]
    simp only
    rw [vec4Rest, comma_yes (optW_app (f32_head hz) _)]
    simp only
    by_cases hw0 : nonzero a.w = true
    · rw [if_pos hw0]
      simp only [List.append_assoc]
      obtain ⟨z, hz1, hz2⟩ := numberTok_f32 hz (hc (Show.f32 a.w ++ ([')'] ++ rest)))
      rw [hz1]
      simp only
      rw [comma_yes (optW_app (f32_head hw) _)]
      obtain ⟨w, hw1, hw2⟩ := numberTok_f32 hw (hp rest)
      rw [show [')'] ++ rest = ')' :: rest from rfl, hw1]
      simp only
      rw [vec4End_ok]
      exact ⟨_, rfl, hx2.symm, hy2.symm, .inl hz2.symm, .inl hw2.symm⟩
    · rw [if_neg hw0, show [')'] ++ rest = ')' :: rest from rfl]
      obtain ⟨z, hz1, hz2⟩ := numberTok_f32 hz (hp rest)
      rw [hz1]
      simp only
      rw [comma_no _ (by decide)]
      simp only
      rw [numberTok_none (by decide)]
      simp only
      rw [vec4End_ok]
      refine ⟨_, rfl, hx2.symm, hy2.symm, .inl hz2.symm, .inr ⟨?_, LawfulText.zero32⟩⟩
      simpa [nonzero] using hw0
  · rw [if_neg hzw, show [')'] ++ rest = ')' :: rest from rfl]
    obtain ⟨y, hy1, hy2⟩ := numberTok_f32 hy (hp rest)
    rw [hy1]
    simp only
    rw [vec4Rest, comma_no _ (by decide)]
    simp only
    rw [vec4End_ok]
    simp only [nonzero, Bool.or_eq_true, Bool.not_eq_true', not_or, Bool.not_eq_false] at hzw
    exact ⟨_, rfl, hx2.symm, hy2.symm, .inr ⟨hzw.1, LawfulText.zero32⟩, .inr ⟨hzw.2, LawfulText.zero32⟩⟩

/-! ## Compound values -/

/-- The text is read as the value, whatever follows. -/
def Reads (stk : List Val) (ex : List Char → Res Val) (t : List Char) (v : Val) : Prop :=
  ∀ rest, Delim rest → ∃ w, ex (t ++ rest) = .ok w rest ∧ Same stk v w

omit [Show] [LawfulText] in
theorem Reads.mono {stk n m t v} (h : Reads stk (expr n) t v) (hnm : n ≤ m) : Reads stk (expr m) t v := by
  intro rest hr
  obtain ⟨w, h1, h2⟩ := h rest hr
  refine ⟨w, ?_, h2⟩
  rcases expr_le hnm (t ++ rest) with he | he
  · rw [he] at h1; cases h1
  · rw [← he]; exact h1

/-- The texts are read as the values. -/
inductive ReadsList (stk : List Val) (ex : List Char → Res Val) : List (List Char) → List Val → Prop
  | nil : ReadsList stk ex [] []
  | cons {t v ts vs} : Head t → Reads stk ex t v → ReadsList stk ex ts vs → ReadsList stk ex (t :: ts) (v :: vs)

omit [Show] [LawfulText] in
theorem ReadsList.mono {stk n m ts vs} (h : ReadsList stk (expr n) ts vs) (hnm : n ≤ m) :
    ReadsList stk (expr m) ts vs := by
  induction h with
  | nil => exact .nil
  | cons h1 h2 _ ih => exact .cons h1 (h2.mono hnm) ih

omit [Show] [LawfulText] [FloatOps] in
theorem arrayLoop_end (ex k acc b rest) : arrayLoop ex (k + 1) acc b (']' :: rest) = .ok (.array acc) rest := by
  rw [arrayLoop, optW_punct _ (by decide), tag_some.2 (show ']' :: rest = "]".toList ++ rest from rfl)]

omit [Lex] [Show] [LawfulText] [FloatOps] in
theorem Head.tag_none {t : List Char} (h : Head t) {x : Char} (s) (hx : x.isAlphanum = false)
    (hx' : x ∉ ['{', '[', '(', '"', '-', '+', '.']) : tag (String.ofList [x]) (t ++ s) = none := by
  obtain ⟨c, r, rfl, hc⟩ := h
  have := (headOk_ne hc hx hx').symm
  exact tag_ne (by simpa using this) (by simp)

omit [Show] [LawfulText] [FloatOps] in
theorem arrayLoop_step {ex k acc b t s w r} (ht : Head t) (hb : acc = [] ∨ b = true) (hx : ex (t ++ s) = .ok w r) :
    arrayLoop ex (k + 1) acc b (t ++ s) = arrayLoop ex k (acc ++ [w]) (comma r).1 (comma r).2 := by
  rw [arrayLoop, optW_app ht, show "]" = String.ofList [']'] from rfl, ht.tag_none s (by decide) (by decide)]
  have : (!acc.isEmpty && !b) = false := by rcases hb with rfl | rfl <;> simp
  simp only [this, Bool.false_eq_true, if_false, hx]

omit [Show] [LawfulText] [FloatOps] in
theorem read_array {stk ex ts vs} (h : ReadsList stk ex ts vs) : ∀ k acc b rest, ts.length < k →
    (acc = [] ∨ b = true) → ∃ ws, arrayLoop ex k acc b (joinComma ts ++ ']' :: rest) =
      .ok (.array (acc ++ ws)) rest ∧ SameList stk vs ws := by
  induction h with
  | nil =>
    intro k acc b rest hk _
    obtain ⟨k, rfl⟩ : ∃ j, k = j + 1 := ⟨k - 1, by omega⟩
    refine ⟨[], ?_, .nil⟩
    rw [joinComma, List.nil_append, arrayLoop_end, List.append_nil]
  | @cons t v ts vs ht hr hrs ih =>
    intro k acc b rest hk hb
    simp only [List.length_cons] at hk
    obtain ⟨k, rfl⟩ : ∃ j, k = j + 2 := ⟨k - 2, by omega⟩
    cases hts : ts with
    | nil =>
      subst hts
      cases hrs
      obtain ⟨w, hw, hs⟩ := hr (']' :: rest) (.cons _ (by decide))
      refine ⟨[w], ?_, .cons hs .nil⟩
      rw [joinComma, arrayLoop_step ht hb hw, comma_no _ (by decide), arrayLoop_end]
    | cons u us =>
      subst hts
      obtain ⟨w, hw, hs⟩ := hr (", ".toList ++ (joinComma (u :: us) ++ ']' :: rest)) (.cons _ (by decide))
      obtain ⟨ws, h1, h2⟩ := ih (k + 1) (acc ++ [w]) true rest (by simp only [List.length_cons] at hk ⊢; omega)
        (.inr rfl)
      refine ⟨w :: ws, ?_, .cons hs h2⟩
      rw [joinComma, List.append_assoc, List.append_assoc, arrayLoop_step ht hb hw, comma_yes]
      · simp only
        rw [h1, List.append_assoc]; rfl
      · cases hrs with
        | cons hu _ _ =>
          obtain ⟨c, r, rfl, hc⟩ := hu
          cases us <;> exact optW_head hc

/-! ### Objects -/

/-- The start of a written key. -/
def keyHead (c : Char) : Prop := Lex.isWs c = false ∧ c ≠ '/' ∧ c ≠ '}'

omit [Show] [LawfulText] [FloatOps] in
theorem keyHead_alnum {c} (h : (Lex.isAlnum c || c == '_') = true) :
    Lex.isWs c = false ∧ c ≠ '"' ∧ c ∉ seps ∧ c ≠ '/' ∧ c ≠ '}' := by
  rcases Bool.or_eq_true _ _ ▸ h with h | h
  · have hn : ∀ x : Char, x.toNat < 128 → x.isAlphanum = false → c ≠ x := by
      rintro x h1 h2 rfl
      rw [Lex.alnum_ascii _ h1, h2] at h; cases h
    refine ⟨Lex.alnum_ws c h, hn _ (by decide) (by decide), ?_, hn _ (by decide) (by decide), hn _ (by decide) (by decide)⟩
    intro hc
    exact hn c ((by decide : ∀ c ∈ seps, c.toNat < 128) c hc) ((by decide : ∀ c ∈ seps, c.isAlphanum = false) c hc) rfl
  · have : c = '_' := by simpa using h
    subst this
    exact ⟨by rw [Lex.ws_ascii _ (by decide)]; decide, by decide, by decide, by decide, by decide⟩

omit [Show] [LawfulText] [FloatOps] in
theorem rawWord_key {k : List Char} (s) (h : (k.all fun c => Lex.isAlnum c || c == '_') = true) :
    rawWord (k ++ ':' :: s) = k := by
  induction k with
  | nil => rw [rawWord, List.nil_append, List.takeWhile_cons]; simp [seps]
  | cons c k ih =>
    rw [List.all_cons, Bool.and_eq_true] at h
    obtain ⟨h1, h2⟩ := h
    obtain ⟨a1, _, a3, _⟩ := keyHead_alnum h1
    rw [rawWord] at ih ⊢
    rw [List.cons_append, List.takeWhile_cons]
    have : (!seps.contains c && !Lex.isWs c) = true := by simp [a1, List.contains_iff_mem, a3]
    rw [this]
    simp only [if_true]
    rw [ih h2]

theorem read_key {k : String} (hk : k ≠ "") (s) : readKey (writeKey k ++ s) = .ok k (':' :: ' ' :: s) ∧
    ∃ c r, writeKey k = c :: r ∧ keyHead c := by
  rw [writeKey]
  by_cases hal : (k.toList.all fun c => Lex.isAlnum c || c == '_') = true
  · rw [if_pos hal]
    have hne : k.toList ≠ [] := by
      intro h; apply hk; rw [← String.ofList_toList (s := k), h]
    cases hx : k.toList with
    | nil => exact absurd hx hne
    | cons c r =>
      have hc : (Lex.isAlnum c || c == '_') = true := by
        rw [hx, List.all_cons, Bool.and_eq_true] at hal; exact hal.1
      obtain ⟨a1, a2, a3, a4, a5⟩ := keyHead_alnum hc
      refine ⟨?_, c, _, rfl, a1, a4, a5⟩
      have hr : rawWord (k.toList ++ ':' :: (' ' :: s)) = k.toList := rawWord_key _ hal
      rw [hx] at hr
      rw [List.append_assoc, show ": ".toList ++ s = ':' :: ' ' :: s from rfl, readKey]
      rw [List.cons_append, string_none a2]
      simp only
      rw [← List.cons_append, hr]
      simp only [List.length_cons, Nat.add_one_ne_zero, if_false]
      rw [show (r.length + 1) = (c :: r).length from rfl, List.drop_left, ← hx, String.ofList_toList]
  · rw [if_neg hal]
    obtain ⟨r, hr⟩ := head_string k
    refine ⟨?_, '"', r ++ ": ".toList, by rw [hr]; rfl, ?_, by decide, by decide⟩
    · rw [List.append_assoc, readKey, LawfulText.string_show]
      simp only [List.take_left, List.drop_left, LawfulText.parse_string]
      rfl
    · rw [Lex.ws_ascii _ (by decide)]; decide

/-- The texts are read as the entries. -/
inductive ReadsEntries (stk : List Val) (ex : List Char → Res Val) : List (List Char) → List (String × Val) → Prop
  | nil : ReadsEntries stk ex [] []
  | cons {k t v ts vs} : Head t → Reads stk ex t v → ReadsEntries stk ex ts vs →
      ReadsEntries stk ex ((writeKey k ++ t) :: ts) ((k, v) :: vs)

omit [LawfulText] in
theorem ReadsEntries.mono {stk n m ts vs} (h : ReadsEntries stk (expr n) ts vs) (hnm : n ≤ m) :
    ReadsEntries stk (expr m) ts vs := by
  induction h with
  | nil => exact .nil
  | cons h1 h2 _ ih => exact .cons h1 (h2.mono hnm) ih

omit [Show] [LawfulText] [FloatOps] in
theorem objectLoop_end (ex k acc b rest) : objectLoop ex (k + 1) acc b ('}' :: rest) = .ok (.object acc) rest := by
  rw [objectLoop, optW_punct _ (by decide), tag_some.2 (show '}' :: rest = "}".toList ++ rest from rfl)]

theorem objectLoop_step {ex key k acc b t s w r} (hkey : key ≠ "") (ht : Head t) (hb : acc = [] ∨ b = true)
    (hx : ex (t ++ s) = .ok w r) :
    objectLoop ex (k + 1) acc b (writeKey key ++ (t ++ s)) =
      objectLoop ex k (insertKey key w acc) (comma r).1 (comma r).2 := by
  obtain ⟨h1, c, r', h2, h3, h4, h5⟩ := read_key hkey (t ++ s)
  have ho : optW (writeKey key ++ (t ++ s)) = writeKey key ++ (t ++ s) := by
    rw [h2]; exact optW_id h3 h4
  have htag : tag "}" (writeKey key ++ (t ++ s)) = none := by
    rw [h2]; exact tag_ne (by simpa using Ne.symm h5) (by decide)
  rw [objectLoop, ho, htag]
  have : (!acc.isEmpty && !b) = false := by rcases hb with rfl | rfl <;> simp
  simp only [this, Bool.false_eq_true, if_false]
  rw [h1]
  simp only
  rw [optW_punct _ (by decide), tag_some.2 (show ':' :: ' ' :: (t ++ s) = ":".toList ++ (' ' :: (t ++ s)) from rfl)]
  simp only
  rw [optW_space, optW_app ht, hx]

omit [Lex] [Show] [FloatOps] [LawfulText] in
theorem insertKey_new {k v kvs} (h : k ∉ kvs.map (·.1)) : insertKey k v kvs = kvs ++ [(k, v)] := by
  rw [insertKey, if_neg]
  intro hc
  rw [List.any_eq_true] at hc
  obtain ⟨kv, h1, h2⟩ := hc
  exact h (List.mem_map.2 ⟨kv, h1, by simpa using h2⟩)

theorem read_object {stk ex ts vs} (h : ReadsEntries stk ex ts vs) (hne : "" ∉ vs.map (·.1)) :
    ∀ k acc b rest, ts.length < k → (acc.map (·.1) ++ vs.map (·.1)).Nodup →
    (acc = [] ∨ b = true) → ∃ ws, objectLoop ex k acc b (joinComma ts ++ '}' :: rest) =
      .ok (.object (acc ++ ws)) rest ∧ SameEntries stk vs ws := by
  induction h with
  | nil =>
    intro k acc b rest hk _ _
    obtain ⟨k, rfl⟩ : ∃ j, k = j + 1 := ⟨k - 1, by omega⟩
    refine ⟨[], ?_, .nil⟩
    rw [joinComma, List.nil_append, objectLoop_end, List.append_nil]
  | @cons key t v ts vs ht hr hrs ih =>
    intro k acc b rest hk hnd hb
    simp only [List.length_cons] at hk
    simp only [List.map_cons, List.mem_cons, not_or] at hne
    obtain ⟨hkey, hne⟩ := hne
    have hnew : key ∉ acc.map (·.1) := by
      intro hc
      rw [List.map_cons, List.nodup_append] at hnd
      exact hnd.2.2 _ hc _ List.mem_cons_self rfl
    obtain ⟨k, rfl⟩ : ∃ j, k = j + 2 := ⟨k - 2, by omega⟩
    cases hts : ts with
    | nil =>
      subst hts
      cases hrs
      obtain ⟨w, hw, hs⟩ := hr ('}' :: rest) (.cons _ (by decide))
      refine ⟨[(key, w)], ?_, .cons hs .nil⟩
      rw [joinComma, List.append_assoc, objectLoop_step (Ne.symm hkey) ht hb hw, comma_no _ (by decide), objectLoop_end,
        insertKey_new hnew]
    | cons u us =>
      subst hts
      obtain ⟨w, hw, hs⟩ := hr (", ".toList ++ (joinComma (u :: us) ++ '}' :: rest)) (.cons _ (by decide))
      obtain ⟨ws, h1, h2⟩ := ih hne (k + 1) (acc ++ [(key, w)]) true rest
        (by simp only [List.length_cons] at hk ⊢; omega)
        (by simpa [List.map_append] using hnd) (.inr rfl)
      refine ⟨(key, w) :: ws, ?_, .cons hs h2⟩
      rw [joinComma, List.append_assoc, List.append_assoc, List.append_assoc,
        objectLoop_step (Ne.symm hkey) ht hb hw, comma_yes]
      · simp only
        rw [insertKey_new hnew, h1, List.append_assoc]; rfl
      · cases hrs with
        | cons hu _ _ =>
          simp only [List.map_cons, List.mem_cons, not_or] at hne
          obtain ⟨_, c, r, e, a1, a2, _⟩ := read_key (Ne.symm hne.1) []
          cases us <;> (rw [joinComma, e]; exact optW_id a1 a2)

/-! ### Links -/

theorem read_scalar {n x rest} (h : FiniteItem x) (hr : Delim rest) :
    ∃ v, expr (n + 1) (writeScalar true x ++ rest) = .ok v rest ∧ toScalar v = some x ∧ ∀ l, v ≠ .link l := by
  cases x with
  | bool b => exact ⟨_, read_bool n b rest, rfl, by intro l h; cases h⟩
  | f64 x => exact ⟨_, read_f64 h hr, rfl, by intro l h; cases h⟩
  | str s => exact ⟨_, read_string n s rest, rfl, by intro l h; cases h⟩

theorem head_scalar {x} (h : FiniteItem x) : Head (writeScalar true x) := by
  cases x with
  | bool b => cases b <;> exact ⟨_, _, rfl, by decide, .inl (by decide)⟩
  | f64 x => obtain ⟨c, r, h1, h2⟩ := head_f64 h; exact ⟨c, r, h1, headOk_number h2⟩
  | str s => obtain ⟨r, h⟩ := head_string s; exact ⟨_, r, h, by decide, .inr (by decide)⟩

theorem read_link {n l} (h : ∀ x ∈ l, FiniteItem x) : ∀ k acc rest, l.length < k →
    linkLoop (expr (n + 1)) k acc (' ' :: ((l.map fun x => writeScalar true x ++ [' ']).flatten ++ '}' :: rest)) =
      .ok (.link (acc ++ l)) rest := by
  induction l with
  | nil =>
    intro k acc rest hk
    obtain ⟨k, rfl⟩ : ∃ j, k = j + 1 := ⟨k - 1, by omega⟩
    rw [linkLoop, optW_space]
    simp only [List.map_nil, List.flatten_nil, List.nil_append]
    rw [optW_punct _ (by decide), tag_some.2 (show '}' :: rest = "}".toList ++ rest from rfl)]
    simp
  | cons x l ih =>
    intro k acc rest hk
    simp only [List.length_cons] at hk
    obtain ⟨k, rfl⟩ : ∃ j, k = j + 1 := ⟨k - 1, by omega⟩
    have hx := h x List.mem_cons_self
    have hh := head_scalar hx
    rw [linkLoop, optW_space]
    simp only [List.map_cons, List.flatten_cons, List.append_assoc]
    rw [optW_app hh, show "}" = String.ofList ['}'] from rfl, hh.tag_none _ (by decide) (by decide)]
    simp only
    obtain ⟨v, h1, h2, h3⟩ := read_scalar (n := n) hx (.cons ((l.map fun x => writeScalar true x ++ [' ']).flatten ++ '}' :: rest) (show ' ' ∈ _ by decide))
    rw [show ([' '] ++ ((l.map fun x => writeScalar true x ++ [' ']).flatten ++ '}' :: rest)) =
      ' ' :: ((l.map fun x => writeScalar true x ++ [' ']).flatten ++ '}' :: rest) from rfl, h1]
    have := ih (fun y hy => h y (List.mem_cons_of_mem _ hy)) k (acc ++ [x]) rest (by omega)
    cases v with
    | link l => exact absurd rfl (h3 l)
    | _ => simp only [h2]; rw [this, List.append_assoc]; rfl

theorem read_link_literal {n l} (h : ∀ x ∈ l, FiniteItem x) (hn : l.length + 1 < n) (rest) :
    expr (n + 1) (writeLink true l ++ rest) = .ok (.link l) rest := by
  obtain ⟨n, rfl⟩ : ∃ j, n = j + 1 := ⟨n - 1, by omega⟩
  rw [writeLink, if_pos rfl]
  simp only [List.append_assoc]
  show expr (n + 2) ('l' :: ("ink".toList ++ (' ' :: '{' :: ' ' :: ((l.map fun x => writeScalar true x ++ [' ']).flatten ++ '}' :: rest)))) = _
  rw [expr, tag_ne (by decide) (by decide), tag_ne (by decide) (by decide), tag_ne (by decide) (by decide),
    tag_ne (by decide) (by decide), tag_some.2 (show 'l' :: ("ink".toList ++ (' ' :: '{' :: ' ' :: ((l.map fun x => writeScalar true x ++ [' ']).flatten ++ '}' :: rest))) =
      "link".toList ++ (' ' :: '{' :: ' ' :: ((l.map fun x => writeScalar true x ++ [' ']).flatten ++ '}' :: rest)) from rfl)]
  simp only [linkE]
  rw [optW_space, optW_head ⟨by decide, .inr (by decide)⟩,
    tag_some.2 (show '{' :: ' ' :: ((l.map fun x => writeScalar true x ++ [' ']).flatten ++ '}' :: rest) =
      "{".toList ++ (' ' :: ((l.map fun x => writeScalar true x ++ [' ']).flatten ++ '}' :: rest)) from rfl)]
  simp only
  have hl := read_link (n := n) h (n + 1) [] rest (by omega)
  rw [optW_space]
  obtain ⟨k, rfl⟩ : ∃ j, n = j + 0 := ⟨n, rfl⟩
  rw [linkLoop] at hl ⊢
  rw [optW_space] at hl
  rw [show optW (optW ((l.map fun x => writeScalar true x ++ [' ']).flatten ++ '}' :: rest)) =
    optW ((l.map fun x => writeScalar true x ++ [' ']).flatten ++ '}' :: rest) from ?_]
  · exact hl
  · cases l with
    | nil => simp only [List.map_nil, List.flatten_nil, List.nil_append]; rw [optW_punct _ (by decide), optW_punct _ (by decide)]
    | cons x l =>
      simp only [List.map_cons, List.flatten_cons, List.append_assoc]
      rw [optW_app (head_scalar (h x List.mem_cons_self)), optW_app (head_scalar (h x List.mem_cons_self))]

/-! ### Everything -/

/-- What the induction shows of a value. -/
def Good (stk : List Val) (v : Val) : Prop :=
  ∃ n t, (∀ n', n ≤ n' → writeV stk n' true v = some t) ∧ Head t ∧ Reads stk (expr n) t v
/-- ... of a list. -/
def GoodList (stk : List Val) (vs : List Val) : Prop :=
  ∃ n ts, (∀ n', n ≤ n' → writeList (writeV stk n' true) vs = some ts) ∧ ReadsList stk (expr n) ts vs
/-- ... of entries. -/
def GoodEntries (stk : List Val) (vs : List (String × Val)) : Prop :=
  ∃ n ts, (∀ n', n ≤ n' → writeEntries (writeV stk n' true) vs = some ts) ∧ ReadsEntries stk (expr n) ts vs

theorem same_reads {stk v w} (h : Same stk v w) : Good stk v := by
  refine Same.rec (motive_1 := fun v _ _ => Good stk v) (motive_2 := fun vs _ _ => GoodList stk vs)
    (motive_3 := fun vs _ _ => GoodEntries stk vs) ?_ ?_ ?_ ?_ ?_ ?_ ?_ ?_ ?_ ?_ ?_ ?_ ?_ ?_ h
  · intro b sec
    refine ⟨1, _, fun n' hn => ?_, ?_, fun rest _ => ⟨_, read_bool 0 _ rest, .bool⟩⟩
    · obtain ⟨k, rfl⟩ : ∃ j, n' = j + 1 := ⟨n' - 1, by omega⟩
      rfl
    · rename_i b sec
      cases b <;> exact ⟨_, _, rfl, by decide, .inl (by decide)⟩
  · intro x sec hf
    refine ⟨1, _, fun n' hn => ?_, ?_, fun rest hr => ⟨_, read_f64 hf hr, .num hf⟩⟩
    · obtain ⟨k, rfl⟩ : ∃ j, n' = j + 1 := ⟨n' - 1, by omega⟩
      rfl
    · exact head_scalar (x := .f64 _) hf
  · intro t0
    refine ⟨1, _, fun n' hn => ?_, ?_, fun rest _ => ⟨_, read_string 0 _ rest, .str⟩⟩
    · obtain ⟨k, rfl⟩ : ∃ j, n' = j + 1 := ⟨n' - 1, by omega⟩
      rfl
    · exact head_scalar (x := .str _) trivial
  · intro a b hf hs
    refine ⟨1, writeVec4 a, fun n' hn => ?_, ?_, fun rest _ => ?_⟩
    rotate_left 2
    · obtain ⟨b, h1, h2⟩ := read_vec4 0 rest hf
      exact ⟨_, h1, .vec hf h2⟩
    · obtain ⟨k, rfl⟩ : ∃ j, n' = j + 1 := ⟨n' - 1, by omega⟩
      rfl
    · exact ⟨_, _, rfl, by decide, .inr (by decide)⟩
  · refine ⟨1, _, fun n' hn => ?_, ?_, fun rest _ => ⟨_, read_none 0 rest, .none⟩⟩
    · obtain ⟨k, rfl⟩ : ∃ j, n' = j + 1 := ⟨n' - 1, by omega⟩
      rfl
    · exact ⟨_, _, rfl, by decide, .inl (by decide)⟩
  · intro v w h ih
    obtain ⟨n, t, h1, h2, h3⟩ := ih
    refine ⟨n + 1, "some(".toList ++ (t ++ [')']), fun n' hn => ?_, ?_, fun rest _ => ?_⟩
    · obtain ⟨k, rfl⟩ : ∃ j, n' = j + 1 := ⟨n' - 1, by omega⟩
      rw [writeV, h1 k (by omega)]; rfl
    · exact ⟨'s', _, rfl, by decide, .inl (by decide)⟩
    · obtain ⟨w, a1, a2⟩ := h3 (')' :: rest) (.cons _ (by decide))
      refine ⟨_, ?_, .some a2⟩
      rw [List.append_assoc, expr_some, someE, List.append_assoc, optW_app h2]
      show (match expr n (t ++ ')' :: rest) with | .err e => _ | .running => _ | .ok v r => _) = _
      rw [a1]
      simp only
      rw [optW_punct _ (by decide), tag_some.2 (show ')' :: rest = ")".toList ++ rest from rfl)]
  · intro vs ws h ih
    obtain ⟨n, ts, h1, h2⟩ := ih
    refine ⟨max n (ts.length + 1) + 1, '[' :: (joinComma ts ++ [']']), fun n' hn => ?_, ?_, fun rest _ => ?_⟩
    · obtain ⟨k, rfl⟩ : ∃ j, n' = j + 1 := ⟨n' - 1, by omega⟩
      rw [writeV, h1 k (by omega)]; rfl
    · exact ⟨'[', _, rfl, by decide, .inr (by decide)⟩
    · obtain ⟨ws, a1, a2⟩ := read_array (h2.mono (Nat.le_max_left n (ts.length + 1))) (max n (ts.length + 1))
        [] false rest (by omega) (.inl rfl)
      refine ⟨_, ?_, .array a2⟩
      rw [List.cons_append, expr, tag_ne (by decide) (by decide), tag_some.2 (show '[' :: (joinComma ts ++ [']'] ++ rest) =
        "[".toList ++ (joinComma ts ++ [']'] ++ rest) from rfl)]
      simp only
      rw [List.append_assoc]
      exact a1
  · intro vs ws h hnd hne ih
    obtain ⟨n, ts, h1, h2⟩ := ih
    refine ⟨max n (ts.length + 1) + 1, '{' :: (joinComma ts ++ ['}']), fun n' hn => ?_, ?_, fun rest _ => ?_⟩
    · obtain ⟨k, rfl⟩ : ∃ j, n' = j + 1 := ⟨n' - 1, by omega⟩
      rw [writeV, h1 k (by omega)]; rfl
    · exact ⟨'{', _, rfl, by decide, .inr (by decide)⟩
    · obtain ⟨ws, a1, a2⟩ := read_object (h2.mono (Nat.le_max_left n (ts.length + 1))) hne (max n (ts.length + 1))
        [] false rest (by omega) hnd (.inl rfl)
      refine ⟨_, ?_, .object a2 hnd hne⟩
      rw [List.cons_append, expr, tag_some.2 (show '{' :: (joinComma ts ++ ['}'] ++ rest) =
        "{".toList ++ (joinComma ts ++ ['}'] ++ rest) from rfl)]
      simp only
      rw [List.append_assoc]
      exact a1
  · intro l hl
    refine ⟨l.length + 3, _, fun n' hn => ?_, ?_, fun rest _ => ⟨_, read_link_literal hl (by omega) rest, .link hl⟩⟩
    · obtain ⟨k, rfl⟩ : ∃ j, n' = j + 1 := ⟨n' - 1, by omega⟩
      rfl
    · exact ⟨'l', _, rfl, by decide, .inl (by decide)⟩
  · intro i v w hi h ih
    obtain ⟨n, t, h1, h2, h3⟩ := ih
    refine ⟨n + 1, t, fun n' hn => ?_, h2, fun rest hr => ?_⟩
    · obtain ⟨k, rfl⟩ : ∃ j, n' = j + 1 := ⟨n' - 1, by omega⟩
      rw [writeV, hi]
      exact h1 k (by omega)
    · obtain ⟨w, a1, a2⟩ := h3.mono (Nat.le_succ n) rest hr
      exact ⟨w, a1, .ref hi a2⟩
  · exact ⟨0, [], fun _ _ => rfl, .nil⟩
  · intro v w vs ws h hs ih ihs
    obtain ⟨n, t, h1, h2, h3⟩ := ih
    obtain ⟨m, ts, g1, g2⟩ := ihs
    refine ⟨max n m, t :: ts, fun n' hn => ?_, .cons h2 (h3.mono (Nat.le_max_left _ _)) (g2.mono (Nat.le_max_right _ _))⟩
    rw [writeList, h1 n' (by omega), g1 n' (by omega)]
  · exact ⟨0, [], fun _ _ => rfl, .nil⟩
  · intro k v w vs ws h hs ih ihs
    obtain ⟨n, t, h1, h2, h3⟩ := ih
    obtain ⟨m, ts, g1, g2⟩ := ihs
    refine ⟨max n m, _ :: ts, fun n' hn => ?_, .cons h2 (h3.mono (Nat.le_max_left _ _)) (g2.mono (Nat.le_max_right _ _))⟩
    rw [writeEntries, h1 n' (by omega), g1 n' (by omega)]

/-- **C34.** Data that is written loads as the same data, whatever may follow a value in a
text, and reading stops at the end of it; the fuel is more than the length of the text. -/
theorem C34_round_trip_partial {stk : List Val} {v w : Val} (hv : Same stk v w) :
    ∃ n t, (∀ n', n ≤ n' → writeV stk n' true v = some t) ∧
      ∀ rest, Delim rest → ∀ m, (t ++ rest).length < m →
        ∃ u, loadData m (t ++ rest) = .ok u rest ∧ Same stk v u := by
  obtain ⟨n, t, h1, h2, h3⟩ := same_reads hv
  refine ⟨n, t, h1, fun rest hr m hm => ?_⟩
  obtain ⟨u, a1, a2⟩ := h3.mono (Nat.le_max_left n ((t ++ rest).length + 1)) rest hr
  refine ⟨u, ?_, a2⟩
  rw [C35_fuel (t ++ rest) m (max n ((t ++ rest).length + 1)) hm (by omega), loadData]
  rw [optW_app h2, a1]

theorem err_word {n} {c : Char} {s : List Char} (h : headOk c)
    (h1 : c ∉ ['{', '[', '(', '#', 'l', '"', '-', '+', '.', 'f', 't', 'n', 's']) (h2 : c.isDigit = false) :
    loadData (n + 1) (c :: s) = .err "Reached end of file" := by
  simp only [List.mem_cons, List.not_mem_nil, or_false, not_or] at h1
  rw [loadData, optW_head h, expr_scalar (by simp only [List.mem_cons, List.not_mem_nil, or_false, not_or]; tauto), scalarE,
    string_none (by tauto), numberTok_none (by simp only [h2, Bool.false_eq_true, false_or, not_or]; tauto)]
  simp only [wordE]
  rw [tag_ne (by simpa using Ne.symm (by tauto)) (by decide), tag_ne (by simpa using Ne.symm (by tauto)) (by decide),
    tag_ne (by simpa using Ne.symm (by tauto)) (by decide), tag_ne (by simpa using Ne.symm (by tauto)) (by decide)]

/-- Finding: a result does not load, whatever is in it. -/
theorem C34_result (stk : List Val) (n m : Nat) (v : Val) (tr : List String) (t : List Char)
    (h : writeV stk n true (.resOk v) = some t ∨ writeV stk n true (.resErr v tr) = some t) :
    loadData (m + 1) t = .err "Reached end of file" := by
  obtain ⟨n, rfl⟩ : ∃ j, n = j + 1 := by
    cases n with
    | zero => rcases h with h | h <;> cases h
    | succ n => exact ⟨n, rfl⟩
  rcases h with h | h
  all_goals
    rw [writeV, Option.map_eq_some_iff] at h
    obtain ⟨t, _, rfl⟩ := h
  · exact err_word (c := 'o') ⟨by decide, .inl (by decide)⟩ (by decide) (by decide)
  · exact err_word (c := 'e') ⟨by decide, .inl (by decide)⟩ (by decide) (by decide)

/-- Finding: a matrix does not load. -/
theorem C34_matrix (stk : List Val) (n m : Nat) (a : Mat4) (t : List Char)
    (h : writeV stk (n + 1) true (.mat4 a) = some t) : loadData (m + 1) t = .err "Reached end of file" := by
  cases h
  exact err_word (c := 'm') ⟨by decide, .inl (by decide)⟩ (by decide) (by decide)

/-- A part of a vector. -/
def Spec.comp (v : Vec4) : Fin 4 → F32
  | 0 => v.x
  | 1 => v.y
  | 2 => v.z
  | 3 => v.w

/-- The entry of a matrix in a row and a column. -/
def Spec.entry (a : Mat4) (row col : Fin 4) : F32 :=
  Spec.comp (match col with | 0 => a.c0 | 1 => a.c1 | 2 => a.c2 | 3 => a.c3) row

/-- The text of a matrix: `mat4 {..}` with the rows, which `; ` separates, of the entries, which `,`
separates. -/
def Spec.matText (a : Mat4) : List Char :=
  "mat4 {".toList ++ (List.intercalate "; ".toList ((List.finRange 4).map fun row =>
    List.intercalate [','] ((List.finRange 4).map fun col => Show.f32 (Spec.entry a row col))) ++ ['}'])

/-- **C34.** How a matrix is written. -/
theorem C34_matrix_text (stk : List Val) (n : Nat) (esc : Bool) (a : Mat4) :
    writeV stk (n + 1) esc (.mat4 a) = some (Spec.matText a) := by
  have h4 : List.finRange 4 = [0, 1, 2, 3] := by decide
  simp only [writeV, writeMat4, writeRow, Spec.matText, h4, List.map_cons, List.map_nil, Spec.entry, Spec.comp,
    List.intercalate, List.intersperse, List.flatten_cons, List.flatten_nil, List.append_assoc, List.nil_append,
    List.append_nil, List.cons_append]

/-- Finding: an object with an empty key does not load. -/
theorem C34_empty_key (stk : List Val) (n m : Nat) (v : Val) (kvs : List (String × Val)) (t : List Char)
    (h : writeV stk (n + 1) true (.object (("", v) :: kvs)) = some t) :
    loadData (m + 2) t = .err "Expected key" := by
  rw [writeV, Option.map_eq_some_iff] at h
  obtain ⟨ts, h1, rfl⟩ := h
  have hk : writeKey "" = ": ".toList := by rw [writeKey, if_pos (by rfl)]; rfl
  have : ∃ r, joinComma ts = ':' :: r := by
    rw [writeEntries] at h1
    split at h1
    · cases h1
      rename_i us _ _
      rw [hk]
      cases us <;> exact ⟨_, rfl⟩
    · cases h1
  obtain ⟨r, hr⟩ := this
  rw [hr, loadData, optW_head ⟨by decide, .inr (by decide)⟩, expr,
    tag_some.2 (show '{' :: (':' :: r ++ ['}']) = "{".toList ++ (':' :: r ++ ['}']) from rfl)]
  simp only
  rw [objectLoop, List.cons_append, optW_punct _ (by decide), tag_ne (by decide) (by decide)]
  simp only [List.isEmpty_nil, Bool.not_true, Bool.false_and, Bool.false_eq_true, if_false]
  rw [readKey, string_none (by decide)]
  have : rawWord (':' :: (r ++ ['}'])) = [] := by rw [rawWord, List.takeWhile_cons]; simp [seps]
  simp only [this, List.length_nil, if_true]

end

/-! ## Examples -/

section
open Demo

theorem demo_string_head (s n) (h : Demo.string s = some n) : s.head? = some '"' := by
  unfold Demo.string at h
  split at h
  · rfl
  · cases h

theorem demo_bits_cons {w} (x : BitVec (w + 1)) : ∃ c r, bits x = c :: r ∧ (c = '0' ∨ c = '1') ∧ r.length = w := by
  refine ⟨_, _, List.ofFn_succ, ?_, by simp⟩
  split <;> simp

/-- `LawfulText` has an instance. -/
theorem Demo.lawful : @LawfulText Demo.lex Demo.text Demo.ops :=
  letI := Demo.ops
  { string_head := demo_string_head
    number_head := by
      intro s n h
      change Demo.number s = some n at h
      unfold Demo.number at h
      split at h
      · exact ⟨_, _, rfl, .inr (.inl rfl)⟩
      · exact ⟨_, _, rfl, .inl (by decide)⟩
      · exact ⟨_, _, rfl, .inl (by decide)⟩
      · cases h
    string_show := by
      intro s rest
      show (scan (escape s.toList ++ rest)).map (· + 1) = _
      rw [scan_escape]; rfl
    parse_string := Demo.parse_string
    number_f64 := by
      intro x rest _ _
      show Demo.number (bits x ++ rest) = some (bits x).length
      rw [bits_length]
      obtain ⟨c, r, h1, h2, h3⟩ := demo_bits_cons (w := 63) x
      rw [h1, List.cons_append]
      rcases h2 with rfl | rfl
      · show (if 63 ≤ (r ++ rest).length then _ else _) = _
        rw [if_pos (by rw [List.length_append]; omega)]
      · show (if 63 ≤ (r ++ rest).length then _ else _) = _
        rw [if_pos (by rw [List.length_append]; omega)]
    parse_f64 := fun x _ => Demo.parse_f64 x
    number_f32 := by
      intro x rest _ _
      show (if 32 ≤ (bits x ++ rest).length then some 33 else none) = some (('-' :: bits x).length)
      rw [if_pos (by rw [List.length_append, bits_length]; omega), List.length_cons, bits_length]
    parse_f32 := by
      intro x _
      refine ⟨_, Demo.parse_f32 x, ?_⟩
      show (x.setWidth 64).setWidth 32 = x
      simp
    zero32 := by
      show F32.feq (BitVec.setWidth 32 F64.zero) F32.zero = true
      decide }

/-- The hypothesis of `C34_round_trip_partial`: an object with a key that needs quotes, an array with a
reference, an option, a link and a vector. -/
example : Same [.str "x"] (.object [("a b", .array [.ref 0, .option (some (.bool true none))]),
    ("l", .link [.f64 F64.zero, .str "s", .bool false]), ("v", .vec4 ⟨0, 0, 0x80000000#32, 0⟩)])
    (.object [("a b", .array [.str "x", .option (some (.bool true none))]),
    ("l", .link [.f64 F64.zero, .str "s", .bool false]), ("v", .vec4 ⟨0, 0, 0, 0⟩)]) := by
  refine .object (.cons (.array (.cons (.ref rfl .str) (.cons (.some .bool) .nil))) (.cons (.link ?_)
    (.cons (.vec ?_ ?_) .nil))) (by decide) (by decide)
  · intro x hx
    simp only [List.mem_cons, List.not_mem_nil, or_false] at hx
    rcases hx with rfl | rfl | rfl <;> first | trivial | decide
  · unfold FiniteVec; decide
  · exact ⟨rfl, rfl, .inr (by decide), .inl rfl⟩

/-- The hypothesis of `C36_top_level_partial` and `C36_not_in_array`. -/
example : Lex.rgba (rawWord "ff0000] ".toList) = some (255, 0, 0, none) := by
  have : rawWord "ff0000] ".toList = "ff0000".toList := by decide
  rw [this]
  exact if_pos rfl

end

end Dyon.Data
