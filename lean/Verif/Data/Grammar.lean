import Verif.Data.RoundTrip
import Mathlib.Data.List.Induction

/-!
# C67: what the text of data means

The grammar is given as relations between a text, what its start means and the rest of the text.
-/

namespace Dyon.Data

/-! ## Specification -/

namespace Spec
variable [Lex] [FloatOps]

/-- A separator: white space and comments, maybe with a comma. -/
inductive Sep : Bool → List Char → List Char → Prop
  | yes {s t u} : Skips s (',' :: t) → Skips t u → Sep true s u
  | no {s t} : Skips s t → (∀ r, t ≠ ',' :: r) → Sep false s t

/-- A number token. -/
inductive Num : List Char → F64 → List Char → Prop
  | mk {s n x} : Lex.number s = some n → Lex.parseNumber (s.take n) = .ok x → Num s x (s.drop n)

/-- A string token. -/
inductive Str : List Char → String → List Char → Prop
  | mk {s n t} : Lex.string s = some n → Lex.parseString (s.take n) = .ok t → Str s t (s.drop n)

/-- A character that ends a word. -/
def Ends (c : Char) : Prop := c ∈ seps ∨ Lex.isWs c = true

/-- A word goes up to the first character that ends it. -/
inductive Word : List Char → List Char → List Char → Prop
  | mk {w r} : (∀ c ∈ w, ¬ Ends c) → (∀ c ∈ r.head?, Ends c) → Word (w ++ r) w r

/-- The key of an entry of an object: in quotes or not. -/
inductive Key : List Char → String → List Char → Prop
  | quoted {s k r} : Str s k r → Key s k r
  | bare {s w r} : s.head? ≠ some '"' → Word s w r → w ≠ [] → Key s (String.ofList w) r

/-- The vector with some components. -/
def vec (x y z w : F64) : Val :=
  .vec4 ⟨FloatOps.toF32 x, FloatOps.toF32 y, FloatOps.toF32 z, FloatOps.toF32 w⟩

/-- A vector, after `(`: two, three or four components. The comma is needed between the second and
the third only, and may be there after the second and the third. -/
inductive Vec : List Char → Val → List Char → Prop
  | two {s0 s1 s2 s3 r x y} {b : Bool} : Num s0 x s1 → Sep b s1 s2 → Num s2 y s3 → Skips s3 (')' :: r) →
      Vec s0 (vec x y F64.zero F64.zero) r
  | twoComma {s0 s1 s2 s3 r x y} {b : Bool} : Num s0 x s1 → Sep b s1 s2 → Num s2 y s3 →
      Sep true s3 (')' :: r) → Vec s0 (vec x y F64.zero F64.zero) r
  | three {s0 s1 s2 s3 s4 s5 r x y z} {b c : Bool} : Num s0 x s1 → Sep b s1 s2 → Num s2 y s3 →
      Sep true s3 s4 → Num s4 z s5 → Sep c s5 (')' :: r) → Vec s0 (vec x y z F64.zero) r
  | four {s0 s1 s2 s3 s4 s5 s6 s7 r x y z w} {b c : Bool} : Num s0 x s1 → Sep b s1 s2 → Num s2 y s3 →
      Sep true s3 s4 → Num s4 z s5 → Sep c s5 s6 → Num s6 w s7 → Skips s7 (')' :: r) → Vec s0 (vec x y z w) r

/-- What a value adds to a link. -/
inductive Item : Val → List Link.Scalar → Prop
  | bool {b sec} : Item (.bool b sec) [.bool b]
  | f64 {x sec} : Item (.f64 x sec) [.f64 x]
  | str {s} : Item (.str s) [.str s]
  | link {l} : Item (.link l) l

/-- The object with some entries: a later entry replaces an earlier one with the same key. -/
def asObject (kvs : List (String × Val)) : List (String × Val) :=
  kvs.foldl (fun o kv => insertKey kv.1 kv.2 o) []

mutual
/-- The text of a value. (The text of a colour is not skipped: C36.) -/
inductive Datum : List Char → Val → List Char → Prop
  | object {s kvs r} : Entries true s kvs r → Datum ('{' :: s) (.object (asObject kvs)) r
  | array {s vs r} : Items true s vs r → Datum ('[' :: s) (.array vs) r
  | vec {s v r} : Vec s v r → Datum ('(' :: s) v r
  | color {s w t r g b a} : Word s w t → Lex.rgba w = some (r, g, b, a) →
      Datum ('#' :: s) (.vec4 ⟨Lex.channel r, Lex.channel g, Lex.channel b, Lex.channel (a.getD 255)⟩) s
  | link {s t l r} : Skips s ('{' :: t) → Scalars t l r → Datum ("link".toList ++ s) (.link l) r
  | str {s t r} : Str s t r → Datum s (.str t) r
  | num {s x r} : Num s x r → Datum s (.f64 x none) r
  | false {r} : Datum ("false".toList ++ r) (.bool false none) r
  | true {r} : Datum ("true".toList ++ r) (.bool true none) r
  | none {r} : Datum ("none()".toList ++ r) (.option none) r
  | some {s t u v r} : Skips s t → Datum t v u → Skips u (')' :: r) →
      Datum ("some(".toList ++ s) (.option (some v)) r
/-- The entries of an object up to `}`; an entry needs to be the first or after a comma. -/
inductive Entries : Bool → List Char → List (String × Val) → List Char → Prop
  | close {ok s r} : Skips s ('}' :: r) → Entries ok s [] r
  | entry {s s1 s2 s3 s4 s5 s6 k v b kvs r} : Skips s s1 → (∀ r, s1 ≠ '}' :: r) → Key s1 k s2 →
      Skips s2 (':' :: s3) → Skips s3 s4 → Datum s4 v s5 → Sep b s5 s6 → Entries b s6 kvs r →
      Entries true s ((k, v) :: kvs) r
/-- The items of an array up to `]`. -/
inductive Items : Bool → List Char → List Val → List Char → Prop
  | close {ok s r} : Skips s (']' :: r) → Items ok s [] r
  | item {s s1 s2 s3 v b vs r} : Skips s s1 → (∀ r, s1 ≠ ']' :: r) → Datum s1 v s2 → Sep b s2 s3 →
      Items b s3 vs r → Items true s (v :: vs) r
/-- The items of a link up to `}`. -/
inductive Scalars : List Char → List Link.Scalar → List Char → Prop
  | close {s r} : Skips s ('}' :: r) → Scalars s [] r
  | item {s s1 s2 v l1 l2 r} : Skips s s1 → (∀ r, s1 ≠ '}' :: r) → Datum s1 v s2 → Item v l1 →
      Scalars s2 l2 r → Scalars s (l1 ++ l2) r
end

end Spec

open Spec (Sep Num Str Word Key Vec Item Datum Entries Items Scalars asObject)

section
variable [Lex]

theorem optW_iff {s t : List Char} : optW s = t ↔ Skips s t :=
  ⟨fun h => h ▸ C35_opt_w s, fun h => C35_skips_unique (C35_opt_w s) h⟩

theorem Skips.twice {s t : List Char} (h : Skips s t) : Skips t t := by
  induction h with
  | ws _ _ ih => exact ih
  | line _ _ _ ih => exact ih
  | block _ ih => exact ih
  | done h1 h2 h3 => exact .done h1 h2 h3

theorem comma_iff {s t : List Char} {b : Bool} : comma s = (b, t) ↔ Sep b s t := by
  rw [comma]
  constructor
  · intro h
    cases ht : tag "," (optW s) with
    | some r =>
      rw [ht] at h
      cases h
      exact .yes (optW_iff.1 (tag_some.1 ht)) (C35_opt_w r)
    | none =>
      rw [ht] at h
      cases h
      rw [optW_iff.2 (C35_opt_w s).twice]
      exact .no (C35_opt_w s) (tag_none.1 ht)
  · intro h
    cases h with
    | yes h1 h2 =>
      rename_i t0
      rw [optW_iff.2 h1, show tag "," (',' :: t0) = some t0 from tag_some.2 rfl]
      simp only [optW_iff.2 h2]
    | no h1 h2 =>
      rw [optW_iff.2 h1, tag_none.2 h2]
      simp only [optW_iff.2 h1.twice]

theorem numberTok_iff {s r : List Char} {x : F64} : numberTok s = some (.ok x r) ↔ Num s x r := by
  rw [numberTok]
  constructor
  · intro h
    cases hn : Lex.number s with
    | none => rw [hn] at h; cases h
    | some n =>
      rw [hn] at h
      cases hp : Lex.parseNumber (s.take n) with
      | error e => simp only [hp] at h; cases h
      | ok y => simp only [hp] at h; cases h; exact .mk hn hp
  · rintro ⟨hn, hp⟩
    simp only [hn, hp]

theorem ends_iff (c : Char) : (!seps.contains c && !Lex.isWs c) = true ↔ ¬ Spec.Ends c := by
  simp [Spec.Ends, not_or]

theorem rawWord_spec : ∀ s : List Char, ∃ r, s = rawWord s ++ r ∧ (∀ c ∈ rawWord s, ¬ Spec.Ends c) ∧ ∀ c ∈ r.head?, Spec.Ends c
  | [] => ⟨[], rfl, by simp [rawWord], by simp⟩
  | c :: s => by
    by_cases h : (!seps.contains c && !Lex.isWs c) = true
    · obtain ⟨r, h1, h2, h3⟩ := rawWord_spec s
      have hc : rawWord (c :: s) = c :: rawWord s := by simp only [rawWord, List.takeWhile_cons, h, if_true]
      rw [hc]
      refine ⟨r, by rw [List.cons_append, ← h1], fun d hd => ?_, h3⟩
      rcases List.mem_cons.1 hd with rfl | hd
      · exact (ends_iff d).1 h
      · exact h2 d hd
    · have hc : rawWord (c :: s) = [] := by simp only [rawWord, List.takeWhile_cons, h]; rfl
      rw [hc]
      refine ⟨c :: s, rfl, by simp, fun d hd => ?_⟩
      cases hd
      by_contra hne
      exact h ((ends_iff c).2 hne)

theorem rawWord_iff {s w r : List Char} : (rawWord s = w ∧ s.drop (rawWord s).length = r) ↔ Word s w r := by
  constructor
  · rintro ⟨rfl, rfl⟩
    obtain ⟨r, h1, h2, h3⟩ := rawWord_spec s
    have : s.drop (rawWord s).length = r := by
      generalize rawWord s = w at h1
      rw [h1, List.drop_left]
    rw [this]
    generalize hw : rawWord s = w at h1 h2
    subst h1
    exact .mk h2 h3
  · rintro ⟨hw, hr⟩
    have : rawWord (w ++ r) = w := by
      rw [rawWord, List.takeWhile_append_of_pos (fun c hc => (ends_iff c).2 (hw c hc))]
      cases r with
      | nil => simp
      | cons c r =>
        have : ¬ (!seps.contains c && !Lex.isWs c) = true := fun h => (ends_iff c).1 h (hr c rfl)
        simp only [List.takeWhile_cons, this]
        simp
    rw [this]
    exact ⟨rfl, List.drop_left⟩

end

section
variable [Lex] [Show] [FloatOps] [LawfulText]

theorem str_head {s : List Char} {t r} (h : Str s t r) : s.head? = some '"' := by
  cases h with
  | mk h1 _ => exact LawfulText.string_head _ _ h1

theorem num_head {s : List Char} {x r} (h : Num s x r) :
    ∃ c r, s = c :: r ∧ (c.isDigit = true ∨ c = '-' ∨ c = '+' ∨ c = '.') := by
  cases h with
  | mk h1 _ => exact LawfulText.number_head _ _ h1

theorem readKey_iff {s r : List Char} {k : String} : readKey s = .ok k r ↔ Key s k r := by
  rw [readKey]
  constructor
  · intro h
    cases hs : Lex.string s with
    | some n =>
      rw [hs] at h
      cases hp : Lex.parseString (s.take n) with
      | ok t => simp only [hp] at h; cases h; exact .quoted (.mk hs hp)
      | error e => simp only [hp] at h; cases h
    | none =>
      rw [hs] at h
      simp only at h
      split at h
      · cases h
      · rename_i hl
        cases h
        refine .bare (fun hq => ?_) (rawWord_iff.1 ⟨rfl, rfl⟩) (fun h0 => hl (by rw [h0]; rfl))
        cases s with
        | nil => cases hq
        | cons c s =>
          cases hq
          apply hl
          simp [rawWord, seps]
  · intro h
    cases h with
    | quoted h =>
      cases h with
      | mk h1 h2 => simp only [h1, h2]
    | bare hq hw hne =>
      rename_i w
      have hn : Lex.string s = none := by
        cases hs : Lex.string s with
        | none => rfl
        | some n => exact absurd (LawfulText.string_head _ _ hs) hq
      obtain ⟨h1, h2⟩ := rawWord_iff.2 hw
      rw [h1] at h2
      simp only [hn, h1, h2]
      rw [if_neg (by simpa using hne)]

omit [Show] [LawfulText] in
theorem vec4End_iff {x y z w : F64} {s r : List Char} {v : Val} :
    vec4End x y z w s = .ok v r ↔ v = Spec.vec x y z w ∧ Skips s (')' :: r) := by
  rw [vec4End]
  constructor
  · intro h
    cases ht : tag ")" (optW s) with
    | some r => rw [ht] at h; cases h; exact ⟨rfl, optW_iff.1 (tag_some.1 ht)⟩
    | none => rw [ht] at h; cases h
  · rintro ⟨rfl, h⟩
    rw [optW_iff.2 h, show tag ")" (')' :: r) = some r from tag_some.2 rfl]
    rfl

theorem num_paren {r x s} : ¬ Num (')' :: r) x s := fun h => by
  obtain ⟨c, t, h1, h2⟩ := num_head h
  cases h1
  revert h2; decide

theorem numberTok_paren (r : List Char) : numberTok (')' :: r) = none := by
  cases h : Lex.number (')' :: r) with
  | none => simp only [numberTok, h]
  | some n =>
    obtain ⟨c, t, h1, h2⟩ := LawfulText.number_head _ _ h
    cases h1
    exact absurd h2 (by decide)

theorem vec4_iff {s r : List Char} {v : Val} : vec4E s = .ok v r ↔ Vec s v r := by
  constructor
  · intro h
    rw [vec4E] at h
    split at h
    · cases h
    · cases h
    · cases h
    · rename_i x s1 hx
      obtain ⟨b, hb⟩ : ∃ b, comma s1 = (b, (comma s1).2) := ⟨_, rfl⟩
      split at h
      · cases h
      · cases h
      · cases h
      · rename_i y s3 hy
        have h1 := numberTok_iff.1 hx
        have h2 := comma_iff.1 hb
        have h3 := numberTok_iff.1 hy
        rw [vec4Rest] at h
        split at h
        · rename_i s4 hc
          obtain ⟨rfl, h4⟩ := vec4End_iff.1 h
          cases comma_iff.1 hc with
          | no a1 a2 => exact .two h1 h2 h3 (C35_skips_unique a1.twice h4 ▸ a1)
        · rename_i s4 hc
          have h4 := comma_iff.1 hc
          split at h
          · obtain ⟨rfl, h5⟩ := vec4End_iff.1 h
            refine .twoComma h1 h2 h3 ?_
            cases h4 with
            | yes a1 a2 => exact .yes a1 (C35_skips_unique a2.twice h5 ▸ a2)
          · rename_i z s5 hz
            have h5 := numberTok_iff.1 hz
            obtain ⟨c, hc'⟩ : ∃ c, comma s5 = (c, (comma s5).2) := ⟨_, rfl⟩
            have h6 := comma_iff.1 hc'
            split at h
            · obtain ⟨rfl, h7⟩ := vec4End_iff.1 h
              refine .three (c := c) h1 h2 h3 h4 h5 ?_
              cases h6 with
              | yes a1 a2 => exact .yes a1 (C35_skips_unique a2.twice h7 ▸ a2)
              | no a1 a2 =>
                have := C35_skips_unique a1.twice h7
                rw [this] at a1 a2
                exact .no a1 a2
            · rename_i w s7 hw
              obtain ⟨rfl, h7⟩ := vec4End_iff.1 h
              exact .four h1 h2 h3 h4 h5 h6 (numberTok_iff.1 hw) h7
            · cases h
            · cases h
          · cases h
          · cases h
  · intro h
    have sk : ∀ {b s r}, Sep b s (')' :: r) → Skips (')' :: r) (')' :: r) := by
      intro b s r h
      cases h with
      | yes _ h => exact h.twice
      | no h _ => exact h.twice
    cases h with
    | two h1 h2 h3 h4 =>
      have h5 := comma_iff.2 (Sep.no h4 (by simp))
      simp only [vec4E, numberTok_iff.2 h1, comma_iff.2 h2, numberTok_iff.2 h3, vec4Rest, h5]
      exact vec4End_iff.2 ⟨rfl, h4.twice⟩
    | twoComma h1 h2 h3 h4 =>
      simp only [vec4E, numberTok_iff.2 h1, comma_iff.2 h2, numberTok_iff.2 h3, vec4Rest, comma_iff.2 h4,
        numberTok_paren]
      exact vec4End_iff.2 ⟨rfl, sk h4⟩
    | three h1 h2 h3 h4 h5 h6 =>
      simp only [vec4E, numberTok_iff.2 h1, comma_iff.2 h2, numberTok_iff.2 h3, vec4Rest, comma_iff.2 h4,
        numberTok_iff.2 h5, comma_iff.2 h6, numberTok_paren]
      exact vec4End_iff.2 ⟨rfl, sk h6⟩
    | four h1 h2 h3 h4 h5 h6 h7 h8 =>
      simp only [vec4E, numberTok_iff.2 h1, comma_iff.2 h2, numberTok_iff.2 h3, vec4Rest, comma_iff.2 h4,
        numberTok_iff.2 h5, comma_iff.2 h6, numberTok_iff.2 h7]
      exact vec4End_iff.2 ⟨rfl, h8⟩

omit [Show] [LawfulText] [FloatOps] [Lex] in
theorem toScalar_iff {v : Val} {x : Link.Scalar} (h : toScalar v = some x) : Item v [x] := by
  cases v <;> simp only [toScalar] at h <;> cases h <;> constructor

/-! ## What is read is in the grammar -/

theorem objectLoop_datum {ex : List Char → Res Val} (hx : ∀ s v r, ex s = .ok v r → Datum s v r) :
    ∀ k acc b s v r, objectLoop ex k acc b s = .ok v r →
      ∃ kvs, Entries (acc.isEmpty || b) s kvs r ∧ v = .object (kvs.foldl (fun o kv => insertKey kv.1 kv.2 o) acc)
  | 0, _, _, _, _, _, h => by cases h
  | k + 1, acc, b, s, v, r, h => by
    rw [objectLoop] at h
    split at h
    · rename_i r' ht
      cases h
      exact ⟨[], .close (optW_iff.1 (tag_some.1 ht)), rfl⟩
    · rename_i ht
      split at h
      · cases h
      · rename_i hb
        have hb : (acc.isEmpty || b) = true := by
          cases h1 : acc.isEmpty <;> cases b <;> simp_all
        split at h
        · cases h
        · cases h
        · rename_i key s2 hkey
          split at h
          · cases h
          · rename_i s3 hc
            split at h
            · cases h
            · cases h
            · rename_i v' s5 hv
              obtain ⟨c, hc'⟩ : ∃ c, comma s5 = (c, (comma s5).2) := ⟨_, rfl⟩
              rw [hc'] at h
              obtain ⟨kvs, h1, h2⟩ := objectLoop_datum hx k _ _ _ _ _ h
              refine ⟨(key, v') :: kvs, ?_, h2⟩
              rw [hb]
              refine .entry (C35_opt_w s) (tag_none.1 ht) (readKey_iff.1 hkey) (optW_iff.1 (tag_some.1 hc))
                (C35_opt_w _) (hx _ _ _ hv) (comma_iff.1 hc') ?_
              have : (insertKey key v' acc).isEmpty = false := by
                simp only [insertKey]
                split
                · rename_i ha
                  cases acc with
                  | nil => cases ha
                  | cons a as => rfl
                · cases acc <;> rfl
              rw [this] at h1
              exact h1

theorem arrayLoop_datum {ex : List Char → Res Val} (hx : ∀ s v r, ex s = .ok v r → Datum s v r) :
    ∀ k acc b s v r, arrayLoop ex k acc b s = .ok v r →
      ∃ vs, Items (acc.isEmpty || b) s vs r ∧ v = .array (acc ++ vs)
  | 0, _, _, _, _, _, h => by cases h
  | k + 1, acc, b, s, v, r, h => by
    rw [arrayLoop] at h
    split at h
    · rename_i r' ht
      cases h
      exact ⟨[], .close (optW_iff.1 (tag_some.1 ht)), by rw [List.append_nil]⟩
    · rename_i ht
      split at h
      · cases h
      · rename_i hb
        have hb : (acc.isEmpty || b) = true := by
          cases h1 : acc.isEmpty <;> cases b <;> simp_all
        split at h
        · cases h
        · cases h
        · rename_i v' s5 hv
          obtain ⟨c, hc'⟩ : ∃ c, comma s5 = (c, (comma s5).2) := ⟨_, rfl⟩
          rw [hc'] at h
          obtain ⟨vs, h1, h2⟩ := arrayLoop_datum hx k _ _ _ _ _ h
          refine ⟨v' :: vs, ?_, by rw [h2, List.append_assoc]; rfl⟩
          rw [hb]
          refine .item (C35_opt_w s) (tag_none.1 ht) (hx _ _ _ hv) (comma_iff.1 hc') ?_
          have : (acc ++ [v']).isEmpty = false := by cases acc <;> rfl
          rw [this] at h1
          exact h1

theorem linkLoop_datum {ex : List Char → Res Val} (hx : ∀ s v r, ex s = .ok v r → Datum s v r) :
    ∀ k acc s v r, linkLoop ex k acc s = .ok v r → ∃ l, Scalars s l r ∧ v = .link (acc ++ l)
  | 0, _, _, _, _, h => by cases h
  | k + 1, acc, s, v, r, h => by
    rw [linkLoop] at h
    split at h
    · rename_i r' ht
      cases h
      exact ⟨[], .close (optW_iff.1 (tag_some.1 ht)), by rw [List.append_nil]⟩
    · rename_i ht
      split at h
      · cases h
      · cases h
      · rename_i l s5 hv
        obtain ⟨vs, h1, h2⟩ := linkLoop_datum hx k _ _ _ _ h
        exact ⟨l ++ vs, .item (C35_opt_w s) (tag_none.1 ht) (hx _ _ _ hv) .link h1,
          by rw [h2, List.append_assoc]⟩
      · rename_i v' s5 _ hv
        split at h
        · cases h
        · rename_i x hsc
          obtain ⟨vs, h1, h2⟩ := linkLoop_datum hx k _ _ _ _ h
          exact ⟨[x] ++ vs, .item (C35_opt_w s) (tag_none.1 ht) (hx _ _ _ hv) (toScalar_iff hsc) h1,
            by rw [h2, List.append_assoc]⟩

theorem expr_datum : ∀ n s v r, expr n s = .ok v r → Datum s v r
  | 0, _, _, _, h => by cases h
  | n + 1, s, v, r, h => by
    have ih := expr_datum n
    rw [expr] at h
    split at h
    · rename_i t ht
      obtain ⟨kvs, h1, rfl⟩ := objectLoop_datum ih _ _ _ _ _ _ h
      rw [tag_some.1 ht]
      exact .object h1
    split at h
    · rename_i t ht
      obtain ⟨kvs, h1, rfl⟩ := arrayLoop_datum ih _ _ _ _ _ _ h
      rw [tag_some.1 ht]
      exact .array h1
    split at h
    · rename_i t ht
      rw [tag_some.1 ht]
      exact .vec (vec4_iff.1 h)
    split at h
    · rename_i t ht
      rw [tag_some.1 ht]
      rw [colorE] at h
      split at h
      · rename_i hc
        cases h
        exact .color (rawWord_iff.1 ⟨rfl, rfl⟩) hc
      · cases h
    split at h
    · rename_i t ht
      rw [tag_some.1 ht]
      rw [linkE] at h
      split at h
      · cases h
      · rename_i u hu
        obtain ⟨l, h1, rfl⟩ := linkLoop_datum ih _ _ _ _ _ h
        refine .link (optW_iff.1 (tag_some.1 hu)) ?_
        show Scalars u l r
        have sk : ∀ {w}, Skips (optW u) w → Skips u w := by
          intro w hw
          have := C35_skips_unique (C35_opt_w u).twice hw
          rw [← this]; exact C35_opt_w u
        cases h1 with
        | close a => exact .close (sk a)
        | item a1 a2 a3 a4 a5 => exact .item (sk a1) a2 a3 a4 a5
    rw [scalarE] at h
    split at h
    · rename_i k hk
      split at h
      · rename_i t hp
        cases h
        exact .str (.mk hk hp)
      · cases h
    split at h
    · rename_i x r' hx
      cases h
      exact .num (numberTok_iff.1 hx)
    · cases h
    · cases h
    rw [wordE] at h
    split at h
    · rename_i t ht
      rw [tag_some.1 ht]; cases h; exact .false
    split at h
    · rename_i t ht
      rw [tag_some.1 ht]; cases h; exact .true
    split at h
    · rename_i t ht
      rw [tag_some.1 ht]; cases h; exact .none
    split at h
    · rename_i t ht
      rw [tag_some.1 ht]
      rw [someE] at h
      split at h
      · cases h
      · cases h
      · rename_i v' r' hv
        split at h
        · rename_i u hu
          cases h
          exact .some (C35_opt_w t) (ih _ _ _ hv) (optW_iff.1 (tag_some.1 hu))
        · cases h
    · cases h

/-! ## What is in the grammar is read -/

theorem expr_mono {n m s v r} (h : expr n s = .ok v r) (hnm : n ≤ m) : expr m s = .ok v r := by
  rcases expr_le hnm s with he | he
  · rw [he] at h; cases h
  · rw [← he]; exact h

omit [Show] [FloatOps] [LawfulText] in
theorem insertKey_ne (k v acc) : (insertKey k v acc).isEmpty = false := by
  simp only [insertKey]
  split
  · rename_i ha
    cases acc with
    | nil => cases ha
    | cons a as => rfl
  · cases acc <;> rfl

theorem tag_self {t : String} {c : Char} (h : t.toList = [c]) (r : List Char) : tag t (c :: r) = some r :=
  tag_some.2 (by rw [h]; rfl)

theorem tag_not {t : String} {c : Char} {s : List Char} (h : t.toList = [c]) (hs : ∀ r, s ≠ c :: r) : tag t s = none :=
  tag_none.2 (by rw [h]; exact hs)

theorem fresh_tag {t : String} {c : Char} {s : List Char} (hc : s.head? = some c) (h : t.toList.head? ≠ some c)
    (h0 : t.toList ≠ []) : tag t s = none := by
  cases s with
  | nil => cases hc
  | cons d s => cases hc; exact tag_ne h h0

theorem datum_expr {s v r} (h : Datum s v r) : ∃ n, expr n s = .ok v r := by
  refine Datum.rec
    (motive_1 := fun s v r _ => ∃ n, expr n s = .ok v r)
    (motive_2 := fun ok s kvs r _ => ∃ n, ∀ m k, n ≤ m → n ≤ k → ∀ acc b, ok = (acc.isEmpty || b) →
      objectLoop (expr m) k acc b s = .ok (.object (kvs.foldl (fun o kv => insertKey kv.1 kv.2 o) acc)) r)
    (motive_3 := fun ok s vs r _ => ∃ n, ∀ m k, n ≤ m → n ≤ k → ∀ acc b, ok = (acc.isEmpty || b) →
      arrayLoop (expr m) k acc b s = .ok (.array (acc ++ vs)) r)
    (motive_4 := fun s l r _ => ∃ n, ∀ m k, n ≤ m → n ≤ k → ∀ acc,
      linkLoop (expr m) k acc s = .ok (.link (acc ++ l)) r)
    ?_ ?_ ?_ ?_ ?_ ?_ ?_ ?_ ?_ ?_ ?_ ?_ ?_ ?_ ?_ ?_ ?_ h
  · rintro s kvs r _ ⟨n, ih⟩
    refine ⟨n + 1, ?_⟩
    rw [expr, tag_self rfl]
    exact ih n n (Nat.le_refl _) (Nat.le_refl _) [] false rfl
  · rintro s vs r _ ⟨n, ih⟩
    refine ⟨n + 1, ?_⟩
    rw [expr, tag_ne (by decide) (by decide), tag_self rfl]
    exact ih n n (Nat.le_refl _) (Nat.le_refl _) [] false rfl
  · intro s v r hv
    refine ⟨1, ?_⟩
    rw [expr, tag_ne (by decide) (by decide), tag_ne (by decide) (by decide), tag_self rfl]
    exact vec4_iff.2 hv
  · intro s w t r g b a hw hc
    refine ⟨1, expr_color ?_⟩
    rw [(rawWord_iff.2 hw).1]
    exact hc
  · rintro s t l r hs _ ⟨n, ih⟩
    refine ⟨n + 1, ?_⟩
    have e : ∃ x, "link".toList ++ s = 'l' :: x := ⟨_, rfl⟩
    obtain ⟨x, hx⟩ := e
    rw [expr, tag_some.2 rfl, hx, tag_ne (by decide) (by decide), tag_ne (by decide) (by decide),
      tag_ne (by decide) (by decide), tag_ne (by decide) (by decide)]
    simp only [linkE]
    rw [optW_iff.2 hs, tag_self rfl]
    rw [← show _ = Res.ok (Val.link l) r from ih n n (Nat.le_refl _) (Nat.le_refl _) []]
    cases n with
    | zero => rfl
    | succ n => simp only [linkLoop, optW_iff.2 (C35_opt_w t).twice]
  · intro s t r hst
    have hh := str_head hst
    refine ⟨1, ?_⟩
    rw [expr, fresh_tag hh (by decide) (by decide), fresh_tag hh (by decide) (by decide),
      fresh_tag hh (by decide) (by decide), fresh_tag hh (by decide) (by decide),
      fresh_tag hh (by decide) (by decide)]
    cases hst with
    | mk h1 h2 => simp only [scalarE, h1, h2]
  · intro s x r hx
    obtain ⟨c, t, rfl, hc⟩ := num_head hx
    refine ⟨1, ?_⟩
    have hne : ∀ {d : Char}, (¬ (d.isDigit = true ∨ d = '-' ∨ d = '+' ∨ d = '.')) → c ≠ d := by
      rintro d hd rfl; exact hd hc
    rw [expr_scalar (by
      simp only [List.mem_cons, List.not_mem_nil, or_false, not_or]
      exact ⟨hne (by decide), hne (by decide), hne (by decide), hne (by decide), hne (by decide)⟩)]
    rw [scalarE, string_none (hne (by decide)), numberTok_iff.2 hx]
    rfl
  · intro r
    exact ⟨1, read_bool 0 false r⟩
  · intro r
    exact ⟨1, read_bool 0 true r⟩
  · intro r
    exact ⟨1, read_none 0 r⟩
  · rintro s t u v r hs _ hu ⟨n, ih⟩
    refine ⟨n + 1, ?_⟩
    rw [expr_some, someE, optW_iff.2 hs, ih]
    simp only
    rw [optW_iff.2 hu, tag_self rfl]
  · intro ok s r hs
    refine ⟨1, fun m k _ hk acc b _ => ?_⟩
    obtain ⟨k, rfl⟩ : ∃ j, k = j + 1 := ⟨k - 1, by omega⟩
    rw [objectLoop]
    simp only [optW_iff.2 hs]
    rw [tag_self rfl]
    rfl
  · rintro s s1 s2 s3 s4 s5 s6 k v b kvs r h1 h2 h3 h4 h5 _ h7 _ ⟨n, ih⟩ ⟨n', ih'⟩
    refine ⟨max n n' + 1, fun m k hm hk acc b' hb => ?_⟩
    obtain ⟨k, rfl⟩ : ∃ j, k = j + 1 := ⟨k - 1, by omega⟩
    rw [objectLoop]
    simp only [optW_iff.2 h1]
    rw [tag_not rfl h2]
    simp only
    rw [if_neg (by intro hn; revert hb hn; cases acc.isEmpty <;> cases b' <;> decide)]
    simp only [readKey_iff.2 h3, optW_iff.2 h4]
    rw [tag_self rfl]
    simp only [optW_iff.2 h5, expr_mono ih (show n ≤ m by omega), comma_iff.2 h7]
    exact ih' m k (by omega) (by omega) _ _ (by rw [insertKey_ne]; rfl)
  · intro ok s r hs
    refine ⟨1, fun m k _ hk acc b _ => ?_⟩
    obtain ⟨k, rfl⟩ : ∃ j, k = j + 1 := ⟨k - 1, by omega⟩
    rw [arrayLoop]
    simp only [optW_iff.2 hs]
    rw [tag_self rfl, List.append_nil]
  · rintro s s1 s2 s3 v b vs r h1 h2 _ h7 _ ⟨n, ih⟩ ⟨n', ih'⟩
    refine ⟨max n n' + 1, fun m k hm hk acc b' hb => ?_⟩
    obtain ⟨k, rfl⟩ : ∃ j, k = j + 1 := ⟨k - 1, by omega⟩
    rw [arrayLoop]
    simp only [optW_iff.2 h1]
    rw [tag_not rfl h2]
    simp only
    rw [if_neg (by intro hn; revert hb hn; cases acc.isEmpty <;> cases b' <;> decide)]
    simp only [expr_mono ih (show n ≤ m by omega), comma_iff.2 h7]
    rw [ih' m k (by omega) (by omega) (acc ++ [v]) b (by cases acc <;> rfl), List.append_assoc]
    rfl
  · intro s r hs
    refine ⟨1, fun m k _ hk acc => ?_⟩
    obtain ⟨k, rfl⟩ : ∃ j, k = j + 1 := ⟨k - 1, by omega⟩
    rw [linkLoop]
    simp only [optW_iff.2 hs]
    rw [tag_self rfl, List.append_nil]
  · rintro s s1 s2 v l1 l2 r h1 h2 _ hi _ ⟨n, ih⟩ ⟨n', ih'⟩
    refine ⟨max n n' + 1, fun m k hm hk acc => ?_⟩
    obtain ⟨k, rfl⟩ : ∃ j, k = j + 1 := ⟨k - 1, by omega⟩
    rw [linkLoop]
    simp only [optW_iff.2 h1]
    rw [tag_not rfl h2]
    simp only [expr_mono ih (show n ≤ m by omega)]
    have := ih' m k (by omega) (by omega)
    cases hi with
    | bool => simp only [toScalar]; rw [this, List.append_assoc]
    | f64 => simp only [toScalar]; rw [this, List.append_assoc]
    | str => simp only [toScalar]; rw [this, List.append_assoc]
    | link => simp only; rw [this, List.append_assoc]

/-- **C67.** A text loads as a value exactly if it is, after white space and comments, a text of
this value in the grammar; the fuel is more than the length of the text. -/
theorem C67_load_iff {text r : List Char} {v : Val} {n : Nat} (hn : text.length < n) :
    loadData n text = .ok v r ↔ ∃ s, Skips text s ∧ Datum s v r := by
  constructor
  · intro h
    exact ⟨_, C35_opt_w text, expr_datum _ _ _ _ h⟩
  · rintro ⟨s, h1, h2⟩
    obtain ⟨m, hm⟩ := datum_expr h2
    rw [C35_fuel text n (max m n) hn (by omega), loadData, optW_iff.2 h1]
    exact expr_mono hm (Nat.le_max_left _ _)

/-- **C67.** A text has one meaning. -/
theorem C67_unambiguous {s r r' : List Char} {v v' : Val} (h : Datum s v r) (h' : Datum s v' r') : v = v' ∧ r = r' := by
  obtain ⟨n, hn⟩ := datum_expr h
  obtain ⟨m, hm⟩ := datum_expr h'
  have h1 := expr_mono hn (Nat.le_max_left n m)
  have h2 := expr_mono hm (Nat.le_max_right n m)
  rw [h1] at h2
  cases h2
  exact ⟨rfl, rfl⟩

end

/-! ## Objects -/

theorem insertKey_lookup (k : String) (v : Val) (x : String) : ∀ o : List (String × Val),
    (insertKey k v o).lookup x = if x = k then some v else o.lookup x := by
  have hmap : ∀ o : List (String × Val), (o.map fun kv => if kv.1 == k then (k, v) else kv).lookup x =
      if x = k then (if o.any fun kv => kv.1 == k then some v else none) else o.lookup x := by
    intro o
    induction o with
    | nil => simp
    | cons a o ih =>
      obtain ⟨a1, a2⟩ := a
      by_cases ha : a1 = k
      · subst ha
        by_cases hx : x = a1
        · subst hx; simp
        · simp only [List.map_cons, BEq.rfl, if_true, List.lookup_cons, beq_eq_false_iff_ne.2 hx, hx, if_false]
          rw [ih, if_neg hx]
      · simp only [List.map_cons, beq_eq_false_iff_ne.2 ha, Bool.false_eq_true, if_false, List.lookup_cons, List.any_cons,
          Bool.false_or, ih]
        by_cases hx : x = k
        · subst hx
          simp [beq_eq_false_iff_ne.2 (Ne.symm ha)]
        · simp only [hx, if_false]
  intro o
  simp only [insertKey]
  split
  · rename_i h
    rw [hmap, h]; simp
  · rename_i h
    have hk : o.lookup k = none := by
      rw [List.lookup_eq_none_iff]
      intro p hp
      by_contra hne
      exact h (List.any_eq_true.2 ⟨p, hp, by simpa using (Eq.symm (by simpa using hne))⟩)
    by_cases hx : x = k
    · subst hx
      simp [List.lookup_append, hk]
    · simp [List.lookup_append, hx, List.lookup_cons, beq_eq_false_iff_ne.2 hx]

/-- **C67.** The value of a key of an object is that of the last entry with the key. -/
theorem C67_last_entry (kvs : List (String × Val)) (x : String) : (asObject kvs).lookup x = kvs.reverse.lookup x := by
  induction kvs using List.reverseRecOn with
  | nil => rfl
  | append_singleton kvs a ih =>
    obtain ⟨k, v⟩ := a
    rw [asObject, List.foldl_append, List.reverse_append]
    simp only [List.foldl_cons, List.foldl_nil, List.reverse_singleton, List.singleton_append, List.lookup_cons]
    rw [insertKey_lookup, ← ih]
    by_cases hx : x = k
    · subst hx; simp
    · simp only [hx, if_false, beq_eq_false_iff_ne.2 hx]
      rfl

/-- **C67.** An object has each key once. -/
theorem C67_keys_once (kvs : List (String × Val)) : ((asObject kvs).map (·.1)).Nodup := by
  have step : ∀ (k : String) (v : Val) (o : List (String × Val)), (o.map (·.1)).Nodup → ((insertKey k v o).map (·.1)).Nodup := by
    intro k v o h
    simp only [insertKey]
    split
    · have : ((o.map fun kv => if kv.1 == k then (k, v) else kv).map (·.1)) = o.map (·.1) := by
        rw [List.map_map]
        refine List.map_congr_left fun a _ => ?_
        simp only [Function.comp]
        split
        · rename_i he; exact (beq_iff_eq.1 he).symm
        · rfl
      rw [this]; exact h
    · rename_i hn
      rw [List.map_append, List.nodup_append]
      refine ⟨h, by simp, ?_⟩
      intro a ha b hb he
      simp only [List.map_cons, List.map_nil, List.mem_singleton] at hb
      subst hb; subst he
      obtain ⟨p, hp, he⟩ := List.mem_map.1 ha
      exact hn (List.any_eq_true.2 ⟨p, hp, by simpa using he⟩)
  have : ∀ (kvs o : List (String × Val)), (o.map (·.1)).Nodup →
      ((kvs.foldl (fun o kv => insertKey kv.1 kv.2 o) o).map (·.1)).Nodup := by
    intro kvs
    induction kvs with
    | nil => exact fun o h => h
    | cons a kvs ih => exact fun o h => ih _ (step _ _ _ h)
  exact this kvs [] List.nodup_nil

/-! ## Examples -/

section
open Demo

noncomputable local instance : Lex := Demo.lex
local instance : Show := Demo.text
noncomputable local instance : FloatOps := Demo.ops
local instance : LawfulText := Demo.lawful

set_option maxRecDepth 10000 in
/-- A text of the grammar: comments, a nested link, a trailing comma and a key that occurs twice. -/
theorem demo_text : Datum "{a: true, b: [none(), /* x */ some(false),], a: link { true link { false } }} x".toList
    (.object [("a", .link [.bool true, .bool false]), ("b", .array [.option none, .option (some (.bool false none))])])
    " x".toList :=
  expr_datum 20 _ _ _ rfl

/-- A derivation: `link { }`. -/
theorem demo_link : Datum "link {}".toList (.link []) [] :=
  .link (s := " {}".toList) (t := ['}']) (optW_iff.1 rfl) (.close (optW_iff.1 rfl))

example : loadData 9 " link {}".toList = .ok (.link []) [] :=
  (C67_load_iff (by decide)).2 ⟨_, optW_iff.1 rfl, demo_link⟩

example : asObject [("a", .bool true none), ("b", .str ""), ("a", .bool false none)] =
    [("a", .bool false none), ("b", .str "")] := rfl

end

end Dyon.Data
