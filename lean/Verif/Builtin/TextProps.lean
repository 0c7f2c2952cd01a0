import Verif.Builtin.Text
import Verif.Builtin.StackProps
import Verif.Data.Demo

/-!
# C72: text, objects and colours
-/

namespace Dyon

/-! ## Specification -/

namespace Spec

/-- `t` is the text `s` without the white space at the start; behind it nothing is taken. -/
def TrimmedLeft (ws : Char → Bool) (s t : List Char) : Prop :=
  ∃ l, s = l ++ t ∧ (∀ ch ∈ l, ws ch = true) ∧ ∀ ch, t.head? = some ch → ws ch = false

/-- `t` is the text `s` without the white space at the end. -/
def TrimmedRight (ws : Char → Bool) (s t : List Char) : Prop :=
  ∃ r, s = t ++ r ∧ (∀ ch ∈ r, ws ch = true) ∧ ∀ ch, t.getLast? = some ch → ws ch = false

/-- `t` is the text `s` without the white space at both ends. -/
def Trimmed (ws : Char → Bool) (s t : List Char) : Prop :=
  ∃ l r, s = l ++ t ++ r ∧ (∀ ch ∈ l, ws ch = true) ∧ (∀ ch ∈ r, ws ch = true) ∧
    (∀ ch, t.head? = some ch → ws ch = false) ∧ ∀ ch, t.getLast? = some ch → ws ch = false

/-- The value of a hexadecimal digit. -/
def hexValue (ch : Char) : Option Nat :=
  if '0' ≤ ch ∧ ch ≤ '9' then some (ch.toNat - 48)
  else if 'a' ≤ ch ∧ ch ≤ 'f' then some (ch.toNat - 87)
  else none

/-- The numbers that pairs of hexadecimal digits stand for. -/
def hexPairs : List Char → Option (List Nat)
  | [] => some []
  | [_] => none
  | a :: b :: r => do some ((16 * (← hexValue a) + (← hexValue b)) :: (← hexPairs r))

/-- The numbers a colour text stands for: `#` and pairs of digits. -/
def colorNumbers : List Char → Option (List Nat)
  | '#' :: r => hexPairs r
  | _ => none

end Spec

open Spec

/-! ## Trimming -/

theorem takeWhile_ws {p : Char → Bool} {s : List Char} {ch : Char} (h : ch ∈ s.takeWhile p) :
    p ch = true := by
  induction s with
  | nil => cases h
  | cons x s ih =>
    rw [List.takeWhile_cons] at h
    split at h
    · rcases List.mem_cons.1 h with rfl | h
      · assumption
      · exact ih h
    · cases h

section
variable [Data.Lex]

theorem trimStart_spec (s : List Char) : TrimmedLeft Data.Lex.isWs s (Lib.trimStart s) := by
  refine ⟨s.takeWhile Data.Lex.isWs, (List.takeWhile_append_dropWhile).symm,
    fun ch h => takeWhile_ws h, fun ch h => ?_⟩
  have := List.head?_dropWhile_not Data.Lex.isWs s
  unfold Lib.trimStart at h
  rw [h] at this
  simpa using this

theorem trimEnd_spec (s : List Char) : TrimmedRight Data.Lex.isWs s (Lib.trimEnd s) := by
  obtain ⟨l, h1, h2, h3⟩ := trimStart_spec s.reverse
  refine ⟨l.reverse, ?_, fun ch h => h2 ch (List.mem_reverse.1 h), fun ch h => h3 ch ?_⟩
  · have := congrArg List.reverse h1
    simpa [Lib.trimEnd, Lib.trimStart] using this
  · rw [← h, Lib.trimEnd, List.getLast?_reverse]; rfl

theorem trimBoth_spec (s : List Char) : Trimmed Data.Lex.isWs s (Lib.trimBoth s) := by
  obtain ⟨l, h1, h2, h3⟩ := trimStart_spec s
  obtain ⟨r, h4, h5, h6⟩ := trimEnd_spec (Lib.trimStart s)
  refine ⟨l, r, ?_, h2, h5, fun ch h => h3 ch ?_, h6⟩
  · rw [List.append_assoc, Lib.trimBoth, ← h4]; exact h1
  · rw [h4]
    unfold Lib.trimBoth at h
    cases hx : Lib.trimEnd (Lib.trimStart s) with
    | nil => rw [hx] at h; cases h
    | cons y ys => rw [hx] at h; simpa using h
end

theorem all_of_prefix_ws {ws : Char → Bool} {l t l' t' : List Char} (h : l ++ t = l' ++ t')
    (hl : ∀ ch ∈ l, ws ch = true) (ht' : ∀ ch, t'.head? = some ch → ws ch = false)
    : t' = [] ∨ l.length ≤ l'.length := by
  by_cases hlen : l.length ≤ l'.length
  · exact .inr hlen
  · left
    have hlt : l'.length < l.length := by omega
    cases t' with
    | nil => rfl
    | cons a t' =>
      have e : (l ++ t)[l'.length]? = some a := by rw [h]; simp
      rw [List.getElem?_append_left hlt] at e
      have := hl a (List.mem_of_getElem? e)
      rw [ht' a rfl] at this; cases this

/-- What is left of a text does not depend on how the white space is taken off. -/
theorem trimmed_unique {ws : Char → Bool} {s t u : List Char} (ht : Trimmed ws s t)
    (hu : Trimmed ws s u) : t = u := by
  have nil : ∀ {t u}, Trimmed ws s t → Trimmed ws s u → t = [] → u = [] := by
    rintro t u ⟨l, r, h1, h2, h3, -, -⟩ ⟨l', r', h1', -, -, h4', -⟩ rfl
    cases u with
    | nil => rfl
    | cons a u =>
      have : a ∈ l ++ r := by
        have : a ∈ s := by rw [h1']; simp
        rw [h1] at this; simpa using this
      have hw : ws a = true := by
        rcases List.mem_append.1 this with h | h
        · exact h2 a h
        · exact h3 a h
      rw [h4' a rfl] at hw; cases hw
  by_cases htn : t = []
  · rw [htn, nil ht hu htn]
  have hun : u ≠ [] := fun h => htn (nil hu ht h)
  obtain ⟨l, r, h1, h2, h3, h4, h5⟩ := ht
  obtain ⟨l', r', h1', h2', h3', h4', h5'⟩ := hu
  have e : l ++ (t ++ r) = l' ++ (u ++ r') := by rw [← List.append_assoc, ← List.append_assoc, ← h1, ← h1']
  have hd : ∀ {t r : List Char}, t ≠ [] → (t ++ r).head? = t.head? := by
    intro t r h; cases t with
    | nil => exact absurd rfl h
    | cons => rfl
  have hl1 := all_of_prefix_ws e h2 (by rw [hd hun]; exact h4')
  have hl2 := all_of_prefix_ws e.symm h2' (by rw [hd htn]; exact h4)
  have hlen : l.length = l'.length := by
    rcases hl1 with h | h
    · exact absurd (List.append_eq_nil_iff.1 h).1 hun
    · rcases hl2 with h' | h'
      · exact absurd (List.append_eq_nil_iff.1 h').1 htn
      · omega
  obtain ⟨-, e⟩ := List.append_inj e hlen
  have er : r.reverse ++ t.reverse = r'.reverse ++ u.reverse := by
    have := congrArg List.reverse e; simpa using this
  have rr : ∀ {t : List Char}, t.reverse.head? = t.getLast? := by intro t; simp
  have hr1 := all_of_prefix_ws er (by simpa using h3) (by rw [rr]; exact h5')
  have hr2 := all_of_prefix_ws er.symm (by simpa using h3') (by rw [rr]; exact h5)
  have hlen : r.length = r'.length := by
    rcases hr1 with h | h
    · exact absurd (List.reverse_eq_nil_iff.1 h) hun
    · rcases hr2 with h' | h'
      · exact absurd (List.reverse_eq_nil_iff.1 h') htn
      · simp at h h'; omega
  exact (List.append_inj' e hlen).1

section
variable (c : Cfg) {st : Stack} {a : Val}

theorem popText_ok {s : String} (h : Denotes st a (.str s)) :
    Lib.popText c (st ++ [a]) = .ok s st := by
  simp [Lib.popText, h.getV']

/-- **C72** `trim` takes the white space off at both ends and nothing else; `trim_left` and
`trim_right` at one end.  The rest is determined by that. -/
theorem C72_trim [Data.Lex] {s : String} (h : Denotes st a (.str s)) :
    (∃ t, Lib.trim c (st ++ [a]) = .ok (.str t) st ∧ Trimmed Data.Lex.isWs s.toList t.toList ∧
      ∀ u, Trimmed Data.Lex.isWs s.toList u → u = t.toList) ∧
    (∃ t, Lib.trimLeft c (st ++ [a]) = .ok (.str t) st ∧ TrimmedLeft Data.Lex.isWs s.toList t.toList) ∧
    ∃ t, Lib.trimRight c (st ++ [a]) = .ok (.str t) st ∧ TrimmedRight Data.Lex.isWs s.toList t.toList := by
  refine ⟨⟨String.ofList (Lib.trimBoth s.toList), ?_, ?_, ?_⟩, ⟨String.ofList (Lib.trimStart s.toList), ?_, ?_⟩,
    String.ofList (Lib.trimEnd s.toList), ?_, ?_⟩
  · simp [Lib.trim, popText_ok c h]
  · simpa using trimBoth_spec s.toList
  · intro u hu
    simpa using trimmed_unique hu (trimBoth_spec s.toList)
  · simp [Lib.trimLeft, popText_ok c h]
  · simpa using trimStart_spec s.toList
  · simp [Lib.trimRight, popText_ok c h]
  · simpa using trimEnd_spec s.toList

/-- **C72** `parse_number` reads the number between the white space; a text that is no number
gives `none()`, never an error. -/
theorem C72_parse_number [Data.Lex] [TextOps] {s : String} (h : Denotes st a (.str s)) :
    ∃ t, Trimmed Data.Lex.isWs s.toList t ∧
      Lib.parseNumber c (st ++ [a]) = .ok (.option ((TextOps.parse t).map Val.ofF64)) st :=
  ⟨_, trimBoth_spec s.toList, by simp [Lib.parseNumber, popText_ok c h]⟩

/-! ## Characters -/

/-- **C72** `chars` gives an array of texts of one character each, in order: joined they are the
text. -/
theorem C72_chars {s : String} (h : Denotes st a (.str s)) :
    ∃ ts : List String, Lib.chars c (st ++ [a]) = .ok (.array (ts.map Val.str)) st ∧
      (∀ t ∈ ts, t.length = 1) ∧ String.join ts = s ∧ ts.length = s.length := by
  refine ⟨s.toList.map fun ch => String.ofList [ch], ?_, ?_, ?_, ?_⟩
  · simp [Lib.chars, h.getV', Function.comp_def]
  · intro t ht
    obtain ⟨ch, -, rfl⟩ := List.mem_map.1 ht
    simp [String.length_ofList]
  · apply String.toList_inj.1
    simp only [String.toList_join, List.map_map]
    have : (String.toList ∘ fun ch => String.ofList [ch]) = fun ch => [ch] := by
      funext ch; simp
    simp [List.flatMap_map]
  · simp [String.length_toList]

/-! ## Objects -/

/-- **C72** `has(o, k)` says whether the object has the key `k`, and `keys(o)` gives the keys, each
as often as the object has it: once, in an object whose keys are different. -/
theorem C72_keys {o k : Val} {kvs : List (String × Val)} {key : String}
    (ho : Denotes st o (.object kvs)) (hk : Denotes st k (.str key)) :
    (∃ b, Lib.has c (st ++ [o, k]) = .ok (.ofBool b) st ∧ (b = true ↔ ∃ v, (key, v) ∈ kvs)) ∧
    ∃ ks : List String, Lib.keys c (st ++ [o]) = .ok (.array (ks.map Val.str)) st ∧
      (key ∈ ks ↔ ∃ v, (key, v) ∈ kvs) ∧ ks.length = kvs.length ∧
      ((kvs.map Prod.fst).Nodup → ks.Nodup) := by
  refine ⟨⟨(kvs.map Prod.fst).contains key, ?_, ?_⟩, kvs.map Prod.fst, ?_, ?_, by simp, fun h => h⟩
  · simp [Lib.has, hk.getV, ho.getV']
  · simp
  · simp [Lib.keys, ho.getV', Function.comp_def]
  · simp

/-! ## Kinds -/

/-- **C72** `typeof` names the kind of a value, also through a variable, and never fails. -/
theorem C72_typeof {v : Val} (h : Denotes st a v) :
    Lib.typeof' (st ++ [a]) = .ok (.str v.typeofVar) st := by
  simp [Lib.typeof', h.getV']

/-- **C72** `is_nan` holds exactly for what is not a number. -/
theorem C72_is_nan {x : F64} {s} (h : Denotes st a (.f64 x s)) :
    Lib.isNan c (st ++ [a]) = .ok (.ofBool (!F64.feq x x)) st := by
  have : F64.isNaN x = !F64.feq x x := by cases hx : x.isNaN <;> simp [F64.feq, hx]
  simp [Lib.isNan, h.getV', this]

/-- **C72** An argument of another kind is an error, and the stack below the arguments stays. -/
theorem C72_other_kinds [Data.Lex] [TextOps] {v : Val} (h : Denotes st a v) :
    ((∀ s, v ≠ .str s) →
      (∃ e, Lib.trim c (st ++ [a]) = .err e st) ∧ (∃ e, Lib.trimLeft c (st ++ [a]) = .err e st) ∧
      (∃ e, Lib.trimRight c (st ++ [a]) = .err e st) ∧
      (∃ e, Lib.parseNumber c (st ++ [a]) = .err e st) ∧ (∃ e, Lib.chars c (st ++ [a]) = .err e st) ∧
      ∀ o, ∃ e, Lib.has c (st ++ [o, a]) = .err e (st ++ [o])) ∧
    ((∀ kvs, v ≠ .object kvs) → (∃ e, Lib.keys c (st ++ [a]) = .err e st) ∧
      ∀ k key, Denotes st k (.str key) → ∃ e, Lib.has c (st ++ [a, k]) = .err e st) ∧
    ((∀ x s, v ≠ .f64 x s) → ∃ e, Lib.isNan c (st ++ [a]) = .err e st) := by
  have hp : (∀ s, v ≠ .str s) → Lib.popText c (st ++ [a]) = .err (expected c v "string") st := by
    intro hv
    cases v <;> simp_all [Lib.popText, h.getV']
  refine ⟨fun hv => ⟨⟨expected c v "string", ?_⟩, ⟨expected c v "string", ?_⟩,
      ⟨expected c v "string", ?_⟩, ⟨expected c v "string", ?_⟩, ⟨expected c v "str", ?_⟩, fun o => ⟨expected c v "str", ?_⟩⟩,
    fun hv => ⟨⟨expected c v "object", ?_⟩, fun k key hk => ⟨expected c v "object", ?_⟩⟩,
    fun hv => ⟨expected c v "number", ?_⟩⟩
  · rw [Lib.trim, SM.bind_apply, hp hv]
  · rw [Lib.trimLeft, SM.bind_apply, hp hv]
  · rw [Lib.trimRight, SM.bind_apply, hp hv]
  · rw [Lib.parseNumber, SM.bind_apply, hp hv]
  · cases v <;> simp_all [Lib.chars, h.getV']
  · have := h.getV [o]
    cases v <;> simp_all [Lib.has]
  · cases v <;> simp_all [Lib.keys, h.getV']
  · cases v <;> simp_all [Lib.has, h.getV', hk.getV]
  · cases v <;> simp_all [Lib.isNan, h.getV']

/-! ## Colours -/

theorem hexByte_pairs : ∀ n, n ≤ 255 → ∃ a b, Lib.hexByte n = some [a, b] ∧
    ∀ r, hexPairs (a :: b :: r) = (hexPairs r).map (n :: ·) := by
  have key : ∀ n : Fin 16, ∃ a, Lib.hexDigits[n.val]? = some a ∧ hexValue a = some n.val := by
    decide
  intro n hn
  obtain ⟨a, ha, hva⟩ := key ⟨n / 16, by omega⟩
  obtain ⟨b, hb, hvb⟩ := key ⟨n % 16, by omega⟩
  simp only at ha hb hva hvb
  refine ⟨a, b, by simp [Lib.hexByte, ha, hb], fun r => ?_⟩
  simp only [hexPairs, hva, hvb]
  have : 16 * (n / 16) + n % 16 = n := by omega
  cases hexPairs r <;> simp [this]

/-- **C72** `str(color: v)` never crashes: it gives a text that stands for the components of the
colour as numbers from 0 to 255; the last one, how opaque it is, is left out if it is 255. -/
theorem C72_color [TextOps] {v : Vec4} (h : Denotes st a (.vec4 v)) :
    ∃ t, Lib.strColor c (st ++ [a]) = .ok (.str t) st ∧
      colorNumbers t.toList = some ([TextOps.byte v.x, TextOps.byte v.y, TextOps.byte v.z] ++
        if TextOps.byte v.w = 255 then [] else [TextOps.byte v.w]) := by
  obtain ⟨r1, r2, hr, hr'⟩ := hexByte_pairs _ (TextOps.byte_le v.x)
  obtain ⟨g1, g2, hg, hg'⟩ := hexByte_pairs _ (TextOps.byte_le v.y)
  obtain ⟨b1, b2, hb, hb'⟩ := hexByte_pairs _ (TextOps.byte_le v.z)
  obtain ⟨a1, a2, ha, ha'⟩ := hexByte_pairs _ (TextOps.byte_le v.w)
  by_cases hw : TextOps.byte v.w = 255
  · refine ⟨String.ofList ['#', r1, r2, g1, g2, b1, b2], ?_, ?_⟩
    · simp [Lib.strColor, Lib.popVec4, h.getV', Lib.colorText, hr, hg, hb, hw]
    · simp only [colorNumbers, String.toList_ofList, hr', hg', hb', hw]
      simp [hexPairs]
  · refine ⟨String.ofList ['#', r1, r2, g1, g2, b1, b2, a1, a2], ?_, ?_⟩
    · simp [Lib.strColor, Lib.popVec4, h.getV', Lib.colorText, hr, hg, hb, hw, ha]
    · simp only [colorNumbers, String.toList_ofList, hr', hg', hb', ha', hw]
      simp [hexPairs]

end

/-! ## Cases -/

/-- Numbers are texts of `7`, and a component is 1 if any bit is set. -/
@[reducible] def demoTextOps : TextOps where
  parse s := if s = ['7'] then some 0 else none
  byte x := if x = 0 then 0 else 255
  byte_le x := by split <;> omega

example (c : Cfg) : letI := demoTextOps; ∃ t, Lib.strColor c [.vec4 ⟨0, 1, 0, 1⟩] = .ok (.str t) [] ∧
    colorNumbers t.toList = some [0, 255, 0] :=
  letI := demoTextOps
  C72_color c (st := []) (v := ⟨0, 1, 0, 1⟩) (.inr ⟨by simp, rfl⟩)

/-- `has` through a variable. -/
example (c : Cfg) : ∃ b, Lib.has c [.object [("x", .ret), ("y", .ret)], .ref 0, .str "y"] =
    .ok (.ofBool b) [.object [("x", .ret), ("y", .ret)]] ∧
    (b = true ↔ ∃ v, ("y", v) ∈ [("x", Val.ret), ("y", .ret)]) :=
  (C72_keys c (st := [.object [("x", .ret), ("y", .ret)]]) (o := .ref 0) (k := .str "y")
    (.inl ⟨0, rfl, rfl⟩) (.inr ⟨by simp, rfl⟩)).1

example (c : Cfg) [Data.Lex] : ∃ t, Lib.trim c [.str " a b\n"] = .ok (.str t) [] ∧
    Trimmed Data.Lex.isWs " a b\n".toList t.toList ∧
    ∀ u, Trimmed Data.Lex.isWs " a b\n".toList u → u = t.toList :=
  (C72_trim c (st := []) (.inr ⟨by simp, rfl⟩)).1

end Dyon
