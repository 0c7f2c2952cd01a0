import Verif.File.Syntax
import Verif.File.WebProps

/-!
# C95: grammars in values
-/

namespace Dyon.File

open Spec

namespace Spec

/-- The value is this one, or a reference to a variable with it. -/
def IsVal (st : Stack) (w x : Val) : Prop := w = x ∨ ∃ i, w = .ref i ∧ st[i]? = some x

end Spec

section
variable {c : Cfg} {Syntax : Type} {rules : String → Except String Syntax} {parse : Syntax → String → Except String (List Text.MetaTok)}
  {obj : Nat → Option Syntax} {os os' : Os} {d : Disk} {w : Web} {st : Stack}

theorem popStr_ok {w : Val} {s : String} (hw : Is st w s) : popStr c (st ++ [w]) = .ok s st := by
  unfold popStr
  have h1 : popV (st ++ [w]) = .ok w st := by simp [popV]
  show SM.bind _ _ _ = _
  simp only [SM.bind, h1]
  have h2 : getV w st = .ok (.str s) st := by
    rcases hw with rfl | ⟨i, rfl, h⟩
    · rfl
    · simp [getV, h]
  show SM.bind _ _ _ = _
  simp only [SM.bind, h2]
  rfl

theorem syntaxFn_eq {nv tv : Val} {name t : String} (hn : Is st nv name) (ht : Is (st ++ [nv]) tv t) :
    syntaxFn c rules (st ++ [nv] ++ [tv]) = .ok (match rules t with
      | .ok r => .ok r
      | .error e => .error ("When parsing meta syntax in `" ++ name ++ "`:\n" ++ e)) st := by
  unfold syntaxFn
  show SM.bind _ _ _ = _
  simp only [SM.bind, popText_ok ht]
  show SM.bind _ _ _ = _
  simp only [SM.bind, popText_ok hn]
  cases rules t <;> rfl

theorem metaFn_eq {gv nv tv x : Val} {name t : String} (hg : IsVal st gv x) (hr : ∀ i, x ≠ .ref i) (hn : Is (st ++ [gv]) nv name)
    (ht : Is (st ++ [gv] ++ [nv]) tv t) : metaFn c parse obj (st ++ [gv] ++ [nv] ++ [tv]) =
      (match (generalizing := false) x with
      | .rustObject o => match obj o with
        | some r => match parse r t with
          | .error e => pure (.resErr (.str ("When parsing data in `" ++ name ++ "`:\n" ++ e)) [])
          | .ok ts => pure (.resOk (.array (ts.map Text.metaVal)))
        | none => SM.fail (expected c (.rustObject o) "Syntax")
      | x => SM.fail (expected c x "Syntax") : SM Val) st := by
  unfold metaFn
  show SM.bind _ _ _ = _
  simp only [SM.bind, popStr_ok ht]
  show SM.bind _ _ _ = _
  simp only [SM.bind, popStr_ok hn]
  have h1 : popV (st ++ [gv]) = .ok gv st := by simp [popV]
  show SM.bind _ _ _ = _
  simp only [SM.bind, h1]
  have h2 : getV gv st = .ok x st := by
    rcases hg with rfl | ⟨i, rfl, h⟩
    · cases gv <;> first | exact absurd rfl (hr _) | rfl
    · simp [getV, h]
  show SM.bind _ _ _ = _
  simp only [SM.bind, h2]
  cases x <;> rfl

/-! ## Properties -/

/-- **C95.** `meta(g, name, text)` gives what the parser makes of the text with the grammar in `g`: one row for each report, in order,
and equal rows are equal reports; or the error of the parser, as an error value. -/
theorem C95_meta {gv nv tv : Val} {name t : String} {o : Nat} {r : Syntax} (hg : IsVal st gv (.rustObject o)) (ho : obj o = some r)
    (hn : Is (st ++ [gv]) nv name) (ht : Is (st ++ [gv] ++ [nv]) tv t) :
    (∀ ts, parse r t = .ok ts → metaFn c parse obj (st ++ [gv] ++ [nv] ++ [tv]) = .ok (.resOk (.array (ts.map Text.metaVal))) st ∧
      ∀ ts', ts'.map Text.metaVal = ts.map Text.metaVal → ts' = ts) ∧
    (∀ e, parse r t = .error e → metaFn c parse obj (st ++ [gv] ++ [nv] ++ [tv]) =
      .ok (.resErr (.str ("When parsing data in `" ++ name ++ "`:\n" ++ e)) []) st) := by
  rw [metaFn_eq hg (by intro i; simp) hn ht]
  constructor
  · intro ts h
    simp only [ho, h]
    exact ⟨rfl, fun ts' h => List.map_injective_iff.2 (fun _ _ => metaVal_inj) h⟩
  · intro e h
    simp only [ho, h]
    rfl

/-- **C95.** Another first argument than a grammar is an error of the program. -/
theorem C95_argument {gv nv tv x : Val} {name t : String} (hg : IsVal st gv x) (hr : ∀ i, x ≠ .ref i)
    (hx : ∀ o, x = .rustObject o → obj o = none) (hn : Is (st ++ [gv]) nv name) (ht : Is (st ++ [gv] ++ [nv]) tv t) :
    metaFn c parse obj (st ++ [gv] ++ [nv] ++ [tv]) =
      .err (c.trace ++ "\nExpected `Syntax`, found `" ++ x.typeofVar ++ "`") st := by
  rw [metaFn_eq hg hr hn ht]
  have e : ∀ x : Val, expected c x "Syntax" = c.trace ++ "\nExpected `Syntax`, found `" ++ x.typeofVar ++ "`" := fun x => by
    simp [expected, String.append_assoc]
  rw [← e]
  cases x with
  | rustObject o => simp only [hx o rfl]; rfl
  | ref i => exact absurd rfl (hr i)
  | _ => rfl

/-- **C95.** If the files can be read, `load(meta: grammar, file: file)` gives what `syntax(grammar, s)` and `meta(.., file, t)` give
for their texts `s` and `t`, with the same errors. -/
theorem C95_like_files {grammar file s t : String} (hs : readFile os d grammar = .ok s) (ht : readFile os' d file = .ok t)
    {mv fv : Val} (hm : Is st mv grammar) (hf : Is (st ++ [mv]) fv file) {st₁ st₂ : Stack} {nv sv gv nv' tv : Val}
    (hn : Is st₁ nv grammar) (hsv : Is (st₁ ++ [nv]) sv s) {o : Nat} (hg : IsVal st₂ gv (.rustObject o))
    (hn' : Is (st₂ ++ [gv]) nv' file) (htv : Is (st₂ ++ [gv] ++ [nv']) tv t) :
    ∃ v, loadMeta c rules parse os os' d (st ++ [mv] ++ [fv]) = .ok v st ∧
      ((∃ e, syntaxFn c rules (st₁ ++ [nv] ++ [sv]) = .ok (.error e) st₁ ∧ v = .resErr (.str e) []) ∨
        ∃ r, syntaxFn c rules (st₁ ++ [nv] ++ [sv]) = .ok (.ok r) st₁ ∧
          ∀ obj : Nat → Option Syntax, obj o = some r → metaFn c parse obj (st₂ ++ [gv] ++ [nv'] ++ [tv]) = .ok v st₂) := by
  rw [syntaxFn_eq hn hsv]
  unfold loadMeta
  show ∃ v, SM.bind _ _ _ = _ ∧ _
  simp only [SM.bind, popText_ok hf]
  show ∃ v, SM.bind _ _ _ = _ ∧ _
  simp only [SM.bind, popText_ok hm, hs, ht]
  cases h3 : rules s with
  | error e => exact ⟨_, rfl, .inl ⟨_, rfl, rfl⟩⟩
  | ok r =>
    cases h4 : parse r t with
    | error e => exact ⟨_, by simp only [h4]; rfl, .inr ⟨r, rfl, fun obj ho => (C95_meta hg ho hn' htv).2 e h4⟩⟩
    | ok ts => exact ⟨_, by simp only [h4]; rfl, .inr ⟨r, rfl, fun obj ho => ((C95_meta hg ho hn' htv).1 ts h4).1⟩⟩

/-- **C95.** The same for `load(meta: grammar, url: url)`, if the body of the answer is the text `t`. -/
theorem C95_like_web {grammar url s t : String} {b : Bytes} (hs : readFile os d grammar = .ok s) (hw : Delivers w b)
    (hb : text b = some t) {mv uv : Val} (hm : Is st mv grammar) (hu : Is (st ++ [mv]) uv url) {st₁ st₂ : Stack} {nv sv gv nv' tv : Val}
    (hn : Is st₁ nv grammar) (hsv : Is (st₁ ++ [nv]) sv s) {o : Nat} (hg : IsVal st₂ gv (.rustObject o))
    (hn' : Is (st₂ ++ [gv]) nv' url) (htv : Is (st₂ ++ [gv] ++ [nv']) tv t) :
    ∃ v, loadMetaUrl c rules parse w os d (st ++ [mv] ++ [uv]) = .ok v st ∧
      ((∃ e, syntaxFn c rules (st₁ ++ [nv] ++ [sv]) = .ok (.error e) st₁ ∧ v = .resErr (.str e) []) ∨
        ∃ r, syntaxFn c rules (st₁ ++ [nv] ++ [sv]) = .ok (.ok r) st₁ ∧
          ∀ obj : Nat → Option Syntax, obj o = some r → metaFn c parse obj (st₂ ++ [gv] ++ [nv'] ++ [tv]) = .ok v st₂) := by
  have ht : fetchText w url = .ok t := fetchText_iff.2 ⟨b, hw, hb⟩
  rw [syntaxFn_eq hn hsv]
  unfold loadMetaUrl
  show ∃ v, SM.bind _ _ _ = _ ∧ _
  simp only [SM.bind, popText_ok hu]
  show ∃ v, SM.bind _ _ _ = _ ∧ _
  simp only [SM.bind, popText_ok hm, hs, ht]
  cases h3 : rules s with
  | error e => exact ⟨_, rfl, .inl ⟨_, rfl, rfl⟩⟩
  | ok r =>
    cases h4 : parse r t with
    | error e => exact ⟨_, by simp only [h4]; rfl, .inr ⟨r, rfl, fun obj ho => (C95_meta hg ho hn' htv).2 e h4⟩⟩
    | ok ts => exact ⟨_, by simp only [h4]; rfl, .inr ⟨r, rfl, fun obj ho => ((C95_meta hg ho hn' htv).1 ts h4).1⟩⟩

end

/-! ## Cases -/

/-- A grammar in a variable, and a report of the parser. -/
example (c : Cfg) : metaFn c (fun (_ : Unit) _ => .ok [⟨F64.zero, F64.zero, .bool "b" true⟩]) (fun o => if o = 4 then some () else none)
    ([.rustObject 4] ++ [.ref 0] ++ [.str "f"] ++ [.str "x"]) =
      .ok (.resOk (.array [.array [.ofF64 F64.zero, .ofF64 F64.zero, .str "bool", .str "b", .ofBool true]])) [.rustObject 4] :=
  ((C95_meta (c := c) (parse := fun (_ : Unit) _ => .ok [⟨F64.zero, F64.zero, .bool "b" true⟩])
    (obj := fun o => if o = 4 then some () else none) (r := ()) (o := 4) (name := "f") (t := "x") (st := [.rustObject 4]) (gv := .ref 0) (nv := .str "f") (tv := .str "x") (.inr ⟨0, rfl, rfl⟩) (if_pos rfl)
    (.inl rfl) (.inl rfl)).1 _ rfl).1

example (c : Cfg) : metaFn c (fun (_ : Unit) _ => .ok []) (fun _ => none) ([] ++ [.str "g"] ++ [.str "f"] ++ [.str "x"]) =
    .err (c.trace ++ "\nExpected `Syntax`, found `" ++ "string" ++ "`") [] :=
  C95_argument (st := []) (x := .str "g") (name := "f") (t := "x") (.inl rfl) (by intro i; simp) (by intro o h; cases h) (.inl rfl) (.inl rfl)

/-- The hypotheses about files and the web are met. -/
example : readFile calm (fun _ => some (bytes "x")) "g" = .ok "x" ∧
    Delivers ⟨none, .ok ⟨true, "200 OK", [bytes "new"], none⟩, ""⟩ (bytes "new" ++ []) ∧ text (bytes "new" ++ []) = some "new" :=
  ⟨by simp [readFile, calm, fullDisk, text_bytes], ⟨rfl, _, rfl, rfl, rfl, rfl⟩, by rw [List.append_nil]; exact text_bytes _⟩

end Dyon.File
