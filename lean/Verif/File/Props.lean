import Verif.File.Lemmas

/-!
# C84: what is saved in a file is loaded again

For every state of the disk, every failure of the operating system at every point (`Os`), every capacity of the buffer and every
division of the text in pieces.
-/

namespace Dyon.File

section
variable {c : Cfg} {os : Os} {d d' : Disk} {st st' : Stack} {v : Val}

theorem popText_ok {w : Val} {s : String} (hw : w = .str s ∨ ∃ i, w = .ref i ∧ st[i]? = some (.str s)) :
    Lib.popText c (st ++ [w]) = .ok s st := by
  unfold Lib.popText
  have h1 : popV (st ++ [w]) = .ok w st := by simp [popV]
  show SM.bind _ _ _ = _
  simp only [SM.bind, h1]
  have h2 : getV w st = .ok (.str s) st := by
    rcases hw with rfl | ⟨i, rfl, h⟩
    · rfl
    · simp [getV, h]
  show SM.bind _ _ _ = _
  simp only [SM.bind, h2]
  rfl

end

namespace Spec

/-- The value is the text, or a reference to a variable with the text. -/
def Is (st : Stack) (w : Val) (s : String) : Prop := w = .str s ∨ ∃ i, w = .ref i ∧ st[i]? = some (.str s)

/-- No other file is changed. -/
def OthersKept (file : String) (d d' : Disk) : Prop := ∀ f, f ≠ file → d' f = d f

/-- The system opens and reads files without errors. -/
def Reads (os : Os) : Prop := os.opening = none ∧ os.reading = none

end Spec

open Spec

section
variable {c : Cfg} {os os' : Os} {d d' : Disk} {st st' : Stack} {v : Val}

theorem is_before {w t : Val} {s : String} (h : Is st w s) : Is (st ++ [t]) w s := by
  rcases h with rfl | ⟨i, rfl, h⟩
  · exact .inl rfl
  · exact .inr ⟨i, rfl, by rw [List.getElem?_append_left (List.getElem?_eq_some_iff.1 h).1]; exact h⟩

theorem saveString_eq {tv fv : Val} {t file : String} (ht : Is st tv t) (hf : Is (st ++ [tv]) fv file) :
    saveString c os d (st ++ [tv] ++ [fv]) = match os.create with
      | some e => .ok (.resErr (.str e) [], d) st
      | none => .ok (if (Sink.put ⟨[], os.writes⟩ (bytes t)).2.1 then .resOk (.str file) else .resErr (.str os.full) [],
          d.set file (Sink.put ⟨[], os.writes⟩ (bytes t)).1.done) st := by
  unfold saveString
  show SM.bind _ _ _ = _
  simp only [SM.bind, popText_ok hf]
  show SM.bind _ _ _ = _
  simp only [SM.bind, popText_ok ht]
  cases os.create with
  | some e => rfl
  | none =>
    rcases h : Sink.put ⟨[], os.writes⟩ (bytes t) with ⟨s, ok, n⟩
    cases ok <;> simp only [] <;> rfl

/-- **C84**, saving a text.  The call ends with a result whatever the system does.  If the result is `ok` it is the name of the file,
and the whole text is in the file.  If it is an error, the files are as before, or the file has a part of the text, from the beginning
and not the whole.  Other files are not changed.  If creating the file and all writes succeed the result is `ok`. -/
theorem C84_save_string {tv fv : Val} {t file : String} (ht : Is st tv t) (hf : Is (st ++ [tv]) fv file) :
    ∃ v d', saveString c os d (st ++ [tv] ++ [fv]) = .ok (v, d') st ∧ OthersKept file d d' ∧
      (v = .resOk (.str file) ∧ d' file = some (bytes t) ∨
        (∃ e, v = .resErr (.str e) []) ∧ (d' = d ∨ ∃ b, d' file = some b ∧ b <+: bytes t ∧ b.length < (bytes t).length)) ∧
      (os.create = none → (∀ x ∈ os.writes, x = none) → v = .resOk (.str file)) := by
  rw [saveString_eq ht hf]
  cases hc : os.create with
  | some e => exact ⟨_, _, rfl, fun _ _ => rfl, .inr ⟨⟨e, rfl⟩, .inl rfl⟩, by simp⟩
  | none =>
    obtain ⟨n, h1, h2, h3, h4⟩ := put_spec ⟨[], os.writes⟩ (bytes t)
    refine ⟨_, _, rfl, fun f hf => by simp [Disk.set, hf], ?_, fun _ h => by
      rw [(put_calm (s := ⟨[], os.writes⟩) h (bytes t)).1]; rfl⟩
    have hset : (d.set file (Sink.put ⟨[], os.writes⟩ (bytes t)).1.done) file = some ((bytes t).take n) := by
      simp [Disk.set, h2]
    cases hok : (Sink.put ⟨[], os.writes⟩ (bytes t)).2.1 with
    | true =>
      refine .inl ⟨rfl, ?_⟩
      rw [hset, h4.1 hok]; simp
    | false =>
      refine .inr ⟨⟨_, rfl⟩, .inr ⟨_, hset, List.take_prefix _ _, ?_⟩⟩
      have : n ≠ (bytes t).length := fun h => by rw [h4.2 h] at hok; cases hok
      simp only [List.length_take]
      omega

/-- **C84**, loading a text.  The call ends with a result: the text, if the file is there and contains a text, and the system reads it;
an error otherwise. -/
theorem C84_load_string {fv : Val} {file : String} (hf : Is st fv file) :
    ∃ v, loadString c os d (st ++ [fv]) = .ok v st ∧
      ((∃ t b, v = .resOk (.str t) ∧ d file = some b ∧ text b = some t) ∨ ∃ e, v = .resErr (.str e) []) ∧
      (Reads os → ∀ t b, d file = some b → text b = some t → v = .resOk (.str t)) := by
  have h : loadString c os d (st ++ [fv]) = match readFile os d file with
      | .ok t => .ok (.resOk (.str t)) st
      | .error (_, e) => .ok (.resErr (.str e) []) st := by
    unfold loadString
    show SM.bind _ _ _ = _
    simp only [SM.bind, popText_ok hf]
    rcases readFile os d file with ⟨a, e⟩ | t <;> rfl
  rw [h]
  unfold readFile
  cases h1 : os.opening with
  | some e => exact ⟨_, rfl, .inr ⟨_, rfl⟩, fun h => by rw [h.1] at h1; cases h1⟩
  | none => cases h2 : d file with
    | none => exact ⟨_, rfl, .inr ⟨_, rfl⟩, fun _ _ _ h => by cases h⟩
    | some b => cases h3 : os.reading with
      | some e => exact ⟨_, rfl, .inr ⟨_, rfl⟩, fun h => by rw [h.2] at h3; cases h3⟩
      | none => cases h4 : text b with
        | none => exact ⟨_, by simp only [h4]; rfl, .inr ⟨_, rfl⟩, fun _ _ _ h h' => by cases h; rw [h4] at h'; cases h'⟩
        | some t => exact ⟨_, by simp only [h4], .inl ⟨t, b, rfl, rfl, h4⟩, fun _ _ _ h h' => by cases h; rw [h4] at h'; cases h'; rfl⟩

/-- **C84**, texts.  A text that was saved with the result `ok` is loaded again, unchanged, if the system reads the file. -/
theorem C84_string_back {tv fv fv' : Val} {t file : String} {st1 : Stack} (ht : Is st tv t) (hf : Is (st ++ [tv]) fv file)
    (hs : saveString c os d (st ++ [tv] ++ [fv]) = .ok (.resOk v, d') st') (hr : Reads os') (hf' : Is st1 fv' file) :
    loadString c os' d' (st1 ++ [fv']) = .ok (.resOk (.str t)) st1 := by
  obtain ⟨w, d2, h1, -, h2, -⟩ := C84_save_string (c := c) (os := os) (d := d) ht hf
  rw [hs] at h1
  cases h1
  rcases h2 with ⟨-, h2⟩ | ⟨⟨e, h2⟩, -⟩
  · obtain ⟨w, h3, -, h4⟩ := C84_load_string (c := c) (os := os') (d := d') hf'
    rw [h3, h4 hr t _ h2 (text_bytes t)]
  · cases h2

end

section
variable [Data.Lex] [Data.Show] [FloatOps] {c : Cfg} {os os' : Os} {d d' : Disk} {st st' : Stack} {v : Val} {cap fuel : Nat}
  {cut : String → List Bytes}

theorem saveData_eq {dv fv : Val} {file : String} {t : List Char} (hf : Is (st ++ [dv]) fv file)
    (ht : Data.writeV st fuel true dv = some t) :
    saveData c cap cut fuel os d (st ++ [dv] ++ [fv]) = match os.create with
      | some e => .err ("Error when creating file `" ++ file ++ "`:\n" ++ e) st
      | none => .ok (if (Buffered.writes cap ⟨⟨[], os.writes⟩, []⟩ (cut (String.ofList t))).2 then .resOk (.str file)
            else .resErr (.str ("Error when writing to file `" ++ file ++ "`:\n" ++ os.full)) [],
          d.set file (Buffered.writes cap ⟨⟨[], os.writes⟩, []⟩ (cut (String.ofList t))).1.close) st := by
  unfold saveData
  have h1 : popV (st ++ [dv] ++ [fv]) = .ok fv (st ++ [dv]) := by simp [popV]
  show SM.bind _ _ _ = _
  simp only [SM.bind, h1]
  have h2 : getV fv (st ++ [dv]) = .ok (.str file) (st ++ [dv]) := by
    rcases hf with rfl | ⟨i, rfl, h⟩
    · rfl
    · simp [getV, h]
  show SM.bind _ _ _ = _
  simp only [SM.bind, h2]
  have h3 : popV (st ++ [dv]) = .ok dv st := by simp [popV]
  show SM.bind _ _ _ = _
  simp only [SM.bind, h3]
  cases os.create with
  | some e => rfl
  | none =>
    simp only [ht]
    rcases Buffered.writes cap ⟨⟨[], os.writes⟩, []⟩ (cut (String.ofList t)) with ⟨w, ok⟩
    cases ok <;> rfl

/-- **C84**, saving data.  If the file cannot be created the call stops with an error and the files are as before.  Otherwise the call
ends with a result and the file has the text of the value from the beginning; if the result is `ok`, at most as many bytes as the
buffer holds are missing at the end.  Other files are not changed.  If all writes succeed the result is `ok` and the whole text is in
the file.  (That the whole text is in the file whenever the result is `ok` is false of the code, `C84_lost`.) -/
theorem C84_save_data_partial {dv fv : Val} {file : String} {t : List Char} (hcut : ∀ s, (cut s).flatten = bytes s)
    (hf : Is (st ++ [dv]) fv file) (ht : Data.writeV st fuel true dv = some t) :
    (∀ e, os.create = some e → ∃ m, saveData c cap cut fuel os d (st ++ [dv] ++ [fv]) = .err m st) ∧
    (os.create = none → ∃ v d' b, saveData c cap cut fuel os d (st ++ [dv] ++ [fv]) = .ok (v, d') st ∧ OthersKept file d d' ∧
      d' file = some b ∧ b <+: bytes (String.ofList t) ∧
      (v = .resOk (.str file) ∧ (bytes (String.ofList t)).length ≤ b.length + cap ∨ ∃ e, v = .resErr (.str e) []) ∧
      ((∀ x ∈ os.writes, x = none) → v = .resOk (.str file) ∧ b = bytes (String.ofList t))) := by
  rw [saveData_eq hf ht]
  refine ⟨fun e he => ⟨_, by rw [he]⟩, fun hc => ?_⟩
  rw [hc]
  obtain ⟨h1, h2, h3⟩ := writes_spec (cap := cap) (cut (String.ofList t)) (w := ⟨⟨[], os.writes⟩, []⟩) (Nat.zero_le _)
  rw [hcut] at h2 h3
  have h0 : Buffered.all ⟨⟨[], os.writes⟩, []⟩ = [] := rfl
  rw [h0, List.nil_append] at h2 h3
  obtain ⟨g1, g2⟩ := close_spec (Buffered.writes cap ⟨⟨[], os.writes⟩, []⟩ (cut (String.ofList t))).1
  refine ⟨_, _, _, rfl, fun f hf => by simp [Disk.set, hf], by simp only [Disk.set, if_true], g1.trans h3, ?_, fun h => ?_⟩
  · cases hok : (Buffered.writes cap ⟨⟨[], os.writes⟩, []⟩ (cut (String.ofList t))).2 with
    | true =>
      refine .inl ⟨rfl, ?_⟩
      rw [h2 hok] at g2
      omega
    | false => exact .inr ⟨_, rfl⟩
  · obtain ⟨k1, k2⟩ := writes_calm (cap := cap) (cut (String.ofList t)) (w := ⟨⟨[], os.writes⟩, []⟩) h
    refine ⟨by rw [k1]; rfl, ?_⟩
    rw [close_calm k2, h2 k1]

theorem loadText_ok {msg : String} {t r : List Char} {u : Val} (h : Data.loadData (t.length + 1) t = .ok u r) :
    loadText msg (String.ofList t) st = .ok (.resOk u) st := by
  unfold loadText
  rw [String.toList_ofList, h]
  rfl

theorem loadDataFile_eq {fv : Val} {file t : String} (hf : Is st fv file) (h : readFile os d file = .ok t) :
    loadDataFile c os d (st ++ [fv]) = loadText ("Error loading data from file `" ++ file ++ "`:\n") t st := by
  unfold loadDataFile
  show SM.bind _ _ _ = _
  simp only [SM.bind, popText_ok hf, h]

/-- **C84**, data.  Data saved without a failing write is loaded again as the same data (`Data.Same` as in C34), if the system reads the
file. -/
theorem C84_data_back_partial [Data.LawfulText] {dv fv fv' w : Val} {file : String} {st1 : Stack} (hcut : ∀ s, (cut s).flatten = bytes s)
    (hd : Data.Same st dv w) (hf : Is (st ++ [dv]) fv file) (hc : os.create = none) (hw : ∀ x ∈ os.writes, x = none)
    (hr : Reads os') (hf' : Is st1 fv' file) :
    ∃ fuel d' u, saveData c cap cut fuel os d (st ++ [dv] ++ [fv]) = .ok (.resOk (.str file), d') st ∧
      loadDataFile c os' d' (st1 ++ [fv']) = .ok (.resOk u) st1 ∧ Data.Same st dv u := by
  obtain ⟨fuel, t, h1, h2⟩ := Data.C34_round_trip_partial hd
  have ht := h1 fuel le_rfl
  obtain ⟨-, h3⟩ := C84_save_data_partial (c := c) (os := os) (d := d) (cap := cap) hcut hf ht
  obtain ⟨v, d', b, h4, -, h5, -, -, h6⟩ := h3 hc
  obtain ⟨rfl, rfl⟩ := h6 hw
  obtain ⟨u, h7, h8⟩ := h2 [] (.inl rfl) (t.length + 1) (by simp)
  refine ⟨fuel, d', u, h4, ?_, h8⟩
  rw [List.append_nil] at h7
  have h9 : readFile os' d' file = .ok (String.ofList t) := by
    simp only [readFile, hr.1, hr.2, h5, text_bytes]
  rw [loadDataFile_eq hf' h9]
  exact loadText_ok h7

end

section
variable {c : Cfg} {os os' : Os} {d : Disk} {st : Stack}

/-- **C84**, syntax trees.  A text read with the rules of a file becomes one row for each report of the parser, in order: equal rows are
equal reports.  Every failure, of the system, of the rules or of the text, is an error value. -/
theorem C84_meta {Syntax : Type} {rules : String → Except String Syntax} {parse : Syntax → String → Except String (List Text.MetaTok)}
    {mv fv : Val} {grammar file : String} (hm : Is st mv grammar) (hf : Is (st ++ [mv]) fv file) :
    ∃ v, loadMeta c rules parse os os' d (st ++ [mv] ++ [fv]) = .ok v st ∧
      ((∃ s t r ts, readFile os d grammar = .ok s ∧ readFile os' d file = .ok t ∧ rules s = .ok r ∧ parse r t = .ok ts ∧
          v = .resOk (.array (ts.map Text.metaVal)) ∧ ∀ ts', ts'.map Text.metaVal = ts.map Text.metaVal → ts' = ts) ∨
        ∃ e, v = .resErr (.str e) []) ∧
      (∀ s t r ts, readFile os d grammar = .ok s → readFile os' d file = .ok t → rules s = .ok r → parse r t = .ok ts →
        v = .resOk (.array (ts.map Text.metaVal))) := by
  unfold loadMeta
  show ∃ v, SM.bind _ _ _ = _ ∧ _
  simp only [SM.bind, popText_ok hf]
  show ∃ v, SM.bind _ _ _ = _ ∧ _
  simp only [SM.bind, popText_ok hm]
  cases h1 : readFile os d grammar with
  | error p => exact ⟨_, rfl, .inr ⟨_, rfl⟩, by simp⟩
  | ok s => cases h2 : readFile os' d file with
    | error p => exact ⟨_, rfl, .inr ⟨_, rfl⟩, by simp⟩
    | ok t => cases h3 : rules s with
      | error e => exact ⟨_, by simp only [h3]; rfl, .inr ⟨_, rfl⟩, by intro s' _ r _ h; cases h; simp [h3]⟩
      | ok r => cases h4 : parse r t with
        | error e =>
          refine ⟨_, by simp only [h3, h4]; rfl, .inr ⟨_, rfl⟩, ?_⟩
          intro s' t' r' ts h h' h''; cases h; cases h'; rw [h3] at h''; cases h''; simp [h4]
        | ok ts =>
          refine ⟨_, by simp only [h3, h4]; rfl, .inl ⟨s, t, r, ts, rfl, rfl, h3, h4, rfl, fun ts' h => ?_⟩, ?_⟩
          · exact List.map_injective_iff.2 (fun _ _ => metaVal_inj) h
          · intro s' t' r' ts' h h' h'' h'''; cases h; cases h'; rw [h3] at h''; cases h''; rw [h4] at h'''; cases h'''; rfl

end

/-! ## What goes wrong -/

/-- A disk that is full: the first write fails at once. -/
def fullDisk : Os where
  create := none
  opening := none
  missing := "No such file"
  reading := none
  invalid := "not UTF-8"
  writes := [some 0]
  full := "No space left on device"

section
variable [Data.Lex] [Data.Show] [FloatOps]

theorem load_nil [Data.LawfulText] (n : Nat) : Data.loadData (n + 1) [] = .err "Reached end of file" := by
  have h1 : Data.Lex.string [] = none := by
    cases h : Data.Lex.string [] with
    | none => rfl
    | some n => have := Data.LawfulText.string_head _ _ h; cases this
  have h2 : Data.numberTok [] = none := by
    unfold Data.numberTok
    cases h : Data.Lex.number [] with
    | none => rfl
    | some n => obtain ⟨c, r, h3, -⟩ := Data.LawfulText.number_head _ _ h; cases h3
  show Data.expr (n + 1) [] = _
  unfold Data.expr
  show Data.scalarE _ [] = _
  unfold Data.scalarE
  rw [h1, h2]
  rfl

/-- The finding: the disk is full, `save(data: true, file: "f")` gives `ok("f")`, but the file is empty and does not load.  The value is
still in the buffer when the result is made, and the error of writing it afterwards is ignored.  With the buffer of 8 KiB this is so
for all data shorter than that. -/
theorem C84_lost [Data.LawfulText] (c : Cfg) (d : Disk) :
    ∃ d', saveData c 8192 (fun s => [bytes s]) 1 fullDisk d ([] ++ [.bool true none] ++ [.str "f"]) = .ok (.resOk (.str "f"), d') [] ∧
      d' "f" = some [] ∧
      loadDataFile c fullDisk d' ([] ++ [.str "f"]) =
        .ok (.resErr (.str "Error loading data from file `f`:\nReached end of file") []) [] := by
  have h : bytes (String.ofList "true".toList) = [116, 114, 117, 101] := by decide +kernel
  refine ⟨d.set "f" [], ?_, rfl, ?_⟩
  · rw [saveData_eq (st := []) (t := "true".toList) (.inl rfl) rfl]
    simp only [h]
    rfl
  · rw [loadDataFile_eq (st := []) (t := String.ofList []) (.inl rfl) (by
      have h0 : text [] = some (String.ofList []) := text_bytes ""
      simp [readFile, fullDisk, Disk.set, h0])]
    unfold loadText
    rw [String.toList_ofList, load_nil]
    rfl

end

/-- A write that fails has already destroyed what was in the file. -/
theorem C84_old_contents_lost (c : Cfg) :
    ∃ d', saveString c fullDisk (fun _ => some (bytes "old")) ([] ++ [.str "new"] ++ [.str "f"]) =
        .ok (.resErr (.str "No space left on device") [], d') [] ∧ d' "f" = some [] := by
  have h : bytes "new" = [110, 101, 119] := by decide +kernel
  refine ⟨Disk.set (fun _ => some (bytes "old")) "f" [], ?_, rfl⟩
  rw [saveString_eq (st := []) (.inl rfl) (.inl rfl)]
  simp only [h]
  rfl

/-! ## Examples -/

/-- A system without failures. -/
def calm : Os := { fullDisk with writes := [none] }

/-- The hypotheses of the theorems on texts: the text in a variable, the name of the file written out. -/
example (c : Cfg) (d : Disk) : ∃ d', saveString c calm d ([.str "é"] ++ [.ref 0] ++ [.str "f"]) = .ok (.resOk (.str "f"), d') [.str "é"] ∧
    loadString c calm d' ([] ++ [.str "f"]) = .ok (.resOk (.str "é")) [] := by
  have ht : Is [.str "é"] (.ref 0) "é" := .inr ⟨0, rfl, rfl⟩
  obtain ⟨v, d', h1, -, -, h2⟩ := C84_save_string (c := c) (os := calm) (d := d) ht (fv := .str "f") (.inl rfl)
  have h3 := h2 rfl (by simp [calm])
  subst h3
  exact ⟨d', h1, C84_string_back ht (.inl rfl) h1 ⟨rfl, rfl⟩ (.inl rfl)⟩

/-- The hypotheses of the theorem on data: an array with a reference. -/
example (c : Cfg) (d : Disk) : letI := Data.Demo.lex; letI := Data.Demo.text; letI := Data.Demo.ops
    ∃ fuel d' u, saveData c 8192 (fun s => [bytes s]) fuel calm d ([.str "x"] ++ [.array [.ref 0, .bool true none]] ++ [.str "f"]) =
      .ok (.resOk (.str "f"), d') [.str "x"] ∧ loadDataFile c calm d' ([] ++ [.str "f"]) = .ok (.resOk u) [] ∧
      Data.Same [.str "x"] (.array [.ref 0, .bool true none]) u := by
  letI := Data.Demo.lex; letI := Data.Demo.text; letI := Data.Demo.ops
  haveI := Data.Demo.lawful
  exact C84_data_back_partial (by simp) (.array (.cons (.ref rfl .str) (.cons .bool .nil))) (.inl rfl) rfl (by simp [calm])
    ⟨rfl, rfl⟩ (.inl rfl)

/-- A grammar of one rule and a text with one report. -/
example (c : Cfg) : ∃ v, loadMeta c (fun _ => .ok ()) (fun _ _ => .ok [⟨F64.zero, F64.zero, .bool "b" true⟩]) calm calm
    (fun _ => some (bytes "x")) ([] ++ [.str "g"] ++ [.str "f"]) = .ok v [] ∧
      v = .resOk (.array [.array [.ofF64 F64.zero, .ofF64 F64.zero, .str "bool", .str "b", .ofBool true]]) := by
  obtain ⟨v, h1, -, h2⟩ := C84_meta (c := c) (rules := fun _ => .ok ()) (parse := fun _ _ => .ok [⟨F64.zero, F64.zero, .bool "b" true⟩])
    (os := calm) (os' := calm) (d := fun _ => some (bytes "x")) (st := []) (mv := .str "g") (fv := .str "f") (.inl rfl) (.inl rfl)
  have hr : ∀ f, readFile calm (fun _ => some (bytes "x")) f = .ok "x" := fun f => by
    simp [readFile, calm, fullDisk, text_bytes]
  exact ⟨v, h1, h2 _ _ _ _ (hr _) (hr _) rfl rfl⟩

end Dyon.File
