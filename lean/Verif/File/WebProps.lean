import Verif.File.Web
import Verif.File.Props

/-!
# C92: fetching from the web

For every answer and failure of the network (`Web`), every state of the disk and every failure of the operating system (`Os`).
-/

namespace Dyon.File

namespace Spec

/-- The server answers with status 200, and the whole body arrives. -/
def Delivers (w : Web) (b : Bytes) : Prop :=
  w.badUrl = none ∧ ∃ r, w.answer = .ok r ∧ r.isOk = true ∧ r.broken = none ∧ r.body.flatten = b

/-- There is no answer with status 200. -/
def NoAnswer (w : Web) : Prop := (∃ e, w.badUrl = some e) ∨ (∃ e, w.answer = .error e) ∨ ∃ r, w.answer = .ok r ∧ r.isOk = false

/-- The first bytes of the body of an answer with status 200 arrive. -/
def Arrives (w : Web) (b : Bytes) : Prop := ∃ r, w.answer = .ok r ∧ r.isOk = true ∧ b <+: r.body.flatten

end Spec

open Spec

section
variable {c : Cfg} {w : Web} {os os' : Os} {d d' : Disk} {st st' : Stack} {v : Val}

theorem copy_spec (s : Sink) (bs : List Bytes) : ∃ n, (s.copy bs).1.done = s.done ++ bs.flatten.take n ∧
    ((s.copy bs).2 = true → n = bs.flatten.length) := by
  induction bs generalizing s with
  | nil => exact ⟨0, by simp [Sink.copy], by simp⟩
  | cons b bs ih =>
    obtain ⟨n, h1, h2, -, h4⟩ := put_spec s b
    rw [Sink.copy]
    rcases h : s.put b with ⟨s', ok, m⟩
    rw [h] at h2 h4
    simp only at h2 h4
    cases ok with
    | false =>
      refine ⟨n, ?_, by simp⟩
      simp only [List.flatten_cons]
      rw [h2, List.take_append_of_le_length h1]
    | true =>
      obtain ⟨k, h5, h6⟩ := ih s'
      have hn := h4.1 rfl
      refine ⟨b.length + k, ?_, fun h => by simp [h6 h]⟩
      simp only [List.flatten_cons]
      rw [h5, h2, hn, List.take_length, List.append_assoc, List.take_length_add_append]

theorem copy_calm {s : Sink} (h : ∀ x ∈ s.fate, x = none) (bs : List Bytes) : (s.copy bs).2 = true := by
  induction bs generalizing s with
  | nil => rfl
  | cons b bs ih =>
    obtain ⟨h1, h2⟩ := put_calm (s := s) h b
    rw [Sink.copy]
    rcases hp : s.put b with ⟨s', ok, m⟩
    rw [hp] at h1 h2
    simp only at h1 h2
    subst h1
    exact ih h2

theorem fetch_delivers {b : Bytes} {url : String} (h : Delivers w b) :
    ∃ r, fetch w url = .ok r ∧ r.isOk = true ∧ r.broken = none ∧ r.body.flatten = b := by
  obtain ⟨h1, r, h2, h3, h4, h5⟩ := h
  exact ⟨r, by simp [fetch, h1, h2, h3], h3, h4, h5⟩

theorem fetch_ok {url : String} {r : Response} (h : fetch w url = .ok r) :
    w.badUrl = none ∧ w.answer = .ok r ∧ r.isOk = true := by
  unfold fetch at h
  split at h
  · cases h
  · rename_i h0
    split at h
    · cases h
    · split at h
      · cases h
        exact ⟨h0, by assumption, by assumption⟩
      · cases h

theorem fetch_none {url : String} (h : NoAnswer w) : ∃ e, fetch w url = .error e := by
  cases hf : fetch w url with
  | error e => exact ⟨e, rfl⟩
  | ok r =>
    obtain ⟨h1, h2, h3⟩ := fetch_ok hf
    rcases h with ⟨e, h⟩ | ⟨e, h⟩ | ⟨r', h, h'⟩
    · rw [h1] at h; cases h
    · rw [h2] at h; cases h
    · rw [h2] at h; cases h; rw [h3] at h'; cases h'

theorem fetchText_iff {url t : String} : fetchText w url = .ok t ↔ ∃ b, Delivers w b ∧ text b = some t := by
  constructor
  · intro h
    unfold fetchText at h
    cases hf : fetch w url with
    | error e => rw [hf] at h; cases h
    | ok r =>
      obtain ⟨h1, h2, h3⟩ := fetch_ok hf
      simp only [hf] at h
      cases h4 : r.broken with
      | some e => simp [h4] at h
      | none =>
        cases h5 : text r.body.flatten with
        | none => simp [h4, h5] at h
        | some s =>
          simp only [h4, h5, Except.ok.injEq] at h
          exact ⟨_, ⟨h1, r, h2, h3, h4, rfl⟩, h ▸ h5⟩
  · rintro ⟨b, h, ht⟩
    obtain ⟨r, h1, -, h2, h3⟩ := fetch_delivers (url := url) h
    simp [fetchText, h1, h2, h3, ht]

theorem loadStringUrl_eq {uv : Val} {url : String} (hu : Is st uv url) :
    loadStringUrl c w (st ++ [uv]) = match fetchText w url with
      | .ok t => .ok (.resOk (.str t)) st
      | .error e => .ok (.resErr (.str e) []) st := by
  unfold loadStringUrl
  show SM.bind _ _ _ = _
  simp only [SM.bind, popText_ok hu]
  cases fetchText w url <;> rfl

theorem download_eq {uv fv : Val} {url file : String} (hu : Is st uv url) (hf : Is (st ++ [uv]) fv file) :
    download c w os d (st ++ [uv] ++ [fv]) = match downloadTo w os d url file with
      | (.ok f, d) => .ok (.resOk (.str f), d) st
      | (.error e, d) => .ok (.resErr (.str e) [], d) st := by
  unfold download
  show SM.bind _ _ _ = _
  simp only [SM.bind, popText_ok hf]
  show SM.bind _ _ _ = _
  simp only [SM.bind, popText_ok hu]
  rcases downloadTo w os d url file with ⟨_ | _, _⟩ <;> rfl

/-- **C92**, texts.  The call ends with a result: `ok` with the text of the body, exactly if the server answers with status 200 and the
whole body arrives and is a text; otherwise an error. -/
theorem C92_text {uv : Val} {url : String} (hu : Is st uv url) :
    ∃ v, loadStringUrl c w (st ++ [uv]) = .ok v st ∧
      (∀ t, v = .resOk (.str t) ↔ ∃ b, Delivers w b ∧ text b = some t) ∧
      ((∃ t, v = .resOk (.str t)) ∨ ∃ e, v = .resErr (.str e) []) := by
  rw [loadStringUrl_eq hu]
  cases h : fetchText w url with
  | ok t =>
    refine ⟨_, rfl, fun t' => ?_, .inl ⟨t, rfl⟩⟩
    rw [← fetchText_iff (url := url), h]
    simp
  | error e =>
    refine ⟨_, rfl, fun t' => ?_, .inr ⟨e, rfl⟩⟩
    rw [← fetchText_iff (url := url), h]
    simp

/-- **C92**, downloads.  The call ends with a result whatever the network and the system do.  If the result is `ok` it is the name of the
file, which has the whole body of an answer with status 200.  Without such an answer, or if the file cannot be created, the files are as
before; after any other error the file has the first bytes of the body.  Other files are not changed.  If the body arrives and the
system creates and writes the file the result is `ok`. -/
theorem C92_download {uv fv : Val} {url file : String} (hu : Is st uv url) (hf : Is (st ++ [uv]) fv file) :
    ∃ v d', download c w os d (st ++ [uv] ++ [fv]) = .ok (v, d') st ∧ OthersKept file d d' ∧
      (v = .resOk (.str file) ∧ (∃ b, Delivers w b ∧ d' file = some b) ∨
        (∃ e, v = .resErr (.str e) []) ∧ (d' = d ∨ ∃ b, Arrives w b ∧ d' file = some b)) ∧
      (NoAnswer w ∨ os.create ≠ none → (∃ e, v = .resErr (.str e) []) ∧ d' = d) ∧
      ((∃ b, Delivers w b) → os.create = none → (∀ x ∈ os.writes, x = none) → v = .resOk (.str file)) := by
  rw [download_eq hu hf]
  unfold downloadTo
  cases hr : fetch w url with
  | error e =>
    refine ⟨_, _, rfl, fun _ _ => rfl, .inr ⟨⟨e, rfl⟩, .inl rfl⟩, fun _ => ⟨⟨e, rfl⟩, rfl⟩, ?_⟩
    rintro ⟨b, hb⟩
    obtain ⟨r, h, -⟩ := fetch_delivers (url := url) hb
    rw [hr] at h; cases h
  | ok r =>
    obtain ⟨h1, h2, h3⟩ := fetch_ok hr
    have hno : ¬ NoAnswer w := fun h => by
      obtain ⟨e, he⟩ := fetch_none (url := url) h
      rw [hr] at he; cases he
    cases hc : os.create with
    | some e =>
      exact ⟨_, _, rfl, fun _ _ => rfl, .inr ⟨⟨_, rfl⟩, .inl rfl⟩, fun _ => ⟨⟨_, rfl⟩, rfl⟩, by simp⟩
    | none =>
      obtain ⟨n, h5, h6⟩ := copy_spec ⟨[], os.writes⟩ r.body
      have hcalm := copy_calm (s := ⟨[], os.writes⟩) (bs := r.body)
      rcases hs : Sink.copy ⟨[], os.writes⟩ r.body with ⟨s, ok⟩
      rw [hs] at h5 h6 hcalm
      simp only [List.nil_append] at h5 h6 hcalm
      have hset : (d.set file s.done) file = some (r.body.flatten.take n) := by simp [Disk.set, h5]
      have hoth : OthersKept file d (d.set file s.done) := fun f hf => by simp [Disk.set, hf]
      have harr : Arrives w (r.body.flatten.take n) := ⟨r, h2, h3, List.take_prefix _ _⟩
      have hbad : NoAnswer w ∨ (none : Option String) ≠ none → False := by
        rintro (h | h)
        · exact hno h
        · exact h rfl
      cases ok with
      | false =>
        refine ⟨_, _, by simp only [hs]; rfl, hoth, .inr ⟨⟨_, rfl⟩, .inr ⟨_, harr, hset⟩⟩, fun h => (hbad h).elim, fun _ _ h => ?_⟩
        exact absurd (hcalm h) (by simp)
      | true =>
        cases hb : r.broken with
        | some e =>
          refine ⟨_, _, by simp only [hs, hb]; rfl, hoth, .inr ⟨⟨_, rfl⟩, .inr ⟨_, harr, hset⟩⟩, fun h => (hbad h).elim, ?_⟩
          rintro ⟨b, -, r', h, -, h', -⟩
          rw [h2] at h; cases h; rw [hb] at h'; cases h'
        | none =>
          refine ⟨_, _, by simp only [hs, hb], hoth, .inl ⟨rfl, _, ⟨h1, r, h2, h3, hb, rfl⟩, ?_⟩, fun h => (hbad h).elim, fun _ _ _ => rfl⟩
          rw [hset, h6 rfl, List.take_length]

/-- **C92**, both.  A file that was downloaded with the result `ok` is loaded as the text that `load_string(url: ..)` gives for the
same answer, if the system reads the file. -/
theorem C92_back {uv fv fv' uv' : Val} {url file t : String} {st1 st2 : Stack} (hu : Is st uv url) (hf : Is (st ++ [uv]) fv file)
    (hd : download c w os d (st ++ [uv] ++ [fv]) = .ok (.resOk v, d') st') (hr : Reads os') (hf' : Is st1 fv' file)
    (hu' : Is st2 uv' url) (ht : loadStringUrl c w (st2 ++ [uv']) = .ok (.resOk (.str t)) st2) :
    loadString c os' d' (st1 ++ [fv']) = .ok (.resOk (.str t)) st1 := by
  obtain ⟨x, d2, h1, -, h2, -⟩ := C92_download (c := c) (w := w) (os := os) (d := d) hu hf
  rw [hd] at h1
  cases h1
  rcases h2 with ⟨-, b, hb, h2⟩ | ⟨⟨e, h2⟩, -⟩
  · obtain ⟨y, h3, h4, -⟩ := C92_text (c := c) (w := w) hu'
    rw [ht] at h3
    cases h3
    obtain ⟨b', hb', hbt⟩ := (h4 t).1 rfl
    have : b' = b := by
      obtain ⟨-, r, e1, -, -, e2⟩ := hb
      obtain ⟨-, r', e3, -, -, e4⟩ := hb'
      rw [e1] at e3; cases e3
      rw [← e2, ← e4]
    subst this
    obtain ⟨z, h5, -, h6⟩ := C84_load_string (c := c) (os := os') (d := d') hf'
    rw [h5, h6 hr t _ h2 hbt]
  · cases h2

/-- **C92**, grammars.  The call ends with a result: what the parser makes of the body with the rules of the grammar, if the grammar is
read and understood, the whole body arrives and is a text, and the parser accepts it; an error otherwise. -/
theorem C92_meta {Syntax : Type} {rules : String → Except String Syntax} {parse : Syntax → String → Except String (List Text.MetaTok)}
    {mv uv : Val} {grammar url : String} (hm : Is st mv grammar) (hu : Is (st ++ [mv]) uv url) :
    ∃ v, loadMetaUrl c rules parse w os d (st ++ [mv] ++ [uv]) = .ok v st ∧
      ((∃ x, v = .resOk x) ∨ ∃ e, v = .resErr (.str e) []) ∧
      ∀ x, v = .resOk x ↔ ∃ s b t r ts, readFile os d grammar = .ok s ∧ Delivers w b ∧ text b = some t ∧ rules s = .ok r ∧
        parse r t = .ok ts ∧ x = .array (ts.map Text.metaVal) := by
  have key : (∃ b t, Delivers w b ∧ text b = some t ∧ fetchText w url = .ok t) ∨
      (∃ e, fetchText w url = .error e) ∧ ∀ b t, Delivers w b → text b ≠ some t := by
    cases h : fetchText w url with
    | ok t =>
      obtain ⟨b, hb, ht⟩ := fetchText_iff.1 h
      exact .inl ⟨b, t, hb, ht, rfl⟩
    | error e =>
      refine .inr ⟨⟨e, rfl⟩, fun b t hb ht => ?_⟩
      rw [fetchText_iff.2 ⟨b, hb, ht⟩] at h
      cases h
  unfold loadMetaUrl
  show ∃ v, SM.bind _ _ _ = _ ∧ _
  simp only [SM.bind, popText_ok hu]
  show ∃ v, SM.bind _ _ _ = _ ∧ _
  simp only [SM.bind, popText_ok hm]
  cases h1 : readFile os d grammar with
  | error p => exact ⟨_, rfl, .inr ⟨_, rfl⟩, by simp⟩
  | ok s =>
    rcases key with ⟨b, t, hb, ht, h2⟩ | ⟨⟨e, h2⟩, hno⟩
    · have uniq : ∀ b' t', Delivers w b' → text b' = some t' → t' = t := by
        intro b' t' hb' ht'
        have := (fetchText_iff (url := url)).2 ⟨b', hb', ht'⟩
        rw [h2] at this
        cases this; rfl
      cases h3 : rules s with
      | error e =>
        refine ⟨_, by simp only [h2, h3]; rfl, .inr ⟨_, rfl⟩, fun x => ⟨fun h => (nomatch h), ?_⟩⟩
        rintro ⟨s', _, _, r, _, e1, -, -, e2, -⟩
        cases e1; rw [h3] at e2; cases e2
      | ok r => cases h4 : parse r t with
        | error e =>
          refine ⟨_, by simp only [h2, h3, h4]; rfl, .inr ⟨_, rfl⟩, fun x => ⟨fun h => (nomatch h), ?_⟩⟩
          rintro ⟨s', b', t', r', ts, e1, e5, e6, e2, e3, -⟩
          cases e1; rw [h3] at e2; cases e2
          rw [uniq b' t' e5 e6, h4] at e3; cases e3
        | ok ts =>
          refine ⟨_, by simp only [h2, h3, h4]; rfl, .inl ⟨_, rfl⟩, fun x => ⟨fun h => ?_, ?_⟩⟩
          · cases h
            exact ⟨s, b, t, r, ts, rfl, hb, ht, h3, h4, rfl⟩
          · rintro ⟨s', b', t', r', ts', e1, e5, e6, e2, e3, rfl⟩
            cases e1; rw [h3] at e2; cases e2
            rw [uniq b' t' e5 e6, h4] at e3; cases e3
            rfl
    · refine ⟨_, by simp only [h2]; rfl, .inr ⟨_, rfl⟩, fun x => ⟨fun h => (nomatch h), ?_⟩⟩
      rintro ⟨_, b, t, _, _, -, hb, ht, -⟩
      exact absurd ht (hno b t hb)

end

/-! ## Finding and examples -/

/-- An answer that breaks off after two bytes. -/
def brokenOff : Web := ⟨none, .ok ⟨true, "200 OK", [bytes "ne"], some "connection reset"⟩, "invalid"⟩

/-- An answer in two pieces. -/
def whole : Web := ⟨none, .ok ⟨true, "200 OK", [bytes "ne", bytes "w"], none⟩, "invalid"⟩

/-- Finding: a download that breaks off gives an error, but what was in the file before is lost. -/
theorem C92_old_contents_lost (c : Cfg) : ∃ d' e, download c brokenOff calm (fun _ => some (bytes "old"))
    ([] ++ [.str "http://a"] ++ [.str "f"]) = .ok (.resErr (.str e) [], d') [] ∧ d' "f" = some (bytes "ne") := by
  rw [download_eq (st := []) (.inl rfl) (.inl rfl)]
  exact ⟨_, _, rfl, rfl⟩

example : Delivers whole (bytes "ne" ++ (bytes "w" ++ [])) ∧ Arrives brokenOff (bytes "n" ++ []) ∧
    NoAnswer ⟨none, .ok ⟨false, "404 Not Found", [], none⟩, ""⟩ :=
  ⟨⟨rfl, _, rfl, rfl, rfl, rfl⟩, ⟨_, rfl, rfl, by decide +kernel⟩, .inr (.inr ⟨_, rfl, rfl⟩)⟩

/-- The hypotheses of the theorems: the address in a variable, the name of the file written out. -/
example (c : Cfg) (d : Disk) : ∃ d', download c whole calm d ([.str "http://a"] ++ [.ref 0] ++ [.str "f"]) =
    .ok (.resOk (.str "f"), d') [.str "http://a"] ∧
      ∀ t, loadStringUrl c whole ([] ++ [.str "http://a"]) = .ok (.resOk (.str t)) [] →
        loadString c calm d' ([] ++ [.str "f"]) = .ok (.resOk (.str t)) [] := by
  have hu : Is [.str "http://a"] (.ref 0) "http://a" := .inr ⟨0, rfl, rfl⟩
  obtain ⟨v, d', h1, -, -, -, h2⟩ := C92_download (c := c) (w := whole) (os := calm) (d := d) hu (fv := .str "f") (.inl rfl)
  have h3 := h2 ⟨_, rfl, _, rfl, rfl, rfl, rfl⟩ rfl (by simp [calm])
  subst h3
  exact ⟨d', h1, fun t ht => C92_back hu (.inl rfl) h1 ⟨rfl, rfl⟩ (.inl rfl) (.inl rfl) ht⟩

end Dyon.File
