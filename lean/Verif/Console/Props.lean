import Verif.Console.Model
import Verif.Builtin.TextProps

/-!
# C89: what is printed is shown in order, what is typed is read once

For every terminal, every behaviour of the system (`Sys`), every value and every sequence of calls.
-/

namespace Dyon.Console

namespace Spec

/-- All that has been printed, shown or not. -/
def printed (t : Term) : List Char := t.screen ++ t.kept

/-- `line` is the first line of the text `s`, with its line break, and `rest` is what follows; the last line may have no line break. -/
def FirstLine (s line rest : List Char) : Prop :=
  s = line ++ rest ∧ ((∃ a, line = a ++ ['\n'] ∧ '\n' ∉ a) ∨ ('\n' ∉ line ∧ rest = []))

/-- The text consists of these lines, each with its line break, and the rest. -/
def Lines (s : List Char) (ls : List (List Char)) (rest : List Char) : Prop :=
  s = ls.flatten ++ rest ∧ ∀ l ∈ ls, ∃ a, l = a ++ ['\n'] ∧ '\n' ∉ a

/-- What a line of input is read as: the number that it is, without white space at both ends. -/
def Reads [Data.Lex] [TextOps] (line : List Char) (x : Option F64) : Prop :=
  ∃ u, Dyon.Spec.Trimmed Data.Lex.isWs line u ∧ TextOps.parse u = x

/-- In the text, the lines are no numbers up to the line that is the number `x`, behind `k` others; `rest` follows it. -/
inductive Answer [Data.Lex] [TextOps] : List Char → Nat → F64 → List Char → Prop
  | here {s line rest x} : FirstLine s line rest → Reads line (some x) → Answer s 0 x rest
  | next {s line rest k x rest'} : FirstLine s line rest → Reads line none → Answer rest k x rest' → Answer s (k + 1) x rest'

/-- Nothing fails. -/
def Works (sys : Sys) : Prop := (∀ n, sys.broken n = false) ∧ ∀ n, sys.reading n = none

end Spec

open Spec

/-! ## Lemmas -/

theorem complete_drop (s : List Char) (n : Nat) : '\n' ∉ s.drop (max (complete s) n) := by
  intro h
  have h1 : s.drop (max (complete s) n) = (s.drop (complete s)).drop (max (complete s) n - complete s) := by
    rw [List.drop_drop]; congr 1; omega
  rw [h1] at h
  have h2 := List.mem_of_mem_drop h
  have h3 : s.drop (complete s) = (s.reverse.takeWhile (· != '\n')).reverse := by
    unfold complete
    have := List.reverse_take (l := s.reverse) (i := (s.reverse.takeWhile (· != '\n')).length)
    simp only [List.reverse_reverse, List.length_reverse] at this
    rw [← this]
    congr 1
    exact (List.prefix_iff_eq_take.1 (List.takeWhile_prefix _)).symm
  rw [h3, List.mem_reverse] at h2
  have := takeWhile_ws h2
  simp at this

theorem cutLine_spec (s : List Char) : FirstLine s (cutLine s).1 (cutLine s).2 := by
  induction s with
  | nil => exact ⟨rfl, .inr ⟨by simp [cutLine], rfl⟩⟩
  | cons c s ih =>
    unfold cutLine
    split
    · next h => subst h; exact ⟨rfl, .inl ⟨[], rfl, by simp⟩⟩
    · next h =>
      obtain ⟨h1, h2⟩ := ih
      refine ⟨by simpa using h1, ?_⟩
      rcases h2 with ⟨a, ha, hn⟩ | ⟨hn, hr⟩
      · exact .inl ⟨c :: a, by simp [ha], by simp [hn, Ne.symm h]⟩
      · exact .inr ⟨by simp [hn, Ne.symm h], hr⟩

theorem cutLine_line {a rest : List Char} (h : '\n' ∉ a) : cutLine (a ++ ['\n'] ++ rest) = (a ++ ['\n'], rest) := by
  induction a with
  | nil => simp [cutLine]
  | cons c a ih =>
    simp only [List.mem_cons, not_or] at h
    have := ih h.2
    simp only [List.append_assoc, List.cons_append, List.nil_append] at this ⊢
    simp [cutLine, Ne.symm h.1, this]

theorem cutLine_last {a : List Char} (h : '\n' ∉ a) : cutLine a = (a, []) := by
  induction a with
  | nil => simp [cutLine]
  | cons c a ih =>
    simp only [List.mem_cons, not_or] at h
    simp [cutLine, Ne.symm h.1, ih h.2]

theorem firstLine_cut {s l r : List Char} (h : FirstLine s l r) : cutLine s = (l, r) := by
  obtain ⟨rfl, ⟨a, rfl, ha⟩ | ⟨h1, rfl⟩⟩ := h
  · exact cutLine_line ha
  · simpa using cutLine_last h1

section
variable {sys : Sys} {t t' : Term}

theorem write_spec {s : List Char} (h : t.write sys s = some t') :
    printed t' = printed t ++ s ∧ t.screen <+: t'.screen ∧ '\n' ∉ t'.kept ∧ t'.errors = t.errors ∧ t'.input = t.input := by
  unfold Term.write at h
  split at h
  · cases h
  · cases h
    refine ⟨?_, List.prefix_append _ _, complete_drop _ _, rfl, rfl⟩
    simp [printed]

theorem flush_spec (h : t.flush sys = some t') :
    t'.screen = printed t ∧ t'.kept = [] ∧ t'.errors = t.errors ∧ t'.input = t.input := by
  unfold Term.flush at h
  split at h
  · cases h
  · cases h; exact ⟨rfl, rfl, rfl, rfl⟩

theorem warn_spec {s : List Char} (h : t.warn sys s = some t') :
    t'.errors = t.errors ++ s ∧ t'.screen = t.screen ∧ t'.kept = t.kept ∧ t'.input = t.input := by
  unfold Term.warn at h
  split at h
  · cases h
  · cases h; exact ⟨rfl, rfl, rfl, rfl⟩

theorem line_same {r} (h : t.line sys = (r, t')) : t'.screen = t.screen ∧ t'.kept = t.kept ∧ t'.errors = t.errors := by
  unfold Term.line at h
  split at h <;> cases h <;> exact ⟨rfl, rfl, rfl⟩

theorem line_ok {s} (h : t.line sys = (.ok s, t')) : FirstLine t.input s t'.input := by
  unfold Term.line at h
  split at h <;> cases h
  exact cutLine_spec _

theorem line_err {e} (h : t.line sys = (.error e, t')) : t'.input <:+ t.input := by
  unfold Term.line at h
  split at h <;> cases h
  exact List.drop_suffix _ _

end

/-! ## Printing -/

section
variable {sys : Sys} {t t' : Term} {st st' : Stack} {v : Val} [Data.Lex] [Data.Show]

theorem print_eq {fuel : Nat} : print sys fuel t (st ++ [v]) = match Data.writeV st fuel false v with
    | none => .running
    | some s => match t.write sys s with
      | none => .panic
      | some t => .ok t st := by
  unfold print
  show SM.bind _ _ _ = _
  simp [SM.bind, popV]
  rfl

theorem eprint_eq {fuel : Nat} : eprint sys fuel t (st ++ [v]) = match Data.writeV st fuel false v with
    | none => .running
    | some s => match t.warn sys s with
      | none => .panic
      | some t => .ok t st := by
  unfold eprint
  show SM.bind _ _ _ = _
  simp [SM.bind, popV]
  rfl

theorem println_eq {fuel : Nat} : println sys fuel t (st ++ [v]) = match print sys fuel t (st ++ [v]) with
    | .ok t st => match t.write sys ['\n'] with
      | none => .panic
      | some t => .ok t st
    | .err e st => .err e st
    | .panic => .panic
    | .running => .running := by
  unfold println
  show SM.bind _ _ _ = _
  simp only [SM.bind]
  cases print sys fuel t (st ++ [v]) with
  | ok t st => simp only []; cases t.write sys ['\n'] <;> rfl
  | _ => rfl

theorem eprintln_eq {fuel : Nat} : eprintln sys fuel t (st ++ [v]) = match eprint sys fuel t (st ++ [v]) with
    | .ok t st => match t.warn sys ['\n'] with
      | none => .panic
      | some t => .ok t st
    | .err e st => .err e st
    | .panic => .panic
    | .running => .running := by
  unfold eprintln
  show SM.bind _ _ _ = _
  simp only [SM.bind]
  cases eprint sys fuel t (st ++ [v]) with
  | ok t st => simp only []; cases t.warn sys ['\n'] <;> rfl
  | _ => rfl

theorem str_eq {fuel : Nat} : str fuel (st ++ [v]) = match getV v st with
    | .ok v st => match Data.writeV st fuel false v with
      | none => .running
      | some t => .ok (.str (String.ofList t)) st
    | .err e st => .err e st
    | .panic => .panic
    | .running => .running := by
  unfold str
  show SM.bind _ _ _ = _
  simp only [SM.bind, popV, List.getLast?_append, List.getLast?_singleton, Option.some_or, List.dropLast_concat]
  show SM.bind _ _ _ = _
  simp only [SM.bind]
  cases getV v st <;> rfl

/-- The text that a value is printed as is the one that `str` gives. -/
theorem write_str {fuel : Nat} {s : List Char} (h : Data.writeV st fuel false v = some s) :
    ∃ fuel', str fuel' (st ++ [v]) = .ok (.str (String.ofList s)) st := by
  by_cases hr : ∃ i, v = .ref i
  · obtain ⟨i, rfl⟩ := hr
    cases fuel with
    | zero => simp [Data.writeV] at h
    | succ n =>
      cases hi : st[i]? with
      | none => simp [Data.writeV, hi] at h
      | some w =>
        simp only [Data.writeV, hi] at h
        exact ⟨n, by rw [str_eq]; simp [getV, hi, h]⟩
  · refine ⟨fuel, ?_⟩
    have : getV v st = .ok v st := by cases v <;> first | rfl | exact absurd ⟨_, rfl⟩ hr
    rw [str_eq, this]; simp [h]

theorem str_write {fuel : Nat} {s : String} (h : str fuel (st ++ [v]) = .ok (.str s) st) :
    ∃ fuel', Data.writeV st fuel' false v = some s.toList := by
  rw [str_eq] at h
  have key : ∀ {w : Val} {n : Nat}, (match Data.writeV st n false w with
      | none => Out.running
      | some t => .ok (Val.str (String.ofList t)) st) = .ok (Val.str s) st → Data.writeV st n false w = some s.toList := by
    intro w n h
    cases hw : Data.writeV st n false w with
    | none => rw [hw] at h; cases h
    | some u => rw [hw] at h; cases h; simp
  by_cases hr : ∃ i, v = .ref i
  · obtain ⟨i, rfl⟩ := hr
    cases hi : st[i]? with
    | none => simp [getV, hi] at h
    | some w =>
      simp only [getV, hi] at h
      exact ⟨fuel + 1, by simp only [Data.writeV, hi]; exact key h⟩
  · have : getV v st = .ok v st := by cases v <;> first | rfl | exact absurd ⟨_, rfl⟩ hr
    rw [this] at h
    exact ⟨fuel, key h⟩

/-- **C89** `print(x)`: if the call ends, the text of `str(x)` is printed behind what was printed before, nothing that is on the screen
changes, complete lines are on the screen, and the error output and the input are as before.  There are no errors. -/
theorem C89_print {fuel : Nat} (h : print sys fuel t (st ++ [v]) = .ok t' st') :
    st' = st ∧ t.screen <+: t'.screen ∧ '\n' ∉ t'.kept ∧ t'.errors = t.errors ∧ t'.input = t.input ∧
      ∃ fuel s, str fuel (st ++ [v]) = .ok (.str s) st ∧ printed t' = printed t ++ s.toList := by
  rw [print_eq] at h
  cases hw : Data.writeV st fuel false v with
  | none => rw [hw] at h; cases h
  | some s =>
    simp only [hw] at h
    cases ht : t.write sys s with
    | none => rw [ht] at h; cases h
    | some u =>
      rw [ht] at h; cases h
      obtain ⟨h1, h2, h3, h4, h5⟩ := write_spec ht
      obtain ⟨n, hn⟩ := write_str hw
      exact ⟨rfl, h2, h3, h4, h5, n, _, hn, by simpa using h1⟩

/-- **C89** `println(x)`: as `print`, with a line break behind it, and all is on the screen. -/
theorem C89_println {fuel : Nat} (h : println sys fuel t (st ++ [v]) = .ok t' st') :
    st' = st ∧ t.screen <+: t'.screen ∧ t'.kept = [] ∧ t'.errors = t.errors ∧ t'.input = t.input ∧
      ∃ fuel s, str fuel (st ++ [v]) = .ok (.str s) st ∧ printed t' = printed t ++ s.toList ++ ['\n'] := by
  rw [println_eq] at h
  cases hp : print sys fuel t (st ++ [v]) with
  | ok u stu =>
    simp only [hp] at h
    cases hw : u.write sys ['\n'] with
    | none => rw [hw] at h; cases h
    | some w =>
      rw [hw] at h; cases h
      obtain ⟨rfl, p2, p3, p4, p5, n, s, hs, p6⟩ := C89_print hp
      obtain ⟨h1, h2, h3, h4, h5⟩ := write_spec hw
      refine ⟨rfl, p2.trans h2, ?_, h4.trans p4, h5.trans p5, n, s, hs, by rw [h1, p6]⟩
      rcases List.eq_nil_or_concat t'.kept with h | ⟨l, c, hl⟩
      · exact h
      · exfalso
        unfold printed at h1
        rw [hl, List.concat_eq_append, ← List.append_assoc] at h1
        have := (List.append_inj' h1 rfl).2
        exact h3 (by rw [hl]; simp_all)
  | _ => rw [hp] at h; cases h

/-- **C89** `eprint(x)` and `eprintln(x)`: the same text goes to the error output, and nothing else changes. -/
theorem C89_eprint {fuel : Nat} (ln : Bool)
    (h : (if ln then eprintln else eprint) sys fuel t (st ++ [v]) = .ok t' st') :
    st' = st ∧ t'.screen = t.screen ∧ t'.kept = t.kept ∧ t'.input = t.input ∧
      ∃ fuel s, str fuel (st ++ [v]) = .ok (.str s) st ∧
        t'.errors = t.errors ++ s.toList ++ if ln then ['\n'] else [] := by
  have key : ∀ {t' st'}, eprint sys fuel t (st ++ [v]) = .ok t' st' →
      st' = st ∧ t'.screen = t.screen ∧ t'.kept = t.kept ∧ t'.input = t.input ∧
        ∃ fuel s, str fuel (st ++ [v]) = .ok (.str s) st ∧ t'.errors = t.errors ++ s.toList := by
    intro t' st' h
    rw [eprint_eq] at h
    cases hw : Data.writeV st fuel false v with
    | none => rw [hw] at h; cases h
    | some s =>
      simp only [hw] at h
      cases ht : t.warn sys s with
      | none => rw [ht] at h; cases h
      | some u =>
        rw [ht] at h; cases h
        obtain ⟨h1, h2, h3, h4⟩ := warn_spec ht
        obtain ⟨n, hn⟩ := write_str hw
        exact ⟨rfl, h2, h3, h4, n, _, hn, by simpa using h1⟩
  cases ln with
  | false => simpa using key h
  | true =>
    simp only [if_true] at h
    rw [eprintln_eq] at h
    cases hp : eprint sys fuel t (st ++ [v]) with
    | ok u stu =>
      simp only [hp] at h
      cases hw : u.warn sys ['\n'] with
      | none => rw [hw] at h; cases h
      | some w =>
        rw [hw] at h; cases h
        obtain ⟨rfl, p2, p3, p4, n, s, hs, p6⟩ := key hp
        obtain ⟨h1, h2, h3, h4⟩ := warn_spec hw
        exact ⟨rfl, h2.trans p2, h3.trans p3, h4.trans p4, n, s, hs, by rw [h1, p6]; simp⟩
    | _ => rw [hp] at h; cases h

/-- **C89** Printing ends: a value that `str` gives a text for is printed if the output does not fail. -/
theorem C89_print_ends {fuel : Nat} {s : String} (hs : str fuel (st ++ [v]) = .ok (.str s) st) (hw : ∀ n, sys.broken n = false) :
    ∃ fuel, (∃ t', print sys fuel t (st ++ [v]) = .ok t' st) ∧ (∃ t', println sys fuel t (st ++ [v]) = .ok t' st) ∧
      (∃ t', eprint sys fuel t (st ++ [v]) = .ok t' st) ∧ ∃ t', eprintln sys fuel t (st ++ [v]) = .ok t' st := by
  obtain ⟨n, hn⟩ := str_write hs
  refine ⟨n, ?_, ?_, ?_, ?_⟩
  · rw [print_eq, hn]; simp [Term.write, hw]
  · rw [println_eq, print_eq, hn]; simp [Term.write, hw]
  · rw [eprint_eq, hn]; simp [Term.warn, hw]
  · rw [eprintln_eq, eprint_eq, hn]; simp [Term.warn, hw]

/-- **C89** A text is printed as it is, also through a variable. -/
theorem C89_text {s : String} (h : Denotes st v (.str s)) : str 1 (st ++ [v]) = .ok (.str s) st := by
  rw [str_eq]
  have : getV v st = .ok (.str s) st := by simpa using h.getV []
  rw [this]
  simp [Data.writeV]

/-- **C89**, where it fails: when the output is closed, `print` crashes the program. -/
theorem C89_closed_panics {fuel : Nat} {s : String} (hs : str fuel (st ++ [v]) = .ok (.str s) st) (hw : sys.broken t.clock = true) :
    ∃ fuel, print sys fuel t (st ++ [v]) = .panic := by
  obtain ⟨n, hn⟩ := str_write hs
  exact ⟨n, by rw [print_eq, hn]; simp [Term.write, hw]⟩

end

/-! ## Reading -/

section
variable {sys : Sys} {t t' : Term} {st st' : Stack} {v : Val}

/-- **C89** `read_line()`: before the program waits, all that was printed is on the screen.  The text is the next line with its line
break, the rest of the input stays; it is determined by that. -/
theorem C89_read_line {s : Val} (h : readLine sys t st = .ok (.ok s, t') st') :
    st' = st ∧ t'.screen = printed t ∧ t'.kept = [] ∧ t'.errors = t.errors ∧
      ∃ l, s = .str l ∧ FirstLine t.input l.toList t'.input ∧
        ∀ l' r, FirstLine t.input l' r → l' = l.toList ∧ r = t'.input := by
  unfold readLine at h
  cases hf : t.flush sys with
  | none => rw [hf] at h; cases h
  | some u =>
    rw [hf] at h
    obtain ⟨f1, f2, f3, f4⟩ := flush_spec hf
    rcases hl : u.line sys with ⟨_ | l, w⟩
    · simp only [hl] at h; cases h
    · simp only [hl] at h; cases h
      have hk := line_ok hl
      obtain ⟨l1, l2, l3⟩ := line_same hl
      rw [f4] at hk
      refine ⟨rfl, by rw [l1, f1], by rw [l2, f2], by rw [l3, f3], _, rfl, by simpa using hk, fun l' r h' => ?_⟩
      have := (firstLine_cut h').symm.trans (firstLine_cut hk)
      simpa using this

/-- **C89** An empty text means that the input has ended: there is nothing left to read. -/
theorem C89_end {s : Val} (h : readLine sys t st = .ok (.ok s, t') st') : s = .str "" ↔ t.input = [] := by
  obtain ⟨-, -, -, -, l, rfl, ⟨h1, h2⟩, -⟩ := C89_read_line h
  constructor
  · intro e
    cases e
    rcases h2 with ⟨a, h, -⟩ | ⟨-, h⟩
    · simp at h
    · simpa [h] using h1
  · intro e
    rw [e] at h1
    have : l.toList = [] := (List.append_eq_nil_iff.1 h1.symm).1
    have : l = "" := by simpa using this
    rw [this]

/-- **C89** If reading fails it is an error of the program, and nothing is read twice; if nothing fails there is a text. -/
theorem C89_read_fails :
    (∀ e, readLine sys t st = .ok (.error e, t') st' → t'.input <:+ t.input ∧ t'.screen = printed t) ∧
      (Works sys → ∃ s t', readLine sys t st = .ok (.ok s, t') st) := by
  constructor
  · intro e h
    unfold readLine at h
    cases hf : t.flush sys with
    | none => rw [hf] at h; cases h
    | some u =>
      rw [hf] at h
      obtain ⟨f1, f2, f3, f4⟩ := flush_spec hf
      rcases hl : u.line sys with ⟨_ | l, w⟩
      · simp only [hl] at h; cases h
        exact ⟨by rw [← f4]; exact line_err hl, by rw [(line_same hl).1, f1]⟩
      · simp only [hl] at h; cases h
  · intro ⟨h1, h2⟩
    unfold readLine
    simp only [Term.flush, h1, Term.line, h2]
    exact ⟨_, _, rfl⟩

/-- **C89**, where it fails: with the output closed, reading crashes the program. -/
theorem C89_read_panics (h : sys.broken t.clock = true) : readLine sys t st = .panic := by
  simp [readLine, Term.flush, h, SM.panic]

end

/-! ## Reading numbers -/

section
variable {sys : Sys} {t t' : Term} {st st' : Stack} {v : Val} [Data.Lex] [TextOps]

theorem reads_iff {s : List Char} {x : Option F64} : Reads s x ↔ TextOps.parse (Lib.trimBoth s) = x := by
  constructor
  · rintro ⟨u, hu, rfl⟩
    rw [trimmed_unique hu (trimBoth_spec s)]
  · intro h; exact ⟨_, trimBoth_spec s, h⟩

/-- The message, once for each line. -/
def said (msg : List Char) (n : Nat) : List Char := (List.replicate n (msg ++ ['\n'])).flatten

omit [Data.Lex] [TextOps] in
theorem said_succ (msg : List Char) (n : Nat) : said msg (n + 1) = msg ++ ['\n'] ++ said msg n := by
  simp [said, List.replicate_succ]

/-- A round that does not end the loop. -/
theorem ask_succ {msg : List Char} {n : Nat} : ask sys msg (n + 1) t = match t.flush sys with
    | none => .panic
    | some t => match t.line sys with
      | (.error e, t) => .failed e t
      | (.ok s, t) => match TextOps.parse (Lib.trimBoth s) with
        | some x => .number x t
        | none => match t.write sys (msg ++ ['\n']) with
          | none => .panic
          | some t => ask sys msg n t := rfl

theorem ask_number {msg : List Char} {x : F64} : ∀ {n : Nat} {t t' : Term}, ask sys msg n t = .number x t' →
    ∃ k, k < n ∧ Answer t.input k x t'.input ∧ t'.screen = printed t ++ said msg k ∧ t'.kept = [] ∧ t'.errors = t.errors
  | 0, t, t', h => by cases h
  | n + 1, t, t', h => by
    rw [ask_succ] at h
    cases hf : t.flush sys with
    | none => rw [hf] at h; cases h
    | some u =>
      rw [hf] at h
      obtain ⟨f1, f2, f3, f4⟩ := flush_spec hf
      rcases hl : u.line sys with ⟨_ | l, w⟩
      · simp only [hl] at h; cases h
      · simp only [hl] at h
        have hk := line_ok hl
        obtain ⟨l1, l2, l3⟩ := line_same hl
        rw [f4] at hk
        cases hp : TextOps.parse (Lib.trimBoth l) with
        | some y =>
          simp only [hp] at h; cases h
          refine ⟨0, by omega, .here hk (reads_iff.2 hp), by simp [said, l1, f1], by rw [l2, f2], by rw [l3, f3]⟩
        | none =>
          simp only [hp] at h
          cases hw : w.write sys (msg ++ ['\n']) with
          | none => rw [hw] at h; cases h
          | some z =>
            rw [hw] at h
            obtain ⟨w1, w2, w3, w4, w5⟩ := write_spec hw
            obtain ⟨k, i1, i2, i3, i4, i5⟩ := ask_number h
            rw [w5] at i2
            refine ⟨k + 1, by omega, .next hk (reads_iff.2 hp) i2, ?_, i4, by rw [i5, w4, l3, f3]⟩
            rw [i3, w1, said_succ, printed, l1, l2, f1, f2]; simp

/-- A round with a line that is not a number, when nothing fails. -/
theorem ask_next {msg l r : List Char} {n : Nat} (hw : Works sys) (hl : FirstLine t.input l r) (hp : Reads l none) :
    ∃ u, ask sys msg (n + 1) t = ask sys msg n u ∧ u.input = r ∧ printed u = printed t ++ (msg ++ ['\n']) := by
  have hc := firstLine_cut hl
  rw [reads_iff] at hp
  rw [ask_succ]
  simp only [Term.flush, hw.1, Term.line, hw.2, Term.write, hc, hp, Bool.false_eq_true, if_false]
  refine ⟨_, rfl, rfl, by simp [printed]⟩

theorem ask_here {msg l r : List Char} {x : F64} {n : Nat} (hw : Works sys) (hl : FirstLine t.input l r) (hp : Reads l (some x)) :
    ∃ u, ask sys msg (n + 1) t = .number x u ∧ u.input = r := by
  have hc := firstLine_cut hl
  rw [reads_iff] at hp
  rw [ask_succ]
  simp only [Term.flush, hw.1, Term.line, hw.2, hc, hp, Bool.false_eq_true, if_false]
  exact ⟨_, rfl, rfl⟩

theorem ask_answer {msg : List Char} {x : F64} (hw : Works sys) {s r : List Char} {k : Nat} (h : Answer s k x r) :
    ∀ {t : Term} {n : Nat}, t.input = s → k < n → ∃ u, ask sys msg n t = .number x u ∧ u.input = r := by
  induction h with
  | here h1 h2 =>
    intro t n e hn
    obtain ⟨m, rfl⟩ : ∃ m, n = m + 1 := ⟨n - 1, by omega⟩
    subst e; exact ask_here hw h1 h2
  | next h1 h2 _ ih =>
    intro t n e hn
    obtain ⟨m, rfl⟩ : ∃ m, n = m + 1 := ⟨n - 1, by omega⟩
    subst e
    obtain ⟨u, e1, e2, -⟩ := ask_next (msg := msg) (n := m) hw h1 h2
    rw [e1]; exact ih e2 (by omega)

theorem ask_endless {msg : List Char} (hw : Works sys) : ∀ (n : Nat) {t : Term}, (∀ k x r, ¬ Answer t.input k x r) →
    ∃ u, ask sys msg n t = .running u ∧ printed u = printed t ++ said msg n
  | 0, t, _ => ⟨t, rfl, by simp [said]⟩
  | n + 1, t, h => by
    have hc := cutLine_spec t.input
    cases hp : TextOps.parse (Lib.trimBoth (cutLine t.input).1) with
    | some x => exact absurd (.here hc (reads_iff.2 hp)) (h _ _ _)
    | none =>
      obtain ⟨u, e1, e2, e3⟩ := ask_next (msg := msg) (n := n) hw hc (reads_iff.2 hp)
      obtain ⟨w, i1, i2⟩ := ask_endless hw n (t := u) (fun k x r hk => h (k + 1) x r (.next hc (reads_iff.2 hp) (by rw [← e2]; exact hk)))
      exact ⟨w, by rw [e1, i1], by rw [i2, e3, said_succ]; simp⟩

theorem readNumber_eq (c : Cfg) {msg : String} {n : Nat} (h : Denotes st v (.str msg)) :
    readNumber sys c n t (st ++ [v]) = match ask sys msg.toList n t with
    | .number x t => .ok (.ok (.ofF64 x), t) st
    | .failed e t => .ok (.error e, t) st
    | .panic => .panic
    | .running _ => .running := by
  unfold readNumber
  rw [popText_ok c h]
  rfl

/-- **C89** `read_number(msg)`: what is given is the number in the first line that is one.  The message was printed once, with a line
break, for each line before it, and is on the screen; the lines behind it stay in the input. -/
theorem C89_number (c : Cfg) {msg : String} {n : Nat} {y : Val} (h : Denotes st v (.str msg))
    (hr : readNumber sys c n t (st ++ [v]) = .ok (.ok y, t') st') :
    ∃ k x, y = .ofF64 x ∧ st' = st ∧ Answer t.input k x t'.input ∧
      t'.screen = printed t ++ (List.replicate k (msg.toList ++ ['\n'])).flatten ∧ t'.kept = [] ∧ t'.errors = t.errors := by
  rw [readNumber_eq c h] at hr
  cases ha : ask sys msg.toList n t with
  | number x u =>
    rw [ha] at hr; cases hr
    obtain ⟨k, -, h1, h2, h3, h4⟩ := ask_number ha
    exact ⟨k, x, rfl, rfl, h1, h2, h3, h4⟩
  | _ => rw [ha] at hr; cases hr

/-- **C89** If nothing fails, `read_number` ends exactly if a line of the input is a number, at the latest at the end of the input. -/
theorem C89_number_ends (c : Cfg) {msg : String} (h : Denotes st v (.str msg)) (hw : Works sys) :
    (∃ n y t', readNumber sys c n t (st ++ [v]) = .ok (.ok y, t') st) ↔ ∃ k x r, Answer t.input k x r := by
  constructor
  · rintro ⟨n, y, t', hr⟩
    obtain ⟨k, x, -, -, ha, -⟩ := C89_number c h hr
    exact ⟨k, x, _, ha⟩
  · rintro ⟨k, x, r, ha⟩
    obtain ⟨u, e, -⟩ := ask_answer (msg := msg.toList) hw ha (t := t) (n := k + 1) rfl (by omega)
    exact ⟨k + 1, _, _, by rw [readNumber_eq c h, e]⟩

/-- **C89** Lines that are not numbers, and a line that is one behind them: this is what `read_number` waits for. -/
theorem C89_number_line {s rest l r : List Char} {x : F64} {ls : List (List Char)} (h : Lines s ls rest)
    (hn : ∀ l ∈ ls, Reads l none) (hl : FirstLine rest l r) (hx : Reads l (some x)) : Answer s ls.length x r := by
  obtain ⟨rfl, h2⟩ := h
  induction ls with
  | nil => exact .here (by simpa using hl) hx
  | cons a ls ih =>
    have ha := h2 a (by simp)
    exact .next ⟨by simp, .inl ha⟩ (hn a (by simp))
      (ih (fun l hl => hn l (by simp [hl])) fun l hl => h2 l (by simp [hl]))

/-- **C89**, where it fails: at the end of the input `read_number` does not end, and prints the message again and again: after `n`
rounds `n` times. -/
theorem C89_number_endless (c : Cfg) {msg : String} (h : Denotes st v (.str msg)) (hw : Works sys) (he : Reads [] none)
    (hi : t.input = []) (n : Nat) :
    readNumber sys c n t (st ++ [v]) = .running ∧
      ∃ u, ask sys msg.toList n t = .running u ∧ printed u = printed t ++ (List.replicate n (msg.toList ++ ['\n'])).flatten := by
  have hno : ∀ k x r, ¬ Answer t.input k x r := by
    intro k x r ha
    rw [hi] at ha
    generalize hs : ([] : List Char) = s at ha
    induction ha with
    | here h1 h2 =>
      subst hs
      have := (List.append_eq_nil_iff.1 h1.1.symm).1
      subst this
      rw [reads_iff] at he h2
      rw [he] at h2; cases h2
    | next h1 _ _ ih =>
      subst hs
      exact ih (List.append_eq_nil_iff.1 h1.1.symm).2.symm
  obtain ⟨u, e1, e2⟩ := ask_endless (msg := msg.toList) hw n hno
  exact ⟨by rw [readNumber_eq c h, e1], u, e1, e2⟩

/-- **C89**, where it fails: a message that is not a text crashes the program. -/
theorem C89_message_panics (c : Cfg) {w : Val} {n : Nat} (h : Denotes st v w) (hw : ∀ s, w ≠ .str s) :
    readNumber sys c n t (st ++ [v]) = .panic := by
  have : ∀ s st', Lib.popText c (st ++ [v]) ≠ .ok s st' := by
    intro s st'
    have hg : getV v st = .ok w st := by simpa using h.getV []
    simp only [Lib.popText]
    show SM.bind _ _ _ ≠ _
    simp only [SM.bind, popV, List.getLast?_append, List.getLast?_singleton, Option.some_or, List.dropLast_concat]
    show SM.bind _ _ _ ≠ _
    simp only [SM.bind, hg]
    cases w <;> simp_all [SM.fail]
  unfold readNumber
  cases hp : Lib.popText c (st ++ [v]) with
  | ok s st' => exact absurd hp (this _ _)
  | _ => rfl

theorem answer_took {s r : List Char} {k : Nat} {x : F64} (h : Answer s k x r) : r <:+ s := by
  induction h with
  | here h _ => rw [h.1]; exact List.suffix_append _ _
  | next h _ _ ih => rw [h.1]; exact ih.trans (List.suffix_append _ _)

theorem ask_failed {msg : List Char} {e : String} : ∀ {n : Nat} {t t' : Term}, ask sys msg n t = .failed e t' →
    ∃ k, t'.input <:+ t.input ∧ t'.screen = printed t ++ said msg k ∧ t'.kept = [] ∧ t'.errors = t.errors
  | 0, t, t', h => by cases h
  | n + 1, t, t', h => by
    rw [ask_succ] at h
    cases hf : t.flush sys with
    | none => rw [hf] at h; cases h
    | some u =>
      rw [hf] at h
      obtain ⟨f1, f2, f3, f4⟩ := flush_spec hf
      rcases hl : u.line sys with ⟨_ | l, w⟩
      · simp only [hl] at h; cases h
        obtain ⟨l1, l2, l3⟩ := line_same hl
        exact ⟨0, by rw [← f4]; exact line_err hl, by simp [said, l1, f1], by rw [l2, f2], by rw [l3, f3]⟩
      · simp only [hl] at h
        have hk := line_ok hl
        obtain ⟨l1, l2, l3⟩ := line_same hl
        rw [f4] at hk
        cases hp : TextOps.parse (Lib.trimBoth l) with
        | some y => simp only [hp] at h; cases h
        | none =>
          simp only [hp] at h
          cases hw : w.write sys (msg ++ ['\n']) with
          | none => rw [hw] at h; cases h
          | some z =>
            rw [hw] at h
            obtain ⟨w1, w2, w3, w4, w5⟩ := write_spec hw
            obtain ⟨k, i2, i3, i4, i5⟩ := ask_failed h
            rw [w5] at i2
            refine ⟨k + 1, by rw [hk.1]; exact i2.trans (List.suffix_append _ _), ?_, i4, by rw [i5, w4, l3, f3]⟩
            rw [i3, w1, said_succ, printed, l1, l2, f1, f2]; simp

end

/-! ## Sequences of calls -/

/-- A call of one of the functions, with its argument. -/
inductive Call where
  | print (v : Val)
  | println (v : Val)
  | eprint (v : Val)
  | eprintln (v : Val)
  | readLine
  | readNumber (msg : Val)

section
variable (sys : Sys) (c : Cfg) [Data.Lex] [Data.Show] [TextOps]

/-- The call ends: with nothing, with a value or with an error.  The arguments are on the stack, behind `st`. -/
def Call.Ends (st : Stack) : Call → Term → Option (Except String Val) → Term → Prop
  | .print v, t, r, t' => r = none ∧ ∃ fuel st', Console.print sys fuel t (st ++ [v]) = .ok t' st'
  | .println v, t, r, t' => r = none ∧ ∃ fuel st', Console.println sys fuel t (st ++ [v]) = .ok t' st'
  | .eprint v, t, r, t' => r = none ∧ ∃ fuel st', Console.eprint sys fuel t (st ++ [v]) = .ok t' st'
  | .eprintln v, t, r, t' => r = none ∧ ∃ fuel st', Console.eprintln sys fuel t (st ++ [v]) = .ok t' st'
  | .readLine, t, r, t' => ∃ y st', Console.readLine sys t st = .ok (y, t') st' ∧ r = some y
  | .readNumber v, t, r, t' => ∃ n y st', Console.readNumber sys c n t (st ++ [v]) = .ok (y, t') st' ∧ r = some y

/-- Calls one after another, with other variables on the stack at each of them. -/
inductive Calls : List (Stack × Call × Option (Except String Val)) → Term → Term → Prop
  | nil {t} : Calls [] t t
  | cons {st call r cs t u t'} : Call.Ends sys c st call t r u → Calls cs u t' → Calls ((st, call, r) :: cs) t t'

/-- What one call prints on the output and on the error output, and what it takes of the input. -/
structure Effect where
  said : List Char
  warned : List Char
  took : List Char

namespace Spec

/-- `str(v)` gives the text. -/
def TextOf (st : Stack) (v : Val) (s : List Char) : Prop := ∃ fuel, str fuel (st ++ [v]) = .ok (.str (String.ofList s)) st

/-- What the calls are there for. -/
def Does : Stack × Call × Option (Except String Val) → Effect → Prop
  | (st, .print v, _), e => TextOf st v e.said ∧ e.warned = [] ∧ e.took = []
  | (st, .println v, _), e => (∃ s, TextOf st v s ∧ e.said = s ++ ['\n']) ∧ e.warned = [] ∧ e.took = []
  | (st, .eprint v, _), e => TextOf st v e.warned ∧ e.said = [] ∧ e.took = []
  | (st, .eprintln v, _), e => (∃ s, TextOf st v s ∧ e.warned = s ++ ['\n']) ∧ e.said = [] ∧ e.took = []
  | (_, .readLine, some (.ok y)), e => y = .str (String.ofList e.took) ∧ e.said = [] ∧ e.warned = []
  | (st, .readNumber v, some (.ok y)), e => e.warned = [] ∧ ∃ msg k x rest, Denotes st v (.str msg) ∧ y = .ofF64 x ∧
      Answer (e.took ++ rest) k x rest ∧ e.said = (List.replicate k (msg.toList ++ ['\n'])).flatten
  | (_, .readLine, _), e => e.said = [] ∧ e.warned = []
  | (st, .readNumber v, _), e => e.warned = [] ∧ ∃ msg k, Denotes st v (.str msg) ∧
      e.said = (List.replicate k (msg.toList ++ ['\n'])).flatten

end Spec

variable {sys c}

omit [Data.Lex] [Data.Show] [TextOps] in
theorem denotes_of_popText {st : Stack} {v : Val} {s : String} {st' : Stack} (h : Lib.popText c (st ++ [v]) = .ok s st') :
    Denotes st v (.str s) := by
  simp only [Lib.popText] at h
  change SM.bind _ _ _ = _ at h
  simp only [SM.bind, popV, List.getLast?_append, List.getLast?_singleton, Option.some_or, List.dropLast_concat] at h
  change SM.bind _ _ _ = _ at h
  simp only [SM.bind] at h
  by_cases hr : ∃ i, v = .ref i
  · obtain ⟨i, rfl⟩ := hr
    cases hi : st[i]? with
    | none => simp [getV, hi] at h
    | some w =>
      simp only [getV, hi] at h
      cases w <;> simp_all [SM.fail]
      cases h; exact .inl ⟨i, rfl, hi⟩
  · have hg : getV v st = .ok v st := by cases v <;> first | rfl | exact absurd ⟨_, rfl⟩ hr
    simp only [hg] at h
    refine .inr ⟨fun i hi => hr ⟨i, hi⟩, ?_⟩
    cases v <;> simp_all [SM.fail]

theorem call_does {st : Stack} {call : Call} {r : Option (Except String Val)} {t t' : Term} (h : Call.Ends sys c st call t r t') :
    ∃ e : Effect, Does (st, call, r) e ∧ printed t' = printed t ++ e.said ∧ t'.errors = t.errors ++ e.warned ∧
      t.input = e.took ++ t'.input := by
  cases call with
  | print v =>
    obtain ⟨rfl, fuel, st', h⟩ := h
    obtain ⟨-, -, -, h4, h5, n, s, h6, h7⟩ := C89_print h
    exact ⟨⟨s.toList, [], []⟩, ⟨⟨n, by simpa using h6⟩, rfl, rfl⟩, h7, by simp [h4], by simp [h5]⟩
  | println v =>
    obtain ⟨rfl, fuel, st', h⟩ := h
    obtain ⟨-, -, -, h4, h5, n, s, h6, h7⟩ := C89_println h
    exact ⟨⟨s.toList ++ ['\n'], [], []⟩, ⟨⟨s.toList, ⟨n, by simpa using h6⟩, rfl⟩, rfl, rfl⟩, by simpa using h7, by simp [h4], by simp [h5]⟩
  | eprint v =>
    obtain ⟨rfl, fuel, st', h⟩ := h
    obtain ⟨-, h2, h3, h5, n, s, h6, h7⟩ := C89_eprint false h
    exact ⟨⟨[], s.toList, []⟩, ⟨⟨n, by simpa using h6⟩, rfl, rfl⟩, by simp [printed, h2, h3], by simpa using h7, by simp [h5]⟩
  | eprintln v =>
    obtain ⟨rfl, fuel, st', h⟩ := h
    obtain ⟨-, h2, h3, h5, n, s, h6, h7⟩ := C89_eprint true h
    exact ⟨⟨[], s.toList ++ ['\n'], []⟩, ⟨⟨s.toList, ⟨n, by simpa using h6⟩, rfl⟩, rfl, rfl⟩, by simp [printed, h2, h3],
      by simpa using h7, by simp [h5]⟩
  | readLine =>
    obtain ⟨y, st', h, rfl⟩ := h
    cases y with
    | ok y =>
      obtain ⟨-, h1, h2, h3, l, rfl, h4, -⟩ := C89_read_line h
      exact ⟨⟨[], [], l.toList⟩, ⟨by simp, rfl, rfl⟩, by simp [printed, h1, h2], by simp [h3], h4.1⟩
    | error m =>
      unfold readLine at h
      cases hf : t.flush sys with
      | none => rw [hf] at h; cases h
      | some u =>
        rw [hf] at h
        obtain ⟨f1, f2, f3, f4⟩ := flush_spec hf
        rcases hl : u.line sys with ⟨_ | l, w⟩
        · simp only [hl] at h; cases h
          obtain ⟨l1, l2, l3⟩ := line_same hl
          obtain ⟨a, ha⟩ := line_err hl
          exact ⟨⟨[], [], a⟩, ⟨rfl, rfl⟩, by simp [printed, l1, l2, f1, f2], by simp [l3, f3], by rw [ha, f4]⟩
        · simp only [hl] at h; cases h
  | readNumber v =>
    obtain ⟨n, y, st', h, rfl⟩ := h
    have hd : ∃ msg, Denotes st v (.str msg) := by
      unfold readNumber at h
      cases hp : Lib.popText c (st ++ [v]) with
      | ok s _ => exact ⟨s, denotes_of_popText hp⟩
      | _ => rw [hp] at h; cases h
    obtain ⟨msg, hd⟩ := hd
    cases y with
    | ok y =>
      obtain ⟨k, x, rfl, -, h1, h2, h3, h4⟩ := C89_number c hd h
      obtain ⟨a, ha⟩ := answer_took h1
      exact ⟨⟨(List.replicate k (msg.toList ++ ['\n'])).flatten, [], a⟩,
        ⟨rfl, msg, k, x, t'.input, hd, rfl, by simpa [ha] using h1, rfl⟩, by simp [printed, h2, h3], by simp [h4], ha.symm⟩
    | error m =>
      rw [readNumber_eq c hd] at h
      cases ha : ask sys msg.toList n t with
      | failed e u =>
        rw [ha] at h; cases h
        obtain ⟨k, ⟨a, ha⟩, h2, h3, h4⟩ := ask_failed ha
        exact ⟨⟨(List.replicate k (msg.toList ++ ['\n'])).flatten, [], a⟩, ⟨rfl, msg, k, hd, rfl⟩,
          by simp [printed, h2, h3, said], by simp [h4], ha.symm⟩
      | _ => rw [ha] at h; cases h

/-- **C89** For every sequence of calls: the texts are printed in the order of the calls, on the output and on the error output, and
what the calls read are the parts of the input, in order, nothing left out and nothing twice. -/
theorem C89_history {cs : List (Stack × Call × Option (Except String Val))} {t t' : Term} (h : Calls sys c cs t t') :
    ∃ es : List Effect, List.Forall₂ Does cs es ∧ printed t' = printed t ++ (es.map (·.said)).flatten ∧
      t'.errors = t.errors ++ (es.map (·.warned)).flatten ∧ t.input = (es.map (·.took)).flatten ++ t'.input := by
  induction h with
  | nil => exact ⟨[], .nil, by simp, by simp, by simp⟩
  | cons h _ ih =>
    obtain ⟨e, h1, h2, h3, h4⟩ := call_does h
    obtain ⟨es, i1, i2, i3, i4⟩ := ih
    exact ⟨e :: es, .cons h1 i1, by rw [i2, h2]; simp, by rw [i3, h3]; simp, by rw [h4, i4]; simp⟩

end

/-! ## Cases -/

/-- Nothing fails and nothing is shown early. -/
def calm : Sys := ⟨fun _ => 0, fun _ => false, fun _ => none⟩

theorem calm_works : Works calm := ⟨fun _ => rfl, fun _ => rfl⟩

/-- `"> "` has been printed; a line is typed that is no number, then `7` and some more. -/
def demo : Term := ⟨"x\n7\nrest".toList, [], "> ".toList, [], 0⟩

example (st : Stack) : ∃ t', readLine calm demo st = .ok (.ok (.str "x\n"), t') st ∧ t'.screen = "> ".toList ∧
    t'.input = "7\nrest".toList := ⟨_, rfl, by decide, by decide⟩

/-- The hypotheses of `C89_number_line`: one line is refused. -/
example [Data.Lex] : letI := demoTextOps; Reads "x\n".toList none → Reads "7\n".toList (some 0) → ∃ r, Answer demo.input 1 0 r := by
  letI := demoTextOps
  intro h1 h2
  refine ⟨"rest".toList, C89_number_line (ls := ["x\n".toList]) (rest := "7\nrest".toList) ⟨by decide, ?_⟩ ?_ ⟨by decide, ?_⟩ h2⟩
  · simp only [List.mem_singleton, forall_eq]
    exact ⟨['x'], by decide, by decide⟩
  · simpa using h1
  · exact .inl ⟨['7'], by decide, by decide⟩

/-- `7` is a number with the line break behind it: white space is defined for ASCII. -/
example [Data.Lex] : letI := demoTextOps; Reads "7\n".toList (some 0) := by
  letI := demoTextOps
  have h1 : Data.Lex.isWs '7' = false := by rw [Data.Lex.ws_ascii _ (by decide)]; decide
  have h2 : Data.Lex.isWs '\n' = true := by rw [Data.Lex.ws_ascii _ (by decide)]; decide
  refine ⟨['7'], ⟨[], ['\n'], by decide, by simp, by simp [h2], by simp [h1], by simp [h1]⟩, by decide⟩

/-- At the end of the input, `read_number` runs on, whatever is on the stack. -/
example [Data.Lex] (c : Cfg) (n : Nat) : letI := demoTextOps;
    readNumber calm c n ⟨[], [], [], [], 0⟩ [.str "a number, please"] = .running := by
  letI := demoTextOps
  have he : Reads [] none := ⟨[], ⟨[], [], by simp, by simp, by simp, by simp, by simp⟩, by decide⟩
  exact (C89_number_endless (st := []) c (.inr ⟨by simp, rfl⟩) calm_works he rfl n).1

/-- Three calls: a prompt, a line, an answer. -/
example [Data.Lex] [Data.Show] [TextOps] (c : Cfg) : ∃ t', Calls calm c
    [([], .print (.str "name? "), none), ([], .readLine, some (.ok (.str "x\n"))), ([.str "hi"], .println (.ref 0), none)] demo t' ∧
    t'.screen = "> name? hi\n".toList := by
  refine ⟨⟨"7\nrest".toList, "> name? hi\n".toList, [], [], 5⟩,
    .cons (u := ⟨demo.input, [], "> name? ".toList, [], 1⟩) ⟨rfl, 1, [], ?_⟩
      (.cons (u := ⟨"7\nrest".toList, "> name? ".toList, [], [], 3⟩) ⟨_, [], ?_, rfl⟩ (.cons ⟨rfl, 2, [.str "hi"], ?_⟩ .nil)), rfl⟩
  · rw [print_eq (st := [])]; rfl
  · rfl
  · rw [println_eq (st := [.str "hi"]), print_eq]; rfl

end Dyon.Console
