import Verif.File.Args
import Verif.File.Lemmas

/-!
# C96: the arguments of the program
-/

namespace Dyon.File

theorem bytes_text {b : Bytes} {s : String} (h : text b = some s) : b = bytes s := by
  unfold text String.fromUTF8? at h
  split at h
  · injection h with h
    rw [← h]
    simp [bytes, String.fromUTF8]
  · cases h

theorem argsLoop_texts (ts : List String) (arr : List Val) : argsLoop (ts.map bytes) arr = some (arr ++ ts.map .str) := by
  induction ts generalizing arr with
  | nil => simp [argsLoop]
  | cons t ts ih => simp [argsLoop, text_bytes, ih]

theorem argsLoop_some {args : List Bytes} {arr r : List Val} (h : argsLoop args arr = some r) : ∃ ts : List String, args = ts.map bytes := by
  induction args generalizing arr with
  | nil => exact ⟨[], rfl⟩
  | cons a rest ih =>
    rw [argsLoop] at h
    split at h
    · rename_i t ht
      obtain ⟨ts, hts⟩ := ih h
      exact ⟨t :: ts, by rw [List.map_cons, ← bytes_text ht, hts]⟩
    · cases h

theorem all_texts (l : List Bytes) (hl : ∀ a ∈ l, ∃ t, a = bytes t) : ∃ ts : List String, l = ts.map bytes := by
  induction l with
  | nil => exact ⟨[], rfl⟩
  | cons a l ih =>
    obtain ⟨t, rfl⟩ := hl a (by simp)
    obtain ⟨ts, rfl⟩ := ih fun a ha => hl a (by simp [ha])
    exact ⟨t :: ts, rfl⟩

/-- C96: if the arguments are texts, `args_os()` gives these texts, all of them and in order. -/
theorem C96_texts (ts : List String) (st : Stack) : argsOs (ts.map bytes) st = .ok (.array (ts.map .str)) st := by
  rw [argsOs, argsLoop_texts]; rfl

/-- C96: if an argument is not the bytes of any text, `args_os()` is an error of the program, and never gives some of the arguments or
changed ones. -/
theorem C96_invalid (args : List Bytes) (st : Stack) (h : ∃ a ∈ args, ∀ t, a ≠ bytes t) :
    argsOs args st = SM.fail "Invalid unicode in os argument" st := by
  have hn : argsLoop args [] = none := by
    cases hr : argsLoop args [] with
    | none => rfl
    | some r =>
      obtain ⟨ts, rfl⟩ := argsLoop_some hr
      obtain ⟨a, ha, hat⟩ := h
      obtain ⟨t, _, rfl⟩ := List.mem_map.1 ha
      exact absurd rfl (hat t)
  rw [argsOs, hn]

/-- C96: whatever the arguments are, one of the two cases holds: a value of `args_os()` has the bytes of all arguments, in order. -/
theorem C96_faithful (args : List Bytes) (st st' : Stack) (v : Val) (h : argsOs args st = .ok v st') :
    ∃ ts : List String, v = .array (ts.map .str) ∧ ts.map bytes = args ∧ st' = st := by
  by_cases hb : ∃ a ∈ args, ∀ t, a ≠ bytes t
  · rw [C96_invalid args st hb] at h; cases h
  · push Not at hb
    obtain ⟨ts, rfl⟩ := all_texts args hb
    rw [C96_texts] at h
    cases h
    exact ⟨ts, rfl, rfl, rfl⟩

/-- Arguments with a letter that is more than one byte, and an empty one. -/
example : argsOs (["dyonrun", "æ", ""].map bytes) [] = .ok (.array [.str "dyonrun", .str "æ", .str ""]) [] :=
  C96_texts _ _

/-- A byte that is in no text. -/
example : ∃ a ∈ [bytes "dyonrun", [0xff]], ∀ t, a ≠ bytes t := by
  refine ⟨[0xff], by simp, fun t h => ?_⟩
  have h1 := text_bytes t
  rw [← h] at h1
  have h2 : text [0xff] = none := by
    unfold text String.fromUTF8?
    rw [dif_neg]
    decide
  rw [h2] at h1
  cases h1

end Dyon.File
