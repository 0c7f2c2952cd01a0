import Verif.Data.Write

/-!
# A small reader and writer of tokens

Not the code of `read_token`: it shows that what is assumed of the external code can be met.
Strings are written with a backslash before every character, numbers as binary digits.
-/

namespace Dyon.Data.Demo

/-- Length of the rest of a string. -/
def scan : List Char → Option Nat
  | '"' :: _ => some 1
  | '\\' :: _ :: r => (scan r).map (· + 2)
  | _ => none

/-- Length of a string. -/
def string : List Char → Option Nat
  | '"' :: r => (scan r).map (· + 1)
  | _ => none

/-- Length of a number: 64 binary digits, or a sign and 32 binary digits. -/
def number : List Char → Option Nat
  | '-' :: r => if 32 ≤ r.length then some 33 else none
  | '0' :: r => if 63 ≤ r.length then some 64 else none
  | '1' :: r => if 63 ≤ r.length then some 64 else none
  | _ => none

/-- Binary digits. -/
def bits {w : Nat} (x : BitVec w) : List Char := List.ofFn fun i : Fin w => if x.getLsbD i then '1' else '0'

/-- A backslash before every character. -/
def escape : List Char → List Char
  | [] => ['"']
  | c :: r => '\\' :: c :: escape r

/-- A string with quotes. -/
def showString (s : String) : List Char := '"' :: escape s.toList

theorem scan_len {s n} (h : scan s = some n) : 0 < n ∧ n ≤ s.length := by
  fun_induction scan s generalizing n with
  | case1 => cases h; simp
  | case2 c r ih =>
    cases hr : scan r with
    | none => rw [hr] at h; cases h
    | some m => rw [hr] at h; cases h; have := ih hr; simp only [List.length_cons]; omega
  | case3 => cases h

theorem scan_escape (s rest : List Char) : scan (escape s ++ rest) = some (escape s).length := by
  induction s with
  | nil => rfl
  | cons c s ih =>
    show (scan (escape s ++ rest)).map (· + 2) = _
    rw [ih]; rfl

theorem escape_inj : ∀ {s t : List Char}, escape s = escape t → s = t
  | [], [], _ => rfl
  | [], _ :: _, h => by simp [escape] at h
  | _ :: _, [], h => by simp [escape] at h
  | c :: s, d :: t, h => by
    simp only [escape, List.cons.injEq, true_and] at h
    rw [h.1, escape_inj h.2]

theorem bits_inj {w} {x y : BitVec w} (h : bits x = bits y) : x = y := by
  apply BitVec.eq_of_getLsbD_eq
  intro i hi
  have := congrArg (fun l : List Char => l[i]?) h
  simp only [bits, List.getElem?_ofFn, hi, dif_pos] at this
  cases h1 : x.getLsbD i <;> cases h2 : y.getLsbD i <;> simp_all

theorem bits_length {w} (x : BitVec w) : (bits x).length = w := by simp [bits]

open Classical in
/-- Undoes `showString`. -/
noncomputable def parseString (l : List Char) : Except String String :=
  if h : ∃ s, showString s = l then .ok h.choose else .error "not a string"

open Classical in
/-- Undoes `bits`. -/
noncomputable def parseNumber (l : List Char) : Except String F64 :=
  if h : ∃ x : F64, bits x = l then .ok h.choose
  else if h : ∃ x : F32, '-' :: bits x = l then .ok (h.choose.setWidth 64)
  else .error "not a number"

theorem parse_string (s : String) : parseString (showString s) = .ok s := by
  have h : ∃ t, showString t = showString s := ⟨s, rfl⟩
  rw [parseString, dif_pos h]
  rw [String.toList_inj.1 (escape_inj (List.cons.inj h.choose_spec).2)]

theorem parse_f64 (x : F64) : parseNumber (bits x) = .ok x := by
  have h : ∃ t : F64, bits t = bits x := ⟨x, rfl⟩
  rw [parseNumber, dif_pos h, bits_inj h.choose_spec]

theorem parse_f32 (x : F32) : parseNumber ('-' :: bits x) = .ok (x.setWidth 64) := by
  have h : ∃ t : F32, '-' :: bits t = '-' :: bits x := ⟨x, rfl⟩
  have hn : ¬ ∃ t : F64, bits t = '-' :: bits x := by
    rintro ⟨t, ht⟩
    have := congrArg List.length ht
    simp [bits_length] at this
  rw [parseNumber, dif_neg hn, dif_pos h, bits_inj (List.cons.inj h.choose_spec).2]

/-- ASCII white space. -/
def isWs (c : Char) : Bool := c == ' ' || (decide (9 ≤ c.toNat) && decide (c.toNat ≤ 13))

theorem number_len {s n} (h : number s = some n) : 0 < n ∧ n ≤ s.length := by
  unfold number at h
  split at h
  · split at h <;> cases h
    simp only [List.length_cons]; omega
  · split at h <;> cases h
    simp only [List.length_cons]; omega
  · split at h <;> cases h
    simp only [List.length_cons]; omega
  · cases h

/-- The reader; it knows one colour. -/
noncomputable instance lex : Lex where
  isWs := isWs
  isAlnum := Char.isAlphanum
  string := string
  parseString := parseString
  number := number
  parseNumber := parseNumber
  rgba l := if l = "ff0000".toList then some (255, 0, 0, none) else none
  channel n := BitVec.ofNat 32 n
  ws_ascii _ _ := rfl
  alnum_ascii _ _ := rfl
  alnum_ws c h := by
    simp only [Char.isAlphanum, Char.isAlpha, Char.isUpper, Char.isLower, Char.isDigit, Bool.or_eq_true,
      Bool.and_eq_true, decide_eq_true_eq, UInt32.le_iff_toNat_le, ge_iff_le] at h
    have e1 : 'A'.val.toNat = 65 := rfl
    have e2 : 'a'.val.toNat = 97 := rfl
    have e3 : '0'.val.toNat = 48 := rfl
    have hc : 48 ≤ c.toNat := by show 48 ≤ c.val.toNat; omega
    simp only [isWs, Bool.or_eq_false_iff, Bool.and_eq_false_iff, decide_eq_false_iff_not, beq_eq_false_iff_ne]
    refine ⟨?_, .inr (by omega)⟩
    rintro rfl
    revert hc; decide
  string_len s n h := by
    unfold string at h
    split at h
    · rename_i r
      cases hr : scan r with
      | none => rw [hr] at h; cases h
      | some m => rw [hr] at h; cases h; have := scan_len hr; simp only [List.length_cons]; omega
    · cases h
  number_len s n h := number_len h

/-- The writer. -/
instance text : Show where
  f64 x := bits x
  f32 x := '-' :: bits x
  string := showString
  closure _ := []

/-- Conversions between `f64` and `f32` that fit them. -/
noncomputable def ops : FloatOps :=
  { exactOps with toF32 := fun x => x.setWidth 32, ofF32 := fun x => x.setWidth 64 }

end Dyon.Data.Demo
