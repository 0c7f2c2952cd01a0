import Verif.Module.Model

/-! # Function names with mutability (C49) -/

namespace Dyon.Mod

/-- A name as it can be written in a program. -/
def Plain (n : String) : Prop := '(' ∉ n.toList

/-- The same pattern of mutable arguments: functions without mutable arguments are not
told apart by their number of arguments. -/
def SamePattern (a b : List Bool) : Prop := a = b ∨ (true ∉ a ∧ true ∉ b)

/-- `pattern` on characters. -/
def patternL : List Bool → List Char
  | [] => []
  | [b] => if b then ['m', 'u', 't'] else ['_']
  | b :: bs => (if b then ['m', 'u', 't'] else ['_']) ++ ',' :: patternL bs

theorem pattern_toList : ∀ bs, (pattern bs).toList = patternL bs
  | [] => rfl
  | [b] => by cases b <;> rfl
  | b :: c :: bs => by
    have := pattern_toList (c :: bs)
    cases b <;> simp [pattern, patternL, this]

theorem patternL_cons (b bs) : ∃ r, patternL (b :: bs) = (if b then ['m', 'u', 't'] else ['_']) ++ r ∧
    (bs = [] → r = []) ∧ (bs ≠ [] → r = ',' :: patternL bs) := by
  cases bs with
  | nil => exact ⟨[], by simp [patternL]⟩
  | cons c bs => exact ⟨',' :: patternL (c :: bs), by simp [patternL]⟩

theorem patternL_inj : ∀ as bs, patternL as = patternL bs → as = bs
  | [], [], _ => rfl
  | [], b :: bs, h => by
    obtain ⟨r, hr, _⟩ := patternL_cons b bs
    rw [hr] at h
    cases b <;> simp [patternL] at h
  | a :: as, [], h => by
    obtain ⟨r, hr, _⟩ := patternL_cons a as
    rw [hr] at h
    cases a <;> simp [patternL] at h
  | a :: as, b :: bs, h => by
    obtain ⟨r, hr, h0, h1⟩ := patternL_cons a as
    obtain ⟨q, hq, g0, g1⟩ := patternL_cons b bs
    rw [hr, hq] at h
    have key : a = b ∧ r = q := by
      cases a <;> cases b <;> simp at h <;> simp [h]
    obtain ⟨rfl, rfl⟩ := key
    by_cases ha : as = [] <;> by_cases hb : bs = []
    · simp [ha, hb]
    · rw [h0 ha] at g1; simp [hb] at g1
    · rw [g0 hb] at h1; simp [ha] at h1
    · have := (h1 ha).symm.trans (g1 hb)
      simp only [List.cons.injEq, true_and] at this
      rw [patternL_inj as bs this]

theorem split_paren {a b r q : List Char} (ha : '(' ∉ a) (hb : '(' ∉ b)
    (h : a ++ '(' :: r = b ++ '(' :: q) : a = b ∧ r = q := by
  induction a generalizing b with
  | nil => cases b with
    | nil => simpa using h
    | cons c b => simp at h hb; exact absurd h.1 (by simpa using hb.1)
  | cons x a ih => cases b with
    | nil => simp at h ha; exact absurd h.1.symm (by simpa using ha.1)
    | cons c b =>
      simp at h ha hb
      obtain ⟨rfl, h⟩ := h
      have := ih ha.2 hb.2 h
      simp [this]

theorem mangle_toList (n bs) : (mangle n bs).toList =
    if bs.any id then n.toList ++ '(' :: (patternL bs ++ [')']) else n.toList := by
  unfold mangle
  by_cases h : bs.any id <;> simp [h, pattern_toList]

/-- **C49**, names: the name a function is registered under and the name a call looks
up are the same exactly when the written names and the patterns of mutable arguments
are. -/
theorem C49_names {n m : String} (as bs : List Bool) (hn : Plain n) (hm : Plain m) :
    mangle n as = mangle m bs ↔ n = m ∧ SamePattern as bs := by
  have any : ∀ l : List Bool, l.any id = true ↔ true ∈ l := by intro l; simp
  constructor
  · intro h
    have h := congrArg String.toList h
    rw [mangle_toList, mangle_toList] at h
    by_cases ha : as.any id <;> by_cases hb : bs.any id
    · rw [if_pos ha, if_pos hb] at h
      obtain ⟨h1, h2⟩ := split_paren hn hm h
      exact ⟨String.toList_injective h1, Or.inl (patternL_inj _ _ (List.append_cancel_right h2))⟩
    · rw [if_pos ha, if_neg hb] at h
      exact absurd (h ▸ by simp) hm
    · rw [if_neg ha, if_pos hb] at h
      exact absurd (h ▸ by simp) hn
    · rw [if_neg ha, if_neg hb] at h
      exact ⟨String.toList_injective h, Or.inr ⟨fun h => ha ((any _).2 h), fun h => hb ((any _).2 h)⟩⟩
  · rintro ⟨rfl, rfl | ⟨ha, hb⟩⟩
    · rfl
    · unfold mangle
      rw [if_neg (fun h => ha ((any _).1 h)), if_neg (fun h => hb ((any _).1 h))]

example : Plain "foo" ∧ SamePattern [true, false] [true, false] ∧ ¬ SamePattern [true] [false] := by
  simp [Plain, SamePattern]

theorem functionLookup_none : ∀ (ns : List String) (i : Nat) (m : Map Nat),
    functionLookup ns i m = none ↔ (∃ n ∈ ns, (m n).isSome) ∨ ¬ ns.Nodup
  | [], i, m => by simp [functionLookup]
  | n :: ns, i, m => by
    unfold functionLookup
    by_cases h : (m n).isSome
    · rw [if_pos h]
      exact ⟨fun _ => Or.inl ⟨n, by simp, h⟩, fun _ => rfl⟩
    · rw [if_neg h, functionLookup_none ns]
      have hins : ∀ x, ((m.insert n i) x).isSome ↔ x = n ∨ (m x).isSome := by
        intro x
        unfold Map.insert
        by_cases hx : x = n <;> simp [hx]
      constructor
      · rintro (⟨x, hx, h1⟩ | hd)
        · rcases (hins x).1 h1 with rfl | h1
          · exact Or.inr (by simp [hx])
          · exact Or.inl ⟨x, List.mem_cons_of_mem _ hx, h1⟩
        · exact Or.inr (by simp [hd])
      · rintro (⟨x, hx, h1⟩ | hd)
        · rcases List.mem_cons.1 hx with rfl | hx
          · exact absurd h1 h
          · exact Or.inl ⟨x, hx, (hins x).2 (Or.inr h1)⟩
        · rw [List.nodup_cons] at hd
          by_cases hn : n ∈ ns
          · exact Or.inl ⟨n, hn, (hins n).2 (Or.inl rfl)⟩
          · exact Or.inr (fun h => hd ⟨hn, h⟩)

theorem functionLookup_get : ∀ (ns : List String) (i : Nat) (m r : Map Nat),
    functionLookup ns i m = some r →
    (∀ j n, ns[j]? = some n → r n = some (i + j)) ∧ (∀ n, n ∉ ns → r n = m n)
  | [], i, m, r, h => by
    simp only [functionLookup, Option.some.injEq] at h
    subst h
    simp
  | n :: ns, i, m, r, h => by
    unfold functionLookup at h
    by_cases hs : (m n).isSome
    · rw [if_pos hs] at h; cases h
    · rw [if_neg hs] at h
      have hnd : n ∉ ns := by
        intro hn
        have := (functionLookup_none ns (i + 1) (m.insert n i)).2 (Or.inl ⟨n, hn, by simp [Map.insert]⟩)
        rw [this] at h; cases h
      obtain ⟨h1, h2⟩ := functionLookup_get ns (i + 1) _ r h
      constructor
      · intro j x hx
        cases j with
        | zero =>
          simp only [List.getElem?_cons_zero, Option.some.injEq] at hx
          subst hx
          rw [h2 _ hnd]
          simp [Map.insert]
        | succ j =>
          rw [List.getElem?_cons_succ] at hx
          rw [h1 j x hx]
          congr 1; omega
      · intro x hx
        rw [List.mem_cons, not_or] at hx
        rw [h2 x hx.2]
        simp [Map.insert, hx.1]

/-- **C49**, duplicates: the functions of a file, given by name and mutability of their
parameters, are refused as duplicates exactly when two of them have the same name and
the same pattern of mutable parameters. -/
theorem C49_duplicates (ds : List (String × List Bool)) (h : ∀ d ∈ ds, Plain d.1) :
    functionLookup (ds.map fun d => mangle d.1 d.2) 0 Map.empty = none ↔
      ∃ (i j : Nat) (d e : String × List Bool), i < j ∧ ds[i]? = some d ∧ ds[j]? = some e ∧ d.1 = e.1 ∧ SamePattern d.2 e.2 := by
  rw [functionLookup_none]
  have hf : ¬ ∃ n ∈ ds.map fun d => mangle d.1 d.2, ((Map.empty : Map Nat) n).isSome := by
    simp [Map.empty]
  rw [or_iff_right hf, List.nodup_iff_pairwise_ne, List.pairwise_iff_getElem]
  constructor
  · intro hd
    by_contra hno
    apply hd
    intro i j hi hj hij heq
    rw [List.length_map] at hi hj
    rw [List.getElem_map, List.getElem_map] at heq
    refine hno ⟨i, j, ds[i], ds[j], hij, List.getElem?_eq_getElem _, List.getElem?_eq_getElem _, ?_⟩
    exact (C49_names _ _ (h _ (List.getElem_mem _)) (h _ (List.getElem_mem _))).1 heq
  · rintro ⟨i, j, d, e, hij, hd, he, h1, h2⟩ hno
    obtain ⟨hi, rfl⟩ := List.getElem?_eq_some_iff.1 hd
    obtain ⟨hj, rfl⟩ := List.getElem?_eq_some_iff.1 he
    have := hno i j (by simpa using hi) (by simpa using hj) hij
    rw [List.getElem_map, List.getElem_map] at this
    exact this ((C49_names _ _ (h _ (List.getElem_mem _)) (h _ (List.getElem_mem _))).2 ⟨h1, h2⟩)

example : functionLookup ([("f", [true, false]), ("f", [false, false]), ("f", [false, true])].map
    fun d => mangle d.1 d.2) 0 Map.empty ≠ none := by
  rw [ne_eq, C49_duplicates _ (by simp [Plain])]
  rintro ⟨i, j, d, e, hij, hd, he, h1, h2⟩
  match i, j with
  | _, 0 => omega
  | _ + 1, 1 => omega
  | _ + 2, 2 => omega
  | 0, 1 => simp at hd he; subst hd he; simp [SamePattern] at h2
  | 0, 2 => simp at hd he; subst hd he; simp [SamePattern] at h2
  | 1, 2 => simp at hd he; subst hd he; simp [SamePattern] at h2
  | _, n + 3 => simp at he

/-- **C49**, calls: the function of the file that a call is checked against has the name
of the call and its pattern of mutable arguments. -/
theorem C49_call {ds : List (String × List Bool)} {look : Map Nat} {n : String} {as : List Bool} {i : Nat}
    (h : ∀ d ∈ ds, Plain d.1) (hn : Plain n)
    (hl : functionLookup (ds.map fun d => mangle d.1 d.2) 0 Map.empty = some look) :
    look (mangle n as) = some i ↔ ∃ d, ds[i]? = some d ∧ d.1 = n ∧ SamePattern d.2 as := by
  obtain ⟨h1, h2⟩ := functionLookup_get _ _ _ _ hl
  constructor
  · intro hi
    by_cases hm : mangle n as ∈ ds.map fun d => mangle d.1 d.2
    · obtain ⟨j, hj⟩ := List.mem_iff_getElem?.1 hm
      have := h1 j _ hj
      rw [this, Nat.zero_add, Option.some.injEq] at hi
      subst hi
      rw [List.getElem?_map] at hj
      cases hd : ds[j]? with
      | none => rw [hd] at hj; cases hj
      | some d =>
        rw [hd, Option.map_some, Option.some.injEq] at hj
        exact ⟨d, rfl, (C49_names _ _ (h d (List.mem_of_getElem? hd)) hn).1 hj⟩
    · rw [h2 _ hm] at hi
      cases hi
  · rintro ⟨d, hd, rfl, hp⟩
    have := h1 i (mangle d.1 as) (by
      rw [List.getElem?_map, hd, Option.map_some, Option.some.injEq]
      exact (C49_names _ _ hn hn).2 ⟨rfl, hp⟩)
    rw [this, Nat.zero_add]

example : ∃ look, functionLookup ([("f", [true]), ("f", [false])].map fun d => mangle d.1 d.2) 0 Map.empty
    = some look ∧ look (mangle "f" [true]) = some 0 :=
  ⟨_, rfl, by decide⟩

theorem foldl_words (ws : List String) (n : String) : (ws.foldl (fun n v => n ++ "_" ++ v) n).toList =
    n.toList ++ ws.flatMap fun v => '_' :: v.toList := by
  induction ws generalizing n with
  | nil => simp
  | cons v ws ih => simp [ih]

/-- **C49**, named arguments: a call `f(a: .., b: ..)` looks up `f__a_b`. -/
theorem C49_named (f a : String) (as : List String) : (namedCall (f :: a :: as)).toList =
    f.toList ++ ['_', '_'] ++ a.toList ++ as.flatMap fun v => '_' :: v.toList := by
  simp [namedCall, foldl_words]

end Dyon.Mod
