import Verif.Link.Strings
import Verif.Link.Lemmas

/-!
# C98: the strings in links
-/

namespace Dyon.Link

namespace Spec

/-- The entry is a string with these contents. -/
def holds (s : String) (e : BitVec 64 × Word) : Bool := e.1 == STR && e.2 == .ptr s

/-- How many entries of all live blocks are this string. -/
def held (bs : List Block) (s : String) : Nat := (bs.map fun b => b.entries.countP (holds s)).sum

/-- The entries before `n` are filled, and all others are empty. -/
def Filled (b : Block) (n : Nat) : Prop := ∀ k : Fin blockSize, b.kind k = EMPTY ↔ n ≤ k.val

/-- The push is to an entry that is filled or to the first one that is not, as by `Link::push`, which writes behind the last entry of a
slice. -/
def Within (p : Pool) : BlockOp → Prop
  | .push i _ pos => ∀ b, p.blocks[i]? = some b → pos < blockSize ∧ ∃ n, Filled b n ∧ pos ≤ n
  | _ => True

/-- The push is to an entry that is not filled. -/
def Fresh (p : Pool) : BlockOp → Prop
  | .push i _ pos => ∀ b, p.blocks[i]? = some b → pos < blockSize ∧ Filled b pos
  | _ => True

/-- All operations of a history are like this when their turn comes. -/
def Along (P : Pool → BlockOp → Prop) (p : Pool) : List BlockOp → Prop
  | [] => True
  | op :: ops => P p op ∧ ∀ p', p.step op = .ok p' → Along P p' ops

/-- At the start there are no blocks and no strings. -/
def start : Pool := ⟨[], fun _ => 0⟩

end Spec

open Spec

theorem scan_count (s : String) : ∀ (l : List (BitVec 64 × Word)),
    (∀ i j (hi : i < l.length) (hj : j < l.length), i ≤ j → l[i].1 = EMPTY → l[j].1 = EMPTY) →
    (scan l).count s = l.countP (holds s)
  | [], _ => rfl
  | (k, w) :: r, h => by
    have ih := scan_count s r fun i j hi hj hij he =>
      h (i + 1) (j + 1) (by simpa using hi) (by simpa using hj) (by omega) (by simpa using he)
    rw [List.countP_cons]
    by_cases hk : k = EMPTY
    · have hr : r.countP (holds s) = 0 := by
        rw [List.countP_eq_zero]
        intro e he
        obtain ⟨j, hj, rfl⟩ := List.getElem_of_mem he
        have := h 0 (j + 1) (by simp) (by simpa using hj) (by omega) hk
        simp only [List.getElem_cons_succ] at this
        simp [holds, this]
      rw [hr, hk]
      cases w <;> simp [scan, holds]
    · by_cases hs : k = STR
      · subst hs
        cases w with
        | ptr t =>
          by_cases e : t = s <;> simp [scan, holds, ih, e]
        | bits b => simp [scan, holds, ih]
      · have hk' : ¬ k = 0#64 := hk
        have hs' : ¬ k = 3#64 := hs
        cases w <;> simp [scan, holds, ih, hk', hs']

theorem scan_block {b : Block} {n : Nat} (h : Filled b n) (s : String) :
    (scan b.entries).count s = b.entries.countP (holds s) := by
  apply scan_count
  intro i j hi hj hij he
  simp only [Block.entries, List.getElem_map, List.getElem_finRange] at he ⊢
  rw [h] at he ⊢
  simp only [Fin.val_cast] at he ⊢
  omega

theorem entries_push {b b' : Block} {v : Scalar} {pos : Nat} (h : b.push v pos = .ok b') :
    b'.entries = b.entries.set pos (v.tag, v.word) := by
  apply List.ext_getElem
  · simp [Block.entries]
  · intro k h1 h2
    simp only [Block.entries, List.getElem_map, List.getElem_finRange, List.getElem_set]
    have hk : k < blockSize := by simpa [Block.entries] using h1
    rw [kind_push b b' v pos h]
    have := data_push b b' v pos h k hk
    simp only [Fin.val_cast, this]
    by_cases e : k = pos
    · simp [e]
    · simp [e, Ne.symm e]

theorem filled_push {b b' : Block} {v : Scalar} {pos n : Nat} (h : b.push v pos = .ok b') (hb : Filled b n) (hp : pos ≤ n) :
    Filled b' (max n (pos + 1)) := by
  intro k
  rw [kind_push b b' v pos h]
  split
  · rename_i e
    have : v.tag ≠ EMPTY := by cases v <;> simp [Scalar.tag]
    simp only [this, false_iff]
    omega
  · rename_i e
    rw [hb]
    omega

theorem holds_tag (v : Scalar) (s : String) : (if holds s (v.tag, v.word) then 1 else 0) = v.adds s := by
  cases v <;> simp [holds, Scalar.tag, Scalar.word, Scalar.adds]

theorem strs_sum_erase (l : List Nat) (i : Nat) (h : i < l.length) : (l.eraseIdx i).sum + l[i] = l.sum := by
  induction l generalizing i with
  | nil => simp at h
  | cons a l ih =>
    cases i with
    | zero => simp [Nat.add_comm]
    | succ i =>
      have := ih i (by simpa using h)
      simp only [List.eraseIdx_cons_succ, List.sum_cons, List.getElem_cons_succ]
      omega

theorem strs_sum_set (l : List Nat) (i x : Nat) (h : i < l.length) : (l.set i x).sum + l[i] = l.sum + x := by
  induction l generalizing i with
  | nil => simp at h
  | cons a l ih =>
    cases i with
    | zero => simp; omega
    | succ i =>
      have := ih i (by simpa using h)
      simp only [List.set_cons_succ, List.sum_cons, List.getElem_cons_succ]
      omega

theorem countP_set' {α : Type} (q : α → Bool) (l : List α) (i : Nat) (a : α) (h : i < l.length) :
    (l.set i a).countP q + (if q l[i] then 1 else 0) = l.countP q + if q a then 1 else 0 := by
  induction l generalizing i with
  | nil => simp at h
  | cons b l ih =>
    cases i with
    | zero => simp only [List.set_cons_zero, List.countP_cons, List.getElem_cons_zero]; omega
    | succ i =>
      have := ih i (by simpa using h)
      simp only [List.set_cons_succ, List.countP_cons, List.getElem_cons_succ]
      omega

theorem map_erase {α β : Type} (g : α → β) (l : List α) (i : Nat) : (l.eraseIdx i).map g = (l.map g).eraseIdx i := by
  induction l generalizing i with
  | nil => simp
  | cons a l ih => cases i <;> simp [ih]

theorem held_erase {bs : List Block} {i : Nat} {b : Block} (h : bs[i]? = some b) (s : String) :
    held (bs.eraseIdx i) s + b.entries.countP (holds s) = held bs s := by
  obtain ⟨hi, rfl⟩ := List.getElem?_eq_some_iff.1 h
  have := strs_sum_erase (bs.map fun b => b.entries.countP (holds s)) i (by simpa using hi)
  rw [List.getElem_map] at this
  rw [held, held, ← this, map_erase]

theorem held_set {bs : List Block} {i : Nat} {b : Block} (h : bs[i]? = some b) (b' : Block) (s : String) :
    held (bs.set i b') s + b.entries.countP (holds s) = held bs s + b'.entries.countP (holds s) := by
  obtain ⟨hi, rfl⟩ := List.getElem?_eq_some_iff.1 h
  have := strs_sum_set (bs.map fun b => b.entries.countP (holds s)) i (b'.entries.countP (holds s)) (by simpa using hi)
  rw [List.getElem_map] at this
  rw [held, held, ← this, List.map_set]

theorem held_append (bs : List Block) (b : Block) (s : String) : held (bs ++ [b]) s = held bs s + b.entries.countP (holds s) := by
  simp [held]

theorem filled_new : Filled Block.new 0 := by
  intro k
  have : Block.new.kind k = EMPTY := by simp [Block.kind, Block.new]
  simp [this]

theorem new_count (s : String) : Block.new.entries.countP (holds s) = 0 := by
  rw [List.countP_eq_zero]
  intro e he
  obtain ⟨k, -, rfl⟩ := List.mem_map.1 he
  have : Block.new.kind k = EMPTY := (filled_new k).2 (Nat.zero_le _)
  simp [holds, this]

/-- The entry of a push was not this string, or was. -/
theorem push_count {b b' : Block} {v : Scalar} {pos : Nat} (h : b.push v pos = .ok b') (s : String) (hp : pos < blockSize) :
    b'.entries.countP (holds s) + (if holds s (b.kind ⟨pos, hp⟩, b.data[pos]) then 1 else 0) =
      b.entries.countP (holds s) + v.adds s := by
  have := countP_set' (holds s) b.entries pos (v.tag, v.word) (by simpa [Block.entries] using hp)
  rw [entries_push h, ← holds_tag, ← this]
  simp [Block.entries]

/-- All blocks are filled from the start, and no count is too small; `exact` tells that none is too large. -/
def StrsInv (exact : Prop) (p : Pool) : Prop :=
  (∀ b ∈ p.blocks, ∃ n, Filled b n) ∧ (∀ s, held p.blocks s ≤ p.count s) ∧ (exact → ∀ s, p.count s ≤ held p.blocks s)

theorem strs_inv_step {exact : Prop} {p : Pool} {op : BlockOp} (hi : StrsInv exact p) (hw : Within p op) (hf : exact → Fresh p op) :
    ∃ p', p.step op = .ok p' ∧ StrsInv exact p' := by
  obtain ⟨h1, h2, h3⟩ := hi
  cases op with
  | new =>
    refine ⟨_, rfl, ?_, ?_, ?_⟩
    · intro b hb
      rcases List.mem_append.1 hb with hb | hb
      · exact h1 b hb
      · rw [List.mem_singleton.1 hb]; exact ⟨0, filled_new⟩
    · intro s; show held (p.blocks ++ _) s ≤ _; rw [held_append, new_count]; exact h2 s
    · intro e s; show _ ≤ held (p.blocks ++ _) s; rw [held_append, new_count]; exact h3 e s
  | clone i =>
    cases hb : p.blocks[i]? with
    | none => exact ⟨p, by simp [Pool.step, hb], h1, h2, h3⟩
    | some b =>
      obtain ⟨n, hn⟩ := h1 b (List.mem_of_getElem? hb)
      refine ⟨⟨p.blocks ++ [b], fun s => p.count s + (scan b.entries).count s⟩, by simp [Pool.step, hb], ?_, ?_, ?_⟩
      · intro c hc
        rcases List.mem_append.1 hc with hc | hc
        · exact h1 c hc
        · rw [List.mem_singleton.1 hc]; exact ⟨n, hn⟩
      · intro s; have := h2 s; simp only [held_append, scan_block hn]; omega
      · intro e s; have := h3 e s; simp only [held_append, scan_block hn]; omega
  | push i v pos =>
    cases hb : p.blocks[i]? with
    | none => exact ⟨p, by simp [Pool.step, hb], h1, h2, h3⟩
    | some b =>
      obtain ⟨hp, n, hn, hpn⟩ := hw b hb
      obtain ⟨b', hb'⟩ := push_ok b v pos hp
      refine ⟨⟨p.blocks.set i b', fun s => p.count s + v.adds s⟩, by simp [Pool.step, hb, hb'], ?_, ?_, ?_⟩
      · intro c hc
        rcases List.mem_or_eq_of_mem_set hc with hc | rfl
        · exact h1 c hc
        · exact ⟨_, filled_push hb' hn hpn⟩
      · intro s
        have a1 := h2 s
        have a2 := held_set hb b' s
        have a3 := push_count hb' s hp
        show held (p.blocks.set i b') s ≤ p.count s + v.adds s
        omega
      · intro e s
        have a1 := h3 e s
        have a2 := held_set hb b' s
        have a3 := push_count hb' s hp
        have a4 : b.kind ⟨pos, hp⟩ = EMPTY := ((hf e b hb).2 ⟨pos, hp⟩).2 (Nat.le_refl _)
        have a5 : holds s (b.kind ⟨pos, hp⟩, b.data[pos]) = false := by simp [holds, a4]
        rw [a5] at a3
        simp only [Bool.false_eq_true, if_false] at a3
        show p.count s + v.adds s ≤ held (p.blocks.set i b') s
        omega
  | drop i =>
    cases hb : p.blocks[i]? with
    | none => exact ⟨p, by simp [Pool.step, hb], h1, h2, h3⟩
    | some b =>
      obtain ⟨n, hn⟩ := h1 b (List.mem_of_getElem? hb)
      have hle : ∀ s, (scan b.entries).count s ≤ p.count s := by
        intro s
        have := held_erase hb s
        have := h2 s
        rw [scan_block hn]
        omega
      refine ⟨⟨p.blocks.eraseIdx i, fun s => p.count s - (scan b.entries).count s⟩, ?_, ?_, ?_, ?_⟩
      · simp only [Pool.step, hb]
        rw [if_pos]
        simp [hle]
      · intro c hc
        exact h1 c (List.mem_of_mem_eraseIdx hc)
      · intro s
        have := held_erase hb s
        have := h2 s
        simp only [scan_block hn]
        omega
      · intro e s
        have := held_erase hb s
        have := h3 e s
        simp only [scan_block hn]
        omega

theorem strs_inv_run {exact : Prop} (ops : List BlockOp) {p : Pool} (hi : StrsInv exact p) (hw : Along Within p ops)
    (hf : exact → Along Fresh p ops) : ∃ p', p.run ops = .ok p' ∧ StrsInv exact p' := by
  induction ops generalizing p with
  | nil => exact ⟨p, rfl, hi⟩
  | cons op ops ih =>
    obtain ⟨p', e, hi'⟩ := strs_inv_step hi hw.1 fun x => (hf x).1
    obtain ⟨p'', e', hi''⟩ := ih hi' (hw.2 p' e) fun x => (hf x).2 p' e
    exact ⟨p'', by rw [Pool.run, e]; exact e', hi''⟩

theorem inv_start (exact : Prop) : StrsInv exact start :=
  ⟨by simp [start], fun s => by simp [start, held], fun _ s => by simp [start]⟩

theorem along_mono {P Q : Pool → BlockOp → Prop} (h : ∀ p op, P p op → Q p op) (ops : List BlockOp) {p : Pool} (hp : Along P p ops) :
    Along Q p ops := by
  induction ops generalizing p with
  | nil => trivial
  | cons op ops ih => exact ⟨h _ _ hp.1, fun p' e => ih (hp.2 p' e)⟩

theorem fresh_within (p : Pool) (op : BlockOp) (h : Fresh p op) : Within p op := by
  cases op with
  | push i v pos => exact fun b hb => ⟨(h b hb).1, pos, (h b hb).2, Nat.le_refl _⟩
  | _ => trivial

/-! ## Theorems -/

/-- C98: a string is never freed while a block holds it: in every history of new, copied, written and dropped blocks no string is freed
twice, and each string has at least as many references as there are entries with it. -/
theorem C98_never_freed_early (ops : List BlockOp) (h : Along Within start ops) :
    ∃ p, start.run ops = .ok p ∧ ∀ s, held p.blocks s ≤ p.count s := by
  obtain ⟨p, e, -, h2, -⟩ := strs_inv_run (exact := False) ops (inv_start _) h (fun x => x.elim)
  exact ⟨p, e, h2⟩

/-- C98: if no filled entry is written again, each string has exactly as many references as there are entries with it, so that it is
freed with the last one.  Missing: entries that are written again, see `C98_leak`. -/
theorem C98_freed_partial (ops : List BlockOp) (h : Along Fresh start ops) :
    ∃ p, start.run ops = .ok p ∧ ∀ s, p.count s = held p.blocks s := by
  obtain ⟨p, e, -, h2, h3⟩ := strs_inv_run (exact := True) ops (inv_start _) (along_mono fresh_within ops h) (fun _ => h)
  exact ⟨p, e, fun s => Nat.le_antisymm (h3 trivial s) (h2 s)⟩

/-- What happens to the block in `x := link {"a" "b"}`, `y := neck(x)`, dropping `x`, pushing `"c"` to `y` and dropping `y`
(`C98_leak_link`). -/
def leakOps : List BlockOp := [.new, .push 0 (.str "a") 0, .push 0 (.str "b") 1, .push 0 (.str "c") 1, .drop 0]

/-- C98 is false of the code: an entry that is written again loses its string without giving back the reference.  In the end there is no
block, and a reference to `"b"` is left, so that it is never freed. -/
theorem C98_leak : ∃ p, start.run leakOps = .ok p ∧ p.blocks = [] ∧ p.count "b" = 1 ∧ p.count "a" = 0 ∧ p.count "c" = 0 := by
  have h : (match start.run leakOps with
      | .ok p => p.blocks.length == 0 && p.count "b" == 1 && p.count "a" == 0 && p.count "c" == 0
      | .panic _ => false) = true := by decide +kernel
  cases e : start.run leakOps with
  | panic m => rw [e] at h; cases h
  | ok p =>
    rw [e] at h
    simp only [Bool.and_eq_true, beq_iff_eq] at h
    exact ⟨p, rfl, List.length_eq_zero_iff.1 h.1.1.1, h.1.1.2, h.1.2, h.2⟩

/-- The same with links: after making a link of `"a"` and `"b"`, taking its neck, dropping it and pushing `"c"` to the neck there is one
block, which nobody shares, where `"c"` took the place of `"b"`. -/
theorem C98_leak_link : ∃ st c, hRun HState.init [.new, .push 0 (.str "a"), .push 0 (.str "b"), .neck 0, .drop 0, .push 1 (.str "c")] = .ok st ∧
    st.heap = [c] ∧ c.rc = 1 ∧ c.block.var 0 = .ok (.str "a") ∧ c.block.var 1 = .ok (.str "c") := by
  have h : (match hRun HState.init [.new, .push 0 (.str "a"), .push 0 (.str "b"), .neck 0, .drop 0, .push 1 (.str "c")] with
      | .ok st => st.heap.map fun c => (c.rc, c.block.var 0, c.block.var 1)
      | .panic _ => []) = [(1, .ok (.str "a"), .ok (.str "c"))] := by decide +kernel
  cases e : hRun HState.init [.new, .push 0 (.str "a"), .push 0 (.str "b"), .neck 0, .drop 0, .push 1 (.str "c")] with
  | panic m => rw [e] at h; cases h
  | ok st =>
    rw [e] at h
    simp only at h
    obtain ⟨c, hc, e1⟩ := List.map_eq_singleton_iff.1 h
    simp only [Prod.mk.injEq] at e1
    exact ⟨st, c, rfl, hc, e1.1, e1.2.1, e1.2.2⟩

/-! ## Examples -/

/-- Two strings, a copy of their block, and the copy is written further. -/
def freshOps : List BlockOp := [.new, .push 0 (.str "a") 0, .push 0 (.bool true) 1, .clone 0, .push 1 (.str "a") 2, .drop 0]

theorem filled_one {b b' : Block} {v : Scalar} {n : Nat} (h : b.push v n = .ok b') (hb : Filled b n) : Filled b' (n + 1) := by
  have := filled_push h hb (Nat.le_refl n)
  rwa [Nat.max_eq_right (Nat.le_succ n)] at this

example : Along Fresh start freshOps := by
  refine ⟨trivial, ?_⟩
  rintro _ ⟨⟩
  refine ⟨fun b hb => ?_, ?_⟩
  · cases hb; exact ⟨by decide, filled_new⟩
  obtain ⟨b1, e1⟩ := push_ok Block.new (.str "a") 0 (by decide)
  intro p hp
  simp [Pool.step, start, e1] at hp
  subst hp
  have f1 := filled_one e1 filled_new
  refine ⟨fun b hb => ?_, ?_⟩
  · cases hb; exact ⟨by decide, f1⟩
  obtain ⟨b2, e2⟩ := push_ok b1 (.bool true) 1 (by decide)
  intro p hp
  simp [Pool.step, e2] at hp
  subst hp
  have f2 := filled_one e2 f1
  refine ⟨trivial, ?_⟩
  rintro _ ⟨⟩
  refine ⟨fun b hb => ?_, ?_⟩
  · cases hb; exact ⟨by decide, f2⟩
  intro p _
  exact ⟨trivial, fun _ _ => trivial⟩

/-- The history of the leak meets the hypothesis of `C98_never_freed_early`: the third push is to a filled entry. -/
example : Along Within start leakOps := by
  refine ⟨trivial, ?_⟩
  rintro _ ⟨⟩
  refine ⟨fun b hb => ?_, ?_⟩
  · cases hb; exact ⟨by decide, 0, filled_new, Nat.le_refl _⟩
  obtain ⟨b1, e1⟩ := push_ok Block.new (.str "a") 0 (by decide)
  intro p hp
  simp [Pool.step, start, e1] at hp
  subst hp
  have f1 := filled_one e1 filled_new
  refine ⟨fun b hb => ?_, ?_⟩
  · cases hb; exact ⟨by decide, 1, f1, Nat.le_refl _⟩
  obtain ⟨b2, e2⟩ := push_ok b1 (.str "b") 1 (by decide)
  intro p hp
  simp [Pool.step, e2] at hp
  subst hp
  have f2 := filled_one e2 f1
  refine ⟨fun b hb => ?_, ?_⟩
  · cases hb; exact ⟨by decide, 2, f2, by decide⟩
  intro p _
  exact ⟨trivial, fun _ _ => trivial⟩

end Dyon.Link
