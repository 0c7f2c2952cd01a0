import Verif.Link.Model

/-! Helper lemmas about the link model. -/

namespace Dyon.Link

@[simp] theorem Outcome.bind_ok {α β : Type} (a : α) (f : α → Outcome β) :
    (Outcome.ok a >>= f) = f a := rfl

@[simp] theorem Outcome.bind_panic {α β : Type} (m : String) (f : α → Outcome β) :
    (Outcome.panic m >>= f) = .panic m := rfl

@[simp] theorem Outcome.pure_eq {α : Type} (a : α) : (pure a : Outcome α) = .ok a := rfl

/-! ### Bit packing -/

theorem three_bit (i : Nat) : (3 : BitVec 64).getLsbD i = decide (i < 2) := by
  rcases i with _ | _ | i
  · rfl
  · rfl
  · have : ¬ (i + 1 + 1 < 2) := by omega
    simp only [this, decide_false]
    by_cases h : i + 2 < 64
    · simp [BitVec.getLsbD, Nat.testBit]
      have : 3 >>> (i + 1 + 1) = 0 := by
        rw [Nat.shiftRight_eq_div_pow]
        apply Nat.div_eq_of_lt
        have : 2 ^ 2 ≤ 2 ^ (i+1+1) := Nat.pow_le_pow_right (by omega) (by omega)
        omega
      rw [this]
    · exact BitVec.getLsbD_of_ge _ _ (by omega)

theorem three_bit' (i : Nat) : (3#64).getLsbD i = decide (i < 2) := three_bit i

/-- Writing kind `c` at entry `j` and reading entry `j'` of the same word. -/
theorem kind_bits (t c : BitVec 64) (j j' : Nat) (hj : j < 32) (hj' : j' < 32)
    (hc : ∀ i, 2 ≤ i → c.getLsbD i = false) :
    (((t &&& ~~~((3 : BitVec 64) <<< (j * 2))) ||| (c <<< (j * 2))) >>> (j' * 2)) &&& 3
      = if j' = j then c else (t >>> (j' * 2)) &&& 3 := by
  apply BitVec.eq_of_getLsbD_eq
  intro i hi
  simp only [BitVec.getLsbD_and, three_bit, BitVec.getLsbD_ushiftRight]
  by_cases h2 : i < 2
  · have h64 : j' * 2 + i < 64 := by omega
    simp only [h2, decide_true, Bool.and_true, BitVec.getLsbD_or, BitVec.getLsbD_and,
      BitVec.getLsbD_not, BitVec.getLsbD_shiftLeft, three_bit, h64, Bool.true_and]
    by_cases h : j' = j
    · subst h
      have hlt : ¬ (j' * 2 + i < j' * 2) := by omega
      have hsub : j' * 2 + i - j' * 2 = i := by omega
      simp [hlt, hsub, h2]
    · by_cases hlt : j' * 2 + i < j * 2
      · simp [hlt, h, BitVec.getLsbD_and, three_bit', h2]
      · have hge : ¬ (j' * 2 + i - j * 2 < 2) := by omega
        simp [hge, hc (j' * 2 + i - j * 2) (by omega), h, BitVec.getLsbD_and, three_bit', h2]
  · by_cases h : j' = j
    · simp [h2, h, hc i (by omega)]
    · simp [h2, h, BitVec.getLsbD_and, three_bit']

theorem tag_high (v : Scalar) : ∀ i, 2 ≤ i → v.tag.getLsbD i = false := by
  intro i hi
  have h3 : ∀ c : BitVec 64, c &&& 3 = c → c.getLsbD i = false := by
    intro c hc
    rw [← hc, BitVec.getLsbD_and, three_bit]
    have : ¬ i < 2 := by omega
    simp [this]
  cases v <;> exact h3 _ (by simp [Scalar.tag])

/-- Reading the kind of entry `k` after writing a scalar at `p`. -/
theorem kind_push (b b' : Block) (v : Scalar) (p : Nat) (h : b.push v p = .ok b')
    (k : Fin blockSize) : b'.kind k = if k.val = p then v.tag else b.kind k := by
  unfold Block.push at h
  split at h
  case isFalse => cases h
  case isTrue hp =>
    injection h with h
    subst h
    have hk := k.isLt
    simp only [blockSize] at hk hp
    simp only [Block.kind]
    by_cases hi : k.val / 32 = p / 32
    · simp only [hi, Vector.getElem_set_self]
      rw [kind_bits _ _ _ _ (by omega) (by omega) (tag_high v)]
      by_cases hkp : k.val = p
      · simp [hkp]
      · have : k.val - p / 32 * 32 ≠ p - p / 32 * 32 := by omega
        simp [hkp, this]
    · rw [Vector.getElem_set_ne _ _ (by omega)]
      have : k.val ≠ p := by omega
      simp [this]

theorem data_push (b b' : Block) (v : Scalar) (p : Nat) (h : b.push v p = .ok b')
    (k : Nat) (hk : k < blockSize) : b'.data[k] = if k = p then v.word else b.data[k] := by
  unfold Block.push at h
  split at h
  case isFalse => cases h
  case isTrue hp =>
    injection h with h
    subst h
    simp only
    by_cases hkp : k = p
    · subst hkp; simp
    · rw [Vector.getElem_set_ne _ _ (by omega)]; simp [hkp]

theorem decode_scalar (v : Scalar) : decode v.tag v.word = .ok v := by
  cases v with
  | bool b => cases b <;> decide
  | f64 b => simp [decode, Scalar.tag, Scalar.word]
  | str s => simp [decode, Scalar.tag, Scalar.word]

theorem push_ok (b : Block) (v : Scalar) (p : Nat) (hp : p < blockSize) :
    ∃ b', b.push v p = .ok b' := by
  unfold Block.push; rw [dif_pos hp]; exact ⟨_, rfl⟩

theorem var_push (b b' : Block) (v : Scalar) (p : Nat) (h : b.push v p = .ok b')
    (k : Nat) (hk : k < blockSize) :
    b'.var k = if k = p then .ok v else b.var k := by
  unfold Block.var
  rw [dif_pos hk, dif_pos hk, kind_push b b' v p h, data_push b b' v p h k hk]
  by_cases hkp : k = p
  · simp [hkp, decode_scalar]
  · simp [hkp]

/-! ### Reading ranges -/

theorem read_append (b : Block) (xs ys : List Nat) :
    b.read (xs ++ ys) = (do let a ← b.read xs; let c ← b.read ys; .ok (a ++ c)) := by
  induction xs with
  | nil =>
    simp only [List.nil_append, Block.read, Outcome.bind_ok]
    cases b.read ys <;> simp
  | cons x xs ih =>
    simp only [List.cons_append, Block.read, ih]
    cases b.var x <;> simp
    cases b.read xs <;> simp
    cases b.read ys <;> simp

theorem read_congr (b b' : Block) (xs : List Nat) (h : ∀ x ∈ xs, b'.var x = b.var x) :
    b'.read xs = b.read xs := by
  induction xs with
  | nil => rfl
  | cons x xs ih =>
    simp only [Block.read]
    rw [h x (by simp), ih (fun y hy => h y (by simp [hy]))]

theorem itemsOf_append (xs ys : List Slice) :
    itemsOf (xs ++ ys) = (do let a ← itemsOf xs; let c ← itemsOf ys; .ok (a ++ c)) := by
  induction xs with
  | nil =>
    simp only [List.nil_append, itemsOf, Outcome.bind_ok]
    cases itemsOf ys <;> simp
  | cons x xs ih =>
    simp only [List.cons_append, itemsOf, ih]
    cases x.block.read (List.range' x.start (x.stop - x.start)) <;> simp
    cases itemsOf xs <;> simp
    cases itemsOf ys <;> simp

/-- Every slice is non-empty and within its block. -/
def SlicesOk (ss : List Slice) : Prop := ∀ s ∈ ss, s.start < s.stop ∧ s.stop ≤ blockSize

/-- `l` represents the list `xs`. -/
def Rep (l : Link) (xs : List Scalar) : Prop :=
  SlicesOk l.slices ∧ l.items = .ok xs

theorem rep_new : Rep Link.new [] := by
  refine ⟨?_, rfl⟩
  intro s hs; cases hs

theorem read_length {b : Block} {is : List Nat} {xs : List Scalar} (h : b.read is = .ok xs) :
    xs.length = is.length := by
  induction is generalizing xs with
  | nil => simp [Block.read] at h; subst h; rfl
  | cons i is ih =>
    simp only [Block.read] at h
    cases hv : b.var i <;> simp [hv] at h
    cases hr : b.read is <;> simp [hr] at h
    subst h
    simp [ih hr]

theorem itemsOf_cons_ok {s : Slice} {ss : List Slice} {xs : List Scalar}
    (h : itemsOf (s :: ss) = .ok xs) :
    ∃ a c, s.block.read (List.range' s.start (s.stop - s.start)) = .ok a ∧
      itemsOf ss = .ok c ∧ xs = a ++ c := by
  simp only [itemsOf] at h
  cases hr : s.block.read (List.range' s.start (s.stop - s.start)) <;> simp [hr] at h
  cases hi : itemsOf ss <;> simp [hi] at h
  exact ⟨_, _, rfl, rfl, h.symm⟩

theorem itemsOf_append_ok {ss ts : List Slice} {xs : List Scalar}
    (h : itemsOf (ss ++ ts) = .ok xs) :
    ∃ a c, itemsOf ss = .ok a ∧ itemsOf ts = .ok c ∧ xs = a ++ c := by
  rw [itemsOf_append] at h
  cases hr : itemsOf ss <;> simp [hr] at h
  cases hi : itemsOf ts <;> simp [hi] at h
  exact ⟨_, _, rfl, rfl, h.symm⟩

theorem range_cons (a n : Nat) (h : a < n) :
    List.range' a (n - a) = a :: List.range' (a + 1) (n - (a + 1)) := by
  have : n - a = (n - (a+1)) + 1 := by omega
  rw [this, List.range'_succ]

theorem range_snoc (a n : Nat) (h : a < n) :
    List.range' a (n - a) = List.range' a (n - 1 - a) ++ [n - 1] := by
  have h1 : n - a = (n - 1 - a) + 1 := by omega
  rw [h1, ← List.range'_append_1]
  simp
  omega

theorem read_cons_ok {b : Block} {i : Nat} {is : List Nat} {xs : List Scalar}
    (h : b.read (i :: is) = .ok xs) :
    ∃ v vs, b.var i = .ok v ∧ b.read is = .ok vs ∧ xs = v :: vs := by
  simp only [Block.read] at h
  cases hv : b.var i <;> simp [hv] at h
  cases hr : b.read is <;> simp [hr] at h
  exact ⟨_, _, rfl, rfl, h.symm⟩

theorem read_snoc_ok {b : Block} {i : Nat} {is : List Nat} {xs : List Scalar}
    (h : b.read (is ++ [i]) = .ok xs) :
    ∃ v vs, b.var i = .ok v ∧ b.read is = .ok vs ∧ xs = vs ++ [v] := by
  rw [read_append] at h
  cases hr : b.read is <;> simp [hr, Block.read] at h
  cases hv : b.var i <;> simp [hv] at h
  exact ⟨_, _, rfl, rfl, h.symm⟩

/-! ### The operations represent list operations -/

theorem rep_head {l : Link} {xs : List Scalar} (h : Rep l xs) : l.head = .ok xs.head? := by
  obtain ⟨hs, hi⟩ := h
  cases l with
  | mk ss =>
  cases ss with
  | nil =>
    simp [Link.items, itemsOf] at hi
    subst hi; rfl
  | cons s ss =>
    obtain ⟨a, c, ha, hc, rfl⟩ := itemsOf_cons_ok hi
    have hb := hs s (by simp)
    rw [range_cons _ _ hb.1] at ha
    obtain ⟨v, vs, hv, -, rfl⟩ := read_cons_ok ha
    simp [Link.head, hb.1, hv]

theorem rep_isEmpty {l : Link} {xs : List Scalar} (h : Rep l xs) : l.isEmpty = xs.isEmpty := by
  obtain ⟨hs, hi⟩ := h
  cases l with
  | mk ss =>
  cases ss with
  | nil =>
    simp [Link.items, itemsOf] at hi
    subst hi; rfl
  | cons s ss =>
    obtain ⟨a, c, ha, hc, rfl⟩ := itemsOf_cons_ok hi
    have hb := hs s (by simp)
    rw [range_cons _ _ hb.1] at ha
    obtain ⟨v, vs, hv, -, rfl⟩ := read_cons_ok ha
    simp [Link.isEmpty]

theorem rep_tail {l : Link} {xs : List Scalar} (h : Rep l xs) : Rep l.tail xs.tail := by
  obtain ⟨hs, hi⟩ := h
  cases l with
  | mk ss =>
  cases ss with
  | nil =>
    simp [Link.items, itemsOf] at hi
    subst hi; exact rep_new
  | cons s ss =>
    obtain ⟨a, c, ha, hc, rfl⟩ := itemsOf_cons_ok hi
    have hb := hs s (by simp)
    rw [range_cons _ _ hb.1] at ha
    obtain ⟨v, vs, hv, hr, rfl⟩ := read_cons_ok ha
    by_cases h1 : s.start + 1 < s.stop
    · simp only [Link.tail, h1, if_true, List.cons_append, List.tail_cons]
      refine ⟨?_, ?_⟩
      · intro t ht
        rcases List.mem_cons.1 ht with rfl | ht
        · exact ⟨h1, hb.2⟩
        · exact hs t (by simp [ht])
      · simp [Link.items, itemsOf, hr, hc]
    · have h0 : s.stop - (s.start + 1) = 0 := by omega
      rw [h0] at hr
      simp [Block.read] at hr
      subst hr
      simp only [Link.tail, h1, if_false, List.cons_append, List.tail_cons, List.nil_append]
      exact ⟨fun t ht => hs t (by simp [ht]), hc⟩

/-- Splitting off the last slice. -/
theorem slices_snoc {ss : List Slice} {s : Slice} (h : ss.getLast? = some s) :
    ss = ss.take (ss.length - 1) ++ [s] := by
  have hne : ss ≠ [] := by rintro rfl; simp at h
  rw [← List.dropLast_eq_take]
  rw [List.getLast?_eq_some_getLast hne] at h
  injection h with h
  rw [← h, List.dropLast_concat_getLast hne]

theorem rep_snoc {l : Link} {xs : List Scalar} (h : Rep l xs) {s : Slice}
    (hl : l.slices.getLast? = some s) :
    SlicesOk (l.slices.take (l.slices.length - 1)) ∧ s.start < s.stop ∧ s.stop ≤ blockSize ∧
    ∃ a c, itemsOf (l.slices.take (l.slices.length - 1)) = .ok a ∧
      s.block.read (List.range' s.start (s.stop - s.start)) = .ok c ∧ xs = a ++ c := by
  obtain ⟨hs, hi⟩ := h
  have hsn := slices_snoc hl
  have hmem : s ∈ l.slices := by rw [hsn]; simp
  refine ⟨fun t ht => hs t (List.mem_of_mem_take ht), (hs s hmem).1, (hs s hmem).2, ?_⟩
  rw [Link.items, hsn] at hi
  obtain ⟨a, c, ha, hc, rfl⟩ := itemsOf_append_ok hi
  obtain ⟨c1, c2, hc1, hc2, rfl⟩ := itemsOf_cons_ok hc
  simp [itemsOf] at hc2
  subst hc2
  exact ⟨a, c1, ha, hc1, by simp⟩

theorem rep_nil {l : Link} {xs : List Scalar} (h : Rep l xs) (hl : l.slices.getLast? = none) :
    l.slices = [] ∧ xs = [] := by
  have : l.slices = [] := by simpa using hl
  refine ⟨this, ?_⟩
  have hi := h.2
  rw [Link.items, this] at hi
  simp [itemsOf] at hi
  exact hi

theorem rep_tip {l : Link} {xs : List Scalar} (h : Rep l xs) : l.tip = .ok xs.getLast? := by
  cases hl : l.slices.getLast? with
  | none =>
    obtain ⟨-, rfl⟩ := rep_nil h hl
    simp [Link.tip, hl]
  | some s =>
    obtain ⟨-, hb, -, a, c, ha, hc, rfl⟩ := rep_snoc h hl
    rw [range_snoc _ _ hb] at hc
    obtain ⟨v, vs, hv, -, rfl⟩ := read_snoc_ok hc
    simp [Link.tip, hl, hb, hv, List.getLast?_append]

theorem rep_neck {l : Link} {xs : List Scalar} (h : Rep l xs) : Rep l.neck xs.dropLast := by
  cases hl : l.slices.getLast? with
  | none =>
    obtain ⟨-, rfl⟩ := rep_nil h hl
    simp only [Link.neck, hl]
    exact rep_new
  | some s =>
    obtain ⟨hok, hb, hb2, a, c, ha, hc, rfl⟩ := rep_snoc h hl
    rw [range_snoc _ _ hb] at hc
    obtain ⟨v, vs, hv, hr, rfl⟩ := read_snoc_ok hc
    rw [← List.append_assoc, List.dropLast_concat]
    by_cases h1 : s.start + 1 < s.stop
    · simp only [Link.neck, hl, h1, if_true]
      refine ⟨?_, ?_⟩
      · intro t ht
        rcases List.mem_append.1 ht with ht | ht
        · exact hok t ht
        · simp at ht; subst ht
          simp only at *
          constructor <;> omega
      · simp only [Link.items]
        rw [itemsOf_append, ha]
        simp [itemsOf, hr]
    · have h0 : s.stop - 1 - s.start = 0 := by omega
      rw [h0] at hr
      simp [Block.read] at hr
      subst hr
      simp only [Link.neck, hl, h1, if_false, List.append_nil]
      exact ⟨hok, ha⟩

theorem rep_add {l k : Link} {xs ys : List Scalar} (h : Rep l xs) (h' : Rep k ys) :
    Rep (l.add k) (xs ++ ys) := by
  refine ⟨?_, ?_⟩
  · intro s hs
    rcases List.mem_append.1 hs with hs | hs
    · exact h.1 s hs
    · exact h'.1 s hs
  · have h1 := h.2
    have h2 := h'.2
    simp only [Link.items] at *
    simp [Link.add, itemsOf_append, h1, h2]

theorem rep_pushScalar {l : Link} {xs : List Scalar} (h : Rep l xs) (v : Scalar) :
    ∃ l', l.pushScalar v = .ok l' ∧ Rep l' (xs ++ [v]) := by
  have hfresh : ∃ l' : Link, (do
      let b ← Slice.new.block.push v 0
      Outcome.ok ({ slices := l.slices ++ [{ Slice.new with block := b, stop := 1 }] } : Link))
        = .ok l' ∧ Rep l' (xs ++ [v]) := by
    obtain ⟨b, hb⟩ := push_ok Slice.new.block v 0 (by decide)
    refine ⟨_, by rw [hb]; rfl, ?_, ?_⟩
    · intro s hs
      rcases List.mem_append.1 hs with hs | hs
      · exact h.1 s hs
      · simp at hs; subst hs; simp [Slice.new, blockSize]
    · have h1 := h.2
      simp only [Link.items] at *
      rw [itemsOf_append, h1]
      have hv := var_push _ b v 0 hb 0 (by decide)
      simp [itemsOf, Slice.new, Block.read, hv]
  cases hl : l.slices.getLast? with
  | none => simpa only [Link.pushScalar, hl] using hfresh
  | some s =>
    obtain ⟨hok, hb, hb2, a, c, ha, hc, rfl⟩ := rep_snoc h hl
    by_cases hlt : s.stop < blockSize
    · obtain ⟨b, hbp⟩ := push_ok s.block v s.stop hlt
      simp only [Link.pushScalar, hl, hlt, if_true, hbp, Outcome.bind_ok]
      refine ⟨_, rfl, ?_, ?_⟩
      · intro t ht
        rcases List.mem_append.1 ht with ht | ht
        · exact hok t ht
        · simp at ht; subst ht
          simp only at *
          constructor <;> omega
      · simp only [Link.items]
        rw [itemsOf_append, ha]
        have hr := range_snoc s.start (s.stop + 1) (by omega)
        simp only [Nat.add_sub_cancel] at hr
        have hsame : b.read (List.range' s.start (s.stop - s.start)) = .ok c := by
          rw [← hc]
          apply read_congr
          intro x hx
          have := List.mem_range'_1.1 hx
          rw [var_push _ b v s.stop hbp x (by omega)]
          rw [if_neg (by omega)]
        have hv := var_push _ b v s.stop hbp s.stop hlt
        simp [itemsOf, hr, read_append, hsame, Block.read, hv]
    · simpa only [Link.pushScalar, hl, hlt, if_false] using hfresh

theorem rep_pushRange {l : Link} {xs : List Scalar} (h : Rep l xs) (b : Block) (is : List Nat)
    (ys : List Scalar) (hr : b.read is = .ok ys) :
    ∃ l', l.pushRange b is = .ok l' ∧ Rep l' (xs ++ ys) := by
  induction is generalizing l xs ys with
  | nil =>
    simp [Block.read] at hr; subst hr
    exact ⟨l, rfl, by simpa using h⟩
  | cons i is ih =>
    obtain ⟨v, vs, hv, hr', rfl⟩ := read_cons_ok hr
    obtain ⟨l1, hl1, h1⟩ := rep_pushScalar h v
    obtain ⟨l2, hl2, h2⟩ := ih h1 vs hr'
    refine ⟨l2, ?_, by simpa using h2⟩
    simp [Link.pushRange, hv, hl1, hl2]

theorem rep_pushSlices {l : Link} {xs : List Scalar} (h : Rep l xs) (ss : List Slice)
    (ys : List Scalar) (hr : itemsOf ss = .ok ys) :
    ∃ l', l.pushSlices ss = .ok l' ∧ Rep l' (xs ++ ys) := by
  induction ss generalizing l xs ys with
  | nil =>
    simp [itemsOf] at hr; subst hr
    exact ⟨l, rfl, by simpa using h⟩
  | cons s ss ih =>
    obtain ⟨a, c, ha, hc, rfl⟩ := itemsOf_cons_ok hr
    obtain ⟨l1, hl1, h1⟩ := rep_pushRange h _ _ _ ha
    obtain ⟨l2, hl2, h2⟩ := ih h1 c hc
    refine ⟨l2, ?_, by simpa using h2⟩
    simp [Link.pushSlices, hl1, hl2]

end Dyon.Link
