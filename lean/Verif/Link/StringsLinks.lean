import Verif.Link.StringsProps

/-!
# C98 for links: where links write into blocks
-/

namespace Dyon.Link

open Spec

namespace Spec

/-- The slice lies within the filled entries of a block of the heap. -/
def Inside (h : Heap) (s : HSlice) : Prop := ∃ c n, h[s.bid]? = some c ∧ Filled c.block n ∧ s.stop ≤ n

end Spec

/-- All blocks are filled from the start. -/
def AllFilled (h : Heap) : Prop := ∀ c ∈ h, ∃ n, Filled c.block n

/-- Blocks stay, with at least as many filled entries. -/
def Ext (h h' : Heap) : Prop := ∀ (bid : Nat) (c : Cell) (n : Nat), h[bid]? = some c → Filled c.block n →
  ∃ c' n', h'[bid]? = some c' ∧ Filled c'.block n' ∧ n ≤ n'

theorem Ext.refl (h : Heap) : Ext h h := fun _ c n e f => ⟨c, n, e, f, Nat.le_refl _⟩

theorem Ext.trans {h h' h'' : Heap} (a : Ext h h') (b : Ext h' h'') : Ext h h'' := by
  intro bid c n e f
  obtain ⟨c', n', e', f', l⟩ := a bid c n e f
  obtain ⟨c'', n'', e'', f'', l'⟩ := b bid c' n' e' f'
  exact ⟨c'', n'', e'', f'', Nat.le_trans l l'⟩

theorem Inside.ext {h h' : Heap} {s : HSlice} (a : Ext h h') (hs : Inside h s) : Inside h' s := by
  obtain ⟨c, n, e, f, l⟩ := hs
  obtain ⟨c', n', e', f', l'⟩ := a _ c n e f
  exact ⟨c', n', e', f', Nat.le_trans l l'⟩

theorem ext_set {h : Heap} {bid : Nat} {c c' : Cell} (hb : h[bid]? = some c)
    (hc : ∀ n, Filled c.block n → ∃ n', Filled c'.block n' ∧ n ≤ n') (ha : AllFilled h) :
    Ext h (h.set bid c') ∧ AllFilled (h.set bid c') := by
  have hlt : bid < h.length := (List.getElem?_eq_some_iff.1 hb).1
  constructor
  · intro k d n e f
    by_cases hk : bid = k
    · subst hk
      rw [hb] at e
      cases e
      obtain ⟨n', f', l⟩ := hc n f
      exact ⟨c', n', by rw [List.getElem?_set_self hlt], f', l⟩
    · exact ⟨d, n, by rw [List.getElem?_set_ne hk]; exact e, f, Nat.le_refl _⟩
  · intro d hd
    rcases List.mem_or_eq_of_mem_set hd with hd | rfl
    · exact ha d hd
    · obtain ⟨n, f⟩ := ha c (List.mem_of_getElem? hb)
      obtain ⟨n', f', -⟩ := hc n f
      exact ⟨n', f'⟩

theorem ext_append {h : Heap} {c : Cell} {n : Nat} (hc : Filled c.block n) (ha : AllFilled h) :
    Ext h (h ++ [c]) ∧ AllFilled (h ++ [c]) := by
  constructor
  · intro k d m e f
    exact ⟨d, m, by rw [List.getElem?_append_left (List.getElem?_eq_some_iff.1 e).1]; exact e, f, Nat.le_refl _⟩
  · intro d hd
    rcases List.mem_append.1 hd with hd | hd
    · exact ha d hd
    · rw [List.mem_singleton.1 hd]; exact ⟨n, hc⟩

theorem incr_ext {h h' : Heap} {bid : Nat} (ha : AllFilled h) (e : incr h bid = .ok h') : Ext h h' ∧ AllFilled h' := by
  unfold incr at e
  split at e
  · rename_i c hc
    split at e
    · cases e
    · cases e
      exact ext_set hc (fun n f => ⟨n, f, Nat.le_refl _⟩) ha
  · cases e

theorem decr_ext {h h' : Heap} {bid : Nat} (ha : AllFilled h) (e : decr h bid = .ok h') : Ext h h' ∧ AllFilled h' := by
  unfold decr at e
  split at e
  · rename_i c hc
    split at e
    · cases e
    · cases e
      exact ext_set hc (fun n f => ⟨n, f, Nat.le_refl _⟩) ha
  · cases e

theorem bind_eq_ok {α β : Type} {x : Outcome α} {f : α → Outcome β} {b : β} (h : (x >>= f) = .ok b) : ∃ a, x = .ok a ∧ f a = .ok b := by
  cases x with
  | ok a => exact ⟨a, rfl, h⟩
  | panic m => cases h

theorem incrAll_ext {l : HLink} {h h' : Heap} (ha : AllFilled h) (e : incrAll h l = .ok h') : Ext h h' ∧ AllFilled h' := by
  induction l generalizing h with
  | nil => cases e; exact ⟨.refl _, ha⟩
  | cons s l ih =>
    obtain ⟨h1, e1, e2⟩ := bind_eq_ok e
    obtain ⟨a, b⟩ := incr_ext ha e1
    obtain ⟨a', b'⟩ := ih b e2
    exact ⟨a.trans a', b'⟩

theorem decrAll_ext {l : HLink} {h h' : Heap} (ha : AllFilled h) (e : decrAll h l = .ok h') : Ext h h' ∧ AllFilled h' := by
  induction l generalizing h with
  | nil => cases e; exact ⟨.refl _, ha⟩
  | cons s l ih =>
    obtain ⟨h1, e1, e2⟩ := bind_eq_ok e
    obtain ⟨a, b⟩ := decr_ext ha e1
    obtain ⟨a', b'⟩ := ih b e2
    exact ⟨a.trans a', b'⟩

theorem makeMut_ext {h h' : Heap} {bid bid' : Nat} (ha : AllFilled h) (e : makeMut h bid = .ok (h', bid')) :
    Ext h h' ∧ AllFilled h' ∧ ∃ c c', h[bid]? = some c ∧ h'[bid']? = some c' ∧ c'.block = c.block := by
  unfold makeMut at e
  split at e
  · rename_i c hc
    split at e
    · cases e
    · split at e
      · cases e
        exact ⟨.refl _, ha, c, c, hc, hc, rfl⟩
      · cases e
        obtain ⟨n, f⟩ := ha c (List.mem_of_getElem? hc)
        obtain ⟨a, b⟩ := ext_set (c' := { c with rc := c.rc - 1 }) hc (fun n f => ⟨n, f, Nat.le_refl _⟩) ha
        obtain ⟨a', b'⟩ := ext_append (c := ⟨c.block, 1⟩) f b
        exact ⟨a.trans a', b', c, ⟨c.block, 1⟩, hc, by rw [List.getElem?_append_right (by simp)]; simp, rfl⟩
  · cases e

theorem writeAt_ext {h h' : Heap} {bid pos : Nat} {v : Scalar} {c : Cell} (ha : AllFilled h) (e : writeAt h bid v pos = .ok h')
    (hc : h[bid]? = some c) (hp : ∃ n, Filled c.block n ∧ pos ≤ n) :
    Ext h h' ∧ AllFilled h' ∧ ∃ c' n', h'[bid]? = some c' ∧ Filled c'.block n' ∧ pos + 1 ≤ n' := by
  unfold writeAt at e
  rw [hc] at e
  obtain ⟨b, eb, e⟩ := bind_eq_ok e
  cases e
  obtain ⟨n, f, l⟩ := hp
  have uniq : ∀ m, Filled c.block m → ∃ n', Filled b n' ∧ m ≤ n' := by
    intro m hm
    by_cases hmp : pos ≤ m
    · exact ⟨_, filled_push eb hm hmp, Nat.le_max_left _ _⟩
    · exact ⟨_, filled_push eb f l, by omega⟩
  obtain ⟨a, d⟩ := ext_set (c' := { c with block := b }) hc uniq ha
  exact ⟨a, d, { c with block := b }, _, by rw [List.getElem?_set_self (List.getElem?_eq_some_iff.1 hc).1], filled_push eb f l,
    Nat.le_max_right _ _⟩

theorem pushScalar_ext {h h' : Heap} {l l' : HLink} {v : Scalar} (ha : AllFilled h) (hl : ∀ s ∈ l, Inside h s)
    (e : hPushScalar h l v = .ok (h', l')) : Ext h h' ∧ AllFilled h' ∧ ∀ s ∈ l', Inside h' s := by
  have fresh : (do
      let h1 := h ++ [{ block := Slice.new.block, rc := 1 }]
      let (h2, bid) ← makeMut h1 h.length
      let h3 ← writeAt h2 bid v 0
      .ok (h3, l ++ [{ bid := bid, start := 0, stop := 1 }]) : Outcome (Heap × HLink)) = .ok (h', l') →
      Ext h h' ∧ AllFilled h' ∧ ∀ s ∈ l', Inside h' s := by
    intro e
    obtain ⟨a0, b0⟩ := ext_append (c := ⟨Slice.new.block, 1⟩) filled_new ha
    obtain ⟨⟨h2, bid⟩, e1, e⟩ := bind_eq_ok e
    obtain ⟨h3, e2, e⟩ := bind_eq_ok e
    cases e
    obtain ⟨a1, b1, c, c', hc, hc', -⟩ := makeMut_ext b0 e1
    obtain ⟨n, f⟩ := b1 c' (List.mem_of_getElem? hc')
    obtain ⟨a2, b2, c2, n2, g, f2, l2⟩ := writeAt_ext b1 e2 hc' ⟨n, f, Nat.zero_le _⟩
    refine ⟨(a0.trans a1).trans a2, b2, fun s hs => ?_⟩
    rcases List.mem_append.1 hs with hs | hs
    · exact Inside.ext ((a0.trans a1).trans a2) (hl s hs)
    · rw [List.mem_singleton.1 hs]; exact ⟨c2, n2, g, f2, l2⟩
  unfold hPushScalar at e
  split at e
  · rename_i last hlast
    split at e
    · obtain ⟨⟨h1, bid⟩, e1, e⟩ := bind_eq_ok e
      obtain ⟨h2, e2, e⟩ := bind_eq_ok e
      cases e
      obtain ⟨a1, b1, c, c', hc, hc', hbl⟩ := makeMut_ext ha e1
      obtain ⟨d, n, hd, f, ln⟩ := hl last (List.mem_of_getLast? hlast)
      rw [hc] at hd
      cases hd
      obtain ⟨a2, b2, c2, n2, g, f2, l2⟩ := writeAt_ext b1 e2 hc' ⟨n, by rw [hbl]; exact f, ln⟩
      refine ⟨a1.trans a2, b2, fun s hs => ?_⟩
      rcases List.mem_append.1 hs with hs | hs
      · exact Inside.ext (a1.trans a2) (hl s (List.mem_of_mem_take hs))
      · rw [List.mem_singleton.1 hs]; exact ⟨c2, n2, g, f2, l2⟩
    · exact fresh e
  · exact fresh e

theorem pushRange_ext {is : List Nat} {h h' : Heap} {l l' : HLink} {bid : Nat} (ha : AllFilled h) (hl : ∀ s ∈ l, Inside h s)
    (e : hPushRange h l bid is = .ok (h', l')) : Ext h h' ∧ AllFilled h' ∧ ∀ s ∈ l', Inside h' s := by
  induction is generalizing h l with
  | nil => cases e; exact ⟨.refl _, ha, hl⟩
  | cons i is ih =>
    obtain ⟨b, -, e⟩ := bind_eq_ok e
    obtain ⟨v, -, e⟩ := bind_eq_ok e
    obtain ⟨⟨h1, l1⟩, e1, e⟩ := bind_eq_ok e
    obtain ⟨a1, b1, c1⟩ := pushScalar_ext ha hl e1
    obtain ⟨a2, b2, c2⟩ := ih b1 c1 e
    exact ⟨a1.trans a2, b2, c2⟩

theorem pushSlices_ext {k : HLink} {h h' : Heap} {l l' : HLink} (ha : AllFilled h) (hl : ∀ s ∈ l, Inside h s)
    (e : hPushSlices h l k = .ok (h', l')) : Ext h h' ∧ AllFilled h' ∧ ∀ s ∈ l', Inside h' s := by
  induction k generalizing h l with
  | nil => cases e; exact ⟨.refl _, ha, hl⟩
  | cons s k ih =>
    obtain ⟨⟨h1, l1⟩, e1, e⟩ := bind_eq_ok e
    obtain ⟨a1, b1, c1⟩ := pushRange_ext ha hl e1
    obtain ⟨a2, b2, c2⟩ := ih b1 c1 e
    exact ⟨a1.trans a2, b2, c2⟩

theorem inside_tail {h : Heap} {l : HLink} (hl : ∀ s ∈ l, Inside h s) : ∀ s ∈ hTail l, Inside h s := by
  intro s hs
  unfold hTail at hs
  split at hs
  · cases hs
  · split at hs
    · rcases List.mem_cons.1 hs with rfl | hs
      · obtain ⟨c, n, a, b, d⟩ := hl _ (List.mem_cons_self ..)
        exact ⟨c, n, a, b, d⟩
      · exact hl s (List.mem_cons_of_mem _ hs)
    · exact hl s (List.mem_cons_of_mem _ hs)

theorem inside_neck {h : Heap} {l : HLink} (hl : ∀ s ∈ l, Inside h s) : ∀ s ∈ hNeck l, Inside h s := by
  intro s hs
  unfold hNeck at hs
  split at hs
  · rename_i last hlast
    split at hs
    · rcases List.mem_append.1 hs with hs | hs
      · exact hl s (List.mem_of_mem_take hs)
      · rw [List.mem_singleton.1 hs]
        obtain ⟨c, n, a, b, d⟩ := hl last (List.mem_of_getLast? hlast)
        exact ⟨c, n, a, b, Nat.le_trans (Nat.sub_le _ _) d⟩
    · exact hl s (List.mem_of_mem_take hs)
  · cases hs

/-- The invariant of the heap and the links. -/
def LinkInv (st : HState) : Prop := AllFilled st.heap ∧ ∀ l, some l ∈ st.store → ∀ s ∈ l, Inside st.heap s

theorem linkInv_append {st : HState} {h : Heap} {l : HLink} (hi : LinkInv st) (he : Ext st.heap h) (ha : AllFilled h)
    (hl : ∀ s ∈ l, Inside st.heap s) : LinkInv ⟨h, st.store ++ [some l]⟩ := by
  refine ⟨ha, fun k hk s hs => ?_⟩
  rcases List.mem_append.1 hk with hk | hk
  · exact Inside.ext he (hi.2 k hk s hs)
  · cases List.mem_singleton.1 hk; exact Inside.ext he (hl s hs)

theorem linkInv_set {st : HState} {h : Heap} {o : Option HLink} {i : Nat} (hi : LinkInv st) (he : Ext st.heap h) (ha : AllFilled h)
    (hl : ∀ l, o = some l → ∀ s ∈ l, Inside h s) : LinkInv ⟨h, st.store.set i o⟩ := by
  refine ⟨ha, fun k hk s hs => ?_⟩
  rcases List.mem_or_eq_of_mem_set hk with hk | hk
  · exact Inside.ext he (hi.2 k hk s hs)
  · exact hl k hk.symm s hs

theorem linkInv_step {st st' : HState} {op : Op} (hi : LinkInv st) (e : hStep st op = .ok st') : LinkInv st' := by
  have live : ∀ {i l}, st.store[i]? = some (some l) → ∀ s ∈ l, Inside st.heap s := fun hl => hi.2 _ (List.mem_of_getElem? hl)
  cases op with
  | new =>
    cases e
    exact linkInv_append hi (.refl _) hi.1 (by simp)
  | clone i =>
    simp only [hStep] at e
    split at e
    · rename_i l hl
      obtain ⟨h, e1, e⟩ := bind_eq_ok e
      cases e
      obtain ⟨a, b⟩ := incrAll_ext hi.1 e1
      exact linkInv_append hi a b (live hl)
    · cases e; exact hi
  | push i v =>
    simp only [hStep] at e
    split at e
    · rename_i l hl
      obtain ⟨⟨h, l'⟩, e1, e⟩ := bind_eq_ok e
      cases e
      obtain ⟨a, b, c⟩ := pushScalar_ext hi.1 (live hl) e1
      exact linkInv_set hi a b (fun k hk => by cases hk; exact c)
    · cases e; exact hi
  | pushOther i => cases e; exact hi
  | pushLink i j =>
    simp only [hStep] at e
    split at e
    · cases e; exact hi
    · split at e
      · rename_i l k hl hk
        obtain ⟨⟨h, l'⟩, e1, e⟩ := bind_eq_ok e
        cases e
        obtain ⟨a, b, c⟩ := pushSlices_ext hi.1 (live hl) e1
        exact linkInv_set hi a b (fun k hk => by cases hk; exact c)
      · cases e; exact hi
  | tail i =>
    simp only [hStep] at e
    split at e
    · rename_i l hl
      obtain ⟨h, e1, e⟩ := bind_eq_ok e
      cases e
      obtain ⟨a, b⟩ := incrAll_ext hi.1 e1
      exact linkInv_append hi a b (inside_tail (live hl))
    · cases e; exact hi
  | neck i =>
    simp only [hStep] at e
    split at e
    · rename_i l hl
      obtain ⟨h, e1, e⟩ := bind_eq_ok e
      cases e
      obtain ⟨a, b⟩ := incrAll_ext hi.1 e1
      exact linkInv_append hi a b (inside_neck (live hl))
    · cases e; exact hi
  | add i j =>
    simp only [hStep] at e
    split at e
    · rename_i l k hl hk
      obtain ⟨h, e1, e⟩ := bind_eq_ok e
      cases e
      obtain ⟨a, b⟩ := incrAll_ext hi.1 e1
      exact linkInv_append hi a b (fun s hs => (List.mem_append.1 hs).elim (live hl s) (live hk s))
    · cases e; exact hi
  | drop i =>
    simp only [hStep] at e
    split at e
    · rename_i l hl
      obtain ⟨h, e1, e⟩ := bind_eq_ok e
      cases e
      obtain ⟨a, b⟩ := decrAll_ext hi.1 e1
      exact linkInv_set hi a b (fun k hk => by cases hk)
    · cases e; exact hi

theorem linkInv_run {ops : List Op} {st st' : HState} (hi : LinkInv st) (e : hRun st ops = .ok st') : LinkInv st' := by
  induction ops generalizing st with
  | nil => cases e; exact hi
  | cons op ops ih =>
    obtain ⟨s1, e1, e⟩ := bind_eq_ok e
    exact ih (linkInv_step hi e1) e

/-- C98: in every history of operations on links all blocks are filled from the start, and every slice of a link, behind which the next
element is written, lies within the filled entries.  So links write to blocks only as `Spec.Within` says. -/
theorem C98_links (ops : List Op) (st : HState) (e : hRun HState.init ops = .ok st) :
    (∀ c ∈ st.heap, ∃ n, Filled c.block n) ∧ ∀ l, some l ∈ st.store → ∀ s ∈ l, Inside st.heap s :=
  linkInv_run (st := HState.init) ⟨(fun _ hc => nomatch hc), (fun _ hl => nomatch hl)⟩ e

/-- A history with shared blocks, a tail, a neck and a sum (every history runs, `C01_links_are_lists`). -/
example : (match hRun HState.init [.new, .push 0 (.str "a"), .push 0 (.f64 0), .clone 0, .neck 1, .push 2 (.str "b"), .tail 0, .add 2 3,
    .drop 0] with | .ok st => st.store.length | .panic _ => 0) = 5 := by decide +kernel

end Dyon.Link
