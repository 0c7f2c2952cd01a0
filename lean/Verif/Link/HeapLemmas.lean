import Verif.Link.Heap
import Verif.Link.Lemmas

/-! The shared representation refines the value representation. -/

namespace Dyon.Link

/-- Number of references from one handle to block `b`. -/
def cnt (b : Nat) : Option HLink → Nat
  | none => 0
  | some l => (l.map HSlice.bid).count b

/-- Number of references from all live handles. -/
def occ (st : List (Option HLink)) (b : Nat) : Nat := (st.map (cnt b)).sum

theorem sum_set (xs : List Nat) (i : Nat) (a b : Nat) (h : xs[i]? = some a) :
    (xs.set i b).sum + a = xs.sum + b := by
  induction xs generalizing i with
  | nil => simp at h
  | cons x xs ih =>
    cases i with
    | zero => simp at h; subst h; simp; omega
    | succ i =>
      simp at h
      have := ih i h
      simp
      omega

theorem set_self {α : Type} {xs : List α} {i : Nat} {a : α} (h : xs[i]? = some a) :
    xs.set i a = xs := by
  obtain ⟨hlt, he⟩ := List.getElem?_eq_some_iff.1 h
  rw [← he]
  simp

theorem occ_set (st : List (Option HLink)) (i : Nat) (o o' : Option HLink) (b : Nat)
    (h : st[i]? = some o) : occ (st.set i o') b + cnt b o = occ st b + cnt b o' := by
  unfold occ
  rw [List.map_set]
  exact sum_set _ _ _ _ (by simp [h])

theorem occ_append (st : List (Option HLink)) (o : Option HLink) (b : Nat) :
    occ (st ++ [o]) b = occ st b + cnt b o := by
  simp [occ]

theorem cnt_le_occ (st : List (Option HLink)) (i : Nat) (o : Option HLink) (b : Nat)
    (h : st[i]? = some o) : cnt b o ≤ occ st b := by
  have := occ_set st i o none b h
  have h2 : cnt b none = 0 := rfl
  omega

theorem cnt_two_le_occ (st : List (Option HLink)) (i j : Nat) (o o' : Option HLink) (b : Nat)
    (h : st[i]? = some o) (h' : st[j]? = some o') (hij : i ≠ j) :
    cnt b o + cnt b o' ≤ occ st b := by
  have h1 := occ_set st i o none b h
  have h2 := cnt_le_occ (st.set i none) j o' b (by rw [List.getElem?_set_ne hij]; exact h')
  have : cnt b none = 0 := rfl
  omega

/-- Reference counts are exact. -/
def RcInv (h : Heap) (st : List (Option HLink)) : Prop :=
  ∀ b, match h[b]? with
    | some c => c.rc = occ st b
    | none => occ st b = 0

/-- The block at an address. -/
def blk (h : Heap) (b : Nat) : Option Block := h[b]?.map Cell.block

/-- The slices of a handle as values. -/
def view (h : Heap) (l : HLink) : List (Option Block × Nat × Nat) :=
  l.map fun s => (blk h s.bid, s.start, s.stop)

def pview (ss : List Slice) : List (Option Block × Nat × Nat) :=
  ss.map fun s => (some s.block, s.start, s.stop)

theorem rc_pos {h : Heap} {st : List (Option HLink)} (hr : RcInv h st) {i : Nat} {l : HLink}
    (hi : st[i]? = some (some l)) {s : HSlice} (hs : s ∈ l) :
    ∃ c, h[s.bid]? = some c ∧ c.rc = occ st s.bid ∧ 0 < c.rc := by
  have h1 := cnt_le_occ st i _ s.bid hi
  have h2 : 0 < cnt s.bid (some l) := by
    simp only [cnt]
    exact List.count_pos_iff.2 (List.mem_map.2 ⟨s, hs, rfl⟩)
  have h3 := hr s.bid
  cases hc : h[s.bid]? with
  | none => rw [hc] at h3; simp only at h3; omega
  | some c => rw [hc] at h3; simp only at h3; exact ⟨c, rfl, h3, by omega⟩

theorem hLink_of_view {h : Heap} {l : HLink} {ss : List Slice}
    (hv : view h l = pview ss) (hp : ∀ s ∈ l, ∃ c, h[s.bid]? = some c ∧ 0 < c.rc) :
    hLink h l = .ok ss := by
  induction l generalizing ss with
  | nil =>
    cases ss with
    | nil => rfl
    | cons => simp [view, pview] at hv
  | cons s l ih =>
    cases ss with
    | nil => simp [view, pview] at hv
    | cons t ss =>
      simp only [view, pview, List.map_cons, List.cons.injEq, Prod.mk.injEq] at hv
      obtain ⟨⟨h1, h2, h3⟩, h4⟩ := hv
      obtain ⟨c, hc, hpos⟩ := hp s (by simp)
      have hcb : c.block = t.block := by simpa [blk, hc] using h1
      have := ih (ss := ss) h4 (fun x hx => hp x (by simp [hx]))
      simp [hLink, hReadSlice, deref, hc, Nat.pos_iff_ne_zero.1 hpos, this, hcb, h2, h3]

theorem view_congr {h h' : Heap} {l : HLink} (hb : ∀ s ∈ l, blk h' s.bid = blk h s.bid) :
    view h' l = view h l := by
  apply List.map_congr_left
  intro s hs
  rw [hb s hs]

theorem view_append (h : Heap) (l k : HLink) : view h (l ++ k) = view h l ++ view h k := by
  simp [view]

theorem pview_append (l k : List Slice) : pview (l ++ k) = pview l ++ pview k := by
  simp [pview]

/-! ### Cloning and dropping -/

theorem incrAll_spec (h : Heap) (l : HLink) (hp : ∀ s ∈ l, ∃ c, h[s.bid]? = some c ∧ 0 < c.rc) :
    ∃ h', incrAll h l = .ok h' ∧
      ∀ b : Nat, h'[b]? = h[b]?.map fun c : Cell => { c with rc := c.rc + cnt b (some l) } := by
  induction l generalizing h with
  | nil =>
    refine ⟨h, rfl, ?_⟩
    intro b
    simp [cnt]
  | cons s l ih =>
    obtain ⟨c, hc, hpos⟩ := hp s (by simp)
    have hlt : s.bid < h.length := (List.getElem?_eq_some_iff.1 hc).1
    have h1 : incr h s.bid = .ok (h.set s.bid { c with rc := c.rc + 1 }) := by
      simp [incr, hc, Nat.pos_iff_ne_zero.1 hpos]
    have hp' : ∀ t ∈ l, ∃ c', (h.set s.bid { c with rc := c.rc + 1 })[t.bid]? = some c' ∧ 0 < c'.rc := by
      intro t ht
      obtain ⟨c', hc', hpos'⟩ := hp t (by simp [ht])
      by_cases hst : s.bid = t.bid
      · rw [← hst, List.getElem?_set_self hlt]
        exact ⟨_, rfl, by simp⟩
      · rw [List.getElem?_set_ne hst]
        exact ⟨c', hc', hpos'⟩
    obtain ⟨h', hh', hspec⟩ := ih _ hp'
    refine ⟨h', by simp [incrAll, h1, hh'], ?_⟩
    intro b
    rw [hspec b]
    by_cases hst : s.bid = b
    · subst hst
      rw [List.getElem?_set_self hlt, hc]
      simp [cnt, List.count_cons]
      omega
    · rw [List.getElem?_set_ne hst]
      cases h[b]? with
      | none => rfl
      | some c' => simp [cnt, List.count_cons, hst]

theorem decrAll_spec (h : Heap) (l : HLink)
    (hp : ∀ b, 0 < cnt b (some l) → ∃ c, h[b]? = some c ∧ cnt b (some l) ≤ c.rc) :
    ∃ h', decrAll h l = .ok h' ∧
      ∀ b : Nat, h'[b]? = h[b]?.map fun c : Cell => { c with rc := c.rc - cnt b (some l) } := by
  induction l generalizing h with
  | nil =>
    refine ⟨h, rfl, ?_⟩
    intro b
    simp [cnt]
  | cons s l ih =>
    obtain ⟨c, hc, hle⟩ := hp s.bid (by simp [cnt])
    have hlt : s.bid < h.length := (List.getElem?_eq_some_iff.1 hc).1
    have hcs : cnt s.bid (some (s :: l)) = cnt s.bid (some l) + 1 := by simp [cnt]
    have h1 : decr h s.bid = .ok (h.set s.bid { c with rc := c.rc - 1 }) := by
      have : c.rc ≠ 0 := by omega
      simp [decr, hc, this]
    have hp' : ∀ b, 0 < cnt b (some l) →
        ∃ c', (h.set s.bid { c with rc := c.rc - 1 })[b]? = some c' ∧ cnt b (some l) ≤ c'.rc := by
      intro b hb
      by_cases hst : s.bid = b
      · subst hst
        rw [List.getElem?_set_self hlt]
        exact ⟨_, rfl, by simp only; omega⟩
      · rw [List.getElem?_set_ne hst]
        have he : cnt b (some (s :: l)) = cnt b (some l) := by
          simp [cnt, List.count_cons, hst]
        obtain ⟨c', hc', hle'⟩ := hp b (by omega)
        exact ⟨c', hc', by omega⟩
    obtain ⟨h', hh', hspec⟩ := ih _ hp'
    refine ⟨h', by simp [decrAll, h1, hh'], ?_⟩
    intro b
    rw [hspec b]
    by_cases hst : s.bid = b
    · subst hst
      rw [List.getElem?_set_self hlt, hc, hcs]
      simp
      omega
    · rw [List.getElem?_set_ne hst]
      cases h[b]? with
      | none => rfl
      | some c' => simp [cnt, List.count_cons, hst]

theorem blk_of_map {h h' : Heap} {f : Nat → Cell → Nat}
    (hs : ∀ b : Nat, h'[b]? = h[b]?.map fun c : Cell => { c with rc := f b c }) (b : Nat) :
    blk h' b = blk h b := by
  unfold blk
  rw [hs b]
  cases h[b]? <;> rfl

/-! ### Pushing a scalar -/

/-- Effect of pushing on the handle `i` holding `l`. -/
structure PushOk (h : Heap) (st : List (Option HLink)) (i : Nat) (h' : Heap) (l' : HLink)
    (L' : List Slice) : Prop where
  rc : RcInv h' (st.set i (some l'))
  view : view h' l' = pview L'
  others : ∀ j k, j ≠ i → st[j]? = some (some k) → Dyon.Link.view h' k = Dyon.Link.view h k

theorem rcInv_fresh {h : Heap} {st : List (Option HLink)} (hr : RcInv h st) :
    occ st h.length = 0 := by
  have := hr h.length
  simpa using this

theorem mem_lt {h : Heap} {st : List (Option HLink)} (hr : RcInv h st) {i : Nat} {l : HLink}
    (hi : st[i]? = some (some l)) {s : HSlice} (hs : s ∈ l) : s.bid < h.length := by
  obtain ⟨c, hc, -, -⟩ := rc_pos hr hi hs
  exact (List.getElem?_eq_some_iff.1 hc).1

theorem hslices_snoc {ss : HLink} {s : HSlice} (h : ss.getLast? = some s) :
    ss = ss.take (ss.length - 1) ++ [s] := by
  have hne : ss ≠ [] := by rintro rfl; simp at h
  rw [← List.dropLast_eq_take]
  rw [List.getLast?_eq_some_getLast hne] at h
  injection h with h
  rw [← h, List.dropLast_concat_getLast hne]

theorem view_getLast? {h : Heap} {l : HLink} {L : List Slice} (hv : view h l = pview L) :
    (l.getLast? = none ∧ L.getLast? = none) ∨
    (∃ s S, l.getLast? = some s ∧ L.getLast? = some S ∧
      blk h s.bid = some S.block ∧ s.start = S.start ∧ s.stop = S.stop ∧
      view h (l.take (l.length - 1)) = pview (L.take (L.length - 1))) := by
  have hlen : l.length = L.length := by
    have := congrArg List.length hv
    simpa [view, pview] using this
  cases hl : l.getLast? with
  | none =>
    left
    have : l = [] := by simpa using hl
    subst this
    have : L = [] := by simpa using hlen.symm
    subst this
    exact ⟨rfl, rfl⟩
  | some s =>
    right
    cases hL : L.getLast? with
    | none =>
      have : L = [] := by simpa using hL
      subst this
      have : l = [] := by simpa using hlen
      subst this
      simp at hl
    | some S =>
      refine ⟨s, S, rfl, rfl, ?_⟩
      have e1 := hslices_snoc hl
      have e2 := slices_snoc hL
      rw [e1, e2, view_append, pview_append] at hv
      have := List.append_inj' hv (by simp [view, pview])
      obtain ⟨hA, hB⟩ := this
      simp [view, pview] at hB
      exact ⟨hB.1, hB.2.1, hB.2.2, by simpa [hlen] using hA⟩

theorem blk_append_lt {h k : Heap} {b : Nat} (hb : b < h.length) : blk (h ++ k) b = blk h b := by
  simp [blk, List.getElem?_append_left hb]

theorem push_fresh {h : Heap} {st : List (Option HLink)} {i : Nat} {l : HLink} {L : List Slice}
    (hr : RcInv h st) (hi : st[i]? = some (some l)) (hv : view h l = pview L) (v : Scalar)
    (b : Block) (hb : Slice.new.block.push v 0 = .ok b) :
    ∃ h' l', (do
      let h1 := h ++ [({ block := Slice.new.block, rc := 1 } : Cell)]
      let (h2, bid) ← makeMut h1 h.length
      let h3 ← writeAt h2 bid v 0
      Outcome.ok (h3, l ++ [({ bid := bid, start := 0, stop := 1 } : HSlice)])) = .ok (h', l') ∧
      PushOk h st i h' l' (L ++ [{ Slice.new with block := b, stop := 1 }]) := by
  refine ⟨h ++ [{ block := b, rc := 1 }], l ++ [{ bid := h.length, start := 0, stop := 1 }], ?_, ?_⟩
  · simp [makeMut, writeAt, hb]
  · have hocc := rcInv_fresh hr
    refine ⟨?_, ?_, ?_⟩
    · intro x
      have hs := occ_set st i (some l) (some (l ++ [{ bid := h.length, start := 0, stop := 1 }])) x hi
      have hc : cnt x (some (l ++ [{ bid := h.length, start := 0, stop := 1 }]))
          = cnt x (some l) + (if x = h.length then 1 else 0) := by
        by_cases hx : x = h.length
        · simp [cnt, hx]
        · have : h.length ≠ x := fun e => hx e.symm
          simp [cnt, List.count_cons, hx, this]
      have h0 := hr x
      rcases Nat.lt_trichotomy x h.length with hx | hx | hx
      · rw [List.getElem?_append_left hx]
        have hx' : x ≠ h.length := by omega
        simp only [hx', if_false] at hc
        cases hcx : h[x]? with
        | none => rw [hcx] at h0; simp only at h0 ⊢; omega
        | some c => rw [hcx] at h0; simp only at h0 ⊢; omega
      · subst hx
        simp only [List.getElem?_concat_length]
        simp at hc
        omega
      · have hx' : x ≠ h.length := by omega
        simp only [hx', if_false] at hc
        rw [List.getElem?_eq_none (by simp; omega)]
        rw [List.getElem?_eq_none (by omega)] at h0
        simp only at h0 ⊢
        omega
    · rw [view_append, pview_append, ← hv]
      congr 1
      · exact view_congr fun s hs => blk_append_lt (mem_lt hr hi hs)
      · simp [view, pview, blk, Slice.new]
    · intro j k hj hk
      exact view_congr fun s hs => blk_append_lt (mem_lt hr hk hs)

theorem sim_pushScalar {h : Heap} {st : List (Option HLink)} {i : Nat} {l : HLink} {L L' : Link}
    (hr : RcInv h st) (hi : st[i]? = some (some l)) (hv : view h l = pview L.slices) (v : Scalar)
    (hL : L.pushScalar v = .ok L') :
    ∃ h' l', hPushScalar h l v = .ok (h', l') ∧ PushOk h st i h' l' L'.slices := by
  obtain ⟨fb, hfb⟩ := push_ok Slice.new.block v 0 (by decide)
  have hfresh := push_fresh hr hi hv v fb hfb
  rcases view_getLast? hv with ⟨h1, h2⟩ | ⟨s, S, h1, h2, hblk, hst, hsp, hinit⟩
  · have hL2 : L' = { slices := L.slices ++ [{ Slice.new with block := fb, stop := 1 }] } := by
      simp [Link.pushScalar, h2, hfb] at hL
      exact hL.symm
    simp only [hPushScalar, h1, hL2]
    exact hfresh
  · by_cases hlt : S.stop < blockSize
    · -- write into the last block
      obtain ⟨b, hb⟩ := push_ok S.block v S.stop hlt
      have hL2 : L' = { slices := L.slices.take (L.slices.length - 1)
              ++ [{ S with block := b, stop := S.stop + 1 }] } := by
        simp [Link.pushScalar, h2, hlt, hb] at hL
        exact hL.symm
      have hsmem : s ∈ l := by rw [hslices_snoc h1]; simp
      obtain ⟨c, hc, hrc, hpos⟩ := rc_pos hr hi hsmem
      have hcb : c.block = S.block := by simpa [blk, hc] using hblk
      have hslt : s.bid < h.length := mem_lt hr hi hsmem
      have hlt' : s.stop < blockSize := by omega
      have hcntl : ∀ x, cnt x (some l) = cnt x (some (l.take (l.length - 1)))
          + (if s.bid = x then 1 else 0) := by
        intro x
        conv => lhs; rw [hslices_snoc h1]
        simp [cnt, List.count_append, List.count_cons]
      have hcntl' : ∀ x q, cnt x (some (l.take (l.length - 1) ++ [{ s with bid := q, stop := s.stop + 1 }]))
          = cnt x (some (l.take (l.length - 1))) + (if q = x then 1 else 0) := by
        intro x q
        simp [cnt, List.count_append, List.count_cons]
      by_cases hone : c.rc = 1
      · -- sole owner: in place
        refine ⟨h.set s.bid { c with block := b },
          l.take (l.length - 1) ++ [{ s with bid := s.bid, stop := s.stop + 1 }], ?_, ?_⟩
        · simp only [blockSize] at hlt
          simp [hPushScalar, h1, hlt, makeMut, hc, hone, writeAt, hcb, hsp, hb]
        · have hblk' : ∀ x, x ≠ s.bid → blk (h.set s.bid { c with block := b }) x = blk h x := by
            intro x hx
            simp [blk, List.getElem?_set_ne (Ne.symm hx)]
          refine ⟨?_, ?_, ?_⟩
          · intro x
            have hs := occ_set st i (some l)
              (some (l.take (l.length - 1) ++ [{ s with bid := s.bid, stop := s.stop + 1 }])) x hi
            rw [hcntl x, hcntl' x s.bid] at hs
            have h0 := hr x
            by_cases hx : s.bid = x
            · subst hx
              rw [List.getElem?_set_self hslt]
              simp only
              omega
            · rw [List.getElem?_set_ne hx]
              cases hcx : h[x]? with
              | none => rw [hcx] at h0; simp only at h0 ⊢; omega
              | some c' => rw [hcx] at h0; simp only at h0 ⊢; omega
          · rw [hL2, view_append, pview_append, ← hinit]
            congr 1
            · apply view_congr
              intro t ht
              apply hblk'
              intro hbid
              have h3 := cnt_le_occ st i _ s.bid hi
              rw [hcntl s.bid] at h3
              have : 0 < cnt s.bid (some (l.take (l.length - 1))) := by
                simp only [cnt]
                exact List.count_pos_iff.2 (List.mem_map.2 ⟨t, ht, hbid⟩)
              simp at h3
              omega
            · simp [view, pview, blk, hslt, hst, hsp]
          · intro j k hj hk
            apply view_congr
            intro t ht
            apply hblk'
            intro hbid
            have h3 := cnt_two_le_occ st i j _ _ s.bid hi hk (Ne.symm hj)
            rw [hcntl s.bid] at h3
            have : 0 < cnt s.bid (some k) := by
              simp only [cnt]
              exact List.count_pos_iff.2 (List.mem_map.2 ⟨t, ht, hbid⟩)
            simp at h3
            omega
      · -- shared: copy
        refine ⟨h.set s.bid { c with rc := c.rc - 1 } ++ [{ block := b, rc := 1 }],
          l.take (l.length - 1) ++ [{ s with bid := h.length, stop := s.stop + 1 }], ?_, ?_⟩
        · have hne : c.rc ≠ 0 := by omega
          have e := List.getElem?_concat_length (l := h.set s.bid { c with rc := c.rc - 1 })
            (a := ({ block := c.block, rc := 1 } : Cell))
          rw [List.length_set] at e
          simp only [blockSize] at hlt
          simp [hPushScalar, h1, hlt, makeMut, hc, hone, hne, writeAt, hcb, hsp, hb]
        · have hocc := rcInv_fresh hr
          have hblk' : ∀ x, x < h.length →
              blk (h.set s.bid { c with rc := c.rc - 1 } ++ [{ block := b, rc := 1 }]) x = blk h x := by
            intro x hx
            rw [blk_append_lt (by simpa using hx)]
            by_cases hxs : s.bid = x
            · subst hxs
              unfold blk
              rw [List.getElem?_set_self hslt, hc]
              rfl
            · simp [blk, List.getElem?_set_ne hxs]
          refine ⟨?_, ?_, ?_⟩
          · intro x
            have hs := occ_set st i (some l)
              (some (l.take (l.length - 1) ++ [{ s with bid := h.length, stop := s.stop + 1 }])) x hi
            rw [hcntl x, hcntl' x h.length] at hs
            have h0 := hr x
            rcases Nat.lt_trichotomy x h.length with hx | hx | hx
            · rw [List.getElem?_append_left (by simpa using hx)]
              have hx' : h.length ≠ x := by omega
              by_cases hxs : s.bid = x
              · subst hxs
                rw [List.getElem?_set_self hslt]
                simp [hx'] at hs
                simp only
                omega
              · rw [List.getElem?_set_ne hxs]
                simp [hx', hxs] at hs
                cases hcx : h[x]? with
                | none => rw [hcx] at h0; simp only at h0 ⊢; omega
                | some c' => rw [hcx] at h0; simp only at h0 ⊢; omega
            · subst hx
              have e := List.getElem?_concat_length (l := h.set s.bid { c with rc := c.rc - 1 })
                (a := ({ block := b, rc := 1 } : Cell))
              rw [List.length_set] at e
              rw [e]
              have : s.bid ≠ h.length := by omega
              simp [this] at hs
              simp only
              have h5 := cnt_le_occ st i _ h.length hi
              rw [hcntl h.length] at h5
              omega
            · have hx' : h.length ≠ x := by omega
              have hxs : s.bid ≠ x := by omega
              rw [List.getElem?_eq_none (by simp; omega)]
              rw [List.getElem?_eq_none (by omega)] at h0
              simp [hx', hxs] at hs
              simp only at h0 ⊢
              omega
          · rw [hL2, view_append, pview_append, ← hinit]
            congr 1
            · apply view_congr
              intro t ht
              exact hblk' _ (mem_lt hr hi (List.mem_of_mem_take ht))
            · have e := List.getElem?_concat_length (l := h.set s.bid { c with rc := c.rc - 1 })
                (a := ({ block := b, rc := 1 } : Cell))
              rw [List.length_set] at e
              simp [view, pview, blk, hst, hsp]
          · intro j k hj hk
            apply view_congr
            intro t ht
            exact hblk' _ (mem_lt hr hk ht)
    · have hlt' : ¬ s.stop < blockSize := by omega
      have hL2 : L' = { slices := L.slices ++ [{ Slice.new with block := fb, stop := 1 }] } := by
        simp [Link.pushScalar, h2, hlt, hfb] at hL
        exact hL.symm
      simp only [hPushScalar, h1, hlt', if_false, hL2]
      exact hfresh

/-! ### Pushing the elements of another link -/

theorem PushOk.trans {h h1 h2 : Heap} {st : List (Option HLink)} {i : Nat} {l1 l2 : HLink}
    {L1 L2 : List Slice} (a : PushOk h st i h1 l1 L1)
    (b : PushOk h1 (st.set i (some l1)) i h2 l2 L2) : PushOk h st i h2 l2 L2 := by
  refine ⟨by simpa using b.rc, b.view, ?_⟩
  intro j k hj hk
  rw [b.others j k hj (by rw [List.getElem?_set_ne (Ne.symm hj)]; exact hk), a.others j k hj hk]

theorem sim_pushRange {h : Heap} {st : List (Option HLink)} {i j : Nat} {l k : HLink} {L L' : Link}
    (hij : j ≠ i) (hr : RcInv h st) (hi : st[i]? = some (some l)) (hj : st[j]? = some (some k))
    (hv : view h l = pview L.slices) (s : HSlice) (hs : s ∈ k) (B : Block)
    (hB : blk h s.bid = some B) (is : List Nat) (hL : L.pushRange B is = .ok L') :
    ∃ h' l', hPushRange h l s.bid is = .ok (h', l') ∧ PushOk h st i h' l' L'.slices := by
  induction is generalizing h st l L with
  | nil =>
    simp [Link.pushRange] at hL
    subst hL
    refine ⟨h, l, rfl, ?_, hv, fun _ _ _ _ => rfl⟩
    rw [set_self hi]; exact hr
  | cons x is ih =>
    simp only [Link.pushRange] at hL
    cases hvar : B.var x with
    | panic m => simp [hvar] at hL
    | ok v =>
      simp only [hvar, Outcome.bind_ok] at hL
      cases hp : L.pushScalar v with
      | panic m => simp [hp] at hL
      | ok L1 =>
        simp only [hp, Outcome.bind_ok] at hL
        obtain ⟨h1, l1, e1, ok1⟩ := sim_pushScalar hr hi hv v hp
        obtain ⟨c, hc, -, hpos⟩ := rc_pos hr hj hs
        have hcb : c.block = B := by simpa [blk, hc] using hB
        have hil : i < st.length := (List.getElem?_eq_some_iff.1 hi).1
        have hB' : blk h1 s.bid = some B := by
          have := ok1.others j k hij hj
          simp only [view] at this
          have := List.map_inj_left.1 this s hs
          simp at this
          rw [this, hB]
        obtain ⟨h2, l2, e2, ok2⟩ := ih ok1.rc (List.getElem?_set_self hil)
          (by rw [List.getElem?_set_ne (Ne.symm hij)]; exact hj) ok1.view hB' hL
        refine ⟨h2, l2, ?_, ok1.trans ok2⟩
        simp [hPushRange, deref, hc, Nat.pos_iff_ne_zero.1 hpos, hcb, hvar, e1, e2]

theorem sim_pushSlices {h : Heap} {st : List (Option HLink)} {i j : Nat} {l k k' : HLink}
    {L L' : Link} {K : List Slice} (hij : j ≠ i) (hr : RcInv h st) (hi : st[i]? = some (some l))
    (hj : st[j]? = some (some k)) (hv : view h l = pview L.slices)
    (hk' : ∀ s ∈ k', s ∈ k) (hkv : view h k' = pview K) (hL : L.pushSlices K = .ok L') :
    ∃ h' l', hPushSlices h l k' = .ok (h', l') ∧ PushOk h st i h' l' L'.slices := by
  induction k' generalizing h st l L K with
  | nil =>
    cases K with
    | cons => simp [view, pview] at hkv
    | nil =>
      simp [Link.pushSlices] at hL
      subst hL
      refine ⟨h, l, rfl, ?_, hv, fun _ _ _ _ => rfl⟩
      rw [set_self hi]; exact hr
  | cons s k' ih =>
    cases K with
    | nil => simp [view, pview] at hkv
    | cons S K =>
      simp only [view, pview, List.map_cons, List.cons.injEq, Prod.mk.injEq] at hkv
      obtain ⟨⟨hB, hst, hsp⟩, hrest⟩ := hkv
      simp only [Link.pushSlices] at hL
      cases hp : L.pushRange S.block (List.range' S.start (S.stop - S.start)) with
      | panic m => simp [hp] at hL
      | ok L1 =>
        simp only [hp, Outcome.bind_ok] at hL
        obtain ⟨h1, l1, e1, ok1⟩ :=
          sim_pushRange hij hr hi hj hv s (hk' s (by simp)) S.block hB _ hp
        have hil : i < st.length := (List.getElem?_eq_some_iff.1 hi).1
        have hkv' : view h1 k' = pview K := by
          have ho := ok1.others j k hij hj
          rw [view_congr (h := h) (h' := h1)]
          · exact hrest
          · intro t ht
            simp only [view] at ho
            have := List.map_inj_left.1 ho t (hk' t (by simp [ht]))
            simp at this
            exact this
        obtain ⟨h2, l2, e2, ok2⟩ := ih ok1.rc (List.getElem?_set_self hil)
          (by rw [List.getElem?_set_ne (Ne.symm hij)]; exact hj) ok1.view
          (fun t ht => hk' t (by simp [ht])) hkv' hL
        refine ⟨h2, l2, ?_, ok1.trans ok2⟩
        rw [← hst, ← hsp] at e1
        simp [hPushSlices, e1, e2]

end Dyon.Link
