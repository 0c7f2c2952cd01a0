import Verif.Link.HeapLemmas
import Verif.Link.Spec

namespace Dyon.Link

/-- One handle against its specification. -/
def HandleOk (h : Heap) : Option HLink → Option (List Scalar) → Prop
  | none, none => True
  | some l, some xs => ∃ L : Link, view h l = pview L.slices ∧ Rep L xs
  | _, _ => False

/-- The whole state against its specification. -/
structure Inv (s : HState) (sp : Spec.Store) : Prop where
  rc : RcInv s.heap s.store
  len : s.store.length = sp.length
  ok : ∀ (i : Nat) o p, s.store[i]? = some o → sp[i]? = some p → HandleOk s.heap o p

theorem inv_init : Inv HState.init [] := by
  refine ⟨?_, rfl, ?_⟩
  · intro b
    simp [HState.init, occ]
  · intro i o p h
    simp [HState.init] at h

theorem Inv.cases {s : HState} {sp : Spec.Store} (inv : Inv s sp) (i : Nat) :
    (∃ l xs, s.store[i]? = some (some l) ∧ sp[i]? = some (some xs) ∧
      ∃ L : Link, view s.heap l = pview L.slices ∧ Rep L xs) ∨
    ((∀ l, s.store[i]? ≠ some (some l)) ∧ (∀ xs, sp[i]? ≠ some (some xs))) := by
  cases h1 : s.store[i]? with
  | none =>
    right
    have : sp[i]? = none := by
      rw [List.getElem?_eq_none_iff] at h1 ⊢
      rw [← inv.len]; exact h1
    simp [this]
  | some o =>
    have hlt : i < sp.length := by
      rw [← inv.len]; exact (List.getElem?_eq_some_iff.1 h1).1
    have h2 : sp[i]? = some sp[i] := List.getElem?_eq_getElem hlt
    have hok := inv.ok i o _ h1 h2
    cases o with
    | none =>
      cases hp : sp[i] with
      | none => right; simp [h2, hp]
      | some xs => rw [hp] at hok; exact hok.elim
    | some l =>
      cases hp : sp[i] with
      | none => rw [hp] at hok; exact hok.elim
      | some xs =>
        rw [hp] at hok h2
        exact .inl ⟨l, xs, rfl, h2, hok⟩

theorem handleOk_congr {h h' : Heap} {o : Option HLink} {p : Option (List Scalar)}
    (hv : ∀ l, o = some l → view h' l = view h l) (hok : HandleOk h o p) : HandleOk h' o p := by
  cases o with
  | none => cases p <;> exact hok
  | some l =>
    cases p with
    | none => exact hok
    | some xs =>
      obtain ⟨L, h1, h2⟩ := hok
      exact ⟨L, by rw [hv l rfl, h1], h2⟩

/-- Appending a handle whose slices were cloned. -/
theorem inv_extend {s : HState} {sp : Spec.Store} (inv : Inv s sp) (l : HLink)
    (L : Link) (xs : List Scalar) (hp : ∀ t ∈ l, ∃ c, s.heap[t.bid]? = some c ∧ 0 < c.rc)
    (hv : view s.heap l = pview L.slices) (hrep : Rep L xs) :
    ∃ h, incrAll s.heap l = .ok h ∧
      Inv { heap := h, store := s.store ++ [some l] } (sp ++ [some xs]) := by
  obtain ⟨h, hh, hspec⟩ := incrAll_spec s.heap l hp
  have hblk := blk_of_map (f := fun b c => c.rc + cnt b (some l)) hspec
  refine ⟨h, hh, ?_, ?_, ?_⟩
  · intro b
    have h0 := inv.rc b
    simp only
    rw [hspec b, occ_append]
    cases hc : s.heap[b]? with
    | none =>
      rw [hc] at h0
      simp only [Option.map_none] at h0 ⊢
      have : cnt b (some l) = 0 := by
        simp only [cnt]
        apply List.count_eq_zero.2
        intro hm
        obtain ⟨t, ht, hb⟩ := List.mem_map.1 hm
        obtain ⟨c, hc', -⟩ := hp t ht
        rw [hb, hc] at hc'
        cases hc'
      omega
    | some c =>
      rw [hc] at h0
      simp only [Option.map_some] at h0 ⊢
      omega
  · simp [inv.len]
  · intro i o p ho hp'
    simp only at ho
    by_cases hi : i < s.store.length
    · rw [List.getElem?_append_left hi] at ho
      rw [List.getElem?_append_left (by rw [← inv.len]; exact hi)] at hp'
      exact handleOk_congr (fun k _ => view_congr fun t _ => hblk _) (inv.ok i o p ho hp')
    · have hi' : i = s.store.length := by
        have := (List.getElem?_eq_some_iff.1 ho).1
        simp at this
        omega
      subst hi'
      simp at ho
      rw [inv.len] at hp'
      simp at hp'
      subst ho
      subst hp'
      exact ⟨L, by rw [view_congr fun t _ => hblk _, hv], hrep⟩

/-- Replacing handle `i` after a push. -/
theorem inv_push {s : HState} {sp : Spec.Store} (inv : Inv s sp) {i : Nat}
    (hi : i < s.store.length) {h' : Heap} {l' : HLink} {L' : Link} {xs' : List Scalar}
    (hok : PushOk s.heap s.store i h' l' L'.slices) (hrep : Rep L' xs') :
    Inv { heap := h', store := s.store.set i (some l') } (sp.set i (some xs')) := by
  refine ⟨hok.rc, by simp [inv.len], ?_⟩
  intro j o p ho hp
  by_cases hj : i = j
  · subst hj
    rw [List.getElem?_set_self hi] at ho
    rw [List.getElem?_set_self (by rw [← inv.len]; exact hi)] at hp
    cases ho
    cases hp
    exact ⟨L', hok.view, hrep⟩
  · rw [List.getElem?_set_ne hj] at ho hp
    exact handleOk_congr (fun k hk => hok.others j k (Ne.symm hj) (by rw [ho, hk]))
      (inv.ok j o p ho hp)

theorem view_tail {h : Heap} {l : HLink} {L : Link} (hv : view h l = pview L.slices) :
    view h (hTail l) = pview L.tail.slices := by
  cases L with
  | mk ss =>
  cases l with
  | nil =>
    cases ss with
    | nil => rfl
    | cons => simp [view, pview] at hv
  | cons s l =>
    cases ss with
    | nil => simp [view, pview] at hv
    | cons S ss =>
      simp only [view, pview, List.map_cons, List.cons.injEq, Prod.mk.injEq] at hv
      obtain ⟨⟨h1, h2, h3⟩, h4⟩ := hv
      simp only [hTail, Link.tail, h2, h3]
      by_cases hlt : S.start + 1 < S.stop
      · simp [hlt, view, pview, h1, h3, h4]
      · simp [hlt, view, pview, h4]

theorem view_neck {h : Heap} {l : HLink} {L : Link} (hv : view h l = pview L.slices) :
    view h (hNeck l) = pview L.neck.slices := by
  rcases view_getLast? hv with ⟨h1, h2⟩ | ⟨s, S, h1, h2, hblk, hst, hsp, hinit⟩
  · simp [hNeck, Link.neck, h1, h2, view, pview, Link.new]
  · simp only [hNeck, Link.neck, h1, h2, hst, hsp]
    by_cases hlt : S.start + 1 < S.stop
    · simp only [hlt, if_true]
      rw [view_append, pview_append, hinit]
      simp [view, pview, hblk, hst]
    · simp only [hlt, if_false]
      exact hinit

theorem mem_hTail_bid {l : HLink} {t : HSlice} (h : t ∈ hTail l) : ∃ t' ∈ l, t'.bid = t.bid := by
  cases l with
  | nil => simp [hTail] at h
  | cons s l =>
    simp only [hTail] at h
    split at h
    · rcases List.mem_cons.1 h with h | h
      · exact ⟨s, by simp, by rw [h]⟩
      · exact ⟨t, by simp [h], rfl⟩
    · exact ⟨t, by simp [h], rfl⟩

theorem mem_hNeck_bid {l : HLink} {t : HSlice} (h : t ∈ hNeck l) : ∃ t' ∈ l, t'.bid = t.bid := by
  unfold hNeck at h
  split at h
  · next s hs =>
    have hsm : s ∈ l := by rw [hslices_snoc hs]; simp
    simp only at h
    split at h
    · rcases List.mem_append.1 h with h | h
      · exact ⟨t, List.mem_of_mem_take h, rfl⟩
      · simp at h
        exact ⟨s, hsm, by rw [h]⟩
    · exact ⟨t, List.mem_of_mem_take h, rfl⟩
  · simp at h

theorem inv_live {s : HState} {sp : Spec.Store} (inv : Inv s sp) {i : Nat} {l : HLink}
    (hi : s.store[i]? = some (some l)) {t : HSlice} (ht : t ∈ l) :
    ∃ c, s.heap[t.bid]? = some c ∧ 0 < c.rc := by
  obtain ⟨c, hc, -, hpos⟩ := rc_pos inv.rc hi ht
  exact ⟨c, hc, hpos⟩

theorem inv_drop {s : HState} {sp : Spec.Store} (inv : Inv s sp) {i : Nat} {l : HLink}
    (hi : s.store[i]? = some (some l)) :
    ∃ h, decrAll s.heap l = .ok h ∧
      Inv { heap := h, store := s.store.set i none } (sp.set i none) := by
  have hle := fun b => cnt_le_occ s.store i _ b hi
  have hp : ∀ b, 0 < cnt b (some l) → ∃ c, s.heap[b]? = some c ∧ cnt b (some l) ≤ c.rc := by
    intro b hb
    have h0 := inv.rc b
    have h1 := hle b
    cases hc : s.heap[b]? with
    | none => rw [hc] at h0; simp only at h0; omega
    | some c => rw [hc] at h0; simp only at h0; exact ⟨c, rfl, by omega⟩
  obtain ⟨h, hh, hspec⟩ := decrAll_spec s.heap l hp
  have hblk := blk_of_map (f := fun b c => c.rc - cnt b (some l)) hspec
  have hlt : i < s.store.length := (List.getElem?_eq_some_iff.1 hi).1
  refine ⟨h, hh, ?_, by simp [inv.len], ?_⟩
  · intro b
    have h0 := inv.rc b
    have h1 := occ_set s.store i _ none b hi
    have h2 : cnt b none = 0 := rfl
    simp only
    rw [hspec b]
    cases hc : s.heap[b]? with
    | none => rw [hc] at h0; simp only [Option.map_none] at h0 ⊢; omega
    | some c => rw [hc] at h0; simp only [Option.map_some] at h0 ⊢; omega
  · intro j o p ho hp
    by_cases hj : i = j
    · subst hj
      rw [List.getElem?_set_self hlt] at ho
      rw [List.getElem?_set_self (by rw [← inv.len]; exact hlt)] at hp
      cases ho
      cases hp
      trivial
    · rw [List.getElem?_set_ne hj] at ho hp
      exact handleOk_congr (fun k _ => view_congr fun t _ => hblk _) (inv.ok j o p ho hp)

theorem step_finish {s s' : HState} {op : Op} {sp sp' : Spec.Store} (h : hStep s op = .ok s')
    (e : Spec.step sp op = sp') (inv : Inv s' sp') :
    ∃ s', hStep s op = .ok s' ∧ Inv s' (Spec.step sp op) := ⟨s', h, by rw [e]; exact inv⟩

theorem inv_step {s : HState} {sp : Spec.Store} (inv : Inv s sp) (op : Op) :
    ∃ s', hStep s op = .ok s' ∧ Inv s' (Spec.step sp op) := by
  cases op with
  | new =>
    obtain ⟨h, hh, hinv⟩ := inv_extend inv [] Link.new [] (by simp) rfl rep_new
    simp [incrAll] at hh
    subst hh
    exact ⟨_, rfl, hinv⟩
  | clone i =>
    rcases inv.cases i with ⟨l, xs, h1, h2, L, hv, hrep⟩ | ⟨h1, h2⟩
    · obtain ⟨h, hh, hinv⟩ := inv_extend inv l L xs (fun t ht => inv_live inv h1 ht) hv hrep
      exact step_finish (by simp [hStep, h1, hh]) (by simp [Spec.step, h2]) (hinv)
    · refine ⟨s, ?_, ?_⟩
      · simp only [hStep]
        first | done | (split; (· next l hl => exact (h1 l hl).elim); · rfl)
      · simp only [Spec.step]
        first | exact inv | (split; (· next l hl => exact (h2 l hl).elim); · exact inv)
  | push i v =>
    rcases inv.cases i with ⟨l, xs, h1, h2, L, hv, hrep⟩ | ⟨h1, h2⟩
    · obtain ⟨L', hL', hrep'⟩ := rep_pushScalar hrep v
      obtain ⟨h', l', he, hok⟩ := sim_pushScalar inv.rc h1 hv v hL'
      have hlt : i < s.store.length := (List.getElem?_eq_some_iff.1 h1).1
      exact step_finish (by simp only [hStep, h1, he, Outcome.bind_ok]) (by simp [Spec.step, h2]) (inv_push inv hlt hok hrep')
    · refine ⟨s, ?_, ?_⟩
      · simp only [hStep]
        first | done | (split; (· next l hl => exact (h1 l hl).elim); · rfl)
      · simp only [Spec.step]
        first | exact inv | (split; (· next l hl => exact (h2 l hl).elim); · exact inv)
  | pushOther i => exact ⟨s, rfl, inv⟩
  | pushLink i j =>
    by_cases hij : i = j
    · exact ⟨s, by simp [hStep, hij], by simpa [Spec.step, hij] using inv⟩
    · have hji : j ≠ i := fun e => hij e.symm
      rcases inv.cases i with ⟨l, xs, h1, h2, L, hv, hrep⟩ | ⟨h1, h2⟩
      · rcases inv.cases j with ⟨k, ys, g1, g2, K, gv, grep⟩ | ⟨g1, g2⟩
        · obtain ⟨L', hL', hrep'⟩ := rep_pushSlices hrep K.slices ys grep.2
          obtain ⟨h', l', he, hok⟩ :=
            sim_pushSlices hji inv.rc h1 g1 hv (fun s hs => hs) gv hL'
          have hlt : i < s.store.length := (List.getElem?_eq_some_iff.1 h1).1
          exact step_finish (by simp only [hStep, hij, if_false, h1, g1, he, Outcome.bind_ok]) (by simp [Spec.step, h2, g2, hij]) (inv_push inv hlt hok hrep')
        · refine ⟨s, ?_, ?_⟩
          · simp only [hStep, hij, if_false]
            first | done | (split; (· next l k hl hk => exact (g1 k hk).elim); · rfl)
          · simp only [Spec.step, hij, if_false]
            first | exact inv | (split; (· next l k hl hk => exact (g2 k hk).elim); · exact inv)
      · refine ⟨s, ?_, ?_⟩
        · simp only [hStep, hij, if_false]
          first | done | (split; (· next l k hl hk => exact (h1 l hl).elim); · rfl)
        · simp only [Spec.step, hij, if_false]
          first | exact inv | (split; (· next l k hl hk => exact (h2 l hl).elim); · exact inv)
  | tail i =>
    rcases inv.cases i with ⟨l, xs, h1, h2, L, hv, hrep⟩ | ⟨h1, h2⟩
    · obtain ⟨h, hh, hinv⟩ := inv_extend inv (hTail l) L.tail xs.tail
        (fun t ht => by
          obtain ⟨t', ht', hb⟩ := mem_hTail_bid ht
          rw [← hb]; exact inv_live inv h1 ht') (view_tail hv) (rep_tail hrep)
      exact step_finish (by simp [hStep, h1, hh]) (by simp [Spec.step, h2]) (hinv)
    · refine ⟨s, ?_, ?_⟩
      · simp only [hStep]
        first | done | (split; (· next l hl => exact (h1 l hl).elim); · rfl)
      · simp only [Spec.step]
        first | exact inv | (split; (· next l hl => exact (h2 l hl).elim); · exact inv)
  | neck i =>
    rcases inv.cases i with ⟨l, xs, h1, h2, L, hv, hrep⟩ | ⟨h1, h2⟩
    · obtain ⟨h, hh, hinv⟩ := inv_extend inv (hNeck l) L.neck xs.dropLast
        (fun t ht => by
          obtain ⟨t', ht', hb⟩ := mem_hNeck_bid ht
          rw [← hb]; exact inv_live inv h1 ht') (view_neck hv) (rep_neck hrep)
      exact step_finish (by simp [hStep, h1, hh]) (by simp [Spec.step, h2]) (hinv)
    · refine ⟨s, ?_, ?_⟩
      · simp only [hStep]
        first | done | (split; (· next l hl => exact (h1 l hl).elim); · rfl)
      · simp only [Spec.step]
        first | exact inv | (split; (· next l hl => exact (h2 l hl).elim); · exact inv)
  | add i j =>
    rcases inv.cases i with ⟨l, xs, h1, h2, L, hv, hrep⟩ | ⟨h1, h2⟩
    · rcases inv.cases j with ⟨k, ys, g1, g2, K, gv, grep⟩ | ⟨g1, g2⟩
      · obtain ⟨h, hh, hinv⟩ := inv_extend inv (l ++ k) (L.add K) (xs ++ ys)
          (fun t ht => by
            rcases List.mem_append.1 ht with ht | ht
            · exact inv_live inv h1 ht
            · exact inv_live inv g1 ht)
          (by rw [view_append, hv, gv, Link.add, pview_append]) (rep_add hrep grep)
        exact step_finish (by simp [hStep, h1, g1, hh]) (by simp [Spec.step, h2, g2]) (hinv)
      · refine ⟨s, ?_, ?_⟩
        · simp only [hStep]
          first | done | (split; (· next l k hl hk => exact (g1 k hk).elim); · rfl)
        · simp only [Spec.step]
          first | exact inv | (split; (· next l k hl hk => exact (g2 k hk).elim); · exact inv)
    · refine ⟨s, ?_, ?_⟩
      · simp only [hStep]
        first | done | (split; (· next l k hl hk => exact (h1 l hl).elim); · rfl)
      · simp only [Spec.step]
        first | exact inv | (split; (· next l k hl hk => exact (h2 l hl).elim); · exact inv)
  | drop i =>
    rcases inv.cases i with ⟨l, xs, h1, h2, L, hv, hrep⟩ | ⟨h1, h2⟩
    · obtain ⟨h, hh, hinv⟩ := inv_drop inv h1
      exact step_finish (by simp [hStep, h1, hh]) (by simp [Spec.step, h2]) (hinv)
    · refine ⟨s, ?_, ?_⟩
      · simp only [hStep]
        first | done | (split; (· next l hl => exact (h1 l hl).elim); · rfl)
      · simp only [Spec.step]
        first | exact inv | (split; (· next l hl => exact (h2 l hl).elim); · exact inv)

theorem inv_run {s : HState} {sp : Spec.Store} (inv : Inv s sp) (ops : List Op) :
    ∃ s', hRun s ops = .ok s' ∧ Inv s' (Spec.run sp ops) := by
  induction ops generalizing s sp with
  | nil => exact ⟨s, rfl, inv⟩
  | cons op ops ih =>
    obtain ⟨s1, h1, i1⟩ := inv_step inv op
    obtain ⟨s2, h2, i2⟩ := ih i1
    exact ⟨s2, by simp [hRun, h1, h2], i2⟩

theorem inv_observe {s : HState} {sp : Spec.Store} (inv : Inv s sp) :
    s.store.map (Option.map (hObserve s.heap)) =
      sp.map (Option.map fun xs => Outcome.ok (Spec.observe xs)) := by
  apply List.ext_getElem?
  intro i
  simp only [List.getElem?_map]
  rcases inv.cases i with ⟨l, xs, h1, h2, L, hv, hrep⟩ | ⟨h1, h2⟩
  · have hl := hLink_of_view hv (fun t ht => inv_live inv h1 ht)
    have hhead := rep_head hrep
    have htip := rep_tip hrep
    have hemp := rep_isEmpty hrep
    have hit := hrep.2
    rw [h1, h2]
    simp [hObserve, hl, hhead, htip, hemp, hit, Spec.observe]
  · cases h3 : s.store[i]? with
    | none =>
      have : sp[i]? = none := by
        rw [List.getElem?_eq_none_iff] at h3 ⊢
        rw [← inv.len]; exact h3
      simp [this]
    | some o =>
      cases o with
      | some l => exact (h1 l h3).elim
      | none =>
        have hlt : i < sp.length := by
          rw [← inv.len]; exact (List.getElem?_eq_some_iff.1 h3).1
        have h4 : sp[i]? = some sp[i] := List.getElem?_eq_getElem hlt
        cases hp : sp[i] with
        | none => simp [h4, hp]
        | some xs => exact (h2 xs (by rw [h4, hp])).elim

end Dyon.Link
