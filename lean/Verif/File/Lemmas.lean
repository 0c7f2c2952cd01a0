import Verif.File.Model
import Verif.Data.RoundTrip
import Verif.Text.MetaJsonProps

/-!
# Lemmas for C84
-/

namespace Dyon.File

theorem text_bytes (s : String) : text (bytes s) = some s := by
  have h : (⟨(bytes s).toArray⟩ : ByteArray) = s.toByteArray := by simp [bytes]
  rw [text, h]
  unfold String.fromUTF8?
  rw [dif_pos s.isValidUTF8]
  rfl

theorem put_spec (s : Sink) (b : Bytes) : ∃ n, n ≤ b.length ∧ (s.put b).1.done = s.done ++ b.take n ∧ (s.put b).2.2 = n ∧
    ((s.put b).2.1 = true ↔ n = b.length) := by
  unfold Sink.put
  split
  · exact ⟨b.length, le_rfl, by simp, rfl, by simp⟩
  · exact ⟨b.length, le_rfl, by simp, rfl, by simp⟩
  · rename_i n fs _
    split
    · rename_i h
      exact ⟨n, h.le, rfl, rfl, by simp; omega⟩
    · exact ⟨b.length, le_rfl, by simp, rfl, by simp⟩

/-- No write fails. -/
def Calm (fate : List (Option Nat)) : Prop := ∀ x ∈ fate, x = none

theorem put_calm {s : Sink} (h : Calm s.fate) (b : Bytes) : (s.put b).2.1 = true ∧ Calm (s.put b).1.fate := by
  unfold Sink.put
  split
  · rename_i h0
    exact ⟨rfl, by simpa [h0] using h⟩
  · rename_i fs h0
    refine ⟨rfl, fun x hx => h x (by rw [h0]; exact List.mem_cons_of_mem _ hx)⟩
  · rename_i n fs h0
    have := h (some n) (by rw [h0]; exact List.mem_cons_self)
    cases this

/-- All that was given to a buffered file. -/
def Buffered.all (w : Buffered) : Bytes := w.sink.done ++ w.buf

theorem flush_spec (w : Buffered) : w.flush.1.all = w.all ∧ w.flush.1.buf.length ≤ w.buf.length ∧
    (w.flush.2 = true → w.flush.1.buf = []) := by
  unfold Buffered.flush
  split
  · rename_i h
    exact ⟨rfl, le_rfl, fun _ => by simpa using h⟩
  · obtain ⟨n, h1, h2, h3, h4⟩ := put_spec w.sink w.buf
    refine ⟨?_, ?_, ?_⟩
    · simp only [Buffered.all, h2, h3, List.append_assoc, List.take_append_drop]
    · simp
    · intro h
      simp only at h
      simp only [h3]
      rw [h4.1 h]; simp

theorem flush_calm {w : Buffered} (h : Calm w.sink.fate) : w.flush.2 = true ∧ Calm w.flush.1.sink.fate := by
  unfold Buffered.flush
  split
  · exact ⟨rfl, h⟩
  · exact put_calm h _

theorem writeAll_spec {cap : Nat} {w : Buffered} (b : Bytes) (hb : w.buf.length ≤ cap) :
    (w.writeAll cap b).1.buf.length ≤ cap ∧ ((w.writeAll cap b).2 = true → (w.writeAll cap b).1.all = w.all ++ b) ∧
    ((w.writeAll cap b).1.all <+: w.all ++ b) := by
  have key : ∀ w' : Buffered, w'.all = w.all → w'.buf.length ≤ cap → (w'.buf = [] ∨ b = [] ∨ b.length < cap ∧ w'.buf.length + b.length ≤ cap) →
      ∀ r, r = (if cap ≤ b.length then match w'.sink.put b with
        | (s, ok, _) => (({ w' with sink := s } : Buffered), ok)
      else ({ w' with buf := w'.buf ++ b }, true)) →
      r.1.buf.length ≤ cap ∧ (r.2 = true → r.1.all = w.all ++ b) ∧ (r.1.all <+: w.all ++ b) := by
    rintro w' h1 h2 h3 r rfl
    split
    · rename_i hc
      have h3 : w'.buf = [] ∨ b = [] := by
        rcases h3 with h3 | h3 | h3
        · exact .inl h3
        · exact .inr h3
        · omega
      obtain ⟨n, g1, g2, g3, g4⟩ := put_spec w'.sink b
      have hall : Buffered.all ⟨(w'.sink.put b).1, w'.buf⟩ = w.all ++ b.take n := by
        rw [← h1]
        simp only [Buffered.all, g2]
        rcases h3 with h3 | h3 <;> simp [h3]
      refine ⟨h2, fun h => ?_, ?_⟩
      · have := g4.1 h
        show Buffered.all ⟨(w'.sink.put b).1, w'.buf⟩ = _
        rw [hall, this]; simp
      · show Buffered.all ⟨(w'.sink.put b).1, w'.buf⟩ <+: _
        rw [hall]
        exact List.prefix_append_right_inj _ |>.2 (List.take_prefix _ _)
    · rename_i hc
      have hall : Buffered.all ⟨w'.sink, w'.buf ++ b⟩ = w.all ++ b := by
        rw [← h1]; simp [Buffered.all]
      refine ⟨?_, fun _ => hall, by show Buffered.all ⟨w'.sink, w'.buf ++ b⟩ <+: _; rw [hall]; exact List.prefix_rfl⟩
      rcases h3 with h3 | h3 | h3
      · simp [h3]; omega
      · simp [h3, h2]
      · simpa using h3.2
  unfold Buffered.writeAll
  split
  · rename_i h
    refine ⟨by simp; omega, fun _ => by simp [Buffered.all], by simp [Buffered.all]⟩
  · rename_i h
    by_cases h5 : cap - w.buf.length < b.length
    · rw [if_pos h5]
      obtain ⟨g1, g2, g3⟩ := flush_spec w
      cases hf : w.flush with
      | mk w' ok =>
        rw [hf] at g1 g2 g3
        cases ok with
        | false =>
          exact ⟨le_trans g2 hb, by simp, by simp only [g1]; exact List.prefix_append _ _⟩
        | true => exact key w' g1 (le_trans g2 hb) (.inl (g3 rfl)) _ rfl
    · rw [if_neg h5]
      refine key w rfl hb ?_ _ rfl
      have h6 : b.length = cap - w.buf.length := by omega
      rcases Nat.eq_zero_or_pos w.buf.length with h7 | h7
      · exact .inl (List.length_eq_zero_iff.1 h7)
      · exact .inr (.inr ⟨by omega, by omega⟩)

theorem writeAll_calm {cap : Nat} {w : Buffered} (b : Bytes) (h : Calm w.sink.fate) :
    (w.writeAll cap b).2 = true ∧ Calm (w.writeAll cap b).1.sink.fate := by
  unfold Buffered.writeAll
  split
  · exact ⟨rfl, h⟩
  · have : ∀ w' : Buffered, Calm w'.sink.fate → ∀ r, r = (if cap ≤ b.length then match w'.sink.put b with
        | (s, ok, _) => (({ w' with sink := s } : Buffered), ok)
      else ({ w' with buf := w'.buf ++ b }, true)) → r.2 = true ∧ Calm r.1.sink.fate := by
      rintro w' hw r rfl
      split
      · exact put_calm hw b
      · exact ⟨rfl, hw⟩
    split
    · rename_i w' heq
      split at heq
      · have := (flush_calm h).1
        rw [heq] at this
        cases this
      · cases heq
    · rename_i w' heq
      refine this w' ?_ _ rfl
      split at heq
      · have := (flush_calm h).2
        rw [heq] at this
        exact this
      · cases heq; exact h

theorem writes_spec {cap : Nat} : ∀ (bs : List Bytes) {w : Buffered}, w.buf.length ≤ cap →
    (w.writes cap bs).1.buf.length ≤ cap ∧ ((w.writes cap bs).2 = true → (w.writes cap bs).1.all = w.all ++ bs.flatten) ∧
    ((w.writes cap bs).1.all <+: w.all ++ bs.flatten)
  | [], w, hb => ⟨hb, fun _ => by simp [Buffered.writes], by simp [Buffered.writes]⟩
  | b :: bs, w, hb => by
    obtain ⟨h1, h2, h3⟩ := writeAll_spec b hb
    unfold Buffered.writes
    split
    · rename_i w' heq
      rw [heq] at h1 h3
      refine ⟨h1, by simp, h3.trans ?_⟩
      simp only [List.flatten_cons, ← List.append_assoc]
      exact List.prefix_append _ _
    · rename_i w' heq
      rw [heq] at h1 h2
      obtain ⟨g1, g2, g3⟩ := writes_spec bs h1
      rw [h2 rfl] at g2 g3
      simp only [List.flatten_cons, ← List.append_assoc]
      exact ⟨g1, g2, g3⟩

theorem writes_calm {cap : Nat} : ∀ (bs : List Bytes) {w : Buffered}, Calm w.sink.fate →
    (w.writes cap bs).2 = true ∧ Calm (w.writes cap bs).1.sink.fate
  | [], w, h => ⟨rfl, h⟩
  | b :: bs, w, h => by
    obtain ⟨h1, h2⟩ := writeAll_calm (cap := cap) b h
    unfold Buffered.writes
    split
    · rename_i w' heq
      rw [heq] at h1; cases h1
    · rename_i w' heq
      rw [heq] at h2
      exact writes_calm bs h2

theorem close_spec (w : Buffered) : w.close <+: w.all ∧ w.all.length ≤ w.close.length + w.buf.length := by
  obtain ⟨h1, h2, -⟩ := flush_spec w
  refine ⟨?_, ?_⟩
  · rw [← h1]; exact List.prefix_append _ _
  · rw [← h1]
    simp only [Buffered.all, Buffered.close, List.length_append]
    omega

theorem close_calm {w : Buffered} (h : Calm w.sink.fate) : w.close = w.all := by
  obtain ⟨h1, -, h3⟩ := flush_spec w
  have := h3 (flush_calm h).1
  rw [← h1]
  simp [Buffered.all, Buffered.close, this]

theorem metaVal_inj {t t' : Text.MetaTok} (h : Text.metaVal t = Text.metaVal t') : t = t' := by
  obtain ⟨o, l, d⟩ := t
  obtain ⟨o', l', d'⟩ := t'
  cases d <;> cases d' <;> simp_all [Text.metaVal, Val.ofF64, Val.ofBool]

end Dyon.File
