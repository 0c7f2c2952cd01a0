import Verif.Link.Sim

/-!
# C01, C02, C03: links

The specification is `Verif.Link.Spec`; the model is `Verif.Link.Model` and
`Verif.Link.Heap`.
-/

namespace Dyon.Link

/-- **C01.** Whatever sequence of link operations a program performs - creating,
copying, appending scalars or whole links, taking tails and necks, concatenating,
dropping, on any number of links sharing blocks - no operation panics or touches
freed memory, and every live link shows exactly the head, tip, emptiness and
elements of the plain list obtained by the same operations on lists. -/
theorem C01_links_are_lists (ops : List Op) :
    ∃ s, hRun HState.init ops = .ok s ∧
      s.store.map (Option.map (hObserve s.heap)) =
        (Spec.run [] ops).map (Option.map fun xs => Outcome.ok (Spec.observe xs)) := by
  obtain ⟨s, h, inv⟩ := inv_run inv_init ops
  exact ⟨s, h, inv_observe inv⟩

/-- **C02.** After any history, an operation leaves every link other than the one
it appends to (or drops) with the same observable content - in particular all
clones, tails, necks and concatenations that share blocks with it. -/
theorem C02_other_links_unchanged (ops : List Op) (op : Op) (s : HState)
    (hs : hRun HState.init ops = .ok s) :
    ∃ s', hStep s op = .ok s' ∧ ∀ i, i < s.store.length → some i ≠ Spec.target op →
      s'.store[i]?.map (Option.map (hObserve s'.heap)) =
        s.store[i]?.map (Option.map (hObserve s.heap)) := by
  obtain ⟨s1, h1, inv⟩ := inv_run inv_init ops
  rw [hs] at h1
  cases h1
  obtain ⟨s', h', inv'⟩ := inv_step inv op
  refine ⟨s', h', ?_⟩
  intro i hi ht
  have e := congrArg (fun l => l[i]?) (inv_observe inv)
  have e' := congrArg (fun l => l[i]?) (inv_observe inv')
  simp only [List.getElem?_map] at e e'
  rw [e, e']
  have hlen : i < (Spec.run [] ops).length := by rw [← inv.len]; exact hi
  congr 1
  generalize Spec.run [] ops = sp at hlen
  cases op <;> simp only [Spec.step, Spec.target] at ht ⊢ <;>
    (repeat' split) <;>
    first
      | rfl
      | (rw [List.getElem?_append_left hlen])
      | (rw [List.getElem?_set_ne (fun e => ht (by rw [e]))])

/-- **C02** (memory): a block is alive exactly as long as some live link refers to
it: its reference count is the number of slices of live links pointing to it. -/
theorem C02_reference_counts_exact (ops : List Op) (s : HState)
    (hs : hRun HState.init ops = .ok s) (b : Nat) (c : Cell) (hb : s.heap[b]? = some c) :
    c.rc = (s.store.map fun o => match o with
      | none => 0
      | some l => l.countP fun t => t.bid == b).sum := by
  obtain ⟨s1, h1, inv⟩ := inv_run inv_init ops
  rw [hs] at h1
  cases h1
  have h0 := inv.rc b
  rw [hb] at h0
  simp only at h0
  rw [h0, occ]
  congr 1
  apply List.map_congr_left
  intro o _
  cases o with
  | none => rfl
  | some l =>
    simp only [cnt, List.count, List.countP_map]
    rfl

/-- **C03.** The packed representation stores each element faithfully: after
writing a scalar at any in-range position of any block, that position reads back
exactly what was written (a number bit for bit, so NaN payloads and the sign of
zero survive), and every other position reads as before. -/
theorem C03_block_read_after_write (b : Block) (v : Scalar) (p : Nat) (hp : p < blockSize) :
    ∃ b', b.push v p = .ok b' ∧ b'.var p = .ok v ∧
      ∀ k, k < blockSize → k ≠ p → b'.var k = b.var k := by
  obtain ⟨b', hb⟩ := push_ok b v p hp
  refine ⟨b', hb, ?_, ?_⟩
  · rw [var_push b b' v p hb p hp, if_pos rfl]
  · intro k hk hkp
    rw [var_push b b' v p hb k hk, if_neg hkp]

/-- **C03.** Positions outside the block are refused, never wrapped. -/
theorem C03_block_bounds (b : Block) (v : Scalar) (p : Nat) (hp : blockSize ≤ p) :
    (∃ m, b.push v p = .panic m) ∧ ∃ m, b.var p = .panic m := by
  have : ¬ p < blockSize := by omega
  exact ⟨⟨_, by simp only [Block.push, this, dite_false]; rfl⟩,
    ⟨_, by simp only [Block.var, this, dite_false]; rfl⟩⟩

/-- **C03.** What a value leaves in a link: booleans and numbers lose their secret,
strings are kept, a link contributes its elements, anything else is an error and
the link is unchanged. -/
theorem C03_push_values {S : Type} (l : Link) (xs : List Scalar) (hl : l.items = .ok xs)
    (hok : ∀ s ∈ l.slices, s.start < s.stop ∧ s.stop ≤ 124) (a : PushArg S) :
    match a with
    | .bool b _ => ∃ l', l.push a = .ok (some l') ∧ l'.items = .ok (xs ++ [.bool b])
    | .f64 f _ => ∃ l', l.push a = .ok (some l') ∧ l'.items = .ok (xs ++ [.f64 f])
    | .str t => ∃ l', l.push a = .ok (some l') ∧ l'.items = .ok (xs ++ [.str t])
    | .link k => ∀ ys, k.items = .ok ys →
        ∃ l', l.push a = .ok (some l') ∧ l'.items = .ok (xs ++ ys)
    | .other _ => l.push a = .ok none := by
  have hrep : Rep l xs := ⟨hok, hl⟩
  cases a with
  | bool b sec =>
    obtain ⟨l', h, hr⟩ := rep_pushScalar hrep (.bool b)
    exact ⟨l', by simp [Link.push, h], hr.2⟩
  | f64 f sec =>
    obtain ⟨l', h, hr⟩ := rep_pushScalar hrep (.f64 f)
    exact ⟨l', by simp [Link.push, h], hr.2⟩
  | str t =>
    obtain ⟨l', h, hr⟩ := rep_pushScalar hrep (.str t)
    exact ⟨l', by simp [Link.push, h], hr.2⟩
  | link k =>
    intro ys hys
    obtain ⟨l', h, hr⟩ := rep_pushSlices hrep k.slices ys hys
    exact ⟨l', by simp [Link.push, h], hr.2⟩
  | other _ => rfl

/-! ## Non-vacuity -/

/-- A history with sharing: copy, append to the copy, take tail and neck, append
to the neck, concatenate, append a link to another, drop. -/
def sampleOps : List Op :=
  [.new, .push 0 (.bool true), .push 0 (.f64 7), .clone 0, .push 1 (.str "x"), .neck 0,
   .push 2 (.str "y"), .tail 1, .add 2 3, .pushLink 0 4, .drop 1]

example : Spec.run [] sampleOps =
    [some [.bool true, .f64 7, .bool true, .str "y", .f64 7, .str "x"],
     none,
     some [.bool true, .str "y"],
     some [.f64 7, .str "x"],
     some [.bool true, .str "y", .f64 7, .str "x"]] := by decide

/-- Every history is admissible for C02. -/
example : ∃ s, hRun HState.init sampleOps = .ok s ∧ s.store.length = 5 := by
  obtain ⟨s, h, inv⟩ := inv_run inv_init sampleOps
  exact ⟨s, h, by rw [inv.len]; decide⟩

/-- C03's hypotheses are met by the link built by two pushes. -/
example : ∃ l : Link, l.items = .ok [.bool true, .str "y"] ∧
    ∀ s ∈ l.slices, s.start < s.stop ∧ s.stop ≤ 124 := by
  obtain ⟨l1, -, r1⟩ := rep_pushScalar rep_new (.bool true)
  obtain ⟨l2, -, r2⟩ := rep_pushScalar r1 (.str "y")
  exact ⟨l2, r2.2, r2.1⟩

end Dyon.Link
