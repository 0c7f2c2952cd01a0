import Verif.Eval.Local

/-!
# Reading and writing stay within reach

Lemmas for C77: the actions on places, accumulators and channels.
-/

namespace Dyon.Loc

variable {P : Nat → Prop} {rd : Prop} {α β : Type}

/-! ## Values -/

theorem mem_of_lookup {k : String} {w : Val} {kvs : List (String × Val)}
    (h : kvs.lookup k = some w) : (k, w) ∈ kvs := by
  induction kvs with
  | nil => cases h
  | cons x xs ih =>
    obtain ⟨k', v⟩ := x
    rw [List.lookup_cons] at h
    split at h
    · rename_i hk
      simp only [Option.some.injEq] at h
      have := eq_of_beq hk
      subst this; subst h
      exact List.mem_cons_self ..
    · exact List.mem_cons_of_mem _ (ih h)

theorem within_step {v w : Val} {s : Step} (hv : Within P v) (h : v.step s = some w) :
    Within P w := by
  cases v <;> cases s <;> simp only [Val.step] at h <;> try cases h
  · rename_i xs i
    rw [within_array] at hv
    exact hv _ (List.mem_of_getElem? h)
  · rename_i kvs k
    rw [within_object] at hv
    exact hv (k, w) (mem_of_lookup h)

theorem within_atPath {v w : Val} {p : List Step} (hv : Within P v) (h : v.atPath p = some w) :
    Within P w := by
  induction p generalizing v with
  | nil => simp only [Val.atPath, Option.some.injEq] at h; exact h ▸ hv
  | cons s p ih =>
    simp only [Val.atPath] at h
    cases hs : v.step s with
    | none => rw [hs] at h; cases h
    | some u => rw [hs] at h; exact ih (within_step hv hs) h

theorem mem_setKey {k : String} {v : Val} {kvs : List (String × Val)} {x}
    (h : x ∈ setKey k v kvs) : x ∈ kvs ∨ x.2 = v := by
  induction kvs with
  | nil => cases h
  | cons y ys ih =>
    obtain ⟨k', v'⟩ := y
    simp only [setKey] at h
    split at h
    · rcases List.mem_cons.1 h with rfl | h
      · exact .inr rfl
      · exact .inl (List.mem_cons_of_mem _ h)
    · rcases List.mem_cons.1 h with rfl | h
      · exact .inl (List.mem_cons_self ..)
      · exact (ih h).imp (List.mem_cons_of_mem _) id

theorem within_setStep {v w : Val} {s : Step} (hv : Within P v) (hw : Within P w) :
    Within P (v.setStep s w) := by
  cases v <;> cases s <;> simp only [Val.setStep] <;> try exact hv
  · rw [within_array] at *
    intro x hx
    rcases List.mem_or_eq_of_mem_set hx with h | h
    · exact hv x h
    · rw [h]; exact hw
  · rw [within_object] at *
    intro x hx
    rcases mem_setKey hx with h | h
    · exact hv x h
    · rw [h]; exact hw

theorem within_setPath {v w : Val} {p : List Step} (hv : Within P v) (hw : Within P w) :
    Within P (v.setPath p w) := by
  induction p generalizing v with
  | nil => exact hw
  | cons s p ih =>
    simp only [Val.setPath]
    cases hs : v.step s with
    | none => exact hv
    | some u => exact within_setStep hv (ih (within_step hv hs))

theorem within_tryMsg {v w : Val} (hv : Within P v) (h : tryMsg v = some (.inl w)) :
    Within P w := by
  unfold tryMsg at h
  split at h <;> try (simp only [Option.some.injEq, Sum.inl.injEq, reduceCtorEq] at h)
  · exact h ▸ within_ok.1 hv
  · exact h ▸ within_some.1 hv
  · exact h ▸ hv
  · split at h
    · simp at h
    · split at h
      · simp at h
      · simp only [Option.some.injEq, Sum.inl.injEq] at h; exact h ▸ hv

theorem within_tryMsg_err {v m : Val} {t} (hv : Within P v) (h : tryMsg v = some (.inr (m, t))) :
    Within P m := by
  unfold tryMsg at h
  split at h <;> try (simp only [Option.some.injEq, Sum.inr.injEq, Prod.mk.injEq, reduceCtorEq] at h)
  · exact h.1 ▸ within_err.1 hv
  · exact h.1 ▸ within_str
  · exact h.1 ▸ within_str
  · exact h.1 ▸ within_str
  · split at h
    · simp only [Option.some.injEq, Sum.inr.injEq, Prod.mk.injEq] at h; exact h.1 ▸ within_str
    · split at h
      · simp only [Option.some.injEq, Sum.inr.injEq, Prod.mk.injEq] at h; exact h.1 ▸ within_str
      · simp at h

theorem within_assignOp [FloatOps] [VecMath] {op : AssignOp} {n b v : Val} (hb : Within P b)
    (h : assignOp op n b = .ok v) : Within P v := by
  unfold assignOp at h
  split at h
  all_goals try (simp only [assignSet, assignRet] at h)
  all_goals repeat' split at h
  all_goals try (simp only [AssignRes.ok.injEq, reduceCtorEq] at h)
  all_goals try (subst h)
  all_goals first
    | exact hb
    | exact within_vec4
    | exact within_mat4
    | exact within_link
    | exact within_str
    | (rw [within_f64_iff] at *; exact hb)
    | (unfold assignVec4F64 at h; split at h <;> simp only [AssignRes.ok.injEq, reduceCtorEq] at h <;>
        exact h ▸ within_vec4)

/-! ## Deep clones -/

mutual
theorem within_cloneWith {r : Nat → DC Val} (hr : ∀ i w, P i → r i = .ok w → Within P w) :
    (v : Val) → ∀ w, Within P v → deepCloneWith r v = .ok w → Within P w
  | .object kvs => by
    intro w hv h
    rw [deepCloneWith] at h
    cases hk : deepCloneObj r kvs with
    | ok ys =>
      rw [hk] at h
      simp only [DC.ok.injEq] at h
      subst h
      rw [within_object] at *
      exact within_cloneObj hr kvs ys hv hk
    | panic => rw [hk] at h; cases h
    | running => rw [hk] at h; cases h
  | .array xs => by
    intro w hv h
    rw [deepCloneWith] at h
    cases hk : deepCloneArr r xs with
    | ok ys =>
      rw [hk] at h
      simp only [DC.ok.injEq] at h
      subst h
      rw [within_array] at *
      exact within_cloneArr hr xs ys hv hk
    | panic => rw [hk] at h; cases h
    | running => rw [hk] at h; cases h
  | .ref i => by
    intro w hv h
    rw [deepCloneWith] at h
    exact hr i w (within_ref.1 hv) h
  | .unsafeRef _ => by intro w hv h; simp [deepCloneWith] at h
  | .ret => by intro w hv h; simp only [deepCloneWith, DC.ok.injEq] at h; exact h ▸ hv
  | .bool .. => by intro w hv h; simp only [deepCloneWith, DC.ok.injEq] at h; exact h ▸ hv
  | .f64 .. => by intro w hv h; simp only [deepCloneWith, DC.ok.injEq] at h; exact h ▸ hv
  | .vec4 _ => by intro w hv h; simp only [deepCloneWith, DC.ok.injEq] at h; exact h ▸ hv
  | .mat4 _ => by intro w hv h; simp only [deepCloneWith, DC.ok.injEq] at h; exact h ▸ hv
  | .str _ => by intro w hv h; simp only [deepCloneWith, DC.ok.injEq] at h; exact h ▸ hv
  | .link _ => by intro w hv h; simp only [deepCloneWith, DC.ok.injEq] at h; exact h ▸ hv
  | .rustObject _ => by intro w hv h; simp only [deepCloneWith, DC.ok.injEq] at h; exact h ▸ hv
  | .option _ => by intro w hv h; simp only [deepCloneWith, DC.ok.injEq] at h; exact h ▸ hv
  | .resOk _ => by intro w hv h; simp only [deepCloneWith, DC.ok.injEq] at h; exact h ▸ hv
  | .resErr .. => by intro w hv h; simp only [deepCloneWith, DC.ok.injEq] at h; exact h ▸ hv
  | .thread _ => by intro w hv h; simp only [deepCloneWith, DC.ok.injEq] at h; exact h ▸ hv
  | .closure _ => by intro w hv h; simp only [deepCloneWith, DC.ok.injEq] at h; exact h ▸ hv
  | .inTy _ => by intro w hv h; simp only [deepCloneWith, DC.ok.injEq] at h; exact h ▸ hv
theorem within_cloneArr {r : Nat → DC Val} (hr : ∀ i w, P i → r i = .ok w → Within P w) :
    (xs : List Val) → ∀ ys, (∀ x ∈ xs, Within P x) → deepCloneArr r xs = .ok ys → ∀ y ∈ ys, Within P y
  | [] => by intro ys _ h; simp only [deepCloneArr, DC.ok.injEq] at h; subst h; simp
  | x :: xs => by
    intro ys hx h
    rw [deepCloneArr] at h
    cases h1 : deepCloneWith r x with
    | ok y =>
      rw [h1] at h
      cases h2 : deepCloneArr r xs with
      | ok zs =>
        rw [h2] at h
        simp only [DC.ok.injEq] at h
        subst h
        intro z hz
        rcases List.mem_cons.1 hz with rfl | hz
        · exact within_cloneWith hr x _ (hx x (by simp)) h1
        · exact within_cloneArr hr xs zs (fun x h => hx x (by simp [h])) h2 z hz
      | panic => rw [h2] at h; cases h
      | running => rw [h2] at h; cases h
    | panic => rw [h1] at h; cases h
    | running => rw [h1] at h; cases h
theorem within_cloneObj {r : Nat → DC Val} (hr : ∀ i w, P i → r i = .ok w → Within P w) :
    (xs : List (String × Val)) → ∀ ys, (∀ x ∈ xs, Within P x.2) → deepCloneObj r xs = .ok ys →
      ∀ y ∈ ys, Within P y.2
  | [] => by intro ys _ h; simp only [deepCloneObj, DC.ok.injEq] at h; subst h; simp
  | (k, x) :: xs => by
    intro ys hx h
    rw [deepCloneObj] at h
    cases h1 : deepCloneWith r x with
    | ok y =>
      rw [h1] at h
      cases h2 : deepCloneObj r xs with
      | ok zs =>
        rw [h2] at h
        simp only [DC.ok.injEq] at h
        subst h
        intro z hz
        rcases List.mem_cons.1 hz with rfl | hz
        · exact within_cloneWith hr x y (hx (k, x) (by simp)) h1
        · exact within_cloneObj hr xs zs (fun x h => hx x (by simp [h])) h2 z hz
      | panic => rw [h2] at h; cases h
      | running => rw [h2] at h; cases h
    | panic => rw [h1] at h; cases h
    | running => rw [h1] at h; cases h
end

theorem within_clone {st : Stack} {n : Nat} {v w : Val}
    (hs : ∀ i v, st[i]? = some v → P i → Within P v) (hv : Within P v)
    (h : deepClone st n v = .ok w) : Within P w := by
  induction n generalizing v w with
  | zero => exact within_cloneWith (fun i w _ h => by cases h) v w hv h
  | succ n ih =>
    refine within_cloneWith (fun i w hi h => ?_) v w hv h
    cases hx : st[i]? with
    | none => simp [hx] at h
    | some u => simp only [hx] at h; exact ih (hs i u hx hi) h

mutual
theorem cloneWith_congr {r r' : Nat → DC Val} (hr : ∀ i, P i → r i = r' i) :
    (v : Val) → Within P v → deepCloneWith r v = deepCloneWith r' v
  | .object kvs => fun hv => by
    rw [deepCloneWith, deepCloneWith, cloneObj_congr hr kvs (within_object.1 hv)]
  | .array xs => fun hv => by
    rw [deepCloneWith, deepCloneWith, cloneArr_congr hr xs (within_array.1 hv)]
  | .ref i => fun hv => by rw [deepCloneWith, deepCloneWith, hr i (within_ref.1 hv)]
  | .unsafeRef _ => fun _ => by simp [deepCloneWith]
  | .ret => fun _ => by simp [deepCloneWith]
  | .bool .. => fun _ => by simp [deepCloneWith]
  | .f64 .. => fun _ => by simp [deepCloneWith]
  | .vec4 _ => fun _ => by simp [deepCloneWith]
  | .mat4 _ => fun _ => by simp [deepCloneWith]
  | .str _ => fun _ => by simp [deepCloneWith]
  | .link _ => fun _ => by simp [deepCloneWith]
  | .rustObject _ => fun _ => by simp [deepCloneWith]
  | .option _ => fun _ => by simp [deepCloneWith]
  | .resOk _ => fun _ => by simp [deepCloneWith]
  | .resErr .. => fun _ => by simp [deepCloneWith]
  | .thread _ => fun _ => by simp [deepCloneWith]
  | .closure _ => fun _ => by simp [deepCloneWith]
  | .inTy _ => fun _ => by simp [deepCloneWith]
theorem cloneArr_congr {r r' : Nat → DC Val} (hr : ∀ i, P i → r i = r' i) :
    (xs : List Val) → (∀ x ∈ xs, Within P x) → deepCloneArr r xs = deepCloneArr r' xs
  | [] => fun _ => by simp only [deepCloneArr]
  | x :: xs => fun h => by
    rw [deepCloneArr, deepCloneArr, cloneWith_congr hr x (h x (by simp)),
      cloneArr_congr hr xs fun x hx => h x (by simp [hx])]
theorem cloneObj_congr {r r' : Nat → DC Val} (hr : ∀ i, P i → r i = r' i) :
    (xs : List (String × Val)) → (∀ x ∈ xs, Within P x.2) → deepCloneObj r xs = deepCloneObj r' xs
  | [] => fun _ => by simp only [deepCloneObj]
  | (k, x) :: xs => fun h => by
    rw [deepCloneObj, deepCloneObj, cloneWith_congr hr x (h (k, x) (by simp)),
      cloneObj_congr hr xs fun x hx => h x (by simp [hx])]
end

/-- A clone does not depend on what is out of reach. -/
theorem clone_over {g} {st : Stack} {n : Nat} {v : Val}
    (hs : ∀ i v, st[i]? = some v → P i → Within P v) (hv : Within P v) :
    deepClone (over P g st) n v = deepClone st n v := by
  induction n generalizing v with
  | zero => rfl
  | succ n ih =>
    refine cloneWith_congr (fun i hi => ?_) v hv
    simp only [over_in hi]
    cases hx : st[i]? with
    | none => rfl
    | some u => exact ih (hs i u hx hi)

/-! ## Actions -/

/-- What an action that stays within reach leaves. -/
structure Cm (P : Nat → Prop) (a b : St) : Prop where
  same : Same a b
  closures : b.closures = a.closures
  tame : Tame P b
  kept : Kept P a b

theorem Cm.rfl {a : St} (h : Inv P a) : Cm P a a := ⟨.rfl, Eq.refl _, h.toTame, .rfl⟩
theorem Cm.trans {a b d : St} (h : Cm P a b) (h' : Cm P b d) : Cm P a d :=
  ⟨h.1.trans h'.1, h'.2.trans h.2, h'.3, h.4.trans h'.4⟩
theorem Cm.inv {a b : St} (ha : Inv P a) (h : Cm P a b) : Inv P b := ha.of_same h.1 h.3 h.4

/-- The action reads and writes within reach, and its result has the property `Q`. -/
structure Calm (rd : Prop) (P : Nat → Prop) (Q : α → Prop) (m : EM α) : Prop where
  run : ∀ st, Inv P st → wq rd P m (fun a s => Cm P st s ∧ Q a) (Cm P st) st

/-- Actions without effect. -/
theorem Calm.pure {Q : α → Prop} {a : α} (h : Q a) : Calm rd P Q (pure a : EM α) :=
  ⟨fun _ hi => wq_pure ⟨.rfl hi, h⟩⟩
theorem Calm.errT {Q : α → Prop} {m} : Calm rd P Q (errT m : EM α) := ⟨fun _ hi => wq_errT (.rfl hi)⟩
theorem Calm.fail {Q : α → Prop} {m} : Calm rd P Q (EM.fail m : EM α) := ⟨fun _ hi => wq_fail (.rfl hi)⟩
theorem Calm.panic {Q : α → Prop} {m} : Calm rd P Q (EM.panic m : EM α) := ⟨fun _ _ => wq_panic⟩
theorem Calm.errExpected {Q : α → Prop} {v ty} : Calm rd P Q (errExpected v ty : EM α) :=
  ⟨fun _ hi => wq_errExpected (.rfl hi)⟩
theorem Calm.errExpected2 {Q : α → Prop} {v ty} : Calm rd P Q (errExpected2 v ty : EM α) :=
  ⟨fun _ hi => wq_errExpected2 (.rfl hi)⟩
theorem Calm.errIndices {Q : α → Prop} : Calm rd P Q (errIndices : EM α) := ⟨fun _ hi => wq_errIndices (.rfl hi)⟩
theorem Calm.errBounds {Q : α → Prop} {c x} : Calm rd P Q (errBounds c x : EM α) :=
  ⟨fun _ hi => wq_errBounds (.rfl hi)⟩
theorem Calm.get {f : St → EM β} {Q : β → Prop} (h : ∀ s, Inv P s → Calm rd P Q (f s))
    (ht : ∀ g s, Inv P s → f (other P g s) = f s := by
      intros; simp only [other_length, other_calls, other_locals, other_currents, other_module,
        other_closures, other_jobs, other_senders, other_nchans, other_time, other_rel]) :
    Calm rd P Q (EM.get >>= f) :=
  ⟨fun s hi => wq_get ((h s hi).run s hi) fun g _ => ht g s hi⟩
theorem Calm.relIndex : Calm rd P (fun _ => True) relIndex :=
  ⟨fun _ hi => ⟨⟨.rfl hi, trivial⟩, fun _ _ _ => rfl⟩⟩
theorem Calm.bind {m : EM α} {f : α → EM β} {Q : α → Prop} {R : β → Prop} (hm : Calm rd P Q m)
    (hf : ∀ a, Q a → Calm rd P R (f a)) : Calm rd P R (m >>= f) := by
  constructor
  intro st hi
  refine wq_bind (wq_mono (hm.run st hi) (fun a s hs => ?_) fun _ h => h)
  exact wq_mono ((hf a hs.2).run s (hs.1.inv hi)) (fun _ t ht => ⟨hs.1.trans ht.1, ht.2⟩)
    fun _ ht => hs.1.trans ht
theorem Calm.mono {m : EM α} {Q R : α → Prop} (hm : Calm rd P Q m) (h : ∀ a, Q a → R a) :
    Calm rd P R m := ⟨fun st hi => wq_mono (hm.run st hi) (fun _ _ hs => ⟨hs.1, h _ hs.2⟩) fun _ h => h⟩
theorem Calm.ite {p : Prop} [Decidable p] {a b : EM α} {Q : α → Prop} (ha : p → Calm rd P Q a)
    (hb : ¬p → Calm rd P Q b) : Calm rd P Q (if p then a else b) := by
  split
  · exact ha ‹_›
  · exact hb ‹_›

theorem Calm.lastCall : Calm rd P (fun _ => True) lastCall := by
  refine ⟨fun st hi => ⟨?_, fun _ g _ => ?_⟩⟩
  · simp only [wp, Dyon.lastCall]
    cases st.calls.getLast?
    · trivial
    · exact ⟨.rfl hi, trivial⟩
  · simp only [Dyon.lastCall, other_calls]
    cases st.calls.getLast? <;> rfl
theorem slotE_some {i v} {f : Val → EM α} {s : St} (h : s.stack[i]? = some v) :
    (slotE i >>= f) s = f v s := by
  show EM.bind (slotE i) f s = _
  simp [EM.bind, slotE, h]
theorem slotE_none {i} {f : Val → EM α} {s : St} (h : s.stack[i]? = none) :
    ∃ w, ∀ g, (slotE i >>= f) s = .panic w ∧ (slotE i >>= f) (other P g s) = .panic w := by
  refine ⟨"index out of bounds", fun g => ⟨?_, ?_⟩⟩
  · show EM.bind (slotE i) f s = _
    simp only [EM.bind, slotE, h]
  · have h : (other P g s).stack[i]? = none := by simp [other, over_get?, h]
    show EM.bind (slotE i) f _ = _
    simp only [EM.bind, slotE, h]
/-- Whether a slot holds the mark of a result still to come. -/
theorem Calm.slotRet {i} {f : Val → EM α} {Q : α → Prop} (h : ∀ v, Calm rd P Q (f v))
    (hf : ∀ v, v ≠ .ret → ∀ w, w ≠ .ret → f v = f w) : Calm rd P Q (Dyon.slotE i >>= f) := by
  refine ⟨fun st hi => ?_⟩
  cases hs : st.stack[i]? with
  | none =>
    obtain ⟨w, hw⟩ := slotE_none (P := P) (f := f) hs
    refine ⟨?_, fun _ g _ => ?_⟩
    · unfold wp; rw [(hw fun _ => .ret).1]; trivial
    · rw [(hw g).1, (hw g).2]; rfl
  | some v =>
    have h1 := (h v).run st hi
    refine ⟨?_, fun hr g hg => ?_⟩
    · have := h1.1
      unfold wp at this ⊢
      rw [slotE_some hs]
      exact this
    · obtain ⟨w, hw, he⟩ : ∃ w, (other P g st).stack[i]? = some w ∧ f w = f v := by
        by_cases hv : v = .ret
        · exact ⟨v, by subst hv; exact (over_ret hg).2 hs, rfl⟩
        · by_cases hp : P i
          · exact ⟨v, by simp [other, over_in hp, hs], rfl⟩
          · exact ⟨g i, by simp [other, over_get?, hs, hp, hv], hf _ (hg i) _ hv⟩
      rw [slotE_some hs, slotE_some hw, he]
      exact h1.2 hr g hg
theorem Calm.slotE {i} (h : P i) : Calm rd P (Within P) (slotE i) := by
  refine ⟨fun st hi => ⟨?_, fun _ g _ => ?_⟩⟩
  · simp only [wp, Dyon.slotE]
    cases hs : st.stack[i]?
    · trivial
    · exact ⟨.rfl hi, hi.slots _ _ hs h⟩
  · simp only [Dyon.slotE, other, over_in h]
    cases st.stack[i]? <;> rfl
theorem readPlace_over {g} {st : Stack} {p : Place} (h : P p.root) :
    readPlace (over P g st) p = readPlace st p := by
  simp only [readPlace, over_in h]
theorem writePlace_over {g} {st : Stack} {p : Place} {v : Val} (h : P p.root) :
    writePlace (over P g st) p v = over P g (writePlace st p v) := by
  simp only [writePlace, over_in h]
  cases st[p.root]? with
  | none => rfl
  | some u => simp only [over_set h]
theorem Calm.readE {p : Place} (h : P p.root) : Calm rd P (Within P) (readE p) := by
  refine ⟨fun st hi => ⟨?_, fun _ g _ => ?_⟩⟩
  case refine_2 =>
    simp only [Dyon.readE, other, readPlace_over h]
    cases readPlace st.stack p <;> rfl
  simp only [wp, Dyon.readE]
  cases hs : readPlace st.stack p with
  | none => trivial
  | some v =>
    refine ⟨.rfl hi, ?_⟩
    unfold readPlace at hs
    cases hr : st.stack[p.root]? with
    | none => rw [hr] at hs; cases hs
    | some u => rw [hr] at hs; exact within_atPath (hi.slots _ _ hr h) hs
theorem Calm.writeE {p : Place} {v} (h : P p.root) (hv : Within P v) :
    Calm rd P (fun _ => True) (writeE p v) := by
  refine ⟨fun st hi => ⟨?_, fun _ g _ => ?_⟩⟩
  case refine_2 =>
    simp only [Dyon.writeE, other, readPlace_over h, writePlace_over h]
    cases readPlace st.stack p <;> rfl
  simp only [wp, Dyon.writeE]
  cases hs : readPlace st.stack p with
  | none => trivial
  | some w =>
    unfold readPlace at hs
    cases hr : st.stack[p.root]? with
    | none => rw [hr] at hs; cases hs
    | some u =>
      refine ⟨⟨⟨rfl, rfl, rfl, rfl, writePlace_length _ _ _⟩, rfl, ⟨?_, hi.closures, hi.queues,
        hi.currents⟩, ?_⟩, trivial⟩
      · intro i x hx hi'
        simp only [writePlace, hr] at hx
        rw [List.getElem?_set] at hx
        split at hx
        · split at hx
          · simp only [Option.some.injEq] at hx
            exact hx ▸ within_setPath (hi.slots _ _ hr h) hv
          · cases hx
        · exact hi.slots i x hx hi'
      · intro i hi'
        simp only [writePlace, hr]
        rw [List.getElem?_set_ne]
        rintro rfl
        exact hi' h
theorem Calm.cloneE {n v} (hv : Within P v) : Calm rd P (Within P) (cloneE n v) := by
  refine ⟨fun st hi => ⟨?_, fun _ g _ => ?_⟩⟩
  case refine_2 =>
    simp only [Dyon.cloneE, other, clone_over hi.slots hv]
    cases deepClone st.stack n v <;> rfl
  simp only [wp, Dyon.cloneE]
  cases hs : deepClone st.stack n v with
  | ok w => exact ⟨.rfl hi, within_clone hi.slots hv hs⟩
  | panic => trivial
  | running => trivial
theorem Calm.liftOp {r : OpRes} (h : ∀ v, r = .ok v → Within P v) : Calm rd P (Within P) (liftOp r) := by
  cases r with
  | ok v => exact .pure (h v rfl)
  | error e => exact .fail

theorem tame_sync {c : ECfg} {s : St} (hA : ∀ t ch, ∀ v ∈ c.arrive t ch, Within P v)
    (h : Tame P s) : Tame P (sync c s) :=
  ⟨h.slots, h.closures, fun ch v hv => by
    rcases List.mem_append.1 hv with hv | hv
    · exact h.queues ch v hv
    · exact hA _ _ v hv, h.currents⟩

theorem Calm.recvE {c : ECfg} {ch} (hA : ∀ t ch, ∀ v ∈ c.arrive t ch, Within P v) :
    Calm rd P (fun o => ∀ v ∈ o, Within P v) (recvE c ch) := by
  refine ⟨fun st hi => ⟨?_, fun _ g _ => ?_⟩⟩
  case refine_2 =>
    have : (sync c (other P g st)) = other P g (sync c st) := rfl
    simp only [Dyon.recvE, this, other_queues]
    cases (sync c st).queues ch <;> rfl
  simp only [wp, Dyon.recvE]
  have ht := tame_sync hA hi.toTame
  cases hq : (sync c st).queues ch with
  | nil => exact ⟨⟨⟨rfl, rfl, rfl, rfl, rfl⟩, rfl, ht, fun _ _ => rfl⟩, by simp⟩
  | cons v rest =>
    refine ⟨⟨⟨rfl, rfl, rfl, rfl, rfl⟩, rfl, ⟨ht.slots, ht.closures, ?_, ht.currents⟩, fun _ _ => rfl⟩, ?_⟩
    · intro ch' w hw
      simp only [upd] at hw
      split at hw
      · rename_i h
        exact ht.queues ch w (by rw [hq]; exact List.mem_cons_of_mem _ hw)
      · exact ht.queues ch' w hw
    · simp only [Option.mem_def, Option.some.injEq, forall_eq']
      exact ht.queues ch v (by rw [hq]; exact List.mem_cons_self ..)

theorem Calm.derefE {v} (hv : Within P v) : Calm rd P (Within P) (derefE v) := by
  unfold Dyon.derefE
  split
  · exact .slotE (within_ref.1 hv)
  · exact .pure hv

theorem Calm.computedSlot {a b : Nat} (h : ∀ i, a ≤ i → P i) : Calm rd P P (computedSlot a b) := by
  unfold Dyon.computedSlot
  refine .bind (.slotE (h _ (by omega))) fun v hv => ?_
  split
  · exact .pure (within_ref.1 hv)
  · exact .pure (h _ (by omega))
theorem Calm.prevSlot {a b} (h : P b) : Calm rd P (Within P) (prevSlot a b) :=
  .ite (fun _ => .slotE h) fun _ => .panic
theorem Calm.indexNumber {a b} (h : Within P b) : Calm rd P (fun _ => True) (indexNumber a b) := by
  unfold Dyon.indexNumber
  split
  · exact .pure trivial
  · refine .bind (.prevSlot (within_ref.1 h)) fun v hv => ?_
    split <;> exact .pure trivial
  · exact .pure trivial
theorem Calm.indexNext {a v} {p : Place} (h : Within P v) (hp : P p.root) :
    Calm rd P (fun o => ∀ q ∈ o, P q.root) (indexNext a p v) := by
  unfold Dyon.indexNext
  split
  · exact .pure (by simpa using hp)
  · have hx := within_ref.1 h
    refine .bind (.prevSlot hx) fun v hv => ?_
    split
    · exact .pure (by simpa using hx)
    · exact .pure (by simp)
  · exact .pure (by simp)
theorem root_resolveRef {p : Place} {v l} (hp : P p.root) (hv : Within P v) :
    P (resolveRef p v l).root := by
  unfold resolveRef
  split
  · split
    · exact hp
    · exact within_ref.1 hv
  · exact hp
theorem Calm.indexLast {a l v} {p : Place} (h : Within P v) (hp : P p.root) :
    Calm rd P (fun q => P q.root) (indexLast a l p v) := by
  unfold Dyon.indexLast
  split
  · have hx := within_ref.1 h
    exact .ite (fun _ => .pure hp) fun _ => .bind (.prevSlot hx) fun _ _ => .pure hx
  · exact .pure hp
theorem Calm.lookupIndices {c id last l} {p : Place} (hp : P p.root) (hl : ∀ v ∈ l, Within P v) :
    Calm rd P (fun q => P q.root) (lookupIndices c id last p l) := by
  induction l generalizing p with
  | nil => exact .errIndices
  | cons i l ih =>
    rw [Dyon.lookupIndices]
    refine .bind (.indexNumber (hl i (by simp))) fun o _ => ?_
    cases o with
    | none => exact .errIndices
    | some x =>
      refine .bind (.readE hp) fun v hv => ?_
      split
      · rename_i xs
        split
        · exact .errBounds
        · rename_i w hw
          have hw : Within P w := (within_array.1 hv) w (List.mem_of_getElem? hw)
          refine .ite (fun _ => .indexLast hw (p := p.down _) hp) fun _ => ?_
          refine .bind (.indexNext hw (p := p.down _) hp) fun o ho => ?_
          cases o with
          | none => exact .errIndices
          | some q => exact ih (ho q rfl) fun v hv => hl v (by simp [hv])
      · exact .panic
theorem Calm.objectKey {prop a b} (h : ∀ i, a ≤ i → P i) :
    Calm rd P (fun _ => True) (objectKey prop a b) := by
  unfold Dyon.objectKey
  split
  · exact .pure trivial
  · refine .bind (.computedSlot h) fun i hi => .bind (.slotE hi) fun v _ => ?_
    split
    · exact .pure trivial
    · exact .errT
  · exact .errT
theorem Calm.lookupObject {p : Place} {kvs prop sl j i l} (hp : P p.root)
    (hk : ∀ kv ∈ kvs, Within P kv.2) (h : ∀ i, sl ≤ i → P i) :
    Calm rd P (fun q => P q.1.root) (lookupObject p kvs prop sl j i l) := by
  unfold Dyon.lookupObject
  refine .bind (.objectKey h) fun q _ => ?_
  obtain ⟨k, j⟩ := q
  simp only
  split
  · rename_i v hv
    exact .pure (root_resolveRef hp (hk _ (mem_of_lookup hv)))
  · refine .ite (fun _ => .bind (.writeE hp ?_) fun _ _ => .pure hp) fun _ => .errT
    rw [within_object]
    intro kv hkv
    rcases List.mem_append.1 hkv with hkv | hkv
    · exact hk kv hkv
    · rw [List.mem_singleton] at hkv; subst hkv; exact within_ret
theorem Calm.lookupIndex {c : ECfg} {p : Place} {xs x j l} (hp : P p.root)
    (hk : ∀ x ∈ xs, Within P x) : Calm rd P (fun q => P q.1.root) (lookupIndex c p xs x j l) := by
  unfold Dyon.lookupIndex
  split
  · exact .errBounds
  · rename_i v hv
    exact .pure (root_resolveRef hp (hk _ (List.mem_of_getElem? hv)))
theorem Calm.lookupArray {c : ECfg} {p : Place} {xs prop sl j l} (hp : P p.root)
    (hk : ∀ x ∈ xs, Within P x) (h : ∀ i, sl ≤ i → P i) :
    Calm rd P (fun q => P q.1.root) (lookupArray c p xs prop sl j l) := by
  unfold Dyon.lookupArray
  split
  · exact .lookupIndex hp hk
  · refine .bind (.computedSlot h) fun id hid => .bind (.slotE hid) fun v hv => ?_
    split
    · exact .lookupIndex hp hk
    · exact .bind (.lookupIndices hp (within_array.1 hv)) fun q hq => .pure hq
    · exact .errT
  · exact .errT
theorem Calm.itemLookup {c : ECfg} {p : Place} {prop sl j i l} (hp : P p.root)
    (h : ∀ i, sl ≤ i → P i) : Calm rd P (fun q => P q.1.root) (itemLookup c p prop sl j i l) := by
  unfold Dyon.itemLookup
  refine .bind (.readE hp) fun v hv => ?_
  split
  · exact .lookupObject hp (within_object.1 hv) h
  · exact .lookupArray hp (within_array.1 hv) h
  · exact .errT

/-- The value of a result is within reach. -/
def RIn (P : Nat → Prop) (r : R) : Prop := ∀ v, r.1 = some v → Within P v

theorem RIn.some {v f} (h : Within P v) : RIn P (Option.some v, f) := fun w hw => by cases hw; exact h
theorem RIn.none {f} : RIn P (Option.none, f) := fun w hw => by cases hw
theorem RIn.val {v f} (h : RIn P (Option.some v, f)) : Within P v := h v rfl

theorem Calm.propagate {m t} (hm : Within P m) : Calm rd P (RIn P) (propagate m t) := by
  unfold Dyon.propagate
  refine .bind .lastCall fun call _ => .ite (fun _ => .errT) fun _ => .slotRet (fun v => ?_) ?_
  · split
    · exact .pure (.some (within_err.2 hm))
    · exact .errT
  · intro v hv w hw
    cases v <;> first | exact absurd rfl hv | skip
    all_goals cases w <;> first | exact absurd rfl hw | rfl
theorem Calm.tryVal {v} (hv : Within P v) : Calm rd P (RIn P) (tryVal v) := by
  unfold Dyon.tryVal
  split
  · exact .errT
  · rename_i h; exact .pure (.some (within_tryMsg hv h))
  · rename_i h; exact .propagate (within_tryMsg_err hv h)
theorem Calm.itemWalk {c : ECfg} {sl side i l t} {p : Place} {j} (hp : P p.root)
    (h : ∀ i, sl ≤ i → P i) : Calm rd P (fun r => RIn P r.2) (itemWalk c sl side i l t p j) := by
  induction l generalizing i t p j with
  | nil =>
    unfold Dyon.itemWalk
    split
    · exact .bind (.readE hp) fun v hv => .pure (.some hv)
    · exact .pure (.some (within_unsafeRef.2 hp))
  | cons x l ih =>
    unfold Dyon.itemWalk
    refine .bind (.itemLookup hp h) fun q hq => .ite (fun _ => .bind (.readE hq) fun v hv => ?_)
      fun _ => ih hq
    split
    · exact .errT
    · rename_i hm
      exact .bind (.writeE hq (within_tryMsg hv hm)) fun _ _ => ih hq
    · rename_i hm
      exact .bind (.propagate (within_tryMsg_err hv hm)) fun _ hr => .pure hr
theorem Calm.refSlot {id} (h : P id) : Calm rd P P (refSlot id) := by
  unfold Dyon.refSlot
  refine .bind (.slotE h) fun v hv => ?_
  split
  · exact .pure (within_ref.1 hv)
  · exact .pure h
theorem Calm.targetOf {a} (h : Within P a) : Calm rd P (fun p => P p.root) (targetOf a) := by
  unfold Dyon.targetOf
  split
  · have hp := within_unsafeRef.1 h
    refine .bind (.readE hp) fun v hv => ?_
    split
    · exact .bind (.slotE (within_ref.1 hv)) fun w hw => .bind (.writeE hp hw) fun _ _ => .pure hp
    · exact .pure hp
  · exact .pure (within_ref.1 h)
  · exact .panic
theorem Calm.noneR : Calm rd P (RIn P) noneR := .pure .none
theorem Calm.assignTo [FloatOps] [VecMath] {op b} {p : Place} (hp : P p.root) (hb : Within P b) :
    Calm rd P (RIn P) (assignTo op p b) := by
  unfold Dyon.assignTo
  refine .bind (.derefE hb) fun d hd => .bind (.readE hp) fun n _ => .ite (fun _ => .panic) fun _ =>
    .ite (fun _ => .panic) fun _ => ?_
  split
  · rename_i h; exact .bind (.writeE hp (within_assignOp hd h)) fun _ _ => .noneR
  · exact .errT
  · exact .panic
theorem Calm.shallow {a} (h : Within P a) : Calm rd P (Within P) (shallow a) := by
  unfold Dyon.shallow
  split
  · exact .slotE (within_ref.1 h)
  · exact .pure h
theorem Calm.storeAt {x v} (hx : Within P x) (hv : Within P v) : Calm rd P (RIn P) (storeAt x v) := by
  unfold Dyon.storeAt
  split
  · exact .bind (.writeE (within_unsafeRef.1 hx) hv) fun _ _ => .noneR
  · exact .panic
theorem Calm.cloneAll {n vs} (h : ∀ v ∈ vs, Within P v) :
    Calm rd P (fun ws => ∀ v ∈ ws, Within P v) (cloneAll n vs) := by
  induction vs with
  | nil => exact .pure (by simp)
  | cons v vs ih =>
    refine .bind (.cloneE (h v (by simp))) fun w hw => .bind (ih fun v hv => h v (by simp [hv]))
      fun ws hws => .pure ?_
    intro x hx
    rcases List.mem_cons.1 hx with rfl | hx
    · exact hw
    · exact hws x hx
theorem Calm.closureOf {v} (hv : Within P v) : Calm rd P (fun f => EIn P f.body) (closureOf v) := by
  unfold Dyon.closureOf
  refine .bind (.derefE hv) fun _ _ => ?_
  split
  · refine .get fun s hs => ?_
    split
    · rename_i h; exact .pure (hs.closures _ (List.mem_of_getElem? h))
    · exact .panic
  · exact .get fun _ _ => .errT
theorem within_lazyHit {x d r : Val} {l} (hx : Within P x) (hd : Within P d)
    (h : lazyHit x d l = some r) : Within P r := by
  induction l with
  | nil => cases h
  | cons a l ih =>
    cases a <;> simp only [lazyHit] at h
    · split at h
      · simp only [Option.some.injEq] at h; exact h ▸ hx
      · exact ih h
    · split at h
      · simp only [Option.some.injEq] at h; exact h ▸ within_ok.1 hd
      · exact ih h
    · split at h
      · simp only [Option.some.injEq] at h; exact h ▸ within_err.1 hd
      · exact ih h
    · split at h
      · simp only [Option.some.injEq] at h; exact h ▸ within_some.1 hd
      · exact ih h
theorem Calm.lazyCheck {x l} (hx : Within P x) :
    Calm rd P (fun o => ∀ v ∈ o, Within P v) (lazyCheck x l) := by
  unfold Dyon.lazyCheck
  refine .ite (fun _ => .pure (by simp)) fun _ => .bind (.derefE hx) fun d hd => .pure ?_
  intro v hv
  exact within_lazyHit hx hd hv

/-! ## Accumulators -/

theorem Calm.incSlot [FloatOps] {i} (h : P i) : Calm rd P (fun _ => True) (incSlot i) := by
  unfold Dyon.incSlot
  refine .bind (.slotE h) fun v hv => ?_
  split
  · refine .writeE h ?_
    rw [within_f64_iff] at *; exact hv
  · exact .errExpected

/-- The accumulator is within reach. -/
def AIn (P : Nat → Prop) (a : Option Val) : Prop := ∀ v ∈ a, Within P v

theorem AIn.some {v} (h : Within P v) : AIn P (Option.some v) := fun w hw => by cases hw; exact h

theorem within_addSecret {sec ind} {x : F64} (hs : Within P (.f64 x sec)) (hi : Within P ind) :
    ∀ l ∈ addSecret sec ind, ∀ y ∈ l, Within P y := by
  rw [within_f64_iff] at hs
  intro l hl y hy
  cases sec with
  | none =>
    simp only [addSecret, Option.mem_def, Option.some.injEq] at hl
    subst hl; rw [List.mem_singleton] at hy; exact hy ▸ hi
  | some k =>
    simp only [addSecret, Option.mem_def, Option.some.injEq] at hl
    subst hl
    rcases List.mem_append.1 hy with hy | hy
    · exact hs k rfl y hy
    · rw [List.mem_singleton] at hy; exact hy ▸ hi

theorem within_addSecret' {sec ind} {x : Bool} (hs : Within P (.bool x sec)) (hi : Within P ind) :
    ∀ l ∈ addSecret sec ind, ∀ y ∈ l, Within P y :=
  within_addSecret (x := F64.zero) (within_f64_iff.2 (within_bool_iff.1 hs)) hi

section
variable [FloatOps] {a : Option Val} {d ind : Val}

theorem Calm.accSum (ha : AIn P a) : Calm rd P (fun r => AIn P r.1) (accSum a d) := by
  unfold Dyon.accSum
  split
  · have h := ha _ rfl
    rw [within_f64_iff] at h
    exact .pure (.some (within_f64_iff.2 h))
  · exact .errExpected
theorem Calm.accProd (ha : AIn P a) : Calm rd P (fun r => AIn P r.1) (accProd a d) := by
  unfold Dyon.accProd
  split
  · have h := ha _ rfl
    rw [within_f64_iff] at h
    exact .pure (.some (within_f64_iff.2 h))
  · exact .errExpected
theorem Calm.accSumVec4 : Calm rd P (fun r => AIn P r.1) (accSumVec4 a d) := by
  unfold Dyon.accSumVec4
  split
  · exact .pure (.some within_vec4)
  · exact .errExpected
theorem Calm.accProdVec4 : Calm rd P (fun r => AIn P r.1) (accProdVec4 a d) := by
  unfold Dyon.accProdVec4
  split
  · exact .pure (.some within_vec4)
  · exact .errExpected
theorem Calm.accMin (hi : Within P ind) (ha : AIn P a) (hd : Within P d) :
    Calm rd P (fun r => AIn P r.1) (accMin ind a d) := by
  unfold Dyon.accMin
  split
  · exact .ite (fun _ => .pure (.some (within_f64_iff.2 (within_addSecret hd hi))))
      fun _ => .pure (.some (ha _ rfl))
  · exact .errExpected
theorem Calm.accMax (hi : Within P ind) (ha : AIn P a) (hd : Within P d) :
    Calm rd P (fun r => AIn P r.1) (accMax ind a d) := by
  unfold Dyon.accMax
  split
  · exact .ite (fun _ => .pure (.some (within_f64_iff.2 (within_addSecret hd hi))))
      fun _ => .pure (.some (ha _ rfl))
  · exact .errExpected
theorem Calm.accAny (hi : Within P ind) (ha : AIn P a) (hd : Within P d) :
    Calm rd P (fun r => AIn P r.1) (accAny ind a d) := by
  unfold Dyon.accAny
  split
  · exact .ite (fun _ => .pure (.some (within_bool_iff.2 (within_addSecret' hd hi))))
      fun _ => .pure ha
  · exact .errExpected
theorem Calm.accAll (hi : Within P ind) (ha : AIn P a) (hd : Within P d) :
    Calm rd P (fun r => AIn P r.1) (accAll ind a d) := by
  unfold Dyon.accAll
  split
  · exact .ite (fun _ => .pure ha)
      fun _ => .pure (.some (within_bool_iff.2 (within_addSecret' hd hi)))
  · exact .errExpected
theorem Calm.accSift (ha : AIn P a) (hd : Within P d) :
    Calm rd P (fun r => AIn P r.1) (accSift a d) := by
  unfold Dyon.accSift
  split
  · refine .pure (.some ?_)
    have h := ha _ rfl
    rw [within_array] at *
    intro x hx
    rcases List.mem_append.1 hx with hx | hx
    · exact h x hx
    · rw [List.mem_singleton] at hx; exact hx ▸ hd
  · exact .panic

theorem Calm.forStepN {k : ForKind} {x : Option Val} (hi : Within P ind) (ha : AIn P a)
    (hx : AIn P x) : Calm rd P (fun r => AIn P r.1) (k.step ind a x) := by
  unfold ForKind.step
  split
  · exact .pure ha
  · exact .fail
  · exact .accSift ha (hx _ rfl)
  · refine .bind (.derefE (hx _ rfl)) fun d hd => ?_
    split
    · exact .accSum ha
    · exact .accProd ha
    · exact .accSumVec4
    · exact .accProdVec4
    · exact .accMin hi ha hd
    · exact .accMax hi ha hd
    · exact .accAny hi ha hd
    · exact .accAll hi ha hd
    · exact .pure ha
theorem Calm.forStepIn {k : ForInKind} {slot : Nat} {x : Option Val} (hi : P slot) (ha : AIn P a)
    (hx : AIn P x) : Calm rd P (fun r => AIn P r.1) (k.step slot a x) := by
  unfold ForInKind.step
  split
  · exact .pure ha
  · exact .pure ha
  · exact .pure ha
  · exact .fail
  · exact .accSift ha (hx _ rfl)
  · refine .bind (.derefE (hx _ rfl)) fun d hd => ?_
    split
    · exact .accSum ha
    · exact .accProd ha
    · exact .bind (.slotE hi) fun _ hi => .accMin hi ha hd
    · exact .bind (.slotE hi) fun _ hi => .accMax hi ha hd
    · exact .bind (.slotE hi) fun _ hi => .accAny hi ha hd
    · exact .bind (.slotE hi) fun _ hi => .accAll hi ha hd
    · exact .pure ha

end

theorem ain_initN {k : ForKind} : AIn P k.init := by
  cases k <;> intro v hv <;> simp [ForKind.init] at hv <;> subst hv
  all_goals first
    | exact within_ofF64 | exact within_vec4 | exact within_f64_none | exact within_bool_none
    | exact within_array.2 (by simp)

theorem ain_initIn {k : ForInKind} : AIn P k.init := by
  cases k <;> intro v hv <;> simp [ForInKind.init] at hv <;> subst hv
  all_goals first
    | exact within_ofF64 | exact within_vec4 | exact within_f64_none | exact within_bool_none
    | exact within_array.2 (by simp)

/-! ## Channels of functions -/

theorem Calm.notify {c : ECfg} {n i st} (hA : ∀ t ch, ∀ v ∈ c.arrive t ch, Within P v)
    (hst : ∀ i, st ≤ i → P i) : Calm rd P (fun _ => True) (notify c n i st) := by
  unfold Dyon.notify
  refine .get (fun s hs => .ite (fun _ => .bind (.cloneAll ?_) fun msg hmsg => ?_)
    fun _ => .pure trivial) fun g s _ => ?_
  rotate_right
  · simp only [other_senders, other_module, other, over_drop hst]
  · intro v hv
    obtain ⟨k, hk⟩ := List.mem_iff_getElem?.1 hv
    rw [List.getElem?_drop] at hk
    exact hs.slots _ _ hk (hst _ (by omega))
  · constructor
    intro u hu
    have ht := tame_sync (c := c) hA hu.toTame
    refine wq_modify ⟨⟨⟨rfl, rfl, rfl, rfl, rfl⟩, rfl, ⟨hu.slots, hu.closures, ?_, hu.currents⟩,
      fun _ _ => rfl⟩, trivial⟩
    intro ch v hv
    simp only [deliver] at hv
    rcases List.mem_append.1 hv with hv | hv
    · exact ht.queues ch v hv
    · rw [List.eq_of_mem_replicate hv]
      exact within_array.2 hmsg

theorem Calm.inE {c : ECfg} {f} : Calm rd P (RIn P) (inE c f) := by
  unfold Dyon.inE
  split
  · refine .bind .relIndex fun rel _ => .get fun s _ => ?_
    split
    · exact .panic
    · split
      · exact .panic
      · refine .bind (Q := fun _ => True) ?_ fun _ _ => .pure (.some within_inTy)
        exact ⟨fun u hu => wq_modify ⟨⟨⟨rfl, rfl, rfl, rfl, rfl⟩, rfl,
          ⟨hu.slots, hu.closures, hu.queues, hu.currents⟩, fun _ _ => rfl⟩, trivial⟩⟩
  · exact .errT

/-- Where a variable is, searching by name. -/
theorem findLast_mem {name : String} {l : List (String × Nat)} {i : Nat}
    (h : findLast name l = some i) : (name, i) ∈ l := by
  induction l with
  | nil => cases h
  | cons x xs ih =>
    obtain ⟨n, j⟩ := x
    simp only [findLast] at h
    cases hf : findLast name xs with
    | some k =>
      rw [hf] at h
      simp only [Option.some.injEq] at h
      exact List.mem_cons_of_mem _ (ih (h ▸ hf))
    | none =>
      rw [hf] at h
      simp only at h
      split at h
      · rename_i hn
        simp only [Option.some.injEq] at h
        subst hn; subst h
        exact List.mem_cons_self ..
      · cases h

end Dyon.Loc
