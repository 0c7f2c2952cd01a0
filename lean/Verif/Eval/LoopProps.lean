import Verif.Eval.LoopSpec

/-!
# C18, C19, C20: counting loops

`Bounds` evaluates the bounds, `Visits` lists the rounds (`LoopSpec`).  The theorems say
what a loop gives when, after these rounds, the range is exhausted, the body breaks,
returns or fails.
-/

namespace Dyon

/-! ## Specification -/

/-- The values of the rounds that were not skipped, in order, seen through `P`, which
relates index, value and value after following a reference. -/
inductive Values {α : Type} (P : Val → Val → Val → α → Prop) : List (Val × Mark) → List α → Prop
  | nil : Values P [] []
  | skipped {i es vs} : Values P es vs → Values P ((i, .skipped) :: es) vs
  | value {i x d v es vs} : P i x d v → Values P es vs → Values P ((i, .value x d) :: es) (v :: vs)

/-- The body gave a number. -/
def IsNum (_ : Val) (_ d : Val) (v : F64) : Prop := ∃ sec, d = .f64 v sec
/-- The body gave a vector. -/
def IsVec (_ : Val) (_ d : Val) (v : Vec4) : Prop := d = .vec4 v
/-- The body gave the boolean `b`. -/
def IsBool (b : Bool) (_ : Val) (_ d : Val) (_ : Unit) : Prop := ∃ sec, d = .bool b sec
/-- The body gave the value itself. -/
def IsVal (_ : Val) (x _ : Val) (v : Val) : Prop := v = x
/-- Index, number and secret of a round. -/
structure Found where
  idx : Val
  num : F64
  sec : Option (List Val)
/-- The body gave a number at an index. -/
def IsFound (i : Val) (_ d : Val) (f : Found) : Prop := f.idx = i ∧ d = .f64 f.num f.sec

/-- A secret with one more entry: the index of an outer loop comes last. -/
def withIndex (sec : Option (List Val)) (i : Val) : Option (List Val) :=
  some (sec.getD [] ++ [i])

/-- `m` with secret `sec` is the first best of the numbers found; `better` is `<` or `>`.
NaN if there is no number that is not NaN. -/
def FirstBest (better : F64 → F64 → Bool) (l : List Found) (m : F64) (sec : Option (List Val)) :
    Prop :=
  ((∀ f ∈ l, F64.isNaN f.num = true) → F64.isNaN m = true) ∧
  ((∃ f ∈ l, F64.isNaN f.num = false) → ∃ pre f post, l = pre ++ f :: post ∧ m = f.num ∧
    F64.isNaN m = false ∧ sec = withIndex f.sec f.idx ∧
    (∀ g ∈ pre, F64.isNaN g.num = false → better m g.num = true) ∧
    (∀ g ∈ post, F64.isNaN g.num = false → better g.num m = false))

section
variable [FloatOps]

/-- The rounds have values of the kind the loop wants; for `any` and `all`, none that
decides the loop. -/
def Typed (k : ForKind) (es : List (Val × Mark)) : Prop :=
  match k with
  | .forN => True
  | .sum | .prod => ∃ ns, Values IsNum es ns
  | .sumVec4 | .prodVec4 => ∃ vs, Values IsVec es vs
  | .min | .max => ∃ fs, Values IsFound es fs
  | .any => ∃ u, Values (IsBool false) es u
  | .all => ∃ u, Values (IsBool true) es u
  | .sift => ∃ xs, Values IsVal es xs
  | .linkFor => False

/-- The value of a loop after the rounds. -/
def LoopValue (k : ForKind) (es : List (Val × Mark)) (v : Option Val) : Prop :=
  match k with
  | .forN => v = none
  | .sum => ∀ ns, Values IsNum es ns → v = some (.ofF64 (ns.foldl FloatOps.add F64.zero))
  | .prod => ∀ ns, Values IsNum es ns → v = some (.ofF64 (ns.foldl FloatOps.mul F64.one))
  | .sumVec4 => ∀ vs, Values IsVec es vs → v = some (.vec4
      (vs.foldl (fun a b => ⟨FloatOps.add32 a.x b.x, FloatOps.add32 a.y b.y,
        FloatOps.add32 a.z b.z, FloatOps.add32 a.w b.w⟩) ⟨F32.zero, F32.zero, F32.zero, F32.zero⟩))
  | .prodVec4 => ∀ vs, Values IsVec es vs → v = some (.vec4
      (vs.foldl (fun a b => ⟨FloatOps.mul32 a.x b.x, FloatOps.mul32 a.y b.y,
        FloatOps.mul32 a.z b.z, FloatOps.mul32 a.w b.w⟩) ⟨one32, one32, one32, one32⟩))
  | .min => ∀ fs, Values IsFound es fs →
      ∃ m sec, v = some (.f64 m sec) ∧ FirstBest (fun a b => F64.lt a b) fs m sec
  | .max => ∀ fs, Values IsFound es fs →
      ∃ m sec, v = some (.f64 m sec) ∧ FirstBest (fun a b => F64.lt b a) fs m sec
  | .any => v = some (.bool false none)
  | .all => v = some (.bool true none)
  | .sift => ∀ xs, Values IsVal es xs → v = some (.array xs)
  | .linkFor => False

/-! ## Lemmas: the accumulators -/

omit [FloatOps] in
theorem Values.unique {α} {P : Val → Val → Val → α → Prop}
    (hP : ∀ i x d v w, P i x d v → P i x d w → v = w) {es vs ws} (h : Values P es vs)
    (h' : Values P es ws) : vs = ws := by
  induction h generalizing ws with
  | nil => cases h'; rfl
  | skipped _ ih => cases h' with | skipped h' => exact ih h'
  | value hp _ ih => cases h' with | value hp' h' => rw [hP _ _ _ _ _ hp hp', ih h']

/-- Folding values that are added one by one. -/
theorem folds_of {α} {P : Val → Val → Val → α → Prop} {k : ForKind} {acc : List α → Option Val}
    (hstep : ∀ i x d v vs s, P i x d v → Spec.deref s.stack x = some d →
      k.step i (acc vs) (some x) s = .ok (acc (vs ++ [v]), false) s)
    {es vs} (h : Values P es vs) (pre : List α) : Folds k es (acc pre) (acc (pre ++ vs)) := by
  induction h generalizing pre with
  | nil => rw [List.append_nil]; exact .nil _
  | skipped _ ih => exact .skipped (ih pre)
  | @value i x d v es vs hp _ ih =>
    refine .value (fun s hs => hstep _ _ _ _ pre s hp hs) ?_
    have := ih (pre ++ [v])
    rwa [List.append_assoc] at this

theorem step_ok {k : ForKind} {i a x d s r} (hk : k ≠ .forN) (hk' : k ≠ .sift) (hk'' : k ≠ .linkFor)
    (hd : Spec.deref s.stack x = some d)
    (h : (match k with
    | .sum => accSum a d
    | .prod => accProd a d
    | .sumVec4 => accSumVec4 a d
    | .prodVec4 => accProdVec4 a d
    | .min => accMin i a d
    | .max => accMax i a d
    | .any => accAny i a d
    | .all => accAll i a d
    | _ => pure (a, false)) s = r) : k.step i a (some x) s = r := by
  cases k <;> first | (exact absurd rfl hk) | (exact absurd rfl hk') | (exact absurd rfl hk'') | skip
  all_goals
    simp only [ForKind.step]
    rw [EM.bind_ok (derefE_ok hd)]
    exact h

/-- A strict order on numbers that are not NaN. -/
structure IsBetter (better : F64 → F64 → Bool) : Prop where
  nan : ∀ x y, better x y = true → F64.isNaN x = false
  asymm : ∀ x y, F64.isNaN x = false → F64.isNaN y = false → better x y = true →
    better y x = false
  trans : ∀ x y z, F64.isNaN x = false → F64.isNaN y = false → F64.isNaN z = false →
    better x y = true → better z y = false → better x z = true

theorem isBetter_min : IsBetter fun a b => F64.lt a b where
  nan x y h := by
    by_contra hc
    rw [lt_nan_left (by simpa using hc)] at h; cases h
  asymm x y hx hy h := by
    rw [lt_iff hx hy] at h
    rw [← Bool.not_eq_true, lt_iff hy hx]; omega
  trans x y z hx hy hz h1 h2 := by
    rw [lt_iff hx hy] at h1
    rw [← Bool.not_eq_true, lt_iff hz hy] at h2
    exact (lt_iff hx hz).2 (by omega)

theorem isBetter_max : IsBetter fun a b => F64.lt b a where
  nan x y h := by
    by_contra hc
    have hx : F64.isNaN x = true := by simpa using hc
    simp [F64.lt, hx] at h
  asymm x y hx hy h := by
    rw [lt_iff hy hx] at h
    rw [← Bool.not_eq_true, lt_iff hx hy]; omega
  trans x y z hx hy hz h1 h2 := by
    rw [lt_iff hy hx] at h1
    rw [← Bool.not_eq_true, lt_iff hy hz] at h2
    exact (lt_iff hz hx).2 (by omega)

/-- One step of the search. -/
def bestStep (better : F64 → F64 → Bool) (a : F64 × Option (List Val)) (f : Found) :
    F64 × Option (List Val) :=
  if F64.isNaN a.1 || better f.num a.1 then (f.num, withIndex f.sec f.idx) else a

omit [FloatOps] in
theorem firstBest_snoc {better} (hB : IsBetter better) {l m sec} (f : Found)
    (h : FirstBest better l m sec) :
    FirstBest better (l ++ [f]) (bestStep better (m, sec) f).1 (bestStep better (m, sec) f).2 := by
  by_cases hm : F64.isNaN m = true
  · have hall : ∀ y ∈ l, F64.isNaN y.num = true := by
      by_contra hc
      push Not at hc
      obtain ⟨y, hy, hyn⟩ := hc
      obtain ⟨_, _, _, _, _, h4, _⟩ := h.2 ⟨y, hy, by simpa using hyn⟩
      rw [hm] at h4; cases h4
    simp only [bestStep, hm, Bool.true_or, if_true]
    constructor
    · intro hx; exact hx f (by simp)
    · rintro ⟨y, hy, hyn⟩
      rcases List.mem_append.1 hy with hy' | hy'
      · rw [hall y hy'] at hyn; cases hyn
      · simp only [List.mem_singleton] at hy'; subst hy'
        exact ⟨l, y, [], rfl, rfl, hyn, rfl, fun g hg hgn => absurd hgn (by simp [hall g hg]),
          fun g hg => absurd hg (by simp)⟩
  · have hm' : F64.isNaN m = false := by simpa using hm
    have hex : ∃ x ∈ l, F64.isNaN x.num = false := by
      by_contra hc
      push Not at hc
      exact hm (h.1 fun y hy => by simpa using hc y hy)
    obtain ⟨pre, g, post, hl, hmg, -, hsec, h1, h2⟩ := h.2 hex
    simp only [bestStep, hm', Bool.false_or]
    constructor
    · intro hx
      obtain ⟨y, hy, hyn⟩ := hex
      rw [hx y (by simp [hy])] at hyn; cases hyn
    · intro _
      by_cases hb : better f.num m = true
      · simp only [hb, if_true]
        have hfn := hB.nan _ _ hb
        refine ⟨l, f, [], rfl, rfl, hfn, rfl, fun x hx hxn => ?_, fun x hx => by cases hx⟩
        refine hB.trans _ m _ hfn hm' hxn hb ?_
        rw [hl] at hx
        rcases List.mem_append.1 hx with hx | hx
        · exact hB.asymm _ _ hm' hxn (h1 x hx hxn)
        · rcases List.mem_cons.1 hx with rfl | hx
          · rw [← hmg]
            by_contra hc
            have hc' : better m m = true := by simpa using hc
            rw [hB.asymm _ _ hm' hm' hc'] at hc'; cases hc'
          · exact h2 x hx hxn
      · rw [if_neg hb]
        refine ⟨pre, g, post ++ [f], by simp [hl], hmg, hm', hsec, h1, fun x hx hxn => ?_⟩
        rcases List.mem_append.1 hx with hx | hx
        · exact h2 x hx hxn
        · simp only [List.mem_singleton] at hx; subst hx
          simpa using hb

/-- The search over a list. -/
def best (better : F64 → F64 → Bool) (l : List Found) : F64 × Option (List Val) :=
  l.foldl (bestStep better) (F64.nan, none)

omit [FloatOps] in
theorem firstBest_best {better} (hB : IsBetter better) (l : List Found) :
    FirstBest better l (best better l).1 (best better l).2 := by
  have key : ∀ (l pre : List Found) (p : F64 × Option (List Val)), FirstBest better pre p.1 p.2 →
      FirstBest better (pre ++ l) (l.foldl (bestStep better) p).1 (l.foldl (bestStep better) p).2 := by
    intro l
    induction l with
    | nil => intro pre p h; rwa [List.append_nil]
    | cons f l ih =>
      intro pre p h
      have := ih (pre ++ [f]) _ (firstBest_snoc hB f h)
      rwa [List.append_assoc] at this
  exact key l [] (F64.nan, none)
    ⟨fun _ => by decide, fun ⟨f, hf, _⟩ => absurd hf (by simp)⟩

omit [FloatOps] in
theorem addSecret_eq (sec : Option (List Val)) (i : Val) :
    addSecret sec i = withIndex sec i := by
  cases sec <;> rfl

theorem accMin_best (p : F64 × Option (List Val)) (f : Found) (s : St) :
    accMin f.idx (some (.f64 p.1 p.2)) (.f64 f.num f.sec) s =
      .ok (some (.f64 (bestStep (fun a b => F64.lt a b) p f).1
        (bestStep (fun a b => F64.lt a b) p f).2), false) s := by
  have h : accMin f.idx (some (.f64 p.1 p.2)) (.f64 f.num f.sec) =
      if F64.isNaN p.1 || F64.lt f.num p.1 then
        pure (some (.f64 f.num (addSecret f.sec f.idx)), false)
      else pure (some (.f64 p.1 p.2), false) := rfl
  rw [h, addSecret_eq]
  unfold bestStep
  cases hc : (F64.isNaN p.1 || F64.lt f.num p.1)
  · rfl
  · rfl

theorem accMax_best (p : F64 × Option (List Val)) (f : Found) (s : St) :
    accMax f.idx (some (.f64 p.1 p.2)) (.f64 f.num f.sec) s =
      .ok (some (.f64 (bestStep (fun a b => F64.lt b a) p f).1
        (bestStep (fun a b => F64.lt b a) p f).2), false) s := by
  have h : accMax f.idx (some (.f64 p.1 p.2)) (.f64 f.num f.sec) =
      if F64.isNaN p.1 || F64.lt p.1 f.num then
        pure (some (.f64 f.num (addSecret f.sec f.idx)), false)
      else pure (some (.f64 p.1 p.2), false) := rfl
  rw [h, addSecret_eq]
  unfold bestStep
  cases hc : (F64.isNaN p.1 || F64.lt p.1 f.num)
  · rfl
  · rfl

theorem folds_forN (es : List (Val × Mark)) (a) : Folds .forN es a a := by
  induction es with
  | nil => exact .nil _
  | cons e es ih =>
    obtain ⟨i, m⟩ := e
    cases m with
    | skipped => exact .skipped ih
    | nothing => exact .nothing (fun _ => rfl) ih
    | value x d => exact .value (fun _ _ => rfl) ih

/-- Rounds of the right kind have an accumulator, and it is the value of the loop. -/
theorem folds_typed {k : ForKind} {es} (h : Typed k es) :
    ∃ v, Folds k es k.init v ∧ LoopValue k es v := by
  cases k with
  | forN => exact ⟨none, folds_forN es _, rfl⟩
  | linkFor => exact h.elim
  | sum =>
    obtain ⟨ns, hns⟩ := h
    refine ⟨_, folds_of (acc := fun ns => some (.ofF64 (ns.foldl FloatOps.add F64.zero))) ?_ hns [],
      fun ms hms => ?_⟩
    · rintro i x d v vs s ⟨sec, rfl⟩ hd
      refine step_ok (by simp) (by simp) (by simp) hd ?_
      simp only [List.foldl_append]; rfl
    · rw [hns.unique (fun _ _ _ _ _ ⟨_, h1⟩ ⟨_, h2⟩ => by rw [h1] at h2; injection h2) hms]; rfl
  | prod =>
    obtain ⟨ns, hns⟩ := h
    refine ⟨_, folds_of (acc := fun ns => some (.ofF64 (ns.foldl FloatOps.mul F64.one))) ?_ hns [],
      fun ms hms => ?_⟩
    · rintro i x d v vs s ⟨sec, rfl⟩ hd
      refine step_ok (by simp) (by simp) (by simp) hd ?_
      simp only [List.foldl_append]; rfl
    · rw [hns.unique (fun _ _ _ _ _ ⟨_, h1⟩ ⟨_, h2⟩ => by rw [h1] at h2; injection h2) hms]; rfl
  | sumVec4 =>
    obtain ⟨ns, hns⟩ := h
    refine ⟨_, folds_of (acc := fun vs => some (.vec4
      (vs.foldl (fun a b => ⟨FloatOps.add32 a.x b.x, FloatOps.add32 a.y b.y,
        FloatOps.add32 a.z b.z, FloatOps.add32 a.w b.w⟩)
        ⟨F32.zero, F32.zero, F32.zero, F32.zero⟩))) ?_ hns [], fun ms hms => ?_⟩
    · rintro i x d v vs s rfl hd
      refine step_ok (by simp) (by simp) (by simp) hd ?_
      simp only [List.foldl_append]; rfl
    · rw [hns.unique (fun _ _ _ _ _ h1 h2 => by rw [IsVec] at h1 h2; rw [h1] at h2; injection h2) hms]; rfl
  | prodVec4 =>
    obtain ⟨ns, hns⟩ := h
    refine ⟨_, folds_of (acc := fun vs => some (.vec4
      (vs.foldl (fun a b => ⟨FloatOps.mul32 a.x b.x, FloatOps.mul32 a.y b.y,
        FloatOps.mul32 a.z b.z, FloatOps.mul32 a.w b.w⟩)
        ⟨one32, one32, one32, one32⟩))) ?_ hns [], fun ms hms => ?_⟩
    · rintro i x d v vs s rfl hd
      refine step_ok (by simp) (by simp) (by simp) hd ?_
      simp only [List.foldl_append]; rfl
    · rw [hns.unique (fun _ _ _ _ _ h1 h2 => by rw [IsVec] at h1 h2; rw [h1] at h2; injection h2) hms]; rfl
  | min =>
    obtain ⟨fs, hfs⟩ := h
    refine ⟨_, folds_of (acc := fun fs => some (.f64 (best (fun a b => F64.lt a b) fs).1
      (best (fun a b => F64.lt a b) fs).2)) ?_ hfs [], fun gs hgs => ?_⟩
    · rintro i x d v vs s ⟨rfl, rfl⟩ hd
      refine step_ok (by simp) (by simp) (by simp) hd ?_
      refine (accMin_best _ _ _).trans ?_
      simp only [best, List.foldl_append, List.foldl_cons, List.foldl_nil]
    · refine ⟨_, _, rfl, ?_⟩
      rw [← hfs.unique (fun _ _ _ v w h1 h2 => ?_) hgs]
      · exact firstBest_best isBetter_min fs
      · obtain ⟨rfl, h1⟩ := h1
        obtain ⟨h3, h2⟩ := h2
        rw [h1] at h2
        obtain ⟨i, n, s⟩ := v; obtain ⟨i', n', s'⟩ := w
        injection h2 with h4 h5
        simp only at h3 h4 h5
        subst h3 h4 h5; rfl
  | max =>
    obtain ⟨fs, hfs⟩ := h
    refine ⟨_, folds_of (acc := fun fs => some (.f64 (best (fun a b => F64.lt b a) fs).1
      (best (fun a b => F64.lt b a) fs).2)) ?_ hfs [], fun gs hgs => ?_⟩
    · rintro i x d v vs s ⟨rfl, rfl⟩ hd
      refine step_ok (by simp) (by simp) (by simp) hd ?_
      refine (accMax_best _ _ _).trans ?_
      simp only [best, List.foldl_append, List.foldl_cons, List.foldl_nil]
    · refine ⟨_, _, rfl, ?_⟩
      rw [← hfs.unique (fun _ _ _ v w h1 h2 => ?_) hgs]
      · exact firstBest_best isBetter_max fs
      · obtain ⟨rfl, h1⟩ := h1
        obtain ⟨h3, h2⟩ := h2
        rw [h1] at h2
        obtain ⟨i, n, s⟩ := v; obtain ⟨i', n', s'⟩ := w
        injection h2 with h4 h5
        simp only at h3 h4 h5
        subst h3 h4 h5; rfl
  | any =>
    obtain ⟨u, hu⟩ := h
    refine ⟨_, folds_of (acc := fun _ => some (.bool false none)) ?_ hu [], rfl⟩
    rintro i x d v vs s ⟨sec, rfl⟩ hd
    exact step_ok (by simp) (by simp) (by simp) hd rfl
  | all =>
    obtain ⟨u, hu⟩ := h
    refine ⟨_, folds_of (acc := fun _ => some (.bool true none)) ?_ hu [], rfl⟩
    rintro i x d v vs s ⟨sec, rfl⟩ hd
    exact step_ok (by simp) (by simp) (by simp) hd rfl
  | sift =>
    obtain ⟨xs, hxs⟩ := h
    refine ⟨_, folds_of (acc := fun xs => some (.array xs)) ?_ hxs [], fun ys hys => ?_⟩
    · rintro i x d v vs s rfl hd
      rfl
    · rw [hxs.unique (fun _ _ _ _ _ h1 h2 => by rw [IsVal] at h1 h2; rw [h1, h2]) hys]; rfl

/-! ## Properties -/

variable [VecMath]

/-- A counting loop, started in state `st`, has evaluated its bounds, `b` being the upper
one, has run the rounds `es`, all with values of the right kind, and is about to look at
index `i` in state `s'`.  `n` bounds the number of rounds. -/
structure LoopRan (c : ECfg) (n : Nat) (k : ForKind) (name : String) (start : Option Expr)
    (stop : Expr) (body : List Expr) (label : Option String) (st : St) (es : List (Val × Mark))
    (b i : F64) (s' : St) : Prop where
  run : ∃ a s, Bounds c n start stop st a b s ∧
    Visits (eval c (n + 1) (.block body) .right) label s.stack.length (s.locals.length + 1) b a es
      (enterLoop name a s) i s'
  typed : Typed k es
  fuel : es.length < n

/-- What the loop does after the rounds, from the round it looks at next. -/
theorem LoopRan.ok {c n k name start stop body label st es b i s' side}
    (h : LoopRan c n k name start stop body label st es b i s') {t f flag x}
    (hend : ∀ h lc a, AtIndex h lc i s' → countRound (h + 1) lc b
      (fun s ind => bodyRound (eval c n) body label (k.step (.ofF64 ind)) s) a s' =
        .ok (.inr (flag, (a, (x, f)))) t) :
    ∃ v, LoopValue k es v ∧ eval c (n + 1) (.forN k name start stop body label) side st =
      .ok (accResult (v, (x, f))) (if flag then leaveLoop st t else t) := by
  obtain ⟨a, s, hb, hv⟩ := h.run
  obtain ⟨v, hf, hL⟩ := folds_typed h.typed
  refine ⟨v, hL, ?_⟩
  have := forN_run hb hv hf h.fuel (hend _ _ v)
  rw [← this]
  cases k <;> first | rfl | exact h.typed.elim

/-- The same with an error. -/
theorem LoopRan.err {c n k name start stop body label st es b i s' side}
    (h : LoopRan c n k name start stop body label st es b i s') {t e}
    (hend : ∀ h lc a, AtIndex h lc i s' → countRound (h + 1) lc b
      (fun s ind => bodyRound (eval c n) body label (k.step (.ofF64 ind)) s) a s' = .err e t) :
    eval c (n + 1) (.forN k name start stop body label) side st = .err e t := by
  obtain ⟨a, s, hb, hv⟩ := h.run
  obtain ⟨v, hf, hL⟩ := folds_typed h.typed
  have := forN_err hb hv hf h.fuel (hend _ _ v)
  rw [← this]
  cases k <;> first | rfl | exact h.typed.elim

/-- **C18.** When the next index is not below the upper bound, the loop gives the fold of
the values of its rounds, and the stacks are cut back. -/
theorem C18_end {c n k name start stop body label st es b i s'} (side : Side)
    (h : LoopRan c n k name start stop body label st es b i s') (hi : F64.lt i b = false) :
    ∃ v, LoopValue k es v ∧ eval c (n + 1) (.forN k name start stop body label) side st =
      .ok (v, .cont) (leaveLoop st s') :=
  h.ok (flag := true) (x := none) (f := .cont) fun _ _ _ hst => countRound_end hst hi

/-- **C18.** `break` meant for this loop ends it with the fold of the rounds before. -/
theorem C18_break {c n k name start stop body label st es b i s' x l t} (side : Side)
    (h : LoopRan c n k name start stop body label st es b i s') (hi : F64.lt i b = true)
    (hb : eval c (n + 1) (.block body) .right s' = .ok (x, .brk l) t) (hl : Targets label l) :
    ∃ v, LoopValue k es v ∧ eval c (n + 1) (.forN k name start stop body label) side st =
      .ok (v, .cont) (leaveLoop st t) := by
  refine h.ok (flag := true) (x := none) (f := .cont) fun _ _ _ hst => ?_
  refine countRound_stop hst hi ?_
  rw [bodyRound, EM.bind_ok (show block _ _ _ = _ from hb)]
  obtain rfl | rfl := hl
  · rfl
  · cases l <;> simp [onBreak] <;> rfl

/-- **C20.** `break` with the label of another loop ends this loop and goes on outward. -/
theorem C20_break_passes {c n k name start stop body label st es b i s' x l t} (side : Side)
    (h : LoopRan c n k name start stop body label st es b i s') (hi : F64.lt i b = true)
    (hb : eval c (n + 1) (.block body) .right s' = .ok (x, .brk l) t) (hl : ¬ Targets label l) :
    ∃ v, eval c (n + 1) (.forN k name start stop body label) side st =
      .ok (v, .brk l) (leaveLoop st t) := by
  obtain ⟨v, -, hv⟩ := h.ok (side := side) (flag := true) (x := none) (f := .brk l) (t := t)
    fun _ _ a hst => by
    refine countRound_stop hst hi ?_
    rw [bodyRound, EM.bind_ok (show block _ _ _ = _ from hb)]
    cases l with
    | none => exact absurd (Or.inl rfl) hl
    | some l =>
      have : label ≠ some l := fun hc => hl (Or.inr hc.symm)
      simp [onBreak, this]; rfl
  exact ⟨v, hv⟩

/-- **C20.** `continue` with the label of another loop ends this loop and goes on outward. -/
theorem C20_continue_passes {c n k name start stop body label st es b i s' x l t} (side : Side)
    (h : LoopRan c n k name start stop body label st es b i s') (hi : F64.lt i b = true)
    (hb : eval c (n + 1) (.block body) .right s' = .ok (x, .contLoop l) t)
    (hl : ¬ Targets label l) :
    ∃ v, eval c (n + 1) (.forN k name start stop body label) side st =
      .ok (v, .contLoop l) (leaveLoop st t) := by
  obtain ⟨v, -, hv⟩ := h.ok (side := side) (flag := true) (x := none) (f := .contLoop l) (t := t)
    fun _ _ a hst => by
    refine countRound_stop hst hi ?_
    rw [bodyRound, EM.bind_ok (show block _ _ _ = _ from hb)]
    cases l with
    | none => exact absurd (Or.inl rfl) hl
    | some l =>
      have : label ≠ some l := fun hc => hl (Or.inr hc.symm)
      simp [onContinue, this]; rfl
  exact ⟨v, hv⟩

/-- **C18.** `return` leaves the loop with the returned value. -/
theorem C18_return {c n k name start stop body label st es b i s' x t} (side : Side)
    (h : LoopRan c n k name start stop body label st es b i s') (hi : F64.lt i b = true)
    (hb : eval c (n + 1) (.block body) .right s' = .ok (x, .ret) t) :
    eval c (n + 1) (.forN k name start stop body label) side st = .ok (x, .ret) t := by
  obtain ⟨v, -, hv⟩ := h.ok (side := side) (flag := false) (x := x) (f := .ret) (t := t)
    fun _ _ a hst => by
    refine countRound_exit hst hi ?_
    rw [bodyRound, EM.bind_ok (show block _ _ _ = _ from hb)]
    rfl
  exact hv

/-- **C18.** An error in the body is the error of the loop. -/
theorem C18_body_fails {c n k name start stop body label st es b i s' e t} (side : Side)
    (h : LoopRan c n k name start stop body label st es b i s') (hi : F64.lt i b = true)
    (hb : eval c (n + 1) (.block body) .right s' = .err e t) :
    eval c (n + 1) (.forN k name start stop body label) side st = .err e t := by
  refine h.err fun _ _ a hst => countRound_err hst hi ?_
  rw [bodyRound, EM.bind_err (show block _ _ _ = _ from hb)]

/-- **C18.** Except in plain `for` loops, a body that gives no value is an error. -/
theorem C18_no_value {c n k name start stop body label st es b i s' t} (side : Side)
    (h : LoopRan c n k name start stop body label st es b i s') (hk : k ≠ .forN)
    (hi : F64.lt i b = true)
    (hb : eval c (n + 1) (.block body) .right s' = .ok (none, .cont) t) :
    ∃ e, eval c (n + 1) (.forN k name start stop body label) side st = .err e t := by
  refine ⟨_, h.err fun _ _ a hst => countRound_err hst hi (m := k.noValue) ?_⟩
  rw [bodyRound, EM.bind_ok (show block _ _ _ = _ from hb)]
  simp only
  rw [EM.bind_err (e := k.noValue) (s := t)]
  cases k <;> first | rfl | exact absurd rfl hk

/-- **C19.** `any` ends at the first index with `true`; the witness is this index after
the witness of the body. -/
theorem C19_any_true {c n name start stop body label st es b i s' x sec t} (side : Side)
    (h : LoopRan c n .any name start stop body label st es b i s') (hi : F64.lt i b = true)
    (hb : eval c (n + 1) (.block body) .right s' = .ok (some x, .cont) t)
    (hx : Spec.deref t.stack x = some (.bool true sec)) :
    eval c (n + 1) (.forN .any name start stop body label) side st =
      .ok (some (.bool true (withIndex sec (.ofF64 i))), .cont) (leaveLoop st t) := by
  obtain ⟨a, s, hbd, hv⟩ := h.run
  obtain ⟨v, hf, hL⟩ := folds_typed h.typed
  refine forN_run (flag := true) (r := (some (.bool true (withIndex sec (.ofF64 i))), (none, .cont)))
    hbd hv hf h.fuel fun hst => countRound_stop hst hi ?_
  exact bodyRound_value (b := true) hb (step_ok (by simp) (by simp) (by simp) hx
    (by simp only [accAny, addSecret_eq, if_true]; rfl))

/-- **C19.** `all` ends at the first index with `false`; the witness is this index after
the witness of the body. -/
theorem C19_all_false {c n name start stop body label st es b i s' x sec t} (side : Side)
    (h : LoopRan c n .all name start stop body label st es b i s') (hi : F64.lt i b = true)
    (hb : eval c (n + 1) (.block body) .right s' = .ok (some x, .cont) t)
    (hx : Spec.deref t.stack x = some (.bool false sec)) :
    eval c (n + 1) (.forN .all name start stop body label) side st =
      .ok (some (.bool false (withIndex sec (.ofF64 i))), .cont) (leaveLoop st t) := by
  obtain ⟨a, s, hbd, hv⟩ := h.run
  obtain ⟨v, hf, hL⟩ := folds_typed h.typed
  refine forN_run (flag := true) (r := (some (.bool false (withIndex sec (.ofF64 i))), (none, .cont)))
    hbd hv hf h.fuel fun hst => countRound_stop hst hi ?_
  exact bodyRound_value (b := true) hb (step_ok (by simp) (by simp) (by simp) hx
    (by simp only [accAll, addSecret_eq, Bool.false_eq_true, if_false]; rfl))

omit [VecMath] in
/-- The rounds of a loop from `p` to `q` are at `p`, `p + 1`, ... -/
theorem visits_nat {run label h lc q es st i st'} (hq : q < 2 ^ 53) {p : Nat} (hp : p ≤ q)
    (hv : Visits run label h lc (F64.ofNat q) (F64.ofNat p) es st i st') :
    es.map Prod.fst = ((List.range' p es.length).map fun j => .ofF64 (F64.ofNat j)) ∧ i = F64.ofNat (p + es.length) ∧
      p + es.length ≤ q := by
  induction es generalizing p st with
  | nil => cases hv; exact ⟨rfl, rfl, hp⟩
  | cons e es ih =>
    cases hv with
    | cons hlt _ _ _ hv =>
      have hpq := (F64.ofNat_lt_iff (by omega) hq).1 hlt
      rw [F64.add_one_ofNat (by omega)] at hv
      obtain ⟨h1, h2, h3⟩ := ih (by omega) hv
      refine ⟨?_, ?_, ?_⟩
      · simp [h1, List.range'_succ]
      · rw [h2, List.length_cons]; congr 1; omega
      · rw [List.length_cons]; omega

omit [VecMath] in
/-- **C18.** A loop from `p` to `q` whose range is exhausted has visited `p`, `p + 1`, ...,
`q - 1`, each once and in this order (natural numbers below 2^53). -/
theorem C18_indices {run label h lc es st i st'} {p q : Nat} (hp : p ≤ q) (hq : q < 2 ^ 53)
    (hv : Visits run label h lc (F64.ofNat q) (F64.ofNat p) es st i st')
    (hi : F64.lt i (F64.ofNat q) = false) :
    es.map Prod.fst = (List.range' p (q - p)).map fun j => .ofF64 (F64.ofNat j) := by
  obtain ⟨h1, h2, h3⟩ := visits_nat hq hp hv
  have h4 : ¬ p + es.length < q := fun hc => by
    rw [h2, (F64.ofNat_lt_iff (by omega) hq).2 hc] at hi; cases hi
  rw [h1, show q - p = es.length by omega]

omit [VecMath] in
/-- **C18.** A loop with `p ≥ q` has no round. -/
theorem C18_empty {run label h lc es st i st'} {p q : Nat} (hp : q ≤ p) (hp' : p < 2 ^ 53)
    (hv : Visits run label h lc (F64.ofNat q) (F64.ofNat p) es st i st') : es = [] := by
  cases hv with
  | nil => rfl
  | cons hlt => exact absurd ((F64.ofNat_lt_iff hp' (by omega)).1 hlt) (by omega)

/-! ## Examples -/

/-- A state inside a function. -/
def Demo.inside : St := { Demo.empty with calls := [⟨"main", 0, none, 0, 0, 0⟩], stack := [.str "x"] }

/-- `sum i 1 { i }` has one round, with value 0, and ends after it. -/
example : LoopRan (Demo.cfg []) 9 .sum "i" none (Demo.num 1) [Demo.var "i" 1] none Demo.inside
    [(.ofF64 F64.zero, .value (.ref 1) (.ofF64 F64.zero))] (F64.ofNat 1) (F64.ofNat 1)
    (setCounter 1 (F64.ofNat 1) (enterLoop "i" F64.zero Demo.inside)) ∧
    F64.lt (F64.ofNat 1) (F64.ofNat 1) = false := by
  refine ⟨⟨⟨F64.zero, Demo.inside, ⟨⟨_, ⟨rfl, rfl⟩, _, none, rfl, rfl⟩⟩, ?_⟩, ⟨[F64.zero], ?_⟩,
    by decide⟩, by decide⟩
  · refine .cons (by decide) (r := (some (.ref 1), .cont)) (s := enterLoop "i" F64.zero Demo.inside)
      rfl (.value _ _ rfl) (AtIndex.enter _ _ _) ?_
    have : FloatOps.add F64.zero F64.one = F64.ofNat 1 := by
      rw [show F64.zero = F64.ofNat 0 from by decide, F64.add_one_ofNat (by decide)]
    rw [this]
    exact .nil _ _
  · exact .value ⟨none, rfl⟩ .nil

/-- `any i 1 { i < 1 }` is about to find `true` at index 0, `'a: for i 1 { break 'b }` is
about to leave with `break 'b`. -/
example : (∃ x sec t, LoopRan (Demo.cfg []) 9 .any "i" none (Demo.num 1)
      [.call (.binop 0) "less" [Demo.var "i" 1, Demo.num 1]] none Demo.inside [] (F64.ofNat 1) F64.zero
      (enterLoop "i" F64.zero Demo.inside) ∧ F64.lt F64.zero (F64.ofNat 1) = true ∧
      eval (Demo.cfg []) 10 (.block [.call (.binop 0) "less" [Demo.var "i" 1, Demo.num 1]]) .right
        (enterLoop "i" F64.zero Demo.inside) = .ok (some x, .cont) t ∧
      Spec.deref t.stack x = some (.bool true sec)) ∧
    (∃ x t, LoopRan (Demo.cfg []) 9 .forN "i" none (Demo.num 1) [.brk (some "b")] (some "a")
      Demo.inside [] (F64.ofNat 1) F64.zero (enterLoop "i" F64.zero Demo.inside) ∧
      eval (Demo.cfg []) 10 (.block [.brk (some "b")]) .right (enterLoop "i" F64.zero Demo.inside) =
        .ok (x, .brk (some "b")) t ∧ ¬ Targets (some "a") (some "b")) := by
  refine ⟨⟨.bool true none, none, _, ⟨⟨F64.zero, Demo.inside, ⟨⟨_, ⟨rfl, rfl⟩, _, none, rfl, rfl⟩⟩,
    .nil _ _⟩, ⟨[], .nil⟩, by decide⟩, by decide, rfl, rfl⟩,
    ⟨_, _, ⟨⟨F64.zero, Demo.inside, ⟨⟨_, ⟨rfl, rfl⟩, _, none, rfl, rfl⟩⟩,
    .nil _ _⟩, trivial, by decide⟩, rfl, by simp [Targets]⟩⟩

end
end Dyon
