import Verif.Eval.LocalAll
import Verif.Eval.StdLib

/-!
# The modelled library functions reach only what their arguments reach

For C77: the functions of `Verif.Builtin.Stack` and the operators of `Verif.Builtin.Ops` meet the
contract `ExtLocal` the theorem about the evaluator asks for.
-/

namespace Dyon.Loc

variable {P : Nat → Prop} {rd : Prop}

/-- The slots in `P` refer to slots in `P`. -/
def Slots (P : Nat → Prop) (st : Stack) : Prop := ∀ i v, st[i]? = some v → P i → Within P v

/-- The slots outside `P` are as before. -/
def KeptS (P : Nat → Prop) (a b : Stack) : Prop := ∀ i, ¬ P i → b[i]? = a[i]?

/-- Another stack at the end. -/
def _root_.Dyon.Out.onSt {α} (f : Stack → Stack) : Out α → Out α
  | .ok a s => .ok a (f s)
  | .err m s => .err m (f s)
  | .panic => .panic
  | .running => .running

/-- Takes `n` values, which are in `P` like all above the slots outside; leaves the slots outside
as they are and gives a value with `Q`; if `rd`, does the same with other values outside. -/
def SLoc (rd : Prop) (P : Nat → Prop) {α} (n : Nat) (Q : α → Prop) (m : SM α) : Prop :=
  ∀ st : Stack, n ≤ st.length → Slots P st → (∀ i, ¬ P i → i + n < st.length) → (match m st with
    | .ok a st' => st'.length + n = st.length ∧ Slots P st' ∧ KeptS P st st' ∧ Q a
    | .err _ st' => Slots P st' ∧ KeptS P st st'
    | _ => True) ∧ (rd → ∀ g : Nat → Val, m (over P g st) = (m st).onSt (over P g))

theorem KeptS.refl (a : Stack) : KeptS P a a := fun _ _ => rfl
theorem KeptS.trans {a b d : Stack} (h1 : KeptS P a b) (h2 : KeptS P b d) : KeptS P a d :=
  fun i hi => (h2 i hi).trans (h1 i hi)

theorem SLoc.bind {α β} {a b : Nat} {Q : α → Prop} {R : β → Prop} {m : SM α} {f : α → SM β}
    (hm : SLoc rd P a Q m) (hf : ∀ x, Q x → SLoc rd P b R (f x)) : SLoc rd P (b + a) R (m >>= f) := by
  intro st hn hs hf'
  obtain ⟨h1, o1⟩ := hm st (by omega) hs (fun i hi => by have := hf' i hi; omega)
  simp only [SM.bind_apply]
  cases hms : m st with
  | ok x st' =>
    rw [hms] at h1
    obtain ⟨l1, s1, k1, q1⟩ := h1
    obtain ⟨h2, o2⟩ := hf x q1 st' (by omega) s1 (fun i hi => by have := hf' i hi; omega)
    refine ⟨?_, fun h g => ?_⟩
    · simp only
      cases hfs : f x st' with
      | ok y st'' =>
        rw [hfs] at h2
        exact ⟨by have := h2.1; omega, h2.2.1, k1.trans h2.2.2.1, h2.2.2.2⟩
      | err y st'' => rw [hfs] at h2; exact ⟨h2.1, k1.trans h2.2⟩
      | panic => trivial
      | running => trivial
    · rw [o1 h g, hms]
      exact o2 h g
  | err e st' => rw [hms] at h1; exact ⟨h1, fun h g => by rw [o1 h g, hms]; rfl⟩
  | panic => exact ⟨trivial, fun h g => by rw [o1 h g, hms]; rfl⟩
  | running => exact ⟨trivial, fun h g => by rw [o1 h g, hms]; rfl⟩

theorem SLoc.bind0 {α β} {n : Nat} {Q : α → Prop} {R : β → Prop} {m : SM α} {f : α → SM β}
    (hm : SLoc rd P 0 Q m) (hf : ∀ x, Q x → SLoc rd P n R (f x)) : SLoc rd P n R (m >>= f) := SLoc.bind hm hf
theorem SLoc.bind1 {α β} {n : Nat} {Q : α → Prop} {R : β → Prop} {m : SM α} {f : α → SM β}
    (hm : SLoc rd P 1 Q m) (hf : ∀ x, Q x → SLoc rd P n R (f x)) : SLoc rd P (n + 1) R (m >>= f) :=
  SLoc.bind hm hf

theorem SLoc.map {α β} {n : Nat} {Q : α → Prop} {R : β → Prop} {m : SM α} (f : α → β)
    (hm : SLoc rd P n Q m) (hf : ∀ a, Q a → R (f a)) : SLoc rd P n R (f <$> m) := by
  intro st hn hs hfr
  obtain ⟨h, o⟩ := hm st hn hs hfr
  have e : ∀ st, (f <$> m) st = match m st with
    | .ok a st' => .ok (f a) st' | .err e st' => .err e st' | .panic => .panic
    | .running => .running := fun _ => rfl
  simp only [e]
  refine ⟨?_, fun hrd g => ?_⟩
  · cases hms : m st <;> rw [hms] at h
    · exact ⟨h.1, h.2.1, h.2.2.1, hf _ h.2.2.2⟩
    all_goals exact h
  · rw [o hrd g]
    cases m st <;> rfl

theorem sloc_pure {α} {Q : α → Prop} {a : α} (h : Q a) : SLoc rd P 0 Q (pure a : SM α) :=
  fun st _ hs _ => ⟨⟨rfl, hs, .refl st, h⟩, fun _ _ => rfl⟩
theorem sloc_fail {α} {n} {Q : α → Prop} (m : String) : SLoc rd P n Q (SM.fail m : SM α) :=
  fun st _ hs _ => ⟨⟨hs, .refl st⟩, fun _ _ => rfl⟩
theorem sloc_panic {α} {n} {Q : α → Prop} : SLoc rd P n Q (SM.panic : SM α) :=
  fun _ _ _ _ => ⟨trivial, fun _ _ => rfl⟩

theorem sloc_popV : SLoc rd P 1 (Within P) popV := by
  intro st hn hs hf
  have hP : P (st.length - 1) := by
    by_cases hp : P (st.length - 1)
    · exact hp
    · have := hf _ hp; omega
  refine ⟨?_, fun _ g => ?_⟩
  · simp only [popV]
    cases h : st.getLast? with
    | none => trivial
    | some v =>
      rw [List.getLast?_eq_getElem?] at h
      have hd : ∀ i, i + 1 < st.length → st.dropLast[i]? = st[i]? := by
        intro i hi; rw [List.dropLast_eq_take, List.getElem?_take_of_lt (by omega)]
      refine ⟨by simp; omega, fun i u hu hp => hs i u ?_ hp, fun i hi => hd i (hf i hi), hs _ _ h hP⟩
      by_cases hi : i + 1 < st.length
      · rw [← hd i hi]; exact hu
      · have := (List.getElem?_eq_some_iff.1 hu).1; simp at this; omega
  · simp only [popV, List.getLast?_eq_getElem?, over_length, over_in hP, ← over_dropLast]
    cases st[st.length - 1]? <;> rfl

theorem sloc_getV {v : Val} (hv : Within P v) : SLoc rd P 0 (Within P) (getV v) := by
  intro st hn hs hf
  cases v <;> simp only [getV] <;> try exact ⟨⟨rfl, hs, .refl st, hv⟩, fun _ _ => rfl⟩
  next i =>
  have hi := within_ref.1 hv
  refine ⟨?_, fun _ g => ?_⟩
  · cases h : st[i]? with
    | none => trivial
    | some u => exact ⟨rfl, hs, .refl st, hs i u h hi⟩
  · rw [over_in hi]
    cases st[i]? <;> rfl

theorem sloc_cloneV {c : Cfg} {v : Val} (hv : Within P v) : SLoc rd P 0 (Within P) (cloneV c v) := by
  intro st hn hs hf
  simp only [cloneV]
  refine ⟨?_, fun _ g => ?_⟩
  · cases h : deepClone st c.fuel v with
    | ok w => exact ⟨rfl, hs, .refl st, within_clone hs hv h⟩
    | panic => trivial
    | running => trivial
  · rw [clone_over hs hv]
    cases deepClone st c.fuel v <;> rfl

theorem slots_set {st : Stack} {i : Nat} {v : Val} (hs : Slots P st) (hv : Within P v) :
    Slots P (st.set i v) := by
  intro j u hu hp
  rw [List.getElem?_set] at hu
  split at hu
  · split at hu
    · cases hu; exact hv
    · cases hu
  · exact hs j u hu hp

theorem keptS_set {st : Stack} {i : Nat} {v : Val} (hi : P i) : KeptS P st (st.set i v) := by
  intro j hj
  rw [List.getElem?_set]
  split
  · next e => subst e; exact absurd hi hj
  · rfl

theorem sloc_withArray {α} {Q : α → Prop} {v : Val} (hv : Within P v)
    {f : List Val → Except String (List Val × α)}
    (hf : ∀ xs ys a, (∀ x ∈ xs, Within P x) → f xs = .ok (ys, a) → (∀ y ∈ ys, Within P y) ∧ Q a) :
    SLoc rd P 0 Q (Lib.withArray v f) := by
  intro st hn hs hfr
  cases v <;> simp only [Lib.withArray] <;> try exact ⟨⟨hs, .refl st⟩, fun _ _ => rfl⟩
  next i =>
  have hi := within_ref.1 hv
  refine ⟨?_, fun _ g => ?_⟩
  · cases h : st[i]? with
    | none => trivial
    | some u =>
      cases u <;> try exact ⟨hs, .refl st⟩
      next xs =>
      simp only
      cases hfx : f xs with
      | error e => exact ⟨hs, .refl st⟩
      | ok p =>
        obtain ⟨ys, a⟩ := p
        have := hf xs ys a (within_array.1 (hs i _ h hi)) hfx
        exact ⟨by simp, slots_set hs (within_array.2 this.1), keptS_set hi, this.2⟩
  · rw [over_in hi]
    cases h : st[i]? with
    | none => rfl
    | some u =>
      cases u <;> try rfl
      next xs =>
      simp only
      cases hfx : f xs with
      | error e => rfl
      | ok p => simp only [Out.onSt, over_set hi]

theorem sloc_swapIn {v : Val} (hv : Within P v) (i j : F64) :
    SLoc rd P 0 (fun _ => True) (Lib.swapIn v i j) := by
  intro st hn hs hfr
  cases v <;> simp only [Lib.swapIn] <;> try exact ⟨⟨hs, .refl st⟩, fun _ _ => rfl⟩
  next k =>
  have hk := within_ref.1 hv
  refine ⟨?_, fun _ g => ?_⟩
  · cases h : st[k]? with
    | none => trivial
    | some u =>
      cases u <;> try exact ⟨hs, .refl st⟩
      next xs =>
      have hxs := within_array.1 (hs k _ h hk)
      simp only
      cases h1 : xs[i.toUsize]? <;> cases h2 : xs[j.toUsize]? <;> try trivial
      refine ⟨by simp, slots_set hs (within_array.2 fun x hx => ?_), keptS_set hk, trivial⟩
      rcases List.mem_or_eq_of_mem_set hx with hx | rfl
      · rcases List.mem_or_eq_of_mem_set hx with hx | rfl
        · exact hxs x hx
        · exact hxs _ (List.mem_of_getElem? h2)
      · exact hxs _ (List.mem_of_getElem? h1)
  · rw [over_in hk]
    cases h : st[k]? with
    | none => rfl
    | some u =>
      cases u <;> try rfl
      next xs =>
      simp only
      cases h1 : xs[i.toUsize]? <;> cases h2 : xs[j.toUsize]? <;> try rfl
      simp only [Out.onSt, over_set hk]

theorem sloc_number {c : Cfg} {v : Val} (hv : Within P v) :
    SLoc rd P 0 (fun _ => True) (Lib.number c v) := by
  refine .bind0 (sloc_getV hv) fun w _ => ?_
  cases w <;> first | exact sloc_pure trivial | exact sloc_fail _
theorem sloc_popVec4 (c : Cfg) : SLoc rd P 1 (fun _ => True) (Lib.popVec4 c) := by
  refine .bind1 sloc_popV fun v hv => .bind0 (sloc_getV hv) fun w _ => ?_
  cases w <;> first | exact sloc_pure trivial | exact sloc_fail _
theorem sloc_popMat4 (c : Cfg) : SLoc rd P 1 (fun _ => True) (Lib.popMat4 c) := by
  refine .bind1 sloc_popV fun v hv => .bind0 (sloc_getV hv) fun w _ => ?_
  cases w <;> first | exact sloc_pure trivial | exact sloc_fail _
theorem sloc_popLink (c : Cfg) : SLoc rd P 1 (fun _ => True) (Lib.popLink c) := by
  refine .bind1 sloc_popV fun v hv => .bind0 (sloc_getV hv) fun w _ => ?_
  cases w <;> first | exact sloc_pure trivial | exact sloc_fail _
theorem sloc_popF64! : SLoc rd P 1 (fun _ => True) (Lib.popF64!) := by
  refine .bind1 sloc_popV fun v hv => .bind0 (sloc_getV hv) fun w _ => ?_
  cases w <;> first | exact sloc_pure trivial | exact sloc_panic
theorem sloc_popVec4! : SLoc rd P 1 (fun _ => True) (Lib.popVec4!) := by
  refine .bind1 sloc_popV fun v hv => .bind0 (sloc_getV hv) fun w _ => ?_
  cases w <;> first | exact sloc_pure trivial | exact sloc_panic
theorem sloc_popMat4! : SLoc rd P 1 (fun _ => True) (Lib.popMat4!) := by
  refine .bind1 sloc_popV fun v hv => .bind0 (sloc_getV hv) fun w _ => ?_
  cases w <;> first | exact sloc_pure trivial | exact sloc_panic
theorem getV_over {g : Nat → Val} {st : Stack} {v : Val} (hv : Within P v) :
    getV v (over P g st) = (getV v st).onSt (over P g) := by
  cases v <;> simp only [getV] <;> try rfl
  next i =>
  rw [over_in (within_ref.1 hv)]
  cases st[i]? <;> rfl
theorem minLoop_over {g : Nat → Val} {st : Stack} {xs : List Val} (hx : ∀ x ∈ xs, Within P x) (acc : F64) :
    Lib.minLoop (over P g st) acc xs = Lib.minLoop st acc xs := by
  induction xs generalizing acc with
  | nil => rfl
  | cons x xs ih =>
    have ih := fun acc => ih (fun y hy => hx y (.tail _ hy)) acc
    simp only [Lib.minLoop, getV_over (hx x (.head _))]
    cases getV x st with
    | ok v s => cases v <;> simp only [Out.onSt] <;> exact ih _
    | _ => rfl
theorem maxLoop_over {g : Nat → Val} {st : Stack} {xs : List Val} (hx : ∀ x ∈ xs, Within P x) (acc : F64) :
    Lib.maxLoop (over P g st) acc xs = Lib.maxLoop st acc xs := by
  induction xs generalizing acc with
  | nil => rfl
  | cons x xs ih =>
    have ih := fun acc => ih (fun y hy => hx y (.tail _ hy)) acc
    simp only [Lib.maxLoop, getV_over (hx x (.head _))]
    cases getV x st with
    | ok v s => cases v <;> simp only [Out.onSt] <;> exact ih _
    | _ => rfl
theorem sloc_minOf {xs : List Val} (hx : ∀ x ∈ xs, Within P x) : SLoc rd P 0 (Within P) (Lib.minOf xs) := by
  intro st hn hs hf
  simp only [Lib.minOf, minLoop_over hx]
  cases Lib.minLoop st F64.nan xs
  · exact ⟨trivial, fun _ _ => rfl⟩
  · exact ⟨⟨rfl, hs, .refl st, within_ofF64⟩, fun _ _ => rfl⟩
theorem sloc_maxOf {xs : List Val} (hx : ∀ x ∈ xs, Within P x) : SLoc rd P 0 (Within P) (Lib.maxOf xs) := by
  intro st hn hs hf
  simp only [Lib.maxOf, maxLoop_over hx]
  cases Lib.maxLoop st F64.nan xs
  · exact ⟨trivial, fun _ _ => rfl⟩
  · exact ⟨⟨rfl, hs, .refl st, within_ofF64⟩, fun _ _ => rfl⟩

/-- The text of a value does not depend on slots the value does not lead to. -/
def WriteBlind (P : Nat → Prop) (write : Stack → Val → String) : Prop :=
  ∀ (g : Nat → Val) (st : Stack) (v : Val), Slots P st → Within P v →
    write (over P g st) v = write st v

theorem sloc_unwrapFail {c : Cfg} (hW : rd → WriteBlind P c.write) {m : Val} (hm : Within P m)
    (t : List String) : SLoc rd P 0 (Within P) (Lib.unwrapFail c m t) :=
  fun st _ hs _ => ⟨⟨hs, .refl st⟩, fun h g => by
    simp only [Lib.unwrapFail, Lib.unwrapMsg, hW h g st m hs hm, Out.onSt]⟩

theorem within_scalar (s : Link.Scalar) : Within P (Lib.scalarVal s) := by
  cases s
  · exact within_ofBool
  · exact within_ofF64
  · exact within_str
theorem within_optScalar (o : Option Link.Scalar) : Within P (.option (o.map Lib.scalarVal)) := by
  cases o
  · exact within_none
  · exact within_some.2 (within_scalar _)
theorem within_secret_snoc {s : Option (List Val)} {y : Val} (h : ∀ l ∈ s, ∀ x ∈ l, Within P x)
    (hy : Within P y) : ∀ l ∈ some (s.getD [] ++ [y]), ∀ x ∈ l, Within P x := by
  intro l hl x hx
  cases hl
  rcases List.mem_append.1 hx with hx | hx
  · cases s with
    | none => simp at hx
    | some s => exact h s rfl x hx
  · simp only [List.mem_singleton] at hx; subst hx; exact hy

theorem libFn_sloc [FloatOps] (c : Cfg) (hW : rd → WriteBlind P c.write) (f : LibFn) :
    SLoc rd P f.arity (fun r => ∀ v ∈ r, Within P v) (f.run c) := by
  have some_of : ∀ {n} {m : SM Val}, SLoc rd P n (Within P) m → SLoc rd P n (fun r => ∀ v ∈ r, Within P v) (some <$> m) :=
    fun hm => hm.map _ fun a ha v hv => by cases hv; exact ha
  have none_of : ∀ {n} {m : SM Unit}, SLoc rd P n (fun _ => True) m →
      SLoc rd P n (fun r => ∀ v ∈ r, Within P v) ((fun _ => none) <$> m) :=
    fun hm => hm.map _ fun a _ v hv => by cases hv
  have arg : ∀ {β n} {R : β → Prop} {f : Val → SM β}, (∀ w, Within P w → SLoc rd P n R (f w)) →
      SLoc rd P (n + 1) R (popV >>= fun v => getV v >>= f) := fun h =>
    .bind1 sloc_popV fun v hv => .bind0 (sloc_getV hv) h
  have append : ∀ (xs : List Val) (item : Val) , Within P item → (∀ x ∈ xs, Within P x) →
      ∀ y ∈ xs ++ [item], Within P y := by
    intro xs item hi hx y hy
    rcases List.mem_append.1 hy with h | h
    · exact hx y h
    · simp only [List.mem_singleton] at h; subst h; exact hi
  have insertAt : ∀ (index : F64) (item : Val), Within P item → ∀ xs ys a, (∀ x ∈ xs, Within P x) →
      Lib.insertAt index item xs = .ok (ys, a) → (∀ y ∈ ys, Within P y) ∧ True := by
    intro index item hi xs ys a hx h
    simp only [Lib.insertAt] at h
    split at h
    · cases h
    · cases h
      refine ⟨fun y hy => ?_, trivial⟩
      rcases List.mem_append.1 hy with h | h
      · exact hx y (List.mem_of_mem_take h)
      · rcases List.mem_cons.1 h with rfl | h
        · exact hi
        · exact hx y (List.mem_of_mem_drop h)
  cases f with
  | clone => exact some_of (arg fun w hw => sloc_cloneV hw)
  | why =>
    refine some_of (arg fun w hw => ?_)
    split
    · exact sloc_pure (within_array.2 fun x hx => within_bool.1 hw x (List.mem_reverse.1 hx))
    all_goals exact sloc_fail _
  | where' =>
    refine some_of (arg fun w hw => ?_)
    split
    · split
      · exact sloc_fail _
      · exact sloc_pure (within_array.2 fun x hx => within_f64.1 hw x (List.mem_reverse.1 hx))
    all_goals exact sloc_fail _
  | explainWhy =>
    refine some_of (.bind1 sloc_popV fun y hy => arg fun w hw => ?_)
    split
    · exact .bind0 (sloc_cloneV hy) fun z hz =>
        sloc_pure (within_bool_iff.2 (within_secret_snoc (within_bool_iff.1 hw) hz))
    · exact sloc_fail _
  | explainWhere =>
    refine some_of (.bind1 sloc_popV fun y hy => arg fun w hw => ?_)
    split
    · exact .bind0 (sloc_cloneV hy) fun z hz =>
        sloc_pure (within_f64_iff.2 (within_secret_snoc (within_f64_iff.1 hw) hz))
    · exact sloc_fail _
  | pushRef =>
    refine none_of (.bind1 sloc_popV fun item hi => .bind1 sloc_popV fun v hv => ?_)
    exact sloc_withArray hv fun xs ys a hx h => by cases h; exact ⟨append _ _ hi hx, trivial⟩
  | insertRef =>
    refine none_of (.bind1 sloc_popV fun item hi => .bind1 sloc_popV fun ix hx =>
      .bind0 (sloc_number hx) fun ix _ => .bind1 sloc_popV fun v hv => ?_)
    exact sloc_withArray hv (insertAt _ _ hi)
  | push =>
    refine none_of (arg fun item hi => .bind0 (sloc_cloneV hi) fun item hi =>
      .bind1 sloc_popV fun v hv => ?_)
    exact sloc_withArray hv fun xs ys a hx h => by cases h; exact ⟨append _ _ hi hx, trivial⟩
  | insert =>
    refine none_of (arg fun item hi => .bind0 (sloc_cloneV hi) fun item hi =>
      .bind1 sloc_popV fun ix hx => .bind0 (sloc_number hx) fun ix _ =>
      .bind1 sloc_popV fun v hv => ?_)
    exact sloc_withArray hv (insertAt _ _ hi)
  | pop =>
    refine some_of (.bind1 sloc_popV fun v hv => sloc_withArray hv fun xs ys a hx h => ?_)
    split at h
    · next u hu =>
      cases h
      exact ⟨fun y hy => hx y (List.dropLast_subset xs hy), hx _ (List.mem_of_getLast? hu)⟩
    · cases h
  | remove =>
    refine some_of (.bind1 sloc_popV fun ix hx => .bind0 (sloc_number hx) fun ix _ =>
      .bind1 sloc_popV fun v hv => sloc_withArray hv fun xs ys a hx h => ?_)
    simp only at h
    split at h
    · next u hu =>
      cases h
      refine ⟨fun y hy => ?_, hx _ (List.mem_of_getElem? hu)⟩
      rcases List.mem_append.1 hy with h | h
      · exact hx y (List.mem_of_mem_take h)
      · exact hx y (List.mem_of_mem_drop h)
    · cases h
  | reverse =>
    refine none_of (.bind1 sloc_popV fun v hv => sloc_withArray hv fun xs ys a hx h => ?_)
    cases h
    exact ⟨fun y hy => hx y (List.mem_reverse.1 hy), trivial⟩
  | clear =>
    refine none_of (.bind1 sloc_popV fun v hv => sloc_withArray hv fun xs ys a hx h => ?_)
    cases h
    exact ⟨by simp, trivial⟩
  | swap =>
    exact none_of (.bind1 sloc_popV fun j hj => .bind1 sloc_popV fun i hi =>
      .bind0 (sloc_number hj) fun _ _ => .bind0 (sloc_number hi) fun _ _ =>
      .bind1 sloc_popV fun v hv => sloc_swapIn hv _ _)
  | some' => exact some_of (arg fun w hw => .bind0 (sloc_cloneV hw) fun y hy =>
      sloc_pure (within_some.2 hy))
  | ok' => exact some_of (arg fun w hw => .bind0 (sloc_cloneV hw) fun y hy =>
      sloc_pure (within_ok.2 hy))
  | err' => exact some_of (arg fun w hw => .bind0 (sloc_cloneV hw) fun y hy =>
      sloc_pure (within_err.2 hy))
  | none' => exact some_of (sloc_pure within_none)
  | isErr =>
    refine some_of (arg fun w hw => ?_)
    split <;> first | exact sloc_pure within_ofBool | exact sloc_fail _
  | isOk =>
    refine some_of (arg fun w hw => ?_)
    split <;> first | exact sloc_pure within_ofBool | exact sloc_fail _
  | min =>
    refine some_of (arg fun w hw => ?_)
    split <;> first | exact sloc_minOf (within_array.1 hw) | exact sloc_fail _
  | max =>
    refine some_of (arg fun w hw => ?_)
    split <;> first | exact sloc_maxOf (within_array.1 hw) | exact sloc_fail _
  | unwrap =>
    refine some_of (arg fun w hw => ?_)
    split
    · exact sloc_pure (within_some.1 hw)
    · exact sloc_fail _
    · exact sloc_pure (within_ok.1 hw)
    · exact sloc_unwrapFail hW (within_err.1 hw) _
    · exact sloc_fail _
  | unwrapOr =>
    refine some_of (.bind1 sloc_popV fun d hd => arg fun w hw => ?_)
    split
    · exact sloc_pure (within_some.1 hw)
    · exact sloc_pure (within_ok.1 hw)
    · exact sloc_getV hd
    · exact sloc_getV hd
    · exact sloc_fail _
  | unwrapErr =>
    refine some_of (arg fun w hw => ?_)
    split
    · exact sloc_pure (within_err.1 hw)
    · exact sloc_fail _
  | head => exact some_of (.bind1 (sloc_popLink c) fun l _ => sloc_pure (within_optScalar _))
  | tip => exact some_of (.bind1 (sloc_popLink c) fun l _ => sloc_pure (within_optScalar _))
  | tail => exact some_of (.bind1 (sloc_popLink c) fun l _ => sloc_pure within_link)
  | neck => exact some_of (.bind1 (sloc_popLink c) fun l _ => sloc_pure within_link)
  | isEmpty => exact some_of (.bind1 (sloc_popLink c) fun l _ => sloc_pure within_ofBool)
  | x => exact some_of (.bind1 (sloc_popVec4 c) fun l _ => sloc_pure within_ofF64)
  | y => exact some_of (.bind1 (sloc_popVec4 c) fun l _ => sloc_pure within_ofF64)
  | z => exact some_of (.bind1 (sloc_popVec4 c) fun l _ => sloc_pure within_ofF64)
  | w => exact some_of (.bind1 (sloc_popVec4 c) fun l _ => sloc_pure within_ofF64)
  | s =>
    refine some_of (.bind1 sloc_popF64! fun i _ => ?_)
    simp only
    split
    · exact sloc_fail _
    · refine .bind1 sloc_popVec4! fun v _ => ?_
      split
      · exact sloc_pure within_ofF64
      · exact sloc_panic
  | rx => exact some_of (.bind1 (sloc_popMat4 c) fun l _ => sloc_pure within_vec4)
  | ry => exact some_of (.bind1 (sloc_popMat4 c) fun l _ => sloc_pure within_vec4)
  | rz => exact some_of (.bind1 (sloc_popMat4 c) fun l _ => sloc_pure within_vec4)
  | rw => exact some_of (.bind1 (sloc_popMat4 c) fun l _ => sloc_pure within_vec4)
  | rv =>
    refine some_of (.bind1 sloc_popF64! fun i _ => ?_)
    simp only
    split
    · exact sloc_fail _
    · refine .bind1 sloc_popMat4! fun v _ => ?_
      split
      · exact sloc_pure within_vec4
      · exact sloc_panic
  | cx => exact some_of (.bind1 (sloc_popMat4 c) fun l _ => sloc_pure within_vec4)
  | cy => exact some_of (.bind1 (sloc_popMat4 c) fun l _ => sloc_pure within_vec4)
  | cz => exact some_of (.bind1 (sloc_popMat4 c) fun l _ => sloc_pure within_vec4)
  | cw => exact some_of (.bind1 (sloc_popMat4 c) fun l _ => sloc_pure within_vec4)
  | cv =>
    refine some_of (.bind1 sloc_popF64! fun i _ => ?_)
    simp only
    split
    · exact sloc_fail _
    · exact .bind1 sloc_popMat4! fun v _ => sloc_pure within_mat4
  | vec4Lit =>
    exact some_of (.bind1 sloc_popV fun _ h => .bind0 (sloc_number h) fun _ _ =>
      .bind1 sloc_popV fun _ h => .bind0 (sloc_number h) fun _ _ =>
      .bind1 sloc_popV fun _ h => .bind0 (sloc_number h) fun _ _ =>
      .bind1 sloc_popV fun _ h => .bind0 (sloc_number h) fun _ _ => sloc_pure within_vec4)
  | mat4Lit =>
    exact some_of (.bind1 (sloc_popVec4 c) fun _ _ => .bind1 (sloc_popVec4 c) fun _ _ =>
      .bind1 (sloc_popVec4 c) fun _ _ => .bind1 (sloc_popVec4 c) fun _ _ => sloc_pure within_mat4)
  | andAlso =>
    refine some_of (.bind1 sloc_popV fun b hb => .bind1 sloc_popV fun a ha =>
      .bind0 (sloc_getV ha) fun a ha => .bind0 (sloc_getV hb) fun b hb => ?_)
    split
    · exact sloc_pure (within_bool_iff.2 (within_bool_iff.1 ha))
    · exact sloc_fail _
  | orElse =>
    refine some_of (.bind1 sloc_popV fun b hb => .bind1 sloc_popV fun a ha =>
      .bind0 (sloc_getV ha) fun a ha => .bind0 (sloc_getV hb) fun b hb => ?_)
    split
    · exact sloc_pure (within_bool_iff.2 (within_bool_iff.1 ha))
    · exact sloc_fail _

/-! ## Operators -/

theorem within_negate {r : OpRes} {v : Val} (h : Op.negate r = .ok v)
    (hr : ∀ u, r = .ok u → Within P u) : Within P v := by
  cases r with
  | error e => cases h
  | ok u =>
    cases u <;> simp only [Op.negate] at h <;> cases h
    exact within_bool_iff.2 (within_bool_iff.1 (hr _ rfl))

theorem within_less {x y v : Val} (h : Op.less x y = .ok v) (hx : Within P x) : Within P v := by
  unfold Op.less at h
  split at h <;> cases h
  · exact within_bool_iff.2 (within_f64_iff.1 hx)
  · exact within_ofBool
theorem within_lessOrEqual {x y v : Val} (h : Op.lessOrEqual x y = .ok v) (hx : Within P x) :
    Within P v := by
  unfold Op.lessOrEqual at h
  split at h <;> cases h
  · exact within_bool_iff.2 (within_f64_iff.1 hx)
  · exact within_ofBool

theorem within_equal : ∀ (n : Nat) {x y v : Val}, sizeOf x ≤ n → Op.equal x y = .ok v → Within P x →
    Within P v := by
  intro n
  induction n with
  | zero => intro x y v hn; cases x <;> simp at hn
  | succ n ih =>
    intro x y v hn h hx
    unfold Op.equal at h
    split at h <;> try (cases h)
    · exact within_bool_iff.2 (within_f64_iff.1 hx)
    · exact within_ofBool
    · exact within_bool_iff.2 (within_bool_iff.1 hx)
    all_goals first
      | exact within_ofBool
      | exact ih (by simp at hn; omega) h (within_some.1 hx)

section
variable [FloatOps] [VecMath]

/-- The operators give values whose references occur in the operands. -/
theorem within_binop {f : Val → Val → OpRes} (hf : f ∈ binopTable) {x y v : Val}
    (h : f x y = .ok v) (hx : Within P x) (_hy : Within P y) : Within P v := by
  simp only [binopTable, List.mem_cons, List.not_mem_nil, or_false] at hf
  rcases hf with rfl | rfl | rfl | rfl | rfl | rfl | rfl | rfl | rfl | rfl | rfl | rfl | rfl
  · exact within_less h hx
  · exact within_lessOrEqual h hx
  · exact within_negate h fun u hu => within_lessOrEqual hu hx
  · exact within_negate h fun u hu => within_less hu hx
  · exact within_equal _ (Nat.le_refl _) h hx
  · exact within_negate h fun u hu => within_equal _ (Nat.le_refl _) hu hx
  · unfold Op.add at h
    split at h <;> cases h <;> first
      | exact within_f64_iff.2 (within_f64_iff.1 hx) | exact within_bool_iff.2 (within_bool_iff.1 hx)
      | exact within_vec4 | exact within_mat4 | exact within_str | exact within_link
  · unfold Op.sub at h
    split at h <;> cases h <;> first
      | exact within_f64_iff.2 (within_f64_iff.1 hx) | exact within_bool_iff.2 (within_bool_iff.1 hx)
      | exact within_vec4 | exact within_mat4
  · unfold Op.mul at h
    split at h <;> cases h <;> first
      | exact within_f64_iff.2 (within_f64_iff.1 hx) | exact within_bool_iff.2 (within_bool_iff.1 hx)
      | exact within_vec4 | exact within_mat4
  · unfold Op.div at h
    split at h <;> cases h <;> first
      | exact within_f64_iff.2 (within_f64_iff.1 hx) | exact within_vec4
  · unfold Op.rem at h
    split at h <;> cases h <;> first
      | exact within_f64_iff.2 (within_f64_iff.1 hx) | exact within_vec4
  · unfold Op.pow at h
    split at h <;> cases h <;> first
      | exact within_f64_iff.2 (within_f64_iff.1 hx) | exact within_bool_iff.2 (within_bool_iff.1 hx)
      | exact within_vec4
  · unfold Op.dot at h
    simp only at h
    split at h <;> cases h <;> exact within_ofF64

theorem within_unop {f : Val → OpRes} (hf : f ∈ unopTable) {x v : Val} (h : f x = .ok v)
    (hx : Within P x) : Within P v := by
  simp only [unopTable, List.mem_cons, List.not_mem_nil, or_false] at hf
  rcases hf with rfl | rfl | rfl | rfl
  · unfold Op.not at h
    split at h <;> cases h
    exact within_bool_iff.2 (within_bool_iff.1 hx)
  · unfold Op.neg at h
    split at h <;> cases h
    · exact within_f64_iff.2 (within_f64_iff.1 hx)
    · exact within_vec4
    · exact within_mat4
  · unfold Op.norm at h
    split at h <;> cases h
    exact within_ofF64
  · unfold Op.len at h
    split at h <;> cases h
    exact within_ofF64

theorem libRun_sloc (write : Stack → Val → String) (fuel f : Nat) (st : St)
    (h : libArity f ≤ st.stack.length) (hs : Slots P st.stack)
    (hf : ∀ i, ¬ P i → i + libArity f < st.stack.length) :
    match libRun write fuel f st with
    | .ok r s => Slots P s ∧ KeptS P st.stack s ∧ ∀ v ∈ r, Within P v
    | .err _ s => Slots P s ∧ KeptS P st.stack s
    | _ => True := by
  unfold libRun
  unfold libArity at *
  cases hg : libTable[f]? with
  | none => trivial
  | some g =>
    rw [hg] at h hf
    have hp := (libFn_sloc (rd := False) (P := P) ⟨stackTrace st.calls, write, fuel⟩ (fun h => h.elim) g st.stack h hs hf).1
    simp only
    cases hx : g.run ⟨stackTrace st.calls, write, fuel⟩ st.stack <;> simp only [hx] at hp ⊢
    · exact hp.2
    · exact hp

theorem Tame.stack {s : St} {st : Stack} (h : Tame P s) (hs : Slots P st) :
    Tame P { s with stack := st } := ⟨hs, h.closures, h.queues, h.currents⟩

/-- A program over the modelled library meets the contract. -/
theorem extLocal_std (write : Stack → Val → String) (fuel : Nat) (modules : Nat → List Func) :
    ExtLocal (stdCfg write fuel modules) libArity libArity P := by
  constructor
  · intro f st hn ht hf
    have h := libRun_sloc write fuel f st hn ht.slots (fun i hi => by have := hf i hi; omega)
    show wp (libVoid write fuel f) _ _ st
    unfold libVoid wp
    simp only
    cases hx : libRun write fuel f st with
    | ok r s => rw [hx] at h; exact ⟨ht.stack h.1, h.2.1⟩
    | err e s => rw [hx] at h; exact ⟨ht.stack h.1, h.2⟩
    | panic => trivial
    | running => trivial
  · intro f st hn ht hf
    have h := libRun_sloc write fuel f st hn ht.slots (fun i hi => by have := hf i hi; omega)
    show wp (libRet write fuel f) _ _ st
    unfold libRet wp
    simp only
    cases hx : libRun write fuel f st with
    | ok r s =>
      rw [hx] at h
      cases r with
      | none => trivial
      | some v => exact ⟨ht.stack h.1, h.2.1, h.2.2 v rfl⟩
    | err e s => rw [hx] at h; exact ⟨ht.stack h.1, h.2⟩
    | panic => trivial
    | running => trivial
  · intro f x y v h hx hy
    simp only [stdCfg] at h
    split at h
    · next g hg => exact within_binop (List.mem_of_getElem? hg) h hx hy
    · cases h
  · intro f x v h hx
    simp only [stdCfg] at h
    split at h
    · next g hg => exact within_unop (List.mem_of_getElem? hg) h hx
    · cases h

theorem libRun_over {write : Stack → Val → String} (hW : WriteBlind P write) (fuel f : Nat) (st : St)
    (h : libArity f ≤ st.stack.length) (hs : Slots P st.stack)
    (hf : ∀ i, ¬ P i → i + libArity f < st.stack.length) (g : Nat → Val) :
    libRun write fuel f (other P g st) = (libRun write fuel f st).onSt (over P g) := by
  unfold libRun
  unfold libArity at *
  cases hg : libTable[f]? with
  | none => rfl
  | some l =>
    rw [hg] at h hf
    exact (libFn_sloc (rd := True) (P := P) ⟨stackTrace st.calls, write, fuel⟩ (fun _ => hW) l st.stack h hs
      hf).2 trivial g

/-- The modelled library does not look at what its arguments do not lead to. -/
theorem extBlind_std {write : Stack → Val → String} (hW : WriteBlind P write) (fuel : Nat)
    (modules : Nat → List Func) : ExtBlind (stdCfg write fuel modules) libArity libArity P := by
  constructor
  · intro f st hn ht hf g _
    have h := libRun_over hW fuel f st hn ht.slots (fun i hi => by have := hf i hi; omega) g
    show libVoid write fuel f (other P g st) = (libVoid write fuel f st).onSt _
    unfold libVoid
    rw [h]
    cases libRun write fuel f st <;> rfl
  · intro f st hn ht hf g _
    have h := libRun_over hW fuel f st hn ht.slots (fun i hi => by have := hf i hi; omega) g
    show libRet write fuel f (other P g st) = (libRet write fuel f st).onSt _
    unfold libRet
    rw [h]
    cases libRun write fuel f st with
    | ok r s => cases r <;> rfl
    | _ => rfl

end

end Dyon.Loc
