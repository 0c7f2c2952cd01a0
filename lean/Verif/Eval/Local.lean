import Verif.Eval.FrameAll

/-!
# What an expression can reach

Definitions for C77: references inside values, programs whose constants refer to a set of slots
only, states in which a set of slots is closed under references.
-/

namespace Dyon.Loc

/-- A reference to slot `i` of the stack occurs in the value: as the value itself, or inside
arrays, objects, options, results or secrets. -/
inductive HasRef (i : Nat) : Val → Prop
  | ref : HasRef i (.ref i)
  | unsafeRef {p : Place} : p.root = i → HasRef i (.unsafeRef p)
  | array {xs : List Val} {x : Val} : x ∈ xs → HasRef i x → HasRef i (.array xs)
  | object {kvs : List (String × Val)} {kv : String × Val} : kv ∈ kvs → HasRef i kv.2 →
      HasRef i (.object kvs)
  | some {v : Val} : HasRef i v → HasRef i (.option (some v))
  | ok {v : Val} : HasRef i v → HasRef i (.resOk v)
  | err {v : Val} {t : List String} : HasRef i v → HasRef i (.resErr v t)
  | bool {b : Bool} {l : List Val} {x : Val} : x ∈ l → HasRef i x → HasRef i (.bool b (some l))
  | f64 {n : F64} {l : List Val} {x : Val} : x ∈ l → HasRef i x → HasRef i (.f64 n (some l))

/-- All references in the value are to slots in `P`. -/
def Within (P : Nat → Prop) (v : Val) : Prop := ∀ i, HasRef i v → P i

section
variable {P : Nat → Prop}

theorem within_ref {i} : Within P (.ref i) ↔ P i :=
  ⟨fun h => h i .ref, fun h j hj => by cases hj; exact h⟩
theorem within_unsafeRef {p : Place} : Within P (.unsafeRef p) ↔ P p.root :=
  ⟨fun h => h _ (.unsafeRef rfl), fun h j hj => by cases hj with | unsafeRef e => exact e ▸ h⟩
theorem within_array {xs : List Val} : Within P (.array xs) ↔ ∀ x ∈ xs, Within P x :=
  ⟨fun h x hx i hi => h i (.array hx hi), fun h j hj => by
    cases hj with | array hx hi => exact h _ hx _ hi⟩
theorem within_object {kvs : List (String × Val)} :
    Within P (.object kvs) ↔ ∀ kv ∈ kvs, Within P kv.2 :=
  ⟨fun h x hx i hi => h i (.object hx hi), fun h j hj => by
    cases hj with | object hx hi => exact h _ hx _ hi⟩
theorem within_some {v : Val} : Within P (.option (some v)) ↔ Within P v :=
  ⟨fun h i hi => h i (.some hi), fun h j hj => by cases hj with | some hi => exact h _ hi⟩
theorem within_none : Within P (.option none) := fun j hj => by cases hj
theorem within_ok {v : Val} : Within P (.resOk v) ↔ Within P v :=
  ⟨fun h i hi => h i (.ok hi), fun h j hj => by cases hj with | ok hi => exact h _ hi⟩
theorem within_err {v : Val} {t} : Within P (.resErr v t) ↔ Within P v :=
  ⟨fun h i hi => h i (.err hi), fun h j hj => by cases hj with | err hi => exact h _ hi⟩
theorem within_bool {b : Bool} {l : List Val} : Within P (.bool b (some l)) ↔ ∀ x ∈ l, Within P x :=
  ⟨fun h x hx i hi => h i (.bool hx hi), fun h j hj => by
    cases hj with | bool hx hi => exact h _ hx _ hi⟩
theorem within_bool_none {b : Bool} : Within P (.bool b none) := fun j hj => by cases hj
theorem within_f64 {n : F64} {l : List Val} : Within P (.f64 n (some l)) ↔ ∀ x ∈ l, Within P x :=
  ⟨fun h x hx i hi => h i (.f64 hx hi), fun h j hj => by
    cases hj with | f64 hx hi => exact h _ hx _ hi⟩
theorem within_f64_none {n : F64} : Within P (.f64 n none) := fun j hj => by cases hj
theorem within_ofF64 {n : F64} : Within P (.ofF64 n) := within_f64_none
theorem within_ofBool {b : Bool} : Within P (.ofBool b) := within_bool_none
theorem within_ret : Within P .ret := fun j hj => by cases hj
theorem within_vec4 {v} : Within P (.vec4 v) := fun j hj => by cases hj
theorem within_mat4 {v} : Within P (.mat4 v) := fun j hj => by cases hj
theorem within_str {v} : Within P (.str v) := fun j hj => by cases hj
theorem within_link {v} : Within P (.link v) := fun j hj => by cases hj
theorem within_rustObject {v} : Within P (.rustObject v) := fun j hj => by cases hj
theorem within_thread {v} : Within P (.thread v) := fun j hj => by cases hj
theorem within_closure {v} : Within P (.closure v) := fun j hj => by cases hj
theorem within_inTy {v} : Within P (.inTy v) := fun j hj => by cases hj

/-- The secret of a number or boolean. -/
theorem within_bool_iff {b : Bool} {s : Option (List Val)} :
    Within P (.bool b s) ↔ ∀ l ∈ s, ∀ x ∈ l, Within P x := by
  cases s with
  | none => simp [within_bool_none]
  | some l => simp [within_bool]
theorem within_f64_iff {n : F64} {s : Option (List Val)} :
    Within P (.f64 n s) ↔ ∀ l ∈ s, ∀ x ∈ l, Within P x := by
  cases s with
  | none => simp [within_f64_none]
  | some l => simp [within_f64]

end

mutual
/-- All constants of the expression have references to slots in `P` only.  (Constants of loaded
programs have none; those of closures are the grabbed values.) -/
def EIn (P : Nat → Prop) : Expr → Prop
  | .link items => EsIn P items
  | .object kvs => KvsIn P kvs
  | .array items => EsIn P items
  | .arrayFill f n => EIn P f ∧ EIn P n
  | .ret e => EIn P e
  | .block es => EsIn P es
  | .go _ args => EsIn P args
  | .call _ _ args => EsIn P args
  | .item it => ItemIn P it
  | .assign _ l r => EIn P l ∧ EIn P r
  | .vec4 args => EsIn P args
  | .mat4 args => EsIn P args
  | .for_ i c s b _ => EIn P i ∧ EIn P c ∧ EIn P s ∧ EsIn P b
  | .forN _ _ start stop body _ => OptIn P start ∧ EIn P stop ∧ EsIn P body
  | .forIn _ _ iter body _ => EIn P iter ∧ EsIn P body
  | .ite c t elifs els => EIn P c ∧ EsIn P t ∧ ElifsIn P elifs ∧ OptListIn P els
  | .const v => Within P v
  | .try_ e => EIn P e
  | .swizzle _ e => EIn P e
  | .closure _ _ _ _ e => EIn P e
  | .callClosure it args => ItemIn P it ∧ EsIn P args
  | .grab _ e => EIn P e
  | .tryExpr e => EIn P e
  | .retVoid => True
  | .brk _ => True
  | .cont _ => True
  | .in_ _ => True
/-- Lists. -/
def EsIn (P : Nat → Prop) : List Expr → Prop
  | [] => True
  | e :: es => EIn P e ∧ EsIn P es
/-- Key-value pairs. -/
def KvsIn (P : Nat → Prop) : List (String × Expr) → Prop
  | [] => True
  | (_, e) :: es => EIn P e ∧ KvsIn P es
/-- Else-if branches. -/
def ElifsIn (P : Nat → Prop) : List (Expr × List Expr) → Prop
  | [] => True
  | (c, b) :: es => EIn P c ∧ EsIn P b ∧ ElifsIn P es
/-- Optional blocks. -/
def OptListIn (P : Nat → Prop) : Option (List Expr) → Prop
  | none => True
  | some es => EsIn P es
/-- Optional expressions. -/
def OptIn (P : Nat → Prop) : Option Expr → Prop
  | none => True
  | some e => EIn P e
/-- Items. -/
def ItemIn (P : Nat → Prop) : Item → Prop
  | .mk _ _ _ _ ids _ => IdsIn P ids
/-- Properties. -/
def IdsIn (P : Nat → Prop) : List Id → Prop
  | [] => True
  | .expr e :: r => EIn P e ∧ IdsIn P r
  | .str _ :: r => IdsIn P r
  | .num _ :: r => IdsIn P r
end

/-- Position of the first local of the running call. -/
def _root_.Dyon.St.base (s : St) : Nat := (s.calls.getLast?.map CallRec.localLen).getD 0

/-- The slots in `P` refer to slots in `P` only, and so do current objects, closures and waiting
messages. -/
structure Tame (P : Nat → Prop) (s : St) : Prop where
  slots : ∀ i v, s.stack[i]? = some v → P i → Within P v
  closures : ∀ cl ∈ s.closures, EIn P cl.body
  queues : ∀ ch, ∀ v ∈ s.queues ch, Within P v
  currents : ∀ x ∈ s.currents, P x.2

/-- All the running function can reach is in `P`: also its variables, and the slots above the
stack. -/
structure Inv (P : Nat → Prop) (s : St) : Prop extends Tame P s where
  fresh : ∀ i, ¬ P i → i < s.stack.length
  base : s.base ≤ s.locals.length
  locals : ∀ x ∈ s.locals.drop s.base, P x.2

/-- The slots outside of `P` have kept their values. -/
def Kept (P : Nat → Prop) (a b : St) : Prop := ∀ i, ¬ P i → b.stack[i]? = a.stack[i]?

section
variable {P : Nat → Prop}

theorem Kept.rfl {a : St} : Kept P a a := fun _ _ => Eq.refl _
theorem Kept.trans {a b d : St} (h : Kept P a b) (h' : Kept P b d) : Kept P a d :=
  fun i hi => (h' i hi).trans (h i hi)

theorem same_base {a b : St} (h : Same a b) : b.base = a.base := by simp [St.base, h.calls]
theorem ext_base {a b : St} (h : Ext a b) : b.base = a.base := by simp [St.base, h.calls]

theorem fresh_kept {a b : St} (hf : ∀ i, ¬ P i → i < a.stack.length) (h : Kept P a b) :
    ∀ i, ¬ P i → i < b.stack.length := by
  intro i hi
  have h1 := hf i hi
  have h2 := h i hi
  rw [List.getElem?_eq_getElem h1] at h2
  exact (List.getElem?_eq_some_iff.1 h2).1

theorem Inv.of_same {a b : St} (ha : Inv P a) (hs : Same a b) (ht : Tame P b) (hk : Kept P a b) :
    Inv P b where
  toTame := ht
  fresh := fresh_kept ha.fresh hk
  base := by rw [same_base hs, hs.locals]; exact ha.base
  locals := by rw [same_base hs, hs.locals]; exact ha.locals

theorem Inv.slot {s : St} (h : Inv P s) : P s.stack.length := by
  by_contra hn
  exact absurd (h.fresh _ hn) (lt_irrefl _)

theorem Inv.slot_ge {s : St} (h : Inv P s) {i : Nat} (hi : s.stack.length ≤ i) : P i := by
  by_contra hn
  exact absurd (h.fresh _ hn) (by omega)

theorem Tame.push {s : St} (h : Tame P s) {v : Val} (hv : Within P v) :
    Tame P { s with stack := s.stack ++ [v] } where
  slots := by
    intro i u hu hi
    simp only at hu
    rw [List.getElem?_append] at hu
    split at hu
    · exact h.slots i u hu hi
    · rw [List.getElem?_singleton] at hu
      split at hu <;> simp_all
  closures := h.closures
  queues := h.queues
  currents := h.currents

theorem Tame.take {s : St} (h : Tame P s) (n : Nat) :
    Tame P { s with stack := s.stack.take n } where
  slots := by
    intro i u hu hi
    simp only at hu
    rw [List.getElem?_take] at hu
    split at hu
    · exact h.slots i u hu hi
    · cases hu
  closures := h.closures
  queues := h.queues
  currents := h.currents

theorem Kept.push {s : St} (h : Inv P s) {v : Val} : Kept P s { s with stack := s.stack ++ [v] } := by
  intro i hi
  exact List.getElem?_append_left (h.fresh i hi)

theorem Kept.take {a s : St} {n : Nat} (ha : Inv P a) (hn : a.stack.length ≤ n) (h : Kept P a s) :
    Kept P a { s with stack := s.stack.take n } := by
  intro i hi
  have := ha.fresh i hi
  rw [← h i hi]
  exact List.getElem?_take_of_lt (by omega)

end

/-! ## Other values out of reach -/

open Classical in
/-- Other values `g` in the slots outside of `P`; marks of results still to come stay. -/
noncomputable def over (P : Nat → Prop) (g : Nat → Val) (l : Stack) : Stack :=
  l.mapIdx fun i v => if P i ∨ v = .ret then v else g i

/-- The state with other values in the slots outside of `P`. -/
noncomputable def other (P : Nat → Prop) (g : Nat → Val) (s : St) : St :=
  { s with stack := over P g s.stack }

/-- Another final state. -/
def _root_.Dyon.Ev.onSt {α} (f : St → St) : Ev α → Ev α
  | .ok a s => .ok a (f s)
  | .err m s => .err m (f s)
  | .panic w => .panic w
  | .timeout => .timeout

/-- Run with other values out of reach the action does the same, and the values stay. -/
def Blind {α} (P : Nat → Prop) (m : EM α) (s : St) : Prop :=
  ∀ g : Nat → Val, (∀ i, g i ≠ .ret) → m (other P g s) = (m s).onSt (other P g)

/-- `Q` holds after a result, `E` after an error, and if `rd` then what is out of reach does
not matter. -/
def wq {α} (rd : Prop) (P : Nat → Prop) (m : EM α) (Q : α → St → Prop) (E : St → Prop) (s : St) :
    Prop := wp m Q E s ∧ (rd → Blind P m s)

section
variable {P : Nat → Prop} {g : Nat → Val} {rd : Prop}

@[simp] theorem over_length {l : Stack} : (over P g l).length = l.length := by simp [over]

open Classical in
theorem over_get? {l : Stack} {i : Nat} :
    (over P g l)[i]? = l[i]?.map fun v => if P i ∨ v = .ret then v else g i := by
  simp [over]

theorem over_in {l : Stack} {i : Nat} (h : P i) : (over P g l)[i]? = l[i]? := by
  rw [over_get?]; simp [h]

theorem over_ret (hg : ∀ i, g i ≠ .ret) {l : Stack} {i : Nat} :
    (over P g l)[i]? = some .ret ↔ l[i]? = some .ret := by
  rw [over_get?]
  cases l[i]? with
  | none => simp
  | some v =>
    simp only [Option.map_some, Option.some.injEq]
    split
    · rfl
    · rename_i h
      push Not at h
      exact ⟨fun h' => absurd h' (hg i), fun h' => absurd h' h.2⟩

theorem over_push {l : Stack} {v : Val} (h : P l.length) : over P g (l ++ [v]) = over P g l ++ [v] := by
  apply List.ext_getElem?
  intro i
  rw [over_get?, List.getElem?_append, List.getElem?_append, over_length]
  split
  · rw [over_get?]
  · rw [List.getElem?_singleton]
    split
    · have : i = l.length := by omega
      subst this
      simp [h]
    · rfl

theorem over_take {l : Stack} {n : Nat} : over P g (l.take n) = (over P g l).take n := by
  apply List.ext_getElem?
  intro i
  rw [over_get?, List.getElem?_take, List.getElem?_take]
  split
  · rw [over_get?]
  · rfl

theorem over_dropLast {l : Stack} : over P g l.dropLast = (over P g l).dropLast := by
  rw [List.dropLast_eq_take, List.dropLast_eq_take, over_take, over_length]

theorem over_set {l : Stack} {i : Nat} {v : Val} (h : P i) :
    over P g (l.set i v) = (over P g l).set i v := by
  apply List.ext_getElem?
  intro j
  rw [over_get?, List.getElem?_set, List.getElem?_set, over_length]
  split
  · rename_i e
    subst e
    split <;> simp [h]
  · rw [over_get?]

theorem over_drop {l : Stack} {n : Nat} (h : ∀ i, n ≤ i → P i) : (over P g l).drop n = l.drop n := by
  apply List.ext_getElem?
  intro i
  rw [List.getElem?_drop, List.getElem?_drop, over_in (h _ (by omega))]

theorem other_length {s : St} : (other P g s).stack.length = s.stack.length := over_length
theorem other_calls {s : St} : (other P g s).calls = s.calls := rfl
theorem other_locals {s : St} : (other P g s).locals = s.locals := rfl
theorem other_currents {s : St} : (other P g s).currents = s.currents := rfl
theorem other_module {s : St} : (other P g s).module = s.module := rfl
theorem other_closures {s : St} : (other P g s).closures = s.closures := rfl
theorem other_jobs {s : St} : (other P g s).jobs = s.jobs := rfl
theorem other_senders {s : St} : (other P g s).senders = s.senders := rfl
theorem other_queues {s : St} : (other P g s).queues = s.queues := rfl
theorem other_nchans {s : St} : (other P g s).nchans = s.nchans := rfl
theorem other_time {s : St} : (other P g s).time = s.time := rfl
theorem other_rel {s : St} : (other P g s).rel = s.rel := rfl

variable {α β : Type} {Q Q' : α → St → Prop} {E E' : St → Prop} {s : St}

theorem wq_bind {m : EM α} {f : α → EM β} {Q : β → St → Prop}
    (h : wq rd P m (fun a t => wq rd P (f a) Q E t) E s) : wq rd P (m >>= f) Q E s := by
  refine ⟨wp_bind (wp_mono h.1 (fun a t ht => ht.1) fun _ h => h), fun hr g hg => ?_⟩
  have h1 := h.2 hr g hg
  have h2 := h.1
  unfold wp at h2
  show EM.bind m f _ = (EM.bind m f s).onSt _
  unfold EM.bind
  rw [h1]
  cases hm : m s with
  | ok a t => rw [hm] at h2; exact h2.2 hr g hg
  | err e t => rfl
  | panic w => rfl
  | timeout => rfl

theorem wq_mono {m : EM α} (h : wq rd P m Q E s) (hq : ∀ a t, Q a t → Q' a t)
    (he : ∀ t, E t → E' t) : wq rd P m Q' E' s := ⟨wp_mono h.1 hq he, h.2⟩

theorem wq_and {m : EM α} {E'} (h : wp m Q E s) (h' : wq rd P m Q' E' s) :
    wq rd P m (fun a t => Q a t ∧ Q' a t) (fun t => E t ∧ E' t) s := ⟨wp_and h h'.1, h'.2⟩

theorem wq_pure {a : α} (h : Q a s) : wq rd P (pure a) Q E s := ⟨h, fun _ _ _ => rfl⟩
theorem wq_errT {msg} (h : E s) : wq rd P (errT msg : EM α) Q E s := ⟨h, fun _ _ _ => rfl⟩
theorem wq_errCaller {msg} (h : E s) : wq rd P (errCaller msg : EM α) Q E s := by
  refine ⟨wp_errCaller h, fun _ g _ => ?_⟩
  unfold errCaller
  cases hc : s.calls.getLast? with
  | none => simp [lastCall, hc, bind, EM.bind, other_calls, Ev.onSt]
  | some r => simp [lastCall, hc, bind, EM.bind, errT, other_calls, Ev.onSt]
theorem wq_fail {msg} (h : E s) : wq rd P (EM.fail msg : EM α) Q E s := ⟨h, fun _ _ _ => rfl⟩
theorem wq_panic {msg} : wq rd P (EM.panic msg : EM α) Q E s := ⟨trivial, fun _ _ _ => rfl⟩
theorem wq_timeout : wq rd P (EM.timeout : EM α) Q E s := ⟨trivial, fun _ _ _ => rfl⟩
theorem wq_errExpected {v ty} (h : E s) : wq rd P (errExpected v ty : EM α) Q E s :=
  ⟨h, fun _ _ _ => rfl⟩
theorem wq_errExpected2 {v ty} (h : E s) : wq rd P (errExpected2 v ty : EM α) Q E s :=
  ⟨h, fun _ _ _ => rfl⟩
theorem wq_errIndices (h : E s) : wq rd P (errIndices : EM α) Q E s := ⟨h, fun _ _ _ => rfl⟩
theorem wq_errBounds {c x} (h : E s) : wq rd P (errBounds c x : EM α) Q E s := ⟨h, fun _ _ _ => rfl⟩

/-- What is done with the state must not depend on what is out of reach. -/
theorem wq_get {f : St → EM β} {Q : β → St → Prop} (h : wq rd P (f s) Q E s)
    (ht : ∀ g, (∀ i, g i ≠ .ret) → f (other P g s) = f s := by
      intros; simp only [other_length, other_calls, other_locals, other_currents, other_module,
        other_closures, other_jobs, other_senders, other_nchans, other_time, other_rel]) :
    wq rd P (EM.get >>= f) Q E s := by
  refine ⟨h.1, fun hr g hg => ?_⟩
  show f (other P g s) (other P g s) = _
  rw [ht g hg]
  exact h.2 hr g hg

theorem wq_modify {f} {Q : Unit → St → Prop} (h : Q () (f s))
    (ht : ∀ g, f (other P g s) = other P g (f s) := by intros; rfl) :
    wq rd P (EM.modify f) Q E s := ⟨h, fun _ g _ => by simp only [EM.modify, Ev.onSt, ht]⟩

theorem wq_ite {p : Prop} [Decidable p] {a b : EM α} (h : p → wq rd P a Q E s)
    (h' : ¬p → wq rd P b Q E s) : wq rd P (if p then a else b) Q E s := by
  split <;> simp_all

end

end Dyon.Loc
