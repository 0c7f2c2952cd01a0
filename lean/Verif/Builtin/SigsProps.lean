import Verif.Builtin.Sigs
import Verif.Types.Props
import Verif.Types.RefineProps

/-!
# C79: the declared types of the standard library are right
-/

namespace Dyon

open Ty

variable [FloatOps] [VecMath]

/-! ## Signatures of operators -/

/-- Two values of two types. -/
def HasTys2 (ts : List Ty) (a b : Val) : Prop := ∃ t u, ts = [t, u] ∧ HasTy t a ∧ HasTy u b

set_option hygiene false in
/-- Takes apart that a value has one of the types of the signatures. -/
macro "split_ty " h:ident : tactic => `(tactic| (
  simp only [HasTy, implies_true, and_true] at $h:ident
  first
    | obtain ⟨_, _, rfl⟩ := $h:ident
    | obtain ⟨_, rfl⟩ := $h:ident
    | (obtain ⟨⟨_, _, rfl⟩, ⟨_, _, e⟩ | ⟨_, _, e⟩⟩ := $h:ident <;> cases e)))

theorem binop_sig (op : BinFn) {sig : Sig} (hs : sig ∈ op.ext)
    (ho : sig.args = [option any, option any] → op ≠ .equal ∧ op ≠ .notEqual) {a b : Val}
    (h : HasTys2 sig.args a b) : ∃ v, op.run a b = .ok v ∧ HasTy sig.ret v := by
  obtain ⟨t, u, he, ha, hb⟩ := h
  cases op <;> simp only [BinFn.ext, orderSigs, equalSigs, List.mem_cons, List.not_mem_nil, or_false] at hs
  all_goals
    (repeat' first
      | (rcases hs with rfl | hs)
      | subst hs)
    all_goals
      simp only [plainSig, allSig, allExt, List.map, List.cons.injEq, and_true] at he ho ⊢
      obtain ⟨rfl, rfl⟩ := he
      first
        | exact absurd rfl (ho trivial).1
        | exact absurd rfl (ho trivial).2
        | (split_ty ha <;> split_ty hb <;>
            (refine ⟨_, rfl, ?_⟩
             simp only [HasTy]
             first
               | exact ⟨_, _, rfl⟩
               | exact ⟨_, rfl⟩
               | exact ⟨⟨_, _, rfl⟩, .inl ⟨_, _, rfl⟩⟩))

theorem unop_sig (op : UnFn) {sig : Sig} (hs : sig ∈ op.ext) {a : Val} {t : Ty} (he : sig.args = [t])
    (ha : HasTy t a) : ∃ v, op.run a = .ok v ∧ HasTy sig.ret v := by
  cases op <;> simp only [UnFn.ext, List.mem_cons, List.not_mem_nil, or_false] at hs
  all_goals
    (repeat' first
      | (rcases hs with rfl | hs)
      | subst hs)
    all_goals
      simp only [plainSig, List.cons.injEq, and_true] at he ⊢
      subst he
      split_ty ha <;>
        (refine ⟨_, rfl, ?_⟩
         simp only [HasTy]
         first
           | exact ⟨_, _, rfl⟩
           | exact ⟨_, rfl⟩
           | exact ⟨⟨_, _, rfl⟩, .inl ⟨_, _, rfl⟩⟩)

/-! ## What the checker makes of a signature -/

/-- The types of parameters in the signatures of operators. -/
def baseTys : List Ty :=
  [secret f64, secret bool, f64, bool, vec4, mat4, str, link, object, array any, option any]

theorem base_source {t : Ty} (h : t ∈ baseTys) : Source t := by
  simp only [baseTys, List.mem_cons, List.not_mem_nil, or_false] at h
  rcases h with rfl | rfl | rfl | rfl | rfl | rfl | rfl | rfl | rfl | rfl | rfl <;> repeat constructor

theorem base_ambiguous {t s : Ty} (h : t ∈ baseTys) (hs : Definite s) : t.ambiguous s = false := by
  simp only [baseTys, List.mem_cons, List.not_mem_nil, or_false] at h
  rcases h with rfl | rfl | rfl | rfl | rfl | rfl | rfl | rfl | rfl | rfl | rfl <;>
    cases hs <;> simp [ambiguous]

theorem base_plain {t : Ty} (h : t ∈ baseTys) : t.isAdHoc = false := by
  simp only [baseTys, List.mem_cons, List.not_mem_nil, or_false] at h
  rcases h with rfl | rfl | rfl | rfl | rfl | rfl | rfl | rfl | rfl | rfl | rfl <;> rfl

theorem bind_plain {t : Ty} (h : t.isAdHoc = false) (s : Ty) (names : List String) (vs : Vars) :
    t.bindTyVars s names vs = .ok (t, vs) := by
  rw [bindTyVars.eq_def]
  split
  · rfl
  · cases t <;> first | rfl | simp [isAdHoc] at h

theorem bind_all {t s : Ty} (h : t.isAdHoc = false) (hs : s.isAdHoc = false) :
    (adHoc "T" t).bindTyVars s ["T"] [none] = .ok (t, [none]) := by
  rw [bindTyVars.eq_def]
  cases s <;> simp [isAdHoc, bindPlain, bind_plain h, Vars.at] at hs ⊢

/-- A signature of an operator: written down with or without a type variable. -/
inductive OfTys : Sig → List Ty → Ty → Prop
  | plain {ts r} : OfTys (plainSig ts r) ts r
  | all {ts r} : OfTys (allSig ts r) ts r

theorem match_two {sig : Sig} {t u r : Ty} (h : OfTys sig [t, u] r) (ht : t ∈ baseTys) (hu : u ∈ baseTys)
    {a b : Ty} (ha : Definite a) (hb : Definite b) (na : NoAdHoc a) (nb : NoAdHoc b) :
    matchArgs sig.names [some a, some b] sig.args (List.replicate sig.names.length none) =
      if t.goesWith a && u.goesWith b then .all (List.replicate sig.names.length none) else .noMatch := by
  have a' : a.isAdHoc = false := by cases na <;> rfl
  have b' : b.isAdHoc = false := by cases nb <;> rfl
  cases h with
  | plain =>
    simp only [plainSig, matchArgs, List.length_nil, List.replicate_zero, bind_plain (base_plain ht),
      bind_plain (base_plain hu), base_ambiguous ht ha, base_ambiguous hu hb]
    cases t.goesWith a <;> cases u.goesWith b <;> rfl
  | all =>
    simp only [allSig, allExt, matchArgs, List.length_singleton, List.replicate_one, List.map,
      bind_all (base_plain ht) a', bind_all (base_plain hu) b', base_ambiguous ht ha, base_ambiguous hu hb]
    cases t.goesWith a <;> cases u.goesWith b <;> rfl

theorem insertVar_hasTy (n m : String) (t : Ty) (v : Val) : HasTy (t.insertVar n m) v ↔ HasTy t v := by
  induction t using single_induction with
  | h t ih => cases t <;> simp only [insertVar, HasTy]; exact ih _ (by simp [size])

theorem insertNoneVar_hasTy (n : String) (t : Ty) (v : Val) : HasTy (t.insertNoneVar n) v ↔ HasTy t v := by
  induction t using single_induction with
  | h t ih => cases t <;> simp only [insertNoneVar, HasTy]; exact ih _ (by simp [size])

/-- Filling in type variables changes names, not values. -/
theorem substRet_hasTy (ns : List String) (vs : Vars) (t : Ty) (v : Val) :
    HasTy (substRet ns vs t) v ↔ HasTy t v := by
  induction ns generalizing vs t with
  | nil => simp [substRet]
  | cons n ns ih =>
    cases vs with
    | nil => simp [substRet]
    | cons w vs =>
      cases w with
      | none => simp only [substRet]; rw [ih, insertNoneVar_hasTy]
      | some m => simp only [substRet]; rw [ih, insertVar_hasTy]

theorem binop_ofTys (op : BinFn) {sig : Sig} (hs : sig ∈ op.ext) :
    ∃ t u r, OfTys sig [t, u] r ∧ t ∈ baseTys ∧ u ∈ baseTys := by
  cases op <;> simp only [BinFn.ext, orderSigs, equalSigs, List.mem_cons, List.not_mem_nil, or_false] at hs
  all_goals
    (repeat' first
      | (rcases hs with rfl | hs)
      | subst hs)
    all_goals
      first
        | exact ⟨_, _, _, .plain, by simp [baseTys], by simp [baseTys]⟩
        | exact ⟨_, _, _, .all, by simp [baseTys], by simp [baseTys]⟩

/-! ## What works -/

/-- The type of parameters that fits a value, if operators take such values. -/
def kindTy : Val → Ty
  | .f64 .. => f64
  | .bool .. => bool
  | .vec4 _ => vec4
  | .mat4 _ => mat4
  | .str _ => str
  | .link _ => link
  | .object _ => object
  | .array _ => array any
  | .option _ => option any
  | _ => void

/-- Types that say what a value is: no `any`, no named types, no `void` in it. -/
inductive Solid : Ty → Prop
  | bool : Solid bool
  | f64 : Solid f64
  | vec4 : Solid vec4
  | mat4 : Solid mat4
  | str : Solid str
  | link : Solid link
  | object : Solid object
  | secBool : Solid (secret bool)
  | secF64 : Solid (secret f64)
  | array {t} : Solid t → Solid (array t)
  | option {t} : Solid t → Solid (option t)
  | result {t} : Solid t → Solid (result t)
  | thread {t} : Solid t → Solid (thread t)
  | inTy {t} : Solid t → Solid (inTy t)

theorem Solid.definite {t : Ty} (h : Solid t) : Definite t := by
  induction h <;> constructor <;> assumption

theorem Solid.noAdHoc {t : Ty} (h : Solid t) : NoAdHoc t := by
  induction h <;> repeat first | assumption | constructor

theorem any_solid {t : Ty} (h : Solid t) : any.goesWith t = true := by
  cases h <;> first
    | (rw [gw_secret _ rfl, goesWith.eq_def]; simp [isAdHoc, isUnreachable, isVoid])
    | (rw [goesWith.eq_def]; simp [isAdHoc, isUnreachable, isVoid])

theorem kind_goes {s : Ty} {v : Val} (hs : Solid s) (hv : HasTy s v)
    (hk : kindTy v ≠ void) : (kindTy v).goesWith s = true := by
  cases hs <;> simp only [HasTy] at hv
  case secBool =>
    obtain ⟨⟨b, s, rfl⟩, _⟩ := hv
    rw [kindTy, gw_secret _ rfl]; exact C04_refl _
  case secF64 =>
    obtain ⟨⟨b, s, rfl⟩, _⟩ := hv
    rw [kindTy, gw_secret _ rfl]; exact C04_refl _
  case array t h =>
    obtain ⟨xs, rfl, _⟩ := hv
    rw [kindTy, goesWith.eq_def]
    simp [isAdHoc, isUnreachable, any_solid h]
  case option t h =>
    rcases hv with rfl | ⟨x, rfl, _⟩ <;>
    · rw [kindTy, goesWith.eq_def]
      simp [isAdHoc, isUnreachable, any_solid h]
  case result t h =>
    rcases hv with ⟨x, rfl, _⟩ | ⟨_, _, rfl⟩ <;> exact absurd rfl hk
  all_goals
    first
      | (obtain ⟨_, _, rfl⟩ := hv; first | exact C04_refl _ | exact absurd rfl hk)
      | (obtain ⟨_, rfl⟩ := hv; first | exact C04_refl _ | exact absurd rfl hk)

theorem negate_ok {x : OpRes} {v : Val} (h : Op.negate x = .ok v) : ∃ w, x = .ok w := by
  cases x with
  | ok w => exact ⟨w, rfl⟩
  | error e => cases h

theorem equal_works {a b v : Val} (h : Op.equal a b = .ok v) :
    (∃ r, plainSig [kindTy a, kindTy b] r ∈ equalSigs) ∧ kindTy a ≠ void ∧ kindTy b ≠ void := by
  rw [Op.equal.eq_def] at h
  split at h <;> first
    | (cases h; done)
    | exact ⟨⟨bool, by simp [kindTy, equalSigs, plainSig]⟩, nofun, nofun⟩

theorem less_works {a b v : Val} (h : Op.less a b = .ok v) :
    (∃ r, plainSig [kindTy a, kindTy b] r ∈ orderSigs) ∧ kindTy a ≠ void ∧ kindTy b ≠ void := by
  unfold Op.less at h
  split at h <;> first
    | (cases h; done)
    | exact ⟨⟨bool, by simp [kindTy, orderSigs, plainSig]⟩, nofun, nofun⟩

theorem lessOrEqual_works {a b v : Val} (h : Op.lessOrEqual a b = .ok v) :
    (∃ r, plainSig [kindTy a, kindTy b] r ∈ orderSigs) ∧ kindTy a ≠ void ∧ kindTy b ≠ void := by
  unfold Op.lessOrEqual at h
  split at h <;> first
    | (cases h; done)
    | exact ⟨⟨bool, by simp [kindTy, orderSigs, plainSig]⟩, nofun, nofun⟩

theorem binop_works (op : BinFn) {a b v : Val} (h : op.run a b = .ok v) :
    (∃ r, plainSig [kindTy a, kindTy b] r ∈ op.ext ∨ allSig [kindTy a, kindTy b] r ∈ op.ext) ∧
      kindTy a ≠ void ∧ kindTy b ≠ void := by
  cases op <;> simp only [BinFn.run] at h
  case less => obtain ⟨⟨r, hr⟩, hk⟩ := less_works h; exact ⟨⟨r, .inl hr⟩, hk⟩
  case lessOrEqual => obtain ⟨⟨r, hr⟩, hk⟩ := lessOrEqual_works h; exact ⟨⟨r, .inl hr⟩, hk⟩
  case greater =>
    obtain ⟨w, hw⟩ := negate_ok h
    obtain ⟨⟨r, hr⟩, hk⟩ := lessOrEqual_works hw
    exact ⟨⟨r, .inl hr⟩, hk⟩
  case greaterOrEqual =>
    obtain ⟨w, hw⟩ := negate_ok h
    obtain ⟨⟨r, hr⟩, hk⟩ := less_works hw
    exact ⟨⟨r, .inl hr⟩, hk⟩
  case equal => obtain ⟨⟨r, hr⟩, hk⟩ := equal_works h; exact ⟨⟨r, .inl hr⟩, hk⟩
  case notEqual =>
    obtain ⟨w, hw⟩ := negate_ok h
    obtain ⟨⟨r, hr⟩, hk⟩ := equal_works hw
    exact ⟨⟨r, .inl hr⟩, hk⟩
  case add =>
    unfold Op.add at h
    split at h <;> first | (cases h; done) | (refine ⟨?_, nofun, nofun⟩; simp [kindTy, BinFn.ext, plainSig, allSig, allExt])
  case sub =>
    unfold Op.sub at h
    split at h <;> first | (cases h; done) | (refine ⟨?_, nofun, nofun⟩; simp [kindTy, BinFn.ext, plainSig, allSig, allExt])
  case mul =>
    unfold Op.mul at h
    split at h <;> first | (cases h; done) | (refine ⟨?_, nofun, nofun⟩; simp [kindTy, BinFn.ext, plainSig, allSig, allExt])
  case div =>
    unfold Op.div at h
    split at h <;> first | (cases h; done) | (refine ⟨?_, nofun, nofun⟩; simp [kindTy, BinFn.ext, plainSig, allSig, allExt])
  case rem =>
    unfold Op.rem at h
    split at h <;> first | (cases h; done) | (refine ⟨?_, nofun, nofun⟩; simp [kindTy, BinFn.ext, plainSig, allSig, allExt])
  case pow =>
    unfold Op.pow at h
    split at h <;> first | (cases h; done) | (refine ⟨?_, nofun, nofun⟩; simp [kindTy, BinFn.ext, plainSig, allSig, allExt])
  case dot =>
    unfold Op.dot at h
    split at h <;> first | (cases h; done) | (refine ⟨?_, nofun, nofun⟩; simp [kindTy, BinFn.ext, plainSig, allSig, allExt])

/-! ## The checker on operators -/

theorem loop_two {a b : Ty} (ha : Definite a) (hb : Definite b) (na : NoAdHoc a) (nb : NoAdHoc b) :
    ∀ (sigs : List Sig) (n : Nat), 0 < n →
      (∀ sig ∈ sigs, ∃ t u r, OfTys sig [t, u] r ∧ t ∈ baseTys ∧ u ∈ baseTys) →
      (∃ sig ∈ sigs, ∃ t u r, OfTys sig [t, u] r ∧ t ∈ baseTys ∧ u ∈ baseTys ∧ t.goesWith a = true ∧
        u.goesWith b = true ∧ refineLoop [some a, some b] sigs n =
          .found (substRet sig.names (List.replicate sig.names.length none) sig.ret)) ∨
      (refineLoop [some a, some b] sigs n = .mismatch ∧
        ∀ sig ∈ sigs, ∀ t u r, OfTys sig [t, u] r → t ∈ baseTys → u ∈ baseTys →
          ¬ (t.goesWith a = true ∧ u.goesWith b = true)) := by
  intro sigs
  induction sigs with
  | nil => intro n hn _; exact .inr ⟨by simp [refineLoop, hn], by simp⟩
  | cons sig sigs ih =>
    intro n hn hall
    obtain ⟨t, u, r, ho, ht, hu⟩ := hall sig (by simp)
    by_cases hg : t.goesWith a = true ∧ u.goesWith b = true
    · refine .inl ⟨sig, by simp, t, u, r, ho, ht, hu, hg.1, hg.2, ?_⟩
      simp [refineLoop, match_two ho ht hu ha hb na nb, hg.1, hg.2]
    · have hm : refineLoop [some a, some b] (sig :: sigs) n = refineLoop [some a, some b] sigs n := by
        simp only [refineLoop, match_two ho ht hu ha hb na nb]
        rw [if_neg (by simpa using hg)]
      rw [hm]
      rcases ih n hn (fun s hs => hall s (by simp [hs])) with ⟨s, hs, h⟩ | ⟨h1, h2⟩
      · exact .inl ⟨s, by simp [hs], h⟩
      · refine .inr ⟨h1, ?_⟩
        intro s hs t' u' r' ho' ht' hu' hg'
        rcases List.mem_cons.mp hs with rfl | hs
        · have h1 := match_two ho ht hu ha hb na nb
          rw [match_two ho' ht' hu' ha hb na nb, if_pos (by simpa using hg'), if_neg (by simpa using hg)] at h1
          cases h1
        · exact h2 s hs t' u' r' ho' ht' hu' hg'

theorem kind_base {v : Val} (h : kindTy v ≠ void) : kindTy v ∈ baseTys := by
  cases v <;> simp [kindTy, baseTys] at h ⊢

/-! ## C79: operators -/

/-- **C79** When the types of the two arguments of an operator are known, the checker decides: it gives the
expression a type or it refuses the program. -/
theorem C79_decided (op : BinFn) {s t : Ty} (hs : Definite s) (ht : Definite t) (ns : NoAdHoc s) (nt : NoAdHoc t) :
    (∃ r, refinePrelude [some s, some t] op.ext = .found r) ∨
      refinePrelude [some s, some t] op.ext = .mismatch := by
  have hn : 0 < op.ext.length := by cases op <;> simp [BinFn.ext, orderSigs, equalSigs]
  rcases loop_two hs ht ns nt op.ext _ hn (fun _ h => binop_ofTys op h) with
    ⟨sig, _, _, _, _, _, _, _, _, _, h⟩ | ⟨h, _⟩
  · exact .inl ⟨_, h⟩
  · exact .inr h

/-- **C79** An operator the checker accepts does not fail: for arguments of known types `s` and `t` the operation
gives a value, and the value has the type the checker gave the expression.  (`==` and `!=` on two options are
excepted.) -/
theorem C79_operator_accepted_partial (op : BinFn) {s t r : Ty} (hs : Definite s) (ht : Definite t) (ns : NoAdHoc s)
    (nt : NoAdHoc t) (hr : refinePrelude [some s, some t] op.ext = .found r)
    (ho : op = .equal ∨ op = .notEqual → ¬ ∃ s' t', s = option s' ∧ t = option t') (a b : Val)
    (ha : HasTy s a) (hb : HasTy t b) : ∃ v, op.run a b = .ok v ∧ HasTy r v := by
  have hn : 0 < op.ext.length := by cases op <;> simp [BinFn.ext, orderSigs, equalSigs]
  rcases loop_two hs ht ns nt op.ext _ hn (fun _ h => binop_ofTys op h) with
    ⟨sig, hm, t', u', r', hof, ht', hu', h1, h2, h⟩ | ⟨h, _⟩
  · unfold refinePrelude at hr
    rw [h] at hr
    injection hr with hr
    subst hr
    have a' := C05_sound_no_adHoc_partial t' s (base_source ht') hs ns h1 a ha
    have b' := C05_sound_no_adHoc_partial u' t (base_source hu') ht nt h2 b hb
    have hargs : HasTys2 sig.args a b := by
      cases hof with
      | plain => exact ⟨_, _, rfl, a', b'⟩
      | all => exact ⟨_, _, rfl, by simpa [HasTy] using a', by simpa [HasTy] using b'⟩
    obtain ⟨v, hv, hv'⟩ := binop_sig op hm (by
      intro e
      by_contra hc
      have hc' : op = .equal ∨ op = .notEqual := by
        by_contra h'
        push Not at h'
        exact hc h'
      apply ho hc'
      cases hof with
      | plain =>
        simp only [plainSig, List.cons.injEq, and_true] at e
        obtain ⟨rfl, rfl⟩ := e
        have key : ∀ {x : Ty}, Definite x → NoAdHoc x → (option any).goesWith x = true → ∃ y, x = option y := by
          intro x hx nx hg
          cases hx <;> first
            | exact ⟨_, rfl⟩
            | (cases nx; done)
            | (exfalso
               rw [gw_secret _ rfl, goesWith.eq_def] at hg
               simp [isAdHoc, isUnreachable, isAny] at hg)
            | (exfalso
               rw [goesWith.eq_def] at hg
               simp [isAdHoc, isUnreachable, isAny] at hg)
        obtain ⟨x, rfl⟩ := key hs ns h1
        obtain ⟨y, rfl⟩ := key ht nt h2
        exact ⟨x, y, rfl, rfl⟩
      | all => simp [allSig, allExt] at e) hargs
    exact ⟨v, hv, (substRet_hasTy _ _ _ _).mpr hv'⟩
  · unfold refinePrelude at hr
    rw [h] at hr
    cases hr

/-- **C79** An operator the checker refuses would fail: for arguments of types `s` and `t` the operation is an
error, whatever the values are. -/
theorem C79_operator_refused_partial (op : BinFn) {s t : Ty} (hs : Solid s) (ht : Solid t)
    (hr : refinePrelude [some s, some t] op.ext = .mismatch) (a b : Val)
    (ha : HasTy s a) (hb : HasTy t b) : ∃ e, op.run a b = .error e := by
  have hn : 0 < op.ext.length := by cases op <;> simp [BinFn.ext, orderSigs, equalSigs]
  cases hrun : op.run a b with
  | error e => exact ⟨e, rfl⟩
  | ok v =>
    exfalso
    obtain ⟨⟨r, hm⟩, k1, k2⟩ := binop_works op hrun
    have g1 := kind_goes hs ha k1
    have g2 := kind_goes ht hb k2
    rcases loop_two hs.definite ht.definite hs.noAdHoc ht.noAdHoc op.ext _ hn (fun _ h => binop_ofTys op h) with
      ⟨sig, _, _, _, _, _, _, _, _, _, h⟩ | ⟨_, h⟩
    · unfold refinePrelude at hr
      rw [h] at hr
      cases hr
    · rcases hm with hm | hm
      · exact h _ hm _ _ _ .plain (kind_base k1) (kind_base k2) ⟨g1, g2⟩
      · exact h _ hm _ _ _ .all (kind_base k1) (kind_base k2) ⟨g1, g2⟩

end Dyon
