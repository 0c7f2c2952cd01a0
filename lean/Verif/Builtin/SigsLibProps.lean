import Verif.Builtin.SigsProps
import Verif.Builtin.TextProps

/-!
# C79: the declared types of the functions of the library
-/

namespace Dyon

open Ty

variable [FloatOps] [VecMath] [Data.Lex] [TextOps]

/-- Every result satisfies `P`. -/
def SM.Gives {α : Type} (m : SM α) (P : α → Prop) : Prop := ∀ st a st', m st = .ok a st' → P a

theorem gives_bind {α β : Type} {m : SM α} {f : α → SM β} {P : β → Prop} (h : ∀ a, (f a).Gives P) :
    (m >>= f).Gives P := by
  intro st a st' he
  rw [SM.bind_apply] at he
  cases hm : m st <;> rw [hm] at he <;> simp only [reduceCtorEq] at he
  exact h _ _ _ _ he

theorem gives_pure {α : Type} {a : α} {P : α → Prop} (h : P a) : (pure a : SM α).Gives P := by
  intro st b st' he
  simp only [SM.pure_apply, Out.ok.injEq] at he
  exact he.1 ▸ h

theorem gives_fail {α : Type} {m : String} {P : α → Prop} : (SM.fail m : SM α).Gives P := by
  intro st b st' he
  cases he

theorem gives_panic {α : Type} {P : α → Prop} : (SM.panic : SM α).Gives P := by
  intro st b st' he
  cases he

theorem gives_map {α β : Type} {m : SM α} {f : α → β} {P : β → Prop} (h : m.Gives fun a => P (f a)) :
    (f <$> m).Gives P := by
  intro st a st' he
  change SM.bind m (fun x => SM.pure (f x)) st = _ at he
  unfold SM.bind at he
  cases hm : m st <;> rw [hm] at he <;> simp only [reduceCtorEq, SM.pure, Out.ok.injEq] at he
  exact he.1 ▸ h _ _ _ hm

theorem gives_any {α : Type} {m : SM α} {P : α → Prop} (h : ∀ a, P a) : m.Gives P := fun _ a _ _ => h a

theorem gives_min (xs : List Val) {P : Val → Prop} (h : ∀ x, P (.ofF64 x)) : (Lib.minOf xs).Gives P := by
  intro st b st' he
  unfold Lib.minOf at he
  split at he <;> simp only [reduceCtorEq, Out.ok.injEq] at he
  exact he.1 ▸ h _

theorem gives_max (xs : List Val) {P : Val → Prop} (h : ∀ x, P (.ofF64 x)) : (Lib.maxOf xs).Gives P := by
  intro st b st' he
  unfold Lib.maxOf at he
  split at he <;> simp only [reduceCtorEq, Out.ok.injEq] at he
  exact he.1 ▸ h _

/-- What a function declared with a result type returns. -/
def Returns (ret : Option Ty) (v : Option Val) : Prop :=
  match ret, v with
  | some t, some v => HasTy t v
  | none, none => True
  | _, _ => False

macro "gives" : tactic => `(tactic|
  repeat' first
    | (refine gives_bind fun _ => ?_)
    | exact gives_fail
    | exact gives_panic
    | (refine gives_pure ?_)
    | (refine gives_min _ fun _ => ?_)
    | (refine gives_max _ fun _ => ?_)
    | split
    | dsimp only)

/-- **C79** Whatever its arguments are, a function of the library that returns at all returns a value of the
type it is declared with, and nothing when it is declared without one.  (`cv` is excepted.) -/
theorem C79_library_result_partial (c : Cfg) (f : LibFn) (hf : f ≠ .cv) (st st' : Stack) (v : Option Val)
    (h : f.run c st = .ok v st') : Returns f.decl.2 v := by
  suffices hg : (f.run c).Gives (Returns f.decl.2) from hg st v st' h
  cases f
  case cv => exact absurd rfl hf
  all_goals
    simp only [LibFn.run, LibFn.decl]
    refine gives_map ?_
    simp only [Returns, HasTy]
    first
      | exact gives_any fun _ => trivial
      | (first
          | unfold Lib.why | unfold Lib.where' | unfold Lib.explainWhy | unfold Lib.explainWhere
          | unfold Lib.some' | unfold Lib.ok' | unfold Lib.err' | unfold Lib.none' | unfold Lib.isErr
          | unfold Lib.isOk | unfold Lib.min | unfold Lib.max | unfold Lib.tip | unfold Lib.tail
          | unfold Lib.neck | unfold Lib.isEmpty | unfold Lib.x | unfold Lib.y | unfold Lib.z | unfold Lib.w
          | unfold Lib.s | unfold Lib.rx | unfold Lib.ry | unfold Lib.rz | unfold Lib.rw | unfold Lib.rv
          | unfold Lib.cx | unfold Lib.cy | unfold Lib.cz | unfold Lib.cw | unfold Lib.vec4Lit
          | unfold Lib.mat4Lit
         gives
         all_goals first
          | exact ⟨_, _, rfl⟩
          | exact ⟨_, rfl⟩
          | exact ⟨_, rfl, fun _ _ => trivial⟩
          | exact ⟨⟨_, _, rfl⟩, .inl ⟨_, _, rfl⟩⟩
          | exact ⟨⟨_, _, rfl⟩, .inr ⟨_, _, rfl⟩⟩
          | exact .inl rfl
          | exact .inr ⟨_, rfl, trivial⟩
          | exact .inl ⟨_, rfl, trivial⟩
          | exact .inr ⟨_, _, rfl⟩
          | (cases List.getLast? _ with
             | none => exact .inl rfl
             | some x => exact .inr ⟨_, rfl, trivial⟩))

/-- **C79** The same for the functions on texts, objects and matrices. -/
theorem C79_library_more (c : Cfg) (f : MoreFn) (st st' : Stack) (v : Val)
    (h : f.run c st = .ok v st') : HasTy f.decl.2 v := by
  suffices hg : (f.run c).Gives (HasTy f.decl.2) from hg st v st' h
  cases f <;> simp only [MoreFn.run, MoreFn.decl, HasTy]
  all_goals
    first
      | unfold Lib.cross | unfold Lib.mov | unfold Lib.ortho | unfold Lib.mvp | unfold Lib.scale
      | unfold Lib.trim | unfold Lib.trimLeft | unfold Lib.trimRight | unfold Lib.parseNumber
      | unfold Lib.isNan | unfold Lib.has | unfold Lib.keys | unfold Lib.chars | unfold Lib.typeof'
      | unfold Lib.strColor
    gives
    all_goals first
      | exact ⟨_, _, rfl⟩
      | exact ⟨_, rfl⟩
      | (refine ⟨_, rfl, fun x hx => ?_⟩
         obtain ⟨y, _, rfl⟩ := List.mem_map.mp hx
         exact ⟨_, rfl⟩)
      | (cases TextOps.parse _ with
         | none => exact .inl rfl
         | some x => exact .inr ⟨_, rfl, _, _, rfl⟩)

/-- The functions of the library that cannot fail on arguments of the declared types. -/
def LibFn.sure : List LibFn :=
  [.none', .isErr, .isOk, .min, .max, .head, .tip, .tail, .neck, .isEmpty, .x, .y, .z, .w, .rx, .ry, .rz, .rw,
   .cx, .cy, .cz, .cw, .vec4Lit, .mat4Lit, .andAlso, .orElse]

/-- The arguments of a call, as values or as references to variables below them on the stack, are of the types
`ts`. -/
def Args (base : Stack) (ts : List Ty) (args : List Val) : Prop :=
  List.Forall₂ (fun t a => ∃ w, Denotes base a w ∧ HasTy t w) ts args

omit [FloatOps] [VecMath] [Data.Lex] [TextOps] in
theorem args_nil {base : Stack} {args : List Val} (h : Args base [] args) : args = [] := by
  cases h; rfl

omit [FloatOps] [VecMath] [Data.Lex] [TextOps] in
theorem args_cons {base : Stack} {t : Ty} {ts : List Ty} {args : List Val} (h : Args base (t :: ts) args) :
    ∃ a as w, args = a :: as ∧ Denotes base a w ∧ HasTy t w ∧ Args base ts as := by
  cases h with
  | cons h1 h2 => obtain ⟨w, h3, h4⟩ := h1; exact ⟨_, _, w, rfl, h3, h4, h2⟩

theorem map_ok {α : Type} {m : SM α} {st st' : Stack} (h : ∃ a, m st = .ok a st') :
    ∃ a, (some <$> m) st = .ok (some a) st' := by
  obtain ⟨a, h⟩ := h
  refine ⟨a, ?_⟩
  change SM.bind m (fun x => SM.pure (some x)) st = _
  unfold SM.bind
  rw [h]; rfl

theorem map_eq {α : Type} {m : SM α} {st st' : Stack} {a : α} (h : m st = .ok a st') :
    (some <$> m) st = .ok (some a) st' := by
  change SM.bind m (fun x => SM.pure (some x)) st = _
  unfold SM.bind
  rw [h]; rfl

theorem minLoop_some (st : Stack) : ∀ (xs : List Val) (acc : F64), (∀ x ∈ xs, HasTy f64 x) →
    ∃ y, Lib.minLoop st acc xs = some y := by
  intro xs
  induction xs with
  | nil => intro acc _; exact ⟨acc, rfl⟩
  | cons x xs ih =>
    intro acc h
    obtain ⟨y, s, rfl⟩ := h x (by simp)
    exact ih _ fun z hz => h z (by simp [hz])

theorem maxLoop_some (st : Stack) : ∀ (xs : List Val) (acc : F64), (∀ x ∈ xs, HasTy f64 x) →
    ∃ y, Lib.maxLoop st acc xs = some y := by
  intro xs
  induction xs with
  | nil => intro acc _; exact ⟨acc, rfl⟩
  | cons x xs ih =>
    intro acc h
    obtain ⟨y, s, rfl⟩ := h x (by simp)
    exact ih _ fun z hz => h z (by simp [hz])

/-- **C79** These functions never fail on arguments of the types they are declared with: they take exactly their
arguments off the stack and return a value of the declared type. -/
theorem C79_library_sure (c : Cfg) (f : LibFn) (hf : f ∈ LibFn.sure) (base : Stack) (args : List Val)
    (ha : Args base f.decl.1 args) :
    ∃ v, f.run c (base ++ args) = .ok (some v) base ∧ Returns f.decl.2 (some v) := by
  suffices h : ∃ v, f.run c (base ++ args) = .ok (some v) base by
    obtain ⟨v, hv⟩ := h
    refine ⟨v, hv, C79_library_result_partial c f ?_ _ _ _ hv⟩
    rintro rfl
    simp [LibFn.sure] at hf
  simp only [LibFn.sure, List.mem_cons, List.not_mem_nil, or_false] at hf
  rcases hf with rfl | rfl | rfl | rfl | rfl | rfl | rfl | rfl | rfl | rfl | rfl | rfl | rfl | rfl | rfl | rfl |
    rfl | rfl | rfl | rfl | rfl | rfl | rfl | rfl | rfl | rfl <;>
  simp only [LibFn.decl, LibFn.run] at ha ⊢
  all_goals apply map_ok
  case inl =>
    cases args_nil ha
    simp [Lib.none']
  all_goals
    obtain ⟨a1, as, w1, rfl, hd1, ht1, ha⟩ := args_cons ha
    first
      | cases args_nil ha
      | (obtain ⟨a2, as, w2, rfl, hd2, ht2, ha⟩ := args_cons ha
         first
           | cases args_nil ha
           | (obtain ⟨a3, as, w3, rfl, hd3, ht3, ha⟩ := args_cons ha
              obtain ⟨a4, as, w4, rfl, hd4, ht4, ha⟩ := args_cons ha
              cases args_nil ha))
  all_goals simp only [HasTy, implies_true, and_true] at ht1
  all_goals
    first
      | (obtain ⟨x1, rfl⟩ := ht1
         first
           | (simp [Lib.head, Lib.tip, Lib.tail, Lib.neck, Lib.isEmpty, Lib.popLink, hd1.getV']; done)
           | (simp [Lib.x, Lib.y, Lib.z, Lib.w, Lib.popVec4, hd1.getV']; done)
           | (simp [Lib.rx, Lib.ry, Lib.rz, Lib.rw, Lib.cx, Lib.cy, Lib.cz, Lib.cw, Lib.popMat4, hd1.getV']; done)
           | (obtain ⟨x2, rfl⟩ := ht2
              obtain ⟨x3, rfl⟩ := ht3
              obtain ⟨x4, rfl⟩ := ht4
              simp [Lib.mat4Lit, Lib.popVec4, hd1.getV', hd2.getV, hd3.getV, hd4.getV]
              done))
      | (obtain ⟨x1, s1, rfl⟩ := ht1
         obtain ⟨x2, s2, rfl⟩ := ht2
         first
           | (simp [Lib.andAlso, Lib.orElse, hd1.getV', hd2.getV']; done)
           | (obtain ⟨x3, s3, rfl⟩ := ht3
              obtain ⟨x4, s4, rfl⟩ := ht4
              have n1 := hd1.number (c := c) []
              simp only [List.append_nil] at n1
              simp [Lib.vec4Lit, n1, hd2.number, hd3.number, hd4.number]
              done))
      | (rcases ht1 with ⟨x, rfl⟩ | ⟨m, tr, rfl⟩ <;> (simp [Lib.isErr, Lib.isOk, hd1.getV']; done))
      | (obtain ⟨xs, rfl, hx⟩ := ht1
         obtain ⟨y, hy⟩ := minLoop_some base xs F64.nan hx
         obtain ⟨z, hz⟩ := maxLoop_some base xs F64.nan hx
         first
           | (simp [Lib.min, Lib.minOf, hd1.getV', hy]; done)
           | (simp [Lib.max, Lib.maxOf, hd1.getV', hz]; done))

/-- **C79** The same for the functions on texts, objects and matrices: none of them fails. -/
theorem C79_library_more_sure (c : Cfg) (f : MoreFn) (base : Stack) (args : List Val)
    (ha : Args base f.decl.1 args) :
    ∃ v, f.run c (base ++ args) = .ok v base ∧ HasTy f.decl.2 v := by
  suffices h : ∃ v, f.run c (base ++ args) = .ok v base by
    obtain ⟨v, hv⟩ := h
    exact ⟨v, hv, C79_library_more c f _ _ _ hv⟩
  cases f <;> simp only [MoreFn.decl, MoreFn.run] at ha ⊢
  all_goals
    obtain ⟨a1, as, w1, rfl, hd1, ht1, ha⟩ := args_cons ha
    first
      | cases args_nil ha
      | (obtain ⟨a2, as, w2, rfl, hd2, ht2, ha⟩ := args_cons ha
         first
           | cases args_nil ha
           | (obtain ⟨a3, as, w3, rfl, hd3, ht3, ha⟩ := args_cons ha
              first
                | cases args_nil ha
                | (obtain ⟨a4, as, w4, rfl, hd4, ht4, ha⟩ := args_cons ha
                   cases args_nil ha)))
  case typeof' => simp [Lib.typeof', hd1.getV']
  case strColor =>
    obtain ⟨x1, rfl⟩ := ht1
    obtain ⟨t, h, _⟩ := C72_color (c := c) hd1
    exact ⟨_, h⟩
  case isNan =>
    obtain ⟨x1, s1, rfl⟩ := ht1
    simp [Lib.isNan, hd1.getV']
  case cross =>
    obtain ⟨x1, rfl⟩ := ht1
    obtain ⟨x2, rfl⟩ := ht2
    simp [Lib.cross, Lib.popVec4, hd1.getV', hd2.getV]
  case has =>
    obtain ⟨x1, rfl⟩ := ht1
    obtain ⟨x2, rfl⟩ := ht2
    simp [Lib.has, hd1.getV', hd2.getV]
  case ortho =>
    obtain ⟨x1, rfl⟩ := ht1
    obtain ⟨x2, rfl⟩ := ht2
    obtain ⟨x3, rfl⟩ := ht3
    obtain ⟨x4, rfl⟩ := ht4
    simp [Lib.ortho, Lib.popVec4, hd1.getV', hd2.getV, hd3.getV, hd4.getV]
  case mvp =>
    obtain ⟨x1, rfl⟩ := ht1
    obtain ⟨x2, rfl⟩ := ht2
    obtain ⟨x3, rfl⟩ := ht3
    simp [Lib.mvp, Lib.popMat4, hd1.getV', hd2.getV, hd3.getV]
  all_goals
    obtain ⟨x1, rfl⟩ := ht1
    simp [Lib.mov, Lib.scale, Lib.popVec4, Lib.trim, Lib.trimLeft, Lib.trimRight, Lib.parseNumber, Lib.popText,
      Lib.keys, Lib.chars, hd1.getV']

/-! ## `&&`, `||`, `!` and `-` -/

/-- **C79** The checker's signatures of `&&` and `||` are right: two booleans, the first one secret or not, give a
boolean, secret or not. -/
theorem C79_lazy (c : Cfg) (f : LibFn) (hf : f = .andAlso ∨ f = .orElse) {sig : Sig} (hs : sig ∈ lazySigs)
    (base : Stack) (args : List Val) (ha : Args base sig.args args) :
    ∃ v, f.run c (base ++ args) = .ok (some v) base ∧ HasTy sig.ret v := by
  simp only [lazySigs, List.mem_cons, List.not_mem_nil, or_false] at hs
  rcases hs with rfl | rfl <;> simp only [plainSig] at ha ⊢ <;>
  · obtain ⟨a1, as, w1, rfl, hd1, ht1, ha⟩ := args_cons ha
    obtain ⟨a2, as, w2, rfl, hd2, ht2, ha⟩ := args_cons ha
    cases args_nil ha
    have key : ∀ x1 s1 x2 s2, w1 = .bool x1 s1 → w2 = .bool x2 s2 →
        ∃ b, f.run c (base ++ [a1, a2]) = .ok (some (.bool b s1)) base := by
      rintro x1 s1 x2 s2 rfl rfl
      rcases hf with rfl | rfl
      · exact ⟨x1 && x2, map_eq (by simp [Lib.andAlso, hd1.getV', hd2.getV'])⟩
      · exact ⟨x1 || x2, map_eq (by simp [Lib.orElse, hd1.getV', hd2.getV'])⟩
    split_ty ht1
    split_ty ht2
    obtain ⟨b, hb⟩ := key _ _ _ _ rfl rfl
    refine ⟨_, hb, ?_⟩
    simp only [HasTy]
    first
      | exact ⟨_, _, rfl⟩
      | exact ⟨⟨_, _, rfl⟩, .inl ⟨_, _, rfl⟩⟩

theorem loop_one {a : Ty} (ha : Definite a) :
    ∀ (sigs : List Sig) (n : Nat), 0 < n → (∀ sig ∈ sigs, ∃ t r, sig = plainSig [t] r ∧ t ∈ baseTys) →
      (∃ t r, plainSig [t] r ∈ sigs ∧ t ∈ baseTys ∧ t.goesWith a = true ∧ refineLoop [some a] sigs n = .found r) ∨
      (refineLoop [some a] sigs n = .mismatch ∧ ∀ t r, plainSig [t] r ∈ sigs → t.goesWith a = false) := by
  intro sigs
  induction sigs with
  | nil => intro n hn _; exact .inr ⟨by simp [refineLoop, hn], by simp⟩
  | cons sig sigs ih =>
    intro n hn hall
    obtain ⟨t, r, rfl, ht⟩ := hall sig (by simp)
    have hm : refineLoop [some a] (plainSig [t] r :: sigs) n =
        if t.goesWith a then .found r else refineLoop [some a] sigs n := by
      simp only [refineLoop, plainSig, matchArgs, List.length_nil, List.replicate_zero, bind_plain (base_plain ht),
        base_ambiguous ht ha]
      cases t.goesWith a <;> rfl
    cases hg : t.goesWith a with
    | true => exact .inl ⟨t, r, by simp, ht, hg, by rw [hm, hg]; rfl⟩
    | false =>
      rw [hm, hg]
      rcases ih n hn (fun s hs => hall s (by simp [hs])) with ⟨t', r', h1, h2⟩ | ⟨h1, h2⟩
      · exact .inl ⟨t', r', by simp [h1], h2⟩
      · refine .inr ⟨h1, fun t' r' hm' => ?_⟩
        rcases List.mem_cons.mp hm' with he | hm'
        · simp only [plainSig, Sig.mk.injEq, List.cons.injEq, and_true, true_and] at he
          rw [he.1]; exact hg
        · exact h2 t' r' hm'

theorem unop_ofTys (op : UnFn) : ∀ sig ∈ op.ext, ∃ t r, sig = plainSig [t] r ∧ t ∈ baseTys := by
  cases op <;> simp only [UnFn.ext, List.mem_cons, List.not_mem_nil, or_false] <;>
  · rintro sig (rfl | rfl | rfl) <;> exact ⟨_, _, rfl, by simp [baseTys]⟩

/-- **C79** `!x` and `-x`: what the checker accepts gives a value of the type the checker gives it. -/
theorem C79_unary_accepted_partial (op : UnFn) {s r : Ty} (hs : Definite s) (ns : NoAdHoc s)
    (hr : refinePrelude [some s] op.ext = .found r) (a : Val) (ha : HasTy s a) :
    ∃ v, op.run a = .ok v ∧ HasTy r v := by
  have hn : 0 < op.ext.length := by cases op <;> simp [UnFn.ext]
  unfold refinePrelude at hr
  rcases loop_one hs op.ext _ hn (unop_ofTys op) with ⟨t, r', hm, ht, hg, he⟩ | ⟨he, _⟩ <;> rw [he] at hr
  · cases hr
    exact unop_sig op hm rfl (C05_sound_no_adHoc_partial t s (base_source ht) hs ns hg a ha)
  · cases hr

/-- **C79** `!x` and `-x`: what the checker refuses would fail. -/
theorem C79_unary_refused_partial (op : UnFn) {s : Ty} (hs : Solid s)
    (hr : refinePrelude [some s] op.ext = .mismatch) (a : Val) (ha : HasTy s a) :
    ∃ e, op.run a = .error e := by
  have hn : 0 < op.ext.length := by cases op <;> simp [UnFn.ext]
  unfold refinePrelude at hr
  rcases loop_one hs.definite op.ext _ hn (unop_ofTys op) with ⟨t, r', _, _, _, he⟩ | ⟨_, hall⟩
  · rw [he] at hr
    cases hr
  · cases hrun : op.run a with
    | error e => exact ⟨e, rfl⟩
    | ok v =>
      exfalso
      have key : kindTy a ≠ void ∧ ∃ r, plainSig [kindTy a] r ∈ op.ext := by
        cases op <;> cases a <;> simp only [UnFn.run, Op.not, Op.neg, reduceCtorEq] at hrun <;>
          exact ⟨nofun, by simp [kindTy, UnFn.ext, plainSig]⟩
      obtain ⟨hk, r, hm⟩ := key
      have := hall _ _ hm
      rw [kind_goes hs ha hk] at this
      cases this

/-! ## Findings -/

namespace SigsDemo

/-- **C79** finding: `cv` is declared to return a `vec4`; on every matrix and every valid index it returns the
matrix. -/
theorem C79_cv (c : Cfg) (base : Stack) (m : Mat4) (i : F64) (sec : Option (List Val)) (hi : i.toUsize < 4) :
    LibFn.cv.decl.2 = some vec4 ∧
      LibFn.cv.run c (base ++ [.mat4 m, .f64 i sec]) = .ok (some (.mat4 m)) base ∧ ¬ HasTy vec4 (.mat4 m) := by
  refine ⟨rfl, map_eq ?_, by rintro ⟨x, hx⟩; cases hx⟩
  have : ¬ 4 ≤ i.toUsize := by omega
  simp [Lib.cv, Lib.popF64!, Lib.popMat4!, getV, this]

example : (F64.ofNat 2).toUsize < 4 := by rw [F64.ofNat_toUsize] <;> omega

/-- **C79** finding: the checker accepts `some(a) == some(b)` for links, and gives it the type `bool`; the
operation fails. -/
theorem C79_option_links (a b : List Link.Scalar) :
    refinePrelude [some (option link), some (option link)] BinFn.equal.ext = .found bool ∧
      HasTy (option link) (.option (some (.link a))) ∧ HasTy (option link) (.option (some (.link b))) ∧
      ∃ e, BinFn.equal.run (.option (some (.link a))) (.option (some (.link b))) = .error e := by
  refine ⟨by with_unfolding_all rfl, .inr ⟨_, rfl, _, rfl⟩, .inr ⟨_, rfl, _, rfl⟩, ?_⟩
  exact ⟨_, by simp only [BinFn.run]; rw [Op.equal.eq_def]; rfl⟩

/-- **C79** finding: so does a comparison of an optional number with an optional text. -/
theorem C79_option_mixed (x : F64) (t : String) :
    refinePrelude [some (option f64), some (option str)] BinFn.equal.ext = .found bool ∧
      ∃ e, BinFn.equal.run (.option (some (.ofF64 x))) (.option (some (.str t))) = .error e := by
  refine ⟨by with_unfolding_all rfl, ?_⟩
  exact ⟨_, by simp only [BinFn.run]; rw [Op.equal.eq_def]; rfl⟩

/-- **C79** finding: a named number compared to a number gets the type `sec[bool]`, of which the value has no
secret; `why` of it is accepted by the checker and fails. -/
theorem C79_named_secret (c : Cfg) (x y : F64) (base : Stack) :
    refinePrelude [some (adHoc "Meter" f64), some f64] BinFn.less.ext = .found (secret bool) ∧
      HasTy (adHoc "Meter" f64) (.ofF64 x) ∧ HasTy f64 (.ofF64 y) ∧
      ∃ v, BinFn.less.run (.ofF64 x) (.ofF64 y) = .ok v ∧ ¬ HasTy (secret bool) v ∧
        ∃ e, LibFn.why.run c (base ++ [v]) = .err e base := by
  refine ⟨by with_unfolding_all rfl, ⟨_, _, rfl⟩, ⟨_, _, rfl⟩, _, rfl, ?_, ?_⟩
  · rintro ⟨_, ⟨_, _, h⟩ | ⟨_, _, h⟩⟩ <;> cases h
  · have : ∃ e, Lib.why c (base ++ [.bool (F64.lt x y) none]) = .err e base := by
      cases F64.lt x y <;> simp [Lib.why, getV, SM.fail]
    obtain ⟨e, he⟩ := this
    refine ⟨e, ?_⟩
    change SM.bind (Lib.why c) (fun x => SM.pure (some x)) _ = _
    unfold SM.bind
    erw [he]

/-- **C79** finding: `[] == []` is refused when nothing is known of the elements but that there are none
(`Solid` in the theorem about refused operators leaves `void` out for that). -/
theorem C79_void_arrays :
    refinePrelude [some (array void), some (array void)] BinFn.equal.ext = .mismatch ∧
      BinFn.equal.run (.array []) (.array []) = .ok (.bool true none) := by
  refine ⟨by with_unfolding_all rfl, ?_⟩
  simp only [BinFn.run]
  rw [Op.equal.eq_def]
  rfl

/-! ### The theorems on cases -/

example : refinePrelude [some vec4, some f64] BinFn.mul.ext = .found vec4 := by with_unfolding_all rfl
example : refinePrelude [some (secret f64), some f64] BinFn.greater.ext = .found (secret bool) := by
  with_unfolding_all rfl
example : refinePrelude [some mat4, some link] BinFn.add.ext = .mismatch := by with_unfolding_all rfl
example : refinePrelude [some (array f64), some (array str)] BinFn.notEqual.ext = .found bool := by
  with_unfolding_all rfl
example : refinePrelude [some (secret bool)] UnFn.not.ext = .found (secret bool) := by with_unfolding_all rfl
example : refinePrelude [some str] UnFn.neg.ext = .mismatch := by with_unfolding_all rfl
example : Definite (array (option str)) ∧ NoAdHoc (array (option str)) ∧ Solid (array (option str)) :=
  ⟨.array (.option .str), .array (.option .str), .array (.option .str)⟩
/-- Two arguments: a value and a reference to a variable. -/
example : Args [.object []] MoreFn.has.decl.1 [.ref 0, .str "k"] :=
  .cons ⟨_, .inl ⟨0, rfl, rfl⟩, _, rfl⟩ (.cons ⟨_, .inr ⟨by simp, rfl⟩, _, rfl⟩ .nil)

end SigsDemo

end Dyon
