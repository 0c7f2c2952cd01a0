import Verif.Sound.SmallTypes
import Verif.Sound.Props

/-!
# Small programs run

Lemmas for C81: what is loaded for a file of the language of `Sound/Small.lean` is a typed module.
-/

namespace Dyon.Sound.Small

open Check Check.Spec
open Sound.Spec (Honest)
open Ty (HasTy)
open Front (ModSrc Entry Target FnSrc)

/-! ## Typed expressions are in scope -/

/-- The number of arguments and whether there is a result, of the functions that may be called. -/
def Counts (k : Ctx) (ar : Int → Nat) (ts : List Ty) : FnIndex → Prop
  | .loaded f => ts.length = ar f ∧ k.rets f = true
  | .ret f => ts.length = k.retAr f
  | .binop _ | .unop _ => True
  | _ => False

theorem width_one {R : FnIndex → String → List Ty → Ty → Prop} {Γ : List (String × Ty)} {e : Expr} {T : Ty} (h : Typing R Γ e T) :
    e.width = 1 ∧ e.isSwizzle = false ∧ e.adds = [] ∧ Dyon.decl e = [] := by
  cases h <;> exact ⟨rfl, rfl, rfl, rfl⟩

theorem typings_length {R : FnIndex → String → List Ty → Ty → Prop} {Γ : List (String × Ty)} : ∀ {es : List Expr} {ts : List Ty}, Typings R Γ es ts →
    es.length = ts.length ∧ argLen es = ts.length
  | _, _, .nil => ⟨rfl, rfl⟩
  | _, _, .cons h1 h2 => by
    obtain ⟨a, b⟩ := typings_length h2
    refine ⟨by simp [a], ?_⟩
    simp only [argLen, List.map_cons, List.sum_cons, (width_one h1).1, List.length_cons] at b ⊢
    omega

theorem extend_sub {Γ : List (String × Ty)} {E : Env} {x : String} {U : Ty} (hE : ∀ x T, (x, T) ∈ Γ → some x ∈ E) :
    ∀ y T, (y, T) ∈ extend Γ x U → some y ∈ E ++ [some x] := by
  intro y T h
  simp only [extend, List.mem_cons, Prod.mk.injEq, List.mem_filter] at h
  rcases h with ⟨rfl, -⟩ | ⟨h, -⟩
  · simp
  · exact List.mem_append_left _ (hE y T h)

mutual
theorem typing_scoped {R : FnIndex → String → List Ty → Ty → Prop} (k : Ctx) (ar : Int → Nat)
    (hR : ∀ f n ts T, R f n ts T → Counts k ar ts f) : ∀ {Γ e T}, Typing R Γ e T →
    (∀ (E : Env) os, (∀ x T, (x, T) ∈ Γ → some x ∈ E) → e.Scoped k ar E os) ∧ e.WF k ∧ Valued k e = true
  | _, _, _, .const _ _ => ⟨fun E os h => by simp [Expr.Scoped], by simp [Expr.WF], by simp [Valued]⟩
  | _, _, _, .var h => ⟨fun E os hE => by simp [Expr.Scoped, SItem, SIds, hE _ _ h], by simp [Expr.WF, WFitem, WFids], by simp [Valued]⟩
  | _, _, _, .call (f := f) hr ha => by
    have hc := hR _ _ _ _ hr
    obtain ⟨h1, h2, h3, h4, -⟩ := typings_scoped k ar hR ha
    obtain ⟨l1, l2⟩ := typings_length ha
    cases f with
    | loaded f =>
      refine ⟨fun E os hE => ?_, ⟨h3, trivial⟩, hc.2⟩
      simp only [Expr.Scoped]
      exact ⟨h1 _ os fun x T h => List.mem_append_left _ (hE x T h), by rw [l2]; exact hc.1, h4⟩
    | ret f =>
      refine ⟨fun E os hE => ?_, ⟨h3, by rw [l1]; exact hc⟩, rfl⟩
      simp only [Expr.Scoped]
      exact ⟨h1 _ os fun x T h => List.mem_append_left _ (hE x T h), trivial⟩
    | binop f =>
      refine ⟨fun E os hE => ?_, ⟨h3, trivial⟩, rfl⟩
      simp only [Expr.Scoped]
      exact ⟨h2 _ os hE, trivial⟩
    | unop f =>
      refine ⟨fun E os hE => ?_, ⟨h3, trivial⟩, rfl⟩
      simp only [Expr.Scoped]
      exact ⟨h1 _ os fun x T h => List.mem_append_left _ (hE x T h), trivial⟩
    | void f => exact absurd hc (by simp [Counts])
    | lazy f i => exact absurd hc (by simp [Counts])
    | none => exact absurd hc (by simp [Counts])
  | _, _, _, .ite h1 h2 h3 => by
    obtain ⟨a1, b1, -⟩ := typing_scoped k ar hR h1
    obtain ⟨a2, b2, c2⟩ := typing_scoped k ar hR h2
    obtain ⟨a3, b3, c3⟩ := typing_scoped k ar hR h3
    refine ⟨fun E os hE => ?_, ?_, ?_⟩
    · simp only [Expr.Scoped, SSeq, SElifs, SOptSeq]
      exact ⟨a1 E os hE, ⟨a2 E os hE, (width_one h2).2.1, fun h => absurd rfl h, trivial⟩, trivial,
        ⟨a3 E os hE, (width_one h3).2.1, fun h => absurd rfl h, trivial⟩⟩
    · simp only [Expr.WF, WFs, WFelifs, WFoptList]
      exact ⟨b1, ⟨b2, trivial⟩, trivial, b3, trivial⟩
    · simp [Valued, ValuedLast, ValuedBlocks, c2, c3]
  | _, _, _, .fold (start := start) hk h1 h2 h3 => by
    obtain ⟨a2, b2, -⟩ := typing_scoped k ar hR h2
    obtain ⟨a3, b3, -⟩ := typing_scoped k ar hR h3
    have h1' := fun a ha => typing_scoped k ar hR (h1 a ha)
    refine ⟨fun E os hE => ?_, ?_, ?_⟩
    · simp only [Expr.Scoped, SSeq]
      refine ⟨?_, a2 E os hE, a3 _ os (extend_sub hE), (width_one h3).2.1, fun h => absurd rfl h, trivial⟩
      cases start with
      | none => exact trivial
      | some a => exact (h1' a rfl).1 E os hE
    · simp only [Expr.WF, WFs]
      refine ⟨?_, b2, ⟨b3, trivial⟩, fun h => ?_⟩
      · cases start with
        | none => exact trivial
        | some a => exact (h1' a rfl).2.1
      · cases hk <;> cases h
    · cases hk <;> rfl
  | _, _, _, .vec4 h => by
    obtain ⟨h1, -, h3, h4, -⟩ := typings_scoped k ar hR h
    refine ⟨fun E os hE => by simpa only [Expr.Scoped] using h1 E os hE, ?_, rfl⟩
    simp only [Expr.WF]
    refine ⟨h3, h4, ?_⟩
    cases h with | cons q1 h => cases h with | cons q2 h => cases h with | cons q3 h => cases h with | cons q4 h =>
    simp [fits, (width_one q1).1, (width_one q2).1, (width_one q3).1, (width_one q4).1]
  | _, _, _, .mat4 h => by
    obtain ⟨h1, -, h3, h4, -⟩ := typings_scoped k ar hR h
    cases h with | cons q1 h => cases h with | cons q2 h => cases h with | cons q3 h => cases h with | cons q4 h =>
    cases h
    refine ⟨fun E os hE => ?_, ?_, rfl⟩
    · simp only [Expr.Scoped]
      exact ⟨h1 E os hE, by simp [(width_one q1).1, (width_one q2).1, (width_one q3).1, (width_one q4).1]⟩
    · simp only [Expr.WF]
      exact ⟨h3, h4, by simp [(width_one q1).1, (width_one q2).1, (width_one q3).1, (width_one q4).1]⟩
  | _, _, _, .link h _ => by
    obtain ⟨-, -, h3, -, h5⟩ := typings_scoped k ar hR h
    exact ⟨fun E os hE => by simpa only [Expr.Scoped] using h5 E os hE, by simpa only [Expr.WF] using h3, rfl⟩
theorem typings_scoped {R : FnIndex → String → List Ty → Ty → Prop} (k : Ctx) (ar : Int → Nat)
    (hR : ∀ f n ts T, R f n ts T → Counts k ar ts f) : ∀ {Γ es Ts}, Typings R Γ es Ts →
    (∀ (E : Env) os, (∀ x T, (x, T) ∈ Γ → some x ∈ E) → SArgs k ar es E os) ∧
    (∀ (E : Env) os, (∀ x T, (x, T) ∈ Γ → some x ∈ E) → SAll k ar es E os) ∧ WFs k es ∧ vecArgsOk k es = true ∧
    (∀ (E : Env) os, (∀ x T, (x, T) ∈ Γ → some x ∈ E) → SSeq k ar es E os)
  | _, _, _, .nil => ⟨fun E os h => by simp [SArgs], fun E os h => by simp [SAll], by simp [WFs], rfl, fun E os h => by simp [SSeq]⟩
  | _, _, _, .cons h1 h2 => by
    obtain ⟨a1, b1, c1⟩ := typing_scoped k ar hR h1
    obtain ⟨a2, b2, c2, d2, e2⟩ := typings_scoped k ar hR h2
    refine ⟨fun E os hE => ?_, fun E os hE => ?_, ?_, ?_, fun E os hE => ?_⟩
    · simp only [SArgs]
      exact ⟨a1 E os hE, a2 _ os fun x T h => List.mem_append_left _ (hE x T h)⟩
    · simp only [SAll]
      exact ⟨a1 E os hE, b2 E os hE⟩
    · simp only [WFs]
      exact ⟨b1, c2⟩
    · simp [vecArgsOk, c1, d2]
    · simp only [SSeq]
      exact ⟨a1 E os hE, (width_one h1).2.1, fun _ => by rw [(width_one h1).2.2.1, (width_one h1).2.2.2],
        e2 _ os fun x T h => List.mem_append_left _ (hE x T h)⟩
end

/-- Statements and a result are in scope. -/
theorem row_scoped {R : FnIndex → String → List Ty → Ty → Prop} {find : String → FnIndex} (k : Ctx) (ar : Int → Nat)
    (hR : ∀ f n ts T, R f n ts T → Counts k ar ts f) {e : Expr} {T : Ty} {Γ Γ' : List (String × Ty)} {qs : List Stm}
    (h : Row R find T Γ qs Γ') (he : Typing R Γ' e T) :
    (∀ (E : Env) os, (∀ x T, (x, T) ∈ Γ → some x ∈ E) → SSeq k ar (qs.map (Stm.expr find) ++ [.ret e]) E os) ∧
    WFs k (qs.map (Stm.expr find) ++ [.ret e]) := by
  induction h with
  | nil G =>
    obtain ⟨a, b, -⟩ := typing_scoped k ar hR he
    refine ⟨fun E os hE => ?_, ?_⟩
    · simp only [List.map_nil, List.nil_append, SSeq, Expr.Scoped]
      exact ⟨a _ _ hE, rfl, fun h => absurd rfl h, trivial⟩
    · simp only [List.map_nil, List.nil_append, WFs, Expr.WF]
      exact ⟨b, trivial⟩
  | @decl G G' x e' qs U _ h1 _ ih =>
    obtain ⟨a, b, c⟩ := typing_scoped k ar hR h1
    obtain ⟨a', b'⟩ := ih he
    refine ⟨fun E os hE => ?_, ?_⟩
    · simp only [List.map_cons, List.cons_append, SSeq, Stm.expr, letExpr]
      refine ⟨?_, rfl, fun _ => rfl, a' _ _ (extend_sub hE)⟩
      simp only [Expr.Scoped]
      exact ⟨a _ _ hE, fun h => absurd h (by simp [declName, Item.ids])⟩
    · simp only [List.map_cons, List.cons_append, WFs, Stm.expr, letExpr]
      refine ⟨?_, b'⟩
      simp [Expr.WF, b, c, WFitem, WFids]
  | @guard G G' c e' qs h1 h2 _ ih =>
    obtain ⟨a1, b1, -⟩ := typing_scoped k ar hR h1
    obtain ⟨a2, b2, -⟩ := typing_scoped k ar hR h2
    obtain ⟨a', b'⟩ := ih he
    refine ⟨fun E os hE => ?_, ?_⟩
    · simp only [List.map_cons, List.cons_append, SSeq, Stm.expr]
      refine ⟨?_, rfl, fun _ => rfl, a' _ _ fun x T h => List.mem_append_left _ (hE x T h)⟩
      simp only [Expr.Scoped, SSeq, SElifs, SOptSeq]
      exact ⟨a1 _ _ hE, ⟨a2 _ _ hE, rfl, fun h => absurd rfl h, trivial⟩, trivial, trivial⟩
    · simp only [List.map_cons, List.cons_append, WFs, Stm.expr]
      refine ⟨?_, b'⟩
      simp [Expr.WF, WFs, WFelifs, WFoptList, b1, b2]

/-- All results are computed. -/
def Results (find : String → FnIndex) (qs : List Stm) : Prop := ∀ c e, Stm.guard c e ∈ qs → Computed (e.expr find)

/-- Statements and a result that is computed are a typed body. -/
theorem row_body [FloatOps] [VecMath] [Data.Lex] {R R' : FnIndex → String → List Ty → Ty → Prop} {Q : FnIndex → String → List Ty → Prop} {find : String → FnIndex} (hR : ∀ f n ts T, R f n ts T → R' f n ts T)
    {e : Expr} {T : Ty} {Γ Γ' : List (String × Ty)} {qs : List Stm}
    (h : Row R find T Γ qs Γ') (hr : Results find qs) (hc : Computed e) (he : Typing R Γ' e T) : Body R' Q Γ (qs.map (Stm.expr find) ++ [.ret e]) (some T) := by
  have key : ∀ M, Rows R' Q (some T) Γ M [] (qs.map (Stm.expr find) ++ [.ret e]) true := by
    induction h with
    | nil G => exact fun M => .stmt (.ret rfl hc (typing_mono hR he)) .nil
    | decl hU h1 _ ih => exact fun M => .decl hU (typing_mono hR h1) (ih (fun c e h => hr c e (by simp [h])) he _)
    | guard h1 h2 _ ih =>
      exact fun M => .stmt (.cond (typing_mono hR h1) (.stmt (.ret rfl (hr _ _ (List.mem_cons_self ..)) (typing_mono hR h2)) .nil) .none)
        (ih (fun c e h => hr c e (by simp [h])) he M)
  exact .returns (key [])

/-! ## What names stand for -/

/-- A function of the host keeps to its declaration: the types that the checker can take from it are those of what is computed. -/
structure HostOk (base : ECfg) (ra : Nat → Nat) (x : Mod.External) : Prop where
  honest : Honest x.p
  lts : x.p.lts.length = x.p.tys.length
  arity : ∀ f, x.index = .ret f → ra f = x.p.tys.length
  plain : x.p.ext = [] → HostGives base x.index x.p.tys x.p.ret
  ext : x.p.ext ≠ [] → ∀ (ts : List Ty) T, ts.length = x.p.tys.length → (∀ t ∈ ts, Flat t) →
    refinePrelude (ts.map some) x.p.ext = .found T → HostGives base x.index ts T

/-- What the checker knows of the functions of the host. -/
def envOf (table : List Mod.External) : Check.Env := ⟨(⟨fun _ => none, [], []⟩ : Mod.Prelude).addExternals table, fun _ => none⟩

/-- The functions of the file in the module. -/
def modOf (table : List Mod.External) (file : String) (fs : List Fn) : ModSrc := .load (.host table) file { fns := fs.map Fn.src }

/-- The signatures. -/
def signs (fs : List Fn) (j : Nat) : Option Sign := fs[j]?.map fun f => ⟨f.params.map fun p => (p.1, p.2.ty), some f.ret.ty⟩

theorem fnName_src (f : Fn) : Front.Spec.fnName f.src = f.name := by
  have hm : (f.params.map fun p => ({ name := p.1, ty := some p.2.src } : Front.FnArg)).map (·.mutable) =
      List.replicate f.params.length false := by
    rw [List.map_map, List.eq_replicate_iff]
    simp
  simp only [Front.Spec.fnName, Fn.src, hm]
  simp [Front.Spec.nameWith]

theorem entries_get {table : List Mod.External} {file : String} {fs : List Fn} {i : Nat} {e : Entry} (h : (modOf table file fs).entries[i]? = some e) :
    ∃ f, fs[i]? = some f ∧ e.fn = f.src ∧ e.file = file ∧ e.calls none = Front.Spec.plainTarget (fs.map Fn.name) table := by
  simp only [modOf, ModSrc.entries, ModSrc.parts, Front.fileEntries, List.nil_append, List.getElem?_map, List.map_map, Option.map_eq_some_iff] at h
  obtain ⟨f, hf, rfl⟩ := h
  refine ⟨f, hf, rfl, rfl, ?_⟩
  have : fs.map (Front.Spec.fnName ∘ Fn.src) = fs.map Fn.name := List.map_congr_left fun g _ => fnName_src g
  rw [this]
  rfl

theorem entries_has {table : List Mod.External} {file : String} {fs : List Fn} {i : Nat} {f : Fn} (h : fs[i]? = some f) :
    ∃ e, (modOf table file fs).entries[i]? = some e := by
  simp only [modOf, ModSrc.entries, ModSrc.parts, Front.fileEntries, List.nil_append, List.getElem?_map, List.map_map, h]
  exact ⟨_, rfl⟩

theorem find_last {table : List Mod.External} {n : String} {k : Nat} {d : Mod.Dfn} (h1 : (envOf table).prelude.functions n = some k)
    (h2 : (envOf table).prelude.list[k]? = some d) :
    ∃ x ∈ table, x.name = n ∧ x.p = d ∧ table.reverse.find? (fun e => decide (e.name = n)) = some x := by
  obtain ⟨p1, -, p3⟩ := Mod.addExternals_spec table ⟨fun _ => none, [], []⟩
  simp only [envOf] at h1 h2
  rw [p3] at h1
  rw [p1] at h2
  simp only [List.nil_append, List.length_nil, Nat.zero_add] at h1 h2
  cases hl : Mod.lastIdx (fun e : Mod.External => e.name == n) table with
  | none => rw [hl] at h1; cases h1
  | some i =>
    rw [hl] at h1
    obtain rfl := Option.some.inj h1
    clear p1 p3 h1
    rw [List.getElem?_map, Option.map_eq_some_iff] at h2
    obtain ⟨x, hx, rfl⟩ := h2
    induction table using List.reverseRecOn with
    | nil => cases hx
    | append_singleton es y ih =>
      rw [Mod.lastIdx_snoc] at hl
      rw [List.reverse_append, List.reverse_singleton, List.singleton_append]
      by_cases hy : y.name = n
      · rw [if_pos (by simpa using hy)] at hl
        cases hl
        rw [List.getElem?_append_right (Nat.le_refl _), Nat.sub_self] at hx
        cases hx
        exact ⟨x, by simp, hy, rfl, by rw [List.find?_cons_of_pos (by simpa using hy)]⟩
      · rw [if_neg (by simpa using hy)] at hl
        have hlt : i < es.length := by
          rw [Front.lastIdx_eq] at hl; exact Front.lastIdx_lt hl
        rw [List.getElem?_append_left hlt] at hx
        obtain ⟨x', h1, h2, h3, h4⟩ := ih hl hx
        exact ⟨x', by simp [h1], h2, h3, by rw [List.find?_cons_of_neg (by simpa using hy)]; exact h4⟩

section
variable {base : ECfg} {va ra : Nat → Nat} {table : List Mod.External} {file : String} {fs : List Fn} {ns0 ns1 ns2 : Nodes} {is : List Nat}

/-- Functions have different names. -/
theorem Setup.distinct (S : Setup (envOf table) fs ns0 ns1 ns2 is) {i j : Nat} {f g : Fn} (hi : fs[i]? = some f) (hj : fs[j]? = some g)
    (h : f.name = g.name) : i = j := by
  obtain ⟨r, hr⟩ := S.root_of hi
  obtain ⟨q, hq⟩ := S.root_of hj
  obtain ⟨a1, a2, a3⟩ := S.root_lt hr hi
  obtain ⟨b1, b2, b3⟩ := S.root_lt hq hj
  have h2 := S.link2
  simp only [Nodes.linkFns] at h2
  split at h2
  · cases h2
  rename_i ns1' h1
  have hd := (C59_distinct S.named h1).1 r (by rw [S.like1.1]; exact a1) q (by rw [S.like1.1]; exact b1) (by rw [S.like1.kind, a2])
    (by rw [S.like1.kind, b2]) (by rw [S.like1.name, S.like1.name, a3, b3, h])
  subst hd
  exact by
    obtain ⟨h1, e1⟩ := List.getElem?_eq_some_iff.1 hr
    obtain ⟨h2, e2⟩ := List.getElem?_eq_some_iff.1 hq
    exact (List.Nodup.getElem_inj_iff (roots_nodup S.roots)).1 (e1.trans e2.symm)

/-- Parameters have different names. -/
theorem Setup.params (S : Setup (envOf table) fs ns0 ns1 ns2 is) {i : Nat} {f : Fn} (hi : fs[i]? = some f) : (f.params.map (·.1)).Nodup := by
  obtain ⟨r, hr⟩ := S.root_of hi
  obtain ⟨a1, a2, a3⟩ := S.root_lt hr hi
  have h2 := S.link2
  simp only [Nodes.linkFns] at h2
  split at h2
  · cases h2
  rename_i ns1' h1
  have hd := (C59_distinct S.named h1).2 r (by rw [S.like1.1]; exact a1) (by rw [S.like1.kind, a2])
  obtain ⟨p1, p2, -, -, p5⟩ := params_args ns0 (S.root hr hi)
  simp only [ParamsDistinct, S.like1.args, S.like1.name] at hd
  have e : (ns0.args r).map (fun a => (ns0.at a).name) = (f.params.map (·.1)).map some := by
    refine List.ext_getElem? fun k => ?_
    rw [List.getElem?_map, List.getElem?_map, List.getElem?_map]
    cases hk : f.params[k]? with
    | none =>
      rw [List.getElem?_eq_none (by rw [p1]; exact List.getElem?_eq_none_iff.1 hk)]
      rfl
    | some q =>
      obtain ⟨c, h1, -, -, h4⟩ := p2 k q hk
      have hlt := (List.getElem?_eq_some_iff.1 hk).1
      rw [p5, List.getElem?_take_of_lt hlt, h1]
      simp [h4]
  rw [e] at hd
  exact List.Nodup.of_map _ hd

/-- The arena is a tree. -/
theorem Setup.tree (S : Setup (envOf table) fs ns0 ns1 ns2 is) : Tree ns2 := by
  intro i c hc
  rw [S.like.children] at hc
  have hp := S.back i c hc
  refine ⟨?_, (S.parent c i hp).1, ?_⟩
  · have := congrArg Node.parent (S.like.2 c)
    exact this.trans hp
  · rw [S.like.1]
    by_contra h
    rw [at_none (Nat.not_lt.1 h)] at hp
    cases hp

theorem hostGives_modules {mods} {f : FnIndex} {ts : List Ty} {T : Ty} (h : HostGives base f ts T) : HostGives (base.withModules mods) f ts T := by
  cases h with
  | binop h => exact .binop h
  | unop h => exact .unop h
  | ret h => exact .ret h

/-- What can be called from function `i`, with numbers of arguments. -/
def Calls (c : ECfg) (va ra : Nat → Nat) (fs : List Fn) (m i : Nat) (f : FnIndex) (n : String) (ts : List Ty) (T : Ty) : Prop :=
  Gives c (signs fs) i f n ts T ∧ Counts (ctxAt c va ra m i) (arAt c m i) ts f

theorem knows {c : ECfg} (hc : ∀ f ts T, HostGives base f ts T → HostGives c f ts T)
    (S : Setup (envOf table) fs ns0 ns1 ns2 is) (m : Nat) (hlen : ∀ (j : Nat) g, fs[j]? = some g → ∃ fn, (c.modules m)[j]? = some fn ∧
      fn.returns = true ∧ fn.args.length = g.params.length)
    {i : Nat} {find : String → FnIndex} {n : String} (hn : find n = (Front.Spec.plainTarget (fs.map Fn.name) table n).index i)
    (hx : ∀ x ∈ table, x.name = n → HostOk base ra x) : Knows (envOf table) fs (Calls c va ra fs m i) find n := by
  constructor
  · intro j g hj hg
    have hl : lastIdx (fun x => decide (x = n)) (fs.map Fn.name) = some j := by
      refine lastIdx_last (x := g.name) (by rw [List.getElem?_map, hj]; rfl) (decide_eq_true hg) fun k y hk hy => ?_
      rw [List.getElem?_map, Option.map_eq_some_iff] at hy
      obtain ⟨g', hg', rfl⟩ := hy
      refine decide_eq_false fun e => ?_
      have := S.distinct hj hg' (hg.trans e.symm)
      omega
    rw [hn, Front.Spec.plainTarget, hl]
    have hi : callIndex ((j : Int) - i) i = some j := by
      have e : ((j : Int) - i + i) = j := by omega
      rw [callIndex, e, if_pos (by omega)]
      rfl
    obtain ⟨fn, h1, h2, h3⟩ := hlen j g hj
    refine ⟨?_, ?_, ?_⟩
    · have := Gives.own (c := c) (S := signs fs) (name := n) hi (σ := ⟨g.params.map fun p => (p.1, p.2.ty), some g.ret.ty⟩) (by rw [signs, hj]; rfl) rfl
      rw [List.map_map] at this
      exact this
    · simp [arAt, hi, h1, h3]
    · simp [ctxAt, hi, h1, h2]
  · intro hf k d h1 h2
    obtain ⟨x, hx1, hx2, rfl, hx4⟩ := find_last h1 h2
    have hl : lastIdx (fun x => decide (x = n)) (fs.map Fn.name) = none := by
      rw [← Front.lastIdx_eq]
      refine Mod.lastIdx_none.2 fun y hy => ?_
      obtain ⟨g, hg, rfl⟩ := List.mem_map.1 hy
      exact decide_eq_false (hf g hg)
    have hfind : find n = x.index := by
      rw [hn, Front.Spec.plainTarget, hl]
      simp only [hx4]
      rfl
    have H := hx x hx1 hx2
    have hcount : ∀ ts T, ts.length = x.p.tys.length → HostGives base x.index ts T → Counts (ctxAt c va ra m i) (arAt c m i) ts x.index := by
      intro ts T hl hg
      have ha := H.arity
      cases hi : x.index <;> rw [hi] at hg ha <;> cases hg
      all_goals first | trivial | (simp only [Counts, ctxAt]; rw [ha _ rfl, hl])
    refine ⟨H.honest, H.lts, fun he => ?_, fun he ts T hl hfl hr => ?_⟩
    · rw [hfind]
      have hg := H.plain he
      refine ⟨?_, hcount _ _ rfl hg⟩
      cases H.honest with
      | plain _ h1 h2 => exact .host h2 h1 (hc _ _ _ hg)
      | ext h => exact absurd he h
    · rw [hfind]
      have hg := H.ext he ts T hl hfl hr
      refine ⟨?_, hcount _ _ hl hg⟩
      cases H.honest with
      | plain h => exact absurd h he
      | ext _ _ h3 =>
        refine .host hfl (h3 (ts.map some) T (by simpa using hl) ?_ hr).1 (hc _ _ _ hg)
        intro t ht
        obtain ⟨T', hT, rfl⟩ := List.mem_map.1 ht
        exact .flat (hfl T' hT)

end

end Dyon.Sound.Small
