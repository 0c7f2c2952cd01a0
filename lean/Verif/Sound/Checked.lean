import Verif.Check.TypesLocal
import Verif.Check.TypesProps
import Verif.Sound.Typing

/-!
# What the type checker finds for typed expressions

The nodes of the expressions that `Sound/Typing.lean` is about, and the types that they have in an accepted file.
-/

namespace Dyon.Sound

open Check Check.Spec

namespace Spec

/-- No type yet, `any` or a type that goes with no other. -/
inductive Vague : Option Ty → Prop
  | none : Vague none
  | any : Vague (some .any)
  | flat {T} : Flat T → Vague (some T)

/-- The declaration of a function of the host determines the type of a call from types of arguments. -/
inductive Honest (d : Mod.Dfn) : Prop
  | plain : d.ext = [] → Flat d.ret → (∀ t ∈ d.tys, Flat t) → Honest d
  | ext : d.ext ≠ [] → d.ret = .any →
      (∀ ts r, ts.length = d.tys.length → (∀ t ∈ ts, Vague t) → refinePrelude ts d.ext = .found r →
        Flat r ∧ ∀ t ∈ ts, ∃ T, Flat T ∧ t = some T) →
      (∀ ts, ts.length = d.tys.length → (∀ t ∈ ts, ∃ T, Flat T ∧ t = some T) →
        refinePrelude ts d.ext ≠ .delayed) → Honest d

/-- Nodes that are written around one expression. -/
inductive Plain : Kind → Prop
  | expr : Plain .expr
  | ret : Plain .ret
  | cond : Plain .cond
  | trueBlock : Plain .trueBlock
  | elseBlock : Plain .elseBlock
  | arg : Plain .callArg
  | right : Plain .right

/-- The function of the host that the call `i` means. -/
def HostFn (env : Check.Env) (ns : Nodes) (i : Nat) (f : Nat) (d : Mod.Dfn) : Prop :=
  (ns.at i).declaration = none ∧ (∃ n, (ns.at i).name = some n) ∧ ns.hostFn env i = some f ∧ env.prelude.list[f]? = some d

/-- The nodes of expressions of literals, variables, calls and `if`: what is there before types are checked. -/
inductive Frag (env : Check.Env) (ns : Nodes) : Nat → Prop
  /-- a literal -/
  | lit {i T} : (ns.at i).kind = .expr → (ns.at i).children = [] → (ns.at i).ty = some T → Flat T → Frag env ns i
  /-- a parameter with a declared type -/
  | var {i d T} : (ns.at i).kind = .item → (ns.at i).children = [] → (ns.at i).tryFlag = false → (ns.at i).ty = none →
      (ns.at i).declaration = some d → (ns.at d).kind = .arg → (ns.at d).ty = some T → Flat T → Frag env ns i
  /-- a variable that is declared by `x := r` -/
  | local {i a l d r} : LocalUse ns a l d r i → (ns.at i).tryFlag = false → (ns.at i).ty = none → (ns.at l).ty = none →
      (∀ p, (ns.at i).parent = some p → (ns.at p).kind ≠ .left) → Frag env ns r → Frag env ns i
  /-- something written around -/
  | wrap {i c} : Plain (ns.at i).kind → (ns.at i).children = [c] → (ns.at i).tryFlag = false → (ns.at i).ty = none →
      (ns.at c).kind ≠ .ret → Frag env ns c → Frag env ns i
  /-- `if a { b } else { c }` -/
  | ite {i a b c} : (ns.at i).kind = .if' → (ns.at i).children = [a, b, c] → (ns.at i).tryFlag = false → (ns.at i).ty = none →
      (ns.at a).kind = .cond → (ns.at b).kind = .trueBlock → (ns.at c).kind = .elseBlock →
      Frag env ns a → Frag env ns b → Frag env ns c → Frag env ns i
  /-- a call of a function of the file -/
  | own {i d T} : (ns.at i).kind = .call → (ns.at i).ty = none → (ns.at i).declaration = some d → (ns.at d).kind = .fn →
      (ns.at d).ty = some T → Flat T → (∀ k ∈ (ns.at d).children, (ns.at k).kind ≠ .ty) →
      (∀ k : Nat, k < (ns.at i).children.length → ∃ p P, (ns.at d).children[k]? = some p ∧ (ns.at p).kind = .arg ∧
        (ns.at p).ty = some P ∧ Flat P) → (ns.at i).children.Nodup →
      (∀ a ∈ (ns.at i).children, (ns.at a).kind = .callArg) → (∀ a ∈ (ns.at i).children, Frag env ns a) → Frag env ns i
  /-- a call of a function of the host -/
  | host {i f d} : (ns.at i).kind = .call → (ns.at i).ty = none → HostFn env ns i f d → Honest d →
      (ns.at i).children.length = d.tys.length → (ns.at i).children.Nodup →
      (∀ a ∈ (ns.at i).children, (ns.at a).kind = .callArg) → (∀ a ∈ (ns.at i).children, Frag env ns a) → Frag env ns i

end Spec

open Spec

theorem Flat.ne_any {T : Ty} (h : Flat T) : T ≠ .any := by cases h <;> simp

theorem Spec.Frag.kind {env : Check.Env} {ns : Nodes} {i : Nat} (h : Frag env ns i) :
    (ns.at i).kind ≠ .left ∧ (ns.at i).kind ≠ .fn ∧ (ns.at i).kind ≠ .closure ∧ (ns.at i).kind ≠ .swizzle := by
  cases h with
  | lit h => rw [h]; decide
  | var h => rw [h]; decide
  | «local» h => rw [h.use]; decide
  | wrap h => generalize (ns.at i).kind = k at h; cases h <;> decide
  | ite h => rw [h]; decide
  | own h => rw [h]; decide
  | host h => rw [h]; decide

theorem Spec.Frag.itemIds {env : Check.Env} {ns : Nodes} {i : Nat} (h : Frag env ns i) : (ns.at i).itemIds = false := by
  cases h with
  | lit h => simp [Node.itemIds, h]
  | var _ h => simp [Node.itemIds, h]
  | «local» h => simp [Node.itemIds, h.useNoIds]
  | wrap h => generalize hk : (ns.at i).kind = k at h; cases h <;> simp [Node.itemIds, hk]
  | ite h => simp [Node.itemIds, h]
  | own h => simp [Node.itemIds, h]
  | host h => simp [Node.itemIds, h]

/-- The argument of a call. -/
theorem Spec.Frag.callArg {env : Check.Env} {ns : Nodes} {i : Nat} (h : Frag env ns i) (hk : (ns.at i).kind = .callArg) :
    ∃ c, (ns.at i).children = [c] ∧ (ns.at i).tryFlag = false ∧ (ns.at i).ty = none ∧ (ns.at c).kind ≠ .ret ∧ Frag env ns c := by
  cases h with
  | wrap _ h1 h2 h3 h4 h5 => exact ⟨_, h1, h2, h3, h4, h5⟩
  | «local» h => rw [h.use] at hk; cases hk
  | lit h | var h | ite h | own h | host h => rw [h] at hk; cases hk

/-! ## The invariant -/

/-- Why a node has the type `T`. -/
inductive Just (env : Check.Env) (ns0 ns : Nodes) (i : Nat) (T : Ty) : Prop
  | lit : (ns0.at i).kind = .expr → (ns0.at i).children = [] → Just env ns0 ns i T
  | var {d} : (ns0.at i).kind = .item → (ns0.at i).declaration = some d → (ns0.at d).kind = .arg → (ns0.at d).ty = some T →
      Just env ns0 ns i T
  | local {a l d r} : LocalUse ns0 a l d r i → (ns.at d).ty = some T → Just env ns0 ns i T
  | wrap {c} : Plain (ns0.at i).kind → (ns0.at i).children = [c] → (ns.at c).ty = some T → Just env ns0 ns i T
  | ite {a b c} : (ns0.at i).kind = .if' → (ns0.at i).children = [a, b, c] → (ns.at b).ty = some T → Just env ns0 ns i T
  | own {d} : (ns0.at i).kind = .call → (ns0.at i).declaration = some d → (ns0.at d).ty = some T → Just env ns0 ns i T
  | plain {f d} : (ns0.at i).kind = .call → HostFn env ns0 i f d → d.ext = [] → d.ret = T → Just env ns0 ns i T
  | ext {f d} : (ns0.at i).kind = .call → HostFn env ns0 i f d → d.ext ≠ [] →
      refinePrelude (ns.argTypes i) d.ext = .found T → Just env ns0 ns i T

/-- The types of the sides `l` and `r` of a declaration and of the item `d` on its left, during the propagation. -/
structure Held (ns : Nodes) (l d r : Nat) : Prop where
  left : Vague (ns.at l).ty
  item : Vague (ns.at d).ty
  right : ∀ T, Flat T → (ns.at l).ty = some T → (ns.at r).ty = some T
  same : ∀ T, Flat T → (ns.at d).ty = some T → (ns.at l).ty = some T

/-- The types of the nodes, during the propagation. -/
structure Grounded (env : Check.Env) (ns0 ns : Nodes) : Prop where
  node : ∀ i, Frag env ns0 i → Vague (ns.at i).ty ∧ ∀ T, Flat T → (ns.at i).ty = some T → Just env ns0 ns i T
  decl : ∀ a l d r u, LocalUse ns0 a l d r u → (ns0.at l).ty = none → Frag env ns0 r → Held ns l d r

theorem child_if {ns : Nodes} {i a b c : Nat} (h : (ns.at i).children = [a, b, c]) (ha : (ns.at a).kind = .cond)
    (hb : (ns.at b).kind = .trueBlock) : ns.child i .trueBlock = some b := by
  simp [Nodes.child, h, ha, hb]

/-- The argument types that a call reads. -/
theorem argTypes_eq {env : Check.Env} {ns0 ns : Nodes} {i : Nat} (hsh : Shape ns0 ns)
    (hk : ∀ a ∈ (ns0.at i).children, (ns0.at a).kind = .callArg) (hf : ∀ a ∈ (ns0.at i).children, Frag env ns0 a) :
    ns.argTypes i = (ns0.at i).children.map (fun a => (ns.at ((ns0.at a).children.headD 0)).ty) := by
  have e : ns.callArgs i = (ns0.at i).children := by
    rw [hsh.callArgs]
    exact List.filter_eq_self.2 (by simpa using hk)
  rw [Nodes.argTypes, e]
  generalize (ns0.at i).children = l at hk hf
  induction l with
  | nil => rfl
  | cons a l ih =>
    obtain ⟨c, hc, -⟩ := (hf a (by simp)).callArg (hk a (by simp))
    simp only [List.filterMap_cons, hsh.children, hc, List.head?_cons, Option.map_some, List.map_cons, List.headD_cons]
    rw [← ih (fun a h => hk a (by simp [h])) (fun a h => hf a (by simp [h]))]
    simp only [hsh.children]

theorem argTypes_mem {env : Check.Env} {ns0 ns : Nodes} {i : Nat} {t : Option Ty} (hsh : Shape ns0 ns)
    (hk : ∀ a ∈ (ns0.at i).children, (ns0.at a).kind = .callArg) (hf : ∀ a ∈ (ns0.at i).children, Frag env ns0 a)
    (ht : t ∈ ns.argTypes i) : ∃ c, Frag env ns0 c ∧ t = (ns.at c).ty := by
  rw [argTypes_eq hsh hk hf] at ht
  obtain ⟨a, ha, rfl⟩ := List.mem_map.1 ht
  obtain ⟨c, hc, -, -, -, h⟩ := (hf a ha).callArg (hk a ha)
  exact ⟨c, h, by rw [hc]; rfl⟩

theorem inner_id {n : Node} (h : n.tryFlag = false) (t : Ty) : n.innerType t = t := by simp [Node.innerType, h]

theorem takes_wrap {ns : Nodes} {i c : Nat} (h : Plain (ns.at i).kind) (hc : (ns.at i).children = [c]) : TakesType ns i c := by
  generalize hk : (ns.at i).kind = k at h
  cases h
  case trueBlock | elseBlock => exact .block (by rw [hk]; rfl) (by rw [hc]; rfl)
  all_goals exact .around (by rw [hk]; trivial) hc

/-- What the visit of a node of the fragment gives. -/
theorem visit_frag {env : Check.Env} {ns0 ns : Nodes} {i : Nat} {errs : List (Nat × TypeErr)} {v : Visit}
    (hi : Frag env ns0 i) (hsh : Shape ns0 ns) (hst : Stable ns0 ns) (hg : Grounded env ns0 ns)
    (hv : ns.visit env errs i = .ok v) :
    v.nodes = ns ∧ ∀ t, v.out = .ty (some t) → Vague (some t) ∧ (Flat t → Just env ns0 ns i t) ∧
      ∀ T, Flat T → (ns.at i).ty = some T → t = T := by
  have hJ := (hg.node i hi).2
  cases hi with
  | lit h1 h2 h3 h4 =>
    simp only [Nodes.visit, hsh.kind, h1, Nodes.visitWrap, hsh.children, h2] at hv
    cases hv
    exact ⟨rfl, fun t h => by cases h⟩
  | @var _ d T h1 h2 h3 h4 h5 h6 h7 h8 =>
    have hids : (ns.at i).itemIds = false := by rw [hsh.itemIds]; simp [Node.itemIds, h2]
    simp only [Nodes.visit, hsh.kind, h1] at hv
    simp only [Nodes.visitItem, hids, hsh.declaration, h5, hsh.kind, h6, hst d T (by rw [h6]; rfl) h7,
      hsh.innerType, inner_id h3, Kind.counts] at hv
    simp at hv
    subst hv
    refine ⟨rfl, fun t h => ?_⟩
    simp only [Out.ty.injEq, Option.some.injEq] at h
    subst h
    refine ⟨.flat h8, fun _ => .var h1 h5 h6 h7, fun T' hT' ht => ?_⟩
    cases hJ T' hT' ht with
    | var _ h _ h' => rw [h5] at h; cases h; rw [h7] at h'; cases h'; rfl
    | «local» h => have := h.uses; rw [h5] at this; cases this; have := h.item; rw [h6] at this; cases this
    | lit h | own h | plain h | ext h | ite h => rw [h1] at h; cases h
    | wrap h => rw [h1] at h; cases h
  | @«local» _ a l d r h1 h2 h3 h4 h5 h6 =>
    have hids : (ns.at i).itemIds = false := by rw [hsh.itemIds]; simp [Node.itemIds, h1.useNoIds]
    have hH := hg.decl a l d r i h1 h4 h6
    have hleft : ∀ t, ns.setLeft i t = ns := by
      intro t
      simp only [Nodes.setLeft, hsh.parent]
      split
      · rename_i p hp
        rw [if_neg (by rw [hsh.kind]; exact h5 p hp)]
      · rfl
    simp only [Nodes.visit, hsh.kind, h1.use] at hv
    simp only [Nodes.visitItem, hids, hsh.declaration, h1.uses, hsh.kind, h1.item, hleft,
      hsh.innerType, inner_id h2, Kind.counts] at hv
    simp only [Bool.false_eq_true, if_false, reduceCtorEq] at hv
    split at hv
    · rename_i t' ht'
      cases hv
      refine ⟨rfl, fun t h => ?_⟩
      simp only [Out.ty.injEq, Option.some.injEq] at h
      subst h
      refine ⟨by rw [← ht']; exact hH.item, fun _ => .local h1 ht', fun T' hT' ht => ?_⟩
      cases hJ T' hT' ht with
      | «local» g g' =>
        have := g.uses
        rw [h1.uses] at this
        cases this
        rw [ht'] at g'; cases g'; rfl
      | var _ g1 g2 => rw [h1.uses] at g1; cases g1; rw [h1.item] at g2; cases g2
      | lit h | own h | plain h | ext h | ite h => rw [h1.use] at h; cases h
      | wrap h => rw [h1.use] at h; cases h
    · cases hv
      exact ⟨rfl, fun t h => by cases h⟩
  | @wrap _ c h1 h2 h3 h4 h5 h6 =>
    obtain ⟨e, -, h, -⟩ := takes_visit (takes_wrap h1 h2) hsh h6.itemIds (Or.inl h5) hv
    refine ⟨e, fun t ht => ?_⟩
    have hc : (ns.at c).ty = some t := by
      have := h t ht
      obtain ⟨T, hT, hTt⟩ := Option.map_eq_some_iff.1 this
      rw [inner_id h3] at hTt
      rw [hT, hTt]
    have hvg := (hg.node c h6).1
    rw [hc] at hvg
    refine ⟨hvg, fun _ => .wrap h1 h2 hc, fun T' hT' ht' => ?_⟩
    cases hJ T' hT' ht' with
    | wrap _ h h' => rw [h2] at h; cases h; rw [hc] at h'; cases h'; rfl
    | lit _ h => rw [h2] at h; cases h
    | «local» h => rw [h.use] at h1; cases h1
    | var h | own h | plain h | ext h | ite h => rw [h] at h1; cases h1
  | @ite _ a b c h1 h2 h3 h4 ha hb hc hfa hfb hfc =>
    obtain ⟨e, -, h, -⟩ := takes_visit (.branch h1 (child_if h2 ha hb)) hsh hfb.itemIds (Or.inl (by rw [hb]; decide)) hv
    refine ⟨e, fun t ht => ?_⟩
    have hc : (ns.at b).ty = some t := by
      have := h t ht
      obtain ⟨T, hT, hTt⟩ := Option.map_eq_some_iff.1 this
      rw [inner_id h3] at hTt
      rw [hT, hTt]
    have hvg := (hg.node b hfb).1
    rw [hc] at hvg
    refine ⟨hvg, fun _ => .ite h1 h2 hc, fun T' hT' ht' => ?_⟩
    cases hJ T' hT' ht' with
    | ite _ h h' => rw [h2] at h; cases h; rw [hc] at h'; cases h'; rfl
    | «local» h => have := h.use; rw [h1] at this; cases this
    | lit h | var h | own h | plain h | ext h => rw [h1] at h; cases h
    | wrap h => rw [h1] at h; cases h
  | @own _ d T h1 h2 h3 h4 h5 h6 h7 hp hnd h8 h9 =>
    have hnil : ((ns0.at d).children.filter fun k => decide ((ns.at k).kind = .ty)) = [] := by
      rw [List.filter_eq_nil_iff]
      intro k hk
      simpa [hsh.kind] using h7 k hk
    simp only [Nodes.visit, hsh.kind, h1] at hv
    simp only [Nodes.visitCall, hsh.declaration, h3, hsh.children, hnil, Nodes.refineDecl,
      hst d T (by rw [h4]; rfl) h5] at hv
    simp at hv
    subst hv
    refine ⟨rfl, fun t ht => ?_⟩
    simp only [Out.ty.injEq] at ht
    split at ht
    · rename_i hn
      cases ht
      refine ⟨.flat h6, fun _ => .own h1 h3 h5, fun T' hT' ht' => ?_⟩
      rw [hn] at ht'; cases ht'
    · cases ht
  | @host _ f d h1 h2 h3 h4 h5 hnd h6 h7 =>
    obtain ⟨hd, ⟨n, hn⟩, hf, hl⟩ := h3
    have hlen : (ns.argTypes i).length = d.tys.length := by rw [argTypes_eq hsh h6 h7, List.length_map, h5]
    have hvague : ∀ t ∈ ns.argTypes i, Vague t := by
      intro t ht
      obtain ⟨c, hc, rfl⟩ := argTypes_mem hsh h6 h7 ht
      exact (hg.node c hc).1
    simp only [Nodes.visit, hsh.kind, h1] at hv
    simp only [Nodes.visitCall, hsh.declaration, hd, hsh.name, hn, hsh.hostFn, hf, hl, Nodes.visitHost] at hv
    simp only [reduceCtorEq, if_false] at hv
    have same : ∀ {f' d'}, HostFn env ns0 i f' d' → d' = d := by
      rintro f' d' ⟨-, -, h, h'⟩
      rw [hf] at h; cases h
      rw [hl] at h'; cases h'; rfl
    cases h4 with
    | plain he hr _ =>
      rw [if_pos he] at hv
      cases hv
      refine ⟨rfl, fun t ht => ?_⟩
      simp only [Out.ty.injEq, Option.some.injEq] at ht
      subst ht
      refine ⟨.flat hr, fun _ => .plain h1 ⟨hd, ⟨n, hn⟩, hf, hl⟩ he rfl, fun T' hT' ht' => ?_⟩
      cases hJ T' hT' ht' with
      | plain _ h _ h' => rw [same h] at h'; exact h'
      | ext _ h h' => rw [same h] at h'; exact absurd he h'
      | own _ h => rw [hd] at h; cases h
      | «local» h => have := h.use; rw [h1] at this; cases this
      | lit h | var h | ite h => rw [h1] at h; cases h
      | wrap h => rw [h1] at h; cases h
    | ext he hr hfound hlate =>
      rw [if_neg he] at hv
      have fallback : ∀ push, v = { nodes := ns, errs, push, out := .ty (if (ns.at i).ty = none then some d.ret else none) } →
          v.nodes = ns ∧ ∀ t, v.out = .ty (some t) → Vague (some t) ∧ (Flat t → Just env ns0 ns i t) ∧
            ∀ T, Flat T → (ns.at i).ty = some T → t = T := by
        rintro push rfl
        refine ⟨rfl, fun t ht => ?_⟩
        simp only [Out.ty.injEq] at ht
        split at ht
        · rename_i hno
          cases ht
          rw [hr]
          exact ⟨.any, fun h => absurd rfl h.ne_any, fun T' hT' ht' => by rw [hno] at ht'; cases ht'⟩
        · cases ht
      split at hv
      · rename_i t hr'
        cases hv
        refine ⟨rfl, fun t' ht' => ?_⟩
        simp only [Out.ty.injEq, Option.some.injEq] at ht'
        subst ht'
        obtain ⟨hft, -⟩ := hfound _ t hlen hvague hr'
        refine ⟨.flat hft, fun _ => .ext h1 ⟨hd, ⟨n, hn⟩, hf, hl⟩ he hr', fun T' hT' ht' => ?_⟩
        cases hJ T' hT' ht' with
        | plain _ h h' => rw [same h] at h'; exact absurd h' he
        | ext _ h _ h' => rw [same h, hr'] at h'; cases h'; rfl
        | own _ h => rw [hd] at h; cases h
        | «local» h => have := h.use; rw [h1] at this; cases this
        | lit h | var h | ite h => rw [h1] at h; cases h
        | wrap h => rw [h1] at h; cases h
      · exact fallback [i] (by injection hv with hv; exact hv.symm)
      · cases hv
      · cases hv
      · exact fallback [] (by injection hv with hv; exact hv.symm)

/-- A known type is kept. -/
theorem step_mono {env : Check.Env} {ns0 : Nodes} {s s' : Spread} {j : Nat} (hsh : Shape ns0 s.nodes)
    (hst : Stable ns0 s.nodes) (hg : Grounded env ns0 s.nodes) (h : step env s j = .ok s') {k : Nat} (hk : Frag env ns0 k)
    {T : Ty} (hT : Flat T) (ht : (s.nodes.at k).ty = some T) : (s'.nodes.at k).ty = some T := by
  by_cases hkj : k = j
  · subst hkj
    obtain ⟨v, hv, -, h | h⟩ := step_cases h
    · rw [h.1, (visit_frag hk hsh hst hg hv).1]; exact ht
    · obtain ⟨t, h1, h2, -⟩ := h
      obtain ⟨h3, h4⟩ := visit_frag hk hsh hst hg hv
      have := (h4 t h1).2.2 T hT ht
      subst this
      rw [h2, at_setTy]
      split
      · rfl
      · rw [h3]; exact ht
  · rw [step_other h hkj (by rw [hsh.kind]; exact hk.kind.1) (by rw [hsh.kind]; exact hk.kind.2.1)
      (by rw [hsh.kind]; exact hk.kind.2.2.1)]
    exact ht

/-- The types of a declaration, after a step. -/
theorem step_held {env : Check.Env} {ns0 : Nodes} (htree : Tree ns0) {s s' : Spread} {j : Nat} (hsh : Shape ns0 s.nodes)
    (hst : Stable ns0 s.nodes) (hg : Grounded env ns0 s.nodes) (h : step env s j = .ok s') {a l d r u : Nat}
    (hL : LocalUse ns0 a l d r u) (hl : (ns0.at l).ty = none) (hr : Frag env ns0 r) :
    Held s'.nodes l d r ∧ ∀ T, Flat T → (s.nodes.at d).ty = some T → (s'.nodes.at d).ty = some T := by
  have H := hg.decl a l d r u hL hl hr
  have hm := fun T hT ht => step_mono hsh hst hg h (k := r) hr (T := T) hT ht
  have klk : (ns0.at l).kind = .left := child_kind hL.left
  have krk : (ns0.at r).kind = .right := child_kind hL.right
  have pl := htree a l (child_mem hL.left)
  have pr := htree a r (child_mem hL.right)
  have pit := htree l d (by simp [hL.kids])
  have ka : (s.nodes.at a).kind = .assign := by rw [hsh.kind]; exact hL.assign
  have kl : (s.nodes.at l).kind = .left := by rw [hsh.kind]; exact klk
  have kr : (s.nodes.at r).kind = .right := by rw [hsh.kind]; exact krk
  have ki : (s.nodes.at d).kind = .item := by rw [hsh.kind]; exact hL.item
  have Tr : j ≠ r → (s'.nodes.at r).ty = (s.nodes.at r).ty := fun hj =>
    step_other h (Ne.symm hj) (by rw [kr]; decide) (by rw [kr]; decide) (by rw [kr]; decide)
  have Ti : j ≠ d → (s'.nodes.at d).ty = (s.nodes.at d).ty := fun hj =>
    step_other h (Ne.symm hj) (by rw [ki]; decide) (by rw [ki]; decide) (by rw [ki]; decide)
  have Tl : j ≠ a → j ≠ l → (s'.nodes.at l).ty = (s.nodes.at l).ty := by
    intro h1 h2
    rcases step_left kl h with h3 | h3 | h3 | h3
    · exact h3
    · exact absurd h3 h2
    · exfalso
      rw [hsh.child] at h3
      have h4 := htree j l (child_mem h3.2)
      rw [pl.1] at h4
      exact h1 (by have := h4.1; simpa using this.symm)
    · exfalso
      obtain ⟨-, h4, h5⟩ := h3
      rw [hsh.parent] at h4
      have := hL.only j h4
      subst this
      rw [hsh.declaration, hL.declares] at h5
      exact h5 rfl
  by_cases ja : j = a
  · subst ja
    obtain ⟨v, hv, -, hout⟩ := step_cases h
    simp only [Nodes.visit, ka] at hv
    have hv' : v = s.nodes.visitAssign s.errs j := by injection hv with hv; exact hv.symm
    have hrids : (s.nodes.at r).itemIds = false := by simp [Node.itemIds, kr]
    simp only [Nodes.visitAssign, hsh.child, hL.left, hL.right, hrids] at hv'
    simp only [Bool.false_eq_true, if_false] at hv'
    have hla : l ≠ j := by omega
    have hra : r ≠ j := by omega
    have hia : d ≠ j := by omega
    have hllen : l < s.nodes.length := by rw [hsh.1]; omega
    have Ti := Ti (Ne.symm hia)
    have Tr := Tr (Ne.symm hra)
    have later : v = { nodes := s.nodes, errs := s.errs, out := .later } → Held s'.nodes l d r := by
      rintro rfl
      have h1 : s'.nodes = s.nodes := by
        rcases hout with ⟨h1, -, h3⟩ | ⟨t, h1, -⟩
        · exact h1
        · cases h1
      rw [h1]; exact H
    have set : ∀ t, (s.nodes.at r).ty = some t → (s'.nodes.at l).ty = some t → Held s'.nodes l d r := by
      intro t h1 h2
      have hv := (hg.node r hr).1
      rw [h1] at hv
      refine ⟨by rw [h2]; exact hv, by rw [Ti]; exact H.item, fun T hT ht => by rw [Tr, h1, ← h2]; exact ht, fun T hT ht => ?_⟩
      rw [Ti] at ht
      have := H.right T hT (H.same T hT ht)
      rw [h2, ← h1, this]
    refine ⟨?_, fun T _ ht => by rw [Ti]; exact ht⟩
    split at hv'
    · rename_i t hl0 hr0
      subst hv'
      rcases hout with ⟨-, h2, -⟩ | ⟨t', h1, h2, -⟩
      · exact absurd rfl (h2 .void)
      · cases h1
        exact set t hr0 (by rw [h2, at_setTy, if_neg (fun h => hla h.1), at_setTy, if_pos ⟨rfl, hllen⟩])
    · rename_i l0 t hl0 hr0
      split at hv'
      · subst hv'
        rcases hout with ⟨-, h2, -⟩ | ⟨t', h1, h2, -⟩
        · exact absurd rfl (h2 .void)
        · cases h1
          exact set t hr0 (by rw [h2, at_setTy, if_neg (fun h => hla h.1), at_setTy, if_pos ⟨rfl, hllen⟩])
      · exact later hv'
    · exact later hv'
  by_cases jl : j = l
  · subst jl
    have hlr : j ≠ r := by rintro rfl; rw [klk] at krk; cases krk
    have Tr := Tr hlr
    have Ti := Ti (by omega)
    obtain ⟨v, hv, -, hout⟩ := step_cases h
    simp only [Nodes.visit, kl] at hv
    have hids : (s.nodes.at d).itemIds = false := by
      rw [hsh.itemIds]; simp [Node.itemIds, hL.noIds]
    simp only [Nodes.visitWrap, hsh.children, hL.kids, hids, kl, ki] at hv
    simp only [Bool.false_eq_true, if_false, reduceCtorEq, false_and] at hv
    refine ⟨?_, fun T _ ht => by rw [Ti]; exact ht⟩
    split at hv
    · cases hv
      have h1 : s'.nodes = s.nodes := by
        rcases hout with ⟨h1, -⟩ | ⟨t, h1, -⟩
        · exact h1
        · cases h1
      rw [h1]; exact H
    · rename_i t hn
      cases hv
      have hinner : (s.nodes.at j).innerType t = t := by
        rw [hsh.innerType]; simp [Node.innerType, hL.plain]
      rcases hout with ⟨-, h2, -⟩ | ⟨t', h1, h2, h3⟩
      · exact absurd rfl (h2 _)
      · simp only [Out.ty.injEq, Option.some.injEq] at h1
        rw [hinner] at h1
        subst h1
        have e1 : (s'.nodes.at j).ty = some t := by
          rw [h2, at_setTy, if_pos ⟨rfl, by simp only [hsh.1]; omega⟩]
        have hvi := H.item
        rw [hn] at hvi
        refine ⟨by rw [e1]; exact hvi, by rw [Ti, hn]; exact hvi, fun T hT ht => ?_, fun T hT ht => ?_⟩
        · rw [e1, ← hn] at ht
          rw [Tr]
          exact H.right T hT (H.same T hT ht)
        · rw [Ti, hn] at ht
          rw [e1]; exact ht
  have Tl := Tl ja jl
  by_cases ji : j = d
  · subst ji
    have hir : j ≠ r := by rintro rfl; rw [hL.item] at krk; cases krk
    have Tr := Tr hir
    obtain ⟨v, hv, -, hout⟩ := step_cases h
    simp only [Nodes.visit, ki] at hv
    have hids : (s.nodes.at j).itemIds = false := by
      rw [hsh.itemIds]; simp [Node.itemIds, hL.noIds]
    simp only [Nodes.visitItem, hids, hsh.declaration, hL.declares, hsh.parent, pit.1, kl] at hv
    simp only [Bool.false_eq_true, if_false, if_true] at hv
    cases hv
    cases htl : (s.nodes.at l).ty with
    | none =>
      rw [htl] at hout
      have h1 : s'.nodes = s.nodes := by
        rcases hout with ⟨h1, -, h3⟩ | ⟨t, h1, -⟩
        · exact h1
        · cases h1
      rw [h1]
      exact ⟨H, fun T _ ht => ht⟩
    | some t =>
      rw [htl] at hout
      rcases hout with ⟨-, h2, -⟩ | ⟨t', h1, h2, -⟩
      · exact absurd rfl (h2 _)
      · cases h1
        have e1 : (s'.nodes.at j).ty = some t := by
          rw [h2, at_setTy, if_pos ⟨rfl, by simp only [hsh.1]; omega⟩]
        have hvl := H.left
        refine ⟨⟨by rw [Tl]; exact hvl, by rw [e1, ← htl]; exact hvl, fun T hT ht => by rw [Tr]; exact H.right T hT (by rw [← Tl]; exact ht),
          fun T hT ht => by rw [Tl, htl, ← e1]; exact ht⟩, fun T hT ht => ?_⟩
        have := H.same T hT ht
        rw [e1, ← htl, this]
  have Ti := Ti ji
  refine ⟨⟨by rw [Tl]; exact H.left, by rw [Ti]; exact H.item, fun T hT ht => hm T hT (H.right T hT (by rw [← Tl]; exact ht)),
    fun T hT ht => by rw [Tl]; exact H.same T hT (by rw [← Ti]; exact ht)⟩, fun T _ ht => by rw [Ti]; exact ht⟩

theorem just_mono {env : Check.Env} {ns0 ns ns' : Nodes} (hsh : Shape ns0 ns) (hsh' : Shape ns0 ns')
    (hg : Grounded env ns0 ns)
    (hm : ∀ k T, Frag env ns0 k → Flat T → (ns.at k).ty = some T → (ns'.at k).ty = some T)
    (hd : ∀ a l d r u, LocalUse ns0 a l d r u → (ns0.at l).ty = none → Frag env ns0 r → ∀ T, Flat T →
      (ns.at d).ty = some T → (ns'.at d).ty = some T) {i : Nat} {T : Ty}
    (hi : Frag env ns0 i) (hT : Flat T) (h : Just env ns0 ns i T) : Just env ns0 ns' i T := by
  cases h with
  | lit h1 h2 => exact .lit h1 h2
  | var h1 h2 h3 h4 => exact .var h1 h2 h3 h4
  | @«local» a l d r h1 h2 =>
    refine .local h1 ?_
    cases hi with
    | @«local» _ a' l' d' r' g1 _ _ g2 _ g3 =>
      have := g1.uses
      rw [h1.uses] at this
      cases this
      exact hd a' l' d r' i g1 g2 g3 T hT h2
    | var _ _ _ _ g1 g2 => rw [h1.uses] at g1; cases g1; rw [h1.item] at g2; cases g2
    | wrap h => rw [h1.use] at h; cases h
    | lit h | ite h | own h | host h => rw [h1.use] at h; cases h
  | own h1 h2 h3 => exact .own h1 h2 h3
  | plain h1 h2 h3 h4 => exact .plain h1 h2 h3 h4
  | @wrap c h1 h2 h3 =>
    refine .wrap h1 h2 (hm c T ?_ hT h3)
    cases hi with
    | wrap _ h _ _ _ h' => rw [h2] at h; cases h; exact h'
    | lit _ h => rw [h2] at h; cases h
    | «local» h => rw [h.use] at h1; cases h1
    | var h | ite h | own h | host h => rw [h] at h1; cases h1
  | @ite a b c h1 h2 h3 =>
    refine .ite h1 h2 (hm b T ?_ hT h3)
    cases hi with
    | ite _ h _ _ _ _ _ _ h' => rw [h2] at h; cases h; exact h'
    | wrap h => rw [h1] at h; cases h
    | «local» h => have := h.use; rw [h1] at this; cases this
    | lit h | var h | own h | host h => rw [h1] at h; cases h
  | @ext f d h1 h2 h3 h4 =>
    refine .ext h1 h2 h3 ?_
    cases hi with
    | @host _ f' d' _ _ g1 g2 g3 _ g4 g5 =>
      have e : d' = d := by
        obtain ⟨-, -, h, h'⟩ := h2
        obtain ⟨-, -, g, g'⟩ := g1
        rw [h] at g; cases g
        rw [h'] at g'; cases g'; rfl
      subst e
      cases g2 with
      | plain he => exact absurd he h3
      | ext _ _ hfound _ =>
        have hlen : (ns.argTypes i).length = d'.tys.length := by rw [argTypes_eq hsh g4 g5, List.length_map, g3]
        obtain ⟨-, hall⟩ := hfound _ T hlen (by
          intro t ht
          obtain ⟨c, hc, rfl⟩ := argTypes_mem hsh g4 g5 ht
          exact (hg.node c hc).1) h4
        have : ns'.argTypes i = ns.argTypes i := by
          rw [argTypes_eq hsh g4 g5] at hall ⊢
          rw [argTypes_eq hsh' g4 g5]
          refine List.map_congr_left fun a ha => ?_
          obtain ⟨c, hc, -, -, -, hcf⟩ := (g5 a ha).callArg (g4 a ha)
          obtain ⟨T', hT', ht'⟩ := hall _ (List.mem_map.2 ⟨a, ha, rfl⟩)
          rw [hc] at ht' ⊢
          simp only [List.headD_cons] at ht' ⊢
          rw [ht', hm c T' hcf hT' ht']
        rw [this]; exact h4
    | own _ _ h => rw [h2.1] at h; cases h
    | wrap h => rw [h1] at h; cases h
    | «local» h => have := h.use; rw [h1] at this; cases this
    | lit h | var h | ite h => rw [h1] at h; cases h

theorem step_grounded {env : Check.Env} {ns0 : Nodes} (ht : Tree ns0) {s s' : Spread} {j : Nat} (hsh : Shape ns0 s.nodes)
    (hst : Stable ns0 s.nodes) (hg : Grounded env ns0 s.nodes) (h : step env s j = .ok s') : Grounded env ns0 s'.nodes := by
  have hsh' := hsh.trans (step_stepped h).shape
  have hm := fun k T hk hT ht => step_mono hsh hst hg h (k := k) hk (T := T) hT ht
  refine ⟨?_, fun a l d r u hL hl hr => (step_held ht hsh hst hg h hL hl hr).1⟩
  have hd := fun a l d r u hL hl hr => (step_held ht hsh hst hg h (a := a) (l := l) (d := d) (r := r) (u := u) hL hl hr).2
  intro i hi
  have old : (s'.nodes.at i).ty = (s.nodes.at i).ty → Vague (s'.nodes.at i).ty ∧
      ∀ T, Flat T → (s'.nodes.at i).ty = some T → Just env ns0 s'.nodes i T := by
    intro e
    rw [e]
    exact ⟨(hg.node i hi).1, fun T hT ht => just_mono hsh hsh' hg hm hd hi hT ((hg.node i hi).2 T hT ht)⟩
  by_cases hij : i = j
  · subst hij
    obtain ⟨v, hv, -, h1 | ⟨t, h1, h2, -⟩⟩ := step_cases h
    · exact old (by rw [h1.1, (visit_frag hi hsh hst hg hv).1])
    · obtain ⟨h3, h4⟩ := visit_frag hi hsh hst hg hv
      obtain ⟨h5, h6, -⟩ := h4 t h1
      by_cases hlt : i < v.nodes.length
      · have e : (s'.nodes.at i).ty = some t := by rw [h2, at_setTy, if_pos ⟨rfl, hlt⟩]
        rw [e]
        refine ⟨h5, fun T hT ht => ?_⟩
        cases ht
        exact just_mono hsh hsh' hg hm hd hi hT (h6 hT)
      · exact old (by rw [h2, at_setTy, if_neg (fun h => hlt h.2), h3])
  · exact old (step_other h hij (by rw [hsh.kind]; exact hi.kind.1) (by rw [hsh.kind]; exact hi.kind.2.1)
      (by rw [hsh.kind]; exact hi.kind.2.2.1))

theorem refineLoop_ne {ts : List (Option Ty)} : ∀ {sigs : List Sig} {n : Nat}, 0 < n → refineLoop ts sigs n ≠ .unchanged
  | [], n, h => by simp [refineLoop, h]
  | sig :: sigs, n, h => by
    simp only [refineLoop]
    split
    · simp
    · simp
    · exact refineLoop_ne h
    · simp

theorem refine_ne {ts : List (Option Ty)} {ext : List Sig} (h : ext ≠ []) : refinePrelude ts ext ≠ .unchanged :=
  refineLoop_ne (List.length_pos_iff.2 h)

/-- A call of a function of the host whose type depends on the arguments. -/
def Open (env : Check.Env) (ns : Nodes) (i : Nat) : Prop :=
  Frag env ns i ∧ i < ns.length ∧ (ns.at i).kind = .call ∧ ∃ f d, HostFn env ns i f d ∧ d.ext ≠ []

/-- The invariant. -/
structure Inv (env : Check.Env) (ns0 : Nodes) (rest : List Nat) (s : Spread) : Prop where
  ground : Grounded env ns0 s.nodes
  first : ∀ i T, Frag env ns0 i → Flat T → (ns0.at i).ty = some T → (s.nodes.at i).ty = some T
  calls : ∀ i, Open env ns0 i → i ∈ rest ∨ i ∈ s.next ∨ ∃ T, Flat T ∧ (s.nodes.at i).ty = some T

theorem open_visit {env : Check.Env} {ns0 ns : Nodes} {i : Nat} {errs : List (Nat × TypeErr)} {v : Visit}
    (hi : Open env ns0 i) (hsh : Shape ns0 ns) (hg : Grounded env ns0 ns) (hv : ns.visit env errs i = .ok v) :
    i ∈ v.push ∨ ∃ T, Flat T ∧ v.out = .ty (some T) := by
  obtain ⟨hi, -, hk, f, d, h3, hne⟩ := hi
  cases hi with
  | @host _ f' d' h1 h2 g1 g2 g3 _ g4 g5 =>
    obtain ⟨hd, ⟨n, hn⟩, hf, hl⟩ := g1
    have e : d' = d := by
      obtain ⟨-, -, h, h'⟩ := h3
      rw [hf] at h; cases h
      rw [hl] at h'; cases h'; rfl
    subst e
    simp only [Nodes.visit, hsh.kind, h1] at hv
    simp only [Nodes.visitCall, hsh.declaration, hd, hsh.name, hn, hsh.hostFn, hf, hl, Nodes.visitHost] at hv
    simp only [reduceCtorEq, if_false, if_neg hne] at hv
    cases g2 with
    | plain he => exact absurd he hne
    | ext _ _ hfound _ =>
      have hlen : (ns.argTypes i).length = d'.tys.length := by rw [argTypes_eq hsh g4 g5, List.length_map, g3]
      split at hv
      · rename_i t hr
        cases hv
        obtain ⟨hft, -⟩ := hfound _ t hlen (by
          intro t ht
          obtain ⟨c, hc, rfl⟩ := argTypes_mem hsh g4 g5 ht
          exact (hg.node c hc).1) hr
        exact Or.inr ⟨t, hft, rfl⟩
      · cases hv; exact Or.inl (by simp)
      · cases hv
      · cases hv
      · rename_i hr; exact absurd hr (refine_ne hne)
  | own _ _ h => rw [h3.1] at h; cases h
  | wrap h => rw [hk] at h; cases h
  | «local» h => have := h.use; rw [hk] at this; cases this
  | lit h | var h | ite h => rw [hk] at h; cases h

theorem inv_step {env : Check.Env} {ns0 : Nodes} (ht : Tree ns0) {s s' : Spread} {j : Nat} {rest : List Nat} (hsh : Shape ns0 s.nodes)
    (hst : Stable ns0 s.nodes) (hI : Inv env ns0 (j :: rest) s) (h : step env s j = .ok s') : Inv env ns0 rest s' where
  ground := step_grounded ht hsh hst hI.ground h
  first := fun i T hi hT ht => step_mono hsh hst hI.ground h hi hT (hI.first i T hi hT ht)
  calls := by
    intro i hi
    by_cases hij : i = j
    · subst hij
      obtain ⟨v, hv, hp, h1⟩ := step_cases h
      rcases open_visit hi hsh hI.ground hv with h2 | ⟨T, hT, h2⟩
      · exact Or.inr (Or.inl (hp i h2))
      · rcases h1 with h1 | ⟨t, h1, h3, -⟩
        · exact absurd h2 (h1.2.1 T)
        · rw [h2] at h1
          cases h1
          refine Or.inr (Or.inr ⟨T, hT, ?_⟩)
          have hlt : i < v.nodes.length := by
            rw [(visit_frag hi.1 hsh hst hI.ground hv).1, hsh.1]
            exact hi.2.1
          rw [h3, at_setTy, if_pos ⟨rfl, hlt⟩]
    · rcases hI.calls i hi with h1 | h1 | ⟨T, hT, h1⟩
      · exact Or.inl (mem_tail h1 hij)
      · exact Or.inr (Or.inl ((step_stepped h).next i h1))
      · exact Or.inr (Or.inr ⟨T, hT, step_mono hsh hst hI.ground h hi.1 hT h1⟩)

theorem grounded_first (env : Check.Env) (ns : Nodes) : Grounded env ns ns := by
  refine ⟨?_, fun a l d r u hL hl hr => ⟨by rw [hl]; exact .none, by rw [hL.fresh]; exact .none,
    (fun T _ ht => by rw [hl] at ht; cases ht), (fun T _ ht => by rw [hL.fresh] at ht; cases ht)⟩⟩
  intro i hi
  cases hi with
  | lit h1 h2 h3 h4 => rw [h3]; exact ⟨.flat h4, fun T _ _ => .lit h1 h2⟩
  | «local» _ _ h | var _ _ _ h | wrap _ _ _ h | ite _ _ _ h | own _ h | host _ h => rw [h]; exact ⟨.none, fun T _ h => by cases h⟩

/-- What the propagation leaves. -/
theorem inv_accept {env : Check.Env} {fuel : Nat} {ns out : Nodes} (h : ns.typecheck env fuel = .accept out)
    (ht : Tree ns) : Grounded env ns out ∧ (∀ i T, Frag env ns i → Flat T → (ns.at i).ty = some T → (out.at i).ty = some T) ∧
    ∀ i, Open env ns i → (∃ T, Flat T ∧ (out.at i).ty = some T) ∨
      ∃ errs v, out.visit env errs i = .ok v ∧ i ∈ v.push ∧ ∀ t, v.out ≠ .ty (some t) := by
  obtain ⟨todo, errs, hI, hlast⟩ := accept_general (Inv := Inv env ns) h
    (fun s s' j rest hsh hst _ hI hs => inv_step ht hsh hst hI hs)
    (fun s hsh hI => ⟨hI.ground, hI.first, fun i hi => by
      rcases hI.calls i hi with h1 | h1 | h1
      · cases h1
      · exact Or.inl (List.mem_filter.2 ⟨List.mem_range.2 (by rw [hsh.1]; exact hi.2.1), by simpa using h1⟩)
      · exact Or.inr (Or.inr h1)⟩)
    ⟨grounded_first env ns, fun _ _ _ _ h => h, fun i hi => Or.inl (List.mem_range.2 hi.2.1)⟩
  refine ⟨hI.ground, hI.first, fun i hi => ?_⟩
  rcases hI.calls i hi with h1 | h1 | h1
  · obtain ⟨errs, v, h2, h3, -⟩ := hlast i h1
    rcases open_visit hi (accept_shape h).1 hI.ground h2 with h4 | ⟨T, -, h4⟩
    · exact Or.inr ⟨errs, v, h2, h4, h3⟩
    · exact absurd h4 (h3 T)
  · cases h1
  · exact Or.inl h1

/-! ## The types of an accepted file -/

theorem flat_goesWith {P T : Ty} (hP : Flat P) (hT : Flat T) (h : P.goesWith T = true) : P = T := by
  cases hP <;> cases hT <;> first
    | rfl
    | (rw [Ty.goesWith.eq_def] at h; simp [Ty.isAdHoc, Ty.isUnreachable, Ty.isAny] at h)

theorem any_goesWith {T : Ty} (hT : Flat T) : T.goesWith .any = true := by
  cases hT <;> (rw [Ty.goesWith.eq_def]; simp [Ty.isAdHoc, Ty.isUnreachable, Ty.isAny])

/-- The type of a use of a variable. -/
theorem use_type {env : Check.Env} {fuel : Nat} {ns out : Nodes} (h : ns.typecheck env fuel = .accept out) (ht : Tree ns)
    (hg : Grounded env ns out) {a l d r i : Nat} (h1 : LocalUse ns a l d r i) (h2 : (ns.at i).tryFlag = false)
    (h3 : (ns.at i).ty = none) (h4 : (ns.at l).ty = none) (h5 : ∀ p, (ns.at i).parent = some p → (ns.at p).kind ≠ .left)
    (h6 : Frag env ns r) {T : Ty} (hT : Flat T) (e : (out.at r).ty = some T) : (out.at i).ty = some T := by
  obtain ⟨L, h7, h8⟩ := C64_local h ht h1 e
  rw [inner_id h2] at h7
  have hn := hg.node i (.local h1 h2 h3 h4 h5 h6)
  have hH := hg.decl a l d r i h1 h4 h6
  rcases h8 with rfl | h8
  · exact h7
  · exfalso
    have hv := hn.1
    rw [h7] at hv
    have flat : ¬ Flat L := by
      intro hF
      cases hn.2 L hF h7 with
      | «local» g g' =>
        have := g.uses
        rw [h1.uses] at this
        cases this
        have := hH.right L hF (hH.same L hF g')
        rw [e] at this
        cases this
        cases hF <;> simp [Ty.goesWith.eq_def, Ty.isAdHoc, Ty.isUnreachable, Ty.isAny] at h8
      | var _ g1 g2 => rw [h1.uses] at g1; cases g1; rw [h1.item] at g2; cases g2
      | wrap h => rw [h1.use] at h; cases h
      | lit h | ite h | own h | plain h | ext h => rw [h1.use] at h; cases h
    cases hv with
    | any => rw [any_goesWith hT] at h8; cases h8
    | flat hF => exact flat hF

/-- Each node of an accepted file that is in the fragment has a type. -/
theorem known {env : Check.Env} {fuel : Nat} {ns out : Nodes} (h : ns.typecheck env fuel = .accept out) (ht : Tree ns)
    {i : Nat} (hi : Frag env ns i) (hlt : i < ns.length) : ∃ T, Flat T ∧ (out.at i).ty = some T := by
  obtain ⟨hg, hfirst, hopen⟩ := inv_accept h ht
  have hsh := (accept_shape h).1
  induction hi with
  | lit h1 h2 h3 h4 => exact ⟨_, h4, hfirst _ _ (.lit h1 h2 h3 h4) h4 h3⟩
  | var h1 h2 h3 h4 h5 h6 h7 h8 => exact ⟨_, h8, by rw [C64_parameter h hlt h1 h2 h5 h6 h7, inner_id h3]⟩
  | @«local» i a l d r h1 h2 h3 h4 h5 h6 ih =>
    obtain ⟨T, hT, e⟩ := ih (ht a r (child_mem h1.right)).2.2
    exact ⟨T, hT, use_type h ht hg h1 h2 h3 h4 h5 h6 hT e⟩
  | @wrap i c h1 h2 h3 h4 h5 h6 ih =>
    obtain ⟨T, hT, e⟩ := ih (ht i c (by simp [h2])).2.2
    exact ⟨T, hT, by rw [C64_takes h ht (takes_wrap h1 h2) h6.itemIds (Or.inl h5) h6.kind.1 e, inner_id h3]⟩
  | @ite i a b c h1 h2 h3 h4 ha hb hc hfa hfb hfc iha ihb ihc =>
    obtain ⟨T, hT, e⟩ := ihb (ht i b (by simp [h2])).2.2
    exact ⟨T, hT, by rw [C64_takes h ht (.branch h1 (child_if h2 ha hb)) hfb.itemIds (Or.inl (by rw [hb]; decide)) hfb.kind.1 e,
      inner_id h3]⟩
  | own h1 h2 h3 h4 h5 h6 h7 => exact ⟨_, h6, C64_call h hlt h1 h2 h3 h4 h5 h7⟩
  | @host i f d h1 h2 h3 h4 h5 hnd h6 h7 ih =>
    cases h4 with
    | plain he hr htys =>
      obtain ⟨hd, ⟨n, hn⟩, hf, hl⟩ := h3
      refine ⟨_, hr, C64_host h hlt h1 hd hn ?_ hl he⟩
      simp only [Nodes.hostFn, hn] at hf
      cases ha : (ns.at i).alias with
      | none => rw [ha] at hf; exact Or.inl ⟨rfl, hf⟩
      | some a =>
        rw [ha] at hf
        simp only at hf
        refine Or.inr ⟨a, rfl, ?_⟩
        split at hf
        · rename_i g hg'; cases hf; exact hg'
        · cases hf
    | ext he hr hfound hlate =>
      have hO : Open env ns i := ⟨.host h1 h2 h3 (.ext he hr hfound hlate) h5 hnd h6 h7, hlt, h1, f, d, h3, he⟩
      rcases hopen i hO with h8 | ⟨errs, v, h8, h9, -⟩
      · exact h8
      · exfalso
        obtain ⟨hd, ⟨n, hn⟩, hf, hl⟩ := h3
        have hlen : (out.argTypes i).length = d.tys.length := by rw [argTypes_eq hsh h6 h7, List.length_map, h5]
        have hflat : ∀ t ∈ out.argTypes i, ∃ T, Flat T ∧ t = some T := by
          intro t htm
          rw [argTypes_eq hsh h6 h7] at htm
          obtain ⟨a, ha, rfl⟩ := List.mem_map.1 htm
          obtain ⟨c, hc, htf, -, hr', hcf⟩ := (h7 a ha).callArg (h6 a ha)
          obtain ⟨T, hT, e⟩ := ih a ha (ht i a ha).2.2
          rw [hc]
          simp only [List.headD_cons]
          cases (hg.node a (h7 a ha)).2 T hT e with
          | wrap _ g1 g2 => rw [hc] at g1; cases g1; exact ⟨T, hT, g2⟩
          | «local» g => have := g.use; rw [h6 a ha] at this; cases this
          | lit g | var g | own g | plain g | ext g | ite g => rw [h6 a ha] at g; cases g
        simp only [Nodes.visit, hsh.kind, h1] at h8
        simp only [Nodes.visitCall, hsh.declaration, hd, hsh.name, hn, hsh.hostFn, hf, hl, Nodes.visitHost] at h8
        simp only [reduceCtorEq, if_false, if_neg he] at h8
        split at h8
        · cases h8; simp at h9
        · rename_i hr; exact absurd hr (hlate _ hlen hflat)
        · cases h8
        · cases h8
        · cases h8; simp at h9

namespace Spec

/-- `TypedNode env ns i T`: by the usual rules of types the node `i` has the type `T`. -/
inductive TypedNode (env : Check.Env) (ns : Nodes) : Nat → Ty → Prop
  | lit {i T} : (ns.at i).kind = .expr → (ns.at i).children = [] → (ns.at i).ty = some T → TypedNode env ns i T
  | var {i d T} : (ns.at i).kind = .item → (ns.at i).children = [] → (ns.at i).declaration = some d → (ns.at d).kind = .arg →
      (ns.at d).ty = some T → TypedNode env ns i T
  /-- a variable has the type of the expression that it is declared with -/
  | local {i a l d r T} : LocalUse ns a l d r i → TypedNode env ns r T → TypedNode env ns i T
  | wrap {i c T} : Plain (ns.at i).kind → (ns.at i).children = [c] → TypedNode env ns c T → TypedNode env ns i T
  | ite {i a b c T} : (ns.at i).kind = .if' → (ns.at i).children = [a, b, c] → (ns.at a).kind = .cond →
      (ns.at b).kind = .trueBlock → (ns.at c).kind = .elseBlock → TypedNode env ns a .bool → TypedNode env ns b T →
      TypedNode env ns c T → TypedNode env ns i T
  /-- a function of the file: the arguments have the types of the parameters -/
  | own {i d T} {ts : List Ty} : (ns.at i).kind = .call → (ns.at i).declaration = some d → (ns.at d).kind = .fn →
      (ns.at d).ty = some T → ts.length = (ns.at i).children.length →
      (∀ (k : Nat) (P : Ty), ts[k]? = some P → ∃ p, (ns.at d).children[k]? = some p ∧ (ns.at p).kind = .arg ∧
        (ns.at p).ty = some P) →
      (∀ (k a : Nat) (P : Ty), (ns.at i).children[k]? = some a → ts[k]? = some P → TypedNode env ns a P) → TypedNode env ns i T
  /-- a function of the host: the arguments have the types that are declared -/
  | host {i f d} : (ns.at i).kind = .call → HostFn env ns i f d → d.ext = [] → (ns.at i).children.length = d.tys.length →
      (∀ (k a : Nat) (P : Ty), (ns.at i).children[k]? = some a → d.tys[k]? = some P → TypedNode env ns a P) → TypedNode env ns i d.ret
  /-- a function of the host with more than one signature: the types of the arguments determine the one that is used -/
  | ext {i f d T} {ts : List Ty} : (ns.at i).kind = .call → HostFn env ns i f d → d.ext ≠ [] → ts.length = (ns.at i).children.length →
      (∀ (k a : Nat) (P : Ty), (ns.at i).children[k]? = some a → ts[k]? = some P → TypedNode env ns a P) →
      refinePrelude (ts.map some) d.ext = .found T → TypedNode env ns i T

end Spec

theorem passed {env : Check.Env} {ns : Nodes} {i k a : Nat} (hnd : (ns.at i).children.Nodup)
    (hk : ∀ a ∈ (ns.at i).children, (ns.at a).kind = .callArg) (hf : ∀ a ∈ (ns.at i).children, Frag env ns a)
    (h : (ns.at i).children[k]? = some a) : PassedTo ns i a k := by
  have hw : ∀ b ∈ (ns.at i).children, ns.width b = 1 := by
    intro b hb
    obtain ⟨c, hc, -, -, -, hcf⟩ := (hf b hb).callArg (hk b hb)
    simp [Nodes.width, Nodes.child, hc, hcf.kind.2.2.2]
  obtain ⟨hlt, he⟩ := List.getElem?_eq_some_iff.1 h
  refine ⟨(ns.at i).children.take k, (ns.at i).children.drop (k + 1), 0, ?_, ?_, ?_, ?_⟩
  · rw [← he, ← List.drop_eq_getElem_cons hlt, List.take_append_drop]
  · intro hm
    obtain ⟨m, hm1, hm2⟩ := List.mem_take_iff_getElem.1 hm
    have := List.pairwise_iff_getElem.1 hnd m k (by omega) hlt (by omega)
    exact this (by rw [hm2, he])
  · rw [hw a (List.mem_of_getElem? h)]; omega
  · have : ((ns.at i).children.take k).map ns.width = List.replicate k 1 := by
      rw [List.eq_replicate_iff]
      refine ⟨by simp; omega, fun b hb => ?_⟩
      obtain ⟨x, hx, rfl⟩ := List.mem_map.1 hb
      exact hw x (List.mem_of_mem_take hx)
    rw [this]; simp

/-- **C81** (checker). In an accepted file each expression made of literals, variables, calls and `if` has a type by the
usual rules, and it is the type that the checker found. -/
theorem C81_checked_partial {env : Check.Env} {fuel : Nat} {ns out : Nodes} (h : ns.typecheck env fuel = .accept out)
    (ht : Tree ns) {i : Nat} (hi : Frag env ns i) (hlt : i < ns.length) :
    ∃ T, Flat T ∧ (out.at i).ty = some T ∧ TypedNode env ns i T := by
  obtain ⟨hg, hfirst, hopen⟩ := inv_accept h ht
  have hsh := (accept_shape h).1
  induction hi with
  | lit h1 h2 h3 h4 => exact ⟨_, h4, hfirst _ _ (.lit h1 h2 h3 h4) h4 h3, .lit h1 h2 h3⟩
  | var h1 h2 h3 h4 h5 h6 h7 h8 =>
    exact ⟨_, h8, by rw [C64_parameter h hlt h1 h2 h5 h6 h7, inner_id h3], .var h1 h2 h5 h6 h7⟩
  | @«local» i a l d r h1 h2 h3 h4 h5 h6 ih =>
    obtain ⟨T, hT, e, t⟩ := ih (ht a r (child_mem h1.right)).2.2
    exact ⟨T, hT, use_type h ht hg h1 h2 h3 h4 h5 h6 hT e, .local h1 t⟩
  | @wrap i c h1 h2 h3 h4 h5 h6 ih =>
    obtain ⟨T, hT, e, h⟩ := ih (ht i c (by simp [h2])).2.2
    exact ⟨T, hT, by rw [C64_takes ‹_› ht (takes_wrap h1 h2) h6.itemIds (Or.inl h5) h6.kind.1 e, inner_id h3], .wrap h1 h2 h⟩
  | @ite i a b c h1 h2 h3 h4 ha hb hc hfa hfb hfc iha ihb ihc =>
    obtain ⟨A, hA, eA, tA⟩ := iha (ht i a (by simp [h2])).2.2
    obtain ⟨T, hT, e, t⟩ := ihb (ht i b (by simp [h2])).2.2
    obtain ⟨C, hC, eC, tC⟩ := ihc (ht i c (by simp [h2])).2.2
    have eI : (out.at i).ty = some T := by
      rw [C64_takes h ht (.branch h1 (child_if h2 ha hb)) hfb.itemIds (Or.inl (by rw [hb]; decide)) hfb.kind.1 e, inner_id h3]
    have hca : ns.child i .cond = some a := by simp [Nodes.child, h2, ha]
    have hce : ns.child i .elseBlock = some c := by simp [Nodes.child, h2, ha, hb, hc]
    have := (C62_if h hlt h1 (c := a) (T := A) (by simp [h2]) eA).1 hca
    have hAb : A = .bool := (flat_goesWith .bool hA this).symm
    subst hAb
    have hCT := ((C62_if h hlt h1 (c := c) (T := C) (by simp [h2]) eC).2 T eI).2.2 hce
    have hCT : C = T := flat_goesWith hC hT hCT
    subst hCT
    exact ⟨C, hT, eI, .ite h1 h2 ha hb hc tA t tC⟩
  | @own i d T h1 h2 h3 h4 h5 h6 h7 hp hnd hk hf ih =>
    have args : ∀ (k a : Nat), (ns.at i).children[k]? = some a → ∃ p P, (ns.at d).children[k]? = some p ∧ (ns.at p).kind = .arg ∧
        (ns.at p).ty = some P ∧ (out.at a).ty = some P ∧ TypedNode env ns a P := by
      intro k a hka
      have ham := List.mem_of_getElem? hka
      obtain ⟨p, P, hp1, hp2, hp3, hp4⟩ := hp k (List.getElem?_eq_some_iff.1 hka).1
      obtain ⟨A, hA, eA, tA⟩ := ih a ham (ht i a ham).2.2
      obtain ⟨c, hc, htf, -, -, hcf⟩ := (hf a ham).callArg (hk a ham)
      have hcT : (out.at c).ty = some A := by
        cases (hg.node a (hf a ham)).2 A hA eA with
        | wrap _ g1 g2 => rw [hc] at g1; cases g1; exact g2
        | «local» g => have := g.use; rw [hk a ham] at this; cases this
        | lit g | var g | own g | plain g | ext g | ite g => rw [hk a ham] at g; cases g
      have := C60_argument h ht h1 (hk a ham) ham hc hcf.kind.1 (passed hnd hk hf hka) (.declared h3 hp1 hp2 hp3) hcT
      rw [inner_id htf] at this
      have := flat_goesWith hp4 hA this
      subst this
      exact ⟨p, P, hp1, hp2, hp3, eA, tA⟩
    refine ⟨_, h6, C64_call h hlt h1 h2 h3 h4 h5 h7, .own (ts := (ns.at i).children.map fun a => (out.at a).ty.getD .any)
      h1 h3 h4 h5 (by simp) (fun k P hP => ?_) (fun k a P hka hP => ?_)⟩
    · rw [List.getElem?_map, Option.map_eq_some_iff] at hP
      obtain ⟨a, hka, hP⟩ := hP
      obtain ⟨p, P', h1, h2, h3, h4, -⟩ := args k a hka
      rw [h4] at hP
      simp at hP
      subst hP
      exact ⟨p, h1, h2, h3⟩
    · obtain ⟨p, P', -, -, -, h4, h5⟩ := args k a hka
      rw [List.getElem?_map, hka, Option.map_some, h4] at hP
      simp at hP
      subst hP
      exact h5
  | @host i f d h1 h2 h3 h4 h5 hnd hk hf ih =>
    have hF : Frag env ns i := .host h1 h2 h3 h4 h5 hnd hk hf
    obtain ⟨T, hT, eT⟩ := known h ht hF hlt
    refine ⟨T, hT, eT, ?_⟩
    have args : ∀ a ∈ (ns.at i).children, ∃ A, Flat A ∧ TypedNode env ns a A ∧ ∃ c, (ns.at a).children = [c] ∧
        (ns.at a).tryFlag = false ∧ Frag env ns c ∧ (out.at c).ty = some A := by
      intro a ham
      obtain ⟨A, hA, eA, tA⟩ := ih a ham (ht i a ham).2.2
      obtain ⟨c, hc, htf, -, -, hcf⟩ := (hf a ham).callArg (hk a ham)
      refine ⟨A, hA, tA, c, hc, htf, hcf, ?_⟩
      cases (hg.node a (hf a ham)).2 A hA eA with
      | wrap _ g1 g2 => rw [hc] at g1; cases g1; exact g2
      | «local» g => have := g.use; rw [hk a ham] at this; cases this
      | lit g | var g | own g | plain g | ext g | ite g => rw [hk a ham] at g; cases g
    have same : ∀ {f' d'}, HostFn env ns i f' d' → d' = d := by
      obtain ⟨-, -, hf, hl⟩ := h3
      rintro f' d' ⟨-, -, h, h'⟩
      rw [hf] at h; cases h
      rw [hl] at h'; cases h'; rfl
    cases (hg.node i hF).2 T hT eT with
    | @plain f' d' _ g1 g2 g3 =>
      have := same g1
      subst this
      subst g3
      refine .host h1 h3 g2 h5 fun k a P hka hP => ?_
      have ham := List.mem_of_getElem? hka
      obtain ⟨A, hA, tA, c, hc, htf, hcf, ec⟩ := args a ham
      have hpt : ParamType env ns i k P := by
        obtain ⟨hd, ⟨n, hn⟩, hfn, hl⟩ := h3
        simp only [Nodes.hostFn, hn] at hfn
        cases ha : (ns.at i).alias with
        | none => rw [ha] at hfn; exact .prelude hd ha hn hfn hl hP
        | some al =>
          rw [ha] at hfn
          simp only at hfn
          split at hfn
          · rename_i g hg'; cases hfn; exact .aliased hd ha hn hg' hl hP
          · cases hfn
      have := C60_argument h ht h1 (hk a ham) ham hc hcf.kind.1 (passed hnd hk hf hka) hpt ec
      rw [inner_id htf] at this
      have hPf : Flat P := by
        cases h4 with
        | plain _ _ h => exact h P (List.mem_of_getElem? hP)
        | ext h => exact absurd g2 h
      have := flat_goesWith hPf hA this
      subst this
      exact tA
    | @ext f' d' _ g1 g2 g3 =>
      have := same g1
      subst this
      have hts : ∃ ts : List Ty, out.argTypes i = ts.map some ∧ ts.length = (ns.at i).children.length ∧
          ∀ (k : Nat) (a : Nat) (P : Ty), (ns.at i).children[k]? = some a → ts[k]? = some P → TypedNode env ns a P := by
        refine ⟨(ns.at i).children.map fun a => (out.at a).ty.getD .any, ?_, by simp, ?_⟩
        · rw [argTypes_eq hsh hk hf, List.map_map]
          refine List.map_congr_left fun a ham => ?_
          obtain ⟨A, hA, eA, -⟩ := ih a ham (ht i a ham).2.2
          obtain ⟨A', hA', tA, c, hc, htf, hcf, ec⟩ := args a ham
          rw [hc]
          cases (hg.node a (hf a ham)).2 A hA eA with
          | wrap _ g1 g2 => rw [hc] at g1; cases g1; simp [g2, eA]
          | «local» g => have := g.use; rw [hk a ham] at this; cases this
          | lit g | var g | own g | plain g | ext g | ite g => rw [hk a ham] at g; cases g
        · intro k a P hka hP
          have ham := List.mem_of_getElem? hka
          obtain ⟨A, hA, eA, tA⟩ := ih a ham (ht i a ham).2.2
          rw [List.getElem?_map, hka, Option.map_some, eA] at hP
          simp at hP
          subst hP
          exact tA
      obtain ⟨ts, e1, e2, e3⟩ := hts
      exact .ext h1 h3 g2 e2 e3 (by rw [← e1]; exact g3)
    | own _ g => rw [h3.1] at g; cases g
    | wrap g => rw [h1] at g; cases g
    | «local» g => have := g.use; rw [h1] at this; cases this
    | lit g | var g | ite g => rw [h1] at g; cases g

end Dyon.Sound
