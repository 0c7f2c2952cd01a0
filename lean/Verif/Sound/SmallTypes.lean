import Verif.Sound.SmallVars
import Verif.Check.LayoutOrder

/-!
# The types of small programs

Lemmas for C81: the types that the nodes of an expression can have by the rules for nodes (`TypedNode`) are types of the
expression that runs by the rules for expressions (`Typing`).
-/

namespace Dyon.Sound.Small

open Check Check.Spec
open Check.EndDemo (nd)
open Lost (box)
open Sound.Spec (Frag TypedNode Honest HostFn Plain Vague)
open Ty (HasTy)

mutual
/-- The names that are called. -/
def Ex.called : Ex → List String
  | .num _ | .bool _ | .text _ | .var _ => []
  | .call f args => f :: calledAll args
  | .ite c a b => c.called ++ a.called ++ b.called
  | .neg e => "neg" :: e.called
  | .pow l r => "pow" :: (l.called ++ r.called)
  | .mul op l r | .add op l r | .cmp op l r => Syn.callName op :: (l.called ++ r.called)
/-- The same for arguments. -/
def calledAll : List Ex → List String
  | [] => []
  | e :: es => e.called ++ calledAll es
end

mutual
/-- The variables. -/
def Ex.vars : Ex → List String
  | .num _ | .bool _ | .text _ => []
  | .var x => [x]
  | .call _ args => varsAll args
  | .ite c a b => c.vars ++ a.vars ++ b.vars
  | .neg e => e.vars
  | .pow l r | .mul _ l r | .add _ l r | .cmp _ l r => l.vars ++ r.vars
/-- The same for arguments. -/
def varsAll : List Ex → List String
  | [] => []
  | e :: es => e.vars ++ varsAll es
end

/-- The names that are called in a statement. -/
def Stm.called : Stm → List String
  | .decl _ e => e.called
  | .guard c e => c.called ++ e.called

/-- The variables that are used in a statement. -/
def Stm.vars : Stm → List String
  | .decl _ e => e.vars
  | .guard c e => c.vars ++ e.vars

/-- The names that are called in a function. -/
def Fn.called (f : Fn) : List String := f.stms.flatMap Stm.called ++ f.body.called

/-- The variables that are used in a function. -/
def Fn.vars (f : Fn) : List String := f.stms.flatMap Stm.vars ++ f.body.vars

theorem Ft.flat (t : Ft) : Flat t.ty := by cases t <;> constructor

/-- What `R` says of the function that the name `f` stands for agrees with what is declared. -/
structure Knows (env : Check.Env) (fs : List Fn) (R : FnIndex → String → List Ty → Ty → Prop) (find : String → FnIndex) (f : String) : Prop where
  own : ∀ (j : Nat) (g : Fn), fs[j]? = some g → g.name = f → R (find f) f (g.params.map fun p => p.2.ty) g.ret.ty
  host : (∀ g ∈ fs, g.name ≠ f) → ∀ k d, env.prelude.functions f = some k → env.prelude.list[k]? = some d →
    Honest d ∧ d.lts.length = d.tys.length ∧ (d.ext = [] → R (find f) f d.tys d.ret) ∧
    (d.ext ≠ [] → ∀ (ts : List Ty) T, ts.length = d.tys.length → (∀ t ∈ ts, Flat t) → refinePrelude (ts.map some) d.ext = .found T →
      R (find f) f ts T)

/-- The node is one of the fragment, and the types it can have are types of the expression. -/
def Fine (env : Check.Env) (ns : Nodes) (R : FnIndex → String → List Ty → Ty → Prop) (Γ : List (String × Ty)) (i : Nat) (e : Expr) : Prop :=
  Frag env ns i ∧ (ns.at i).kind ≠ .ret ∧ ∀ T, TypedNode env ns i T → Flat T ∧ Typing R Γ e T

section
variable {env : Check.Env} {fs : List Fn} {ns0 ns1 ns2 : Nodes} {is : List Nat} {R : FnIndex → String → List Ty → Ty → Prop}
  {Γ : List (String × Ty)} {find : String → FnIndex}

/-- Something written around. -/
theorem fine_wrap {ns : Nodes} {i c : Nat} {k : Kind} {e : Expr} (hn : NodeIs ns i k [] none [c]) (hk : Plain k) (hr : k ≠ .ret)
    (h : Fine env ns R Γ c e) : Fine env ns R Γ i e := by
  obtain ⟨h1, h2, h3⟩ := h
  refine ⟨.wrap (by rw [hn.kind]; exact hk) hn.children hn.tryFlag hn.ty h2 h1, by rw [hn.kind]; exact hr, fun T hT => ?_⟩
  have key : ∀ k', (ns.at i).kind = k' → Plain k' := fun k' h => by rw [← h, hn.kind]; exact hk
  cases hT with
  | wrap _ h _ => rw [hn.children] at h; cases h; exact h3 T ‹_›
  | lit _ h => rw [hn.children] at h; cases h
  | var h | ite h | own h | host h | ext h => exact absurd (key _ h) (by intro h; cases h)
  | «local» h => exact absurd (key _ h.use) (by intro h; cases h)

theorem laid_wrap (S : Setup env fs ns0 ns1 ns2 is) {p : Option Nat} {i r : Nat} {k : Kind} {t : Tr} {e : Expr} (h : Laid ns0 p i (box k [t]))
    (hc : Chain ns0 i r) (hk : Plain k) (hr : k ≠ .ret)
    (ih : ∀ p c, Laid ns0 (some p) c t → Chain ns0 c r → Fine env ns2 R Γ c e) : Fine env ns2 R Γ i e := by
  obtain ⟨c, hl, hn⟩ := laid_box1 h
  exact fine_wrap (hn.like S.like) hk hr (ih _ c hl (laid_chain hl hc))

theorem laid_lit (S : Setup env fs ns0 ns1 ns2 is) {p : Option Nat} {i : Nat} {T : Ty} {v : Val} (h : Laid ns0 p i (nd .expr [] (some T) []))
    (hT : Flat T) (hv : HasTy T v) : Fine env ns2 R Γ i (.const v) := by
  obtain ⟨cs, hl, hn⟩ := laid_nd h
  cases hl
  have hn := hn.like S.like
  refine ⟨.lit hn.kind hn.children hn.ty hT, by rw [hn.kind]; decide, fun U hU => ?_⟩
  cases hU with
  | lit _ _ h => rw [hn.ty] at h; cases h; exact ⟨hT, .const hT hv⟩
  | wrap _ h _ => rw [hn.children] at h; cases h
  | var h | ite h | own h | host h | ext h => rw [hn.kind] at h; cases h
  | «local» h => have := h.use; rw [hn.kind] at this; cases this

theorem laid_ite (S : Setup env fs ns0 ns1 ns2 is) {r : Nat} {p : Option Nat} {i : Nat} {tc ta tb : Tr} {c a b : Expr}
    (h : Laid ns0 p i (box .if' [box .cond [tc], box .trueBlock [box .expr [ta]], box .elseBlock [box .expr [tb]]])) (hc : Chain ns0 i r)
    (ihc : ∀ p i, Laid ns0 (some p) i tc → Chain ns0 i r → Fine env ns2 R Γ i c)
    (iha : ∀ p i, Laid ns0 (some p) i ta → Chain ns0 i r → Fine env ns2 R Γ i a)
    (ihb : ∀ p i, Laid ns0 (some p) i tb → Chain ns0 i r → Fine env ns2 R Γ i b) :
    Fine env ns2 R Γ i (.ite c [a] [] (some [b])) := by
  obtain ⟨cs, hl, hn⟩ := laid_box h
  cases hl with
  | @cons _ x _ _ _ _ _ l1 hl =>
  cases hl with
  | @cons _ y _ _ _ _ _ l2 hl =>
  cases hl with
  | @cons _ z _ _ _ _ _ l3 hl =>
  cases hl
  have hn := hn.like S.like
  have k1 : (ns2.at x).kind = .cond := by obtain ⟨_, _, h⟩ := laid_box1 l1; exact (h.like S.like).kind
  have k2 : (ns2.at y).kind = .trueBlock := by obtain ⟨_, _, h⟩ := laid_box1 l2; exact (h.like S.like).kind
  have k3 : (ns2.at z).kind = .elseBlock := by obtain ⟨_, _, h⟩ := laid_box1 l3; exact (h.like S.like).kind
  obtain ⟨f1, -, t1⟩ := laid_wrap S l1 (laid_chain l1 hc) .cond (by decide) ihc
  obtain ⟨f2, -, t2⟩ := laid_wrap (e := a) S l2 (laid_chain l2 hc) .trueBlock (by decide)
    fun p c hl hc => laid_wrap S hl hc .expr (by decide) iha
  obtain ⟨f3, -, t3⟩ := laid_wrap (e := b) S l3 (laid_chain l3 hc) .elseBlock (by decide)
    fun p c hl hc => laid_wrap S hl hc .expr (by decide) ihb
  refine ⟨.ite hn.kind hn.children hn.tryFlag hn.ty k1 k2 k3 f1 f2 f3, by rw [hn.kind]; decide, fun T hT => ?_⟩
  cases hT with
  | ite _ h _ _ _ h1 h2 h3 =>
    rw [hn.children] at h
    cases h
    exact ⟨(t2 T h2).1, .ite (t1 _ h1).2 (t2 T h2).2 (t3 T h3).2⟩
  | wrap _ h _ => rw [hn.children] at h; cases h
  | lit h | var h | own h | host h | ext h => rw [hn.kind] at h; cases h
  | «local» h => have := h.use; rw [hn.kind] at this; cases this

theorem typings_of : ∀ {es : List Expr} {ts : List Ty}, es.length = ts.length →
    (∀ (k : Nat) e P, es[k]? = some e → ts[k]? = some P → Typing R Γ e P) → Typings R Γ es ts
  | [], [], _, _ => .nil
  | e :: es, t :: ts, hl, h =>
    .cons (h 0 e t rfl rfl) (typings_of (by simpa using hl) fun k e P h1 h2 => h (k + 1) e P h1 h2)
  | [], _ :: _, hl, _ => by cases hl
  | _ :: _, [], hl, _ => by cases hl

/-- A call whose arguments are fine. -/
theorem laid_call (S : Setup env fs ns0 ns1 ns2 is) {r p i : Nat} {n : String} {ts : List Tr} {es : List Expr} (hK : Knows env fs R find n)
    (h : Laid ns0 (some p) i (nd .call [n] none (ts.map fun t => box .callArg [t]))) (hc : Chain ns0 i r) (hlen : ts.length = es.length)
    (ih : ∀ (k : Nat) (t : Tr) (e : Expr), ts[k]? = some t → es[k]? = some e → ∀ p c, Laid ns0 (some p) c t → Chain ns0 c r → Fine env ns2 R Γ c e) :
    Fine env ns2 R Γ i (.call (find n) n es) := by
  obtain ⟨cs, hl, hn0⟩ := laid_nd h
  obtain ⟨hcl, hget⟩ := laid_get hl
  rw [List.length_map] at hcl
  have hnd := laid_nodup hl
  have hn := hn0.like S.like
  have arg : ∀ (k : Nat) (a : Nat) (e : Expr), cs[k]? = some a → es[k]? = some e → Fine env ns2 R Γ a e := by
    intro k a e ha he
    have hlt := (List.getElem?_eq_some_iff.1 ha).1
    obtain ⟨c, hc', hlc⟩ := hget k (box .callArg [ts[k]'(by omega)]) (by
      rw [List.getElem?_map, List.getElem?_eq_getElem (by omega)]; rfl)
    rw [ha] at hc'
    cases hc'
    exact laid_wrap S hlc (laid_chain hlc hc) .arg (by decide) (ih k _ e (List.getElem?_eq_getElem _) he)
  have argk : ∀ a ∈ cs, NodeIs ns0 a .callArg [] none (ns0.at a).children ∧ ∃ (k : Nat) (e : Expr), cs[k]? = some a ∧ es[k]? = some e := by
    intro a ha
    obtain ⟨t, ht, hla⟩ := laid_mem hl a ha
    obtain ⟨t', -, rfl⟩ := List.mem_map.1 ht
    obtain ⟨c, -, h⟩ := laid_box1 hla
    refine ⟨by rw [h.children]; exact h, ?_⟩
    obtain ⟨k, hk⟩ := List.mem_iff_getElem?.1 ha
    have hlt := (List.getElem?_eq_some_iff.1 hk).1
    exact ⟨k, es[k]'(by omega), hk, List.getElem?_eq_getElem _⟩
  have argFrag : ∀ a ∈ cs, Frag env ns2 a := by
    intro a ha
    obtain ⟨-, k, e, h1, h2⟩ := argk a ha
    exact (arg k a e h1 h2).1
  have argKind : ∀ a ∈ cs, (ns2.at a).kind = .callArg := fun a ha => ((argk a ha).1.like S.like).kind
  have typed : ∀ {us : List Ty}, us.length = cs.length → (∀ (k a : Nat) (P : Ty), cs[k]? = some a → us[k]? = some P → TypedNode env ns2 a P) →
      (∀ t ∈ us, Flat t) ∧ Typings R Γ es us := by
    intro us hul hu
    constructor
    · intro t ht
      obtain ⟨k, hk⟩ := List.mem_iff_getElem?.1 ht
      have hlt := (List.getElem?_eq_some_iff.1 hk).1
      exact ((arg k (cs[k]'(by omega)) (es[k]'(by omega)) (List.getElem?_eq_getElem _) (List.getElem?_eq_getElem _)).2.2 t
        (hu k _ t (List.getElem?_eq_getElem _) hk)).1
    · refine typings_of (by omega) fun k e P h1 h2 => ?_
      have hlt := (List.getElem?_eq_some_iff.1 h2).1
      exact ((arg k (cs[k]'(by omega)) e (List.getElem?_eq_getElem _) h1).2.2 P (hu k _ P (List.getElem?_eq_getElem _) h2)).2
  rcases S.call (laid_lt h) hn0.kind hn0.name hn0.als (by
    rw [hn0.children]
    intro a ha
    refine ⟨(argk a ha).1.kind, fun s hs => ?_⟩
    obtain ⟨c, hc', -, -, -, hcf⟩ := (argFrag a ha).callArg (argKind a ha)
    rw [S.like.children] at hc'
    rw [hc'] at hs
    simp only [List.mem_cons, List.not_mem_nil, or_false] at hs
    subst hs
    rw [← S.like.kind]
    exact hcf.kind.2.2.2) with ⟨j, d, g, hj, hg, hname, hd, hcnt⟩ | ⟨hno, hd, q, d, hfn, hlist, hcnt⟩
  · have hroot := S.root hj hg
    obtain ⟨-, hps, hty, hret, -⟩ := params_args ns0 hroot
    have hkind : (ns2.at d).kind = .fn := by rw [S.like.kind]; exact (S.root_lt hj hg).2.1
    rw [hn0.children] at hcnt
    have hpar : ∀ (k : Nat) (x : String × Ft), g.params[k]? = some x → ∃ c, (ns2.at d).children[k]? = some c ∧ (ns2.at c).kind = .arg ∧
        (ns2.at c).ty = some x.2.ty := by
      intro k x hx
      obtain ⟨c, h1, h2, h3, -⟩ := hps k x hx
      exact ⟨c, by rw [S.like.children]; exact h1, by rw [S.like.kind, h2], by rw [Like.ty' S.like, h3]⟩
    refine ⟨.own hn.kind hn.ty hd hkind (by rw [Like.ty' S.like, hret]) g.ret.flat ?_ ?_ (by rw [hn.children]; exact hnd)
      (by rw [hn.children]; exact argKind) (by rw [hn.children]; exact argFrag), by rw [hn.kind]; decide, fun T hT => ?_⟩
    · intro k hk
      rw [S.like.children] at hk
      rw [S.like.kind]
      exact hty k hk
    · intro k hk
      rw [hn.children] at hk
      obtain ⟨c, h1, h2, h3⟩ := hpar k (g.params[k]'(by omega)) (List.getElem?_eq_getElem _)
      exact ⟨c, _, h1, h2, h3, Ft.flat _⟩
    · cases hT with
      | @own _ d' _ us _ h1 h2 h3 h4 h5 h6 =>
        rw [hd] at h1
        cases h1
        rw [Like.ty' S.like, hret] at h3
        cases h3
        rw [hn.children] at h4 h6
        have he : us = g.params.map fun p => p.2.ty := by
          refine List.ext_getElem? fun k => ?_
          by_cases hk : k < us.length
          · obtain ⟨c, h1, -, h3⟩ := hpar k (g.params[k]'(by omega)) (List.getElem?_eq_getElem _)
            obtain ⟨c', h1', -, h3'⟩ := h5 k (us[k]'hk) (List.getElem?_eq_getElem _)
            rw [h1] at h1'
            cases h1'
            rw [h3] at h3'
            rw [List.getElem?_map, List.getElem?_eq_getElem hk, List.getElem?_eq_getElem (by omega), ← h3']
            rfl
          · rw [List.getElem?_eq_none (by omega), List.getElem?_eq_none (by simp; omega)]
        subst he
        exact ⟨Ft.flat _, .call (hK.own j g hg hname) (typed h4 h6).2⟩
      | host _ h => rw [h.1] at hd; cases hd
      | ext _ h => rw [h.1] at hd; cases hd
      | wrap h => rw [hn.kind] at h; cases h
      | lit h | var h | ite h => rw [hn.kind] at h; cases h
      | «local» h => have := h.use; rw [hn.kind] at this; cases this
  · obtain ⟨hon, hlts, hR1, hR2⟩ := hK.host hno q d hfn hlist
    rw [hn0.children] at hcnt
    have hH : HostFn env ns2 i q d := ⟨hd, ⟨n, hn.name⟩, by simp [Nodes.hostFn, hn.name, hn.als, hfn], hlist⟩
    have same : ∀ {f' d'}, HostFn env ns2 i f' d' → d' = d := by
      obtain ⟨-, -, hf, hl⟩ := hH
      rintro f' d' ⟨-, -, h, h'⟩
      rw [hf] at h; cases h
      rw [hl] at h'; cases h'; rfl
    refine ⟨.host hn.kind hn.ty hH hon (by rw [hn.children]; omega) (by rw [hn.children]; exact hnd)
      (by rw [hn.children]; exact argKind) (by rw [hn.children]; exact argFrag), by rw [hn.kind]; decide, fun T hT => ?_⟩
    cases hT with
    | own _ h => rw [hd] at h; cases h
    | host _ h h1 h2 h3 =>
      have := same h
      subst this
      rw [hn.children] at h2 h3
      refine ⟨?_, .call (hR1 h1) (typed h2.symm h3).2⟩
      cases hon with
      | plain _ h _ => exact h
      | ext h => exact absurd h1 h
    | @ext _ _ _ _ us _ h h1 h2 h3 h4 =>
      have := same h
      subst this
      rw [hn.children] at h2 h3
      obtain ⟨hf, ht⟩ := typed h2 h3
      refine ⟨?_, .call (hR2 h1 us T (by omega) hf h4) ht⟩
      cases hon with
      | plain h _ _ => exact absurd h h1
      | ext _ _ h _ =>
        refine (h (us.map some) T (by simp; omega) (fun t ht => ?_) h4).1
        obtain ⟨u, hu, rfl⟩ := List.mem_map.1 ht
        exact .flat (hf u hu)
    | wrap h => rw [hn.kind] at h; cases h
    | lit h | var h | ite h => rw [hn.kind] at h; cases h
    | «local» h => have := h.use; rw [hn.kind] at this; cases this

theorem argTrs_map : ∀ es : List Ex, argTrs es = (es.map (Ex.tr false)).map fun t => box .callArg [t]
  | [] => rfl
  | e :: es => by simp [argTrs, argTrs_map es]

theorem exprs_map : ∀ es : List Ex, exprs find es = es.map (Ex.expr find)
  | [] => rfl
  | e :: es => by simp [exprs, exprs_map es]

theorem laid_op (S : Setup env fs ns0 ns1 ns2 is) {r p i : Nat} {op : Syn.BinOp} {tl tr : Tr} {l r' : Expr} (hK : Knows env fs R find (Syn.callName op))
    (h : Laid ns0 (some p) i (opTr op tl tr)) (hc : Chain ns0 i r)
    (ihl : ∀ p c, Laid ns0 (some p) c tl → Chain ns0 c r → Fine env ns2 R Γ c l)
    (ihr : ∀ p c, Laid ns0 (some p) c tr → Chain ns0 c r → Fine env ns2 R Γ c r') :
    Fine env ns2 R Γ i (.call (find (Syn.callName op)) (Syn.callName op) [l, r']) := by
  refine laid_call S (ts := [tl, tr]) hK h hc rfl fun k t e h1 h2 => ?_
  match k, h1, h2 with
  | 0, h1, h2 => cases h1; cases h2; exact ihl
  | 1, h1, h2 => cases h1; cases h2; exact ihr
  | k + 2, h1, _ => cases h1

theorem laid_atomic (S : Setup env fs ns0 ns1 ns2 is) {r p i : Nat} {t : Tr} {e : Expr} (w : Bool) (h : Laid ns0 (some p) i (atomicTr w t))
    (hc : Chain ns0 i r) (ih : ∀ p c, Laid ns0 (some p) c t → Chain ns0 c r → Fine env ns2 R Γ c e) : Fine env ns2 R Γ i e := by
  cases w
  · exact laid_wrap S h hc .expr (by decide) ih
  · exact ih _ _ h hc

theorem laid_compound (S : Setup env fs ns0 ns1 ns2 is) {r p i : Nat} {t : Tr} {e : Expr} (w : Bool) (h : Laid ns0 (some p) i (compoundTr w t))
    (hc : Chain ns0 i r) (ih : ∀ p c, Laid ns0 (some p) c t → Chain ns0 c r → Fine env ns2 R Γ c e) : Fine env ns2 R Γ i e := by
  cases w
  · exact ih _ _ h hc
  · exact laid_wrap S h hc .expr (by decide) ih

/-- The variables below `s` are fine. -/
def VarsFine (env : Check.Env) (ns0 ns2 : Nodes) (R : FnIndex → String → List Ty → Ty → Prop) (Γ : List (String × Ty)) (s : Nat) : Prop :=
  ∀ x p u, x ≠ "return" → Laid ns0 (some p) u (nd .item [x] none []) → (ns0.at p).kind = .expr → Chain ns0 u s →
    Fine env ns2 R Γ u (.item (.mk x none false false [] []))

mutual
/-- All expressions, where variables are fine. -/
theorem laid_fine (S : Setup env fs ns0 ns1 ns2 is) {r : Nat} (H : VarsFine env ns0 ns2 R Γ r) :
    ∀ (e : Ex) (w : Bool), (∀ n ∈ e.called, Knows env fs R find n) → (∀ x ∈ e.vars, x ≠ "return") → ∀ p i, Laid ns0 (some p) i (e.tr w) →
      Chain ns0 i r → Fine env ns2 R Γ i (e.expr find)
  | .num x, w, _, _, p, i, h, hc => by
    rw [Ex.tr] at h; rw [Ex.expr]
    exact laid_atomic S w h hc fun p c h _ => laid_lit S h .f64 ⟨_, _, rfl⟩
  | .bool x, w, _, _, p, i, h, hc => by
    rw [Ex.tr] at h; rw [Ex.expr]
    exact laid_atomic S w h hc fun p c h _ => laid_lit S h .bool ⟨_, _, rfl⟩
  | .text x, w, _, _, p, i, h, hc => by
    rw [Ex.tr] at h; rw [Ex.expr]
    exact laid_atomic S w h hc fun p c h _ => laid_lit S h .str ⟨_, rfl⟩
  | .var x, w, _, hv, p, i, h, hc => by
    rw [Ex.tr] at h; rw [Ex.expr]
    refine laid_atomic S w h hc fun p c h hc => ?_
    obtain ⟨u, hl, hn⟩ := laid_box1 h
    exact fine_wrap (hn.like S.like) .expr (by decide) (H x _ u (hv x (by simp [Ex.vars])) hl hn.kind (laid_chain hl hc))
  | .call n args, w, hK, hv, p, i, h, hc => by
    rw [Ex.tr] at h; rw [Ex.expr]
    rw [Ex.called] at hK
    rw [Ex.vars] at hv
    refine laid_atomic S w h hc fun p c h hc => laid_wrap S h hc .expr (by decide) fun p c h hc => ?_
    rw [argTrs_map] at h
    refine laid_call S (ts := args.map (Ex.tr false)) (hK n (by simp)) h hc (by simp [exprs_map]) fun k t e h1 h2 => ?_
    rw [List.getElem?_map, Option.map_eq_some_iff] at h1
    rw [exprs_map, List.getElem?_map, Option.map_eq_some_iff] at h2
    obtain ⟨a, ha, rfl⟩ := h1
    obtain ⟨a', ha', rfl⟩ := h2
    rw [ha] at ha'
    cases ha'
    exact args_fine S H args (fun n hn => hK n (by simp [hn])) hv a (List.mem_of_getElem? ha)
  | .ite c a b, w, hK, hv, p, i, h, hc => by
    rw [Ex.tr] at h; rw [Ex.expr]
    rw [Ex.called] at hK
    rw [Ex.vars] at hv
    exact laid_compound S w h hc fun p _ h hc => laid_ite S h hc
      (laid_fine S H c false (fun n hn => hK n (by simp [hn])) (fun x hx => hv x (by simp [hx])))
      (laid_fine S H a false (fun n hn => hK n (by simp [hn])) (fun x hx => hv x (by simp [hx])))
      (laid_fine S H b false (fun n hn => hK n (by simp [hn])) (fun x hx => hv x (by simp [hx])))
  | .neg e, w, hK, hv, p, i, h, hc => by
    rw [Ex.tr] at h; rw [Ex.expr]
    rw [Ex.called] at hK
    rw [Ex.vars] at hv
    refine laid_compound S w h hc fun p c h hc => laid_wrap S h hc .expr (by decide) fun p c h hc =>
      laid_call S (ts := [e.tr true]) (hK _ (by simp)) h hc rfl fun k t e' h1 h2 => ?_
    match k, h1, h2 with
    | 0, h1, h2 => cases h1; cases h2; exact laid_fine S H e true (fun n hn => hK n (by simp [hn])) hv
    | k + 1, h1, _ => cases h1
  | .pow l r', w, hK, hv, p, i, h, hc => by
    rw [Ex.tr] at h; rw [Ex.expr]
    rw [Ex.called] at hK
    rw [Ex.vars] at hv
    exact laid_compound S w h hc fun p c h hc => laid_wrap S h hc .expr (by decide) fun p c h hc =>
      laid_op S (op := .pow) (hK _ (by simp [Syn.callName])) h hc
      (laid_fine S H l true (fun n hn => hK n (by simp [hn])) (fun x hx => hv x (by simp [hx])))
      (laid_fine S H r' true (fun n hn => hK n (by simp [hn])) (fun x hx => hv x (by simp [hx])))
  | .mul op l r', w, hK, hv, p, i, h, hc => by
    rw [Ex.tr] at h; rw [Ex.expr]
    rw [Ex.called] at hK
    rw [Ex.vars] at hv
    exact laid_compound S w h hc fun p c h hc => laid_wrap S h hc .expr (by decide) fun p c h hc =>
      laid_op S (hK _ (by simp)) h hc
      (laid_fine S H l true (fun n hn => hK n (by simp [hn])) (fun x hx => hv x (by simp [hx])))
      (laid_fine S H r' true (fun n hn => hK n (by simp [hn])) (fun x hx => hv x (by simp [hx])))
  | .add op l r', w, hK, hv, p, i, h, hc => by
    rw [Ex.tr] at h; rw [Ex.expr]
    rw [Ex.called] at hK
    rw [Ex.vars] at hv
    exact laid_compound S w h hc fun p c h hc => laid_op S (hK _ (by simp)) h hc
      (fun p c h hc => laid_wrap S h hc .expr (by decide)
        (laid_fine S H l true (fun n hn => hK n (by simp [hn])) (fun x hx => hv x (by simp [hx]))))
      (fun p c h hc => laid_wrap S h hc .expr (by decide)
        (laid_fine S H r' true (fun n hn => hK n (by simp [hn])) (fun x hx => hv x (by simp [hx]))))
  | .cmp op l r', w, hK, hv, p, i, h, hc => by
    rw [Ex.tr] at h; rw [Ex.expr]
    rw [Ex.called] at hK
    rw [Ex.vars] at hv
    exact laid_compound S w h hc fun p c h hc => laid_op S (hK _ (by simp)) h hc
      (fun p c h hc => laid_wrap S h hc .expr (by decide)
        (laid_fine S H l false (fun n hn => hK n (by simp [hn])) (fun x hx => hv x (by simp [hx]))))
      (fun p c h hc => laid_wrap S h hc .expr (by decide)
        (laid_fine S H r' false (fun n hn => hK n (by simp [hn])) (fun x hx => hv x (by simp [hx]))))
/-- Arguments. -/
theorem args_fine (S : Setup env fs ns0 ns1 ns2 is) {r : Nat} (H : VarsFine env ns0 ns2 R Γ r) :
    ∀ (es : List Ex), (∀ n ∈ calledAll es, Knows env fs R find n) → (∀ x ∈ varsAll es, x ≠ "return") → ∀ e ∈ es, ∀ p i, Laid ns0 (some p) i (e.tr false) →
      Chain ns0 i r → Fine env ns2 R Γ i (e.expr find)
  | [], _, _, e, he => by cases he
  | e :: es, hK, hv, e', he => by
    rw [calledAll] at hK
    rw [varsAll] at hv
    rcases List.mem_cons.1 he with h | h
    · rw [h]
      exact laid_fine S H e false (fun n hn => hK n (by simp [hn])) (fun x hx => hv x (by simp [hx]))
    · exact args_fine S H es (fun n hn => hK n (by simp [hn])) (fun x hx => hv x (by simp [hx])) e' h
end

/-! ## Declarations -/

/-- The type of a variable that is declared by a statement. -/
def ctx1 (Γ : List (String × Ty)) : Option (String × Ty) → List (String × Ty)
  | some z => extend Γ z.1 z.2
  | none => Γ

/-- The types of variables after statements. -/
def ctx (Γ : List (String × Ty)) (zs : List (Option (String × Ty))) : List (String × Ty) := zs.foldl ctx1 Γ

theorem ctx_snoc (Γ : List (String × Ty)) (zs : List (Option (String × Ty))) (z : Option (String × Ty)) : ctx Γ (zs ++ [z]) = ctx1 (ctx Γ zs) z := by
  simp [ctx]

theorem ctx_old {Γ : List (String × Ty)} {p : String × Ty} (h : p ∈ Γ) {zs : List (Option (String × Ty))} (hz : ∀ z, some z ∈ zs → z.1 ≠ p.1) :
    p ∈ ctx Γ zs := by
  induction zs using List.reverseRecOn with
  | nil => exact h
  | append_singleton zs z ih =>
    have ih := ih fun z hz' => hz z (by simp [hz'])
    rw [ctx_snoc]
    cases z with
    | none => exact ih
    | some z =>
      rw [ctx1, extend]
      refine List.mem_cons_of_mem _ (List.mem_filter.2 ⟨ih, ?_⟩)
      exact decide_eq_true (Ne.symm (hz z (by simp)))

theorem ctx_new (Γ : List (String × Ty)) {p : String × Ty} {zs : List (Option (String × Ty))} {m : Nat} (hm : zs[m]? = some (some p))
    (hz : ∀ (m' : Nat) z, m < m' → zs[m']? = some (some z) → z.1 ≠ p.1) : p ∈ ctx Γ zs := by
  have hlt := (List.getElem?_eq_some_iff.1 hm).1
  have e : zs = zs.take m ++ [some p] ++ zs.drop (m + 1) := by
    rw [← (List.getElem?_eq_some_iff.1 hm).2, List.append_assoc, List.singleton_append, ← List.drop_eq_getElem_cons hlt, List.take_append_drop]
  have h1 : p ∈ ctx Γ (zs.take m ++ [some p]) := by rw [ctx_snoc, ctx1, extend]; simp
  rw [e, ctx, List.foldl_append]
  refine ctx_old h1 fun z hz' => ?_
  obtain ⟨n, hn⟩ := List.mem_iff_getElem?.1 hz'
  rw [List.getElem?_drop] at hn
  exact hz _ z (by omega) hn

/-- The statements so far: `zs` are the names and the types that they declare, `ss` the nodes. -/
structure Done (env : Check.Env) (ns0 ns2 : Nodes) (ss : List Nat) (qs : List Stm) (zs : List (Option (String × Ty))) : Prop where
  length : zs.length = qs.length
  decl : ∀ (m : Nat) (x : String) (e : Ex) (s : Nat), qs[m]? = some (.decl x e) → ss[m]? = some s → ∃ T a l d r z, zs[m]? = some (some (x, T)) ∧
    Flat T ∧ LetAt ns0 s (x, e) a l d r z ∧ Frag env ns2 r ∧ TypedNode env ns2 r T
  guard : ∀ (m : Nat) (c e : Ex), qs[m]? = some (.guard c e) → zs[m]? = some none

/-- What is declared. -/
theorem Done.was {env : Check.Env} {ns0 ns2 : Nodes} {ss : List Nat} {qs : List Stm} {zs : List (Option (String × Ty))} (h : Done env ns0 ns2 ss qs zs)
    (hs : ∀ (m : Nat) q, qs[m]? = some q → ∃ s, ss[m]? = some s) {m : Nat} {z : String × Ty} (hm : zs[m]? = some (some z)) :
    m < qs.length ∧ ∃ e, qs[m]? = some (.decl z.1 e) := by
  have hlt := (List.getElem?_eq_some_iff.1 hm).1
  rw [h.length] at hlt
  refine ⟨hlt, ?_⟩
  obtain ⟨s, hs⟩ := hs m qs[m] (List.getElem?_eq_getElem hlt)
  cases hq : qs[m] with
  | decl x e =>
    have hq : qs[m]? = some (.decl x e) := by rw [List.getElem?_eq_getElem hlt, hq]
    obtain ⟨T, _, _, _, _, _, h1, -⟩ := h.decl m x e s hq hs
    rw [hm] at h1
    cases h1
    exact ⟨e, hq⟩
  | guard c e =>
    have := h.guard m c e (by rw [List.getElem?_eq_getElem hlt, hq])
    rw [hm] at this
    cases this

/-- The variables of a statement. -/
theorem vars_fine (S : Setup env fs ns0 ns1 ns2 is) (ht : Tree ns2) (ho : InOrder ns0) {j r : Nat} {f : Fn} {b : Nat} {ss : List Nat}
    (F : InFn ns0 is fs j r f b) (hb : (ns0.at b).children = ss)
    (hl : LaidAll ns0 b ss (f.stms.map Stm.tr ++ [box .expr [box .ret [f.body.tr false]]])) {qs qs' : List Stm} {zs : List (Option (String × Ty))}
    (hq : f.stms = qs ++ qs') (hD : Done env ns0 ns2 ss qs zs) {s : Nat} (hs : ss[qs.length]? = some s) :
    VarsFine env ns0 ns2 R (ctx (f.params.map fun p => (p.1, p.2.ty)) zs) s := by
  intro x p u hx h hp hc
  obtain ⟨cs, hl', hn⟩ := laid_nd h
  cases hl'
  obtain ⟨d, hd, hcase⟩ := S.isVar F hb hl hs hc (laid_lt h) hn.kind hn.name hx (laid_parent h) (by rw [hp]; decide)
  have hn2 := hn.like S.like
  have was : ∀ {m : Nat} {z : String × Ty}, zs[m]? = some (some z) → m < qs.length ∧ ∃ e, f.stms[m]? = some (.decl z.1 e) := by
    intro m z hm
    obtain ⟨h1, e, h2⟩ := hD.was (fun m q hm => by
      obtain ⟨s, hs, -⟩ := stms_get hl (m := m) (q := q) (by
        rw [hq, List.getElem?_append_left (List.getElem?_eq_some_iff.1 hm).1, hm])
      exact ⟨s, hs⟩) hm
    exact ⟨h1, e, by rw [hq, List.getElem?_append_left h1, h2]⟩
  rcases hcase with ⟨T, h2, h3, h4, h5⟩ | ⟨m, e, s', h1, h2, h4, h5, h6, h7⟩
  · refine ⟨.var hn2.kind hn2.children hn2.tryFlag hn2.ty hd h2 h3 T.flat, by rw [hn2.kind]; decide, fun U hU => ?_⟩
    cases hU with
    | var _ _ h _ h' =>
      rw [hd] at h; cases h
      rw [h3] at h'; cases h'
      refine ⟨T.flat, .var (ctx_old (List.mem_map.2 ⟨_, h4, rfl⟩) fun z hz => ?_)⟩
      obtain ⟨m, hm⟩ := List.mem_iff_getElem?.1 hz
      obtain ⟨hlt, e, hfm⟩ := was hm
      exact h5 m _ e hlt hfm
    | wrap _ h _ => rw [hn2.children] at h; cases h
    | lit h | ite h | own h | host h | ext h => rw [hn2.kind] at h; cases h
    | «local» h =>
      have h' := h.uses
      rw [hd] at h'; cases h'
      rw [h.item] at h2; cases h2
  · have hqm : qs[m]? = some (.decl x e) := by rw [← h2, hq, List.getElem?_append_left h1]
    obtain ⟨T, a, l, d', r', z, e1, e2, e3, e4, e5⟩ := hD.decl m x e s' hqm h5
    obtain ⟨-, rfl⟩ := e3.same h6
    have hU := S.use e3 hn hd (laid_lt h) (by
      have := ho _ _ _ _ h7
      have := hc.le S.before
      omega)
    refine ⟨.local hU hn2.tryFlag hn2.ty (by rw [Like.ty' S.like, e3.left.ty]) ?_ e4, by rw [hn2.kind]; decide, fun U hU' => ?_⟩
    · intro p' hp'
      have e : (ns2.at u).parent = (ns0.at u).parent := by have := congrArg Node.parent (S.like.2 u); exact this
      rw [e, laid_parent h] at hp'
      cases hp'
      rw [S.like.kind, hp]
      decide
    · have e : U = T := typed_unique ht hU' (.local hU e5)
      subst e
      refine ⟨e2, .var (ctx_new _ e1 fun m' z' hm' hz' => ?_)⟩
      obtain ⟨hlt, e', hfm⟩ := was hz'
      exact h4 m' _ e' hm' hlt hfm

/-- Statements with types, in a function that returns `T`: from one context to another. -/
inductive Row (R : FnIndex → String → List Ty → Ty → Prop) (find : String → FnIndex) (T : Ty) : List (String × Ty) → List Stm → List (String × Ty) → Prop
  | nil (G : List (String × Ty)) : Row R find T G [] G
  | decl {G G' : List (String × Ty)} {x : String} {e : Ex} {qs : List Stm} {U : Ty} :
    Flat U → Typing R G (e.expr find) U → Row R find T (extend G x U) qs G' → Row R find T G (.decl x e :: qs) G'
  | guard {G G' : List (String × Ty)} {c e : Ex} {qs : List Stm} :
    Typing R G (c.expr find) .bool → Typing R G (e.expr find) T → Row R find T G qs G' → Row R find T G (.guard c e :: qs) G'

/-- What is returned by a `return` of an accepted function. -/
theorem ret_typed (S : Setup env fs ns0 ns1 ns2 is) (ht : Tree ns2) {fuel : Nat} {out : Nodes} (ha : ns2.typecheck env fuel = .accept out)
    {j r : Nat} {f : Fn} {b : Nat} (F : InFn ns0 is fs j r f b) {p y s : Nat} {e : Ex} (ly : Laid ns0 (some p) y (box .ret [e.tr false]))
    (hc : Chain ns0 y s) (H : VarsFine env ns0 ns2 R Γ s) (hK : ∀ n ∈ e.called, Knows env fs R find n) (hv : ∀ x ∈ e.vars, x ≠ "return")
    (hw : Within ns2 r y) : Typing R Γ (e.expr find) f.ret.ty := by
  obtain ⟨z, lz, ny⟩ := laid_box1 ly
  obtain ⟨fr, hk, hT⟩ := laid_fine S H e false hK hv _ z lz (laid_chain lz hc)
  obtain ⟨hrl, hrk, -⟩ := S.root_lt F.root F.fn
  obtain ⟨-, -, -, hret, -⟩ := params_args ns0 (S.root F.root F.fn)
  have ny := ny.like S.like
  have fy : Frag env ns2 y := .wrap (by rw [ny.kind]; exact .ret) ny.children ny.tryFlag ny.ty hk fr
  have := C81_result_partial ha ht (f := r) (r := y) (R := f.ret.ty) (by rw [S.like.1]; exact hrl) (by rw [S.like.kind, hrk])
    (by rw [Like.ty' S.like, hret]) f.ret.flat hw ny.kind fy (by rw [S.like.1]; exact laid_lt ly)
  generalize f.ret.ty = U at this ⊢
  cases this with
  | wrap _ h h' =>
    rw [ny.children] at h
    cases h
    exact (hT _ h').2
  | lit _ h => rw [ny.children] at h; cases h
  | var h | ite h | own h | host h | ext h => rw [ny.kind] at h; cases h
  | «local» h => have := h.use; rw [ny.kind] at this; cases this

theorem rows_typed (S : Setup env fs ns0 ns1 ns2 is) (ht : Tree ns2) (ho : InOrder ns0) {fuel : Nat} {out : Nodes}
    (ha : ns2.typecheck env fuel = .accept out) {j r : Nat} {f : Fn} {b : Nat} {ss : List Nat}
    (F : InFn ns0 is fs j r f b) (hb : NodeIs ns0 b .block [] none ss)
    (hl : LaidAll ns0 b ss (f.stms.map Stm.tr ++ [box .expr [box .ret [f.body.tr false]]]))
    (hK : ∀ n ∈ f.called, Knows env fs R find n) (hv : ∀ x ∈ f.vars, x ≠ "return") :
    ∀ (qs' qs : List Stm) (zs : List (Option (String × Ty))), f.stms = qs ++ qs' → Done env ns0 ns2 ss qs zs →
    ∃ Γ', Row R find f.ret.ty (ctx (f.params.map fun p => (p.1, p.2.ty)) zs) qs' Γ' ∧ Typing R Γ' (f.body.expr find) f.ret.ty := by
  have nb := hb.like S.like
  have within : ∀ {s}, s ∈ ss → Within ns2 r s := by
    intro s hs
    refine .step (r := b) (.child ?_) (by rw [nb.kind]; decide) (by rw [nb.children]; exact hs)
    rw [S.like.children]
    exact List.mem_of_getLast? F.last
  intro qs'
  induction qs' with
  | nil =>
    intro qs zs hq hD
    refine ⟨_, .nil _, ?_⟩
    rw [List.append_nil] at hq
    subst hq
    obtain ⟨s, hs, ls⟩ := (laid_get hl).2 f.stms.length (box .expr [box .ret [f.body.tr false]]) (by
      rw [List.getElem?_append_right (by simp)]; simp)
    have H := vars_fine (R := R) S ht ho F hb.children hl (qs' := []) (by simp) hD hs
    obtain ⟨y, ly, nx⟩ := laid_box1 ls
    have nx := nx.like S.like
    exact ret_typed S ht ha F ly (laid_chain ly .refl) H (fun n hn => hK n (by simp [Fn.called, hn])) (fun x hx => hv x (by simp [Fn.vars, hx]))
      (.step (within (List.mem_of_getElem? hs)) (by rw [nx.kind]; decide) (by rw [nx.children]; simp))
  | cons q qs' ih =>
    intro qs zs hq hD
    have hfq : f.stms[qs.length]? = some q := by rw [hq]; simp
    have hmem : q ∈ f.stms := List.mem_of_getElem? hfq
    have hK' : ∀ n ∈ q.called, Knows env fs R find n := fun n hn =>
      hK n (by simp only [Fn.called, List.mem_append, List.mem_flatMap]; exact .inl ⟨q, hmem, hn⟩)
    have hv' : ∀ x ∈ q.vars, x ≠ "return" := fun x hx =>
      hv x (by simp only [Fn.vars, List.mem_append, List.mem_flatMap]; exact .inl ⟨q, hmem, hx⟩)
    obtain ⟨s, hs, ls⟩ := stms_get hl hfq
    have H := vars_fine (R := R) S ht ho F hb.children hl hq hD hs
    -- one more statement
    have more : ∀ z, (∀ x e, q = .decl x e → ∃ T a l d r z', z = some (x, T) ∧ Flat T ∧ LetAt ns0 s (x, e) a l d r z' ∧ Frag env ns2 r ∧
        TypedNode env ns2 r T) → (∀ c e, q = .guard c e → z = none) → Done env ns0 ns2 ss (qs ++ [q]) (zs ++ [z]) := by
      intro z hz1 hz2
      have last : ∀ {m : Nat} {q' : Stm}, ¬ m < qs.length → (qs ++ [q])[m]? = some q' → m = qs.length ∧ q = q' := by
        intro m q' h hm
        have hlt := (List.getElem?_eq_some_iff.1 hm).1
        have e : m = qs.length := by simp at hlt; omega
        subst e
        simp only [List.getElem?_append_right (Nat.le_refl _), Nat.sub_self, List.getElem?_cons_zero, Option.some.injEq] at hm
        exact ⟨rfl, hm⟩
      refine ⟨by simp [hD.length], fun m x e s' hm hs' => ?_, fun m c e hm => ?_⟩
      · by_cases h : m < qs.length
        · rw [List.getElem?_append_left h] at hm
          obtain ⟨T', a, l, d, r, z, e1, e2⟩ := hD.decl m x e s' hm hs'
          exact ⟨T', a, l, d, r, z, by rw [List.getElem?_append_left (by rw [hD.length]; exact h)]; exact e1, e2⟩
        · obtain ⟨rfl, rfl⟩ := last h hm
          rw [hs] at hs'
          cases hs'
          obtain ⟨T, a, l, d, r, z', rfl, e2⟩ := hz1 x e rfl
          exact ⟨T, a, l, d, r, z', by rw [← hD.length]; simp, e2⟩
      · by_cases h : m < qs.length
        · rw [List.getElem?_append_left h] at hm
          rw [List.getElem?_append_left (by rw [hD.length]; exact h)]
          exact hD.guard m c e hm
        · obtain ⟨rfl, rfl⟩ := last h hm
          rw [← hD.length, hz2 c e rfl]
          simp
    cases q with
    | decl x e =>
      obtain ⟨a, l, d, r', z, hL⟩ := laid_let (q := (x, e)) ls
      have hz := laid_fine S H e false hK' hv' _ z hL.expr (laid_chain hL.expr (.step hL.up3 (.step hL.up1 .refl)))
      obtain ⟨h1, -, h3⟩ := fine_wrap (hL.right.like S.like) .right (by decide) hz
      obtain ⟨T, hT, -, htn⟩ := C81_checked_partial ha ht h1 (by
        have := (ht a r' (by rw [S.like.children, hL.sides]; simp)).2.2
        exact this)
      obtain ⟨-, hty⟩ := h3 T htn
      obtain ⟨Γ', hr, hb'⟩ := ih (qs ++ [.decl x e]) (zs ++ [some (x, T)]) (by rw [hq]; simp) (more _ (fun x' e' h => by
        cases h; exact ⟨T, a, l, d, r', z, rfl, hT, hL, h1, htn⟩) fun c e h => by cases h)
      rw [ctx_snoc] at hr
      exact ⟨Γ', .decl hT hty hr, hb'⟩
    | guard c e =>
      simp only [Stm.called, Stm.vars, List.mem_append] at hK' hv'
      obtain ⟨y, ly, ns⟩ := laid_box1 ls
      obtain ⟨cs, hl', ny⟩ := laid_box ly
      cases hl' with
      | @cons _ u _ _ _ _ _ lu hl' =>
      cases hl' with
      | @cons _ v _ _ _ _ _ lv hl' =>
      cases hl'
      have hcy : Chain ns0 y s := laid_chain ly .refl
      have hu := laid_wrap (e := c.expr find) S lu (laid_chain lu hcy) .cond (by decide)
        (laid_fine S H c false (fun n hn => hK' n (.inl hn)) (fun x hx => hv' x (.inl hx)))
      have ku : (ns2.at u).kind = .cond := by obtain ⟨_, _, h⟩ := laid_box1 lu; exact (h.like S.like).kind
      have ny := ny.like S.like
      have ns := ns.like S.like
      obtain ⟨T, hT, e1, htn⟩ := C81_checked_partial ha ht hu.1 (by rw [S.like.1]; exact laid_lt lu)
      have hb' := (C62_if ha (i := y) (by rw [S.like.1]; exact laid_lt ly) ny.kind (c := u) (T := T) (by rw [ny.children]; simp) e1).1
        (by simp [Nodes.child, ny.children, ku])
      have hTb : T = .bool := (flat_goesWith .bool hT hb').symm
      subst hTb
      obtain ⟨w, lw, nv⟩ := laid_box1 lv
      obtain ⟨x, lx, nw⟩ := laid_box1 lw
      have nv := nv.like S.like
      have nw := nw.like S.like
      have wy : Within ns2 r y := .step (within (List.mem_of_getElem? hs)) (by rw [ns.kind]; decide) (by rw [ns.children]; simp)
      have wv : Within ns2 r v := .step wy (by rw [ny.kind]; decide) (by rw [ny.children]; simp)
      have ww : Within ns2 r w := .step wv (by rw [nv.kind]; decide) (by rw [nv.children]; simp)
      have wx : Within ns2 r x := .step ww (by rw [nw.kind]; decide) (by rw [nw.children]; simp)
      have hx := ret_typed S ht ha F lx (laid_chain lx (laid_chain lw (laid_chain lv hcy))) H (find := find) (fun n hn => hK' n (.inr hn))
        (fun x hx => hv' x (.inr hx)) wx
      obtain ⟨Γ', hr, hb'⟩ := ih (qs ++ [.guard c e]) (zs ++ [none]) (by rw [hq]; simp) (more _ (fun x' e' h => by cases h) fun _ _ _ => rfl)
      rw [ctx_snoc] at hr
      exact ⟨Γ', .guard (hu.2.2 _ htn).2 hx hr, hb'⟩

/-- The statements of an accepted function have types and the body has the declared type. -/
theorem body_typed (S : Setup env fs ns0 ns1 ns2 is) (ht : Tree ns2) (ho : InOrder ns0) {fuel : Nat} {out : Nodes}
    (ha : ns2.typecheck env fuel = .accept out) {j : Nat} {f : Fn} (hf : fs[j]? = some f)
    (hK : ∀ n ∈ f.called, Knows env fs R find n) (hv : ∀ x ∈ f.vars, x ≠ "return") :
    ∃ Γ', Row R find f.ret.ty (f.params.map fun p => (p.1, p.2.ty)) f.stms Γ' ∧ Typing R Γ' (f.body.expr find) f.ret.ty := by
  obtain ⟨r, b, ss, F, hb, hl⟩ := S.stmts hf
  exact rows_typed S ht ho ha F hb hl hK hv f.stms [] [] rfl ⟨rfl, (fun m x e s h => by cases h), fun m c e h => by cases h⟩

end

end Dyon.Sound.Small
