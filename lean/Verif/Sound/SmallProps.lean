import Verif.Sound.SmallRun
import Verif.Front.Program
import Verif.Sound.Findings

/-!
# Files that the checker accepts

C81: the functions of an accepted file give what they declare.
-/

namespace Dyon.Sound.Small

open Check Check.Spec
open Sound.Spec (Honest)
open Check.EndDemo (nd)
open Lost (box)
open Ty (HasTy)
open Front (ModSrc Entry Target FnSrc)

/-- What is returned is computed: it is not a parameter. -/
def Ex.fresh : Ex → Bool
  | .var _ => false
  | .ite _ a b => a.fresh && b.fresh
  | _ => true

/-- What is returned early is computed. -/
def Stm.fresh : Stm → Bool
  | .decl _ _ => true
  | .guard _ e => e.fresh

theorem fresh_computed (find : String → FnIndex) : ∀ e : Ex, e.fresh = true → Computed (e.expr find)
  | .num _, _ | .bool _, _ | .text _, _ => .const
  | .call _ _, _ | .neg _, _ | .pow _ _, _ | .mul _ _ _, _ | .add _ _ _, _ | .cmp _ _ _, _ => .call
  | .ite c a b, h => by
    simp only [Ex.fresh, Bool.and_eq_true] at h
    exact .ite (fresh_computed find a h.1) (fresh_computed find b h.2)

section
variable {env : Check.Env} {fs : List Fn} {ns0 ns1 ns2 : Nodes} {is : List Nat}

theorem part_wrap {ns : Nodes} {i c j : Nat} {k : Kind} {cs : List Nat} (hn : NodeIs ns i k [] none cs) (hm : c ∈ cs)
    (hc : Carries k (ns.at c).kind) (h : Part ns c j) : Part ns i j :=
  .into (by rw [hn.children]; exact hm) (by rw [hn.kind]; exact hc) h

/-- What is not computed is a variable. -/
theorem part_of (S : Setup env fs ns0 ns1 ns2 is) {r : Nat} (H : ∀ x p u, x ≠ "return" → Laid ns0 (some p) u (nd .item [x] none []) →
    (ns0.at p).kind = .expr → Chain ns0 u r → ∃ d, (ns2.at u).declaration = some d) :
    ∀ (e : Ex) (p : Option Nat) (i : Nat), Laid ns0 p i (e.tr false) → Chain ns0 i r → e.fresh = false → (∀ x ∈ e.vars, x ≠ "return") →
      Carries .expr (ns2.at i).kind ∧ ∃ k d, Part ns2 i k ∧ (ns2.at k).declaration = some d
  | .var x, p, i, h, hc, _, hv => by
    obtain ⟨a, la, na⟩ := laid_box1 (t := box .expr [nd .item [x] none []]) h
    obtain ⟨b, lb, nb⟩ := laid_box1 la
    obtain ⟨cs, hl, nx⟩ := laid_nd lb
    obtain ⟨d, h1⟩ := H x _ b (hv x (by simp [Ex.vars])) lb nb.kind (laid_chain lb (laid_chain la hc))
    have na := na.like S.like
    have nb := nb.like S.like
    have nx := nx.like S.like
    refine ⟨by rw [na.kind]; exact .inl (by decide), b, d, ?_, h1⟩
    exact part_wrap na (by simp) (by rw [nb.kind]; exact .inl (by decide))
      (part_wrap nb (by simp) (by rw [nx.kind]; exact .inl (by decide)) (.here nx.kind))
  | .ite c a b, p, i, h, hc, hfr, hv => by
    obtain ⟨cs, hl, nz⟩ := laid_box (kids := [box .cond [c.tr false], box .trueBlock [box .expr [a.tr false]],
      box .elseBlock [box .expr [b.tr false]]]) h
    obtain ⟨-, hget⟩ := laid_get hl
    have nz := nz.like S.like
    have key : ∀ (k : Kind) (n : Nat) (e : Ex), [box .cond [c.tr false], box .trueBlock [box .expr [a.tr false]],
        box .elseBlock [box .expr [b.tr false]]][n]? = some (box k [box .expr [e.tr false]]) →
        k ∈ [.trueBlock, .elseIfBlock, .elseBlock] →
        (∀ p i, Laid ns0 p i (e.tr false) → Chain ns0 i r →
          Carries .expr (ns2.at i).kind ∧ ∃ k d, Part ns2 i k ∧ (ns2.at k).declaration = some d) →
        ∃ k d, Part ns2 i k ∧ (ns2.at k).declaration = some d := by
      intro k n e hn hk ih
      obtain ⟨u, hu, lu⟩ := hget n _ hn
      obtain ⟨v, lv, nu⟩ := laid_box1 lu
      obtain ⟨w, lw, nv⟩ := laid_box1 lv
      obtain ⟨kw, q, d, hq, hd⟩ := ih _ w lw (laid_chain lw (laid_chain lv (laid_chain lu hc)))
      have nu := nu.like S.like
      have nv := nv.like S.like
      refine ⟨q, d, ?_, hd⟩
      refine part_wrap nz (List.mem_of_getElem? hu) (by rw [nu.kind]; exact .inr (.inr (.inr (.inr (.inl ⟨rfl, hk⟩))))) ?_
      refine part_wrap nu (List.mem_singleton_self _) ?_ ?_
      · rw [nv.kind]
        refine .inr (.inr (.inr (.inr (.inr ⟨?_, rfl⟩))))
        simp only [List.mem_cons, List.not_mem_nil, or_false] at hk ⊢
        exact .inr hk
      · exact part_wrap nv (by simp) kw hq
    refine ⟨by rw [nz.kind]; exact .inl (by decide), ?_⟩
    simp only [Ex.vars, List.mem_append] at hv
    simp only [Ex.fresh, Bool.and_eq_false_iff] at hfr
    rcases hfr with hfr | hfr
    · exact key .trueBlock 1 a rfl (by simp) fun p i h hc => part_of S H a p i h hc hfr fun x hx => hv x (.inl (.inr hx))
    · exact key .elseBlock 2 b rfl (by simp) fun p i h hc => part_of S H b p i h hc hfr fun x hx => hv x (.inr hx)

/-- Where lifetimes are accepted, a `return` is of what is computed. -/
theorem fresh_ret (S : Setup env fs ns0 ns1 ns2 is) (ha : ns2.checkLifetimes = .accept) {j r : Nat} {f : Fn} {b : Nat} {ss : List Nat}
    (F : InFn ns0 is fs j r f b) (hb : (ns0.at b).children = ss)
    (hl : LaidAll ns0 b ss (f.stms.map Stm.tr ++ [box .expr [box .ret [f.body.tr false]]])) {k s p y : Nat} (hs : ss[k]? = some s) {e : Ex}
    (ly : Laid ns0 (some p) y (box .ret [e.tr false])) (hc : Chain ns0 y s) (hv : ∀ x ∈ e.vars, x ≠ "return") : e.fresh = true := by
  by_contra hfr
  rw [Bool.not_eq_true] at hfr
  obtain ⟨z, lz, ny⟩ := laid_box1 ly
  have ny := ny.like S.like
  obtain ⟨-, k, d, h1, h2⟩ := part_of S (r := s) (fun x p u hx h hp hc => by
    obtain ⟨cs, -, hn⟩ := laid_nd h
    obtain ⟨d, hd, -⟩ := S.isVar F hb hl hs hc (laid_lt h) hn.kind hn.name hx (laid_parent h) (by rw [hp]; decide)
    exact ⟨d, hd⟩) e _ z lz (laid_chain lz hc) hfr hv
  obtain ⟨k', d', -, -, h5, h6⟩ := C57_return_some ha (i := y) (by rw [S.like.1]; exact laid_lt ly) ny.kind (by rw [ny.children]; rfl) h1 h2
  rw [S.like.kind] at h5
  obtain ⟨h7, p, h8⟩ := S.free h5
  have e1 : (ns2.at d').parent = (ns0.at d').parent := by have := congrArg Node.parent (S.like.2 d'); exact this
  have e2 : (ns2.at d').lifetime = (ns0.at d').lifetime := by have := congrArg Node.lifetime (S.like.2 d'); exact this
  obtain ⟨l, hl⟩ := h6 p (by rw [e1, h8])
  cases hl with
  | ret h => rw [e2, h7] at h; cases h
  | step h => rw [e2, h7] at h; cases h

/-- Where lifetimes are accepted, functions return what is computed. -/
theorem fresh_of (S : Setup env fs ns0 ns1 ns2 is) (ha : ns2.checkLifetimes = .accept) {j : Nat} {f : Fn} (hf : fs[j]? = some f)
    (hv : ∀ x ∈ f.vars, x ≠ "return") : f.body.fresh = true ∧ ∀ q ∈ f.stms, q.fresh = true := by
  obtain ⟨r, b, ss, F, hb, hl⟩ := S.stmts hf
  constructor
  · obtain ⟨s, hs, ls⟩ := (laid_get hl).2 f.stms.length (box .expr [box .ret [f.body.tr false]]) (by
      rw [List.getElem?_append_right (by simp)]; simp)
    obtain ⟨y, ly, nx⟩ := laid_box1 ls
    exact fresh_ret S ha F hb.children hl hs ly (laid_chain ly .refl) fun x hx => hv x (by simp [Fn.vars, hx])
  · intro q hq
    obtain ⟨m, hm⟩ := List.mem_iff_getElem?.1 hq
    obtain ⟨s, hs, ls⟩ := stms_get hl hm
    cases q with
    | decl x e => rfl
    | guard c e =>
      obtain ⟨y, ly, -⟩ := laid_box1 ls
      obtain ⟨cs, hl', -⟩ := laid_box ly
      cases hl' with
      | @cons _ u _ _ _ _ _ lu hl' =>
      cases hl' with
      | @cons _ v _ _ _ _ _ lv hl' =>
      obtain ⟨w, lw, -⟩ := laid_box1 lv
      obtain ⟨z, lz, -⟩ := laid_box1 lw
      exact fresh_ret S ha F hb.children hl hs lz (laid_chain lz (laid_chain lw (laid_chain lv (laid_chain ly .refl)))) fun x hx =>
        hv x (by simp only [Fn.vars, List.mem_append, List.mem_flatMap]; exact .inl ⟨_, hq, by simp [Stm.vars, hx]⟩)

end

section
variable [FloatOps] [VecMath] [Data.Lex] {base : ECfg} {va ra : Nat → Nat} {table : List Mod.External} {file : String} {fs : List Fn}
  {ns0 ns1 ns2 : Nodes} {is : List Nat} {mod : Front.LMod}

/-- The functions that run. -/
theorem module_get (hm : (modOf table file fs).build = .ok mod) {m i : Nat} {f : Fn} (hi : fs[i]? = some f) :
    ∃ find, ((base.withModules fun _ => mod).modules m)[i]? = some (f.func file find) ∧
      ∀ n, (∀ c ∈ n.toList, c ≠ ':') → find n = (Front.Spec.plainTarget (fs.map Fn.name) table n).index i := by
  obtain ⟨e, he⟩ := entries_has (table := table) (file := file) hi
  obtain ⟨f', h1, h2, h3, h4⟩ := entries_get he
  rw [hi] at h1
  cases h1
  obtain ⟨g, hg, hmod⟩ := Plain.modules_has (src := fun _ => modOf table file fs) (base := base) (fun _ => hm) (m := m) he
  rw [h2, h3, fn_func] at hg
  cases hg
  rw [func_looked] at hmod
  refine ⟨_, hmod, fun n hn => ?_⟩
  have := Front.siteOf_plain hn
  rw [Front.aliased] at this
  simp only [Entry.target, this, h4]

theorem module_some (hm : (modOf table file fs).build = .ok mod) {m i : Nat} {fn : Func}
    (h : ((base.withModules fun _ => mod).modules m)[i]? = some fn) : ∃ f, fs[i]? = some f := by
  obtain ⟨e, g, he, -⟩ := Plain.modules_get (src := fun _ => modOf table file fs) (fun _ => hm) h
  obtain ⟨f, hf, -⟩ := entries_get he
  exact ⟨f, hf⟩

/-- The modules are typed, in scope and well-formed. -/
theorem modules_typed (hm : (modOf table file fs).build = .ok mod) (S : Setup (envOf table) fs ns0 ns1 ns2 is)
    (ho : InOrder ns0) {fuel : Nat} {out : Nodes} (ht : ns2.typecheck (envOf table) fuel = .accept out)
    (hv : ∀ f ∈ fs, ∀ x ∈ f.vars, x ≠ "return") (hn : ∀ f ∈ fs, ∀ n ∈ f.called, ∀ c ∈ n.toList, c ≠ ':')
    (hfr : ∀ f ∈ fs, f.body.fresh = true ∧ ∀ q ∈ f.stms, q.fresh = true)
    (hx : ∀ x ∈ table, (∃ f ∈ fs, x.name ∈ f.called) → HostOk base ra x) (m i : Nat) {f : Fn} (hi : fs[i]? = some f) :
    ∃ fn, ((base.withModules fun _ => mod).modules m)[i]? = some fn ∧ fn.name = f.name ∧
      TypedFn (base.withModules fun _ => mod) (signs fs) i ⟨f.params.map fun p => (p.1, p.2.ty), some f.ret.ty⟩ fn ∧
      FnScoped (base.withModules fun _ => mod) va ra m i fn ∧
      WFs (ctxAt (base.withModules fun _ => mod) va ra m i) fn.body ∧ ∀ l ∈ fn.lazyInv, l = [] := by
  obtain ⟨find, h1, h2⟩ := module_get (base := base) hm (m := m) hi
  have hf := List.mem_of_getElem? hi
  obtain ⟨Γ', hrow, hT⟩ := body_typed (R := Calls (base.withModules fun _ => mod) va ra fs m i) (find := find) S S.tree ho ht hi
    (fun n hc => knows (base := base) (fun _ _ _ h => hostGives_modules h) S m (fun j g hj => by
      obtain ⟨find', h', -⟩ := module_get (base := base) hm (m := m) hj
      exact ⟨_, h', rfl, by simp [Fn.func]⟩) (h2 n (hn f hf n hc)) fun x hxt hxn => hx x hxt ⟨f, hf, by rw [hxn]; exact hc⟩)
    (hv f hf)
  have hs := row_scoped (ctxAt (base.withModules fun _ => mod) va ra m i) (arAt (base.withModules fun _ => mod) m i)
    (fun _ _ _ _ h => h.2) hrow hT
  refine ⟨_, h1, rfl, ⟨?_, ?_, rfl, rfl, rfl, by rintro _ ⟨⟩; exact f.ret.flat, ?_, ?_⟩, ⟨?_, ?_⟩, ?_, ?_⟩
  · simp [Fn.func]
  · exact S.params hi
  · intro p hp
    obtain ⟨q, -, rfl⟩ := List.mem_map.1 hp
    exact q.2.flat
  · exact row_body (fun _ _ _ _ h => h.1) hrow (fun c e h => fresh_computed find e ((hfr f hf).2 _ h)) (fresh_computed find _ (hfr f hf).1) hT
  · intro x hx; cases hx
  · refine hs.1 _ _ ?_
    intro x T hxT
    obtain ⟨q, hq, e⟩ := List.mem_map.1 hxT
    cases e
    simp only [fnEnv, Fn.func, List.mem_append, List.mem_map]
    exact Or.inl (Or.inr ⟨q.1, ⟨q, hq, rfl⟩, rfl⟩)
  · exact hs.2
  · intro l hl; cases hl

theorem runs (hb : base.byName = false) (hm : (modOf table file fs).build = .ok mod)
    (hE : ExtFns (base.withModules fun _ => mod) va ra) (hX : ExtStill (base.withModules fun _ => mod))
    (S : Setup (envOf table) fs ns0 ns1 ns2 is)
    (ho : InOrder ns0) {fuel : Nat} {out : Nodes} (ht : ns2.typecheck (envOf table) fuel = .accept out)
    (hv : ∀ f ∈ fs, ∀ x ∈ f.vars, x ≠ "return") (hn : ∀ f ∈ fs, ∀ n ∈ f.called, ∀ c ∈ n.toList, c ≠ ':')
    (hfr : ∀ f ∈ fs, f.body.fresh = true ∧ ∀ q ∈ f.stms, q.fresh = true)
    (hx : ∀ x ∈ table, (∃ f ∈ fs, x.name ∈ f.called) → HostOk base ra x) {f : Fn} (hf : f ∈ fs) {args : List Val}
    (ha : List.Forall₂ HasTy (f.params.map fun p => p.2.ty) args) {m n : Nat} {s : St}
    (hs : Ready (base.withModules fun _ => mod) va ra s) (hq : ∀ a b, (s.senders a b).1 = false) :
    callStrRet (base.withModules fun _ => mod).resolve n f.name args m s = .timeout ∨
    ∃ v, callStrRet (base.withModules fun _ => mod).resolve n f.name args m s = .ok v s ∧ HasTy f.ret.ty v := by
  obtain ⟨i, hi⟩ := List.mem_iff_getElem?.1 hf
  have key := fun m i f hi => modules_typed (va := va) hm S ho ht hv hn hfr hx m i (f := f) hi
  obtain ⟨fn, h1, h2, -⟩ := key m i f hi
  refine C81_runs_partial (c := base.withModules fun _ => mod) hb hE hX ?_ ?_ hs hq (S := signs fs) ?_ h1 h2 ?_ (σ := ⟨f.params.map fun p => (p.1, p.2.ty), some f.ret.ty⟩) ?_ rfl ?_
  · intro m i fn h
    obtain ⟨g, hg⟩ := module_some hm h
    obtain ⟨fn', a1, -, -, -, a⟩ := key m i g hg
    rw [h] at a1; cases a1
    exact a
  · intro m i fn h
    obtain ⟨g, hg⟩ := module_some hm h
    obtain ⟨fn', a1, -, -, a, -⟩ := key m i g hg
    rw [h] at a1; cases a1
    exact a
  · intro j σ hσ
    rw [signs, Option.map_eq_some_iff] at hσ
    obtain ⟨g, hg, rfl⟩ := hσ
    obtain ⟨fn', a1, -, a, -⟩ := key m j g hg
    exact ⟨fn', a1, a⟩
  · intro j g' hj hg' e
    obtain ⟨g, hg⟩ := module_some hm hg'
    obtain ⟨fn', a1, a2, -⟩ := key m j g hg
    rw [hg'] at a1; cases a1
    have := S.distinct hi hg (e.symm.trans a2)
    omega
  · rw [signs, hi]; rfl
  · rw [List.map_map]
    exact ha

/-- C81 (partial: for files of functions with declarations `x := e` and early returns `if c { return e }` that then return an expression, of literals, variables, calls,
operators and `if`, whose parameters and results have types without parts, see `Sound/Small.lean`).

A file is read (`fs.map Fn.src`), its nodes are built and stored (`Arranged`), declarations before the statements that come after them
(`InOrder`), and all checks accept it: variables and calls are linked, lifetimes and types are accepted.  The functions of the host that it calls keep to their declarations (`HostOk`).  Then a call of any function of the file
by the host, with arguments of the declared types, on a runtime that is ready, gives a value of the declared type and leaves the runtime as
it was - if it ends.  It does not fail or panic. -/
theorem C81_text_partial (hb : base.byName = false)
    -- the file is loaded
    (hm : (ModSrc.load (.host table) file { fns := fs.map Fn.src }).build = .ok mod)
    (hE : ExtFns (base.withModules fun _ => mod) va ra) (hX : ExtStill (base.withModules fun _ => mod))
    (hx : ∀ x ∈ table, (∃ f ∈ fs, x.name ∈ f.called) → HostOk base ra x)
    -- the file is checked
    {trees : List Tr} (ht : built ((fs.map Fn.src).map FnSrc.tree) = .ok trees) (hA : Arranged ns0 trees) (ho : InOrder ns0)
    (h1 : ns0.linkAll = .ok ns1)
    (h2 : ns1.linkFns ⟨(⟨fun _ => none, [], []⟩ : Mod.Prelude).addExternals table, fun _ => none⟩ = .ok ns2)
    (h3 : ns2.checkLifetimes = .accept) {fuel : Nat} {out : Nodes}
    (h4 : ns2.typecheck ⟨(⟨fun _ => none, [], []⟩ : Mod.Prelude).addExternals table, fun _ => none⟩ fuel = .accept out)
    -- names
    (hv : ∀ f ∈ fs, ∀ x ∈ f.vars, x ≠ "return") (hn : ∀ f ∈ fs, ∀ n ∈ f.called, ∀ c ∈ n.toList, c ≠ ':')
    -- a call
    {f : Fn} (hf : f ∈ fs) {args : List Val} (ha : List.Forall₂ HasTy (f.params.map fun p => p.2.ty) args) {m n : Nat} {s : St}
    (hs : Ready (base.withModules fun _ => mod) va ra s) (hq : ∀ a b, (s.senders a b).1 = false) :
    callStrRet (base.withModules fun _ => mod).resolve n f.name args m s = .timeout ∨
    ∃ v, callStrRet (base.withModules fun _ => mod).resolve n f.name args m s = .ok v s ∧ HasTy f.ret.ty v := by
  rw [built_file] at ht
  cases ht
  obtain ⟨is, hr, hall⟩ := hA.roots
  have S : Setup (envOf table) fs ns0 ns1 ns2 is := ⟨hr, hall, hA.back, hA.parent, h1, h2⟩
  refine runs hb hm hE hX S ho h4 hv hn (fun f hf => ?_) hx hf ha hs hq
  obtain ⟨j, hj⟩ := List.mem_iff_getElem?.1 hf
  exact fresh_of S h3 hj (hv f hf)

end

/-! ## A file -/

namespace Demo

/-- ```
fn half(x: f64) -> f64 { return x / 2 }
fn down(x: f64, b: bool) -> f64 {
    y := x - 1
    less := y < 0
    if less { return half(x) }
    y := half(y)
    return if b { half(y) } else { down(x - 1, not(less)) }
}
``` -/
def fs : List Fn :=
  [⟨"half", [("x", .f64)], .f64, [], .mul .div (.var "x") (.num (F64.ofNat 2))⟩,
   ⟨"down", [("x", .f64), ("b", .bool)], .f64,
     [.decl "y" (.add .sub (.var "x") (.num (F64.ofNat 1))), .decl "less" (.cmp .less (.var "y") (.num (F64.ofNat 0))),
      .guard (.var "less") (.call "half" [.var "x"]), .decl "y" (.call "half" [.var "y"])],
     .ite (.var "b") (.call "half" [.var "y"])
       (.call "down" [.add .sub (.var "x") (.num (F64.ofNat 1)), .call "not" [.var "less"]])⟩]

/-- What the host declares of the operators, module.rs:359-371. -/
def table : List Mod.External :=
  [⟨[], "less", .binop 0, ⟨[.default, .default], [.any, .any], .any, BinFn.less.ext, []⟩⟩,
   ⟨[], "sub", .binop 7, ⟨[.default, .default], [.any, .any], .any, BinFn.sub.ext, []⟩⟩,
   ⟨[], "div", .binop 9, ⟨[.default, .default], [.any, .any], .any, BinFn.div.ext, []⟩⟩,
   ⟨[], "not", .unop 0, ⟨[.default], [.any], .any, UnFn.not.ext, []⟩⟩]

/-- An equation whose sides the kernel evaluates to the same. -/
local macro "kernel_rfl" : tactic => `(tactic| run_tac do
  let g ← Lean.Elab.Tactic.getMainGoal
  let some (_, a, _) := (← Lean.instantiateMVars (← g.getType)).eq? | throwError "not an equation"
  g.assign (← Lean.Meta.mkEqRefl a))

variable [FloatOps] [VecMath] [Data.Lex] [TextOps]

/-- The functions of Dyon. -/
def base : ECfg := stdCfg (fun _ _ => "value") 100 (fun _ => [])

theorem hostBin (op : BinFn) {k : Nat} {name : String} (h : ∀ a b, base.binopFn k a b = op.run a b) {ra : Nat → Nat} :
    HostOk base ra ⟨[], name, .binop k, ⟨[.default, .default], [.any, .any], .any, op.ext, []⟩⟩ := by
  refine ⟨honest_binop op, rfl, fun f h => (by cases h), fun h => ?_, fun _ ts T hl hf hr => ?_⟩
  · cases op <;> simp [BinFn.ext, orderSigs, equalSigs] at h
  · match ts, hl with
    | [a, b], _ => exact gives_binop op h (hf a (by simp)) (hf b (by simp)) hr

theorem hostUn (op : UnFn) {k : Nat} {name : String} (h : ∀ a, base.unopFn k a = op.run a) {ra : Nat → Nat} :
    HostOk base ra ⟨[], name, .unop k, ⟨[.default], [.any], .any, op.ext, []⟩⟩ := by
  refine ⟨honest_unop op, rfl, fun f h => (by cases h), fun h => ?_, fun _ ts T hl hf hr => ?_⟩
  · cases op <;> simp [UnFn.ext] at h
  · match ts, hl with
    | [a], _ => exact gives_unop op h (hf a (by simp)) hr

set_option maxRecDepth 100000 in
/-- The hypotheses of `C81_text_partial` are met: `down(7, true)`. -/
example (n : Nat) : ∃ mod, (ModSrc.load (.host table) "down.dyon" { fns := fs.map Fn.src }).build = .ok mod ∧
    (callStrRet (base.withModules fun _ => mod).resolve n "down" [.ofF64 (F64.ofNat 7), .bool true none] 0 Dyon.Demo.empty = .timeout ∨
    ∃ v, callStrRet (base.withModules fun _ => mod).resolve n "down" [.ofF64 (F64.ofNat 7), .bool true none] 0 Dyon.Demo.empty =
      .ok v Dyon.Demo.empty ∧ HasTy .f64 v) := by
  obtain ⟨ns1, h2, h3⟩ := linked_ok (EndDemo.okNodes_of (x := linked (envOf table) (fs.map Fn.tr)) (by decide +kernel))
  have hm : ∃ mod, (ModSrc.load (.host table) "down.dyon" { fns := fs.map Fn.src }).build = .ok mod := by
    cases h : (ModSrc.load (.host table) "down.dyon" { fns := fs.map Fn.src }).build with
    | ok mod => exact ⟨mod, rfl⟩
    | error e =>
      have hok : (match (ModSrc.load (.host table) "down.dyon" { fns := fs.map Fn.src }).build with
        | .ok _ => true
        | .error _ => false) = true := by kernel_rfl
      rw [h] at hok
      cases hok
  obtain ⟨mod, hm⟩ := hm
  refine ⟨mod, hm, ?_⟩
  exact C81_text_partial (table := table) (base := base) (fs := fs) (ns0 := arena (fs.map Fn.tr)) (f := fs[1])
    rfl hm (libExtFns _ _ _ rfl rfl) ⟨(Dyon.Demo.still []).void, (Dyon.Demo.still []).ret⟩
    (by
      intro x hx _
      simp only [table, List.mem_cons, List.not_mem_nil, or_false] at hx
      rcases hx with rfl | rfl | rfl | rfl
      · exact hostBin .less fun _ _ => rfl
      · exact hostBin .sub fun _ _ => rfl
      · exact hostBin .div fun _ _ => rfl
      · exact hostUn .not fun _ => rfl)
    (built_file fs) (arena_arranged _) (arena_inOrder _) h2 h3 (by decide +kernel) (fuel := 60) (Check.Demo.accept_of (by decide +kernel))
    (by decide +kernel) (by decide +kernel) (by exact List.getElem_mem _) (.cons ⟨_, _, rfl⟩ (.cons ⟨_, _, rfl⟩ .nil)) (.empty rfl rfl) (fun _ _ => rfl)

end Demo

end Dyon.Sound.Small
