import Verif.Eval.BlindProps
import Verif.Eval.GoProps

/-!
# C29: the values of arguments stay until the call begins

The arguments of a call are evaluated one after the other, each value on top of the stack.  A later
argument may have side effects (calls of functions that change their arguments, assignments in
blocks, closures): the slots of the earlier ones keep their values, if no variable refers to a slot
that was free before the call.
-/

namespace Dyon

open Loc

/-! ## Specification -/

/-- The variables of the running function. -/
def ownVars (s : St) (i : Nat) : Prop :=
  ∃ call, s.calls.getLast? = some call ∧ ∃ x ∈ s.locals.drop call.localLen, x.2 = i

/-! ## Proofs -/

section
variable {c : ECfg} {va ra : Nat → Nat} {P : Nat → Prop}
variable [FloatOps] [VecMath]

/-- One argument. -/
theorem arg_step (hS : Sound c va ra) {Γ : Env} {s t : St} (hs : Settled c va ra Γ s) {a : Expr}
    (hw : a.WF (kOf c.resolve va ra s)) (hr : a.Res (kOf c.resolve va ra s) (arOf c.resolve s) Γ [])
    (hc : EIn (fun _ => False) a) {n : Nat} {v : Val} (h : eval c.resolve n a .right s = .ok (some v, .cont) t) :
    Settled c va ra (Γ ++ List.replicate a.width none) { t with stack := t.stack ++ [v] } ∧
    Grown 1 s { t with stack := t.stack ++ [v] } ∧
    ∀ S, Inv S s → Inv S { t with stack := t.stack ++ [v] } ∧ Kept S s { t with stack := t.stack ++ [v] } := by
  have hE := extFns_resolve hS.ext
  have hM := modulesWF_resolve hS.wf
  have hg := Good.eval hE hM n a .right s hs.wf hw
  rw [wp, h] at hg
  have hsame := hg.value v rfl rfl
  have hsw : a.isSwizzle = false := by
    by_contra hx
    have := (hg.swizzle (by simpa using hx) rfl).1
    simp at this
  have ha := (Agrees.eval (c := c.resolve) (lost := none) hS.slots hE (extStill_resolve hS.still) hM
    (modulesRes_resolve hS.inScope) n a .right s Γ hs.wf hs.res hw hr hs.aligned).1
  have hres := ha.2
  rw [wp, h] at hres
  have hgr : Grown 1 s { t with stack := t.stack ++ [v] } := hsame.grown.trans (Grown.push v)
  refine ⟨⟨hg.inv, hres, ?_⟩, hgr, fun S hI => ?_⟩
  · rw [width_one hsw]; exact hs.aligned.grown hgr
  · have h2 := hS.loc n a .right s hs.wf hI hw (eIn_mono (fun _ h => h.elim) a hc)
    rw [wp, ha.1, h] at h2
    obtain ⟨hlk, hv⟩ := h2
    have hI' := hlk.inv
    refine ⟨⟨⟨?_, hI'.closures, hI'.queues, hI'.currents⟩, ?_, hI'.base, hI'.locals⟩, ?_⟩
    · intro i w hi hP j hj
      rcases Nat.lt_or_ge i t.stack.length with hlt | hge
      · simp only [List.getElem?_append_left hlt] at hi
        exact hI'.slots i w hi hP j hj
      · simp only [List.getElem?_append_right hge] at hi
        rcases hk : i - t.stack.length with _ | k
        · rw [hk] at hi; cases hi; exact hv _ rfl j hj
        · rw [hk] at hi; cases hi
    · intro i hi
      have := hI'.fresh i hi
      simp only [List.length_append, List.length_singleton]
      omega
    · intro i hi
      have := hI'.fresh i hi
      simp only [List.getElem?_append_left this]
      exact hlk.kept i hi

/-- Several arguments. -/
theorem args_step (hS : Sound c va ra) {n args vs s u} (h : ArgsTo c.resolve n args vs s u) :
    ∀ {Γ : Env}, Settled c va ra Γ s → WFs (kOf c.resolve va ra s) args →
    RArgs (kOf c.resolve va ra s) (arOf c.resolve s) args Γ [] → EsIn (fun _ => False) args →
    ∀ S, Inv S s → Kept S s u := by
  induction h with
  | nil => intro Γ _ _ _ _ S _; exact .rfl
  | @cons a as v vs s t u hv _ ih =>
    intro Γ hs hw hr hc S hI
    rw [WFs] at hw
    rw [RArgs] at hr
    rw [EsIn] at hc
    obtain ⟨h1, h2, h3⟩ := arg_step hS hs hw.1 hr.1 hc.1 hv
    obtain ⟨h4, h5⟩ := h3 S hI
    exact h5.trans (ih h1 (by rw [h2.ext.kOf]; exact hw.2) (by rw [h2.ext.kOf, h2.ext.arOf]; exact hr.2) hc.2 S h4)

theorem inv_reach {Γ : Env} {s : St} (hs : Aligned Γ s) :
    Inv (fun i => s.stack.length ≤ i ∨ Reach s (ownVars s) i) s := by
  obtain ⟨call, hcall, hlen, -, -⟩ := hs
  have hbase : s.base = call.localLen := by simp [St.base, hcall]
  refine ⟨⟨?_, ?_, ?_, ?_⟩, ?_, by rw [hbase]; exact hlen, ?_⟩
  · intro i v hv hi j hj
    have hlt : i < s.stack.length := by
      by_contra hge
      rw [List.getElem?_eq_none (Nat.not_lt.1 hge)] at hv
      cases hv
    rcases hi with hi | hi
    · omega
    · exact .inr fun S hS => hS.refs i v hv (hi S hS) j hj
  · intro cl hcl
    exact eIn_mono (fun _ h => .inr h) _ ((shut_reach s (ownVars s)).closures cl hcl)
  · intro ch v hv j hj
    exact .inr fun S hS => hS.messages ch v hv j hj
  · intro x hx
    exact .inr fun S hS => hS.currents x hx
  · intro i hi
    by_contra hge
    exact hi (.inl (Nat.not_lt.1 hge))
  · intro x hx
    rw [hbase] at hx
    exact .inr fun S hS => hS.roots _ ⟨call, hcall, x, hx, rfl⟩

/-- **C29.** The values of the arguments stay: when all arguments have been evaluated, whatever the
later ones do, the slots above the stack of the caller hold the values of the arguments in their order,
if after each argument what can be reached from the variables of the caller was there before the
arguments. -/
theorem C29_args_stay_partial (hS : Sound c va ra) {Γ : Env} {s u : St} (hs : Settled c va ra Γ s) {n : Nat}
    {args : List Expr} {vs : List Val} (hw : WFs (kOf c.resolve va ra s) args)
    (hr : RArgs (kOf c.resolve va ra s) (arOf c.resolve s) args Γ []) (hc : EsIn (fun _ => False) args)
    (h : ArgsTo c.resolve n args vs s u)
    (hd : ∀ k t, ArgsTo c.resolve n (args.take k) (vs.take k) s t → ∀ i, Reach t (ownVars t) i → i < s.stack.length) :
    u.stack.drop s.stack.length = vs := by
  have key : ∀ b, b ≤ s.stack.length →
      (∀ k t, ArgsTo c.resolve n (args.take k) (vs.take k) s t → ∀ i, Reach t (ownVars t) i → i < b) →
      ∀ k v, vs[k]? = some v → u.stack[s.stack.length + k]? = some v := by
    clear hd
    induction h generalizing Γ with
    | nil => intro b _ _ k v hv; cases hv
    | @cons a as v vs s t u hv hrest ih =>
      intro b hb hd k w hk
      rw [WFs] at hw
      rw [RArgs] at hr
      rw [EsIn] at hc
      obtain ⟨h1, h2, h3⟩ := arg_step hS hs hw.1 hr.1 hc.1 hv
      have hw' := hw.2
      have hr' := hr.2
      rw [← h2.ext.kOf] at hw'
      rw [← h2.ext.kOf, ← h2.ext.arOf] at hr'
      have hlen := h2.stack
      cases k with
      | zero =>
        cases hk
        have hI := inv_reach h1.aligned
        have hkept := args_step hS hrest h1 hw' hr' hc.2 _ hI s.stack.length (by
          rintro (h | h)
          · omega
          · have := hd 1 _ (.cons hv .nil) _ h
            omega)
        rw [Nat.add_zero, hkept]
        simp only [List.length_append, List.length_singleton] at hlen
        have : s.stack.length = t.stack.length := by omega
        simp [this]
      | succ k =>
        have := ih h1 hw' hr' hc.2 b (by omega) (fun k t' ht' => hd (k + 1) t' (.cons hv ht')) k w (by simpa using hk)
        rw [hlen] at this
        rw [← this]
        congr 1
        omega
  have hl := (C29_slots (extFns_resolve hS.ext) (modulesWF_resolve hS.wf) hs.wf hw h).1
  refine List.ext_getElem? fun k => ?_
  rw [List.getElem?_drop]
  cases hv : vs[k]? with
  | some v => exact key _ (Nat.le_refl _) hd k v hv
  | none =>
    rw [List.getElem?_eq_none_iff] at hv ⊢
    omega

/-- **C29.** At the start of the body of a called function the `i`-th parameter denotes the value that the `i`-th
argument had when it was evaluated, whatever the later arguments did. -/
theorem C29_param_value_partial (hS : Sound c va ra) {Γ : Env} {s : St} (hs : Settled c va ra Γ s) {n : Nat} {f : Int}
    {name : String} {args : List Expr} (hw : (Expr.call (.loaded f) name args).WF (kOf c.resolve va ra s))
    (hr : (Expr.call (.loaded f) name args).Res (kOf c.resolve va ra s) (arOf c.resolve s) Γ [])
    (hc : EsIn (fun _ => False) args)
    {idx : Nat} {fn : Func} {vs : List Val} {refs : List Nat} {u w b : St}
    (h : CallRun c.resolve n f name args s idx fn vs refs u w b) (side : Side)
    (hd : ∀ k t, ArgsTo c.resolve n (args.take k) (vs.take k) (withReturn fn.returns s) t →
      ∀ i, Reach t (ownVars t) i → i < (withReturn fn.returns s).stack.length)
    {i : Nat} {a : String} (ha : fn.args[i]? = some a) (huniq : ∀ j, i < j → fn.args[j]? ≠ some a) {v : Val}
    (hv : vs[i]? = some v) (k : Nat) :
    eval c.resolve (k + 1) (plainVar a (some (fn.args.length - i + refs.length))) side b =
        .ok (some (varRef ((withReturn fn.returns s).stack.length + i) v), .cont) b ∧
      b.stack[(withReturn fn.returns s).stack.length + i]? = some v := by
  simp only [Expr.WF] at hw
  simp only [Expr.Res] at hr
  have hidx : callIndex f s.rel = some idx := callIndex_eq h.index
  have hret : (kOf c.resolve va ra s).rets f = fn.returns := by simp only [kOf, ctxAt, hidx, h.func]
  have har : arOf c.resolve s f = fn.args.length := by simp only [arOf, arAt, hidx, h.func]
  have hargs := h.args
  have hg1 : Grown (if fn.returns then 1 else 0) s (withReturn fn.returns s) := by
    unfold withReturn
    cases fn.returns
    · exact Same.rfl.grown
    · exact Grown.push _
  have hs1 : Settled c va ra (Γ ++ callPre (kOf c.resolve va ra s) (.loaded f)) (withReturn fn.returns s) := by
    refine ⟨?_, ?_, ?_⟩
    · unfold withReturn; cases fn.returns <;> exact hs.wf
    · unfold withReturn; cases fn.returns <;> exact hs.res
    · have hpre : callPre (kOf c.resolve va ra s) (.loaded f) = List.replicate (if fn.returns then 1 else 0) none := by
        rw [← hret]
        simp only [callPre]; cases (kOf c.resolve va ra s).rets f <;> rfl
      rw [hpre]
      exact hs.aligned.grown hg1
  have hw' : WFs (kOf c.resolve va ra (withReturn fn.returns s)) args := by rw [hg1.ext.kOf]; exact hw.1
  have hr' := hr.1
  rw [← hg1.ext.kOf, ← hg1.ext.arOf] at hr'
  have hstay := C29_args_stay_partial hS hs1 hw' (by rw [hg1.ext.kOf] at hr' ⊢; exact hr') hc hargs hd
  obtain ⟨l1, l2, -⟩ := C29_slots (extFns_resolve hS.ext) (modulesWF_resolve hS.wf) hs1.wf hw' hargs
  have hlen : argLen args = vs.length := argLen_argsTo (extFns_resolve hS.ext) (modulesWF_resolve hS.wf) hs1.wf hw' hargs
  refine C29_param side h (l2.trans hg1.locals) (by rw [l1, ← hlen, hr.2.1, har]) ha huniq ?_ _ (.inr rfl)
  rw [← List.getElem?_drop, hstay]
  exact hv

end

/-! ## Examples -/

namespace Demo
variable [FloatOps] [VecMath]

/-- `fn main() { x := [1] g("a", f(mut x)) }  fn f(mut a) -> { push(mut a, 3) return "b" }  fn g(a, b) { }` -/
def argProg : List Func :=
  [fn "main" [] false
    [decl "x" (.array [num 1]), .call (.loaded 2) "g" [str "a", .call (.loaded 1) "f" [name "x"]]],
   fn "f" ["a"] true [.call (.void (lib .push)) "push" [name "a", num 3], .ret (str "b")],
   fn "g" ["a", "b"] false []]

theorem arg_sound : Sound (cfg argProg) libArity libArity where
  slots := rfl
  ext := ext _
  still := still _
  reach P := extLocal_std _ _ _
  grows := growsExt_std _ _ _
  arrive t ch v hv := by cases hv
  wf := by
    intro m idx f h
    match idx, h with
    | 0, h =>
      cases h
      simp [WFs, Expr.WF, WFopt, WFitem, WFids, decl, num, name, str, fn]
    | 1, h =>
      cases h
      simp [WFs, Expr.WF, WFopt, WFitem, WFids, num, name, str, fn]
      rfl
    | 2, h => cases h; simp [WFs, fn]
  inScope := by
    intro m idx f h
    match idx, h with
    | 0, h =>
      cases h
      constructor
      · intro x hx; cases hx
      · simp [SSeq, Expr.Scoped, SOpt, SItem, SIds, SArgs, SAll, decl, num, name, str, fn,
          fnEnv, declName, Item.ids, Item.name, Expr.isSwizzle, Expr.adds, Dyon.decl, callPre,
          vecArgsOk, Valued, argLen, Expr.width, arAt, callIndex, cfg, stdCfg, argProg]
        rfl
    | 1, h =>
      cases h
      constructor
      · intro x hx; cases hx
      · simp [SSeq, Expr.Scoped, SItem, SIds, SArgs, SAll, SElifs, SOptSeq, num, name, str, fn, fnEnv,
          Expr.isSwizzle, Expr.adds, Dyon.decl, callPre]
    | 2, h =>
      cases h
      constructor
      · intro x hx; cases hx
      · simp [SSeq, fn]
  consts := by
    intro m idx f h
    match idx, h with
    | 0, h =>
      cases h
      simp [EsIn, EIn, ItemIn, IdsIn, decl, num, name, str, fn, within_f64_none, Val.ofF64, within_str]
    | 1, h =>
      cases h
      simp [EsIn, EIn, ItemIn, IdsIn, num, name, str, fn, within_f64_none, Val.ofF64, within_str]
    | 2, h => cases h; simp [EsIn, fn]

/-- `main` before the call of `g`. -/
def beforeG : St :=
  { empty with
    stack := [.array [.ofF64 (F64.ofNat 1)]]
    locals := [("x", 0)]
    calls := [⟨"main", 0, some "demo.dyon", 0, 0, 0⟩] }

theorem beforeG_settled : Settled (cfg argProg) libArity libArity [some "x"] beforeG where
  wf cl h := by cases h
  res cl h := by cases h
  aligned := by
    refine ⟨_, rfl, Nat.zero_le _, Nat.le_refl _, fun n => ?_⟩
    by_cases h2 : n = "x"
    · subst h2; rfl
    simp [beforeG, findLast, dist, distR, Ne.symm h2]

theorem beforeG_args : ∃ u, ArgsTo (cfg argProg).resolve 12 [str "a", .call (.loaded 1) "f" [var "x" 3]] [.str "a", .str "b"] beforeG u ∧
    u.stack[0]? = some (.array [.ofF64 (F64.ofNat 1), .ofF64 (F64.ofNat 3)]) ∧
    (∃ w b, CallRun (cfg argProg).resolve 12 2 "g" [str "a", .call (.loaded 1) "f" [var "x" 3]] beforeG 2
      (fn "g" ["a", "b"] false []) [.str "a", .str "b"] [] u w b) ∧
    ∀ k t, ArgsTo (cfg argProg).resolve 12 ([str "a", .call (.loaded 1) "f" [var "x" 3]].take k)
      ([Val.str "a", .str "b"].take k) beforeG t → ∀ i, Reach t (ownVars t) i → i < beforeG.stack.length := by
  have h1 : ArgsTo (cfg argProg).resolve 12 [str "a"] [.str "a"] beforeG _ := .cons rfl .nil
  have h2 : ArgsTo (cfg argProg).resolve 12 [str "a", .call (.loaded 1) "f" [var "x" 3]] [.str "a", .str "b"] beforeG _ :=
    .cons rfl (.cons rfl .nil)
  refine ⟨_, h2, rfl, ⟨_, _, rfl, rfl, fun _ h => absurd h (by simp [fn]), h2, .nil, rfl, rfl⟩, fun k t ht i hi => ?_⟩
  have key : ∀ t : St, t.locals = [("x", 0)] → t.calls = [⟨"main", 0, some "demo.dyon", 0, 0, 0⟩] → t.currents = [] →
      t.closures = [] → (∀ ch, t.queues ch = []) →
      (∀ v, t.stack[0]? = some v → ∀ j, ¬ HasRef j v) → Reach t (ownVars t) i → i < beforeG.stack.length := by
    intro t e1 e2 e3 e4 e5 e6 h
    have := h (fun j => j = 0) ⟨?_, by simp [e3], by simp [e4], by simp [e5], ?_⟩
    · subst this; exact Nat.one_pos
    · rintro j ⟨call, hc, x, hx, rfl⟩
      rw [e2] at hc; cases hc
      rw [e1] at hx
      cases List.mem_singleton.1 hx
      rfl
    · rintro j v hv rfl j' hj
      exact absurd hj (e6 v hv j')
  have hnum : ∀ (l : List F64) j, ¬ HasRef j (.array (l.map .ofF64)) := by
    intro l j hj
    cases hj with
    | array hx hj =>
      obtain ⟨x, -, rfl⟩ := List.mem_map.1 hx
      exact (within_f64_none (P := fun _ => False) j hj).elim
  match k, ht with
  | 0, ht =>
    cases ht
    exact key _ rfl rfl rfl rfl (fun _ => rfl) (fun v hv => by cases hv; exact hnum [_]) hi
  | 1, ht =>
    obtain ⟨-, rfl⟩ := argsTo_unique h1 ht
    exact key _ rfl rfl rfl rfl (fun _ => rfl) (fun v hv => by cases hv; exact hnum [_]) hi
  | k + 2, ht =>
    simp only [List.take_succ_cons, List.take_nil] at ht
    obtain ⟨-, rfl⟩ := argsTo_unique h2 ht
    exact key _ rfl rfl rfl rfl (fun _ => rfl) (fun v hv => by cases hv; exact hnum [_, _]) hi

/-- The hypotheses are met: the second argument of `g("a", f(mut x))` changes `x`, the first one stays. -/
example : ∃ u, ArgsTo (cfg argProg).resolve 12 [str "a", .call (.loaded 1) "f" [var "x" 3]] [.str "a", .str "b"] beforeG u ∧
    u.stack[0]? = some (.array [.ofF64 (F64.ofNat 1), .ofF64 (F64.ofNat 3)]) ∧
    u.stack.drop beforeG.stack.length = [.str "a", .str "b"] := by
  obtain ⟨u, h1, h2, -, h3⟩ := beforeG_args
  exact ⟨u, h1, h2, C29_args_stay_partial arg_sound beforeG_settled (by simp [WFs, Expr.WF, var, str, WFitem, WFids])
    (by simp [RArgs, Expr.Res, var, str, callPre, RItem, RIds, vecArgsOk, Valued, argLen, Expr.width, arOf, arAt,
      callIndex, Expr.isSwizzle]; exact ⟨rfl, rfl⟩)
    (by simp [EsIn, EIn, ItemIn, IdsIn, var, str, within_str]) h1 h3⟩

/-- The first parameter of `g` denotes `"a"`. -/
example (side : Side) : ∃ u w b, CallRun (cfg argProg).resolve 12 2 "g" [str "a", .call (.loaded 1) "f" [var "x" 3]] beforeG 2
      (fn "g" ["a", "b"] false []) [.str "a", .str "b"] [] u w b ∧
    eval (cfg argProg).resolve 2 (plainVar "a" (some 2)) side b = .ok (some (varRef 1 (.str "a")), .cont) b := by
  obtain ⟨u, -, -, ⟨w, b, h⟩, h3⟩ := beforeG_args
  refine ⟨u, w, b, h, ?_⟩
  exact (C29_param_value_partial arg_sound beforeG_settled (by simp [Expr.WF, WFs, var, str, WFitem, WFids])
    (by simp [Expr.Res, RArgs, var, str, callPre, RItem, RIds, vecArgsOk, Valued, argLen, Expr.width, arOf, arAt,
      callIndex, Expr.isSwizzle]; exact ⟨⟨rfl, rfl⟩, rfl, rfl⟩)
    (by simp [EsIn, EIn, ItemIn, IdsIn, var, str, within_str]) h side h3 (i := 0) (a := "a") rfl
    (by intro j hj; match j with | 1 => simp [fn] | j + 2 => simp [fn]) rfl 1).1

end Demo

end Dyon
