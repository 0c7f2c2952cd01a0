import Verif.Eval.ClosureLemmas
import Verif.Eval.Demo

/-!
# C30: closures capture by value

`Spec.grabs level body` lists the expressions under the `grab`s of a level in a closure
body, `Spec.fill level body vs` is the body with values in their place, and
`Spec.GrabAll` evaluates expressions one after the other and takes deep clones
(`Verif.Eval.ClosureLemmas`).
-/

namespace Dyon
open Spec

variable [FloatOps] [VecMath]

/-- **C30.** Evaluating a closure expression gives a value exactly if all its `grab`
expressions do.  They are evaluated once each, in order, and the new closure has the body
with their values, as they were at that moment, in place of the `grab`s.  Nothing else
changes. -/
theorem C30_created (c : ECfg) (n : Nat) (args currents : List String) (returns : Bool) (file : String)
    (e : Expr) (side : Side) (st : St) (v : Val) (st' : St) :
    eval c (n + 1) (.closure args currents returns file e) side st = .ok (some v, .cont) st' ↔
      ∃ vs s, GrabAll n (eval c n) .right (grabs 1 e) st vs s ∧ v = .closure s.closures.length ∧
        st' = { s with closures := s.closures ++ [⟨args, currents, returns, file, (fill 1 e vs).1, s.module,
          (st.calls.getLast?.map CallRec.index).getD 0⟩] } := by
  have hsp := splits_expr (n := n) (ev := eval c n) (side := .right) 1 e
  constructor
  · intro h
    replace h : closureE n (eval c n) args currents returns file e st = _ := h
    rw [closureE, EM.bind_ok (show relIndex st = _ from rfl)] at h
    obtain ⟨x, s, h1, h2⟩ := EM.bind_inv h
    cases x with
    | inl x => cases h2
    | inr e' =>
      obtain ⟨vs, hg, hf⟩ := hsp.fwd h1
      have hf' := hf []
      rw [List.append_nil] at hf'
      cases h2
      exact ⟨vs, s, hg, rfl, by rw [hf']⟩
  · rintro ⟨vs, s, hg, rfl, rfl⟩
    obtain ⟨a, h1, hf⟩ := hsp.bwd hg
    have hf' := hf []
    rw [List.append_nil] at hf'
    show closureE n (eval c n) args currents returns file e st = _
    rw [closureE, EM.bind_ok (show relIndex st = _ from rfl), EM.bind_ok h1, hf']
    rfl

/-- **C30.** The `k`-th captured value is what the `k`-th `grab` expression evaluated to,
with every reference replaced by what it referred to at that moment. -/
theorem C30_captured {n : Nat} {ev : Evl} {side : Side} {gs : List Expr} {st : St} {vs : List Val} {st' : St}
    (h : GrabAll n ev side gs st vs st') : vs.length = gs.length ∧
    ∀ (k : Nat) g v, gs[k]? = some g → vs[k]? = some v →
      ∃ s x s', ev g side s = .ok (some x, .cont) s' ∧ Resolves s'.stack x v := by
  refine ⟨GrabAll.length h, ?_⟩
  induction h with
  | nil => intro k g v hg; simp at hg
  | @cons e es st x st1 v vs st2 h1 h2 _ ih =>
    intro k g u hg hu
    cases k with
    | zero =>
      simp only [List.getElem?_cons_zero, Option.some.injEq] at hg hu
      subst hg hu
      exact ⟨st, x, st1, h1, C14_resolves _ _ _ _ h2⟩
    | succ k => exact ih k g u (by simpa using hg) (by simpa using hu)

/-- **C30.** A captured value has no reference to a variable any more: wherever and whenever
the closure body evaluates it, it is the same value, and reads the same over every stack. -/
theorem C30_snapshot_partial {n : Nat} {ev : Evl} {side : Side} {g : Expr} {s s' : St} {x v : Val}
    (_h : ev g side s = .ok (some x, .cont) s') (hc : deepClone s'.stack n x = .ok v)
    (hst : ∀ u ∈ s'.stack, Sealed u) (hx : Sealed x) :
    RefFree v ∧ Resolves s'.stack x v ∧
    (∀ (c : ECfg) (m : Nat) (sd : Side) (t : St), eval c (m + 1) (.const v) sd t = .ok (some v, .cont) t) ∧
    (∀ (stack : Stack) (w : Val), Resolves stack v w → w = v) := by
  have hf := C14_self_contained _ _ _ _ hst hx hc
  refine ⟨hf, C14_resolves _ _ _ _ hc, fun _ _ _ _ => rfl, fun stack w hr => ?_⟩
  obtain ⟨k, hk⟩ := C14_complete stack v w hr
  have h1 := hk k (Nat.le_refl _)
  rw [C14_stable stack k v hf] at h1
  cases h1
  rfl

/-- **C30.** In the body of the closure no `grab` of the first level is left; the `grab`s
of all other levels are there as before, for the closures inside and outside. -/
theorem C30_levels (level : Nat) (e : Expr) (vs : List Val) (h : vs.length = (grabs level e).length) :
    grabs level (fill level e vs).1 = [] ∧
    (∀ m, m ≠ level → grabs m (fill level e vs).1 = grabs m e) ∧ (fill level e vs).2 = [] := by
  have hf := fun m => fills_expr m level e vs (Nat.le_of_eq h.symm)
  refine ⟨?_, fun m hm => ?_, ?_⟩
  · rw [(hf level).1, leftOver, if_pos rfl]
  · rw [(hf m).1, leftOver, if_neg hm]
  · rw [(hf 0).2, ← h, List.drop_length]

/-- **C30.** A body without `grab`s of the level is kept as it is. -/
theorem C30_no_grabs (level : Nat) (e : Expr) (vs : List Val) (h : grabs level e = []) :
    (fill level e vs).1 = e := by rw [fill_none level e h]; rfl

/-- Later: after some more expressions have been evaluated, each ending normally or in an
error. -/
inductive Later (c : ECfg) : St → St → Prop
  | now {s} : Later c s s
  | ok {s n e side r t u} : eval c n e side s = .ok r t → Later c t u → Later c s u
  | err {s n e side m t u} : eval c n e side s = .err m t → Later c t u → Later c s u

theorem Later.trans {c : ECfg} {s t u : St} (h : Later c s t) (h' : Later c t u) : Later c s u := by
  induction h with
  | now => exact h'
  | ok h _ ih => exact .ok h (ih h')
  | err h _ ih => exact .err h (ih h')

/-- The external functions only add closures and threads; those of the library do. -/
theorem growsExt_std (write : Stack → Val → String) (fuel : Nat) (modules : Nat → List Func) :
    GrowsExt (stdCfg write fuel modules) := by
  constructor
  · intro f
    constructor
    intro st
    simp only [wp, stdCfg, libVoid]
    cases libRun write fuel f st <;> first | exact ⟨List.prefix_rfl, List.prefix_rfl, Nat.le_refl _, Nat.le_refl _⟩ | trivial
  · intro f
    constructor
    intro st
    simp only [wp, stdCfg, libRet]
    cases h : libRun write fuel f st with
    | ok r s => cases r <;> first | exact ⟨List.prefix_rfl, List.prefix_rfl, Nat.le_refl _, Nat.le_refl _⟩ | trivial
    | _ => first | exact ⟨List.prefix_rfl, List.prefix_rfl, Nat.le_refl _, Nat.le_refl _⟩ | trivial

/-- **C30.** Nothing that is evaluated later changes a closure that has been made, whatever
it assigns and however it ends; threads stay as well. -/
theorem C30_kept {c : ECfg} (hx : GrowsExt c) {s t : St} (h : Later c s t) :
    (∀ (id : Nat) cl, s.closures[id]? = some cl → t.closures[id]? = some cl) ∧
    (∀ (id : Nat) j, s.jobs[id]? = some j → t.jobs[id]? = some j) := by
  have hk : Added s t := by
    induction h with
    | now => exact .rfl
    | @ok s n e side r t u h _ ih =>
      have := (grows_eval hx n e side).run s
      rw [wp, h] at this
      exact Added.trans this ih
    | @err s n e side m t u h _ ih =>
      have := (grows_eval hx n e side).run s
      rw [wp, h] at this
      exact Added.trans this ih
  refine ⟨fun id cl h => ?_, fun id j h => ?_⟩
  · obtain ⟨r, hr⟩ := hk.closures
    rw [← hr, List.getElem?_append_left ((List.getElem?_eq_some_iff.1 h).1)]; exact h
  · obtain ⟨r, hr⟩ := hk.jobs
    rw [← hr, List.getElem?_append_left ((List.getElem?_eq_some_iff.1 h).1)]; exact h

/-- **C30.** A call, at any later time and through any variable that holds the closure,
runs the body with the values captured when the closure was made: what the call gives is
what that body gives. -/
theorem C30_call {c : ECfg} (hx : GrowsExt c) {n k : Nat} {params currents : List String} {file : String}
    {e : Expr} {side : Side} {st st' : St} {v : Val}
    (hmade : eval c (n + 1) (.closure params currents true file e) side st = .ok (some v, .cont) st')
    {s : St} (hlater : Later c st' s)
    {it : Item} {args : List Expr} {cl : Clo} {avs : List Val} {refs : List Nat} {s1 u b : St}
    (hcall : CloRun c k it args s cl avs refs s1 u b)
    (hit : ∃ x, eval c (k + 1) (.item it) .right s = .ok (some x, .cont) s1 ∧ Spec.deref s1.stack x = some v)
    (sd : Side) :
    ∃ vs s0, GrabAll n (eval c n) .right (grabs 1 e) st vs s0 ∧
      ∀ {w fl t}, eval c k (fill 1 e vs).1 .right { b with module := s0.module } = .ok (some w, fl) t →
        (fl = .cont ∨ fl = .ret) → t.calls = b.calls → w ≠ .ret →
        eval c (k + 1) (.callClosure it args) sd s = .ok (some w, .cont)
          (afterCall true (s1.stack.length + 1) s1.locals.length s1.currents.length u.calls
            { t with module := b.module }) := by
  obtain ⟨vs, s0, hg, rfl, rfl⟩ := (C30_created ..).1 hmade
  refine ⟨vs, s0, hg, ?_⟩
  obtain ⟨x, id, h1, h2, h3⟩ := hcall.closure
  obtain ⟨x', h1', h2'⟩ := hit
  rw [h1] at h1'
  cases h1'
  rw [h2] at h2'
  cases h2'
  have hk := (C30_kept hx (hlater.trans (.ok h1 .now))).1 s0.closures.length _
    (by simp only [List.getElem?_append_right (Nat.le_refl _), Nat.sub_self]; rfl)
  rw [h3] at hk
  cases hk
  intro w fl t hb hf hc hw
  exact C29_closure_value sd hcall rfl hb hf hc hw

/-! ## Examples -/

namespace Demo

/-- ```
fn main() -> {
    x := "old"
    f := \(a) = [grab x, "and", grab x]
    x = "new"
    return \f("arg")
}
``` -/
def grabProg : List Func :=
  [fn "main" [] true
    [decl "x" (str "old"),
     decl "f" (.closure ["a"] [] true "demo.dyon" (.array
       [.grab 1 (var "x" 1), str "and", .grab 1 (var "x" 1)])),
     .assign .set (var "x" 2) (str "new"),
     .ret (.callClosure (.mk "f" (some 1) false false [] []) [str "arg"])]]

/-- The grabs of a body with a nested closure: `grab'2` of the inner closure belongs to the
outer one. -/
example : grabs 1 (.array [.grab 1 (var "x" 1),
    .closure [] [] true "" (.array [.grab 1 (var "y" 1), .grab 2 (var "z" 1)])]) = [var "x" 1, var "z" 1] := rfl

/-- The captured values in place. -/
example : (fill 1 (.array [.grab 1 (var "x" 1),
    .closure [] [] true "" (.array [.grab 1 (var "y" 1), .grab 2 (var "z" 1)])])
      [.str "a", .str "b"]).1 =
    .array [str "a", .closure [] [] true "" (.array [.grab 1 (var "y" 1), str "b"])] := rfl

/-- A state in which `x` is a reference to a string. -/
def grabSt : St := { empty with stack := [.str "old", .ref 0], locals := [("x", 1)], calls := [⟨"main", 0, none, 0, 0, 0⟩] }

/-- A closure that captures `x` meets the hypotheses: the reference is resolved. -/
example : ∃ st', eval (cfg []) 5 (.closure [] [] true "" (.grab 1 (var "x" 1))) .right grabSt =
    .ok (some (.closure 0), .cont) st' ∧
    (st'.closures[0]?).map Clo.body = some (str "old") := ⟨_, rfl, rfl⟩

example : GrabAll 4 (eval (cfg []) 4) .right (grabs 1 (.grab 1 (var "x" 1))) grabSt [.str "old"] grabSt :=
  .cons (x := .ref 0) (st1 := grabSt) rfl rfl .nil

/-- The value of an outcome. -/
def valueOf : Ev R → Option Val
  | .ok (v, _) _ => v
  | _ => none

set_option maxHeartbeats 4000000 in
/-- The program gives the old value, although `x` has been changed before the call. -/
example : valueOf (eval (cfg grabProg) 9 (.call (.loaded 0) "main" []) .right empty) =
    some (.array [.str "old", .str "and", .str "old"]) := by
  rfl

example (p : List Func) : GrowsExt (cfg p) := growsExt_std ..

/-- Finding: the `grab`s of an `if` are evaluated in another order than the one they are
written in: all conditions of `else if` before the blocks between them. -/
theorem C30_if_order : grabs 1 (.ite (.grab 1 (var "a" 1)) [.grab 1 (var "b" 1)]
      [(.grab 1 (var "c" 1), [.grab 1 (var "d" 1)]), (.grab 1 (var "e" 1), [.grab 1 (var "f" 1)])] none) =
    [var "a" 1, var "b" 1, var "c" 1, var "e" 1, var "d" 1, var "f" 1] := rfl

/-- Finding: `try x` makes a result that holds a reference, and `grab` does not look into
results (lib.rs:307-308: "`ok(x)` always uses deep clone, so it does not contain
references"): the closure `\\() = grab try x` holds a reference to the slot of `x`, and sees
later changes of the variable.  So `C30_snapshot_partial` needs its hypothesis `Sealed`. -/
theorem C30_try_captured_by_reference :
    ∃ st', eval (cfg []) 5 (.closure [] [] true "" (.grab 1 (.tryExpr (var "x" 1)))) .right
        { grabSt with stack := [.str "old"], locals := [("x", 0)] } = .ok (some (.closure 0), .cont) st' ∧
      (st'.closures[0]?).map Clo.body = some (.const (.resOk (.ref 0))) := ⟨_, rfl, rfl⟩

end Demo

end Dyon
