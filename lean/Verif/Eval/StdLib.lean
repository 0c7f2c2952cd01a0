import Verif.Eval.FrameAll
import Verif.Builtin.StackProps

/-!
# The modelled library functions as external functions of the evaluator

The library functions of `Verif.Builtin.Stack` take exactly their arguments from the
stack, so they meet the contract `ExtFns` the theorems about the evaluator ask for.
-/

namespace Dyon

/-- Takes exactly `n` values from a stack that has them; an error leaves what is below. -/
def Pops {α} (n : Nat) (m : SM α) : Prop := ∀ st : Stack, n ≤ st.length → match m st with
  | .ok _ st' => st'.length + n = st.length
  | .err _ st' => st.length ≤ st'.length + n
  | _ => True

theorem Pops.bind {α β} {a b : Nat} {m : SM α} {f : α → SM β} (hm : Pops a m)
    (hf : ∀ x, Pops b (f x)) : Pops (b + a) (m >>= f) := by
  intro st hn
  have h1 := hm st (by omega)
  rw [SM.bind_apply]
  cases hms : m st with
  | ok x st' =>
    rw [hms] at h1
    simp only at h1
    have h2 := hf x st' (by omega)
    simp only
    cases hfs : f x st' with
    | ok y st'' => rw [hfs] at h2; simp only at h2 ⊢; omega
    | err y st'' => rw [hfs] at h2; simp only at h2 ⊢; omega
    | panic => trivial
    | running => trivial
  | err e st' => rw [hms] at h1; simp only at h1 ⊢; omega
  | panic => trivial
  | running => trivial

theorem Pops.bind0 {α β} {n : Nat} {m : SM α} {f : α → SM β} (hm : Pops 0 m)
    (hf : ∀ x, Pops n (f x)) : Pops n (m >>= f) := Pops.bind hm hf
theorem Pops.bind1 {α β} {n : Nat} {m : SM α} {f : α → SM β} (hm : Pops 1 m)
    (hf : ∀ x, Pops n (f x)) : Pops (n + 1) (m >>= f) := Pops.bind hm hf

theorem Pops.map {α β} {n : Nat} {m : SM α} (f : α → β) (hm : Pops n m) : Pops n (f <$> m) := by
  intro st hn
  have h := hm st hn
  have e : (f <$> m) st = match m st with
    | .ok a st' => .ok (f a) st' | .err e st' => .err e st' | .panic => .panic
    | .running => .running := rfl
  rw [e]
  cases hms : m st <;> rw [hms] at h <;> exact h

theorem pops_pure {α} (a : α) : Pops 0 (pure a : SM α) := fun st _ => rfl
theorem pops_fail {α} (n : Nat) (m : String) : Pops n (SM.fail m : SM α) := fun st _ => by
  simp [SM.fail]
theorem pops_panic {α} (n : Nat) : Pops n (SM.panic : SM α) := fun _ _ => trivial
theorem pops_popV : Pops 1 popV := by
  intro st hn
  simp only [popV]
  cases h : st.getLast? with
  | none => trivial
  | some v => simp; omega
theorem pops_getV (v : Val) : Pops 0 (getV v) := by
  intro st hn
  cases v <;> simp only [getV, Nat.add_zero]
  next i => cases st[i]? <;> first | rfl | trivial
theorem pops_cloneV (c : Cfg) (v : Val) : Pops 0 (cloneV c v) := by
  intro st hn
  simp only [cloneV]
  cases deepClone st c.fuel v <;> first | rfl | trivial
theorem pops_withArray {α} (v : Val) (f : List Val → Except String (List Val × α)) :
    Pops 0 (Lib.withArray v f) := by
  intro st hn
  cases v <;> simp only [Lib.withArray, Nat.add_zero] <;> try exact Nat.le_refl _
  next i =>
  cases h : st[i]? with
  | none => trivial
  | some u =>
    cases u <;> try exact Nat.le_refl _
    next xs =>
    simp only
    cases hf : f xs with
    | error e => exact Nat.le_refl _
    | ok p => simp
theorem pops_swapIn (v : Val) (i j : F64) : Pops 0 (Lib.swapIn v i j) := by
  intro st hn
  cases v <;> simp only [Lib.swapIn, Nat.add_zero] <;> try exact Nat.le_refl _
  next k =>
  cases h : st[k]? with
  | none => trivial
  | some u =>
    cases u <;> try exact Nat.le_refl _
    next xs =>
    simp only
    cases xs[i.toUsize]? <;> cases xs[j.toUsize]? <;> try trivial
    simp
theorem pops_minOf (xs : List Val) : Pops 0 (Lib.minOf xs) := by
  intro st hn
  simp only [Lib.minOf]
  cases Lib.minLoop st F64.nan xs <;> first | rfl | trivial
theorem pops_maxOf (xs : List Val) : Pops 0 (Lib.maxOf xs) := by
  intro st hn
  simp only [Lib.maxOf]
  cases Lib.maxLoop st F64.nan xs <;> first | rfl | trivial
theorem pops_unwrapFail (c : Cfg) (m : Val) (t : List String) : Pops 0 (Lib.unwrapFail c m t) :=
  fun st _ => Nat.le_refl _
theorem pops_number (c : Cfg) (v : Val) : Pops 0 (Lib.number c v) := by
  refine .bind0 (pops_getV v) fun w => ?_
  cases w <;> first | exact pops_pure _ | exact pops_fail _ _
theorem pops_popVec4 (c : Cfg) : Pops 1 (Lib.popVec4 c) := by
  refine .bind1 pops_popV fun v => .bind0 (pops_getV v) fun w => ?_
  cases w <;> first | exact pops_pure _ | exact pops_fail _ _
theorem pops_popMat4 (c : Cfg) : Pops 1 (Lib.popMat4 c) := by
  refine .bind1 pops_popV fun v => .bind0 (pops_getV v) fun w => ?_
  cases w <;> first | exact pops_pure _ | exact pops_fail _ _
theorem pops_popLink (c : Cfg) : Pops 1 (Lib.popLink c) := by
  refine .bind1 pops_popV fun v => .bind0 (pops_getV v) fun w => ?_
  cases w <;> first | exact pops_pure _ | exact pops_fail _ _
theorem pops_popF64! : Pops 1 Lib.popF64! := by
  refine .bind1 pops_popV fun v => .bind0 (pops_getV v) fun w => ?_
  cases w <;> first | exact pops_pure _ | exact pops_panic _
theorem pops_popVec4! : Pops 1 Lib.popVec4! := by
  refine .bind1 pops_popV fun v => .bind0 (pops_getV v) fun w => ?_
  cases w <;> first | exact pops_pure _ | exact pops_panic _
theorem pops_popMat4! : Pops 1 Lib.popMat4! := by
  refine .bind1 pops_popV fun v => .bind0 (pops_getV v) fun w => ?_
  cases w <;> first | exact pops_pure _ | exact pops_panic _

/-- Number of arguments (`module.add(.. Dfn { tys: vec![..] })`, module.rs:60-790). -/
def LibFn.arity : LibFn → Nat
  | .none' => 0
  | .explainWhy | .explainWhere | .pushRef | .push | .remove | .unwrapOr | .s | .rv | .cv
  | .andAlso | .orElse => 2
  | .insertRef | .insert | .swap => 3
  | .vec4Lit | .mat4Lit => 4
  | _ => 1

/-- One step. -/
macro "pops_step" : tactic => `(tactic| first
  | exact pops_pure _ | exact pops_fail _ _ | exact pops_panic _
  | exact pops_popV | exact pops_getV _ | exact pops_cloneV _ _ | exact pops_number _ _
  | exact pops_withArray _ _ | exact pops_swapIn _ _ _ | exact pops_minOf _
  | exact pops_maxOf _ | exact pops_unwrapFail _ _ _
  | exact pops_popVec4 _ | exact pops_popMat4 _ | exact pops_popLink _
  | exact pops_popF64! | exact pops_popVec4! | exact pops_popMat4!
  | refine Pops.bind1 pops_popV (fun _ => ?_)
  | refine Pops.bind1 (pops_popVec4 _) (fun _ => ?_)
  | refine Pops.bind1 (pops_popMat4 _) (fun _ => ?_)
  | refine Pops.bind1 (pops_popLink _) (fun _ => ?_)
  | refine Pops.bind1 pops_popF64! (fun _ => ?_)
  | refine Pops.bind1 pops_popVec4! (fun _ => ?_)
  | refine Pops.bind1 pops_popMat4! (fun _ => ?_)
  | refine Pops.bind0 ?_ (fun _ => ?_)
  | split)

theorem libFn_pops [FloatOps] (c : Cfg) (f : LibFn) : Pops f.arity (f.run c) := by
  cases f <;> refine Pops.map _ ?_ <;>
    simp only [LibFn.arity, Lib.clone, Lib.why, Lib.where', Lib.explainWhy, Lib.explainWhere,
      Lib.pushRef, Lib.insertRef, Lib.push, Lib.insert, Lib.pop, Lib.remove, Lib.reverse, Lib.clear,
      Lib.swap, Lib.some', Lib.ok', Lib.err', Lib.none', Lib.isErr, Lib.isOk, Lib.min, Lib.max,
      Lib.unwrap, Lib.unwrapOr, Lib.unwrapErr, Lib.head, Lib.tip, Lib.tail, Lib.neck, Lib.isEmpty,
      Lib.x, Lib.y, Lib.z, Lib.w, Lib.s, Lib.rx, Lib.ry, Lib.rz, Lib.rw, Lib.rv, Lib.cx, Lib.cy,
      Lib.cz, Lib.cw, Lib.cv, Lib.vec4Lit, Lib.mat4Lit, Lib.andAlso, Lib.orElse] <;>
    repeat pops_step

/-- The modelled library functions in a table; the numbers in `FnIndex` are positions. -/
def libTable : List LibFn :=
  [.clone, .why, .where', .explainWhy, .explainWhere, .pushRef, .insertRef, .push, .insert, .pop,
   .remove, .reverse, .clear, .swap, .some', .ok', .err', .none', .isErr, .isOk, .min, .max,
   .unwrap, .unwrapOr, .unwrapErr, .head, .tip, .tail, .neck, .isEmpty, .x, .y, .z, .w, .s,
   .rx, .ry, .rz, .rw, .rv, .cx, .cy, .cz, .cw, .cv, .vec4Lit, .mat4Lit, .andAlso, .orElse]

/-- Number of arguments of a function of the table. -/
def libArity (f : Nat) : Nat := (libTable[f]?.map LibFn.arity).getD 0

section
variable [FloatOps] (write : Stack → Val → String) (fuel : Nat)

/-- A function of the table in a state. -/
def libRun (f : Nat) (st : St) : Out (Option Val) :=
  match libTable[f]? with
  | some g => g.run ⟨stackTrace st.calls, write, fuel⟩ st.stack
  | none => .panic

/-- `(f.0)(self)` in `call_return`, runtime/mod.rs:1263-1296. -/
def libRet (f : Nat) : EM Val := fun st =>
  match libRun write fuel f st with
  | .ok (some v) s => .ok v { st with stack := s }
  | .ok none _ => .panic "not a function with a result"
  | .err e s => .err e { st with stack := s }
  | .panic => .panic "library function"
  | .running => .timeout

/-- `(f.0)(self)` in `call_void`, runtime/mod.rs:1230-1261. -/
def libVoid (f : Nat) : EM Unit := fun st =>
  match libRun write fuel f st with
  | .ok _ s => .ok () { st with stack := s }
  | .err e s => .err e { st with stack := s }
  | .panic => .panic "library function"
  | .running => .timeout

theorem libRun_pops (f : Nat) (st : St) (h : libArity f ≤ st.stack.length) :
    match libRun write fuel f st with
    | .ok _ s => s.length + libArity f = st.stack.length
    | .err _ s => st.stack.length ≤ s.length + libArity f
    | _ => True := by
  unfold libRun
  unfold libArity at *
  cases hf : libTable[f]? with
  | none => trivial
  | some g =>
    rw [hf] at h
    have hp := libFn_pops ⟨stackTrace st.calls, write, fuel⟩ g st.stack h
    simp only [Option.map_some, Option.getD_some]
    cases hx : g.run ⟨stackTrace st.calls, write, fuel⟩ st.stack <;> simp only [hx] at hp ⊢ <;>
      exact hp

/-- The modelled library functions meet the contract of external functions. -/
theorem libExtFns (c : ECfg) (hv : c.voidFn = libVoid write fuel)
    (hr : c.retFn = libRet write fuel) : ExtFns c libArity libArity := by
  constructor
  · intro f st hn hi
    have h := libRun_pops write fuel f st hn
    rw [hv]
    unfold libVoid
    cases hx : libRun write fuel f st with
    | ok r s => rw [hx] at h; exact ⟨⟨rfl, rfl, rfl, rfl, by simp at h ⊢; omega⟩, hi⟩
    | err e s =>
      rw [hx] at h
      exact ⟨⟨rfl, List.prefix_rfl, List.prefix_rfl, List.prefix_rfl, by simp at h ⊢; omega⟩, hi⟩
    | panic => trivial
    | running => trivial
  · intro f st hn hi
    have h := libRun_pops write fuel f st hn
    rw [hr]
    unfold libRet
    cases hx : libRun write fuel f st with
    | ok r s =>
      rw [hx] at h
      cases r with
      | none => trivial
      | some v => exact ⟨⟨rfl, rfl, rfl, rfl, by simp at h ⊢; omega⟩, hi⟩
    | err e s =>
      rw [hx] at h
      exact ⟨⟨rfl, List.prefix_rfl, List.prefix_rfl, List.prefix_rfl, by simp at h ⊢; omega⟩, hi⟩
    | panic => trivial
    | running => trivial

end

section
variable [FloatOps] [VecMath]

/-- The binary operators, `dyon_std/mod.rs`. -/
def binopTable : List (Val → Val → OpRes) :=
  [Op.less, Op.lessOrEqual, Op.greater, Op.greaterOrEqual, Op.equal, Op.notEqual, Op.add, Op.sub,
   Op.mul, Op.div, Op.rem, Op.pow, Op.dot]

/-- The unary operators. -/
def unopTable : List (Val → OpRes) := [Op.not, Op.neg, Op.norm, Op.len]

/-- A program over the modelled library, with no other threads. -/
def stdCfg (write : Stack → Val → String) (fuel : Nat) (modules : Nat → List Func) : ECfg where
  modules := modules
  extNames := fun _ => []
  voidFn := libVoid write fuel
  retFn := libRet write fuel
  binopFn f a b := match binopTable[f]? with
    | some g => g a b
    | none => .error "no such operator"
  unopFn f a := match unopTable[f]? with
    | some g => g a
    | none => .error "no such operator"
  showF64 := fun _ => "number"
  arrive := fun _ _ => []
  closed := fun _ _ => false
  byName := false

/-- Position of a function in the table. -/
def lib (f : LibFn) : Nat := libTable.idxOf f

end

end Dyon
