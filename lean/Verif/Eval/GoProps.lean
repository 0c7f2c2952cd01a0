import Verif.Eval.CallProps
import Verif.Builtin.CloneProps

/-!
# C44: `go` gives the new thread its own copies of the arguments, in order
-/

namespace Dyon

section
variable [FloatOps] [VecMath]

/-! ## Specification -/

/-- The arguments of `go` are evaluated from left to right; `vs` are the deep clones of
their values, taken as soon as each value is known. -/
inductive GoArgsTo (c : ECfg) (n : Nat) : List Expr → List Val → St → St → Prop
  | nil {s} : GoArgsTo c n [] [] s s
  | cons {a as x v vs s t u} : eval c n a .right s = .ok (some x, .cont) t →
      deepClone t.stack n x = .ok v → GoArgsTo c n as vs t u → GoArgsTo c n (a :: as) (v :: vs) s u

/-- The same with a property of the state and the value before each clone is taken. -/
inductive GoSealed (c : ECfg) (n : Nat) : List Expr → St → Prop
  | nil {s} : GoSealed c n [] s
  | cons {a as x s t} : eval c n a .right s = .ok (some x, .cont) t → (∀ y ∈ t.stack, Sealed y) →
      Sealed x → GoSealed c n as t → GoSealed c n (a :: as) s

/-! ## Lemmas -/

theorem goArgs_run {c n args vs s u acc} {k : List Val → EM R} (h : GoArgsTo c n args vs s u) :
    goArgs n (eval c n) args acc k s = k (acc ++ vs) u := by
  induction h generalizing acc with
  | nil => simp [goArgs]
  | @cons a as x v vs s t u hv hc _ ih =>
    rw [goArgs, want, wantK, EM.bind_ok hv]
    simp only
    rw [EM.bind_ok (show cloneE n x t = .ok v t by simp only [cloneE, hc]), ih]
    simp

theorem GoArgsTo.length {c n args vs s u} (h : GoArgsTo c n args vs s u) : args.length = vs.length := by
  induction h with
  | nil => rfl
  | cons _ _ _ ih => simp [ih]

theorem argsTo_consts {c n} {vs : List Val} {s : St} :
    ArgsTo c (n + 1) (vs.map Expr.const) vs s { s with stack := s.stack ++ vs } := by
  induction vs generalizing s with
  | nil => simpa using ArgsTo.nil
  | cons v vs ih =>
    refine .cons (t := s) rfl ?_
    simpa using ih (s := { s with stack := s.stack ++ [v] })

theorem argsTo_unique {c n args vs ws s u u'} (h : ArgsTo c n args vs s u) (h' : ArgsTo c n args ws s u') :
    vs = ws ∧ u = u' := by
  induction h generalizing ws u' with
  | nil => cases h'; exact ⟨rfl, rfl⟩
  | cons hv _ ih =>
    cases h' with
    | cons hv' h' =>
      rw [hv] at hv'
      cases hv'
      obtain ⟨rfl, rfl⟩ := ih h'
      exact ⟨rfl, rfl⟩

omit [FloatOps] [VecMath] in
theorem goRefs_eq (n : Nat) : goRefs n = ((List.range n).map fun i => Val.ref (n - i - 1)).map Expr.const := by
  simp [goRefs]

/-! ## Properties -/

/-- **C44.** `go f(..)` evaluates the arguments in order and starts a thread that has deep
clones of their values, and nothing else, on its stack.  The expression is the handle of the
new thread; of the state of the caller nothing else changes. -/
theorem C44_start {c : ECfg} {n : Nat} {name : String} {args : List Expr} {vs : List Val} {s u : St}
    {call last : CallRec} (side : Side) (hc : s.calls.getLast? = some call)
    (h : GoArgsTo c n args vs s u) (hl : u.calls.getLast? = some last) :
    ∃ j : Job, eval c (n + 1) (.go name args) side s =
        .ok (some (.thread (some u.jobs.length)), .cont) { u with jobs := u.jobs ++ [j] } ∧
      j.name = name ∧ j.f = findFunction c s.module name call.index ∧ j.module = u.module ∧
      j.stack = vs.reverse ∧ j.call.index = last.index ∧
      ∀ w, (jobState w j).stack = vs.reverse ∧ (jobState w j).locals = [] ∧
        (jobState w j).currents = [] ∧ (jobState w j).calls.length = 1 := by
  refine ⟨⟨u.module, vs.reverse, { last with stackLen := 0, localLen := 0, currentLen := 0 },
    findFunction c s.module name call.index, name, goRefs args.length⟩, ?_, rfl, rfl, rfl, rfl, rfl,
    fun w => ⟨rfl, rfl, rfl, rfl⟩⟩
  show goE c n (eval c n) name args s = _
  rw [goE, EM.bind_ok (show lastCall s = .ok call s by simp [lastCall, hc]),
    EM.bind_ok (show EM.get s = .ok s s from rfl)]
  refine (goArgs_run h).trans ?_
  refine (EM.bind_ok (show lastCall u = .ok last u by simp [lastCall, hl])).trans ?_
  refine (EM.bind_ok (show EM.get u = .ok u u from rfl)).trans ?_
  rfl

/-- **C44.** The new thread has no reference to variables of the caller. -/
theorem C44_no_references {c : ECfg} {n : Nat} {args : List Expr} {vs : List Val} {s u : St}
    (h : GoArgsTo c n args vs s u) (hs : GoSealed c n args s) : ∀ v ∈ vs, RefFree v := by
  induction h with
  | nil => intro v hv; cases hv
  | @cons a as x v vs s t u hv hc _ ih =>
    cases hs with
    | cons hv' h1 h2 h3 =>
      rw [hv] at hv'
      cases hv'
      intro w hw
      rcases List.mem_cons.1 hw with rfl | hw
      · exact C14_self_contained _ _ _ _ h1 h2 hc
      · exact ih h3 w hw

/-- **C44.** In the new thread the `i`-th parameter denotes the clone of the `i`-th
argument. -/
theorem C44_param {c : ECfg} {n : Nat} {f : Int} {name : String} {vs : List Val} {j : Job} {w0 : St}
    {idx : Nat} {fn : Func} {xs : List Val} {refs : List Nat} {u w b : St} (side : Side)
    (hstack : j.stack = vs.reverse) (hargs : j.args = goRefs vs.length)
    (h : CallRun c (n + 1) f name j.args (jobState w0 j) idx fn xs refs u w b)
    (hlen : fn.args.length = vs.length)
    {i : Nat} {a : String} (ha : fn.args[i]? = some a) (huniq : ∀ k, i < k → fn.args[k]? ≠ some a)
    {k} (sid : Option Nat) (hsid : c.byName = true ∨ sid = some (fn.args.length - i + refs.length)) :
    ∃ slot, eval c (k + 1) (plainVar a sid) side b = .ok (some (.ref slot), .cont) b ∧
      b.stack[slot]? = vs[i]? := by
  have hi : i < fn.args.length := (List.getElem?_eq_some_iff.1 ha).1
  have hA := h.args
  rw [hargs, goRefs_eq] at hA
  obtain ⟨hx, hu⟩ := argsTo_unique hA argsTo_consts
  have hus : u.stack = (withReturn fn.returns (jobState w0 j)).stack ++
      (List.range vs.length).map fun i => Val.ref (vs.length - i - 1) := by rw [hu]
  have hul : u.locals = (jobState w0 j).locals := by
    rw [hu]; cases hr : fn.returns <;> rfl
  have hv : u.stack[(withReturn fn.returns (jobState w0 j)).stack.length + i]? =
      some (.ref (vs.length - i - 1)) := by
    rw [hus, List.getElem?_append_right (by omega), List.getElem?_map,
      Nat.add_sub_cancel_left, List.getElem?_range (by omega)]
    rfl
  obtain ⟨h1, -⟩ := C29_param side h hul (by rw [hus]; simp [hlen]) ha huniq hv (k := k) sid hsid
  refine ⟨vs.length - i - 1, h1, ?_⟩
  have hbase : (withReturn fn.returns (jobState w0 j)).stack = vs.reverse ++ (if fn.returns then [.ret] else []) := by
    cases hr : fn.returns <;> simp [withReturn, jobState, hstack]
  rw [h.body.1, hus, hbase, List.append_assoc, List.append_assoc,
    List.getElem?_append_left (by simp; omega), List.getElem?_reverse (by omega)]
  congr 1
  omega

/-- **C44.** The value of the function, deeply cloned, is what the thread gives to `join`;
its error is the error of the thread. -/
theorem C44_result {c : ECfg} {n : Nat} {j : Job} {s t : St} :
    (∀ x fl v, callE c n (eval c n) false j.f j.name j.args s = .ok (some x, fl) t →
      deepClone t.stack n x = .ok v → runJob c n j s = .ok v t) ∧
    (∀ m, callE c n (eval c n) false j.f j.name j.args s = .err m t → runJob c n j s = .err m t) := by
  constructor
  · intro x fl v h hc
    rw [runJob, EM.bind_ok h]
    simp only [cloneE, hc]
  · intro m h
    rw [runJob, EM.bind_err h]

/-- `go g(.., ..)` of the caller state `Demo.inside`. -/
def Demo.goJob (name : String) (args : List Val) : Job :=
  ⟨0, args.reverse, ⟨"main", 0, none, 0, 0, 0⟩, findFunction (Demo.cfg
    [Demo.fn "main" [] false [], Demo.fn "g" ["a"] false [], Demo.fn "h" [] false [],
     Demo.fn "k" ["a", "b"] true [.ret (Demo.var "b" 1)]]) 0 name 0, name, goRefs args.length⟩

/-- Finding: a thread whose function has no value gives its first argument to `join`. -/
theorem C44_void_gives_argument :
    ∃ t, runJob (Demo.cfg [Demo.fn "main" [] false [], Demo.fn "g" ["a"] false [], Demo.fn "h" [] false [],
        Demo.fn "k" ["a", "b"] true [.ret (Demo.var "b" 1)]]) 9 (Demo.goJob "g" [.str "x"])
      (jobState Demo.inside (Demo.goJob "g" [.str "x"])) = .ok (.str "x") t := ⟨_, rfl⟩

/-- Finding: without arguments it crashes. -/
theorem C44_void_crashes :
    runJob (Demo.cfg [Demo.fn "main" [] false [], Demo.fn "g" ["a"] false [], Demo.fn "h" [] false [],
        Demo.fn "k" ["a", "b"] true [.ret (Demo.var "b" 1)]]) 9 (Demo.goJob "h" [])
      (jobState Demo.inside (Demo.goJob "h" [])) = .panic "There is no value on the stack" := rfl

/-- `go k(x, "b")`: the first argument is a variable of the caller. -/
example : ∃ u, GoArgsTo (Demo.cfg []) 9 [Demo.var "x" 1, Demo.str "b"] [.str "x", .str "b"] Demo.inside u ∧
    GoSealed (Demo.cfg []) 9 [Demo.var "x" 1, Demo.str "b"] Demo.inside ∧
    u.calls.getLast? = some ⟨"main", 0, none, 0, 0, 0⟩ :=
  ⟨_, .cons rfl rfl (.cons rfl rfl .nil),
    .cons rfl (by simp [Demo.inside]; exact .free .str) .ref
      (.cons rfl (by simp [Demo.inside]; exact .free .str) (.free .str) .nil), rfl⟩

/-- The new thread of `go k("x", "b")` reaches the body of `k`, and gives its second
argument. -/
example : ∃ u w b, CallRun (Demo.cfg [Demo.fn "main" [] false [], Demo.fn "g" ["a"] false [],
        Demo.fn "h" [] false [], Demo.fn "k" ["a", "b"] true [.ret (Demo.var "b" 1)]]) 9 3 "k"
      (Demo.goJob "k" [.str "x", .str "b"]).args
      (jobState Demo.inside (Demo.goJob "k" [.str "x", .str "b"])) 3
      (Demo.fn "k" ["a", "b"] true [.ret (Demo.var "b" 1)]) [.ref 1, .ref 0] [] u w b ∧
    ∃ t, runJob (Demo.cfg [Demo.fn "main" [] false [], Demo.fn "g" ["a"] false [],
        Demo.fn "h" [] false [], Demo.fn "k" ["a", "b"] true [.ret (Demo.var "b" 1)]]) 9
      (Demo.goJob "k" [.str "x", .str "b"])
      (jobState Demo.inside (Demo.goJob "k" [.str "x", .str "b"])) = .ok (.str "b") t :=
  ⟨_, _, _, ⟨rfl, rfl, fun _ h => absurd h (by simp [Demo.fn]), .cons rfl (.cons rfl .nil), .nil, rfl, rfl⟩,
    _, rfl⟩

end
end Dyon
