import Verif.Eval.ScopeProps

/-!
# C25–C28: `try`, `?`, short circuit, lazy invariants
-/

namespace Dyon

/-- The value a variable holds when a reference is followed once. -/
def Spec.deref (stk : Stack) : Val → Option Val
  | .ref i => stk[i]?
  | v => some v

theorem derefE_ok {v d : Val} {s : St} (h : Spec.deref s.stack v = some d) :
    derefE v s = .ok d s := by
  cases v <;> simp only [Spec.deref] at h <;>
    first
      | (injection h with h; subst h; rfl)
      | (simp only [derefE, slotE, h])

theorem EM.bind_ok {α β} {m : EM α} {f : α → EM β} {st a s} (h : m st = .ok a s) :
    (m >>= f) st = f a s := by
  show EM.bind m f st = _
  simp only [EM.bind, h]
theorem EM.bind_err {α β} {m : EM α} {f : α → EM β} {st e s} (h : m st = .err e s) :
    (m >>= f) st = .err e s := by
  show EM.bind m f st = _
  simp only [EM.bind, h]

section
variable [FloatOps] [VecMath]
variable {c : ECfg} {va ra : Nat → Nat}

/-! ## Programs that break the stack discipline -/

/-- A `for` loop whose initialiser declares a current object leaves the current object
behind, pointing to a slot that no longer exists:
`for (~ x := "a"; false; x = x) {}`. -/
theorem C23_for_leaks_current :
    eval (Demo.cfg []) 3 (.for_ (Demo.declCur "x" (Demo.str "a")) (Demo.bool false)
      (.assign .set (Demo.var "x" 1) (Demo.var "x" 1)) [] none) .right Demo.empty =
      .ok (none, .cont) { Demo.empty with currents := [("x", 0)] } := by rfl

/-- A vector whose argument gives no value takes variables of the caller from the stack. -/
theorem C23_vec4_takes_variables (v : Val) (x y z w : F64) :
    ∃ u, eval (Demo.cfg []) 3 (.vec4 [.block []]) .right
      { Demo.empty with stack := [v, .ofF64 x, .ofF64 y, .ofF64 z, .ofF64 w] } =
      .ok (some (.vec4 u), .cont) { Demo.empty with stack := [v] } := ⟨_, rfl⟩

/-! ## C25 `try` catches every run-time error and unwinds -/

/-- **C25** If the expression gives a value, `try` gives `ok` of it. -/
theorem C25_ok {n e side st x s} (h : eval c n e .right st = .ok (some x, .cont) s) :
    eval c (n + 1) (.tryExpr e) side st = .ok (some (.resOk x), .cont) s := by
  show tryExprE (eval c n) e st = _
  simp only [tryExprE, h]

/-- **C25** If the expression fails anywhere inside, `try` gives `err` with the message
and an empty trace, and all stacks are exactly as before. -/
theorem C25_err (hE : ExtFns c va ra) (hM : ModulesWF c va ra) {n e side st m s}
    (hi : ClosuresWF c va ra st) (hw : e.WF (kOf c va ra st))
    (h : eval c n e .right st = .err m s) :
    ∃ s', eval c (n + 1) (.tryExpr e) side st = .ok (some (.resErr (.str m) []), .cont) s' ∧
      Same st s' ∧ s'.stack = s.stack.take st.stack.length := by
  have hg := Good.eval hE hM n e .right st hi hw
  rw [wp, h] at hg
  refine ⟨_, ?_, hg.1.cut4, rfl⟩
  show tryExprE (eval c n) e st = _
  simp only [tryExprE, h]

/-- **C25** `return`, `break` and `continue` pass through `try`. -/
theorem C25_flow {n e side st x f s} (h : eval c n e .right st = .ok (x, f) s)
    (hf : f ≠ .cont) : eval c (n + 1) (.tryExpr e) side st = .ok (x, f) s := by
  show tryExprE (eval c n) e st = _
  simp only [tryExprE, h]
  cases x <;> cases f <;> simp_all

/-- **C25** `try e` never fails if `e` is an expression that gives a value when it goes on
normally. -/
theorem C25_never_fails (hE : ExtFns c va ra) (hM : ModulesWF c va ra) {n e side st m s}
    (hi : ClosuresWF c va ra st) (hw : e.WF (kOf c va ra st))
    (hv : Valued (kOf c va ra st) e = true) : eval c n (.tryExpr e) side st ≠ .err m s := by
  cases n with
  | zero => intro h; cases h
  | succ n =>
    have hg := Good.eval hE hM n e .right st hi hw
    show tryExprE (eval c n) e st ≠ _
    unfold tryExprE
    unfold wp at hg
    cases hx : eval c n e .right st with
    | ok r t =>
      rw [hx] at hg
      obtain ⟨x, f⟩ := r
      cases x with
      | none =>
        cases f <;> try simp
        have := hg.valued rfl rfl
        rw [hv] at this
        cases this
      | some x => cases f <;> simp
    | err e t => simp
    | panic w => simp
    | timeout => simp

/-- **C25** The only way `try` fails is an expression without a value, which has its own
message. -/
theorem C25_only_failure {n e side st m s} (h : eval c (n + 1) (.tryExpr e) side st = .err m s) :
    eval c n e .right st = .ok (none, .cont) s ∧
      m = stackTrace s.calls ++ "\n" ++ "Expected something" := by
  have h : tryExprE (eval c n) e st = .err m s := h
  unfold tryExprE at h
  cases hx : eval c n e .right st with
  | ok r t =>
    rw [hx] at h
    obtain ⟨x, f⟩ := r
    cases x <;> cases f <;> simp only [errT] at h <;> try cases h
    exact ⟨rfl, rfl⟩
  | err e t => rw [hx] at h; simp at h
  | panic w => rw [hx] at h; simp at h
  | timeout => rw [hx] at h; simp at h

/-- A failing call inside `try` inside a block with local variables, run from empty stacks:
`{ a := "A"; { b := "B"; try unwrap(err("no")) } }`. -/
example : ∃ m, eval (Demo.cfg []) 8 (.block [Demo.decl "a" (Demo.str "A"),
      .block [Demo.decl "b" (Demo.str "B"), .tryExpr (.call (.ret (lib .unwrap)) "unwrap"
        [.const (.resErr (.str "no") [])])]]) .right Demo.empty =
      .ok (some (.resErr (.str m) []), .cont) Demo.empty := ⟨_, rfl⟩

example {n s m} (h : eval (Demo.cfg Demo.prog) n (.call (.loaded 1) "f" [Demo.str "b"]) .right
    Demo.empty = .err m s) :
    ∃ s', eval (Demo.cfg Demo.prog) (n + 1) (.tryExpr (.call (.loaded 1) "f" [Demo.str "b"])) .right
      Demo.empty = .ok (some (.resErr (.str m) []), .cont) s' ∧ Same Demo.empty s' := by
  obtain ⟨s', h1, h2, -⟩ := C25_err (side := .right) (Demo.ext _) Demo.modules (Demo.closures _)
    (by simp [Expr.WF, WFs, Demo.str]) h
  exact ⟨s', h1, h2⟩

/-- Finding: `try x` of a variable holds a reference to it (`unwrap` relies on results
without references, dyon_std/mod.rs:1665-1666), so `fn f() -> { x := "a"; return unwrap(try x) }`
returns a reference to a variable that is gone. -/
theorem C25_dangling : ∃ st, eval (Demo.cfg [Demo.fn "f" [] true [Demo.decl "x" (Demo.str "a"),
      .ret (.call (.ret (lib .unwrap)) "unwrap" [.tryExpr (Demo.var "x" 1)])]]) 8
      (.call (.loaded 0) "f" []) .right Demo.empty = .ok (some (.ref 1), .cont) st ∧ st.stack = [] :=
  ⟨_, rfl, rfl⟩

/-! ## C26 The `?` operator -/

/-- What `?` unwraps a value to. -/
inductive Unwraps : Val → Val → Prop
  | ok (v) : Unwraps (.resOk v) v
  | some (v) : Unwraps (.option (some v)) v
  | bool (sec) : Unwraps (.bool true (some sec)) (.bool true (some sec))
  | num (x sec) : F64.isNaN x = false → Unwraps (.f64 x (some sec)) (.f64 x (some sec))

/-- What `?` turns into an error, with the message and the trace so far. -/
inductive Fails : Val → Val → List String → Prop
  | err (m t) : Fails (.resErr m t) m t
  | none : Fails (.option none) (.str "Expected `some(_)`, found `none()`") []
  | false (sec) : Fails (.bool false sec)
      (.str "Must be `true` to have meaning, try add or remove `!`") []
  | noReason : Fails (.bool true none)
      (.str "This does not make sense, perhaps an array is empty?") []
  | nan (x sec) : F64.isNaN x = true → Fails (.f64 x sec) (.str "Expected number, found `NaN`") []
  | noPlace (x) : F64.isNaN x = false → Fails (.f64 x Option.none)
      (.str "This does not make sense, perhaps an array is empty?") []

omit [FloatOps] [VecMath] in
theorem unwraps_iff {v w : Val} : tryMsg v = some (.inl w) ↔ Unwraps v w := by
  constructor
  · intro h
    unfold tryMsg at h
    split at h <;> try (cases h; done)
    · cases h; exact .ok _
    · cases h; exact .some _
    · cases h; exact .bool _
    · rename_i x sec
      split at h
      · cases h
      · rename_i hn
        cases sec with
        | none => cases h
        | some sec => cases h; exact .num _ _ (by simpa using hn)
  · intro h
    cases h with
    | num x sec hn => simp [tryMsg, hn]
    | _ => rfl

omit [FloatOps] [VecMath] in
theorem fails_iff {v m : Val} {t : List String} : tryMsg v = some (.inr (m, t)) ↔ Fails v m t := by
  constructor
  · intro h
    unfold tryMsg at h
    split at h <;> try (cases h; done)
    · cases h; exact .err _ _
    · cases h; exact .none
    · cases h; exact .noReason
    · cases h; exact .false _
    · rename_i x sec
      split at h
      · rename_i hn; cases h; exact .nan _ _ hn
      · rename_i hn
        cases sec with
        | none => cases h; exact .noPlace _ (by simpa using hn)
        | some sec => cases h
  · intro h
    cases h with
    | nan x sec hn => simp [tryMsg, hn]
    | noPlace x hn => simp [tryMsg, hn]
    | _ => rfl

/-- **C26** `e?` unwraps. -/
theorem C26_unwraps {n e side st x s v w} (h : eval c n e side st = .ok (some x, .cont) s)
    (hx : Spec.deref s.stack x = some v) (hv : Unwraps v w) :
    eval c (n + 1) (.try_ e) side st = .ok (some w, .cont) s := by
  show want (eval c n) e side _ _ st = _
  simp only [want, wantK, bind, EM.bind, h, derefE_ok hx, tryVal, unwraps_iff.2 hv]
  rfl

/-- **C26** In a function with a return value that has not been assigned yet, `e?` returns
the error with one entry appended to its trace, naming the function and its file. -/
theorem C26_returns_error {n e side st x s v m t call} {fname : String} {file : String}
    (h : eval c n e side st = .ok (some x, .cont) s)
    (hx : Spec.deref s.stack x = some v) (hv : Fails v m t) (hc : s.calls.getLast? = some call)
    (hname : call.fnName = fname) (hfile : call.file = some file)
    (h0 : call.stackLen ≠ 0) (hret : s.stack[call.stackLen - 1]? = some .ret) :
    eval c (n + 1) (.try_ e) side st =
      .ok (some (.resErr m (t ++ ["In function `" ++ fname ++ "` (" ++ file ++ ")"])), .ret) s := by
  subst hname
  show want (eval c n) e side _ _ st = _
  have hl : lastCall s = .ok call s := by simp only [lastCall, hc]
  have hs : slotE (call.stackLen - 1) s = .ok .ret s := by simp only [slotE, hret]
  rw [want, wantK, EM.bind_ok h]
  simp only
  rw [EM.bind_ok (derefE_ok hx), tryVal, fails_iff.2 hv]
  simp only
  rw [propagate, EM.bind_ok hl, if_neg h0, EM.bind_ok hs, hfile]
  simp only [pure, EM.pure, String.append_assoc]
  rfl

/-- **C26** In a function without a return value `e?` on a failure is an error. -/
theorem C26_requires_return {n e side st x s v m t call}
    (h : eval c n e side st = .ok (some x, .cont) s)
    (hx : Spec.deref s.stack x = some v) (hv : Fails v m t) (hc : s.calls.getLast? = some call)
    (hret : call.stackLen = 0 ∨ ∃ w, s.stack[call.stackLen - 1]? = some w ∧ w ≠ .ret) :
    ∃ msg, eval c (n + 1) (.try_ e) side st = .err msg s := by
  refine ⟨stackTrace s.calls ++ "\n" ++ ("Requires `->` on function `" ++ call.fnName ++ "`"), ?_⟩
  show want (eval c n) e side _ _ st = _
  have hl : lastCall s = .ok call s := by simp only [lastCall, hc]
  rw [want, wantK, EM.bind_ok h]
  simp only
  rw [EM.bind_ok (derefE_ok hx), tryVal, fails_iff.2 hv]
  simp only
  rw [propagate, EM.bind_ok hl]
  by_cases h0 : call.stackLen = 0
  · rw [if_pos h0]; rfl
  · rw [if_neg h0]
    obtain h1 | ⟨w, hw, hne⟩ := hret
    · exact absurd h1 h0
    · rw [EM.bind_ok (show slotE (call.stackLen - 1) s = .ok w s by simp only [slotE, hw])]
      cases w <;> first | rfl | exact absurd rfl hne

/-- **C26** On any other value `e?` is an error. -/
theorem C26_other {n e side st x s v} (h : eval c n e side st = .ok (some x, .cont) s)
    (hx : Spec.deref s.stack x = some v) (h1 : ∀ w, ¬ Unwraps v w) (h2 : ∀ m t, ¬ Fails v m t) :
    ∃ msg, eval c (n + 1) (.try_ e) side st = .err msg s := by
  refine ⟨stackTrace s.calls ++ "\n" ++ "Expected `ok(_)`, `err(_)`, `bool`, `f64`", ?_⟩
  have : tryMsg v = none := by
    cases ht : tryMsg v with
    | none => rfl
    | some r =>
      cases r with
      | inl w => exact absurd (unwraps_iff.1 ht) (h1 w)
      | inr p => exact absurd (fails_iff.1 ht) (h2 p.1 p.2)
  show want (eval c n) e side _ _ st = _
  simp only [want, wantK, bind, EM.bind, h, derefE_ok hx, tryVal, this]
  rfl

/-- Non-vacuity: `?` on a string is neither. -/
example : (∀ w, ¬ Unwraps (.str "a") w) ∧ (∀ m t, ¬ Fails (.str "a") m t) := by
  constructor
  · intro w h; cases h
  · intro m t h; cases h

/-- A function `fn f() -> { x := err("no")?; "not reached" }` called: the caller gets the
error with a trace. -/
example : eval (Demo.cfg [Demo.fn "f" [] true
      [Demo.decl "x" (.try_ (.const (.resErr (.str "no") []))), Demo.str "not reached"]]) 5
      (.call (.loaded 0) "f" []) .right Demo.empty =
      .ok (some (.resErr (.str "no") ["In function `f` (demo.dyon)"]), .cont) Demo.empty := by rfl

/-- In a function that has assigned its `return` value, `?` on a failure is an error that
asks for `->`, although the function has one:
`fn f() -> { return = "a"; x := err("no")? }`. -/
theorem C26_after_assigned_return : ∃ msg s,
    eval (Demo.cfg [Demo.fn "f" [] true
      [.assign .set (Demo.var "return" 1) (Demo.str "a"),
       Demo.decl "x" (.try_ (.const (.resErr (.str "no") [])))]]) 6
      (.call (.loaded 0) "f" []) .right Demo.empty = .err msg s ∧
    msg = "f (demo.dyon)\n" ++ "\n" ++ "Requires `->` on function `f`" := ⟨_, _, rfl, by rfl⟩

/-- `?` on a property of a variable changes the variable:
`{ x := {a: ok("v")}; y := x.a?; x }` gives `{a: "v"}`. -/
theorem C26_property_changed :
    ∃ s, eval (Demo.cfg []) 8 (.block [
      Demo.decl "x" (.object [("a", .const (.resOk (.str "v")))]),
      Demo.decl "y" (.item (.mk "x" (some 1) false false [.str "a"] [0])),
      .array [Demo.var "x" 2, .call (.ret (lib .clone)) "clone" [Demo.var "x" 2]]]) .right
      { Demo.empty with calls := [⟨"main", 0, none, 0, 0, 0⟩] } =
      .ok (some (.array [.ref 0, .object [("a", .str "v")]]), .cont) s := ⟨_, rfl⟩

/-! ## C27 Short-circuit evaluation -/

/-- `a && b` and `a || b`: calls of the external functions `and_also` and `or_else` with
the lazy invariants of lib.rs:82-88. -/
def andExpr (a b : Expr) : Expr :=
  .call (.lazy (lib .andAlso) [[.variable (.bool false none)]]) "and_also" [a, b]
/-- See `andExpr`. -/
def orExpr (a b : Expr) : Expr :=
  .call (.lazy (lib .orElse) [[.variable (.bool true none)]]) "or_else" [a, b]

/-- The boolean of a value after following a reference. -/
def boolOf (s : St) (x : Val) (b : Bool) (sec : Option (List Val)) : Prop :=
  Spec.deref s.stack x = some (.bool b sec)

omit [FloatOps] [VecMath] in
theorem lazyCheck_bool {x : Val} {s b sec b'} (h : boolOf s x b sec) :
    lazyCheck x [.variable (.bool b' none)] s = .ok (if b = b' then some x else none) s := by
  unfold lazyCheck
  rw [if_neg (by simp), EM.bind_ok (derefE_ok h)]
  cases b <;> cases b' <;> rfl

/-- **C27** `a && b` does not evaluate `b` when `a` is false. -/
theorem C27_and_false {n a b side st x s sec} (h : eval c n a .right st = .ok (some x, .cont) s)
    (hx : boolOf s x false sec) : eval c (n + 1) (andExpr a b) side st = .ok (some x, .cont) s := by
  show lazyArgs (eval c n) false noValue _ [a, b] _ st = _
  rw [lazyArgs, EM.bind_ok h]
  simp only [List.headD_cons]
  rw [EM.bind_ok (lazyCheck_bool hx)]
  rfl

/-- **C27** `a || b` does not evaluate `b` when `a` is true. -/
theorem C27_or_true {n a b side st x s sec} (h : eval c n a .right st = .ok (some x, .cont) s)
    (hx : boolOf s x true sec) : eval c (n + 1) (orExpr a b) side st = .ok (some x, .cont) s := by
  show lazyArgs (eval c n) false noValue _ [a, b] _ st = _
  rw [lazyArgs, EM.bind_ok h]
  simp only [List.headD_cons]
  rw [EM.bind_ok (lazyCheck_bool hx)]
  rfl

/-- The state in which the second operand is evaluated: the first is on the stack. -/
def pushed (s : St) (x : Val) : St := { s with stack := s.stack ++ [x] }

theorem lazy_second {n a b msg inv x s s' y st} {k : EM R}
    (h : eval c n a .right st = .ok (some x, .cont) s)
    (hl : lazyCheck x inv s = .ok none s)
    (hb : eval c n b .right (pushed s x) = .ok (some y, .cont) s') :
    lazyArgs (eval c n) false msg [inv] [a, b] k st = k (pushed s' y) := by
  rw [lazyArgs, EM.bind_ok h]
  simp only [List.headD_cons]
  rw [EM.bind_ok hl]
  simp only
  rw [EM.bind_ok (show pushE x s = .ok () (pushed s x) from rfl), lazyArgs, EM.bind_ok hb]
  rfl

omit [VecMath] in
theorem libRun_two {w fuel l f} {x y : Val} {s : St} {r : Val} {g : Val → Val → SM Val}
    (hf : LibFn.run ⟨stackTrace s.calls, w, fuel⟩ f = some <$> (do
      let b ← popV
      let a ← popV
      let a ← getV a
      let b ← getV b
      g a b)) (hi : libTable[lib f]? = some f)
    (hl : s.stack = l ++ [x]) {vx vy : Val} (hx : Spec.deref l x = some vx)
    (hy : Spec.deref l y = some vy) (hg : g vx vy l = .ok r l) :
    libRet w fuel (lib f) (pushed s y) = .ok r { s with stack := l } := by
  have hgv : ∀ {v d : Val}, Spec.deref l v = some d → getV v l = .ok d l := by
    intro v d h
    cases v <;> simp only [Spec.deref] at h <;>
      first
        | (injection h with h; subst h; rfl)
        | (simp only [getV, h])
  have hb : ∀ {α β} {m : SM α} {k : α → SM β} {st a st'}, m st = .ok a st' → (m >>= k) st = k a st' := by
    intro α β m k st a st' h
    show SM.bind m k st = _
    simp only [SM.bind, h]
  have hr : libRun w fuel (lib f) (pushed s y) = .ok (some r) l := by
    unfold libRun
    rw [hi]
    show LibFn.run ⟨stackTrace s.calls, w, fuel⟩ f (s.stack ++ [y]) = _
    rw [hf, hl]
    have : (do
      let b ← popV
      let a ← popV
      let a ← getV a
      let b ← getV b
      g a b : SM Val) (l ++ [x] ++ [y]) = .ok r l := by
      rw [hb (show popV (l ++ [x] ++ [y]) = .ok y (l ++ [x]) by simp [popV]),
        hb (show popV (l ++ [x]) = .ok x l by simp [popV]), hb (hgv hx), hb (hgv hy), hg]
    exact hb this
  unfold libRet
  rw [hr]
  rfl

/-- **C27** `a && b` with `a` true evaluates `b` and gives the conjunction, with the secret
of `a`; both operands are gone from the stack.  While `b` runs, the first operand lies on
top of the stack (`z` is that operand when `b` has finished) and is read after `b`. -/
theorem C27_and_true {w fuel n a b side st x y z s s' l sec va sa vb sb}
    (hc : c.retFn = libRet w fuel) (h : eval c n a .right st = .ok (some x, .cont) s)
    (hx : boolOf s x true sec) (hb : eval c n b .right (pushed s x) = .ok (some y, .cont) s')
    (hl : s'.stack = l ++ [z]) (hz : Spec.deref l z = some (.bool va sa))
    (hy : Spec.deref l y = some (.bool vb sb)) :
    eval c (n + 1) (andExpr a b) side st =
      .ok (some (.bool (va && vb) sa), .cont) { s' with stack := l } := by
  show lazyArgs (eval c n) false noValue _ [a, b] _ st = _
  rw [lazy_second h (by rw [lazyCheck_bool hx]; rfl) hb, hc,
    EM.bind_ok (libRun_two (f := .andAlso) (r := .bool (va && vb) sa) rfl rfl hl hz hy rfl)]
  rfl

/-- **C27** `a || b` with `a` false evaluates `b` and gives the disjunction. -/
theorem C27_or_false {w fuel n a b side st x y z s s' l sec va sa vb sb}
    (hc : c.retFn = libRet w fuel) (h : eval c n a .right st = .ok (some x, .cont) s)
    (hx : boolOf s x false sec) (hb : eval c n b .right (pushed s x) = .ok (some y, .cont) s')
    (hl : s'.stack = l ++ [z]) (hz : Spec.deref l z = some (.bool va sa))
    (hy : Spec.deref l y = some (.bool vb sb)) :
    eval c (n + 1) (orExpr a b) side st =
      .ok (some (.bool (va || vb) sa), .cont) { s' with stack := l } := by
  show lazyArgs (eval c n) false noValue _ [a, b] _ st = _
  rw [lazy_second h (by rw [lazyCheck_bool hx]; rfl) hb, hc,
    EM.bind_ok (libRun_two (f := .orElse) (r := .bool (va || vb) sa) rfl rfl hl hz hy rfl)]
  rfl

/-- **C27** If the first operand fails, the whole fails and the second is not evaluated. -/
theorem C27_first_fails {n a b side st m s} (h : eval c n a .right st = .err m s) :
    eval c (n + 1) (andExpr a b) side st = .err m s ∧
    eval c (n + 1) (orExpr a b) side st = .err m s := by
  constructor
  · show lazyArgs (eval c n) false noValue _ [a, b] _ st = _
    rw [lazyArgs, EM.bind_err h]
  · show lazyArgs (eval c n) false noValue _ [a, b] _ st = _
    rw [lazyArgs, EM.bind_err h]

/-- **C27** If the second operand is evaluated and fails, the whole fails. -/
theorem C27_second_fails {n a b side st x s sec m s'}
    (h : eval c n a .right st = .ok (some x, .cont) s)
    (hb : eval c n b .right (pushed s x) = .err m s') :
    (boolOf s x true sec → eval c (n + 1) (andExpr a b) side st = .err m s') ∧
    (boolOf s x false sec → eval c (n + 1) (orExpr a b) side st = .err m s') := by
  constructor
  all_goals
    intro hx
    show lazyArgs (eval c n) false noValue _ [a, b] _ st = _
    rw [lazyArgs, EM.bind_ok h]
    simp only [List.headD_cons]
    rw [EM.bind_ok (lazyCheck_bool hx)]
    simp only [if_false, Bool.false_eq_true, Bool.true_eq_false]
    rw [EM.bind_ok (show pushE x s = .ok () (pushed s x) from rfl), lazyArgs, EM.bind_err hb]

/-- `false && unwrap(err("no"))` is false although the second operand would fail. -/
example : eval (Demo.cfg []) 3 (andExpr (Demo.bool false)
      (.call (.ret (lib .unwrap)) "unwrap" [.const (.resErr (.str "no") [])])) .right Demo.empty =
      .ok (some (.bool false none), .cont) Demo.empty := by
  exact C27_and_false (s := Demo.empty) rfl rfl

/-- `true && (false || true)`. -/
example : eval (Demo.cfg []) 4 (andExpr (Demo.bool true)
      (orExpr (Demo.bool false) (Demo.bool true))) .right Demo.empty =
      .ok (some (.bool true none), .cont) Demo.empty :=
  C27_and_true (s := Demo.empty) (x := .bool true none) (l := []) (va := true) (vb := true) rfl rfl
    (rfl : Spec.deref _ _ = _)
    (C27_or_false (s := pushed Demo.empty (.bool true none)) (x := .bool false none)
      (y := .bool true none) (s' := pushed (pushed Demo.empty (.bool true none)) (.bool false none))
      (l := [.bool true none])
      (va := false) (vb := true) rfl rfl (rfl : Spec.deref _ _ = _) rfl rfl rfl rfl) rfl rfl rfl

/-! ## C28 Lazy invariants leave the caller's variables intact -/

/-- **C28** (partial: external functions with the invariant on the first parameter, the
only kind the library has) When a lazy invariant of the first parameter holds, the call
gives the lazy value, nothing else is evaluated and all stacks are as before. -/
theorem C28_external_first_partial (hE : ExtFns c va ra) (hM : ModulesWF c va ra)
    {n f name inv invs a as side st x s d v} (hi : ClosuresWF c va ra st)
    (hw : a.WF (kOf c va ra st)) (h : eval c n a .right st = .ok (some x, .cont) s)
    (hx : Spec.deref s.stack x = some d) (hv : lazyHit x d inv = some v) :
    eval c (n + 1) (.call (.lazy f (inv :: invs)) name (a :: as)) side st =
      .ok (some v, .cont) s ∧ Same st s := by
  refine ⟨?_, C23_value hE hM hi hw h⟩
  show lazyArgs (eval c n) false noValue _ (a :: as) _ st = _
  rw [lazyArgs, EM.bind_ok h]
  simp only [List.headD_cons]
  have : lazyCheck x inv s = .ok (some v) s := by
    unfold lazyCheck
    rw [if_neg (by intro h; simp at h; subst h; cases hv), EM.bind_ok (derefE_ok hx)]
    rw [hv]
    rfl
  rw [EM.bind_ok this]
  rfl

/-- What a lazy invariant gives. -/
theorem C28_lazy_value (x d : Val) (inv : List Lazy) (v : Val) :
    lazyHit x d inv = some v → (∃ u, Lazy.variable u ∈ inv ∧ Val.peq d u ∧ v = x) ∨
      (Lazy.unwrapOk ∈ inv ∧ d = .resOk v) ∨ (Lazy.unwrapErr ∈ inv ∧ ∃ t, d = .resErr v t) ∨
      (Lazy.unwrapSome ∈ inv ∧ d = .option (some v)) := by
  induction inv with
  | nil => intro h; cases h
  | cons l ls ih =>
    intro h
    have weaken : ∀ h : lazyHit x d ls = some v, (∃ u, Lazy.variable u ∈ l :: ls ∧ Val.peq d u ∧ v = x) ∨
        (Lazy.unwrapOk ∈ l :: ls ∧ d = .resOk v) ∨ (Lazy.unwrapErr ∈ l :: ls ∧ ∃ t, d = .resErr v t) ∨
        (Lazy.unwrapSome ∈ l :: ls ∧ d = .option (some v)) := fun h =>
      (ih h).imp (fun ⟨u, h1, h2⟩ => ⟨u, List.mem_cons_of_mem l h1, h2⟩)
      (Or.imp (fun h => ⟨List.mem_cons_of_mem l h.1, h.2⟩)
        (Or.imp (fun h => ⟨List.mem_cons_of_mem l h.1, h.2⟩)
          (fun h => ⟨List.mem_cons_of_mem l h.1, h.2⟩)))
    cases l with
    | «variable» u =>
      simp only [lazyHit] at h
      split at h
      · rename_i hp; cases h; exact .inl ⟨u, by simp, hp, rfl⟩
      · exact weaken h
    | unwrapOk =>
      simp only [lazyHit] at h
      split at h
      · cases h; exact .inr (.inl ⟨by simp, rfl⟩)
      · exact weaken h
    | unwrapErr =>
      simp only [lazyHit] at h
      split at h
      · cases h; exact .inr (.inr (.inl ⟨by simp, _, rfl⟩))
      · exact weaken h
    | unwrapSome =>
      simp only [lazyHit] at h
      split at h
      · cases h; exact .inr (.inr (.inr ⟨by simp, rfl⟩))
      · exact weaken h

/-- A function with a lazy invariant: `fn f(a: => "x") -> { return "body" }`. -/
def lazyFn : Func := ⟨"f", "demo.dyon", ["a"], [[.variable (.str "x")]], [], true, [.ret (Demo.str "body")]⟩

/-- The claim is false for functions written in Dyon: when the invariant holds, the slot
reserved for the return value stays on the stack. -/
theorem C28_loaded_leaves_slot :
    eval (Demo.cfg [lazyFn]) 3 (.call (.loaded 0) "f" [Demo.str "x"]) .right Demo.empty =
      .ok (some (.str "x"), .cont) { Demo.empty with stack := [.ret] } := by rfl

/-- The slot left behind shifts the variables of the caller:
`{ a := "A"; b := f("x"); [clone(a)] }` fails, `a` is read as the empty return slot,
while by name it would be found. -/
theorem C28_loaded_shifts_variables :
    ∃ s, eval (Demo.cfg [lazyFn]) 8 (.block [Demo.decl "a" (Demo.str "A"),
      Demo.decl "b" (.call (.loaded 0) "f" [Demo.str "x"]),
      .call (.ret (lib .clone)) "clone" [Demo.var "a" 2]]) .right
      { Demo.empty with calls := [⟨"main", 0, none, 0, 0, 0⟩] } = .ok (some .ret, .cont) s :=
  ⟨_, rfl⟩

/-- With the invariant on the second parameter of an external function the first argument
stays on the stack. -/
theorem C28_external_second :
    eval (Demo.cfg []) 3 (.call (.lazy (lib .andAlso) [[], [.variable (.bool false none)]]) "f"
      [Demo.bool true, Demo.bool false]) .right Demo.empty =
      .ok (some (.bool false none), .cont) { Demo.empty with stack := [.bool true none] } := by rfl

end
end Dyon
