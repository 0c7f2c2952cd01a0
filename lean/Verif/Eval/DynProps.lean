import Verif.Eval.DynCall
import Verif.Eval.ScopeProps
import Verif.Eval.ResolveProps
import Verif.Lifetime.Props

/-!
# C71: calls of functions of loaded modules

`call(module, name, args)` and `call_ret(module, name, args)`.
-/

namespace Dyon

/-! ## Specification -/

namespace Spec

/-- What a value on the stack stands for. -/
def shown (stack : Stack) : Val → Option Val
  | .ref i => stack[i]?
  | v => some v

/-- `i` is the last function of module `m` with a name. -/
structure LastNamed (c : ECfg) (m : Nat) (name : String) (i : Nat) (fn : Func) : Prop where
  at_ : (c.modules m)[i]? = some fn
  named : fn.name = name
  last : ∀ j fn', i < j → (c.modules m)[j]? = some fn' → fn'.name ≠ name

/-- The value `o` holds a module with a function of that name, which has as many parameters as
there are arguments, and the arguments live long enough for its annotations. -/
structure Callable (L : Loader) (c : ECfg) (o : Nat) (name : String) (args : List Val) (m i : Nat)
    (fn : Func) : Prop where
  module : L.object o = some m
  named : LastNamed c m name i fn
  arity : fn.args.length = args.length
  lives : ∀ j a lt, (L.params m i)[j]? = some a → a.lifetime = some lt →
    Lt.ArgOk (L.params m i) args j lt

/-- The state in which the three arguments of `call` are taken from the stack: the value of a
module, a name and an array. -/
structure Asked (c : ECfg) (st : St) (base : Stack) (o : Nat) (name : String) (args : List Val) :
    Prop where
  running : ∃ k fn, st.calls.getLast? = some k ∧ (c.modules st.module)[k.index]? = some fn
  stack : ∃ vm vn va, st.stack = base ++ [vm, vn, va] ∧ shown base vm = some (.rustObject o) ∧
    shown base vn = some (.str name) ∧ shown base va = some (.array args)

/-- Back in the module and the call that made the call. -/
def backIn (st s : St) : St := { s with module := st.module, calls := s.calls.take st.calls.length }

/-- The answer of `call`, from what the called function did. -/
def answer (st : St) : Ev R → Ev Unit
  | .ok _ s => .ok () (backIn st s)
  | .err e s => .err e (backIn st s)
  | .panic w => .panic w
  | .timeout => .timeout

/-- The answer of `call_ret`, from what the called function did. -/
def answerRet (st : St) (name : String) : Ev R → Ev Val
  | .ok (some v, _) s => .ok v (backIn st s)
  | .ok (none, _) s => .err ("Expected some return value `" ++ name ++ "`") (backIn st s)
  | .err e s => .err e (backIn st s)
  | .panic w => .panic w
  | .timeout => .timeout

end Spec

open Spec

/-! ## Lemmas -/

theorem lastIdx_last {α} {p : α → Bool} {xs : List α} {i : Nat} {x : α} (h : xs[i]? = some x)
    (hp : p x = true) (hl : ∀ j y, i < j → xs[j]? = some y → p y = false) :
    lastIdx p xs = some i := by
  induction xs generalizing i with
  | nil => cases h
  | cons y xs ih =>
    rw [lastIdx]
    cases i with
    | zero =>
      cases h
      have hn : lastIdx p xs = none := by
        cases hx : lastIdx p xs with
        | none => rfl
        | some j =>
          obtain ⟨z, hz, hpz⟩ := lastIdx_spec hx
          rw [hl (j + 1) z (by omega) (by simpa using hz)] at hpz
          cases hpz
      rw [hn]
      simp [hp]
    | succ i =>
      have := ih (i := i) (by simpa using h) fun j z hj hz => hl (j + 1) z (by omega) (by simpa using hz)
      rw [this]

theorem lastIdx_after {α} {p : α → Bool} {xs : List α} {i : Nat} (h : lastIdx p xs = some i) :
    ∀ j y, i < j → xs[j]? = some y → p y = false := by
  induction xs generalizing i with
  | nil => cases h
  | cons x xs ih =>
    rw [lastIdx] at h
    intro j y hj hy
    obtain ⟨j, rfl⟩ : ∃ k, j = k + 1 := ⟨j - 1, by omega⟩
    have hy : xs[j]? = some y := by simpa using hy
    cases hl : lastIdx p xs with
    | some k => rw [hl] at h; cases h; exact ih hl j y (by omega) hy
    | none =>
      cases hp : p y with
      | false => rfl
      | true =>
        obtain ⟨k, hk⟩ := lastIdx_isSome (List.mem_of_getElem? hy) hp
        rw [hl] at hk; cases hk

theorem findFunction_last {c : ECfg} {m name i fn} (h : LastNamed c m name i fn) :
    findFunction c m name 0 = .loaded i := by
  unfold findFunction
  rw [lastIdx_last (p := fun f : Func => decide (f.name = name)) h.at_ (by simp [h.named])
    fun j y hj hy => by simpa using h.last j y hj hy]
  simp

theorem runCheckLoop_crash {fargs : List Lt.Arg} {args : List Val}
    (hlen : fargs.length = args.length) (rest : List Lt.Arg) (i : Nat)
    (hi : i + rest.length ≤ args.length) : Lt.runCheckLoop fargs args rest i ≠ .crash := by
  induction rest generalizing i with
  | nil => simp [Lt.runCheckLoop]
  | cons a rest ih =>
    have ih := ih (i + 1) (by simp at hi; omega)
    simp only [Lt.runCheckLoop]
    cases a.lifetime with
    | none => exact ih
    | some lt =>
      simp only
      have hl : i < args.length := by simp at hi; omega
      rw [List.getElem?_eq_getElem hl]
      cases args[i] with
      | ref b =>
        simp only
        by_cases hr : (lt == "return") = true
        · rw [if_pos hr]; exact ih
        · rw [if_neg hr]
          cases hx : Lt.argIndex fargs lt with
          | none => simp
          | some ind =>
            simp only
            have := Lt.argIndex_lt hx
            rw [List.getElem?_eq_getElem (by omega)]
            simp only
            cases Lt.minRef none args[ind] with
            | none => exact ih
            | some q =>
              cases Lt.minRef none (.ref b) with
              | none => simp
              | some r =>
                simp only
                split
                · simp
                · exact ih
      | _ => simp

theorem runCheck_crash {fargs : List Lt.Arg} {args : List Val} (hlen : fargs.length = args.length) :
    Lt.runCheck fargs args ≠ .crash := by
  unfold Lt.runCheck
  split
  · exact runCheckLoop_crash hlen _ _ (by omega)
  · simp

theorem derefE_shown {st : St} {base v w} (h : shown base v = some w) :
    derefE v { st with stack := base } = .ok w { st with stack := base } := by
  cases v <;> simp only [shown] at h <;> first | (cases h; rfl) | skip
  next i => simp only [derefE, slotE, h]

theorem bind_ok {α β} {m : EM α} {f : α → EM β} {st a s} (h : m st = .ok a s) :
    (m >>= f) st = f a s := by
  show EM.bind m f st = _
  simp only [EM.bind, h]

theorem bind_err {α β} {m : EM α} {f : α → EM β} {st e s} (h : m st = .err e s) :
    (m >>= f) st = .err e s := by
  show EM.bind m f st = _
  simp only [EM.bind, h]

theorem bind_timeout {α β} {m : EM α} {f : α → EM β} {st} (h : m st = .timeout) :
    (m >>= f) st = .timeout := by
  show EM.bind m f st = _
  simp only [EM.bind, h]

theorem popE_append {st : St} {base : Stack} {v : Val} :
    popE { st with stack := base ++ [v] } = .ok v { st with stack := base } := by
  simp [popE]

theorem dynRead_asked {c : ECfg} {st : St} {base o name args} (h : Asked c st base o name args)
    (ret : Bool) : dynRead c ret st = .ok (o, name, args) { st with stack := base } := by
  obtain ⟨⟨k, fn, hk, hfn⟩, vm, vn, va, hs, hm, hn, ha⟩ := h
  have e1 : lastCall st = .ok k st := by simp only [lastCall, hk]
  have e2 : popE st = .ok va { st with stack := base ++ [vm, vn] } := by
    have : st = { st with stack := (base ++ [vm, vn]) ++ [va] } := by
      rw [List.append_assoc]; simp only [List.cons_append, List.nil_append, ← hs]
    rw [this]; exact popE_append
  have e3 : popE { st with stack := base ++ [vm, vn] } = .ok vn { st with stack := base ++ [vm] } := by
    have := popE_append (st := st) (base := base ++ [vm]) (v := vn)
    simpa using this
  have e4 : popE { st with stack := base ++ [vm] } = .ok vm { st with stack := base } := popE_append
  have e5 : dynText vn { st with stack := base } = .ok name { st with stack := base } := by
    unfold dynText; rw [bind_ok (derefE_shown hn)]; rfl
  have e6 : dynArray va { st with stack := base } = .ok args { st with stack := base } := by
    unfold dynArray; rw [bind_ok (derefE_shown ha)]; rfl
  have e7 : dynObject vm { st with stack := base } = .ok o { st with stack := base } := by
    unfold dynObject; rw [bind_ok (derefE_shown hm)]; rfl
  unfold dynRead
  rw [bind_ok e1, bind_ok (m := EM.get) (a := st) (s := st) rfl]
  simp only [hfn]
  rw [bind_ok e2, bind_ok e3, bind_ok e4]
  cases ret with
  | true => simp only [if_true]; rw [bind_ok e6, bind_ok e5, bind_ok e7]; rfl
  | false =>
    simp only [Bool.false_eq_true, if_false]
    rw [bind_ok e5, bind_ok e6, bind_ok e7]; rfl

theorem dynTarget_callable {L : Loader} {c : ECfg} {o name args m i fn}
    (h : Callable L c o name args m i fn) (s : St) :
    dynTarget L c o name args s = .ok (m, (i : Int)) s := by
  unfold dynTarget
  simp only [h.module, findFunction_last h.named, Int.toNat_natCast, h.named.at_]
  rw [if_neg (by simpa using h.arity), (Lt.C10_check_iff _ _).2 h.lives]
  rfl

theorem extNames_mem {β} {name : String} {l : List (String × β)} {g : β}
    (h : l.lookup name = some g) : (name, g) ∈ l := by
  induction l with
  | nil => cases h
  | cons p l ih =>
    obtain ⟨k, v⟩ := p
    rw [List.lookup_cons] at h
    by_cases hk : name = k
    · subst hk
      simp at h
      simp [h]
    · rw [beq_false_of_ne hk] at h
      exact List.mem_cons_of_mem _ (ih h)

theorem dynTarget_not {L : Loader} {c : ECfg} {o name args}
    (hL : ∀ m i fn, (c.modules m)[i]? = some fn → (L.params m i).length = fn.args.length)
    (hX : ∀ m name i, (name, FnIndex.loaded i) ∉ c.extNames m)
    (hno : ¬ ∃ m i fn, Callable L c o name args m i fn) (s : St) :
    ∃ e, dynTarget L c o name args s = .err e s := by
  unfold dynTarget
  cases ho : L.object o with
  | none => exact ⟨_, rfl⟩
  | some m =>
    simp only
    cases hf : findFunction c m name 0 with
    | loaded f =>
      simp only
      unfold findFunction at hf
      cases hl : lastIdx (fun f : Func => decide (f.name = name)) (c.modules m) with
      | none =>
        rw [hl] at hf
        simp only at hf
        cases hx : (c.extNames m).reverse.lookup name with
        | none => rw [hx] at hf; cases hf
        | some g =>
          rw [hx] at hf
          simp only at hf
          subst hf
          exact absurd (List.mem_reverse.1 (extNames_mem hx)) (hX m name f)
      | some i =>
        rw [hl] at hf
        simp only at hf
        obtain rfl : (i : Int) = f := by simpa using hf
        obtain ⟨fn, hfn, hname⟩ := lastIdx_spec hl
        have hlast := lastIdx_after hl
        simp only [Int.toNat_natCast, hfn]
        by_cases ha : fn.args.length = args.length
        · rw [if_neg (by simpa using ha)]
          cases hc : Lt.runCheck (L.params m i) args with
          | ok =>
            exact absurd ⟨m, i, fn, ho, ⟨hfn, by simpa using hname, fun j y hj hy => by
              simpa using hlast j y hj hy⟩, ha, (Lt.C10_check_iff _ _).1 hc⟩ hno
          | error e => exact ⟨_, rfl⟩
          | crash => exact absurd hc (runCheck_crash (by rw [hL m i fn hfn, ha]))
        · rw [if_pos ha]; exact ⟨_, rfl⟩
    | _ => exact ⟨_, rfl⟩
section
variable [FloatOps] [VecMath] {L : Loader} {c : ECfg} {va ra : Nat → Nat}

/-- A call from outside by position is the call that a function of the module would make. -/
theorem callOutside_direct {d : ECfg} {n i name m} {es : List Expr} {st : St} :
    callOutside d n (.loaded i) name es m st =
      match eval d (n + 1) (.call (.loaded ((i : Int) - st.rel)) name es) .right
        { st with module := m } with
      | .ok r s => .ok r (backIn st s)
      | .err e s => .err e (backIn st s)
      | .panic w => .panic w
      | .timeout => .timeout := by
  have he : callE d n (eval d n) true (.loaded i) name es { st with module := m } =
      eval d (n + 1) (.call (.loaded ((i : Int) - st.rel)) name es) .right { st with module := m } := by
    show callLoaded d n (eval d n) true i name es { st with module := m } =
      callLoaded d n (eval d n) false ((i : Int) - st.rel) name es { st with module := m }
    unfold callLoaded
    rw [if_pos rfl, if_neg (by simp), bind_ok (m := pure 0) rfl,
      bind_ok (m := relIndex) (a := st.rel) (s := { st with module := m }) rfl]
    have : callIndex ((i : Int) - st.rel) st.rel = callIndex i 0 := by
      simp [callIndex]
    dsimp only
    rw [this]
  unfold callOutside inModule
  rw [he]
  cases eval d (n + 1) (.call (.loaded ((i : Int) - st.rel)) name es) .right { st with module := m } <;>
    rfl

theorem dynCall_callable {inner n held ret st base o name args m i fn}
    (ha : Asked c st base o name args) (hc : Callable L c o name args m i fn)
    (hl : o ∉ held) :
    dynCall L c inner n held ret st =
      match eval (inner o) (n + 1) (.call (.loaded ((i : Int) - st.rel)) name (args.map Expr.const))
          .right { st with stack := base, module := m } with
      | .ok r s => .ok (name, r) (backIn st s)
      | .err e s => .err e (backIn st s)
      | .panic w => .panic w
      | .timeout => .timeout := by
  unfold dynCall
  rw [bind_ok (dynRead_asked ha ret)]
  simp only [List.contains_iff_mem, hl, if_false]
  rw [bind_ok (dynTarget_callable hc _)]
  simp only
  show EM.bind _ _ _ = _
  rw [EM.bind, callOutside_direct]
  have hr : St.rel { st with stack := base } = st.rel := rfl
  rw [hr]
  cases eval (inner o) (n + 1) (.call (.loaded ((i : Int) - st.rel)) name (args.map Expr.const))
    .right { st with stack := base, module := m } <;> rfl

/-! ## Theorems -/

/-- **C71** `call_ret(module, name, args)` does what the call `name(args..)` written in that
module does, and comes back to the caller with its result: for every module, every function
(the last one with that name), all arguments and every state.  The called function runs with the
value of the module locked. -/
theorem C71_call_ret {inner n held st base o name args m i fn}
    (ha : Asked c st base o name args) (hc : Callable L c o name args m i fn) (hl : o ∉ held) :
    dynRet L c inner n held st = answerRet st name
      (eval (inner o) (n + 1) (.call (.loaded ((i : Int) - st.rel)) name (args.map Expr.const))
        .right { st with stack := base, module := m }) := by
  unfold dynRet
  show EM.bind _ _ _ = _
  rw [EM.bind, dynCall_callable ha hc hl]
  cases eval (inner o) (n + 1) (.call (.loaded ((i : Int) - st.rel)) name (args.map Expr.const))
    .right { st with stack := base, module := m } with
  | ok r s => obtain ⟨_ | v, f⟩ := r <;> rfl
  | _ => rfl

/-- **C71** The same for `call`, which drops the result. -/
theorem C71_call {inner n held st base o name args m i fn}
    (ha : Asked c st base o name args) (hc : Callable L c o name args m i fn) (hl : o ∉ held) :
    dynVoid L c inner n held st = answer st
      (eval (inner o) (n + 1) (.call (.loaded ((i : Int) - st.rel)) name (args.map Expr.const))
        .right { st with stack := base, module := m }) := by
  unfold dynVoid
  show EM.bind _ _ _ = _
  rw [EM.bind, dynCall_callable ha hc hl]
  cases eval (inner o) (n + 1) (.call (.loaded ((i : Int) - st.rel)) name (args.map Expr.const))
    .right { st with stack := base, module := m } with
  | ok r s => rfl
  | _ => rfl

/-- **C71** If the value holds no module, the module has no function of that name, the number of
arguments differs or an argument does not live long enough, then both functions report an error
and no function is run: only the three arguments are gone. -/
theorem C71_refused {inner n held st base o name args}
    (hL : ∀ m i fn, (c.modules m)[i]? = some fn → (L.params m i).length = fn.args.length)
    (hX : ∀ m name i, (name, FnIndex.loaded i) ∉ c.extNames m)
    (ha : Asked c st base o name args) (hl : o ∉ held)
    (hno : ¬ ∃ m i fn, Callable L c o name args m i fn) :
    (∃ e, dynRet L c inner n held st = .err e { st with stack := base }) ∧
    ∃ e, dynVoid L c inner n held st = .err e { st with stack := base } := by
  have key : ∀ ret, ∃ e, dynCall L c inner n held ret st = .err e { st with stack := base } := by
    intro ret
    unfold dynCall
    rw [bind_ok (dynRead_asked ha ret)]
    simp only [List.contains_iff_mem, hl, if_false]
    obtain ⟨e, he⟩ := dynTarget_not hL hX hno { st with stack := base }
    exact ⟨e, bind_err he⟩
  obtain ⟨e, he⟩ := key true
  obtain ⟨e', he'⟩ := key false
  exact ⟨⟨e, bind_err he⟩, e', bind_err he'⟩

/-- **C71** While a function of the module runs that was called through the same value of the
module, a further `call` through this value never returns. -/
theorem C71_locked {inner n held st base o name args} (ha : Asked c st base o name args)
    (hl : o ∈ held) :
    dynRet L c inner n held st = .timeout ∧ dynVoid L c inner n held st = .timeout := by
  have key : ∀ ret, dynCall L c inner n held ret st = .timeout := by
    intro ret
    unfold dynCall
    rw [bind_ok (dynRead_asked ha ret)]
    simp only [List.contains_iff_mem, hl, if_true]
    rfl
  constructor
  · unfold dynRet; show EM.bind _ _ _ = _; rw [EM.bind, key]
  · unfold dynVoid; show EM.bind _ _ _ = _; rw [EM.bind, key]

/-- **C71** Arguments of another kind, not a Rust object, a text and an array, are an error too,
and only the three arguments are gone. -/
theorem C71_other_kinds {inner n held st base vm vn va xm xn xa}
    (hr : ∃ k fn, st.calls.getLast? = some k ∧ (c.modules st.module)[k.index]? = some fn)
    (hs : st.stack = base ++ [vm, vn, va]) (hm : shown base vm = some xm)
    (hn : shown base vn = some xn) (ha : shown base va = some xa)
    (hk : (∀ o, xm ≠ .rustObject o) ∨ (∀ t, xn ≠ .str t) ∨ ∀ xs, xa ≠ .array xs) :
    (∃ e, dynRet L c inner n held st = .err e { st with stack := base }) ∧
    ∃ e, dynVoid L c inner n held st = .err e { st with stack := base } := by
  have key : ∀ ret, ∃ e, dynCall L c inner n held ret st = .err e { st with stack := base } := by
    intro ret
    obtain ⟨k, fn, hk', hfn⟩ := hr
    have e1 : lastCall st = .ok k st := by simp only [lastCall, hk']
    have e2 : popE st = .ok va { st with stack := base ++ [vm, vn] } := by
      have : st = { st with stack := (base ++ [vm, vn]) ++ [va] } := by
        rw [List.append_assoc]; simp only [List.cons_append, List.nil_append, ← hs]
      rw [this]; exact popE_append
    have e3 : popE { st with stack := base ++ [vm, vn] } = .ok vn { st with stack := base ++ [vm] } := by
      have := popE_append (st := st) (base := base ++ [vm]) (v := vn)
      simpa using this
    have e4 : popE { st with stack := base ++ [vm] } = .ok vm { st with stack := base } := popE_append
    have e5 : (∃ t, dynText vn { st with stack := base } = .ok t { st with stack := base } ∧ xn = .str t) ∨
        ∃ e, dynText vn { st with stack := base } = .err e { st with stack := base } := by
      unfold dynText; rw [bind_ok (derefE_shown hn)]
      cases xn <;> first | exact .inl ⟨_, rfl, rfl⟩ | exact .inr ⟨_, rfl⟩
    have e6 : (∃ t, dynArray va { st with stack := base } = .ok t { st with stack := base } ∧ xa = .array t) ∨
        ∃ e, dynArray va { st with stack := base } = .err e { st with stack := base } := by
      unfold dynArray; rw [bind_ok (derefE_shown ha)]
      cases xa <;> first | exact .inl ⟨_, rfl, rfl⟩ | exact .inr ⟨_, rfl⟩
    have e7 : (∃ t, dynObject vm { st with stack := base } = .ok t { st with stack := base } ∧ xm = .rustObject t) ∨
        ∃ e, dynObject vm { st with stack := base } = .err e { st with stack := base } := by
      unfold dynObject; rw [bind_ok (derefE_shown hm)]
      cases xm <;> first | exact .inl ⟨_, rfl, rfl⟩ | exact .inr ⟨_, rfl⟩
    have hread : ∃ e, dynRead c ret st = .err e { st with stack := base } := by
      unfold dynRead
      rw [bind_ok e1, bind_ok (m := EM.get) (a := st) (s := st) rfl]
      simp only [hfn]
      rw [bind_ok e2, bind_ok e3, bind_ok e4]
      cases ret with
      | true =>
        simp only [if_true]
        rcases e6 with ⟨t, h6, k6⟩ | ⟨e, h6⟩
        · rw [bind_ok h6]
          rcases e5 with ⟨u, h5, k5⟩ | ⟨e, h5⟩
          · rw [bind_ok h5]
            rcases e7 with ⟨w, h7, k7⟩ | ⟨e, h7⟩
            · rcases hk with h | h | h
              · exact absurd k7 (h _)
              · exact absurd k5 (h _)
              · exact absurd k6 (h _)
            · exact ⟨e, bind_err h7⟩
          · exact ⟨e, bind_err h5⟩
        · exact ⟨e, bind_err h6⟩
      | false =>
        simp only [Bool.false_eq_true, if_false]
        rcases e5 with ⟨u, h5, k5⟩ | ⟨e, h5⟩
        · rw [bind_ok h5]
          rcases e6 with ⟨t, h6, k6⟩ | ⟨e, h6⟩
          · rw [bind_ok h6]
            rcases e7 with ⟨w, h7, k7⟩ | ⟨e, h7⟩
            · rcases hk with h | h | h
              · exact absurd k7 (h _)
              · exact absurd k5 (h _)
              · exact absurd k6 (h _)
            · exact ⟨e, bind_err h7⟩
          · exact ⟨e, bind_err h6⟩
        · exact ⟨e, bind_err h5⟩
    obtain ⟨e, he⟩ := hread
    exact ⟨e, by unfold dynCall; exact bind_err he⟩
  obtain ⟨e, he⟩ := key true
  obtain ⟨e', he'⟩ := key false
  refine ⟨⟨e, ?_⟩, e', ?_⟩
  · unfold dynRet; exact bind_err he
  · unfold dynVoid; exact bind_err he'

/-- **C71** Called from the host while no Dyon function is running, both functions crash. -/
theorem C71_from_host {inner n held st} (h : st.calls = []) :
    (∃ w, dynRet L c inner n held st = .panic w) ∧ ∃ w, dynVoid L c inner n held st = .panic w := by
  have key : ∀ ret, ∃ w, dynCall L c inner n held ret st = .panic w := by
    intro ret
    refine ⟨"Call stack is empty", ?_⟩
    unfold dynCall dynRead
    show EM.bind (EM.bind lastCall _) _ _ = _
    simp [EM.bind, lastCall, h]
  obtain ⟨w, hw⟩ := key true
  obtain ⟨w', hw'⟩ := key false
  refine ⟨⟨w, ?_⟩, w', ?_⟩
  · unfold dynRet; show EM.bind _ _ _ = _; rw [EM.bind, hw]
  · unfold dynVoid; show EM.bind _ _ _ = _; rw [EM.bind, hw']

theorem dyn_modules (n held) : (c.dyn L n held).modules = c.modules := by cases n <;> rfl

theorem ctxAt_modules {d : ECfg} (h : d.modules = c.modules) (m i) :
    ctxAt d va ra m i = ctxAt c va ra m i := by
  unfold ctxAt; rw [h]

theorem closuresWF_modules {d : ECfg} (h : d.modules = c.modules) (s : St) :
    ClosuresWF d va ra s ↔ ClosuresWF c va ra s := by
  unfold ClosuresWF; simp only [ctxAt_modules h]

theorem modulesWF_modules {d : ECfg} (h : d.modules = c.modules) :
    ModulesWF d va ra ↔ ModulesWF c va ra := by
  unfold ModulesWF; simp only [ctxAt_modules h, h]

/-- What is left after an error of a call from outside. -/
theorem wp_callOutside (hE : ExtFns c va ra) (hM : ModulesWF c va ra) {n m name st} {i : Int}
    {vs : List Val} (hi : ClosuresWF c va ra st) :
    wp (callOutside c n (.loaded i) name (vs.map Expr.const) m)
      (fun _ s => Same st s ∧ ClosuresWF c va ra s) (fun s => ExtE st s ∧ ClosuresWF c va ra s)
      st := by
  have h1 := wp_callE (n := n) (loader := true) (st0 := { st with module := m }) (f := .loaded i)
    (name := name) (args := vs.map Expr.const) hE hM
    (Good.eval hE hM n) .rfl (hi.of_eq (b := { st with module := m }) rfl)
    ⟨WFs_const vs, trivial⟩
  have h2 := callE_cont (c := c) (n := n) (loader := true) (f := .loaded i) (name := name) (vs := vs)
    (st := { st with module := m })
  have hx : wp (inModule m (callE c n (eval c n) true (.loaded i) name (vs.map Expr.const)))
      (fun _ s => Same st s ∧ ClosuresWF c va ra s)
      (fun s => ExtE st s ∧ ClosuresWF c va ra s) st := by
    refine wp_inModule (wp_mono (wp_and h1 h2) (fun r s hp => ?_) fun s hp => ?_)
    · have := hp.1.same (by rw [hp.2]; simp)
      exact ⟨⟨rfl, this.calls, this.locals, this.currents, this.stack⟩, hp.1.inv⟩
    · exact ⟨⟨rfl, hp.1.1.calls, hp.1.1.locals, hp.1.1.currents, hp.1.1.stack⟩, hp.1.2⟩
  unfold callOutside wp
  unfold wp at hx
  dsimp only
  cases hm : inModule m (callE c n (eval c n) true (.loaded i) name (vs.map Expr.const)) st with
  | ok r s =>
    rw [hm] at hx
    exact ⟨⟨hx.1.1, by simp [hx.1.calls], hx.1.3, hx.1.4, hx.1.5⟩, hx.2⟩
  | err e s =>
    rw [hm] at hx
    exact ⟨⟨hx.1.1, by simp [prefix_take hx.1.calls], hx.1.3, hx.1.4, hx.1.5⟩, hx.2⟩
  | panic => trivial
  | timeout => trivial

theorem wp_popE_cut {st : St} (h : 0 < st.stack.length) {Q : Val → St → Prop} {E : St → Prop}
    (hq : ∀ v, Q v { st with stack := st.stack.take (st.stack.length - 1) }) :
    wp popE Q E st := by
  unfold wp popE
  cases hl : st.stack.getLast? with
  | none => trivial
  | some v =>
    simp only [List.dropLast_eq_take]
    exact hq v

theorem Quiet.dynText (v) : Quiet (dynText v) := by unfold Dyon.dynText; quiet; exact .derefE _
theorem Quiet.dynArray (v) : Quiet (dynArray v) := by unfold Dyon.dynArray; quiet; exact .derefE _
theorem Quiet.dynObject (v) : Quiet (dynObject v) := by unfold Dyon.dynObject; quiet; exact .derefE _
theorem Quiet.dynTarget (L c o name args) : Quiet (dynTarget L c o name args) := by
  unfold Dyon.dynTarget
  cases L.object o with
  | none => exact .errExpected _ _
  | some m =>
    simp only
    cases findFunction c m name 0 with
    | loaded f =>
      simp only
      cases (c.modules m)[f.toNat]? with
      | none => exact .panic _
      | some fn =>
        simp only
        refine .ite (.fail _) ?_
        cases Lt.runCheck (L.params m f.toNat) args with
        | ok => exact .pure _
        | error e => exact .fail _
        | crash => exact .panic _
    | _ => exact .fail _

theorem wp_dynRead {st : St} (hn : 3 ≤ st.stack.length) (ret : Bool) :
    wp (dynRead c ret)
      (fun _ s => Same { st with stack := st.stack.take (st.stack.length - 3) } s ∧
        s.closures = st.closures)
      (fun s => Same { st with stack := st.stack.take (st.stack.length - 3) } s ∧
        s.closures = st.closures) st := by
  unfold dynRead
  refine wp_bind ?_
  unfold wp lastCall
  cases st.calls.getLast? with
  | none => trivial
  | some k =>
    simp only
    refine wp_bind (wp_get ?_)
    cases (c.modules st.module)[k.index]? with
    | none => trivial
    | some fn =>
      simp only
      refine wp_bind (wp_popE_cut (by omega) fun va => ?_)
      refine wp_bind (wp_popE_cut (by simp; omega) fun vn => ?_)
      refine wp_bind (wp_popE_cut (by simp; omega) fun vm => ?_)
      have hst : ∀ (s : St), s = { st with stack := st.stack.take (st.stack.length - 3) } →
          wp (if ret then do
              let args ← dynArray va
              let name ← dynText vn
              let o ← dynObject vm
              pure (o, name, args)
            else do
              let name ← dynText vn
              let args ← dynArray va
              let o ← dynObject vm
              pure (o, name, args))
            (fun _ s => Same { st with stack := st.stack.take (st.stack.length - 3) } s ∧
              s.closures = st.closures)
            (fun s => Same { st with stack := st.stack.take (st.stack.length - 3) } s ∧
              s.closures = st.closures) s := by
        rintro s rfl
        refine Quiet.run (.ite ?_ ?_) _
        · exact .bind (.dynArray _) fun _ => .bind (.dynText _) fun _ => .bind (.dynObject _) fun _ =>
            .pure _
        · exact .bind (.dynText _) fun _ => .bind (.dynArray _) fun _ => .bind (.dynObject _) fun _ =>
            .pure _
      apply hst
      simp only [List.take_take, List.length_take]
      congr 2
      omega

theorem wp_dynCall {d : Nat → ECfg} (hd : ∀ o, (d o).modules = c.modules)
    (hE : ∀ o, ExtFns (d o) va ra) (hM : ModulesWF c va ra) {n held ret} {st : St}
    (hn : 3 ≤ st.stack.length) (hi : ClosuresWF c va ra st) :
    wp (dynCall L c d n held ret)
      (fun _ s => Same { st with stack := st.stack.take (st.stack.length - 3) } s ∧
        ClosuresWF c va ra s)
      (fun s => ExtE { st with stack := st.stack.take (st.stack.length - 3) } s ∧
        ClosuresWF c va ra s) st := by
  unfold dynCall
  refine wp_bind (wp_mono (wp_dynRead hn ret) ?_ fun s hs => ⟨hs.1.extE, hi.of_eq hs.2⟩)
  rintro ⟨o, name, args⟩ s ⟨hs, hc⟩
  simp only
  refine wp_ite (fun _ => trivial) fun _ => ?_
  refine wp_bind (wp_mono ((Quiet.dynTarget L c o name args).run s) ?_ fun t ht =>
    ⟨(hs.trans ht.1).extE, hi.of_eq (ht.2.trans hc)⟩)
  rintro ⟨m, f⟩ t ⟨ht, hct⟩
  simp only
  have hit : ClosuresWF (d o) va ra t :=
    (closuresWF_modules (hd o) t).2 (hi.of_eq (hct.trans hc))
  refine wp_bind (wp_mono (wp_callOutside (hE o) ((modulesWF_modules (hd o)).2 hM) hit) ?_ ?_)
  · rintro r u ⟨hu, hiu⟩
    exact wp_pure ⟨hs.trans (ht.trans hu), (closuresWF_modules (hd o) u).1 hiu⟩
  · rintro u ⟨hu, hiu⟩
    exact ⟨(hs.trans ht).transE hu, (closuresWF_modules (hd o) u).1 hiu⟩

/-- **C71** With `call` and `call_ret` the host functions still take exactly their arguments from
the stack and leave variables, calls and the running module alone, on success and on error, for
any nesting of calls.  So everything proved about programs over such host functions (scopes C23,
slots C24, `try` C27, ..) holds for programs that call functions of loaded modules. -/
theorem C71_contract (h0 : ExtFns (c.dyn L 0 []) va ra) (hM : ModulesWF c va ra)
    (hv : va L.call = 3) (hr : ra L.callRet = 3) (n : Nat) (held : List Nat) :
    ExtFns (c.dyn L n held) va ra := by
  induction n generalizing held with
  | zero => exact h0
  | succ n ih =>
    have hmods : ∀ o, (c.dyn L n (o :: held)).modules = c.modules := fun o => dyn_modules _ _
    constructor
    · intro f st hn hi
      by_cases hf : f = L.call
      · subst hf
        rw [hv] at hn
        have hi' : ClosuresWF c va ra st := hi
        have h : wp (dynVoid L c (fun o => c.dyn L n (o :: held)) n held) _ _ st :=
          wp_bind (wp_mono (wp_dynCall hmods (fun o => ih _) hM hn hi')
            (Q' := fun _ s => wp (pure ()) (fun _ s =>
              Same { st with stack := st.stack.take (st.stack.length - 3) } s ∧
                ClosuresWF c va ra s) _ s) (fun _ s hs => wp_pure hs) fun _ hs => hs)
        unfold wp at h
        rw [hv]
        show match (if L.call = L.call then _ else _ : EM Unit) st with | .ok _ s => _ | .err _ s => _ | _ => _
        rw [if_pos rfl]
        cases hx : dynVoid L c (fun o => c.dyn L n (o :: held)) n held st <;> rw [hx] at h <;> exact h
      · have h := h0.void f st hn hi
        have e : (c.dyn L 0 []).voidFn f = (c.dyn L (n + 1) held).voidFn f := by
          show (if f = L.call then _ else _) = (if f = L.call then _ else _)
          rw [if_neg hf, if_neg hf]
        rw [e] at h
        exact h
    · intro f st hn hi
      by_cases hf : f = L.callRet
      · subst hf
        rw [hr] at hn
        have hi' : ClosuresWF c va ra st := hi
        have h : wp (dynRet L c (fun o => c.dyn L n (o :: held)) n held)
            (fun _ s => Same { st with stack := st.stack.take (st.stack.length - 3) } s ∧
              ClosuresWF c va ra s)
            (fun s => ExtE { st with stack := st.stack.take (st.stack.length - 3) } s ∧
              ClosuresWF c va ra s) st := by
          refine wp_bind (wp_mono (wp_dynCall hmods (fun o => ih _) hM hn hi') ?_ fun _ hs => hs)
          rintro ⟨name, _ | v, fl⟩ s hs
          · exact ⟨hs.1.extE, hs.2⟩
          · exact hs
        unfold wp at h
        rw [hr]
        show match (if L.callRet = L.callRet then _ else _ : EM Val) st with | .ok _ s => _ | .err _ s => _ | _ => _
        rw [if_pos rfl]
        cases hx : dynRet L c (fun o => c.dyn L n (o :: held)) n held st <;> rw [hx] at h <;> exact h
      · have h := h0.ret f st hn hi
        have e : (c.dyn L 0 []).retFn f = (c.dyn L (n + 1) held).retFn f := by
          show (if f = L.callRet then _ else _) = (if f = L.callRet then _ else _)
          rw [if_neg hf, if_neg hf]
        rw [e] at h
        exact h

/-- **C71** A program that calls functions of loaded modules leaves all stacks as they were. -/
theorem C71_run (h0 : ExtFns (c.dyn L 0 []) va ra) (hM : ModulesWF c va ra)
    (hv : va L.call = 3) (hr : ra L.callRet = 3) {k n m st s} (hi : ClosuresWF c va ra st)
    (h : run (c.dyn L k []) n m st = .ok () s) : Same st s :=
  C23_run (C71_contract h0 hM hv hr k []) ((modulesWF_modules (dyn_modules _ _)).2 hM)
    ((closuresWF_modules (dyn_modules _ _) st).2 hi) h

end

/-! ## Programs -/

namespace Demo
section
variable [FloatOps] [VecMath]

/-- Module 1, loaded by the program: `fn f(m) { call(m, "g", []) }  fn g() {}  fn h(x) -> { return
clone(x) }`. -/
def loadedModule : List Func :=
  [fn "f" ["m"] false [.call (.void 1000) "call" [var "m" 1, str "g", .array []]],
   fn "g" [] false [],
   fn "h" ["x"] true [.call (.ret (lib .clone)) "clone" [var "x" 1]]]

/-- Two values of modules, both for module 1. -/
def loader : Loader where
  call := 1000
  callRet := 1001
  object := fun o => if o ≤ 1 then some 1 else none
  params := fun m i => match (if m = 1 then loadedModule else [])[i]? with
    | some fn => fn.args.map fun x => ⟨x, none⟩
    | none => []

/-- A program `main` with the loaded module. -/
def dynCfg (main : List Expr) : ECfg :=
  stdCfg (fun _ _ => "value") 100 fun m =>
    if m = 0 then [fn "main" [] false main] else if m = 1 then loadedModule else []

/-- `call(m, "f", [m'])` for two values of modules. -/
def callF (o o' : Nat) : List Expr :=
  [.call (.void 1000) "call" [.const (.rustObject o), str "f", .array [.const (.rustObject o')]]]

theorem enter_timeout {ev : Evl} {name rname idx file st lc cu} {args : List String} {note : EM Unit}
    {e : Expr} {s s' : St} (hn : note s = .ok () s)
    (ha : pushArgLocals st 0 args
      { s with calls := s.calls ++ [⟨name, idx, some file, st, lc, cu⟩] } = .ok () s')
    (h : ev e .right s' = .timeout) :
    enter name rname idx file false args [] st lc cu note (block ev [e]) s = .timeout := by
  unfold enter
  rw [bind_ok (m := pushCurrents []) rfl, bind_ok hn,
    bind_ok (m := pushFn name idx (some file) st lc cu) rfl, if_neg (by simp)]
  show EM.bind (pushArgLocals st 0 args) _ _ = _
  rw [EM.bind, ha]
  simp only
  apply bind_timeout
  unfold block scope3
  rw [bind_ok (m := EM.get) rfl]
  apply bind_timeout
  unfold seqs
  exact bind_timeout h

/-- The state in which `main` runs. -/
def inMain : St := { empty with calls := [⟨"main", 0, some "demo.dyon", 0, 0, 0⟩] }

theorem run_main {c : ECfg} {n : Nat} {e : Expr} (hc : c.modules 0 = [fn "main" [] false [e]])
    (h : eval c n e .right inMain = .timeout) : run c n 0 empty = .timeout := by
  have hf : findFunction c 0 "main" 0 = .loaded 0 := by simp [findFunction, hc, lastIdx, fn]
  have key : callE c n (eval c n) false (.loaded 0) "main" [] empty = .timeout := by
    show callLoaded c n (eval c n) false 0 "main" [] empty = _
    unfold callLoaded
    rw [if_neg (by simp), bind_ok (m := relIndex) (a := 0) (s := empty) rfl]
    dsimp only
    rw [bind_ok (m := EM.get) rfl]
    have : c.modules empty.module = [fn "main" [] false [e]] := hc
    simp only [callIndex, this]
    exact enter_timeout (name := "main") (rname := "main") (idx := 0) (file := "demo.dyon")
      (st := 0) (lc := 0) (cu := 0) (args := []) (note := notify c n 0 0) (s := empty)
      (s' := inMain) rfl rfl h
  unfold run
  rw [hf]
  simp only [hc]
  show inModule 0 (EM.bind _ _) empty = _
  unfold inModule EM.bind
  have e0 : ({ empty with module := 0 } : St) = empty := rfl
  rw [e0, key]

/-- The state in which `f` runs. -/
def inF (o : Nat) : St :=
  { empty with
    calls := [⟨"main", 0, some "demo.dyon", 0, 0, 0⟩, ⟨"f", 0, some "demo.dyon", 0, 0, 0⟩]
    stack := [.rustObject o], locals := [("m", 0)], module := 1 }

theorem lazyArgs3 {ev : Evl} {msg a b e k x y z} {st : St}
    (h1 : ev a .right st = .ok (some x, .cont) st)
    (h2 : ev b .right { st with stack := st.stack ++ [x] } =
      .ok (some y, .cont) { st with stack := st.stack ++ [x] })
    (h3 : ev e .right { st with stack := st.stack ++ [x, y] } =
      .ok (some z, .cont) { st with stack := st.stack ++ [x, y] }) :
    lazyArgs ev false msg [] [a, b, e] k st = k { st with stack := st.stack ++ [x, y, z] } := by
  have e1 : ({ st with stack := (st.stack ++ [x]) ++ [y] } : St) =
    { st with stack := st.stack ++ [x, y] } := by simp
  have e2 : ({ st with stack := (st.stack ++ [x, y]) ++ [z] } : St) =
    { st with stack := st.stack ++ [x, y, z] } := by simp
  unfold lazyArgs
  rw [bind_ok h1]
  show lazyArgs ev false msg [] [b, e] k { st with stack := st.stack ++ [x] } = _
  unfold lazyArgs
  rw [bind_ok h2]
  show lazyArgs ev false msg [] [e] k { st with stack := (st.stack ++ [x]) ++ [y] } = _
  rw [e1]
  unfold lazyArgs
  rw [bind_ok h3]
  show lazyArgs ev false msg [] [] k { st with stack := (st.stack ++ [x, y]) ++ [z] } = _
  rw [e2]
  rfl

theorem inner_timeout (k n : Nat) :
    eval ((dynCfg (callF 0 0)).dyn loader k [0]) n
      (.call (.void 1000) "call" [var "m" 1, str "g", .array []]) .right (inF 0) = .timeout := by
  match n with
  | 0 => rfl
  | 1 => rfl
  | n + 2 =>
    show callVoid _ _ 1000 _ _ = _
    unfold callVoid
    rw [lazyArgs3 (x := .ref 0) (y := .str "g") (z := .array []) (by cases k <;> rfl) rfl rfl]
    apply bind_timeout
    cases k with
    | zero => rfl
    | succ k =>
      show dynVoid _ _ _ _ _ _ = _
      refine (C71_locked (base := [.rustObject 0]) (o := 0) (name := "g") (args := []) ⟨?_, ?_⟩ (by simp)).2
      · exact ⟨_, _, rfl, rfl⟩
      · exact ⟨_, _, _, rfl, rfl, rfl, rfl⟩

theorem call_timeout (k n : Nat) :
    eval ((dynCfg (callF 0 0)).dyn loader k []) n (.call (.void 1000) "call"
      [.const (.rustObject 0), str "f", .array [.const (.rustObject 0)]]) .right inMain = .timeout := by
  match n with
  | 0 => rfl
  | 1 => rfl
  | 2 => rfl
  | n + 3 =>
    show callVoid _ _ 1000 _ _ = _
    unfold callVoid
    rw [lazyArgs3 (x := .rustObject 0) (y := .str "f") (z := .array [.rustObject 0]) rfl rfl rfl]
    apply bind_timeout
    cases k with
    | zero => rfl
    | succ k =>
      show dynVoid _ _ _ _ _ _ = _
      rw [C71_call (base := []) (o := 0) (name := "f") (args := [.rustObject 0]) (m := 1) (i := 0)
        (fn := fn "f" ["m"] false [.call (.void 1000) "call" [var "m" 1, str "g", .array []]])
        ⟨⟨_, _, rfl, rfl⟩, _, _, _, rfl, rfl, rfl, rfl⟩ ⟨rfl, ⟨rfl, rfl, ?_⟩, rfl, ?_⟩ (by simp)]
      · have key : eval ((dynCfg (callF 0 0)).dyn loader k [0]) (k + 1) (.call (.loaded 0) "f"
            [.const (.rustObject 0)]) .right { inMain with module := 1 } = .timeout := by
          show callLoaded _ k _ false 0 "f" _ _ = _
          unfold callLoaded
          rw [if_neg (by simp), bind_ok (m := relIndex) (a := 0) (s := { inMain with module := 1 }) rfl]
          dsimp only
          rw [bind_ok (m := EM.get) rfl]
          simp only [callIndex, dyn_modules]
          match k with
          | 0 => rfl
          | k + 1 =>
            exact enter_timeout (name := "f") (rname := "f") (idx := 0) (file := "demo.dyon")
              (st := 0) (lc := 0) (cu := 0) (args := ["m"])
              (note := notify ((dynCfg (callF 0 0)).dyn loader (k + 1) [0]) (k + 1) 0 0)
              (s := { inMain with module := 1, stack := [.rustObject 0] })
              (s' := inF 0) rfl rfl (inner_timeout (k + 1) (k + 1))
        show answer _ (eval ((dynCfg (callF 0 0)).dyn loader k [0]) (k + 1) (.call (.loaded 0) "f"
            [.const (.rustObject 0)]) .right { inMain with module := 1 }) = _
        rw [key]
        rfl
      · intro j fn' hj h
        match j, hj, h with
        | 1, _, h => cases h; simp [fn]
        | 2, _, h => cases h; simp [fn]
      · intro j a lt h hl
        match j, h with
        | 0, h => cases h; cases hl

/-- **C71** The program `main` calls `f` through the value `m` and gives it `m`; `f` calls `g`
through it.  The program never ends. -/
theorem C71_deadlock (k n : Nat) : run ((dynCfg (callF 0 0)).dyn loader k []) n 0 empty = .timeout := by
  refine run_main (e := .call (.void 1000) "call"
    [.const (.rustObject 0), str "f", .array [.const (.rustObject 0)]]) ?_ ?_
  · rw [dyn_modules]; rfl
  · exact call_timeout k n

/-- Number of arguments of the host functions of the program. -/
def dynArity (f : Nat) : Nat := if f = 1000 then 3 else if f = 1001 then 3 else libArity f

/-- The hypothesis of `C71_contract` is met by the modelled library. -/
theorem dyn_ext (p : List Expr) : ExtFns ((dynCfg p).dyn loader 0 []) dynArity dynArity := by
  have ar : ∀ f, dynArity f = 3 ∨ dynArity f = libArity f := by
    intro f; unfold dynArity; split
    · exact .inl rfl
    · split
      · exact .inl rfl
      · exact .inr rfl
  have big : libTable[1000]? = none ∧ libTable[1001]? = none := ⟨rfl, rfl⟩
  constructor
  · intro f st hn hi
    show match (if f = 1000 then EM.timeout else libVoid _ _ f : EM Unit) st with
      | .ok _ s => _ | .err _ s => _ | _ => _
    by_cases hf : f = 1000
    · rw [if_pos hf]; trivial
    · rw [if_neg hf]
      by_cases hg : f = 1001
      · subst hg; simp [libVoid, libRun, big.2]
      · have ha : dynArity f = libArity f := by simp [dynArity, hf, hg]
        rw [ha] at hn ⊢
        have h := libRun_pops (fun _ _ => "value") 100 f st hn
        unfold libVoid
        cases hx : libRun (fun _ _ => "value") 100 f st with
        | ok r s => rw [hx] at h; exact ⟨⟨rfl, rfl, rfl, rfl, by simp at h ⊢; omega⟩, hi⟩
        | err e s =>
          rw [hx] at h
          exact ⟨⟨rfl, List.prefix_rfl, List.prefix_rfl, List.prefix_rfl, by simp at h ⊢; omega⟩, hi⟩
        | panic => trivial
        | running => trivial
  · intro f st hn hi
    show match (if f = 1001 then EM.timeout else libRet _ _ f : EM Val) st with
      | .ok _ s => _ | .err _ s => _ | _ => _
    by_cases hf : f = 1001
    · rw [if_pos hf]; trivial
    · rw [if_neg hf]
      by_cases hg : f = 1000
      · subst hg; simp [libRet, libRun, big.1]
      · have ha : dynArity f = libArity f := by simp [dynArity, hf, hg]
        rw [ha] at hn ⊢
        have h := libRun_pops (fun _ _ => "value") 100 f st hn
        unfold libRet
        cases hx : libRun (fun _ _ => "value") 100 f st with
        | ok r s =>
          rw [hx] at h
          cases r with
          | none => trivial
          | some v => exact ⟨⟨rfl, rfl, rfl, rfl, by simp at h ⊢; omega⟩, hi⟩
        | err e s =>
          rw [hx] at h
          exact ⟨⟨rfl, List.prefix_rfl, List.prefix_rfl, List.prefix_rfl, by simp at h ⊢; omega⟩, hi⟩
        | panic => trivial
        | running => trivial

theorem dyn_modulesWF (o o' : Nat) : ModulesWF (dynCfg (callF o o')) dynArity dynArity := by
  intro m idx f h
  match m, idx, h with
  | 0, 0, h =>
    cases h
    simp [WFs, Expr.WF, str, fn, callF, argLen, Expr.width, dynArity]
    rfl
  | 1, 0, h =>
    cases h
    simp [WFs, Expr.WF, WFitem, WFids, str, var, fn, argLen, Expr.width, dynArity]
    rfl
  | 1, 1, h => cases h; simp [WFs, fn]
  | 1, 2, h =>
    cases h
    simp [WFs, Expr.WF, WFitem, WFids, var, fn, argLen, Expr.width, dynArity]
    rfl
  | m + 2, idx, h => cases h

/-- The program with two values of the module satisfies the hypotheses of `C71_run`. -/
example {k n s} (h : run ((dynCfg (callF 0 1)).dyn loader k []) n 0 empty = .ok () s) :
    s.stack = [] ∧ s.locals = [] ∧ s.calls = [] ∧ s.module = 0 := by
  have := C71_run (dyn_ext _) (dyn_modulesWF 0 1) rfl rfl (fun cl h => by cases h) h
  exact ⟨List.length_eq_zero_iff.1 this.stack, this.locals, this.calls, this.module⟩

/-- The state of `main` when `call_ret(m, "h", ["a"])` takes its arguments. -/
def asking (name : String) : St :=
  { inMain with stack := [.str "b", .rustObject 1, .str name, .array [.str "a"]] }

theorem asking_asked (p : List Expr) (name : String) :
    Asked (dynCfg p) (asking name) [.str "b"] 1 name [.str "a"] :=
  ⟨⟨_, _, rfl, rfl⟩, _, _, _, rfl, rfl, rfl, rfl⟩

/-- The hypotheses of `C71_call_ret` are met: the answer is the copy that `h` makes, the variables
of `main` are as before. -/
example (k : Nat) : ∃ s, dynRet loader (dynCfg []) (fun o => (dynCfg []).dyn loader (k + 3) [o])
    (k + 3) [] (asking "h") = .ok (.str "a") s ∧ s.stack = [.str "b"] ∧ s.calls = inMain.calls := by
  refine ⟨_, (C71_call_ret (m := 1) (i := 2) (asking_asked [] "h")
    ⟨rfl, ⟨rfl, rfl, ?_⟩, rfl, ?_⟩ (by simp)).trans rfl, rfl, rfl⟩
  · intro j fn' hj h
    match j, hj, h with
    | j + 3, _, h => cases h
  · intro j a lt h hl
    match j, h with
    | 0, h => cases h; cases hl

/-- The hypotheses of `C71_refused` are met: there is no function `z`. -/
example (n : Nat) (inner : Nat → ECfg) : ∃ e, dynRet loader (dynCfg []) inner n [] (asking "z") =
    .err e { inMain with stack := [.str "b"] } := by
  refine (C71_refused ?_ ?_ (asking_asked [] "z") (by simp) ?_).1
  · intro m i fn h
    match m, i, h with
    | 0, 0, h => cases h; rfl
    | 1, 0, h => cases h; rfl
    | 1, 1, h => cases h; rfl
    | 1, 2, h => cases h; rfl
    | m + 2, i, h => cases h
  · intro m name i h; cases h
  · rintro ⟨m, i, f, h⟩
    have hm : m = 1 := by have := h.module; simpa [loader] using this.symm
    subst hm
    have hn := h.named
    match i, hn.at_, hn.named with
    | 0, h1, h2 => cases h1; simp [fn] at h2
    | 1, h1, h2 => cases h1; simp [fn] at h2
    | 2, h1, h2 => cases h1; simp [fn] at h2

end
end Demo

end Dyon
