import Verif.Eval.ChanProps

/-!
# C29, C48, C22: calls of loaded functions and closures
-/

namespace Dyon

/-! ## Specification -/

/-- `i` is the most recently introduced entry with a name. -/
def Innermost (name : String) (l : List (String × Nat)) (i : Nat) : Prop :=
  ∃ pre post, l = pre ++ (name, i) :: post ∧ ∀ e ∈ post, e.1 ≠ name

/-- `refs` are the slots of the current objects `names`. -/
inductive Currents (l : List (String × Nat)) : List String → List Nat → Prop
  | nil : Currents l [] []
  | cons {name r names refs} : Innermost name l r → Currents l names refs →
      Currents l (name :: names) (r :: refs)

/-- The state with a return slot pushed. -/
def withReturn (returns : Bool) (s : St) : St :=
  if returns then { s with stack := s.stack ++ [.ret] } else s

/-- The state with references to the current objects pushed and named. -/
def withCurrents (names : List String) (refs : List Nat) (s : St) : St :=
  { s with
    stack := s.stack ++ refs.map .ref
    locals := s.locals ++ names.zipIdx.map fun p => (p.1, s.stack.length + p.2) }

/-- The names visible in the body of a function whose arguments start at slot `st`: the
return slot is just below the arguments. -/
def paramLocals (returns : Bool) (args : List String) (st : Nat) : List (String × Nat) :=
  (if returns then [("return", st - 1)] else []) ++ args.zipIdx.map fun p => (p.1, st + p.2)

/-- The state in which the body of a function starts: `w` is the state after the current
objects have been pushed and observers have been notified. -/
def bodyState (name : String) (idx : Nat) (file : String) (returns : Bool) (args : List String)
    (st lc cu : Nat) (w : St) : St :=
  { w with
    calls := w.calls ++ [⟨name, idx, some file, st, lc, cu⟩]
    locals := w.locals ++ paramLocals returns args st }

/-- The state after a call: everything above the lengths before the arguments is gone, and
so is the return slot. -/
def afterCall (returns : Bool) (st lc cu : Nat) (calls : List CallRec) (t : St) : St :=
  { t with
    calls := calls
    stack := if returns then (t.stack.take st).dropLast else t.stack.take st
    locals := t.locals.take lc
    currents := t.currents.take cu }

section
variable [FloatOps] [VecMath]

/-- The arguments are evaluated from left to right, each value on top of the stack. -/
inductive ArgsTo (c : ECfg) (n : Nat) : List Expr → List Val → St → St → Prop
  | nil {s} : ArgsTo c n [] [] s s
  | cons {a as v vs s t u} : eval c n a .right s = .ok (some v, .cont) t →
      ArgsTo c n as vs { t with stack := t.stack ++ [v] } u → ArgsTo c n (a :: as) (v :: vs) s u

/-- A call of a loaded function that has reached its body: `u` is the state after the
arguments, `w` after current objects and observers, `b` at the start of the body. -/
structure CallRun (c : ECfg) (n : Nat) (f : Int) (name : String) (args : List Expr) (s : St)
    (idx : Nat) (fn : Func) (vs : List Val) (refs : List Nat) (u w b : St) : Prop where
  index : (idx : Int) = f + s.rel
  func : (c.modules s.module)[idx]? = some fn
  strict : ∀ l ∈ fn.lazyInv, l = []
  args : ArgsTo c n args vs (withReturn fn.returns s) u
  currents : Currents u.currents fn.currents refs
  note : notify c n idx (withReturn fn.returns s).stack.length (withCurrents fn.currents refs u) =
    .ok () w
  start : b = bodyState name idx fn.file fn.returns fn.args (withReturn fn.returns s).stack.length
    s.locals.length s.currents.length w

/-! ## Lemmas -/

omit [FloatOps] [VecMath] in
theorem findLast_append_self {name i l post} (h : ∀ e ∈ post, e.1 ≠ name) :
    findLast name (l ++ (name, i) :: post) = some i := by
  induction l with
  | nil =>
    have : findLast name post = none := by
      induction post with
      | nil => rfl
      | cons e es ih =>
        obtain ⟨m, j⟩ := e
        have h1 := h (m, j) (by simp)
        have h2 := ih fun e he => h e (by simp [he])
        simp only [findLast, h2]
        rw [if_neg h1]
    simp [findLast, this]
  | cons e es ih =>
    obtain ⟨m, j⟩ := e
    simp [findLast, ih]

omit [FloatOps] [VecMath] in
theorem findLast_iff {name l i} : findLast name l = some i ↔ Innermost name l i := by
  constructor
  · intro h
    induction l with
    | nil => cases h
    | cons e es ih =>
      obtain ⟨m, j⟩ := e
      rw [findLast] at h
      cases hx : findLast name es with
      | some k =>
        rw [hx] at h
        cases h
        obtain ⟨pre, post, rfl, hp⟩ := ih hx
        exact ⟨(m, j) :: pre, post, rfl, hp⟩
      | none =>
        rw [hx] at h
        simp only at h
        split at h
        · rename_i hm
          cases h
          subst hm
          refine ⟨[], es, rfl, fun e he hne => ?_⟩
          clear ih
          induction es with
          | nil => cases he
          | cons d ds ih2 =>
            obtain ⟨m', j'⟩ := d
            rw [findLast] at hx
            cases hy : findLast m ds with
            | some k => rw [hy] at hx; cases hx
            | none =>
              rw [hy] at hx
              simp only at hx
              split at hx
              · cases hx
              · rename_i hn
                rcases List.mem_cons.1 he with rfl | he
                · exact hn hne
                · exact ih2 hy he
        · cases h
  · rintro ⟨pre, post, rfl, hp⟩
    exact findLast_append_self hp

omit [FloatOps] [VecMath] in
theorem findLast_none_iff {name l} : findLast name l = none ↔ ∀ e ∈ l, e.1 ≠ name := by
  constructor
  · intro h e he hne
    obtain ⟨m, j⟩ := e
    cases hne
    induction l with
    | nil => cases he
    | cons d ds ih =>
      obtain ⟨m', j'⟩ := d
      rw [findLast] at h
      cases hx : findLast m ds with
      | some k => rw [hx] at h; cases h
      | none =>
        rw [hx] at h
        simp only at h
        split at h
        · cases h
        · rename_i hn
          rcases List.mem_cons.1 he with he | he
          · cases he; exact hn rfl
          · exact ih he hx
  · intro h
    induction l with
    | nil => rfl
    | cons d ds ih =>
      obtain ⟨m, j⟩ := d
      simp only [findLast, ih fun e he => h e (by simp [he])]
      rw [if_neg (h (m, j) (by simp))]

omit [FloatOps] [VecMath] in
theorem pushCurrents_ok {names refs s} (h : Currents s.currents names refs) :
    pushCurrents names s = .ok () (withCurrents names refs s) := by
  suffices ∀ (l : List (String × Nat)) names refs s, s.currents = l → Currents l names refs →
      pushCurrents names s = .ok () (withCurrents names refs s) from this _ _ _ _ rfl h
  intro l names refs s hl h
  induction h generalizing s with
  | nil => simp [pushCurrents, withCurrents]; rfl
  | @cons name r names refs hi _ ih =>
    rw [pushCurrents, EM.bind_ok (show EM.get s = .ok s s from rfl)]
    rw [← hl] at hi
    simp only [findLast_iff.2 hi]
    rw [EM.bind_ok (show pushLocal name s.stack.length s = .ok () _ from rfl),
      EM.bind_ok (show pushE (.ref r) _ = .ok () _ from rfl), ih _ (by simpa using hl)]
    simp only [withCurrents, List.map_cons, List.append_assoc, List.length_append, List.length_cons,
      List.length_nil, List.zipIdx_cons, List.cons_append, List.nil_append, Nat.add_zero]
    rw [List.zipIdx_succ]
    simp [Function.comp_def, Nat.add_comm, Nat.add_left_comm]

omit [FloatOps] [VecMath] in
theorem pushCurrents_missing {names s} (h : ∃ name ∈ names, ∀ e ∈ s.currents, e.1 ≠ name) :
    ∃ t, ∃ name ∈ names, (∀ e ∈ s.currents, e.1 ≠ name) ∧ pushCurrents names s =
      .err (stackTrace s.calls ++ "\n" ++ ("Could not find current variable `" ++ name ++ "`")) t := by
  induction names generalizing s with
  | nil => obtain ⟨_, h, _⟩ := h; cases h
  | cons name names ih =>
    rw [pushCurrents, EM.bind_ok (show EM.get s = .ok s s from rfl)]
    cases hx : findLast name s.currents with
    | none =>
      exact ⟨s, name, by simp, findLast_none_iff.1 hx, rfl⟩
    | some i =>
      obtain ⟨m, hm, hn⟩ := h
      rcases List.mem_cons.1 hm with rfl | hm
      · rw [findLast_none_iff.2 hn] at hx; cases hx
      · obtain ⟨t, m', hm', h1, h2⟩ := ih (s := { s with
          locals := s.locals ++ [(name, s.stack.length)], stack := s.stack ++ [.ref i] }) ⟨m, hm, hn⟩
        exact ⟨t, m', by simp [hm'], h1, h2⟩

omit [FloatOps] [VecMath] in
theorem pushArgLocals_ok {st i args s} : pushArgLocals st i args s =
    .ok () { s with locals := s.locals ++ (args.zipIdx i).map fun p => (p.1, st + p.2) } := by
  induction args generalizing i s with
  | nil => simp [pushArgLocals]; rfl
  | cons a as ih =>
    rw [pushArgLocals, EM.bind_ok (show pushLocal a (st + i) s = .ok () _ from rfl), ih]
    simp [List.zipIdx_cons]

omit [FloatOps] [VecMath] in
theorem popFn_ok {name idx file st lc cu} {calls : List CallRec} {t : St}
    (h : t.calls = calls ++ [⟨name, idx, file, st, lc, cu⟩]) :
    popFn name t = .ok () { t with
      calls := calls, stack := t.stack.take st, locals := t.locals.take lc
      currents := t.currents.take cu } := by
  simp [popFn, h]

omit [FloatOps] [VecMath] in
theorem enter_start {name rname idx file returns args currents st lc cu note body refs u w}
    (hc : Currents u.currents currents refs) (hn : note (withCurrents currents refs u) = .ok () w) :
    enter name rname idx file returns args currents st lc cu note body u =
      (body >>= fun r => bodyFlow r.2 do
        popFn name
        callResult returns rname r.1) (bodyState name idx file returns args st lc cu w) := by
  rw [enter, EM.bind_ok (pushCurrents_ok hc), EM.bind_ok hn,
    EM.bind_ok (show pushFn name idx (some file) st lc cu w = .ok () _ from rfl)]
  cases returns with
  | true =>
    refine (EM.bind_ok (show pushLocal "return" (st - 1) _ = .ok () _ from rfl)).trans ?_
    refine (EM.bind_ok pushArgLocals_ok).trans ?_
    simp [bodyState, paramLocals]
  | false =>
    refine (EM.bind_ok pushArgLocals_ok).trans ?_
    simp [bodyState, paramLocals]

omit [FloatOps] [VecMath] in
theorem enter_end {name rname idx file returns args currents st lc cu note body refs u w x f t}
    (hc : Currents u.currents currents refs) (hn : note (withCurrents currents refs u) = .ok () w)
    (hb : body (bodyState name idx file returns args st lc cu w) = .ok (x, f) t)
    (hf : f = .cont ∨ f = .ret)
    (ht : t.calls = w.calls ++ [⟨name, idx, some file, st, lc, cu⟩]) :
    enter name rname idx file returns args currents st lc cu note body u =
      callResult returns rname x { t with
        calls := w.calls, stack := t.stack.take st, locals := t.locals.take lc
        currents := t.currents.take cu } := by
  rw [enter_start hc hn, EM.bind_ok hb]
  have : ∀ k : EM R, bodyFlow f k = k := fun k => by rcases hf with rfl | rfl <;> rfl
  show bodyFlow f _ t = _
  rw [this, EM.bind_ok (popFn_ok ht)]

omit [FloatOps] [VecMath] in
theorem enter_err {name rname idx file returns args currents st lc cu note body refs u w m t}
    (hc : Currents u.currents currents refs) (hn : note (withCurrents currents refs u) = .ok () w)
    (hb : body (bodyState name idx file returns args st lc cu w) = .err m t) :
    enter name rname idx file returns args currents st lc cu note body u = .err m t := by
  rw [enter_start hc hn, EM.bind_err hb]

theorem lazyArgs_run {c n inv args vs s u msg b} {k : EM R} (hinv : ∀ l ∈ inv, l = [])
    (h : ArgsTo c n args vs s u) :
    lazyArgs (eval c n) b msg inv args k s = k u := by
  induction h generalizing inv with
  | nil => rfl
  | @cons a as v vs s t u hv _ ih =>
    rw [lazyArgs, EM.bind_ok hv]
    simp only
    have h0 : inv.headD [] = [] := by
      cases inv with
      | nil => rfl
      | cons l ls => exact hinv l (by simp)
    rw [EM.bind_ok (show lazyCheck v (inv.headD []) t = .ok none t by rw [h0]; rfl)]
    simp only
    rw [EM.bind_ok (show pushE v t = .ok () _ from rfl)]
    exact ih fun l hl => hinv l (List.mem_of_mem_tail hl)

theorem CallRun.run {c n f name args s idx fn vs refs u w b}
    (h : CallRun c n f name args s idx fn vs refs u w b) (side : Side) :
    eval c (n + 1) (.call (.loaded f) name args) side s =
      enter name fn.name idx fn.file fn.returns fn.args fn.currents (withReturn fn.returns s).stack.length
        s.locals.length s.currents.length (notify c n idx (withReturn fn.returns s).stack.length)
        (block (eval c n) fn.body) u := by
  show callLoaded c n (eval c n) false f name args s = _
  rw [callLoaded]
  refine (EM.bind_ok (show relIndex s = .ok s.rel s from rfl)).trans ?_
  refine (EM.bind_ok (show EM.get s = .ok s s from rfl)).trans ?_
  simp only [callIndex_eq h.index, h.func]
  have hargs := h.args
  cases hr : fn.returns with
  | true =>
    rw [hr] at hargs
    refine (EM.bind_ok (show pushE .ret s = .ok () (withReturn true s) from rfl)).trans ?_
    refine (EM.bind_ok (show EM.get (withReturn true s) = .ok _ _ from rfl)).trans ?_
    exact lazyArgs_run h.strict hargs
  | false =>
    rw [hr] at hargs
    refine (EM.bind_ok (show EM.get s = .ok s s from rfl)).trans ?_
    exact lazyArgs_run h.strict hargs

omit [FloatOps] [VecMath] in
theorem errCaller_eq {α} {msg : String} {st : St} (h : st.calls ≠ []) :
    (errCaller msg : EM α) st = .err (stackTrace st.calls ++ "\n" ++ msg) st := by
  have hl : lastCall st = .ok (st.calls.getLast h) st := by
    rw [lastCall, List.getLast?_eq_some_getLast h]
  rw [errCaller, EM.bind_ok hl]
  rfl

/-! ## C29: results -/

section result
variable {c : ECfg} {n : Nat} {f : Int} {name : String} {args : List Expr} {s : St} {idx : Nat}
  {fn : Func} {vs : List Val} {refs : List Nat} {u w b : St} (side : Side)

theorem CallRun.done (h : CallRun c n f name args s idx fn vs refs u w b) {x fl t}
    (hb : eval c (n + 1) (.block fn.body) .right b = .ok (x, fl) t) (hf : fl = .cont ∨ fl = .ret)
    (hc : t.calls = b.calls) :
    eval c (n + 1) (.call (.loaded f) name args) side s = callResult fn.returns fn.name x { t with
      calls := w.calls, stack := t.stack.take (withReturn fn.returns s).stack.length
      locals := t.locals.take s.locals.length, currents := t.currents.take s.currents.length } := by
  rw [h.run side]
  have hs := h.start
  subst hs
  exact enter_end h.currents h.note hb hf hc

/-- **C29.** The value of the body, or the one given to `return`, is the value of the call. -/
theorem C29_value (h : CallRun c n f name args s idx fn vs refs u w b) (hr : fn.returns = true) {v fl t}
    (hb : eval c (n + 1) (.block fn.body) .right b = .ok (some v, fl) t) (hf : fl = .cont ∨ fl = .ret)
    (hc : t.calls = b.calls) (hv : v ≠ .ret) :
    eval c (n + 1) (.call (.loaded f) name args) side s = .ok (some v, .cont)
      (afterCall true (s.stack.length + 1) s.locals.length s.currents.length w.calls t) := by
  rw [h.done side hb hf hc, hr]
  have hl : (withReturn true s).stack.length = s.stack.length + 1 := by simp [withReturn]
  rw [hl]
  cases v <;> first | exact absurd rfl hv | rfl

/-- **C29.** A body without value gives the value assigned to `return`. -/
theorem C29_assigned (h : CallRun c n f name args s idx fn vs refs u w b) (hr : fn.returns = true) {v fl t}
    (hb : eval c (n + 1) (.block fn.body) .right b = .ok (none, fl) t) (hf : fl = .cont ∨ fl = .ret)
    (hc : t.calls = b.calls) (hs : t.stack[s.stack.length]? = some v) (hv : v ≠ .ret) :
    eval c (n + 1) (.call (.loaded f) name args) side s = .ok (some v, .cont)
      (afterCall true (s.stack.length + 1) s.locals.length s.currents.length w.calls t) := by
  rw [h.done side hb hf hc, hr]
  have hl : (withReturn true s).stack.length = s.stack.length + 1 := by simp [withReturn]
  rw [hl]
  have hlt : s.stack.length < t.stack.length := by
    rw [List.getElem?_eq_some_iff] at hs; exact hs.1
  have hp : popE { t with
      calls := w.calls, stack := t.stack.take (s.stack.length + 1)
      locals := t.locals.take s.locals.length, currents := t.currents.take s.currents.length } =
      .ok v (afterCall true (s.stack.length + 1) s.locals.length s.currents.length w.calls t) := by
    have : (t.stack.take (s.stack.length + 1)).getLast? = some v := by
      rw [List.getLast?_take]; simp [hs]
    simp [popE, this, afterCall]
  rw [callResult, EM.bind_ok hp]
  cases v <;> first | exact absurd rfl hv | rfl

/-- **C29.** A function without `->` has no value. -/
theorem C29_void (h : CallRun c n f name args s idx fn vs refs u w b) (hr : fn.returns = false) {fl t}
    (hb : eval c (n + 1) (.block fn.body) .right b = .ok (none, fl) t) (hf : fl = .cont ∨ fl = .ret)
    (hc : t.calls = b.calls) :
    eval c (n + 1) (.call (.loaded f) name args) side s = .ok (none, .cont)
      (afterCall false s.stack.length s.locals.length s.currents.length w.calls t) := by
  rw [h.done side hb hf hc, hr]
  rfl

/-- **C29.** A function with `->` that neither gives nor assigns a value is an error, if a function
called it. -/
theorem C29_missing (h : CallRun c n f name args s idx fn vs refs u w b) (hr : fn.returns = true) {fl t}
    (hb : eval c (n + 1) (.block fn.body) .right b = .ok (none, fl) t) (hf : fl = .cont ∨ fl = .ret)
    (hc : t.calls = b.calls) (hw : w.calls ≠ []) (hs : t.stack[s.stack.length]? = some .ret) :
    ∃ t', eval c (n + 1) (.call (.loaded f) name args) side s =
      .err (stackTrace w.calls ++ "\n" ++ ("Function `" ++ fn.name ++ "` did not return a value")) t' := by
  rw [h.done side hb hf hc, hr]
  have hl : (withReturn true s).stack.length = s.stack.length + 1 := by simp [withReturn]
  rw [hl]
  have hp : popE { t with
      calls := w.calls, stack := t.stack.take (s.stack.length + 1)
      locals := t.locals.take s.locals.length, currents := t.currents.take s.currents.length } =
      .ok .ret (afterCall true (s.stack.length + 1) s.locals.length s.currents.length w.calls t) := by
    have : (t.stack.take (s.stack.length + 1)).getLast? = some .ret := by
      rw [List.getLast?_take]; simp [hs]
    simp [popE, this, afterCall]
  rw [callResult, EM.bind_ok hp]
  exact ⟨_, errCaller_eq hw⟩

/-- **C29.** A function without `->` that gives a value is an error, if a function called it. -/
theorem C29_superfluous (h : CallRun c n f name args s idx fn vs refs u w b) (hr : fn.returns = false)
    {v fl t} (hb : eval c (n + 1) (.block fn.body) .right b = .ok (some v, fl) t)
    (hf : fl = .cont ∨ fl = .ret) (hc : t.calls = b.calls) (hw : w.calls ≠ []) :
    ∃ t', eval c (n + 1) (.call (.loaded f) name args) side s =
      .err (stackTrace w.calls ++ "\n" ++ ("Function `" ++ fn.name ++ "` should not return a value")) t' := by
  rw [h.done side hb hf hc, hr]
  exact ⟨_, errCaller_eq hw⟩

/-- **C29.** An error in the body is the error of the call. -/
theorem C29_body_fails (h : CallRun c n f name args s idx fn vs refs u w b) {m t}
    (hb : eval c (n + 1) (.block fn.body) .right b = .err m t) :
    eval c (n + 1) (.call (.loaded f) name args) side s = .err m t := by
  rw [h.run side]
  have hs := h.start
  subst hs
  exact enter_err h.currents h.note hb

end result

/-! ## C29: parameters -/

/-- What a variable whose slot `i` holds `v` evaluates to. -/
def varRef (i : Nat) (v : Val) : Val := match v with | .ref j => .ref j | _ => .ref i

/-- A variable without properties, with the slot computed by the loader. -/
def plainVar (name : String) (sid : Option Nat) : Expr := .item (.mk name sid false false [] [])

/-- What a variable without properties evaluates to when its slot is `i`: a reference to the
slot, or to where the value in the slot points. -/
theorem plainVar_static {c : ECfg} {n name d side} {s : St} (hb : c.byName = false)
    (hcalls : s.calls ≠ []) (hd : d ≤ s.stack.length) {v : Val}
    (hv : s.stack[s.stack.length - d]? = some v) :
    eval c (n + 1) (plainVar name (some d)) side s =
      .ok (some (varRef (s.stack.length - d) v), .cont) s := by
  obtain ⟨cl, hcl⟩ : ∃ cl, s.calls.getLast? = some cl := by
    cases h : s.calls.getLast? with
    | none => exact absurd (List.getLast?_eq_none_iff.1 h) hcalls
    | some cl => exact ⟨cl, rfl⟩
  show itemE c (eval c n) (.mk name (some d) false false [] []) side s = _
  rw [itemE, EM.bind_ok (show lastCall s = .ok cl s by simp [lastCall, hcl])]
  have h1 : slotOf c (.mk name (some d) false false [] []) cl s = .ok (s.stack.length - d) s := by
    rw [slotOf, EM.bind_ok (show EM.get s = .ok s s from rfl), hb]
    simp only [Item.sid, Bool.false_eq_true, if_false, hd, if_true]
    rfl
  rw [EM.bind_ok h1]
  have h2 : refSlot (s.stack.length - d) s =
      .ok (match v with | .ref i => i | _ => s.stack.length - d) s := by
    rw [refSlot, EM.bind_ok (slotE_ok hv)]
    cases v <;> rfl
  rw [EM.bind_ok h2]
  cases v <;> rfl

theorem plainVar_dynamic {c : ECfg} {n name sid side} {s : St} (hb : c.byName = true)
    {cl : CallRec} (hcl : s.calls.getLast? = some cl) {i : Nat}
    (hi : Innermost name (s.locals.drop cl.localLen) i) {v : Val} (hv : s.stack[i]? = some v) :
    eval c (n + 1) (plainVar name sid) side s =
      .ok (some (varRef i v), .cont) s := by
  show itemE c (eval c n) (.mk name sid false false [] []) side s = _
  rw [itemE, EM.bind_ok (show lastCall s = .ok cl s by simp [lastCall, hcl])]
  have h1 : slotOf c (.mk name sid false false [] []) cl s = .ok i s := by
    rw [slotOf, EM.bind_ok (show EM.get s = .ok s s from rfl), hb]
    simp only [Item.name, if_true, findLast_iff.2 hi]
    rfl
  rw [EM.bind_ok h1]
  have h2 : refSlot i s = .ok (match v with | .ref j => j | _ => i) s := by
    rw [refSlot, EM.bind_ok (slotE_ok hv)]
    cases v <;> rfl
  rw [EM.bind_ok h2]
  cases v <;> rfl


omit [FloatOps] [VecMath] in
theorem cloneAll_same {n vs ws s t} (h : cloneAll n vs s = .ok ws t) : t = s := by
  induction vs generalizing ws t with
  | nil => cases h; rfl
  | cons v vs ih =>
    rw [cloneAll] at h
    cases hv : deepClone s.stack n v with
    | ok w =>
      have h1 : cloneE n v s = .ok w s := by simp only [cloneE, hv]
      rw [EM.bind_ok h1] at h
      cases hx : cloneAll n vs s with
      | ok ws' t' =>
        rw [EM.bind_ok hx] at h
        cases ih hx
        cases h; rfl
      | err m t' => rw [EM.bind_err hx] at h; cases h
      | panic m => rw [EM.bind_panic hx] at h; cases h
      | timeout => rw [EM.bind_timeout hx] at h; cases h
    | panic =>
      have h1 : cloneE n v s = .panic "Unsafe reference can not be cloned" := by simp only [cloneE, hv]
      rw [EM.bind_panic h1] at h; cases h
    | running =>
      have h1 : cloneE n v s = .timeout := by simp only [cloneE, hv]
      rw [EM.bind_timeout h1] at h; cases h

omit [FloatOps] [VecMath] in
theorem notify_keeps {c n idx st s w} (h : notify c n idx st s = .ok () w) :
    w.stack = s.stack ∧ w.locals = s.locals ∧ w.calls = s.calls ∧ w.currents = s.currents ∧
      w.module = s.module := by
  rw [notify, EM.bind_ok (show EM.get s = .ok s s from rfl)] at h
  split at h
  · cases hx : cloneAll n (s.stack.drop st) s with
    | ok ws t =>
      rw [EM.bind_ok hx] at h
      cases cloneAll_same hx
      cases h
      exact ⟨rfl, rfl, rfl, rfl, rfl⟩
    | err m t => rw [EM.bind_err hx] at h; cases h
    | panic m => rw [EM.bind_panic hx] at h; cases h
    | timeout => rw [EM.bind_timeout hx] at h; cases h
  · cases h; exact ⟨rfl, rfl, rfl, rfl, rfl⟩

/-- In well-formed programs every argument takes exactly one slot and nothing else is left
on the stacks. -/
theorem C29_slots {c : ECfg} {va ra : Nat → Nat} (hE : ExtFns c va ra) (hM : ModulesWF c va ra)
    {n args vs s u} (hi : ClosuresWF c va ra s) (hw : WFs (kOf c va ra s) args)
    (h : ArgsTo c n args vs s u) :
    u.stack.length = s.stack.length + vs.length ∧ u.locals = s.locals ∧ u.calls = s.calls ∧
      u.currents = s.currents ∧ u.module = s.module ∧ args.length = vs.length := by
  induction h with
  | nil => simp
  | @cons a as v vs s t u hv _ ih =>
    rw [WFs] at hw
    have hg := Good.eval hE hM n a .right s hi hw.1
    rw [wp, hv] at hg
    have hs := hg.value v rfl rfl
    have hk : kOf c va ra { t with stack := t.stack ++ [v] } = kOf c va ra s := by
      simp only [kOf, St.rel, hs.module, hs.calls]
    obtain ⟨h1, h2, h3, h4, h5, h6⟩ := ih hg.inv (by rw [hk]; exact hw.2)
    refine ⟨?_, h2.trans hs.locals, h3.trans hs.calls, h4.trans hs.currents, h5.trans hs.module, by simp [h6]⟩
    simp only [List.length_append, List.length_cons, List.length_nil, hs.stack] at h1
    simp only [h1, List.length_cons]; omega

/-- Arguments whose evaluation changes nothing (constants, variables, operators on them). -/
inductive PureArgs (c : ECfg) (n : Nat) : List Expr → List Val → St → Prop
  | nil {s} : PureArgs c n [] [] s
  | cons {a as v vs s} : eval c n a .right s = .ok (some v, .cont) s →
      PureArgs c n as vs { s with stack := s.stack ++ [v] } → PureArgs c n (a :: as) (v :: vs) s

/-- **C29.** Then the slots above the return slot hold exactly the values of the arguments,
in order, and the rest of the state is as before. -/
theorem C29_args_kept {c n args vs s} (h : PureArgs c n args vs s) :
    ArgsTo c n args vs s { s with stack := s.stack ++ vs } := by
  induction h with
  | nil => simpa using ArgsTo.nil
  | @cons a as v vs s hv _ ih => exact .cons hv (by simpa using ih)

/-! ## C29: parameters -/

omit [FloatOps] [VecMath] in
theorem innermost_zipIdx {a : String} {k : Nat} {post : List (String × Nat)} (hpost : ∀ e ∈ post, e.1 ≠ a)
    {names : List String} {i : Nat} (ha : names[i]? = some a)
    (huniq : ∀ j, i < j → names[j]? ≠ some a) (pre : List (String × Nat)) (m : Nat) :
    Innermost a (pre ++ ((names.zipIdx m).map fun p => (p.1, k + p.2)) ++ post) (k + (m + i)) := by
  induction names generalizing i m pre with
  | nil => simp at ha
  | cons x xs ih =>
    cases i with
    | zero =>
      simp only [List.getElem?_cons_zero, Option.some.injEq] at ha
      subst ha
      refine ⟨pre, ((xs.zipIdx (m + 1)).map fun p => (p.1, k + p.2)) ++ post, by simp, ?_⟩
      intro e he
      rcases List.mem_append.1 he with he | he
      · obtain ⟨⟨y, j⟩, hmem, rfl⟩ := List.mem_map.1 he
        intro hy
        simp only at hy
        subst hy
        obtain ⟨j', hj⟩ := List.mem_iff_getElem?.1 hmem
        rw [List.getElem?_zipIdx] at hj
        cases hx : xs[j']? with
        | none => rw [hx] at hj; cases hj
        | some z =>
          rw [hx] at hj
          simp only [Option.map_some, Option.some.injEq, Prod.mk.injEq] at hj
          refine huniq (j' + 1) (by omega) ?_
          simp [hx, hj.1]
      · exact hpost e he
    | succ i =>
      have := ih (i := i) (by simpa using ha) (fun j hj => by
        have := huniq (j + 1) (by omega); simpa using this) (pre ++ [(x, k + m)]) (m + 1)
      rw [show m + (i + 1) = m + 1 + i by omega]
      simpa [List.zipIdx_cons] using this

section params
variable {c : ECfg} {n : Nat} {f : Int} {name : String} {args : List Expr} {s : St} {idx : Nat}
  {fn : Func} {vs : List Val} {refs : List Nat} {u w b : St}

omit [FloatOps] [VecMath] in
theorem Currents.length {l names refs} (h : Currents l names refs) : names.length = refs.length := by
  induction h with
  | nil => rfl
  | cons _ _ ih => simp [ih]

theorem CallRun.body (h : CallRun c n f name args s idx fn vs refs u w b) :
    b.stack = u.stack ++ refs.map .ref ∧
    b.calls = u.calls ++ [⟨name, idx, some fn.file, (withReturn fn.returns s).stack.length, s.locals.length,
      s.currents.length⟩] ∧
    b.locals = u.locals ++ (fn.currents.zipIdx.map fun p => (p.1, u.stack.length + p.2)) ++
      paramLocals fn.returns fn.args (withReturn fn.returns s).stack.length := by
  obtain ⟨h1, h2, h3, h4, h5⟩ := notify_keeps h.note
  have hs := h.start
  subst hs
  exact ⟨h1, by simp [bodyState, h3, withCurrents], by simp [bodyState, h2, withCurrents]⟩

/-- **C29.** At the start of the body the `i`-th parameter denotes the value in the slot
where the `i`-th argument was put: by name, and with the slot the loader computes (the
distance from the end of the stack). -/
theorem C29_param (side : Side) (h : CallRun c n f name args s idx fn vs refs u w b)
    (hl : u.locals = s.locals)
    (hlen : u.stack.length = (withReturn fn.returns s).stack.length + fn.args.length)
    {i : Nat} {a : String} (ha : fn.args[i]? = some a) (huniq : ∀ j, i < j → fn.args[j]? ≠ some a) {v}
    (hv : u.stack[(withReturn fn.returns s).stack.length + i]? = some v) {k} (sid : Option Nat)
    (hsid : c.byName = true ∨ sid = some (fn.args.length - i + refs.length)) :
    eval c (k + 1) (plainVar a sid) side b =
        .ok (some (varRef ((withReturn fn.returns s).stack.length + i) v), .cont) b ∧
      b.stack[(withReturn fn.returns s).stack.length + i]? = some v := by
  obtain ⟨hbs, hbc, hbl⟩ := h.body
  have hi : i < fn.args.length := (List.getElem?_eq_some_iff.1 ha).1
  have hv' : b.stack[(withReturn fn.returns s).stack.length + i]? = some v := by
    rw [hbs, List.getElem?_append_left (by omega)]; exact hv
  refine ⟨?_, hv'⟩
  cases hb : c.byName with
  | true =>
    refine plainVar_dynamic (cl := ⟨name, idx, some fn.file, (withReturn fn.returns s).stack.length,
      s.locals.length, s.currents.length⟩) hb (by rw [hbc]; simp) ?_ hv'
    simp only
    rw [hbl, ← hl, List.append_assoc, List.drop_left]
    have := innermost_zipIdx (k := (withReturn fn.returns s).stack.length) (post := []) (by simp) ha huniq
      ((fn.currents.zipIdx.map fun p => (p.1, u.stack.length + p.2)) ++
      (if fn.returns then [("return", (withReturn fn.returns s).stack.length - 1)] else [])) 0
    rw [Nat.zero_add] at this
    simpa [paramLocals] using this
  | false =>
    rcases hsid with hsid | rfl
    · rw [hsid] at hb; cases hb
    have hlb : b.stack.length = (withReturn fn.returns s).stack.length + fn.args.length + refs.length := by
      rw [hbs]; simp [hlen]
    have he : b.stack.length - (fn.args.length - i + refs.length) = (withReturn fn.returns s).stack.length + i := by
      omega
    have := plainVar_static (c := c) (n := k) (name := a) (side := side) (d := fn.args.length - i + refs.length)
      hb (s := b) (by rw [hbc]; simp) (by omega) (v := v) (by rw [he]; exact hv')
    rw [he] at this
    exact this

/-- **C48.** At the start of the body a current object of the function denotes the most
recently introduced current variable with its name that is alive at the call. -/
theorem C48_current (side : Side) (h : CallRun c n f name args s idx fn vs refs u w b)
    (hl : u.locals = s.locals) {i : Nat} {a : String} (ha : fn.currents[i]? = some a)
    (huniq : ∀ j, i < j → fn.currents[j]? ≠ some a) (hargs : a ∉ fn.args) (hret : a ≠ "return") {k}
    (sid : Option Nat) (hsid : c.byName = true ∨ sid = some (fn.currents.length - i)) :
    ∃ r, Innermost a u.currents r ∧ eval c (k + 1) (plainVar a sid) side b = .ok (some (.ref r), .cont) b := by
  obtain ⟨hbs, hbc, hbl⟩ := h.body
  have hi : i < fn.currents.length := (List.getElem?_eq_some_iff.1 ha).1
  have hcl := h.currents.length
  obtain ⟨r, hr, hin⟩ : ∃ r, refs[i]? = some r ∧ Innermost a u.currents r := by
    have hcur := h.currents
    clear hbs hbl hcl huniq hargs hsid hi h
    generalize fn.currents = names at ha hcur
    induction hcur generalizing i with
    | nil => simp at ha
    | @cons m r names refs hm _ ih =>
      cases i with
      | zero => simp at ha; subst ha; exact ⟨r, rfl, hm⟩
      | succ i => simpa using ih (by simpa using ha)
  refine ⟨r, hin, ?_⟩
  have hv : b.stack[u.stack.length + i]? = some (.ref r) := by
    rw [hbs, List.getElem?_append_right (by omega)]
    simp [hr]
  cases hb : c.byName with
  | true =>
    refine plainVar_dynamic (cl := ⟨name, idx, some fn.file, (withReturn fn.returns s).stack.length,
      s.locals.length, s.currents.length⟩) (i := u.stack.length + i) hb (by rw [hbc]; simp) ?_ hv
    simp only
    rw [hbl, ← hl, List.append_assoc, List.drop_left]
    have := innermost_zipIdx (k := u.stack.length) (post := paramLocals fn.returns fn.args
      (withReturn fn.returns s).stack.length) (a := a) (fun e he => ?_) ha huniq [] 0
    · rw [Nat.zero_add] at this
      simpa using this
    · rcases List.mem_append.1 he with he | he
      · split at he
        · simp only [List.mem_singleton] at he
          subst he; exact hret.symm
        · cases he
      · obtain ⟨⟨m, j⟩, hmem, rfl⟩ := List.mem_map.1 he
        intro hm
        simp only at hm
        subst hm
        exact hargs ((List.mem_zipIdx hmem).2.2 ▸ List.getElem_mem _)
  | false =>
    rcases hsid with hsid | rfl
    · rw [hsid] at hb; cases hb
    have hlb : b.stack.length = u.stack.length + fn.currents.length := by rw [hbs]; simp [hcl]
    have he : b.stack.length - (fn.currents.length - i) = u.stack.length + i := by omega
    exact plainVar_static (c := c) (n := k) (name := a) (side := side) (d := fn.currents.length - i)
      hb (s := b) (by rw [hbc]; simp) (by omega) (v := .ref r) (by rw [he]; exact hv)

/-- **C48.** Without a live current variable of the name the call is an error and the body
does not run. -/
theorem C48_missing (side : Side) (hi : (idx : Int) = f + s.rel)
    (hf : (c.modules s.module)[idx]? = some fn) (hst : ∀ l ∈ fn.lazyInv, l = [])
    (ha : ArgsTo c n args vs (withReturn fn.returns s) u)
    (hm : ∃ a ∈ fn.currents, ∀ e ∈ u.currents, e.1 ≠ a) :
    ∃ t, ∃ a ∈ fn.currents, (∀ e ∈ u.currents, e.1 ≠ a) ∧
      eval c (n + 1) (.call (.loaded f) name args) side s =
        .err (stackTrace u.calls ++ "\n" ++ ("Could not find current variable `" ++ a ++ "`")) t := by
  obtain ⟨t, a, h1, h2, h3⟩ := pushCurrents_missing hm
  refine ⟨t, a, h1, h2, ?_⟩
  have henter : ∀ st, enter name fn.name idx fn.file fn.returns fn.args fn.currents st
      s.locals.length s.currents.length (notify c n idx st) (block (eval c n) fn.body) u =
      .err (stackTrace u.calls ++ "\n" ++ ("Could not find current variable `" ++ a ++ "`")) t := by
    intro st
    rw [enter, EM.bind_err h3]
  show callLoaded c n (eval c n) false f name args s = _
  rw [callLoaded]
  refine (EM.bind_ok (show relIndex s = .ok s.rel s from rfl)).trans ?_
  refine (EM.bind_ok (show EM.get s = .ok s s from rfl)).trans ?_
  simp only [callIndex_eq hi, hf]
  cases hr : fn.returns with
  | true =>
    rw [hr] at ha henter
    refine (EM.bind_ok (show pushE .ret s = .ok () (withReturn true s) from rfl)).trans ?_
    refine (EM.bind_ok (show EM.get (withReturn true s) = .ok _ _ from rfl)).trans ?_
    exact (lazyArgs_run hst ha).trans (henter _)
  | false =>
    rw [hr] at ha henter
    refine (EM.bind_ok (show EM.get s = .ok s s from rfl)).trans ?_
    exact (lazyArgs_run hst ha).trans (henter _)

/-- **C22.** A call of an observed function: when the body starts, every open channel
registered for the function has got one message per registration, the arguments.
(Finding: if the function has current objects, they follow the arguments in the
message.) -/
theorem C22_call (h : CallRun c n f name args s idx fn vs refs u w b) {chans msg}
    (hs : u.senders u.module idx = (true, chans))
    (hlen : (withReturn fn.returns s).stack.length ≤ u.stack.length)
    (hmsg : Clones (u.stack ++ refs.map .ref) n
      (u.stack.drop (withReturn fn.returns s).stack.length ++ refs.map .ref) msg) :
    ∀ ch, b.queues ch = u.queues ch ++ c.arrive u.time ch ++
      List.replicate ((chans.filter fun d => !c.closed u.time d).count ch) (.array msg) := by
  obtain ⟨t, rest, h1, h2, _⟩ := C22_notify (c := c) (n := n) (idx := idx)
    (st := (withReturn fn.returns s).stack.length) (s := withCurrents fn.currents refs u) (msg := msg) hs
    (by rw [show (withCurrents fn.currents refs u).stack = u.stack ++ refs.map .ref from rfl,
          List.drop_append_of_le_length hlen]; exact hmsg)
  have := h.note
  rw [h1] at this
  cases this
  have hst := h.start
  subst hst
  exact h2

/-- **C22.** A call of a function that is not observed sends nothing. -/
theorem C22_call_not_observed (h : CallRun c n f name args s idx fn vs refs u w b) {chans}
    (hs : u.senders u.module idx = (false, chans)) : b.queues = u.queues ∧ b.time = u.time := by
  have h1 := C22_not_observed (c := c) (n := n) (idx := idx)
    (st := (withReturn fn.returns s).stack.length) (s := withCurrents fn.currents refs u) (chans := chans) hs
  have := h.note
  rw [h1] at this
  cases this
  have hst := h.start
  subst hst
  exact ⟨rfl, rfl⟩

end params

/-! ## C29: closures -/

/-- A call of a closure that has reached its body. -/
structure CloRun (c : ECfg) (n : Nat) (it : Item) (args : List Expr) (s : St) (cl : Clo)
    (vs : List Val) (refs : List Nat) (s1 u b : St) : Prop where
  closure : ∃ x id, eval c (n + 1) (.item it) .right s = .ok (some x, .cont) s1 ∧
    Spec.deref s1.stack x = some (.closure id) ∧ s1.closures[id]? = some cl
  count : argLen args = cl.args.length
  args : ArgsTo c n args vs (withReturn cl.returns s1) u
  currents : Currents u.currents cl.currents refs
  start : b = bodyState it.name cl.relative cl.file cl.returns cl.args (withReturn cl.returns s1).stack.length
    s1.locals.length s1.currents.length (withCurrents cl.currents refs u)

section closures
variable {c : ECfg} {n : Nat} {it : Item} {args : List Expr} {s : St} {cl : Clo}
  {vs : List Val} {refs : List Nat} {s1 u b : St} (side : Side)

theorem CloRun.run (h : CloRun c n it args s cl vs refs s1 u b) :
    eval c (n + 1) (.callClosure it args) side s =
      enter it.name it.name cl.relative cl.file cl.returns cl.args cl.currents
        (withReturn cl.returns s1).stack.length s1.locals.length s1.currents.length (pure ())
        (inModule cl.module (eval c n cl.body .right)) u := by
  obtain ⟨x, id, h1, h2, h3⟩ := h.closure
  show callClosureE c (eval c n) it args s = _
  rw [callClosureE, EM.bind_ok (show itemE c (eval c n) it .right s = _ from h1)]
  simp only
  have hclo : closureOf x s1 = .ok cl s1 := by
    rw [closureOf, EM.bind_ok (derefE_ok h2)]
    simp only
    rw [EM.bind_ok (show EM.get s1 = .ok s1 s1 from rfl)]
    simp only [h3]
    rfl
  rw [EM.bind_ok hclo]
  have hargs := h.args
  simp only [h.count, ne_eq, not_true_eq_false, if_false]
  cases hr : cl.returns with
  | true =>
    rw [hr] at hargs
    refine (EM.bind_ok (show pushE .ret s1 = .ok () (withReturn true s1) from rfl)).trans ?_
    refine (EM.bind_ok (show EM.get (withReturn true s1) = .ok _ _ from rfl)).trans ?_
    exact lazyArgs_run (by simp) hargs
  | false =>
    rw [hr] at hargs
    refine (EM.bind_ok (show EM.get s1 = .ok s1 s1 from rfl)).trans ?_
    exact lazyArgs_run (by simp) hargs

theorem CloRun.done (h : CloRun c n it args s cl vs refs s1 u b) {x fl t}
    (hb : eval c n cl.body .right { b with module := cl.module } = .ok (x, fl) t)
    (hf : fl = .cont ∨ fl = .ret) (hc : t.calls = b.calls) :
    eval c (n + 1) (.callClosure it args) side s = callResult cl.returns it.name x { t with
      calls := u.calls, stack := t.stack.take (withReturn cl.returns s1).stack.length
      locals := t.locals.take s1.locals.length, currents := t.currents.take s1.currents.length
      module := b.module } := by
  rw [h.run side]
  have hs := h.start
  subst hs
  refine enter_end (t := { t with module := u.module }) (f := fl) h.currents (w := withCurrents cl.currents refs u) rfl ?_ hf hc
  simp only [inModule]
  rw [hb]
  rfl

/-- **C29.** The value of a closure call is the value of its body; the body runs in the
module of the closure and the call comes back to the module it was made in. -/
theorem C29_closure_value (h : CloRun c n it args s cl vs refs s1 u b) (hr : cl.returns = true) {v fl t}
    (hb : eval c n cl.body .right { b with module := cl.module } = .ok (some v, fl) t)
    (hf : fl = .cont ∨ fl = .ret) (hc : t.calls = b.calls) (hv : v ≠ .ret) :
    eval c (n + 1) (.callClosure it args) side s = .ok (some v, .cont)
      (afterCall true (s1.stack.length + 1) s1.locals.length s1.currents.length u.calls
        { t with module := b.module }) := by
  rw [h.done side hb hf hc, hr]
  have hl : (withReturn true s1).stack.length = s1.stack.length + 1 := by simp [withReturn]
  rw [hl]
  cases v <;> first | exact absurd rfl hv | rfl

/-- **C29.** A closure without `->` has no value. -/
theorem C29_closure_void (h : CloRun c n it args s cl vs refs s1 u b) (hr : cl.returns = false) {fl t}
    (hb : eval c n cl.body .right { b with module := cl.module } = .ok (none, fl) t)
    (hf : fl = .cont ∨ fl = .ret) (hc : t.calls = b.calls) :
    eval c (n + 1) (.callClosure it args) side s = .ok (none, .cont)
      (afterCall false s1.stack.length s1.locals.length s1.currents.length u.calls
        { t with module := b.module }) := by
  rw [h.done side hb hf hc, hr]
  rfl

/-- **C29.** The `i`-th parameter of a closure is in the slot of the `i`-th argument, with
its name. -/
theorem C29_closure_param (h : CloRun c n it args s cl vs refs s1 u b) {i : Nat} {a : String}
    (ha : cl.args[i]? = some a) (hl : i < u.stack.length - (withReturn cl.returns s1).stack.length) :
    (a, (withReturn cl.returns s1).stack.length + i) ∈ b.locals ∧
    b.stack[(withReturn cl.returns s1).stack.length + i]? =
      u.stack[(withReturn cl.returns s1).stack.length + i]? := by
  have hs := h.start
  subst hs
  refine ⟨?_, ?_⟩
  · simp only [bodyState, paramLocals, List.mem_append, List.mem_map]
    refine .inr (.inr ⟨(a, i), ?_, rfl⟩)
    rw [List.mem_zipIdx_iff_getElem?]
    exact ha
  · simp only [bodyState, withCurrents]
    rw [List.getElem?_append_left (by omega)]

end closures

/-! ## C48: the host interface -/

/-- `Runtime::current_object`, runtime/mod.rs:438-448, up to the conversion of the value to
a Rust type. -/
def currentObject (name : String) : EM Val := do
  let s ← EM.get
  match findLast name s.currents with
  | none => EM.fail ("Could not find current variable `" ++ name ++ "`")
  | some i => do
    let v ← slotE i
    derefE v

/-- **C48.** The host gets the value of the most recently introduced current variable, or an
error if there is none. -/
theorem C48_host {name : String} {s : St} :
    (∀ i v d, Innermost name s.currents i → s.stack[i]? = some v → Spec.deref s.stack v = some d →
      currentObject name s = .ok d s) ∧
    ((∀ e ∈ s.currents, e.1 ≠ name) →
      currentObject name s = .err ("Could not find current variable `" ++ name ++ "`") s) := by
  constructor
  · intro i v d hi hv hd
    rw [currentObject, EM.bind_ok (show EM.get s = .ok s s from rfl)]
    simp only [findLast_iff.2 hi]
    rw [EM.bind_ok (slotE_ok hv)]
    exact derefE_ok hd
  · intro h
    rw [currentObject, EM.bind_ok (show EM.get s = .ok s s from rfl)]
    simp only [findLast_none_iff.2 h]
    rfl

/-! ## Examples -/

/-- `f("a")` in `Demo.prog` reaches its body with parameter `a` and returns "yes". -/
example : ∃ u w b t, CallRun (Demo.cfg Demo.prog) 9 1 "f" [Demo.str "a"] Demo.inside 1
      (Demo.fn "f" ["a"] true
        [.ite (.call (.binop 4) "equal" [Demo.var "a" 1, Demo.str "a"]) [.ret (Demo.str "yes")] [] none,
         .call (.ret (lib .unwrap)) "unwrap" [Demo.var "a" 1]]) [.str "a"] [] u w b ∧
    u.locals = Demo.inside.locals ∧ u.stack.length = 2 + 1 ∧ u.stack[2]? = some (.str "a") ∧
    eval (Demo.cfg Demo.prog) 10 (.block
      [.ite (.call (.binop 4) "equal" [Demo.var "a" 1, Demo.str "a"]) [.ret (Demo.str "yes")] [] none,
         .call (.ret (lib .unwrap)) "unwrap" [Demo.var "a" 1]]) .right b = .ok (some (.str "yes"), .ret) t ∧
    t.calls = b.calls :=
  ⟨_, _, _, _, ⟨rfl, rfl, fun _ h => absurd h (by simp [Demo.fn]), .cons rfl .nil, .nil, rfl, rfl⟩,
    rfl, rfl, rfl, rfl, rfl⟩

/-- The arguments of `f(x, "b")` change nothing. -/
example : PureArgs (Demo.cfg []) 9 [Demo.var "x" 1, Demo.str "b"] [.ref 0, .str "b"] Demo.inside :=
  .cons rfl (.cons rfl .nil)

/-- A function with a current object `y`, called where two of that name are alive. -/
example : ∃ u w b, CallRun (Demo.cfg [Demo.fn "main" [] false [], ⟨"g", "demo.dyon", [], [], ["y"], false, []⟩])
      9 1 "g" [] { Demo.inside with stack := [.str "o", .str "i"], currents := [("y", 0), ("y", 1)] } 1
      ⟨"g", "demo.dyon", [], [], ["y"], false, []⟩ [] [1] u w b ∧ u.locals = [] :=
  ⟨_, _, _, ⟨rfl, rfl, fun _ h => absurd h (by simp), .nil,
    .cons ⟨[("y", 0)], [], rfl, by simp⟩ .nil, rfl, rfl⟩, rfl⟩

end
end Dyon
