import Verif.Eval.FrameAll
import Mathlib.Data.List.Induction

/-!
# Where variables are: slots computed at load time against names

The compile-time picture of the stack and what it means for it to fit a run-time state.
`Expr.Res` says that every variable of an expression carries the distance from the end of
the stack at which its name was last seen; `Aligned` says that the names seen are the locals
of the running call.
-/

namespace Dyon

/-- The stack as `get_locals` sees it: one entry per stack slot, with the name if it is a
variable (`stack: &mut Vec<Option<Arc<String>>>`, ast/mod.rs:519-540). -/
abbrev Env := List (Option String)

/-- `for (i, n) in stack.iter().rev().enumerate() { if n == name { i + 1 } }`,
ast/mod.rs:2456-2463, on the reversed stack. -/
def distR (name : String) : Env → Option Nat
  | [] => none
  | x :: xs => if x = some name then some 1 else (distR name xs).map (· + 1)

/-- Distance from the end of the stack of the nearest variable with a name. -/
def dist (name : String) (Γ : Env) : Option Nat := distR name Γ.reverse

/-- The variable an assignment declares: `:=` on a plain name. -/
def declName : AssignOp → Expr → Option String
  | .assign, .item it => if it.ids.isEmpty then some it.name else none
  | _, _ => none

/-- What an expression leaves on the compile-time stack. -/
def decl : Expr → Env
  | .assign op l _ => match declName op l with
    | some n => [some n]
    | none => []
  | _ => []

/-- The compile-time stack of a function body or closure body, ast/mod.rs:523-531,
637-645. -/
def fnEnv (returns : Bool) (args currents : List String) : Env :=
  (if returns then [some "return"] else []) ++ args.map some ++ currents.map some

/-- No current object of a function has the name of an argument or `return`. -/
def freshCurrents (args currents : List String) : Prop :=
  ∀ x ∈ currents, x ∉ args ∧ x ≠ "return"

/-- What a call pushes before its arguments. -/
def callPre (k : Ctx) : FnIndex → Env
  | .loaded f => if k.rets f then [none] else []
  | _ => []

mutual
/-- Every variable of the expression carries the slot of the nearest variable with its
name in `Γ`; the expressions under `grab` belong to the enclosing stacks `os`.  `ar` gives
the number of parameters of loaded functions. -/
def Expr.Res (k : Ctx) (ar : Int → Nat) : Expr → Env → List Env → Prop
  | .link items, Γ, os => RSeq k ar items Γ os
  | .object kvs, Γ, os => RKvs k ar kvs Γ os
  | .array items, Γ, os => RAll k ar items Γ os
  | .arrayFill f n, Γ, os => f.Res k ar Γ os ∧ n.Res k ar Γ os
  | .ret e, Γ, os => e.Res k ar Γ os
  | .block es, Γ, os => RSeq k ar es Γ os
  | .go _ args, Γ, os => RAll k ar args Γ os
  | .call f _ args, Γ, os =>
    (match f with
      | .binop _ => RAll k ar args Γ os
      | f => RArgs k ar args (Γ ++ callPre k f) os) ∧
    (match f with
      | .loaded f => argLen args = ar f ∧ vecArgsOk k args = true
      | _ => True)
  | .item it, Γ, os => RItem k ar it Γ os
  | .assign op l r, Γ, os => r.Res k ar Γ os ∧ (declName op l = none → l.Res k ar Γ os)
  | .vec4 args, Γ, os => RArgs k ar args Γ os
  | .mat4 args, Γ, os => RArgs k ar args Γ os
  | .for_ i c s b _, Γ, os =>
    i.Res k ar Γ os ∧ i.isSwizzle = false ∧ c.Res k ar (Γ ++ decl i) os ∧
    s.Res k ar (Γ ++ decl i) os ∧ s.isSwizzle = false ∧ decl s = [] ∧
    RSeq k ar b (Γ ++ decl i) os
  | .forN _ name start stop body _, Γ, os =>
    ROpt k ar start Γ os ∧ stop.Res k ar Γ os ∧ RSeq k ar body (Γ ++ [some name]) os
  | .forIn _ name iter body _, Γ, os =>
    iter.Res k ar Γ os ∧ RSeq k ar body (Γ ++ [some name]) os
  | .ite c t elifs els, Γ, os =>
    c.Res k ar Γ os ∧ RSeq k ar t Γ os ∧ RElifs k ar elifs Γ os ∧ ROptSeq k ar els Γ os
  | .try_ e, Γ, os => e.Res k ar Γ os
  | .swizzle _ e, Γ, os => e.Res k ar Γ os
  | .closure args cur r _ e, Γ, os =>
    r = true ∧ freshCurrents args cur ∧ e.Res k ar (fnEnv r args cur) (Γ :: os)
  | .callClosure it args, Γ, os =>
    RItem k ar it Γ os ∧ vecArgsOk k args = true ∧ RArgs k ar args (Γ ++ [none]) os
  | .grab l e, _, os => 0 < l ∧ ∃ Γ', os[(l - 1 : Nat)]? = some Γ' ∧ e.Res k ar Γ' []
  | .tryExpr e, Γ, os => e.Res k ar Γ os
  | _, _, _ => True
/-- Statements: a declaration is seen by the statements after it. -/
def RSeq (k : Ctx) (ar : Int → Nat) : List Expr → Env → List Env → Prop
  | [], _, _ => True
  | e :: es, Γ, os => e.Res k ar Γ os ∧ e.isSwizzle = false ∧ RSeq k ar es (Γ ++ decl e) os
/-- Expressions that all start from the same stack. -/
def RAll (k : Ctx) (ar : Int → Nat) : List Expr → Env → List Env → Prop
  | [], _, _ => True
  | e :: es, Γ, os => e.Res k ar Γ os ∧ RAll k ar es Γ os
/-- Arguments: each leaves its values on the stack. -/
def RArgs (k : Ctx) (ar : Int → Nat) : List Expr → Env → List Env → Prop
  | [], _, _ => True
  | e :: es, Γ, os => e.Res k ar Γ os ∧ RArgs k ar es (Γ ++ List.replicate e.width none) os
/-- Key-value pairs. -/
def RKvs (k : Ctx) (ar : Int → Nat) : List (String × Expr) → Env → List Env → Prop
  | [], _, _ => True
  | (_, e) :: es, Γ, os => e.Res k ar Γ os ∧ RKvs k ar es Γ os
/-- Else-if branches. -/
def RElifs (k : Ctx) (ar : Int → Nat) : List (Expr × List Expr) → Env → List Env → Prop
  | [], _, _ => True
  | (c, b) :: es, Γ, os => c.Res k ar Γ os ∧ RSeq k ar b Γ os ∧ RElifs k ar es Γ os
/-- Optional blocks. -/
def ROptSeq (k : Ctx) (ar : Int → Nat) : Option (List Expr) → Env → List Env → Prop
  | none, _, _ => True
  | some es, Γ, os => RSeq k ar es Γ os
/-- Optional expressions. -/
def ROpt (k : Ctx) (ar : Int → Nat) : Option Expr → Env → List Env → Prop
  | none, _, _ => True
  | some e, Γ, os => e.Res k ar Γ os
/-- Items: the slot is the one of the nearest variable with the name. -/
def RItem (k : Ctx) (ar : Int → Nat) : Item → Env → List Env → Prop
  | .mk name sid _ _ ids _, Γ, os =>
    sid.isSome ∧ sid = dist name Γ ∧ RIds k ar ids Γ os
/-- Properties: each computed one leaves its value on the stack. -/
def RIds (k : Ctx) (ar : Int → Nat) : List Id → Env → List Env → Prop
  | [], _, _ => True
  | .expr e :: r, Γ, os => e.Res k ar Γ os ∧ RIds k ar r (Γ ++ [none]) os
  | _ :: r, Γ, os => RIds k ar r Γ os
end

/-- Number of parameters of the functions called from function `idx` of module `m`. -/
def arAt (c : ECfg) (m idx : Nat) : Int → Nat := fun f =>
  match callIndex f idx with
  | some i => match (c.modules m)[i]? with
    | some fn => fn.args.length
    | none => 0
  | none => 0

/-- The compile-time stack fits the state: the names on it are the locals of the running
call, at the same places. -/
def Aligned (Γ : Env) (s : St) : Prop :=
  ∃ call, s.calls.getLast? = some call ∧ call.localLen ≤ s.locals.length ∧
    Γ.length ≤ s.stack.length ∧
    ∀ name, findLast name (s.locals.drop call.localLen) = (dist name Γ).map (s.stack.length - ·)

/-- A closure value whose body is resolved. -/
def CloRes (c : ECfg) (va ra : Nat → Nat) (cl : Clo) : Prop :=
  cl.returns = true ∧ freshCurrents cl.args cl.currents ∧
  cl.body.Res (ctxAt c va ra cl.module cl.relative) (arAt c cl.module cl.relative)
    (fnEnv cl.returns cl.args cl.currents) []

/-- Every closure value is resolved. -/
def ClosRes (c : ECfg) (va ra : Nat → Nat) (s : St) : Prop :=
  ∀ cl ∈ s.closures, CloRes c va ra cl

/-- A function whose body is resolved. -/
def FnRes (c : ECfg) (va ra : Nat → Nat) (m idx : Nat) (fn : Func) : Prop :=
  freshCurrents fn.args fn.currents ∧
  RSeq (ctxAt c va ra m idx) (arAt c m idx) fn.body (fnEnv fn.returns fn.args fn.currents) []

/-- Every function of every module is resolved. -/
def ModulesRes (c : ECfg) (va ra : Nat → Nat) : Prop :=
  ∀ m idx fn, (c.modules m)[idx]? = some fn → FnRes c va ra m idx fn

/-- External functions do not make closures. -/
structure ExtStill (c : ECfg) : Prop where
  void : ∀ f st, wp (c.voidFn f) (fun _ s => s.closures = st.closures)
    (fun s => s.closures = st.closures) st
  ret : ∀ f st, wp (c.retFn f) (fun _ s => s.closures = st.closures)
    (fun s => s.closures = st.closures) st

/-- Looking variables up by name instead of by slot (the feature `debug_lookup`), stopping with `lost` at
a variable that is not there. -/
def ECfg.named (c : ECfg) (lost : Option String := none) : ECfg := { c with byName := true, lost := lost }

/-! ## Alignment -/

theorem dist_snoc (name : String) (Γ : Env) (x : Option String) :
    dist name (Γ ++ [x]) = if x = some name then some 1 else (dist name Γ).map (· + 1) := by
  simp [dist, distR]

theorem distR_le {name : String} {Γ : Env} {d} (h : distR name Γ = some d) :
    0 < d ∧ d ≤ Γ.length := by
  induction Γ generalizing d with
  | nil => simp [distR] at h
  | cons x xs ih =>
    rw [distR] at h
    split at h
    · cases h; simp
    · cases hx : distR name xs with
      | none => simp [hx] at h
      | some e =>
        simp only [hx, Option.map_some, Option.some.injEq] at h
        subst h
        have := ih hx
        simp; omega

theorem dist_le {name : String} {Γ : Env} {d} (h : dist name Γ = some d) :
    0 < d ∧ d ≤ Γ.length := by
  have := distR_le h; simpa using this

theorem findLast_append (name : String) (a b : List (String × Nat)) :
    findLast name (a ++ b) = (findLast name b).or (findLast name a) := by
  induction a with
  | nil => simp [findLast]
  | cons x xs ih =>
    obtain ⟨n, i⟩ := x
    simp only [List.cons_append, findLast, ih]
    cases findLast name b <;> simp

theorem findLast_snoc (name : String) (a : List (String × Nat)) (x i) :
    findLast name (a ++ [(x, i)]) = if x = name then some i else findLast name a := by
  rw [findLast_append]
  simp only [findLast]
  split <;> simp

variable {Γ : Env} {st s : St}

theorem Aligned.of_eq (h : Aligned Γ st) (hc : s.calls = st.calls) (hl : s.locals = st.locals)
    (hs : s.stack.length = st.stack.length) : Aligned Γ s := by
  obtain ⟨call, h1, h2, h3, h4⟩ := h
  exact ⟨call, hc ▸ h1, hl ▸ h2, hs ▸ h3, fun name => by rw [hl, hs]; exact h4 name⟩

theorem Aligned.same (h : Aligned Γ st) (hs : Same st s) : Aligned Γ s :=
  h.of_eq hs.calls hs.locals hs.stack

theorem Aligned.pushNone (h : Aligned Γ st) (hc : s.calls = st.calls) (hl : s.locals = st.locals)
    (hs : s.stack.length = st.stack.length + 1) : Aligned (Γ ++ [none]) s := by
  obtain ⟨call, h1, h2, h3, h4⟩ := h
  refine ⟨call, hc ▸ h1, hl ▸ h2, by simp; omega, fun name => ?_⟩
  rw [hl, h4 name, dist_snoc, hs]
  cases dist name Γ <;> simp

theorem Aligned.grown {n} (h : Aligned Γ st) (hg : Grown n st s) :
    Aligned (Γ ++ List.replicate n none) s := by
  induction n generalizing s with
  | zero => simpa using h.same hg.same
  | succ n ih =>
    have hne : s.stack ≠ [] := by
      intro h'; have := hg.5; rw [h'] at this; simp at this
    have h1 := ih (s := { s with stack := s.stack.dropLast })
      ⟨hg.1, hg.2, hg.3, hg.4, by have := hg.5; simp; omega⟩
    rw [List.replicate_succ', ← List.append_assoc]
    exact h1.pushNone rfl rfl (by
      have : 0 < s.stack.length := List.length_pos_iff.2 hne
      simp; omega)

theorem Aligned.pushNamed (h : Aligned Γ st) {x : String} (hc : s.calls = st.calls)
    (hl : s.locals = st.locals ++ [(x, st.stack.length)])
    (hs : s.stack.length = st.stack.length + 1) : Aligned (Γ ++ [some x]) s := by
  obtain ⟨call, h1, h2, h3, h4⟩ := h
  refine ⟨call, hc ▸ h1, by rw [hl]; simp; omega, by simp; omega, fun name => ?_⟩
  rw [hl, List.drop_append_of_le_length h2, findLast_snoc, h4 name, dist_snoc, hs]
  by_cases hx : x = name
  · simp [hx]
  · simp only [hx, Option.some.injEq, if_false]
    cases dist name Γ <;> simp

theorem Aligned.inLoop {name} (h : Aligned Γ st) (hl : InLoop name st s) :
    Aligned (Γ ++ [some name]) s := h.pushNamed hl.calls hl.locals hl.stack

/-- The locals a compile-time stack stands for, from stack position `b`. -/
def slotsOf (b : Nat) : Env → List (String × Nat)
  | [] => []
  | some n :: Γ => (n, b) :: slotsOf (b + 1) Γ
  | none :: Γ => slotsOf (b + 1) Γ

theorem slotsOf_append (b : Nat) (Γ Δ : Env) :
    slotsOf b (Γ ++ Δ) = slotsOf b Γ ++ slotsOf (b + Γ.length) Δ := by
  induction Γ generalizing b with
  | nil => simp [slotsOf]
  | cons x xs ih =>
    cases x <;> simp [slotsOf, ih, Nat.add_comm, Nat.add_left_comm]

theorem findLast_slotsOf (b : Nat) (name : String) (Γ : Env) :
    findLast name (slotsOf b Γ) = (dist name Γ).map (b + Γ.length - ·) := by
  induction Γ using List.reverseRecOn with
  | nil => simp [slotsOf, findLast, dist, distR]
  | append_singleton Γ x ih =>
    rw [slotsOf_append, dist_snoc]
    cases x with
    | none =>
      simp only [slotsOf, List.append_nil, ih]
      cases dist name Γ <;> simp <;> omega
    | some n =>
      rw [slotsOf, slotsOf, findLast_snoc, ih]
      by_cases hx : n = name
      · simp [hx]
      · simp only [hx, Option.some.injEq, if_false]
        cases dist name Γ <;> simp <;> omega

theorem findLast_slotsOf_none {b : Nat} {name : String} {Γ : Env} (h : some name ∉ Γ) :
    findLast name (slotsOf b Γ) = none := by
  induction Γ generalizing b with
  | nil => rfl
  | cons x xs ih =>
    have ih := ih (b := b + 1) (fun hx => h (List.mem_cons_of_mem _ hx))
    cases x with
    | none => exact ih
    | some n =>
      rw [slotsOf, findLast, ih]
      have : n ≠ name := fun hn => h (by simp [hn])
      simp [this]

/-- The locals of a call: current objects first, then `return` and the arguments. -/
theorem aligned_call {call : CallRec} {returns : Bool} {args currents : List String} {b : Nat}
    (hcall : s.calls.getLast? = some call) (hlen : call.localLen ≤ s.locals.length)
    (hloc : s.locals.drop call.localLen =
      slotsOf (b + (if returns then 1 else 0) + args.length) (currents.map some) ++
      slotsOf b ((if returns then [some "return"] else []) ++ args.map some))
    (hst : s.stack.length = b + (if returns then 1 else 0) + args.length + currents.length)
    (hf : freshCurrents args currents) : Aligned (fnEnv returns args currents) s := by
  have hl : (fnEnv returns args currents).length =
      (if returns then 1 else 0) + args.length + currents.length := by
    unfold fnEnv; cases returns <;> simp <;> omega
  refine ⟨call, hcall, hlen, by rw [hl]; omega, fun name => ?_⟩
  have hsl := findLast_slotsOf b name (fnEnv returns args currents)
  have e : b + (fnEnv returns args currents).length = s.stack.length := by rw [hl]; omega
  rw [e] at hsl
  rw [← hsl, hloc]
  unfold fnEnv
  rw [slotsOf_append b (_ ++ _), findLast_append, findLast_append]
  have hpos : b + ((if returns = true then [some "return"] else []) ++ args.map some).length =
      b + (if returns then 1 else 0) + args.length := by
    cases returns <;> simp <;> omega
  rw [hpos]
  by_cases hn : name ∈ currents
  · obtain ⟨h1, h2⟩ := hf name hn
    rw [findLast_slotsOf_none (Γ := _ ++ _)]
    · cases findLast name (slotsOf _ (currents.map some)) <;> simp
    · cases returns <;> simp [h1, h2, Ne.symm h2]
  · rw [findLast_slotsOf_none (Γ := currents.map some) (by simpa using hn)]
    cases findLast name (slotsOf b _) <;> simp

end Dyon
