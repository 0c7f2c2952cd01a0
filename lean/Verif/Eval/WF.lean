import Verif.Eval.Eval

/-!
# Programs the loader lets through

Conditions on programs used by the theorems about the evaluator.  `Valued` says that an
expression gives a value whenever it goes on normally; `Expr.WF` says that calls of
external functions have the right number of arguments, that a lazy invariant of an
external function is on its first parameter, and that the arguments of vectors and
matrices give values.
-/

namespace Dyon

/-- What is known about the functions an expression calls: which loaded functions (by
relative index) return a value, and how many arguments the external functions take. -/
structure Ctx where
  rets : Int → Bool
  voidAr : Nat → Nat
  retAr : Nat → Nat

/-- A swizzle. -/
def Expr.isSwizzle : Expr → Bool
  | .swizzle .. => true
  | _ => false

mutual
/-- Expressions that may leave something on the stacks without giving a value:
declarations, swizzles, `for` loops (whose initialiser may declare a current object), and
links and `try` around them (on a `break` or `continue`). -/
def Expr.leaves : Expr → Bool
  | .assign .. => true
  | .for_ .. => true
  | .swizzle .. => true
  | .link items => leavesAny items
  | .tryExpr e => e.leaves
  | _ => false
/-- Some expression of a list leaves something. -/
def leavesAny : List Expr → Bool
  | [] => false
  | e :: es => e.leaves || leavesAny es
end

mutual
/-- The expression gives a value whenever it goes on normally. -/
def Valued (k : Ctx) : Expr → Bool
  | .assign .. => false
  | .for_ .. => false
  | .forIn .. => false
  | .swizzle .. => false
  | .callClosure .. => false
  | .forN kd .. => kd ≠ .forN
  | .call (.void _) .. => false
  | .call (.loaded f) .. => k.rets f
  | .block es => ValuedLast k es
  | .ite _ t elifs (some els) => ValuedLast k t && ValuedBlocks k elifs && ValuedLast k els
  | .ite _ _ _ none => false
  | _ => true
/-- The last expression gives a value. -/
def ValuedLast (k : Ctx) : List Expr → Bool
  | [] => false
  | e :: es => if es.isEmpty then Valued k e else ValuedLast k es
/-- Every else-if branch gives a value. -/
def ValuedBlocks (k : Ctx) : List (Expr × List Expr) → Bool
  | [] => true
  | (_, b) :: rest => ValuedLast k b && ValuedBlocks k rest
end

/-- Every argument of a vector gives a value or is a swizzle. -/
def vecArgsOk (k : Ctx) : List Expr → Bool
  | [] => true
  | e :: es => (Valued k e || e.isSwizzle) && vecArgsOk k es

/-- The widths of the arguments reach `r` without overshooting. -/
def fits : List Expr → Nat → Bool
  | _, 0 => true
  | [], _ + 1 => false
  | e :: es, r + 1 => decide (e.width ≤ r + 1) && fits es (r + 1 - e.width)

mutual
/-- Well-formed expressions. -/
def Expr.WF (k : Ctx) : Expr → Prop
  | .link items => WFs k items
  | .object kvs => WFkvs k kvs
  | .array items => WFs k items
  | .arrayFill f n => f.WF k ∧ n.WF k
  | .ret e => e.WF k
  | .block es => WFs k es
  | .go _ args => WFs k args
  | .call f _ args => WFs k args ∧ (match f with
      | .void f => args.length = k.voidAr f
      | .ret f => args.length = k.retAr f
      | .lazy f inv => args.length = k.retAr f ∧ ∀ l ∈ inv.tail, l = []
      | _ => True)
  | .item it => WFitem k it
  | .assign _ l r => l.WF k ∧ r.WF k
  | .vec4 args => WFs k args ∧ vecArgsOk k args ∧ fits args 4
  | .mat4 args => WFs k args ∧ vecArgsOk k args ∧ (args.map Expr.width).sum = 4
  | .for_ i c s b _ => i.WF k ∧ c.WF k ∧ s.WF k ∧ WFs k b
  | .forN kd _ start stop body _ =>
    WFopt k start ∧ stop.WF k ∧ WFs k body ∧ (kd = .linkFor → linkBody body)
  | .forIn kd _ iter body _ => iter.WF k ∧ WFs k body ∧ (kd = .link → linkBody body)
  | .ite c t elifs els => c.WF k ∧ WFs k t ∧ WFelifs k elifs ∧ WFoptList k els
  | .try_ e => e.WF k
  | .swizzle _ e => e.WF k
  | .closure _ _ _ _ e => e.WF k
  | .callClosure it args => WFitem k it ∧ WFs k args
  | .grab _ e => e.WF k
  | .tryExpr e => e.WF k
  | _ => True
/-- Lists. -/
def WFs (k : Ctx) : List Expr → Prop
  | [] => True
  | e :: es => e.WF k ∧ WFs k es
/-- Key-value pairs. -/
def WFkvs (k : Ctx) : List (String × Expr) → Prop
  | [] => True
  | (_, e) :: es => e.WF k ∧ WFkvs k es
/-- Else-if branches. -/
def WFelifs (k : Ctx) : List (Expr × List Expr) → Prop
  | [] => True
  | (c, b) :: es => c.WF k ∧ WFs k b ∧ WFelifs k es
/-- Optional blocks. -/
def WFoptList (k : Ctx) : Option (List Expr) → Prop
  | none => True
  | some es => WFs k es
/-- Optional expressions. -/
def WFopt (k : Ctx) : Option Expr → Prop
  | none => True
  | some e => e.WF k
/-- Items. -/
def WFitem (k : Ctx) : Item → Prop
  | .mk _ _ _ _ ids _ => WFids k ids
/-- Properties. -/
def WFids (k : Ctx) : List Id → Prop
  | [] => True
  | .expr e :: r => e.WF k ∧ WFids k r
  | _ :: r => WFids k r
/-- The items of the link in the body of a link loop leave nothing on the stacks. -/
def linkBody : List Expr → Prop
  | .link items :: _ => ∀ e ∈ items, e.leaves = false
  | _ => True
end

/-- What is known about the functions called from function `idx` of module `m`. -/
def ctxAt (c : ECfg) (va ra : Nat → Nat) (m idx : Nat) : Ctx where
  rets f := match callIndex f idx with
    | some i => match (c.modules m)[i]? with
      | some fn => fn.returns
      | none => false
    | none => false
  voidAr := va
  retAr := ra

/-- The relative index in a state (`self.call_stack.last().map(|c| c.index).unwrap_or(0)`). -/
def St.rel (s : St) : Nat := (s.calls.getLast?.map CallRec.index).getD 0

/-! ## Relations between states -/

/-- Module, calls, locals and currents are equal, the stack has the same length. -/
structure Same (a b : St) : Prop where
  module : b.module = a.module
  calls : b.calls = a.calls
  locals : b.locals = a.locals
  currents : b.currents = a.currents
  stack : b.stack.length = a.stack.length

/-- Module and calls are equal, nothing was taken from the stacks. -/
structure Ext (a b : St) : Prop where
  module : b.module = a.module
  calls : b.calls = a.calls
  locals : a.locals <+: b.locals
  currents : a.currents <+: b.currents
  stack : a.stack.length ≤ b.stack.length

/-- As `Ext`, and there may be more calls: what an error leaves behind. -/
structure ExtE (a b : St) : Prop where
  module : b.module = a.module
  calls : a.calls <+: b.calls
  locals : a.locals <+: b.locals
  currents : a.currents <+: b.currents
  stack : a.stack.length ≤ b.stack.length

/-- Every closure value has a well-formed body. -/
def ClosuresWF (c : ECfg) (va ra : Nat → Nat) (s : St) : Prop :=
  ∀ cl ∈ s.closures, cl.body.WF (ctxAt c va ra cl.module cl.relative)

/-- External functions take their arguments from the stack and leave the rest alone. -/
structure ExtFns (c : ECfg) (va ra : Nat → Nat) : Prop where
  void : ∀ f st, va f ≤ st.stack.length → ClosuresWF c va ra st →
    match c.voidFn f st with
    | .ok _ s => Same { st with stack := st.stack.take (st.stack.length - va f) } s ∧
        ClosuresWF c va ra s
    | .err _ s => ExtE { st with stack := st.stack.take (st.stack.length - va f) } s ∧
        ClosuresWF c va ra s
    | _ => True
  ret : ∀ f st, ra f ≤ st.stack.length → ClosuresWF c va ra st →
    match c.retFn f st with
    | .ok _ s => Same { st with stack := st.stack.take (st.stack.length - ra f) } s ∧
        ClosuresWF c va ra s
    | .err _ s => ExtE { st with stack := st.stack.take (st.stack.length - ra f) } s ∧
        ClosuresWF c va ra s
    | _ => True

/-- Every function of every module is well-formed and has no lazy invariants. -/
def ModulesWF (c : ECfg) (va ra : Nat → Nat) : Prop :=
  ∀ m idx fn, (c.modules m)[idx]? = some fn →
    WFs (ctxAt c va ra m idx) fn.body ∧ ∀ l ∈ fn.lazyInv, l = []

end Dyon
