import Verif.Eval.Place
import Verif.Eval.Senders

/-!
# Combinators of the evaluator

The pieces the evaluation functions share: evaluating for a value, blocks, scopes,
argument lists, counting loops, channel loops.
-/

namespace Dyon

/-- The evaluator of sub-expressions. -/
abbrev Evl := Expr → Side → EM R

/-- Evaluates for a value: goes on with the value, `return` leaves through `r`, everything
else is an error.  The recurring pattern
`match self.expression(e, side)? { (Some(x), Flow::Continue) => x,
(x, Flow::Return) => return Ok((x, Flow::Return)), _ => return self.err(..) }`. -/
def wantK {β} (ev : Evl) (e : Expr) (side : Side) (msg : String) (r : Option Val → EM β)
    (k : Val → EM β) : EM β := do
  match ← ev e side with
  | (some x, .cont) => k x
  | (x, .ret) => r x
  | _ => errT msg

/-- `return Ok((x, Flow::Return))`. -/
def retR (x : Option Val) : EM R := pure (x, .ret)

/-- `wantK` in a function returning `FlowResult`. -/
def want (ev : Evl) (e : Expr) (side : Side) (msg : String) (k : Val → EM R) : EM R :=
  wantK ev e side msg retR k

/-- Truncates the stack to the length it had before, if the flag of the result says so. -/
def scope1 {α} (m : EM (Bool × α)) : EM α := do
  let s ← EM.get
  let r ← m
  if r.1 then do
    truncStack s.stack.length
    pure r.2
  else pure r.2

/-- Truncates stack and locals to the lengths they had before, if the flag of the result
says so. -/
def scope2 {α} (m : EM (Bool × α)) : EM α := do
  let s ← EM.get
  let r ← m
  if r.1 then do
    truncStack s.stack.length
    truncLocals s.locals.length
    pure r.2
  else pure r.2

/-- Truncates stack, locals and currents to the lengths they had before, if the flag of the
result says so. -/
def scope3 {α} (m : EM (Bool × α)) : EM α := do
  let s ← EM.get
  let r ← m
  if r.1 then do
    truncStack s.stack.length
    truncLocals s.locals.length
    truncCurrents s.currents.length
    pure r.2
  else pure r.2

/-- The loop of `Runtime::block`, runtime/mod.rs:936-947. -/
def seqs (ev : Evl) : List Expr → Option Val → EM (Bool × R)
  | [], x => pure (true, (x, .cont))
  | e :: es, _ => do
    match ← ev e .right with
    | (x, .cont) => seqs ev es x
    | r => pure (true, r)

/-- `Runtime::block`, runtime/mod.rs:931-952. -/
def block (ev : Evl) (es : List Expr) : EM R := scope3 (seqs ev es none)

/-! ## Arguments -/

/-- The value a lazy invariant gives for argument `x` with `d` the variable `x` refers to,
runtime/mod.rs:1404-1428, 1493-1517. -/
def lazyHit (x d : Val) : List Lazy → Option Val
  | [] => none
  | .variable v :: rest => if Val.peq d v then some x else lazyHit x d rest
  | .unwrapOk :: rest => match d with
    | .resOk w => some w
    | _ => lazyHit x d rest
  | .unwrapErr :: rest => match d with
    | .resErr m _ => some m
    | _ => lazyHit x d rest
  | .unwrapSome :: rest => match d with
    | .option (some w) => some w
    | _ => lazyHit x d rest

/-- The check of the lazy invariants of one parameter. -/
def lazyCheck (x : Val) (ls : List Lazy) : EM (Option Val) :=
  if ls.isEmpty then pure none
  else do
    let d ← derefE x
    pure (lazyHit x d ls)

/-- Evaluates arguments and pushes them on the stack; a lazy invariant that holds ends the
call with a value (`call_lazy`, runtime/mod.rs:1398-1443, `call_loaded`, 1487-1533).  Only
`call_loaded` and `call_closure` let an argument without value through (`allowNone`). -/
def lazyArgs (ev : Evl) (allowNone : Bool) (msg : String) :
    List (List Lazy) → List Expr → EM R → EM R
  | _, [], k => k
  | inv, a :: as, k => do
    match ← ev a .right with
    | (some x, .cont) =>
      match ← lazyCheck x (inv.headD []) with
      | some r => pure (some r, .cont)
      | none => do
        pushE x
        lazyArgs ev allowNone msg inv.tail as k
    | (none, .cont) => if allowNone then lazyArgs ev allowNone msg inv.tail as k else errT msg
    | (x, .ret) => retR x
    | _ => errT msg

/-- Message of external calls, runtime/mod.rs:1242-1248. -/
def noValue : String := "Expected something. Expression did not return a value."
/-- Message of loaded calls, runtime/mod.rs:1525-1531. -/
def noValue' : String := "Expected something. Check that expression returns a value."

/-- The arguments of `vec4` and `mat4` literals, runtime/mod.rs:2845-2856, 2883-2890; a
`vec4` skips the rest once four values are on the stack above `st`. -/
def vecArgs (ev : Evl) (side : Side) (msg : String) (limit : Option Nat) :
    List Expr → EM R → EM R
  | [], k => k
  | a :: as, k => do
    match ← ev a side with
    | (some x, .cont) => do
      pushE x
      vecNext limit (vecArgs ev side msg limit as k) k
    | (none, .cont) => vecNext limit (vecArgs ev side msg limit as k) k
    | (x, .ret) => retR x
    | _ => errT msg
where
  /-- `if self.stack.len() - st > 3 { break; }` -/
  vecNext (limit : Option Nat) (more k : EM R) : EM R := do
    let s ← EM.get
    match limit with
    | some st => if 3 < s.stack.length - st then k else more
    | none => more

/-! ## Loop control -/

/-- `break_!`, runtime/for_n.rs:54-79, for_in.rs:35-48, mod.rs:2788-2800: how a loop with
this label ends on `break`. -/
def onBreak (label : Option String) : Option String → Flow
  | none => .cont
  | some l => if label = some l then .cont else .brk (some l)

/-- `continue_!`, runtime/for_n.rs:81-94, for_in.rs:50-63, mod.rs:2801-2824: `none` goes on
with the loop, `some` ends it with a flow. -/
def onContinue (label : Option String) : Option String → Option Flow
  | none => none
  | some l => if label = some l then none else some (.contLoop (some l))

/-- What one round of a loop body asks the loop to do. -/
inductive Round (σ : Type) where
  /-- next round -/
  | go (s : σ)
  /-- leave the loop -/
  | stop (s : σ) (f : Flow)
  /-- leave the function evaluating the loop at once -/
  | exit (r : R)

/-- Evaluates for a number, `start!` and `end!`, runtime/for_n.rs:3-38. -/
def wantNum {β} (ev : Evl) (e : Expr) (msg : String) (r : Option Val → EM β)
    (k : F64 → EM β) : EM β :=
  wantK ev e .right msg r fun x => do
    match ← derefE x with
    | .f64 v _ => k v
    | x => errExpected x "number"

/-- The optional start, runtime/for_n.rs:3-21. -/
def wantStart {β} (ev : Evl) (e : Option Expr) (r : Option Val → EM β) (k : F64 → EM β) :
    EM β :=
  match e with
  | some e => wantNum ev e "Expected number from for start" r k
  | none => k F64.zero

section
variable [FloatOps]

/-- `inc!`, runtime/for_n.rs:96-107. -/
def incSlot (i : Nat) : EM Unit := do
  match ← slotE i with
  | .f64 v sec => writeE ⟨i, []⟩ (.f64 (FloatOps.add v F64.one) sec)
  | x => errExpected x "number"

/-- One round of a counting loop: `cond!`, the body, `inc!`, truncation
(for example runtime/for_n.rs:128-141). -/
def countRound {σ} (st lc : Nat) (stop : F64) (round : σ → F64 → EM (Round σ)) (s : σ) :
    EM (σ ⊕ (Bool × (σ × R))) := do
  match ← slotE (st - 1) with
  | .f64 v _ =>
    if F64.lt v stop then do
      match ← round s v with
      | .go s' => do
        incSlot (st - 1)
        truncStack st
        truncLocals lc
        pure (.inl s')
      | .stop s' f => pure (.inr (true, (s', (none, f))))
      | .exit r => pure (.inr (false, (s, r)))
    else pure (.inr (true, (s, (none, .cont))))
  | x => errExpected x "number"

/-- The frame of every counting loop (for example runtime/for_n.rs:110-145): returns the
final accumulator and the way the loop ended, where a `Flow::Return` carries the returned
value. -/
def countLoop {σ} (n : Nat) (ev : Evl) (name : String) (start : Option Expr) (stop : Expr)
    (s₀ : σ) (round : σ → F64 → EM (Round σ)) : EM (σ × R) :=
  scope2 <|
    wantStart ev start (fun x => pure (false, (s₀, (x, .ret)))) fun a =>
    wantNum ev stop "Expected number from for end" (fun x => pure (false, (s₀, (x, .ret)))) fun b => do
      let s ← EM.get
      pushLocal name s.stack.length
      pushE (.ofF64 a)
      loopN n (countRound (s.stack.length + 1) (s.locals.length + 1) b round) s₀

end

/-! ## Channels -/

/-- Point-wise update. -/
def upd {β} (f : Nat → β) (i : Nat) (v : β) : Nat → β := fun j => if j = i then v else f j

/-- The messages other threads have sent since the last channel operation arrive. -/
def sync (c : ECfg) (st : St) : St :=
  { st with time := st.time + 1, queues := fun ch => st.queues ch ++ c.arrive st.time ch }

/-- `try_recv` (`iter_val!`, `iter_val_inc!`, runtime/for_in.rs:20-33, 65-78): takes the
first message waiting in a channel.  A poisoned mutex is not modelled. -/
def recvE (c : ECfg) (ch : Nat) : EM (Option Val) := fun st =>
  match (sync c st).queues ch with
  | [] => .ok none (sync c st)
  | v :: rest => .ok (some v) { sync c st with queues := upd (sync c st).queues ch rest }

/-- One round of a channel loop after the first message: the body, the next message,
truncation (for example runtime/for_in.rs:99-112). -/
def chanRound {σ} (c : ECfg) (ch st lc : Nat) (round : σ → Nat → EM (Round σ)) (s : σ) :
    EM (σ ⊕ (Bool × (σ × R))) := do
  match ← round s (st - 1) with
  | .go s' =>
    match ← recvE c ch with
    | some v => do
      writeE ⟨st - 1, []⟩ v
      truncStack st
      truncLocals lc
      pure (.inl s')
    | none => pure (.inr (true, (s', (none, .cont))))
  | .stop s' f => pure (.inr (true, (s', (none, f))))
  | .exit r => pure (.inr (false, (s, r)))

/-- The frame of every channel loop (for example runtime/for_in.rs:81-116); `empty` is the
accumulator reported when there is no message at all, in which case the loop returns at
once. -/
def chanLoop {σ} (c : ECfg) (n : Nat) (ev : Evl) (name : String) (iter : Expr)
    (empty s₀ : σ) (round : σ → Nat → EM (Round σ)) : EM (σ × R) :=
  scope2 <|
    wantK ev iter .right "Expected in-type from for iter"
        (fun x => pure (false, (s₀, (x, .ret)))) fun x => do
      match ← derefE x with
      | .inTy ch =>
        match ← recvE c ch with
        | none => pure (false, (empty, (none, .cont)))
        | some v => do
          let s ← EM.get
          pushLocal name s.stack.length
          pushE v
          loopN n (chanRound c ch (s.stack.length + 1) (s.locals.length + 1) round) s₀
      | x => errExpected x "in"

/-! ## Accumulators -/

section
variable [FloatOps]

/-- `f32` one. -/
def one32 : F32 := 0x3f800000#32

/-- Secret of a new witness: the indices of the value, then the index of this loop
(runtime/for_n.rs:286-293). -/
def addSecret (sec : Option (List Val)) (ind : Val) : Option (List Val) :=
  match sec with
  | none => some [ind]
  | some l => some (l ++ [ind])

/-- The start value of a counting loop's accumulator. -/
def ForKind.init : ForKind → Option Val
  | .forN => none
  | .sum => some (.ofF64 F64.zero)
  | .prod => some (.ofF64 F64.one)
  | .sumVec4 => some (.vec4 ⟨F32.zero, F32.zero, F32.zero, F32.zero⟩)
  | .prodVec4 => some (.vec4 ⟨one32, one32, one32, one32⟩)
  | .min => some (.f64 F64.nan none)
  | .max => some (.f64 F64.nan none)
  | .any => some (.bool false none)
  | .all => some (.bool true none)
  | .sift => some (.array [])
  | .linkFor => none

/-- `sum += val`, runtime/for_n.rs:169-180. -/
def accSum (acc : Option Val) (d : Val) : EM (Option Val × Bool) :=
  match acc, d with
  | some (.f64 s sec), .f64 v _ => pure (some (.f64 (FloatOps.add s v) sec), false)
  | _, d => errExpected d "number"

/-- `prod *= val`, runtime/for_n.rs:225-236. -/
def accProd (acc : Option Val) (d : Val) : EM (Option Val × Bool) :=
  match acc, d with
  | some (.f64 s sec), .f64 v _ => pure (some (.f64 (FloatOps.mul s v) sec), false)
  | _, d => errExpected d "number"

/-- `sum[i] += val[i]`, runtime/for_n.rs:715-730. -/
def accSumVec4 (acc : Option Val) (d : Val) : EM (Option Val × Bool) :=
  match acc, d with
  | some (.vec4 s), .vec4 v => pure (some (.vec4 (s.zipWith FloatOps.add32 v)), false)
  | _, d => errExpected d "vec4"

/-- `prod[i] *= val[i]`, runtime/for_n.rs:775-790. -/
def accProdVec4 (acc : Option Val) (d : Val) : EM (Option Val × Bool) :=
  match acc, d with
  | some (.vec4 s), .vec4 v => pure (some (.vec4 (s.zipWith FloatOps.mul32 v)), false)
  | _, d => errExpected d "vec4"

/-- `if min.is_nan() || min > val`, runtime/for_n.rs:281-304. -/
def accMin (ind : Val) (acc : Option Val) (d : Val) : EM (Option Val × Bool) :=
  match acc, d with
  | some (.f64 m sec), .f64 v vsec =>
    if m.isNaN || F64.lt v m then pure (some (.f64 v (addSecret vsec ind)), false)
    else pure (some (.f64 m sec), false)
  | _, d => errExpected d "number"

/-- `if max.is_nan() || max < val`, runtime/for_n.rs:350-373. -/
def accMax (ind : Val) (acc : Option Val) (d : Val) : EM (Option Val × Bool) :=
  match acc, d with
  | some (.f64 m sec), .f64 v vsec =>
    if m.isNaN || F64.lt m v then pure (some (.f64 v (addSecret vsec ind)), false)
    else pure (some (.f64 m sec), false)
  | _, d => errExpected d "number"

/-- runtime/for_n.rs:419-443. -/
def accAny (ind : Val) (acc : Option Val) (d : Val) : EM (Option Val × Bool) :=
  match d with
  | .bool v vsec =>
    if v then pure (some (.bool true (addSecret vsec ind)), true) else pure (acc, false)
  | d => errExpected d "boolean"

/-- runtime/for_n.rs:489-513. -/
def accAll (ind : Val) (acc : Option Val) (d : Val) : EM (Option Val × Bool) :=
  match d with
  | .bool v vsec =>
    if v then pure (acc, false) else pure (some (.bool false (addSecret vsec ind)), true)
  | d => errExpected d "boolean"

/-- `res.push(x)`, runtime/for_n.rs:670. -/
def accSift (acc : Option Val) (x : Val) : EM (Option Val × Bool) :=
  match acc with
  | some (.array xs) => pure (some (.array (xs ++ [x])), false)
  | _ => EM.panic "unreachable"

/-- The error for a body without value in a counting loop (no stack trace). -/
def ForKind.noValue : ForKind → String
  | .min => "Expected `number or option`"
  | .any | .all => "Expected `boolean`"
  | .sift => "Expected variable"
  | .sumVec4 | .prodVec4 => "Expected `vec4`"
  | _ => "Expected `number`"

/-- What a counting loop does with the value of its body: the new accumulator and whether
the loop stops. `ind` is the value of the counter before the body ran. -/
def ForKind.step (k : ForKind) (ind : Val) (acc : Option Val) (x : Option Val) :
    EM (Option Val × Bool) :=
  match k, x with
  | .forN, _ => pure (acc, false)
  | k, none => EM.fail k.noValue
  | .sift, some x => accSift acc x
  | k, some x => do
    let d ← derefE x
    match k with
    | .sum => accSum acc d
    | .prod => accProd acc d
    | .sumVec4 => accSumVec4 acc d
    | .prodVec4 => accProdVec4 acc d
    | .min => accMin ind acc d
    | .max => accMax ind acc d
    | .any => accAny ind acc d
    | .all => accAll ind acc d
    | _ => pure (acc, false)

/-- The start value of a channel loop's accumulator. -/
def ForInKind.init : ForInKind → Option Val
  | .forIn => none
  | .sum => some (.ofF64 F64.zero)
  | .prod => some (.ofF64 F64.one)
  | .min => some (.f64 F64.nan none)
  | .max => some (.f64 F64.nan none)
  | .any => some (.bool false none)
  | .all => some (.bool true none)
  | .sift => some (.array [])
  | .link => none

/-- The error for a body without value in a channel loop (no stack trace). -/
def ForInKind.noValue : ForInKind → String
  | .min | .max => "Expected `number or option`"
  | .sift => "Expected variable"
  | _ => "Expected `boolean`"

/-- What a channel loop does with the value of its body (runtime/for_in.rs); the message
is at stack slot `slot`.  A body without value is ignored by `sum` and `prod`. -/
def ForInKind.step (k : ForInKind) (slot : Nat) (acc : Option Val) (x : Option Val) :
    EM (Option Val × Bool) :=
  match k, x with
  | .forIn, _ => pure (acc, false)
  | .sum, none => pure (acc, false)
  | .prod, none => pure (acc, false)
  | k, none => EM.fail k.noValue
  | .sift, some x => accSift acc x
  | k, some x => do
    let d ← derefE x
    match k with
    | .sum => accSum acc d
    | .prod => accProd acc d
    | .min => do let ind ← slotE slot; accMin ind acc d
    | .max => do let ind ← slotE slot; accMax ind acc d
    | .any => do let ind ← slotE slot; accAny ind acc d
    | .all => do let ind ← slotE slot; accAll ind acc d
    | _ => pure (acc, false)

/-- The match on the flow of the body (for example runtime/for_n.rs:130-137); `step` says
what to do with its value. -/
def bodyRound {σ} (ev : Evl) (body : List Expr) (label : Option String)
    (step : σ → Option Val → EM (σ × Bool)) (s : σ) : EM (Round σ) := do
  match ← block ev body with
  | (x, .ret) => pure (.exit (x, .ret))
  | (x, .cont) => do
    let r ← step s x
    pure (if r.2 then .stop r.1 .cont else .go r.1)
  | (_, .brk l) => pure (.stop s (onBreak label l))
  | (_, .contLoop l) =>
    pure (match onContinue label l with
      | none => .go s
      | some f => .stop s f)

/-- The result of a loop with an accumulator. -/
def accResult (r : Option Val × R) : R :=
  match r with
  | (_, (x, .ret)) => (x, .ret)
  | (s, (_, f)) => (s, f)

/-- The counting loops except link loops, runtime/for_n.rs. -/
def forNLoop (n : Nat) (ev : Evl) (k : ForKind) (name : String) (start : Option Expr)
    (stop : Expr) (body : List Expr) (label : Option String) : EM R := do
  let r ← countLoop n ev name start stop k.init fun s ind =>
    bodyRound ev body label (k.step (.ofF64 ind)) s
  pure (accResult r)

/-- The channel loops except link loops, runtime/for_in.rs. -/
def forInLoop (c : ECfg) (n : Nat) (ev : Evl) (k : ForInKind) (name : String) (iter : Expr)
    (body : List Expr) (label : Option String) : EM R := do
  let r ← chanLoop c n ev name iter none k.init fun s slot =>
    bodyRound ev body label (k.step slot) s
  pure (accResult r)

/-! ## Link loops -/

/-- `'inner: for item in &link.items`, runtime/for_n.rs:566-605, for_in.rs:524-575. -/
def linkItems (ev : Evl) (label : Option String) :
    List Expr → List Link.Scalar → EM (Round (List Link.Scalar))
  | [], l => pure (.go l)
  | e :: es, l => do
    match ← ev e .right with
    | (some x, .cont) => do
      let d ← derefE x
      match linkPush l d with
      | .ok l' => linkItems ev label es l'
      | .error m => errT m
    | (x, .ret) => pure (.exit (x, .ret))
    | (none, .cont) => linkItems ev label es l
    | (_, .brk f) => pure (.stop l (onBreak label f))
    | (_, .contLoop f) =>
      pure (match onContinue label f with
        | none => .go l
        | some f => .stop l f)

/-- The match on the result of a nested link loop, runtime/for_n.rs:606-626. -/
def linkNested (label : Option String) (r : List Link.Scalar × R) : Round (List Link.Scalar) :=
  match r with
  | (l, (none, .cont)) => .go l
  | (l, (_, .brk f)) => .stop l (onBreak label f)
  | (l, (_, .contLoop f)) => match onContinue label f with
    | none => .go l
    | some f => .stop l f
  | (_, r) => .exit r

/-- `sub_link_for_n_expr`, runtime/for_n.rs:542-639.  The fuel also bounds the nesting. -/
def linkForN : Nat → Evl → List Link.Scalar → String → Option Expr → Expr → List Expr →
    Option String → EM (List Link.Scalar × R)
  | 0, _, _, _, _, _, _, _ => EM.timeout
  | n + 1, ev, l, name, start, stop, body, label =>
    countLoop n ev name start stop l fun l _ =>
      match body with
      | .link items :: _ => linkItems ev label items l
      | .forN .linkFor name' start' stop' body' label' :: _ => do
        let r ← linkForN n ev l name' start' stop' body' label'
        pure (linkNested label r)
      | [] => EM.panic "index out of bounds"
      | _ :: _ => EM.panic "Link body is not link"

/-- `sub_link_for_in_expr`, runtime/for_in.rs:502-621. -/
def linkForIn (c : ECfg) : Nat → Evl → List Link.Scalar → String → Expr → List Expr →
    Option String → EM (List Link.Scalar × R)
  | 0, _, _, _, _, _, _ => EM.timeout
  | n + 1, ev, l, name, iter, body, label =>
    chanLoop c n ev name iter l l fun l _ =>
      match body with
      | .link items :: _ => linkItems ev label items l
      | .forIn .link name' iter' body' label' :: _ => do
        let r ← linkForIn c n ev l name' iter' body' label'
        pure (linkNested label r)
      | [] => EM.panic "index out of bounds"
      | _ :: _ => EM.panic "Link body is not link"

/-- The result of a link loop, runtime/for_n.rs:641-645, for_in.rs:623-627. -/
def linkResult (r : List Link.Scalar × R) : R :=
  match r with
  | (l, (none, .cont)) => (some (.link l), .cont)
  | (_, r) => r

end

end Dyon
