import Verif.Eval.Loops

/-!
# The evaluator

`Runtime::expression`, `src/runtime/mod.rs:571-679`, and the functions it calls.

The Rust functions call each other without bound; here `eval n` evaluates with fuel `n`
and the outcome `timeout` says that the fuel did not suffice.  `evalStep` is one level of
`expression` with the evaluator of sub-expressions as a parameter.
-/

namespace Dyon

/-! ## Grab: `src/grab.rs` -/

/-- A computation of `grab_expr`: `inl x` is `(Grabbed::Variable(x), Flow::Return)`. -/
abbrev GM (α : Type) := EM (Option Val ⊕ α)

/-- `match .. { Ok((Grabbed::Expression(x), Flow::Continue)) => x, x => return x }`. -/
def gbind {α β} (m : GM α) (f : α → GM β) : EM (Option Val ⊕ β) := do
  match ← m with
  | .inl x => pure (.inl x)
  | .inr a => f a

/-- Result of a grab. -/
def gpure {α} (a : α) : EM (Option Val ⊕ α) := pure (.inr a)

/-- The grab expression itself, grab.rs:28-54. -/
def grabHere (n : Nat) (ev : Evl) (side : Side) (e : Expr) : EM (Option Val ⊕ Expr) :=
  wantK ev e side "Expected something" (fun x => pure (.inl x)) fun v => do
    let w ← cloneE n v
    gpure (.const w)

mutual
/-- `grab_expr`, grab.rs:19-694: evaluates the grab expressions of a level and puts the
values in their place. -/
def grabExpr (n : Nat) (ev : Evl) (side : Side) (level : Nat) : Expr → GM Expr
  | .grab l e => if l = level then grabHere n ev side e else gpure (.grab l e)
  | .ret e => gbind (grabExpr n ev side level e) fun e' => gpure (.ret e')
  | .try_ e => gbind (grabExpr n ev side level e) fun e' => gpure (.try_ e')
  | .retVoid => gpure .retVoid
  | .brk l => gpure (.brk l)
  | .cont l => gpure (.cont l)
  | .const v => gpure (.const v)
  | .closure args cur r f e =>
    gbind (grabExpr n ev side (level + 1) e) fun e' => gpure (.closure args cur r f e')
  | .item it => gbind (grabItem n ev side level it) fun it' => gpure (.item it')
  | .block es => gbind (grabList n ev side level es) fun es' => gpure (.block es')
  | .assign op l r =>
    gbind (grabExpr n ev side level l) fun l' =>
    gbind (grabExpr n ev side level r) fun r' => gpure (.assign op l' r')
  | .ite c t elifs els =>
    gbind (grabExpr n ev side level c) fun c' =>
    gbind (grabList n ev side level t) fun t' =>
    gbind (grabConds n ev side level elifs) fun cs' =>
    gbind (grabBlocks n ev side level elifs) fun bs' =>
    gbind (grabOptList n ev side level els) fun els' =>
    gpure (.ite c' t' (cs'.zip bs') els')
  | .go name args => gbind (grabList n ev side level args) fun a => gpure (.go name a)
  | .call f name args => gbind (grabList n ev side level args) fun a => gpure (.call f name a)
  | .callClosure it args =>
    gbind (grabItem n ev side level it) fun it' =>
    gbind (grabList n ev side level args) fun a => gpure (.callClosure it' a)
  | .forN k name start stop body label =>
    gbind (grabOpt n ev side level start) fun start' =>
    gbind (grabExpr n ev side level stop) fun stop' =>
    gbind (grabList n ev side level body) fun body' =>
    gpure (.forN k name start' stop' body' label)
  | .vec4 args => gbind (grabList n ev side level args) fun a => gpure (.vec4 a)
  | .mat4 args => gbind (grabList n ev side level args) fun a => gpure (.mat4 a)
  | .link items => gbind (grabList n ev side level items) fun a => gpure (.link a)
  | .object kvs => gbind (grabKVs n ev side level kvs) fun a => gpure (.object a)
  | .array items => gbind (grabList n ev side level items) fun a => gpure (.array a)
  | .arrayFill f m =>
    gbind (grabExpr n ev side level f) fun f' =>
    gbind (grabExpr n ev side level m) fun m' => gpure (.arrayFill f' m')
  | .for_ i c s b label =>
    gbind (grabExpr n ev side level i) fun i' =>
    gbind (grabExpr n ev side level c) fun c' =>
    gbind (grabExpr n ev side level s) fun s' =>
    gbind (grabList n ev side level b) fun b' => gpure (.for_ i' c' s' b' label)
  | .forIn k name iter body label =>
    gbind (grabExpr n ev side level iter) fun iter' =>
    gbind (grabList n ev side level body) fun body' =>
    gpure (.forIn k name iter' body' label)
  | .swizzle sel e => gbind (grabExpr n ev side level e) fun e' => gpure (.swizzle sel e')
  | .tryExpr e => gbind (grabExpr n ev side level e) fun e' => gpure (.tryExpr e')
  | .in_ f => gpure (.in_ f)
/-- A list of expressions, `grab_block`, grab.rs:696-718. -/
def grabList (n : Nat) (ev : Evl) (side : Side) (level : Nat) : List Expr → GM (List Expr)
  | [] => gpure []
  | e :: es =>
    gbind (grabExpr n ev side level e) fun e' =>
    gbind (grabList n ev side level es) fun es' => gpure (e' :: es')
/-- Key-value pairs, grab.rs:433-451. -/
def grabKVs (n : Nat) (ev : Evl) (side : Side) (level : Nat) :
    List (String × Expr) → GM (List (String × Expr))
  | [] => gpure []
  | (k, e) :: es =>
    gbind (grabExpr n ev side level e) fun e' =>
    gbind (grabKVs n ev side level es) fun es' => gpure ((k, e') :: es')
/-- Conditions of else-if branches, grab.rs:126-135. -/
def grabConds (n : Nat) (ev : Evl) (side : Side) (level : Nat) :
    List (Expr × List Expr) → GM (List Expr)
  | [] => gpure []
  | (c, _) :: es =>
    gbind (grabExpr n ev side level c) fun c' =>
    gbind (grabConds n ev side level es) fun es' => gpure (c' :: es')
/-- Blocks of else-if branches, grab.rs:136-145. -/
def grabBlocks (n : Nat) (ev : Evl) (side : Side) (level : Nat) :
    List (Expr × List Expr) → GM (List (List Expr))
  | [] => gpure []
  | (_, b) :: es =>
    gbind (grabList n ev side level b) fun b' =>
    gbind (grabBlocks n ev side level es) fun es' => gpure (b' :: es')
/-- Optional block, grab.rs:146-154. -/
def grabOptList (n : Nat) (ev : Evl) (side : Side) (level : Nat) :
    Option (List Expr) → GM (Option (List Expr))
  | none => gpure none
  | some es => gbind (grabList n ev side level es) fun es' => gpure (some es')
/-- Optional start, grab.rs:763-769. -/
def grabOpt (n : Nat) (ev : Evl) (side : Side) (level : Nat) :
    Option Expr → GM (Option Expr)
  | none => gpure none
  | some e => gbind (grabExpr n ev side level e) fun e' => gpure (some e')
/-- `grab_item`, grab.rs:720-752. -/
def grabItem (n : Nat) (ev : Evl) (side : Side) (level : Nat) : Item → GM Item
  | .mk name sid cur t ids tids =>
    gbind (grabIds n ev side level ids) fun ids' => gpure (.mk name sid cur t ids' tids)
/-- The properties of an item. -/
def grabIds (n : Nat) (ev : Evl) (side : Side) (level : Nat) : List Id → GM (List Id)
  | [] => gpure []
  | .str s :: r => gbind (grabIds n ev side level r) fun r' => gpure (.str s :: r')
  | .num x :: r => gbind (grabIds n ev side level r) fun r' => gpure (.num x :: r')
  | .expr e :: r =>
    gbind (grabExpr n ev side level e) fun e' =>
    gbind (grabIds n ev side level r) fun r' => gpure (.expr e' :: r')
end

/-! ## Items -/

/-- Where a variable is on the stack (runtime/mod.rs:2409-2465): `stack.len()` minus the
slot computed at load time, or, with `byName` (the feature `debug_lookup`), the last local
with the name in the current call. -/
def slotOf (c : ECfg) (it : Item) (call : CallRec) : EM Nat := do
  let s ← EM.get
  if c.byName then
    match findLast it.name (s.locals.drop call.localLen) with
    | some id => pure id
    | none =>
      match c.lost with
      | some msg => EM.panic msg
      | none =>
        if it.name = "return" then errT ("Requires `->` on function `" ++ call.fnName ++ "`")
        else errT ("Could not find local or current variable `" ++ it.name ++ "`")
  else
    match it.sid with
    | none => EM.panic (c.lost.getD "called `Option::unwrap()` on a `None` value")
    | some d =>
      if d ≤ s.stack.length then pure (s.stack.length - d)
      else EM.panic (c.lost.getD "attempt to subtract with overflow")

/-- "Pre-evaluate expressions for identity", runtime/mod.rs:2514-2524. -/
def pushIds {β} (ev : Evl) (r : Option Val → EM β) : List Id → EM β → EM β
  | [], k => k
  | .expr e :: rest, k =>
    wantK ev e .right "Expected something for index" r fun x => do
      pushE x
      pushIds ev r rest k
  | _ :: rest, k => pushIds ev r rest k

/-- Whether a missing key is inserted, runtime/mod.rs:2531-2534. -/
def Side.insert : Side → Bool
  | .right => false
  | .leftInsert b => b

/-- The message for a value `?` cannot be used on, runtime/mod.rs:2550, 2627. -/
def tryIdMsg (i : Nat) : String :=
  if i = 0 then "Expected `ok(_)` or `err(_)`" else "Expected `ok(_)`, `err(_)`, `bool`, `f64`"

/-- The walk along the properties, runtime/mod.rs:2530-2694: `i` counts the properties,
`tryIds` are the positions with a `?` not yet passed, `p` is the pointer, `j` the number of
computed properties used.  The flag says whether the stack is truncated. -/
def itemWalk (c : ECfg) (startLen : Nat) (side : Side) :
    Nat → List Id → List Nat → Place → Nat → EM (Bool × R)
  | _, [], _, p, _ =>
    match side with
    | .right => do
      let v ← readE p
      pure (true, (some v, .cont))
    | .leftInsert _ => pure (true, (some (.unsafeRef p), .cont))
  | i, prop :: rest, tryIds, p, j => do
    let q ← itemLookup c p prop startLen j side.insert rest.isEmpty
    if tryIds.head? = some i then do
      let v ← readE q.1
      match tryMsg v with
      | none => errT (tryIdMsg i)
      | some (.inl w) => do
        writeE q.1 w
        itemWalk c startLen side (i + 1) rest tryIds.tail q.1 q.2
      | some (.inr (m, t)) => do
        let r ← propagate m t
        pure (false, r)
    else itemWalk c startLen side (i + 1) rest tryIds q.1 q.2

/-- The slot of an item after following one reference, runtime/mod.rs:2485-2489. -/
def refSlot (id : Nat) : EM Nat := do
  match ← slotE id with
  | .ref r => pure r
  | _ => pure id

/-- `Runtime::item`, runtime/mod.rs:2355-2697. -/
def itemE (c : ECfg) (ev : Evl) (it : Item) (side : Side) : EM R := do
  let call ← lastCall
  let id₀ ← slotOf c it call
  let id ← refSlot id₀
  if it.ids.isEmpty then
    if it.tryFlag then do
      let v ← slotE id
      tryVal v
    else pure (some (.ref id), .cont)
  else do
    let s ← EM.get
    scope1 (pushIds ev (fun x => pure (false, (x, .ret))) it.ids
      (itemWalk c s.stack.length side 0 it.ids it.tryIds ⟨id, []⟩ 0))

/-! ## Assignment -/

/-- The pointer of the left side of an assignment, runtime/mod.rs:1960-1973: a reference
stored at the place is replaced by a shallow clone. -/
def targetOf (a : Val) : EM Place :=
  match a with
  | .unsafeRef p => do
    match ← readE p with
    | .ref i => do
      let v ← slotE i
      writeE p v
      pure p
    | _ => pure p
  | .ref i => pure ⟨i, []⟩
  | _ => EM.panic "Expected reference"

/-- `(None, Flow::Continue)`. -/
def noneR : EM R := pure (none, .cont)

section
variable [FloatOps] [VecMath]

/-- The operator table applied through the pointer, runtime/mod.rs:1975-2303. -/
def assignTo (op : AssignOp) (p : Place) (b : Val) : EM R := do
  let d ← derefE b
  let n ← readE p
  if selfAppend op p b n then EM.panic "undefined behaviour"
  else if selfContain op p b then EM.panic "value would contain itself"
  else
    match assignOp op n d with
    | .ok v => do
      writeE p v
      noneR
    | .err m => errT m
    | .panic w => EM.panic w

/-- `Runtime::assign` for all operators but `:=`, runtime/mod.rs:1941-2304. -/
def assignSetE (ev : Evl) (op : AssignOp) (left right : Expr) : EM R :=
  want ev right .right "Expected something from the right side" fun b =>
  want ev left (.leftInsert false) "Expected something from the left side" fun a => do
    let p ← targetOf a
    assignTo op p b

/-- `match x { Variable::Ref(ind) => self.stack[ind].clone(), x => x }`,
runtime/mod.rs:2318-2322. -/
def shallow (x : Val) : EM Val :=
  match x with
  | .ref i => slotE i
  | x => pure x

/-- A new variable, runtime/mod.rs:2339-2344. -/
def declare (it : Item) (v : Val) : EM R := do
  let s ← EM.get
  pushLocal it.name s.stack.length
  if it.current then pushCurrent it.name s.stack.length else pure ()
  pushE v
  noneR

/-- `*r.0 = v` for `:=` with properties, runtime/mod.rs:2334-2337. -/
def storeAt (x v : Val) : EM R :=
  match x with
  | .unsafeRef p => do
    writeE p v
    noneR
  | _ => EM.panic "Expected unsafe reference"

/-- `Runtime::assign` for `:=`, runtime/mod.rs:2305-2350. -/
def declareE (ev : Evl) (left right : Expr) : EM R :=
  match left with
  | .item it =>
    want ev right .right "Expected something from the right side" fun x => do
      let v ← shallow x
      if it.ids.isEmpty then declare it v
      else want ev left (.leftInsert true) "Expected something from the left side" fun y =>
        storeAt y v
  | _ => errT "Expected item"

/-- `Runtime::assign`, runtime/mod.rs:1932-2351. -/
def assignE (ev : Evl) (op : AssignOp) (left right : Expr) : EM R :=
  if op = .assign then declareE ev left right else assignSetE ev op left right

end

/-! ## Calls -/

/-- `call_void`, runtime/mod.rs:1230-1261. -/
def callVoid (c : ECfg) (ev : Evl) (f : Nat) (args : List Expr) : EM R :=
  lazyArgs ev false noValue [] args do
    c.voidFn f
    noneR

/-- `call_return`, runtime/mod.rs:1263-1296. -/
def callReturn (c : ECfg) (ev : Evl) (f : Nat) (args : List Expr) : EM R :=
  lazyArgs ev false noValue [] args do
    let v ← c.retFn f
    pure (some v, .cont)

/-- `call_lazy`, runtime/mod.rs:1391-1456. -/
def callLazy (c : ECfg) (ev : Evl) (f : Nat) (inv : List (List Lazy)) (args : List Expr) :
    EM R :=
  lazyArgs ev false noValue inv args do
    let v ← c.retFn f
    pure (some v, .cont)

/-- `call_binop`, runtime/mod.rs:1298-1351. -/
def callBinop (c : ECfg) (ev : Evl) (f : Nat) (args : List Expr) : EM R :=
  match args with
  | l :: r :: _ =>
    want ev l .right noValue fun x =>
    want ev r .right noValue fun y => do
      let x ← derefE x
      let y ← derefE y
      let v ← liftOp (c.binopFn f x y)
      pure (some v, .cont)
  | _ => EM.panic "index out of bounds"

/-- `call_unop`, runtime/mod.rs:1353-1389. -/
def callUnop (c : ECfg) (ev : Evl) (f : Nat) (args : List Expr) : EM R :=
  match args with
  | e :: _ =>
    want ev e .right noValue fun x => do
      let x ← derefE x
      let v ← liftOp (c.unopFn f x)
      pure (some v, .cont)
  | [] => EM.panic "index out of bounds"

/-- "Look for variable in current stack", runtime/mod.rs:1090-1117, 1535-1562: the current
objects become locals that are references. -/
def pushCurrents : List String → EM Unit
  | [] => pure ()
  | name :: rest => do
    let s ← EM.get
    match findLast name s.currents with
    | some ind => do
      pushLocal name s.stack.length
      pushE (.ref ind)
      pushCurrents rest
    | none => errT ("Could not find current variable `" ++ name ++ "`")

/-- `self.stack[i].deep_clone(&self.stack)` for a list of slots. -/
def cloneAll (n : Nat) : List Val → EM (List Val)
  | [] => pure []
  | v :: vs => do
    let w ← cloneE n v
    let ws ← cloneAll n vs
    pure (w :: ws)

/-- Puts a message into every channel of a list. -/
def deliver (msg : Val) (chans : List Nat) (q : Nat → List Val) : Nat → List Val := fun ch =>
  q ch ++ List.replicate (chans.count ch) msg

/-- "Send arguments to senders", runtime/mod.rs:1563-1589. -/
def notify (c : ECfg) (n idx st : Nat) : EM Unit := do
  let s ← EM.get
  if (s.senders s.module idx).1 then do
    let msg ← cloneAll n (s.stack.drop st)
    EM.modify fun s =>
      let r := sendAll (c.closed s.time) (s.senders s.module idx).2
      { sync c s with
        queues := deliver (.array msg) r.1 (sync c s).queues
        senders := fun m i => if m = s.module ∧ i = idx then (r.2.2, r.2.1) else s.senders m i }
  else pure ()

/-- The arguments as locals (runtime/mod.rs:1130-1133, 1603-1606). -/
def pushArgLocals (st : Nat) : Nat → List String → EM Unit
  | _, [] => pure ()
  | i, a :: as => do
    pushLocal a (st + i)
    pushArgLocals st (i + 1) as

/-- The match on the flow of a function body, runtime/mod.rs:1135-1163, 1608-1636. -/
def bodyFlow (f : Flow) (k : EM R) : EM R :=
  match f with
  | .brk none => errT "Can not break from function"
  | .contLoop none => errT "Can not continue from function"
  | .brk (some l) => errT ("There is no loop labeled `" ++ l ++ "`")
  | .contLoop (some l) => errT ("There is no loop labeled `" ++ l ++ "`")
  | _ => k

/-- The match on the returned value, runtime/mod.rs:1165-1213, 1638-1702. -/
def callResult (returns : Bool) (name : String) (x : Option Val) : EM R :=
  match returns, x with
  | true, none => do
    match ← popE with
    | .ret => errCaller ("Function `" ++ name ++ "` did not return a value")
    | v => pure (some v, .cont)
  | false, some _ => errCaller ("Function `" ++ name ++ "` should not return a value")
  | true, some .ret =>
    errCaller ("Function `" ++ name ++ "` did not return a value. Did you forget a `return`?")
  | true, some v => fun s =>
    -- `self.stack.pop();` ignores an empty stack
    .ok (some v, .cont) { s with stack := s.stack.dropLast }
  | false, none => noneR

/-- From the arguments being on the stack to the result: currents, observers, the call
record, the locals, the body, the result (runtime/mod.rs:1090-1213, 1535-1702).  `st`, `lc`
and `cu` are the lengths before the arguments. -/
def enter (name rname : String) (index : Nat) (file : String) (returns : Bool)
    (args currents : List String) (st lc cu : Nat) (note : EM Unit) (body : EM R) : EM R := do
  pushCurrents currents
  note
  pushFn name index (some file) st lc cu
  if returns then pushLocal "return" (st - 1) else pure ()
  pushArgLocals st 0 args
  let r ← body
  bodyFlow r.2 do
    popFn name
    callResult returns rname r.1

/-- Index of the called function, runtime/mod.rs:1468-1476; none if it does not exist
(`mod_copy.functions[new_index]` panics). -/
def callIndex (f : Int) (relative : Nat) : Option Nat :=
  if 0 ≤ f + relative then some (f + relative).toNat else none

/-- `call_loaded`, runtime/mod.rs:1458-1703. -/
def callLoaded (c : ECfg) (n : Nat) (ev : Evl) (loader : Bool) (f : Int) (name : String)
    (args : List Expr) : EM R := do
  let rel ← if loader then pure 0 else relIndex
  let s ← EM.get
  match callIndex f rel with
  | none => EM.panic "index out of bounds"
  | some idx =>
    match (c.modules s.module)[idx]? with
    | none => EM.panic "index out of bounds"
    | some fn => do
      if fn.returns then pushE .ret else pure ()
      let s ← EM.get
      lazyArgs ev true noValue' fn.lazyInv args <|
        enter name fn.name idx fn.file fn.returns fn.args fn.currents s.stack.length
          s.locals.length s.currents.length (notify c n idx s.stack.length) (block ev fn.body)

/-- `call_internal`, runtime/mod.rs:1710-1730. -/
def callE (c : ECfg) (n : Nat) (ev : Evl) (loader : Bool) (f : FnIndex) (name : String)
    (args : List Expr) : EM R :=
  match f with
  | .void f => callVoid c ev f args
  | .ret f => callReturn c ev f args
  | .lazy f inv => callLazy c ev f inv args
  | .binop f => callBinop c ev f args
  | .unop f => callUnop c ev f args
  | .loaded f => callLoaded c n ev loader f name args
  | .none => errT ("Unknown function `" ++ name ++ "`")

/-- `expression_module`, runtime/mod.rs:552-563: evaluates in another module. -/
def inModule {α} (m : Nat) (act : EM α) : EM α := fun st =>
  match act { st with module := m } with
  | .ok a st' => .ok a { st' with module := st.module }
  | .err e st' => .err e { st' with module := st.module }
  | .panic w => .panic w
  | .timeout => .timeout

/-- The closure a value refers to. -/
def closureOf (v : Val) : EM Clo := do
  match ← derefE v with
  | .closure id => do
    let s ← EM.get
    match s.closures[id]? with
    | some cl => pure cl
    | none => EM.panic "no such closure"
  | x => do
    let s ← EM.get
    errT (stackTrace s.calls ++ "\nExpected `closure`, found `" ++ x.typeofVar ++ "`")

/-- Number of values the arguments of a closure call give, ast/mod.rs:3103-3115. -/
def argLen (args : List Expr) : Nat := (args.map Expr.width).sum

/-- `call_closure`, runtime/mod.rs:1030-1214. -/
def callClosureE (c : ECfg) (ev : Evl) (it : Item) (args : List Expr) : EM R := do
  match ← itemE c ev it .right with
  | (some x, .cont) => do
    let f ← closureOf x
    if argLen args ≠ f.args.length then
      errT ("Expected " ++ toString f.args.length ++ " arguments but found " ++
        toString (argLen args))
    else do
      if f.returns then pushE .ret else pure ()
      let s ← EM.get
      lazyArgs ev true noValue' [] args <|
        enter it.name it.name f.relative f.file f.returns f.args f.currents s.stack.length
          s.locals.length s.currents.length (pure ()) (inModule f.module (ev f.body .right))
  | (x, .ret) => retR x
  | _ => errT "Expected something. Check that item returns a value."

/-! ## Other expressions -/

/-- The loop of `Runtime::link`, runtime/mod.rs:1841-1866. -/
def linkLit (ev : Evl) : List Expr → List Link.Scalar → EM (Bool × R)
  | [], l => pure (true, (some (.link l), .cont))
  | e :: es, l => do
    match ← ev e .right with
    | (some x, .cont) => do
      let d ← derefE x
      match linkPush l d with
      | .ok l' => linkLit ev es l'
      | .error m => errT m
    | (none, .cont) => linkLit ev es l
    | r => pure (false, r)

/-- `Runtime::link`, runtime/mod.rs:1834-1871. -/
def linkE (ev : Evl) (items : List Expr) : EM R :=
  if items.isEmpty then pure (some (.link []), .cont) else scope3 (linkLit ev items [])

/-- `Runtime::object`, runtime/mod.rs:1873-1895. -/
def objectE (ev : Evl) : List (String × Expr) → List (String × Val) → EM R
  | [], acc => pure (some (.object acc), .cont)
  | (k, e) :: rest, acc =>
    want ev e .right "Expected something" fun x =>
      if (acc.lookup k).isSome then errT ("Duplicate key in object `" ++ k ++ "`")
      else objectE ev rest (acc ++ [(k, x)])

/-- `Runtime::array`, runtime/mod.rs:1897-1907. -/
def arrayE (ev : Evl) : List Expr → List Val → EM R
  | [], acc => pure (some (.array acc), .cont)
  | e :: rest, acc =>
    want ev e .right "Expected something" fun x => arrayE ev rest (acc ++ [x])

/-- `Runtime::array_fill`, runtime/mod.rs:1909-1930. -/
def arrayFillE (ev : Evl) (fill m : Expr) : EM R :=
  want ev fill .right "Expected something" fun x =>
  want ev m .right "Expected something" fun k => do
    let x ← derefE x
    match ← derefE k with
    | .f64 v _ => pure (some (.array (List.replicate v.toUsize x)), .cont)
    | _ => errT "Expected number for length in `[value; length]`"

/-- Else-if branches and the else branch, runtime/mod.rs:2723-2747. -/
def elifsE (ev : Evl) (els : Option (List Expr)) : List (Expr × List Expr) → EM R
  | [] => match els with
    | some b => block ev b
    | none => noneR
  | (cond, body) :: rest =>
    want ev cond .right "Expected bool from else if condition" fun x => do
      match ← derefE x with
      | .bool false _ => elifsE ev els rest
      | .bool true _ => block ev body
      | _ => errT "Expected bool from else if condition"

/-- `Runtime::if_expr`, runtime/mod.rs:2698-2748. -/
def iteE (ev : Evl) (cond : Expr) (thn : List Expr) (elifs : List (Expr × List Expr))
    (els : Option (List Expr)) : EM R :=
  want ev cond .right "Expected bool from if condition" fun x => do
    match ← derefE x with
    | .bool true _ => block ev thn
    | .bool false _ => elifsE ev els elifs
    | _ => errT "Expected bool from if condition"

/-- The step of a `for` loop, runtime/mod.rs:2813-2823, 2826-2836. -/
def forStep (ev : Evl) (step : Expr) (k : EM (Unit ⊕ (Bool × R))) :
    EM (Unit ⊕ (Bool × R)) := do
  match ← ev step .right with
  | (none, .cont) => k
  | (x, .ret) => pure (.inr (false, (x, .ret)))
  | _ => errT "Expected nothing from for step"

/-- The body and step of one round, runtime/mod.rs:2785-2837.  `continue` runs the step
without the truncation that follows it otherwise. -/
def forBody (ev : Evl) (step : Expr) (body : List Expr) (label : Option String)
    (st lc : Nat) : EM (Unit ⊕ (Bool × R)) := do
  match ← block ev body with
  | (x, .ret) => pure (.inr (false, (x, .ret)))
  | (_, .cont) => forStep ev step do
    truncStack st
    truncLocals lc
    pure (.inl ())
  | (_, .brk l) => pure (.inr (true, (none, onBreak label l)))
  | (_, .contLoop l) =>
    match onContinue label l with
    | none => forStep ev step (pure (.inl ()))
    | some f => pure (.inr (true, (none, f)))

/-- One round of a `for` loop, runtime/mod.rs:2767-2838.  The condition must be a boolean
itself, a reference is not followed. -/
def forRound (ev : Evl) (cond step : Expr) (body : List Expr) (label : Option String)
    (st lc : Nat) (_ : Unit) : EM (Unit ⊕ (Bool × R)) :=
  wantK ev cond .right "Expected bool from for condition"
      (fun x => pure (.inr (false, (x, .ret)))) fun v =>
    match v with
    | .bool true _ => forBody ev step body label st lc
    | .bool false _ => pure (.inr (true, (none, .cont)))
    | _ => errT "Expected bool"

/-- `Runtime::for_expr`, runtime/mod.rs:2749-2842. -/
def forE (n : Nat) (ev : Evl) (init cond step : Expr) (body : List Expr)
    (label : Option String) : EM R :=
  scope2 do
    match ← ev init .right with
    | (none, .cont) => do
      let s ← EM.get
      loopN n (forRound ev cond step body label s.stack.length s.locals.length) ()
    | (x, .ret) => pure (false, (x, .ret))
    | _ => errT "Expected nothing from for init"

/-- `self.err(.., &self.expected(x, ty))`: the trace is printed twice. -/
def errExpected2 {α} (v : Val) (ty : String) : EM α := do
  let s ← EM.get
  errT (stackTrace s.calls ++ "\nExpected `" ++ ty ++ "`, found `" ++ v.typeofVar ++ "`")

/-- One component of a `vec4` literal, runtime/mod.rs:2862-2866. -/
def popNum : EM F64 := do
  let v ← popE
  match ← derefE v with
  | .f64 x _ => pure x
  | x => errExpected2 x "number"

/-- One row of a `mat4` literal, runtime/mod.rs:2896-2900. -/
def popVec : EM Vec4 := do
  let v ← popE
  match ← derefE v with
  | .vec4 x => pure x
  | x => errExpected2 x "vec4"

section
variable [FloatOps]

/-- `Runtime::vec4`, runtime/mod.rs:2843-2881. -/
def vec4E (ev : Evl) (args : List Expr) (side : Side) : EM R := do
  let s ← EM.get
  vecArgs ev side "Expected something from vec4 argument" (some s.stack.length) args do
    let w ← popNum
    let z ← popNum
    let y ← popNum
    let x ← popNum
    pure (some (.vec4 ⟨FloatOps.toF32 x, FloatOps.toF32 y, FloatOps.toF32 z, FloatOps.toF32 w⟩), .cont)

/-- `Runtime::mat4`, runtime/mod.rs:2882-2920: the rows are stored by columns. -/
def mat4E (ev : Evl) (args : List Expr) (side : Side) : EM R :=
  vecArgs ev side "Expected something from mat4 argument" none args do
    let w ← popVec
    let z ← popVec
    let y ← popVec
    let x ← popVec
    pure (some (.mat4 ⟨⟨x.x, y.x, z.x, w.x⟩, ⟨x.y, y.y, z.y, w.y⟩, ⟨x.z, y.z, z.z, w.z⟩,
      ⟨x.w, y.w, z.w, w.w⟩⟩), .cont)

/-- Pushes the selected components, runtime/mod.rs:1823-1830. -/
def pushComps (v : Vec4) : List Nat → EM Unit
  | [] => pure ()
  | i :: is =>
    match v.nth i with
    | some x => do
      pushE (.ofF64 (FloatOps.ofF32 x))
      pushComps v is
    | none => EM.panic "index out of bounds"

/-- `Runtime::swizzle`, runtime/mod.rs:1801-1832, and its use in `expression`,
runtime/mod.rs:663-666.  A `return` inside loses its value. -/
def swizzleE (ev : Evl) (sel : List Nat) (e : Expr) : EM R :=
  wantK ev e .right "Expected something" (fun _ => pure (none, .ret)) fun x => do
    match ← derefE x with
    | .vec4 v => do
      pushComps v sel
      noneR
    | x => errExpected x "vec4"

end

/-- `Runtime::closure`, runtime/mod.rs:736-769. -/
def closureE (n : Nat) (ev : Evl) (args currents : List String) (returns : Bool)
    (file : String) (e : Expr) : EM R := do
  let rel ← relIndex
  match ← grabExpr n ev .right 1 e with
  | .inl x => retR x
  | .inr e' => do
    let s ← EM.get
    EM.modify fun s =>
      { s with closures := s.closures ++ [⟨args, currents, returns, file, e', s.module, rel⟩] }
    pure (some (.closure s.closures.length), .cont)

/-- `Runtime::try_expr`, runtime/mod.rs:707-734. -/
def tryExprE (ev : Evl) (e : Expr) : EM R := fun st =>
  match ev e .right st with
  | .ok (some x, .cont) st' => .ok (some (.resOk x), .cont) st'
  | .ok (none, .cont) st' => errT "Expected something" st'
  | .ok r st' => .ok r st'
  | .err m st' => .ok (some (.resErr (.str m) []), .cont) { st' with
      calls := st'.calls.take st.calls.length
      stack := st'.stack.take st.stack.length
      locals := st'.locals.take st.locals.length
      currents := st'.currents.take st.currents.length }
  | .panic w => .panic w
  | .timeout => .timeout

/-- `Runtime::try_fun`, runtime/mod.rs:823-879. -/
def tryE (ev : Evl) (e : Expr) (side : Side) : EM R :=
  want ev e side "Expected something" fun x => do
    let d ← derefE x
    tryVal d

/-- `Runtime::in_expr`, runtime/mod.rs:681-705. -/
def inE (c : ECfg) (f : FnIndex) : EM R :=
  match f with
  | .loaded f => do
    let rel ← relIndex
    let s ← EM.get
    match callIndex f rel with
    | none => EM.panic "index out of bounds"
    | some idx =>
      match (c.modules s.module)[idx]? with
      | none => EM.panic "index out of bounds"
      | some _ => do
        EM.modify fun s => { s with
          nchans := s.nchans + 1
          senders := fun m i =>
            if m = s.module ∧ i = idx then (true, (s.senders m i).2 ++ [s.nchans])
            else s.senders m i }
        pure (some (.inTy s.nchans), .cont)
  | _ => errT "Expected loaded function"

/-- The last function with a name in a list, with its position. -/
def lastIdx {α} (p : α → Bool) : List α → Option Nat
  | [] => none
  | x :: xs => match lastIdx p xs with
    | some i => some (i + 1)
    | none => if p x then some 0 else none

/-- `Module::find_function`, module.rs:792-815. -/
def findFunction (c : ECfg) (m : Nat) (name : String) (relative : Nat) : FnIndex :=
  match lastIdx (fun f => f.name = name) (c.modules m) with
  | some i => .loaded ((i : Int) - relative)
  | none => match (c.extNames m).reverse.lookup name with
    | some f => f
    | none => .none

/-- The arguments of `go`, runtime/mod.rs:970-992: deep clones, collected in order. -/
def goArgs (n : Nat) (ev : Evl) : List Expr → List Val → (List Val → EM R) → EM R
  | [], acc, k => k acc
  | a :: as, acc, k =>
    want ev a .right noValue fun x => do
      let v ← cloneE n x
      goArgs n ev as (acc ++ [v]) k

/-- The arguments of the call made in the new thread: references to its own stack,
runtime/mod.rs:987-990. -/
def goRefs (n : Nat) : List Expr := (List.range n).map fun i => .const (.ref (n - i - 1))

/-- `Runtime::go`, runtime/mod.rs:954-1028: records the thread with its new run-time
state. -/
def goE (c : ECfg) (n : Nat) (ev : Evl) (name : String) (args : List Expr) : EM R := do
  let call ← lastCall
  let s ← EM.get
  let f := findFunction c s.module name call.index
  goArgs n ev args [] fun vs => do
    let last ← lastCall
    let s ← EM.get
    EM.modify fun s => { s with
      jobs := s.jobs ++ [{
        module := s.module
        stack := vs.reverse
        call := { last with stackLen := 0, localLen := 0, currentLen := 0 }
        f := f
        name := name
        args := goRefs args.length }] }
    pure (some (.thread (some s.jobs.length)), .cont)

section
variable [FloatOps] [VecMath]

/-- `Runtime::expression`, runtime/mod.rs:571-679, with the evaluator of sub-expressions
`ev` and the fuel `n` for loops and deep clones. -/
def evalStep (c : ECfg) (n : Nat) (ev : Evl) (e : Expr) (side : Side) : EM R :=
  match e with
  | .link items => linkE ev items
  | .object kvs => objectE ev kvs []
  | .array items => arrayE ev items []
  | .arrayFill fill m => arrayFillE ev fill m
  | .block es => block ev es
  | .ret e => want ev e .right "Expected something" fun x => pure (some x, .ret)
  | .retVoid => pure (none, .ret)
  | .brk l => pure (none, .brk l)
  | .cont l => pure (none, .contLoop l)
  | .go name args => goE c n ev name args
  | .call f name args => callE c n ev false f name args
  | .item it => itemE c ev it side
  | .assign op l r => assignE ev op l r
  | .vec4 args => vec4E ev args side
  | .mat4 args => mat4E ev args side
  | .for_ i cnd s b l => forE n ev i cnd s b l
  | .forN .linkFor name start stop body label => do
    let r ← linkForN n ev [] name start stop body label
    pure (linkResult r)
  | .forN k name start stop body label => forNLoop n ev k name start stop body label
  | .forIn .link name iter body label => do
    let r ← linkForIn c n ev [] name iter body label
    pure (linkResult r)
  | .forIn k name iter body label => forInLoop c n ev k name iter body label
  | .ite cnd t elifs els => iteE ev cnd t elifs els
  | .const v => pure (some v, .cont)
  | .try_ e => tryE ev e side
  | .swizzle sel e => swizzleE ev sel e
  | .closure args cur r f e => closureE n ev args cur r f e
  | .callClosure it args => callClosureE c ev it args
  | .grab _ _ => errT "`grab` expressions must be inside a closure"
  | .tryExpr e => tryExprE ev e
  | .in_ f => inE c f

/-- `Runtime::expression` with fuel. -/
def eval (c : ECfg) : Nat → Evl
  | 0 => fun _ _ => EM.timeout
  | n + 1 => evalStep c n (eval c n)

/-! ## Entry points -/

/-- `Runtime::call`, runtime/mod.rs:1216-1228: a call from outside.  The call stack is cut
back whatever happens. -/
def callOutside (c : ECfg) (n : Nat) (f : FnIndex) (name : String) (args : List Expr)
    (m : Nat) : EM R := fun st =>
  match inModule m (callE c n (eval c n) true f name args) st with
  | .ok r st' => .ok r { st' with calls := st'.calls.take st.calls.length }
  | .err e st' => .err e { st' with calls := st'.calls.take st.calls.length }
  | .panic w => .panic w
  | .timeout => .timeout

/-- `Runtime::call_str`, runtime/mod.rs:1732-1762. -/
def callStr (c : ECfg) (n : Nat) (name : String) (args : List Val) (m : Nat) : EM Unit :=
  match findFunction c m name 0 with
  | .loaded f => do
    let _ ← callOutside c n (.loaded f) name (args.map Expr.const) m
    pure ()
  | _ => EM.fail ("Could not find function `" ++ name ++ "`")

/-- `Runtime::call_str_ret`, runtime/mod.rs:1764-1799. -/
def callStrRet (c : ECfg) (n : Nat) (name : String) (args : List Val) (m : Nat) : EM Val :=
  match findFunction c m name 0 with
  | .none => EM.fail ("Could not find function `" ++ name ++ "`")
  | f => do
    match ← callOutside c n f name (args.map Expr.const) m with
    | (some v, .cont) => pure v
    | _ => errT "Expected something"

/-- `Runtime::run`, runtime/mod.rs:881-929. -/
def run (c : ECfg) (n : Nat) (m : Nat) : EM Unit :=
  match findFunction c m "main" 0 with
  | .loaded f =>
    match (c.modules m)[f.toNat]? with
    | none => EM.panic "index out of bounds"
    | some fn =>
      if fn.args.isEmpty then
        inModule m do
          let _ ← callE c n (eval c n) false (.loaded f) "main" []
          pure ()
      else EM.fail "`main` should not have arguments"
  | _ => EM.fail "Could not find function `main`"

/-- The new run-time state of a started thread, runtime/mod.rs:994-1015. -/
def jobState (w : St) (j : Job) : St :=
  { w with module := j.module, stack := j.stack, locals := [], currents := [], calls := [j.call] }

/-- What a started thread computes, runtime/mod.rs:1016-1026. -/
def runJob (c : ECfg) (n : Nat) (j : Job) : EM Val := do
  let r ← callE c n (eval c n) false j.f j.name j.args
  match r.1 with
  | some v => cloneE n v
  | none => do
    let v ← popE
    cloneE n v

end

end Dyon
