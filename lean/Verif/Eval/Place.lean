import Verif.Eval.State

/-!
# Places: looking up properties and writing to them

`item_lookup`, `src/runtime/mod.rs:138-361`, and the raw pointers it produces.
A pointer `*mut Variable` is a `Place`.  `Arc::make_mut` gives every holder of a shared
array or object its own copy on write; values are trees here, so a write changes exactly
the tree it goes into.
-/

namespace Dyon

/-- Replaces the value of the first pair with a key (`HashMap` slot of an existing key). -/
def setKey (k : String) (v : Val) : List (String × Val) → List (String × Val)
  | [] => []
  | (k', v') :: rest => if k' = k then (k', v) :: rest else (k', v') :: setKey k v rest

/-- `HashMap::insert`: replaces the value of an existing key or adds a pair. -/
def insertKey (k : String) (v : Val) (kvs : List (String × Val)) : List (String × Val) :=
  if (kvs.lookup k).isSome then setKey k v kvs else kvs ++ [(k, v)]

namespace Val

/-- The part of a value one step down. -/
def step (v : Val) (s : Step) : Option Val :=
  match v, s with
  | .object kvs, .key k => kvs.lookup k
  | .array xs, .idx i => xs[i]?
  | _, _ => none

/-- The part of a value at a path. -/
def atPath (v : Val) : List Step → Option Val
  | [] => some v
  | s :: p => match v.step s with
    | some w => w.atPath p
    | none => none

/-- Puts a value one step down. -/
def setStep (v : Val) (s : Step) (w : Val) : Val :=
  match v, s with
  | .object kvs, .key k => .object (setKey k w kvs)
  | .array xs, .idx i => .array (xs.set i w)
  | v, _ => v

/-- Puts a value at a path; nothing changes if the path does not exist. -/
def setPath (v : Val) : List Step → Val → Val
  | [], w => w
  | s :: p, w => match v.step s with
    | some u => v.setStep s (u.setPath p w)
    | none => v

end Val

/-- The value a pointer points to. -/
def readPlace (st : Stack) (p : Place) : Option Val :=
  match st[p.root]? with
  | some v => v.atPath p.path
  | none => none

/-- Writes through a pointer. -/
def writePlace (st : Stack) (p : Place) (w : Val) : Stack :=
  match st[p.root]? with
  | some v => st.set p.root (v.setPath p.path w)
  | none => st

/-- One step further. -/
def Place.down (p : Place) (s : Step) : Place := ⟨p.root, p.path ++ [s]⟩

/-- `*var`. -/
def readE (p : Place) : EM Val := fun st =>
  match readPlace st.stack p with
  | some v => .ok v st
  | none => .panic "index out of bounds"

/-- `*var = v`. -/
def writeE (p : Place) (v : Val) : EM Unit := fun st =>
  match readPlace st.stack p with
  | some _ => .ok () { st with stack := writePlace st.stack p v }
  | none => .panic "index out of bounds"

/-- "Resolve reference": a reference is followed unless this is the last property,
because references are copy-on-write (runtime/mod.rs:202-213, 339-350). -/
def resolveRef (p : Place) (v : Val) (last : Bool) : Place :=
  match v with
  | .ref i => if last then p else ⟨i, []⟩
  | _ => p

/-- The slot of the `j`-th computed property, with one reference resolved
(runtime/mod.rs:158-164, 219-225). -/
def computedSlot (startLen j : Nat) : EM Nat := do
  match ← slotE (startLen + j) with
  | .ref i => pure i
  | _ => pure (startLen + j)

/-- The error for an index outside an array. -/
def errBounds {α} (c : ECfg) (x : F64) : EM α := errT ("Out of bounds `" ++ c.showF64 x ++ "`")

/-- The value of `prev_stack[x]`, the part of the stack below slot `id`
(`split_at_mut`, runtime/mod.rs:226). -/
def prevSlot (id x : Nat) : EM Val := if x < id then slotE x else EM.panic "index out of bounds"

/-- `match ind { F64(id, _) => *id, Ref(x) => .., _ => break }`, runtime/mod.rs:247-257. -/
def indexNumber (id : Nat) (ind : Val) : EM (Option F64) :=
  match ind with
  | .f64 x _ => pure (some x)
  | .ref x => do
    match ← prevSlot id x with
    | .f64 y _ => pure (some y)
    | _ => pure none
  | _ => pure none

/-- `arr = Arc::make_mut(new_arr)`, runtime/mod.rs:288-301: the array to index next. -/
def indexNext (id : Nat) (p : Place) (v : Val) : EM (Option Place) :=
  match v with
  | .array _ => pure (some p)
  | .ref x => do
    match ← prevSlot id x with
    | .array _ => pure (some ⟨x, []⟩)
    | _ => pure none
  | _ => pure none

/-- The pointer after the last index, runtime/mod.rs:274-287: a reference is followed, within the part of the stack below slot `id`,
unless this is the last property. -/
def indexLast (id : Nat) (last : Bool) (p : Place) (v : Val) : EM Place :=
  match v with
  | .ref x => if last then pure p else do
    let _ ← prevSlot id x
    pure ⟨x, []⟩
  | _ => pure p

/-- The error after the loop over an array of indices. -/
def errIndices {α} : EM α := errT "Array of indices did not match lookup array"

/-- The loop over an array of indices, runtime/mod.rs:244-310; `p` points to the array to
index next. -/
def lookupIndices (c : ECfg) (id : Nat) (last : Bool) : Place → List Val → EM Place
  | _, [] => errIndices
  | p, ind :: rest => do
    match ← indexNumber id ind with
    | none => errIndices
    | some x =>
      match ← readE p with
      | .array xs =>
        match xs[x.toUsize]? with
        | none => errBounds c x
        | some v =>
          if rest.isEmpty then indexLast id last (p.down (.idx x.toUsize)) v
          else do
            match ← indexNext id (p.down (.idx x.toUsize)) v with
            | some q => lookupIndices c id last q rest
            | none => errIndices
      | _ => EM.panic "not an array"

/-- The key of a property of an object, runtime/mod.rs:155-186, and the new count of
computed properties. -/
def objectKey (prop : Id) (startLen j : Nat) : EM (String × Nat) :=
  match prop with
  | .str k => pure (k, j)
  | .expr _ => do
    let id ← computedSlot startLen j
    match ← slotE id with
    | .str k => pure (k, j + 1)
    | _ => errT "Expected string"
  | .num _ => errT "Expected string"

/-- The object part of `item_lookup`, runtime/mod.rs:154-214. -/
def lookupObject (p : Place) (kvs : List (String × Val)) (prop : Id) (startLen j : Nat)
    (insert last : Bool) : EM (Place × Nat) := do
  let (k, j) ← objectKey prop startLen j
  match kvs.lookup k with
  | some v => pure (resolveRef (p.down (.key k)) v last, j)
  | none =>
    if insert && last then do
      writeE p (.object (kvs ++ [(k, .ret)]))
      pure (p.down (.key k), j)
    else errT ("Object has no key `" ++ k ++ "`")

/-- One index into an array, runtime/mod.rs:329-350. -/
def lookupIndex (c : ECfg) (p : Place) (xs : List Val) (x : F64) (j : Nat) (last : Bool) :
    EM (Place × Nat) :=
  match xs[x.toUsize]? with
  | none => errBounds c x
  | some v => pure (resolveRef (p.down (.idx x.toUsize)) v last, j)

/-- The array part of `item_lookup`, runtime/mod.rs:215-351.  For an array of indices the
count of computed properties is not increased (there is no `*expr_j += 1` on that
path). -/
def lookupArray (c : ECfg) (p : Place) (xs : List Val) (prop : Id) (startLen j : Nat)
    (last : Bool) : EM (Place × Nat) :=
  match prop with
  | .num x => lookupIndex c p xs x j last
  | .expr _ => do
    let id ← computedSlot startLen j
    match ← slotE id with
    | .f64 x _ => lookupIndex c p xs x (j + 1) last
    | .array inds => do
      let q ← lookupIndices c id last p inds
      pure (q, j)
    | _ => errT "Expected number"
  | .str _ => errT "Expected number"

/-- `item_lookup`, runtime/mod.rs:138-361.  Returns the new pointer and the new count of
computed properties. -/
def itemLookup (c : ECfg) (p : Place) (prop : Id) (startLen j : Nat) (insert last : Bool) :
    EM (Place × Nat) := do
  match ← readE p with
  | .object kvs => lookupObject p kvs prop startLen j insert last
  | .array xs => lookupArray c p xs prop startLen j last
  | _ => errT "Look up requires object or array"

/-! ## The `?` operator -/

/-- `Runtime::try_msg`, runtime/mod.rs:771-821: `some (inl v)` goes on with `v`,
`some (inr (msg, trace))` is an error to propagate, `none` is not a value for `?`. -/
def tryMsg (v : Val) : Option (Val ⊕ (Val × List String)) :=
  match v with
  | .resOk w => some (.inl w)
  | .resErr m t => some (.inr (m, t))
  | .option (some w) => some (.inl w)
  | .option none => some (.inr (.str "Expected `some(_)`, found `none()`", []))
  | .bool true none =>
    some (.inr (.str "This does not make sense, perhaps an array is empty?", []))
  | .bool false _ =>
    some (.inr (.str "Must be `true` to have meaning, try add or remove `!`", []))
  | .bool true (some sec) => some (.inl (.bool true (some sec)))
  | .f64 x sec =>
    if x.isNaN then some (.inr (.str "Expected number, found `NaN`", []))
    else if sec.isNone then
      some (.inr (.str "This does not make sense, perhaps an array is empty?", []))
    else some (.inl (.f64 x sec))
  | _ => none

/-- The error part of `try_fun` (runtime/mod.rs:843-877, 2358-2405 and the copies in
2510-2550, 2585-2625): the enclosing function must have a return slot that is still
empty; the error gets one more line in its trace and is returned from the function. -/
def propagate (msg : Val) (trace : List String) : EM R := do
  let call ← lastCall
  if call.stackLen = 0 then errT ("Requires `->` on function `" ++ call.fnName ++ "`")
  else
    match ← slotE (call.stackLen - 1) with
    | .ret =>
      let file := match call.file with | none => "" | some f => " (" ++ f ++ ")"
      pure (some (.resErr msg (trace ++ ["In function `" ++ call.fnName ++ "`" ++ file])), .ret)
    | _ => errT ("Requires `->` on function `" ++ call.fnName ++ "`")

/-- `try_fun` on a value, runtime/mod.rs:831-879. -/
def tryVal (v : Val) : EM R :=
  match tryMsg v with
  | none => errT "Expected `ok(_)`, `err(_)`, `bool`, `f64`"
  | some (.inl w) => pure (some w, .cont)
  | some (.inr (m, t)) => propagate m t

/-! ## Assignment operators -/

/-- Result of applying an assignment operator to the assigned variable. -/
inductive AssignRes where
  | ok (v : Val)
  /-- an error with a stack trace -/
  | err (msg : String)
  | panic (why : String)

/-- A scalar of a link. -/
def Val.ofScalar : Link.Scalar → Val
  | .bool b => .ofBool b
  | .f64 x => .ofF64 x
  | .str s => .str s

/-- `Link::push`, link.rs:252-282, on links as lists (C01): appends a scalar or the scalars
of a link. -/
def linkPush (l : List Link.Scalar) : Val → Except String (List Link.Scalar)
  | .bool b _ => .ok (l ++ [.bool b])
  | .f64 x _ => .ok (l ++ [.f64 x])
  | .str s => .ok (l ++ [.str s])
  | .link l' => .ok (l ++ l')
  | _ => .error "Expected `bool`, `f64` or `str`"

section
open FloatOps
variable [FloatOps] [VecMath]

/-- `n op= b` on numbers, runtime/mod.rs:1978-1990. -/
def assignF64 (op : AssignOp) (n b : F64) : F64 :=
  match op with
  | .set => b
  | .add => FloatOps.add n b
  | .sub => FloatOps.sub n b
  | .mul => FloatOps.mul n b
  | .div => FloatOps.div n b
  | .rem => FloatOps.rem n b
  | .pow => FloatOps.pow n b
  | .assign => n

/-- `n op= b` on vectors, runtime/mod.rs:2033-2049. -/
def assignVec4 (op : AssignOp) (n b : Vec4) : Vec4 :=
  match op with
  | .set => b
  | .add => n.zipWith add32 b
  | .sub => n.zipWith sub32 b
  | .mul => n.zipWith mul32 b
  | .div => n.zipWith div32 b
  | .rem => n.zipWith rem32 b
  | .pow => n.zipWith pow32 b
  | .assign => n

/-- `n op= b` with a vector on the left and a number on the right,
runtime/mod.rs:1991-2007. -/
def assignVec4F64 (op : AssignOp) (n : Vec4) (b : F32) : AssignRes :=
  match op with
  | .add => .ok (.vec4 (n.map (add32 · b)))
  | .sub => .ok (.vec4 (n.map (sub32 · b)))
  | .mul => .ok (.vec4 (n.map (mul32 · b)))
  | .div => .ok (.vec4 (n.map (div32 · b)))
  | .rem => .ok (.vec4 (n.map (rem32 · b)))
  | .pow => .ok (.vec4 (n.map (pow32 · b)))
  | _ => .err "Expected assigning to a number"

/-- The common part for values that can only be set
(runtime/mod.rs:2157-2290): a slot of the same kind or an empty return slot. -/
def assignSet (op : AssignOp) (same : Bool) (n b : Val) (what : String) : AssignRes :=
  match same, n with
  | true, _ => if op = .set then .ok b else .panic "not implemented"
  | false, .ret => if op = .set then .ok b else .err "Return has no value"
  | false, _ => .err ("Expected assigning to " ++ what)

/-- An empty return slot takes any value with `=`. -/
def assignRet (op : AssignOp) (b : Val) : AssignRes :=
  if op = .set then .ok b else .err "Return has no value"

/-- The operator table of `Runtime::assign`, runtime/mod.rs:1975-2303: the new value of the
assigned variable `n` for the right side `b`. -/
def assignOp (op : AssignOp) (n b : Val) : AssignRes :=
  match b with
  | .f64 x sec => match n with
    | .f64 y _ => .ok (.f64 (assignF64 op y x) sec)
    | .vec4 v => assignVec4F64 op v (toF32 x)
    | .ret => assignRet op b
    | .link l =>
      if op = .add then .ok (.link (l ++ [.f64 x]))
      else .err "Can not use this assignment operator with `link` and `number`"
    | _ => .err "Expected assigning to a number"
  | .vec4 v => match n with
    | .vec4 u => .ok (.vec4 (assignVec4 op u v))
    | .ret => assignRet op b
    | _ => .err "Expected assigning to a vec4"
  | .mat4 m => match n with
    | .mat4 k => match op with
      | .set => .ok (.mat4 m)
      | .mul => .ok (.mat4 (VecMath.colMat4Mul k m))
      | .add => .ok (.mat4 (VecMath.mat4Add k m))
      | .sub => .ok (.mat4 (VecMath.mat4Sub k m))
      | _ => .err "Can not use this assignment operator with `mat4`"
    | .ret => assignRet op b
    | _ => .err "Expected assigning to a mat4"
  | .bool x sec => match n with
    | .bool _ _ => if op = .set then .ok (.bool x sec) else .panic "not implemented"
    | .ret => assignRet op b
    | .link l =>
      if op = .add then .ok (.link (l ++ [.bool x]))
      else .err "Can not use this assignment operator with `link` and `bool`"
    | _ => .err "Expected assigning to a bool"
  | .str s => match n with
    | .str t => match op with
      | .set => .ok (.str s)
      | .add => .ok (.str (t ++ s))
      | _ => .panic "not implemented"
    | .ret => assignRet op b
    | .link l =>
      if op = .add then .ok (.link (l ++ [.str s]))
      else .err "Can not use this assignment operator with `link` and `text`"
    | _ => .err "Expected assigning to text"
  | .object _ => assignSet op (match n with | .object _ => true | _ => false) n b "object"
  | .array _ => assignSet op (match n with | .array _ => true | _ => false) n b "array"
  | .link l => match n with
    | .link k => match op with
      | .set => .ok (.link l)
      | .add => .ok (.link (k ++ l))
      | .sub => .ok (.link (l ++ k))
      | _ => .panic "not implemented"
    | .ret => assignRet op b
    | _ => .err "Expected assigning to link"
  | .option _ => assignSet op (match n with | .option _ => true | _ => false) n b "option"
  | .resOk _ => assignSet op (match n with | .resOk _ => true | .resErr .. => true | _ => false) n b "result"
  | .resErr .. => assignSet op (match n with | .resOk _ => true | .resErr .. => true | _ => false) n b "result"
  | .rustObject _ => assignSet op (match n with | .rustObject _ => true | _ => false) n b "rust_object"
  | .closure _ => assignSet op (match n with | .closure _ => true | _ => false) n b "closure"
  | x => .err ("Can not use this assignment operator with `" ++ x.typeofVar ++ "`")

end

/-- `s += s` on one and the same string variable: `push_str` gets a slice of the string it
grows (runtime/mod.rs:2133), which is undefined behaviour. -/
def selfAppend (op : AssignOp) (p : Place) (b n : Val) : Bool :=
  match op, b, n with
  | .add, .ref i, .str _ => decide (p = ⟨i, []⟩)
  | _, _, _ => false

/-- `a.x = a`: the array or object on the right is the very one the pointer points into, so
storing it (a clone of its `Arc`, runtime/mod.rs:2160-2161, 2179-2180) makes it contain itself.
Values here are finite trees, so the state after such an assignment cannot be
expressed. -/
def selfContain (op : AssignOp) (p : Place) (b : Val) : Bool :=
  match op, b with
  | .set, .ref i => decide (p.root = i) && !p.path.isEmpty
  | _, _ => false

/-! ## Equality used by lazy invariants -/

namespace Val
mutual
/-- `PartialEq for Variable`, lib.rs:323-338. -/
def peq : Val → Val → Bool
  | .bool a _, .bool b _ => a == b
  | .f64 a _, .f64 b _ => F64.feq a b
  | .str a, .str b => a == b
  | .object a, .object b => a.length == b.length && peqObj a b
  | .array a, .array b => peqArr a b
  | _, _ => false
/-- Equality of hash maps of the same size. -/
def peqObj : List (String × Val) → List (String × Val) → Bool
  | [], _ => true
  | (k, v) :: rest, b => (match b.lookup k with | some w => peq v w | none => false) && peqObj rest b
/-- Equality of vectors. -/
def peqArr : List Val → List Val → Bool
  | [], [] => true
  | a :: as, b :: bs => peq a b && peqArr as bs
  | _, _ => false
end
end Val

end Dyon
