/-!
# Model of `src/link.rs`

A link is a vector of slices of reference-counted 124-entry blocks.  Each block
stores 64-bit data words and, two bits per entry, the kind of the entry.

Simplifications (all stated at the definition they concern):
* an `Arc<String>` stored as a raw pointer word is represented by the string
  itself (`Word.ptr`); allocation and freeing of strings is not modelled here;
* an `f64` is represented by its 64-bit pattern (`f64::to_bits`/`from_bits`);
* panics (`assert!`, `panic!`) are the `Outcome.panic` value.

In this file blocks are values (`Arc::make_mut` copies on write, so a push never
writes to a block seen through another handle).  `Verif.Link.Heap` models the
sharing and the in-place writes explicitly and shows that it refines this model.
-/

namespace Dyon.Link

/-- Result of a Rust function that may panic. -/
inductive Outcome (α : Type) where
  | ok (a : α)
  | panic (msg : String)
deriving DecidableEq, Repr

namespace Outcome
variable {α β : Type}

/-- Sequencing: a panic aborts. -/
def bind (x : Outcome α) (f : α → Outcome β) : Outcome β :=
  match x with
  | ok a => f a
  | panic m => panic m

instance : Monad Outcome where
  pure := ok
  bind := bind

end Outcome

/-- `BLOCK_SIZE`, link.rs:7. -/
abbrev blockSize : Nat := 124

/-- `EMPTY`, `BOOL`, `F64`, `STR`, link.rs:9-12. -/
abbrev EMPTY : BitVec 64 := 0
@[inherit_doc EMPTY] abbrev BOOL : BitVec 64 := 1
@[inherit_doc EMPTY] abbrev F64 : BitVec 64 := 2
@[inherit_doc EMPTY] abbrev STR : BitVec 64 := 3

/-- A data word of a block (link.rs:16).  `bits` is a plain 64-bit word, `ptr s`
is the address of an `Arc<String>` holding `s` (simplification: the address is
represented by the string it points to). -/
inductive Word where
  | bits (b : BitVec 64)
  | ptr (s : String)
deriving DecidableEq, Repr

/-- The scalars a link can hold: `bool`, `f64` (as its bit pattern) and `str`,
as returned by `Block::var` (link.rs:35-41).  Values read from a link never have
a secret (`Variable::bool`, `Variable::f64`). -/
inductive Scalar where
  | bool (b : Bool)
  | f64 (bits : BitVec 64)
  | str (s : String)
deriving DecidableEq, Repr

/-- `struct Block`, link.rs:15-18. -/
structure Block where
  data : Vector Word blockSize
  tys : Vector (BitVec 64) 4
deriving DecidableEq

/-- `Block::new`, link.rs:21-26. -/
def Block.new : Block where
  data := Vector.replicate blockSize (.bits 0)
  tys := Vector.replicate 4 0

/-- The two-bit kind of entry `k`: `self.tys[i] >> (j * 2) & 0x3`, link.rs:33-35
and 85-87. -/
def Block.kind (b : Block) (k : Fin blockSize) : BitVec 64 :=
  let i := k.val / 32
  let j := k.val - i * 32
  (b.tys[i]'(by have := k.isLt; simp only [blockSize] at this; omega) >>> (j * 2)) &&& 3

/-- Interpreting a data word by its kind, link.rs:35-41.  Reading a pointer word
as a number (or the other way round) would be undefined behaviour in Rust and is
a panic in the model. -/
def decode (kind : BitVec 64) (w : Word) : Outcome Scalar :=
  if kind = EMPTY then .panic "Reading beyond end"
  else if kind = BOOL then
    match w with
    | .bits d => .ok (.bool (d != 0))
    | .ptr _ => .panic "UB: pointer read as bool"
  else if kind = F64 then
    match w with
    | .bits d => .ok (.f64 d)
    | .ptr _ => .panic "UB: pointer read as f64"
  else if kind = STR then
    match w with
    | .ptr s => .ok (.str s)
    | .bits _ => .panic "UB: bits read as pointer"
  else .panic "Invalid type"

/-- `Block::var`, link.rs:28-42. -/
def Block.var (b : Block) (ind : Nat) : Outcome Scalar :=
  if h : ind < blockSize then
    decode (b.kind ⟨ind, h⟩) b.data[ind]
  else .panic "assertion failed: k < BLOCK_SIZE"

/-- Kind bits written for a scalar, link.rs:57, 64, 71. -/
def Scalar.tag : Scalar → BitVec 64
  | .bool _ => BOOL
  | .f64 _ => F64
  | .str _ => STR

/-- Data word written for a scalar, link.rs:58, 65, 72. -/
def Scalar.word : Scalar → Word
  | .bool v => .bits (if v then 1 else 0)
  | .f64 b => .bits b
  | .str s => .ptr s

/-- `Block::push`, link.rs:44-76, for the three scalar kinds.  Its callers only
pass scalars, so the `_ => panic!` arm (74) is not reachable. -/
def Block.push (b : Block) (v : Scalar) (pos : Nat) : Outcome Block :=
  if h : pos < blockSize then
    let i := pos / 32
    have hi : i < 4 := by simp only [blockSize] at h; omega
    let j := pos - i * 32
    -- Reset bits, then set the new bits.
    let t := b.tys[i] &&& ~~~((3 : BitVec 64) <<< (j * 2))
    let t := t ||| (v.tag <<< (j * 2))
    .ok { tys := b.tys.set i t, data := b.data.set pos v.word }
  else .panic "assertion failed: k < BLOCK_SIZE"

/-- `struct Slice`, link.rs:133-137 (`start`, `end` are `u8`; they never exceed
124, see `Slice.Ok`). -/
structure Slice where
  block : Block
  start : Nat
  stop : Nat
deriving DecidableEq

/-- `Slice::new`, link.rs:140-146. -/
def Slice.new : Slice := { block := Block.new, start := 0, stop := 0 }

/-- `struct Link`, link.rs:151-153. -/
structure Link where
  slices : List Slice
deriving DecidableEq

namespace Link

/-- `Link::new`, link.rs:163-165. -/
def new : Link := { slices := [] }

/-- `Link::head`, link.rs:168-179. -/
def head (l : Link) : Outcome (Option Scalar) :=
  match l.slices with
  | [] => .ok none
  | first :: _ =>
    if first.start < first.stop then do
      let v ← first.block.var first.start
      .ok (some v)
    else .ok none

/-- `Link::tip`, link.rs:182-192. -/
def tip (l : Link) : Outcome (Option Scalar) :=
  match l.slices.getLast? with
  | some last =>
    if last.start < last.stop then do
      let v ← last.block.var (last.stop - 1)
      .ok (some v)
    else .ok none
  | none => .ok none

/-- `Link::tail`, link.rs:197-213. -/
def tail (l : Link) : Link :=
  match l.slices with
  | [] => new
  | first :: rest =>
    if first.start + 1 < first.stop then
      { slices := { first with start := first.start + 1 } :: rest }
    else { slices := rest }

/-- `Link::neck`, link.rs:218-236. -/
def neck (l : Link) : Link :=
  match l.slices.getLast? with
  | some last =>
    let init := l.slices.take (l.slices.length - 1)
    if last.start + 1 < last.stop then
      { slices := init ++ [{ last with stop := last.stop - 1 }] }
    else { slices := init }
  | none => new

/-- `Link::is_empty`, link.rs:239-241. -/
def isEmpty (l : Link) : Bool := l.slices.length == 0

/-- `Link::add`, link.rs:244-249. -/
def add (l other : Link) : Link := { slices := l.slices ++ other.slices }

/-- `Link::push` for a scalar, link.rs:256-271.  The `else` branch (no slice, or
the last block is full) pushes a fresh slice. -/
def pushScalar (l : Link) (v : Scalar) : Outcome Link :=
  let fresh : Outcome Link := do
    let b ← Slice.new.block.push v 0
    .ok { slices := l.slices ++ [{ Slice.new with block := b, stop := 1 }] }
  match l.slices.getLast? with
  | some last =>
    if last.stop < blockSize then do
      let b ← last.block.push v last.stop
      .ok { slices := l.slices.take (l.slices.length - 1)
              ++ [{ last with block := b, stop := last.stop + 1 }] }
    else fresh
  | none => fresh

/-- The inner loop of pushing a link, link.rs:274-276: `for i in start..end`. -/
def pushRange (l : Link) (b : Block) : List Nat → Outcome Link
  | [] => .ok l
  | i :: is => do
    let v ← b.var i
    let l ← l.pushScalar v
    pushRange l b is

/-- The outer loop of pushing a link, link.rs:273-277. -/
def pushSlices (l : Link) : List Slice → Outcome Link
  | [] => .ok l
  | s :: ss => do
    let l ← l.pushRange s.block (List.range' s.start (s.stop - s.start))
    pushSlices l ss

end Link

/-- The kinds of `Variable` that `Link::push` distinguishes (link.rs:255-281):
booleans and numbers with a secret of arbitrary type `S`, strings, links and
everything else. -/
inductive PushArg (S : Type) where
  | bool (b : Bool) (sec : Option S)
  | f64 (bits : BitVec 64) (sec : Option S)
  | str (s : String)
  | link (l : Link)
  | other (typeName : String)

/-- `Link::push`, link.rs:252-282. `none` in the result is the Rust `Err`. -/
def Link.push {S : Type} (l : Link) (v : PushArg S) : Outcome (Option Link) :=
  match v with
  | .bool b _ => do return some (← l.pushScalar (.bool b))
  | .f64 b _ => do return some (← l.pushScalar (.f64 b))
  | .str s => do return some (← l.pushScalar (.str s))
  | .link k => do return some (← l.pushSlices k.slices)
  | .other _ => .ok none

/-- Reading the entries `i, i+1, ...` of a block one by one, write.rs:80-81 and
link.rs:274-275. -/
def Block.read (b : Block) : List Nat → Outcome (List Scalar)
  | [] => .ok []
  | i :: is => do
    let v ← b.var i
    let vs ← b.read is
    .ok (v :: vs)

/-- Iterating over a link as done when it is written out or pushed
(write.rs:79-86, link.rs:273-277): all entries of all slices in order. -/
def itemsOf : List Slice → Outcome (List Scalar)
  | [] => .ok []
  | s :: ss => do
    let vs ← s.block.read (List.range' s.start (s.stop - s.start))
    let ws ← itemsOf ss
    .ok (vs ++ ws)

@[inherit_doc itemsOf]
def Link.items (l : Link) : Outcome (List Scalar) := itemsOf l.slices

end Dyon.Link
