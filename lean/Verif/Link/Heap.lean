import Verif.Link.Model

/-!
# Links as reference-counted, shared blocks

`Verif.Link.Model` treats the block of a slice as a value.  In the program the
block is an `Arc<Block>`: clones, tails, necks and concatenations share it, and
`Link::push` writes through `Arc::make_mut`, i.e. in place when the reference
count is one and to a fresh copy otherwise.  This file models exactly that, and
a store of any number of live link handles.
-/

namespace Dyon.Link

/-- The allocation behind an `Arc<Block>` (link.rs:134): the block and its
strong reference count.  A count of zero means the block has been dropped;
addresses of dropped blocks are not reused in the model. -/
structure Cell where
  block : Block
  rc : Nat

abbrev Heap := List Cell

/-- `struct Slice`, link.rs:133-137, with the `Arc` as a heap address. -/
structure HSlice where
  bid : Nat
  start : Nat
  stop : Nat
deriving DecidableEq

/-- `struct Link`, link.rs:151-153. -/
abbrev HLink := List HSlice

/-- Following an `Arc`; using a dropped block is an explicit failure. -/
def deref (h : Heap) (bid : Nat) : Outcome Block :=
  match h[bid]? with
  | some c => if c.rc = 0 then .panic "use after free" else .ok c.block
  | none => .panic "dangling"

/-- `Arc::clone`: `slice.clone()` in link.rs:205, 209, 222, 227 and
`extend_from_slice` in 246-247. -/
def incr (h : Heap) (bid : Nat) : Outcome Heap :=
  match h[bid]? with
  | some c => if c.rc = 0 then .panic "use after free"
              else .ok (h.set bid { c with rc := c.rc + 1 })
  | none => .panic "dangling"

/-- Dropping one `Arc`. -/
def decr (h : Heap) (bid : Nat) : Outcome Heap :=
  match h[bid]? with
  | some c => if c.rc = 0 then .panic "double free"
              else .ok (h.set bid { c with rc := c.rc - 1 })
  | none => .panic "dangling"

/-- Cloning all slices of a link (`#[derive(Clone)]`, link.rs:150). -/
def incrAll (h : Heap) : HLink → Outcome Heap
  | [] => .ok h
  | s :: ss => do
    let h ← incr h s.bid
    incrAll h ss

/-- Dropping all slices of a link. -/
def decrAll (h : Heap) : HLink → Outcome Heap
  | [] => .ok h
  | s :: ss => do
    let h ← decr h s.bid
    decrAll h ss

/-- `Arc::make_mut(&mut block)` (link.rs:260, 268): a sole owner keeps its
block, otherwise the block is cloned (`Block::clone`, link.rs:79-105, copies all
words) and the shared one loses a reference. -/
def makeMut (h : Heap) (bid : Nat) : Outcome (Heap × Nat) :=
  match h[bid]? with
  | some c =>
    if c.rc = 0 then .panic "use after free"
    else if c.rc = 1 then .ok (h, bid)
    else .ok (h.set bid { c with rc := c.rc - 1 } ++ [{ block := c.block, rc := 1 }], h.length)
  | none => .panic "dangling"

/-- Writing to a uniquely owned block: `.push(v, pos)` after `Arc::make_mut`. -/
def writeAt (h : Heap) (bid : Nat) (v : Scalar) (pos : Nat) : Outcome Heap :=
  match h[bid]? with
  | some c => do
    let b ← c.block.push v pos
    .ok (h.set bid { c with block := b })
  | none => .panic "dangling"

/-- `Link::push` for a scalar, link.rs:256-271, on shared blocks. -/
def hPushScalar (h : Heap) (l : HLink) (v : Scalar) : Outcome (Heap × HLink) :=
  let fresh : Outcome (Heap × HLink) := do
    -- `self.slices.push(Slice::new())`
    let h1 := h ++ [{ block := Slice.new.block, rc := 1 }]
    let (h2, bid) ← makeMut h1 h.length
    let h3 ← writeAt h2 bid v 0
    .ok (h3, l ++ [{ bid := bid, start := 0, stop := 1 }])
  match l.getLast? with
  | some last =>
    if last.stop < blockSize then do
      let (h1, bid) ← makeMut h last.bid
      let h2 ← writeAt h1 bid v last.stop
      .ok (h2, l.take (l.length - 1) ++ [{ last with bid := bid, stop := last.stop + 1 }])
    else fresh
  | none => fresh

/-- link.rs:274-276 on shared blocks: entries `i` of the block at `bid`. -/
def hPushRange (h : Heap) (l : HLink) (bid : Nat) : List Nat → Outcome (Heap × HLink)
  | [] => .ok (h, l)
  | i :: is => do
    let b ← deref h bid
    let v ← b.var i
    let (h, l) ← hPushScalar h l v
    hPushRange h l bid is

/-- link.rs:273-277 on shared blocks. -/
def hPushSlices (h : Heap) (l : HLink) : HLink → Outcome (Heap × HLink)
  | [] => .ok (h, l)
  | s :: ss => do
    let (h, l) ← hPushRange h l s.bid (List.range' s.start (s.stop - s.start))
    hPushSlices h l ss

/-- The slices of `Link::tail`, link.rs:197-213. -/
def hTail : HLink → HLink
  | [] => []
  | first :: rest =>
    if first.start + 1 < first.stop then { first with start := first.start + 1 } :: rest
    else rest

/-- The slices of `Link::neck`, link.rs:218-236. -/
def hNeck (l : HLink) : HLink :=
  match l.getLast? with
  | some last =>
    let init := l.take (l.length - 1)
    if last.start + 1 < last.stop then init ++ [{ last with stop := last.stop - 1 }]
    else init
  | none => []

/-- Operations on a store of link handles.  Handles are numbered in order of
creation; every link a program holds (in variables, arrays, clones, ...) is one
handle. -/
inductive Op where
  /-- `link {}` -/
  | new
  /-- copying a link value -/
  | clone (i : Nat)
  /-- appending a scalar, link.rs:256-271 -/
  | push (i : Nat) (v : Scalar)
  /-- appending a value that is neither scalar nor link, link.rs:280: an error -/
  | pushOther (i : Nat)
  /-- appending the elements of link `j` to `i`, link.rs:272-279; `i` and `j` are
  different handles (Rust's borrow rules) -/
  | pushLink (i j : Nat)
  | tail (i : Nat)
  | neck (i : Nat)
  /-- `i + j`, link.rs:244-249 -/
  | add (i j : Nat)
  | drop (i : Nat)
deriving DecidableEq, Repr

/-- All live links: `none` is a handle whose link was dropped. -/
structure HState where
  heap : Heap
  store : List (Option HLink)

def HState.init : HState := { heap := [], store := [] }

/-- One operation on the shared representation.  Operations naming a handle that
does not exist (any more) do nothing. -/
def hStep (s : HState) : Op → Outcome HState
  | .new => .ok { s with store := s.store ++ [some []] }
  | .clone i =>
    match s.store[i]? with
    | some (some l) => do
      let h ← incrAll s.heap l
      .ok { heap := h, store := s.store ++ [some l] }
    | _ => .ok s
  | .push i v =>
    match s.store[i]? with
    | some (some l) => do
      let (h, l') ← hPushScalar s.heap l v
      .ok { heap := h, store := s.store.set i (some l') }
    | _ => .ok s
  | .pushOther _ => .ok s
  | .pushLink i j =>
    if i = j then .ok s else
    match s.store[i]?, s.store[j]? with
    | some (some l), some (some k) => do
      let (h, l') ← hPushSlices s.heap l k
      .ok { heap := h, store := s.store.set i (some l') }
    | _, _ => .ok s
  | .tail i =>
    match s.store[i]? with
    | some (some l) => do
      let h ← incrAll s.heap (hTail l)
      .ok { heap := h, store := s.store ++ [some (hTail l)] }
    | _ => .ok s
  | .neck i =>
    match s.store[i]? with
    | some (some l) => do
      let h ← incrAll s.heap (hNeck l)
      .ok { heap := h, store := s.store ++ [some (hNeck l)] }
    | _ => .ok s
  | .add i j =>
    match s.store[i]?, s.store[j]? with
    | some (some l), some (some k) => do
      let h ← incrAll s.heap (l ++ k)
      .ok { heap := h, store := s.store ++ [some (l ++ k)] }
    | _, _ => .ok s
  | .drop i =>
    match s.store[i]? with
    | some (some l) => do
      let h ← decrAll s.heap l
      .ok { heap := h, store := s.store.set i none }
    | _ => .ok s

/-- A history of operations. -/
def hRun (s : HState) : List Op → Outcome HState
  | [] => .ok s
  | op :: ops => do
    let s ← hStep s op
    hRun s ops

/-- Reading one slice of a shared link. -/
def hReadSlice (h : Heap) (s : HSlice) : Outcome Slice := do
  let b ← deref h s.bid
  .ok { block := b, start := s.start, stop := s.stop }

/-- The link a handle denotes: its slices with the blocks looked up. -/
def hLink (h : Heap) : HLink → Outcome (List Slice)
  | [] => .ok []
  | s :: ss => do
    let a ← hReadSlice h s
    let r ← hLink h ss
    .ok (a :: r)

/-- What a program observes of a handle: `head`, `tip`, `is_empty` and the
elements in iteration order, computed by the functions of `link.rs`. -/
structure Obs where
  head : Option Scalar
  tip : Option Scalar
  isEmpty : Bool
  items : List Scalar
deriving DecidableEq, Repr

/-- Observing a link (link.rs:168-192, 239-241, write.rs:79-86). -/
def hObserve (h : Heap) (l : HLink) : Outcome Obs := do
  let ss ← hLink h l
  let k : Link := { slices := ss }
  let hd ← k.head
  let tp ← k.tip
  let it ← k.items
  .ok { head := hd, tip := tp, isEmpty := k.isEmpty, items := it }

end Dyon.Link
