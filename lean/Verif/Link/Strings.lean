import Verif.Link.Heap

/-!
# The strings in blocks of links: `Clone` and `Drop` of `Block`, link.rs:44-125

A block holds strings as raw pointers of `Arc<String>`; storing one adds a reference (`s.clone()` in `Block::push`), copying a block
adds one for each string it comes to, dropping a block takes one away for each.  Here the strings are told apart by their contents: the
number kept for a string is the sum of the counts of all `Arc`s with these contents, without the references that variables have.
Reading an entry (`Block::var`) adds a reference for the variable it is read into and is left out.
-/

namespace Dyon.Link

/-- The entries of a block in order: kind and data. -/
def Block.entries (b : Block) : List (BitVec 64 × Word) := (List.finRange blockSize).map fun k => (b.kind k, b.data[k.val])

/-- The strings that the loops of `Clone` and `Drop` come to, link.rs:84-99 and 111-123: up to the first empty entry. -/
def scan : List (BitVec 64 × Word) → List String
  | [] => []
  | (k, w) :: r =>
    if k = EMPTY then []
    else if k = STR then match w with
      | .ptr s => s :: scan r
      | .bits _ => scan r
    else scan r

/-- Live blocks, and the counts of the strings. -/
structure Pool where
  blocks : List Block
  count : String → Nat

/-- What happens to blocks. -/
inductive BlockOp where
  /-- `Block::new` -/
  | new
  /-- `Block::clone` -/
  | clone (i : Nat)
  /-- `Block::push` -/
  | push (i : Nat) (v : Scalar) (pos : Nat)
  /-- `Block::drop` -/
  | drop (i : Nat)

/-- `s.clone()` in `Block::push`, link.rs:72: one more reference. -/
def Scalar.adds (v : Scalar) (s : String) : Nat := if v = .str s then 1 else 0

/-- One operation, link.rs:21-26, 44-76, 79-105, 107-125.  Operations on a block that is not there do nothing.  Taking away a reference
that is not there would free a string twice, and is a panic in the model. -/
def Pool.step (p : Pool) : BlockOp → Outcome Pool
  | .new => .ok { p with blocks := p.blocks ++ [Block.new] }
  | .clone i => match p.blocks[i]? with
    | some b => .ok { blocks := p.blocks ++ [b], count := fun s => p.count s + (scan b.entries).count s }
    | none => .ok p
  | .push i v pos => match p.blocks[i]? with
    | some b => do
      let b' ← b.push v pos
      .ok { blocks := p.blocks.set i b', count := fun s => p.count s + v.adds s }
    | none => .ok p
  | .drop i => match p.blocks[i]? with
    | some b =>
      if (scan b.entries).all fun s => (scan b.entries).count s ≤ p.count s then
        .ok { blocks := p.blocks.eraseIdx i, count := fun s => p.count s - (scan b.entries).count s }
      else .panic "UB: string freed twice"
    | none => .ok p

/-- A history. -/
def Pool.run (p : Pool) : List BlockOp → Outcome Pool
  | [] => .ok p
  | op :: ops => do
    let p ← p.step op
    p.run ops

end Dyon.Link
