import Verif.Common.Loop

/-!
# Model of `BlockAllocator` (thread/BlockAllocator.h)

Memory is explicit: the heap is a list of arrays of words, one per `new data_t[]`, addressed by a fresh
number; a deleted array becomes `none`, and words never written are `none`. A pointer is an array number
and a word offset. Every operation returns `none` if it would read or write outside a live array, read an
uninitialised word, or use a null or unrelated pointer.
-/

namespace QM.BlockAllocator

/-- `data_t(-1)`. -/
def npos : Nat := 2 ^ 64 - 1

/-- `elementsPerBlock`, thread/BlockAllocator.h:94-96. -/
def perBlock : Nat := 512

abbrev Heap := List (Option (List (Option Nat)))

structure Ptr where
  base : Nat
  off : Nat
deriving DecidableEq, Repr

/-- `Block`'s data members, thread/BlockAllocator.h:168-172. -/
structure Block where
  block : Option Nat
  firstFreeUnit : Nat
  allocated : Nat
  end_ : Nat

/-- Data members, thread/BlockAllocator.h:175-187, with the heap, and `capacity` the capacity of the vector
of blocks. `freelist` has the back of the vector first. `e` is `elementSizeInDataUnits()`. -/
structure State where
  e : Nat
  blocks : List Block
  capacity : Nat
  freelist : List Nat
  heap : Heap

/-- `elementSizeInDataUnits`, thread/BlockAllocator.h:100-102, with 8-byte words. -/
def elementSizeInDataUnits (sz : Nat) : Nat := (sz + 7) / 8

/-- The constructor, thread/BlockAllocator.h:62, 175-181 (`data.reserve(1024)`). -/
def new (sz : Nat) : State := ⟨elementSizeInDataUnits sz, [], 1024, [], []⟩

/-- Read a word. -/
def rd (h : Heap) (p : Ptr) : Option Nat :=
  match h[p.base]? with
  | some (some cells) => (cells[p.off]?).join
  | _ => none

/-- Write a word. -/
def wrt (h : Heap) (p : Ptr) (v : Nat) : Option Heap :=
  match h[p.base]? with
  | some (some cells) => if p.off < cells.length then some (h.set p.base (some (cells.set p.off (some v)))) else none
  | _ => none

/-- `Block::isFull`, thread/BlockAllocator.h:125-127. -/
def Block.isFull (b : Block) : Prop := b.allocated = perBlock

instance (b : Block) : Decidable b.isFull := by unfold Block.isFull; infer_instance

/-- First half of the first branch of `Block::allocate`, thread/BlockAllocator.h:139-142: create the array if
there is none. -/
def ensure (e : Nat) (h : Heap) (b : Block) : Heap × Nat × Block :=
  match b.block with
  | some a => (h, a, b)
  | none =>
    (h ++ [some (List.replicate (perBlock * (e + 1)) none)], h.length,
      { b with block := some h.length, end_ := 0 })

/-- `Block::allocate(index)`, thread/BlockAllocator.h:135-157. -/
def Block.alloc (e : Nat) (h : Heap) (b : Block) (index : Nat) : Option (Heap × Block × Ptr) :=
  if b.firstFreeUnit = npos then
    let (h, a, b) := ensure e h b
    match wrt h ⟨a, b.end_ + e⟩ index with
    | none => none
    | some h' => some (h', { b with end_ := b.end_ + (e + 1), allocated := b.allocated + 1 }, ⟨a, b.end_⟩)
  else
    match b.block with
    | none => none
    | some a =>
      match rd h ⟨a, b.firstFreeUnit⟩ with
      | none => none
      | some nxt =>
        some (h, { b with firstFreeUnit := nxt, allocated := b.allocated + 1 }, ⟨a, b.firstFreeUnit⟩)

/-- Destroying the old elements when the vector of blocks reallocates, thread/BlockAllocator.h:121-123: the
elements were copied member by member (there is no copy constructor), so the arrays are deleted although
the copies still point to them. -/
def deleteAll (h : Heap) (bs : List Block) : Heap :=
  bs.foldl (fun h b => match b.block with | some a => h.set a none | none => h) h

/-- `m_blocks.data.push_back(Block(this))`, thread/BlockAllocator.h:69; the capacity doubles on
reallocation. -/
def pushBlock (s : State) : State :=
  if s.blocks.length < s.capacity then { s with blocks := s.blocks ++ [⟨none, npos, 0, 0⟩] }
  else { s with heap := deleteAll s.heap s.blocks, capacity := 2 * s.capacity,
                blocks := s.blocks ++ [⟨none, npos, 0, 0⟩] }

/-- Lines 67-70 of `allocate`. -/
def ensureFree (s : State) : State :=
  if s.freelist = [] then { pushBlock s with freelist := [s.blocks.length] } else s

/-- `allocate`, thread/BlockAllocator.h:64-78. -/
def allocate (s : State) : Option (State × Ptr) :=
  let s := ensureFree s
  match s.freelist with
  | [] => none
  | index :: rest =>
    match s.blocks[index]? with
    | none => none
    | some b =>
      match b.alloc s.e s.heap index with
      | none => none
      | some (h, b', p) =>
        some ({ s with heap := h, blocks := s.blocks.set index b',
                       freelist := if b'.isFull then rest else index :: rest }, p)

/-- `Block::deallocate` and `clear`, thread/BlockAllocator.h:129-133, 159-165. The decrement of a zero count
is an error. -/
def Block.dealloc (h : Heap) (b : Block) (p : Ptr) : Option (Heap × Block) :=
  match wrt h p b.firstFreeUnit, b.block with
  | some h, some a =>
    if a ≠ p.base ∨ b.allocated = 0 then none
    else if b.allocated - 1 = 0 then
      some (h.set a none, { b with block := none, firstFreeUnit := npos, allocated := 0 })
    else some (h, { b with firstFreeUnit := p.off, allocated := b.allocated - 1 })
  | _, _ => none

/-- `deallocate`, thread/BlockAllocator.h:80-91, for a non-null pointer. -/
def deallocate (s : State) (p : Ptr) : Option State :=
  match rd s.heap ⟨p.base, p.off + s.e⟩ with
  | none => none
  | some idx =>
    match s.blocks[idx]? with
    | none => none
    | some b =>
      let fl := if b.isFull then idx :: s.freelist else s.freelist
      match b.dealloc s.heap p with
      | none => none
      | some (h, b') => some { s with heap := h, blocks := s.blocks.set idx b', freelist := fl }

end QM.BlockAllocator
