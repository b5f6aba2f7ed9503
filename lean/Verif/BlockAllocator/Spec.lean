import Verif.BlockAllocator.Model

/-!
# Histories of a `BlockAllocator` and what the user may rely on
-/

namespace QM.BlockAllocator

/-- States reachable by a program that uses the allocator correctly, with the list of live pointers: it
allocates, frees live pointers, and writes anything anywhere inside live elements. -/
inductive Reach (sz : Nat) : State → List Ptr → Prop
  | init : Reach sz (new sz) []
  | alloc {s live s' p} : Reach sz s live → allocate s = some (s', p) → Reach sz s' (p :: live)
  | free {s live s' p} : Reach sz s live → p ∈ live → deallocate s p = some s' →
      Reach sz s' (live.erase p)
  | write {s live p k v h} : Reach sz s live → p ∈ live → k < s.e →
      wrt s.heap ⟨p.base, p.off + k⟩ v = some h → Reach sz { s with heap := h } live

/-- The element at `p` (of `e` words) lies inside an array that has not been deleted. -/
def Owned (s : State) (p : Ptr) : Prop :=
  ∃ cells, s.heap[p.base]? = some (some cells) ∧ p.off + s.e ≤ cells.length

/-- Two elements share no word. -/
def Disjoint (e : Nat) (p q : Ptr) : Prop :=
  p.base ≠ q.base ∨ p.off + e ≤ q.off ∨ q.off + e ≤ p.off

/-- The user-visible content of the element at `p`. -/
def content (s : State) (p : Ptr) : List (Option Nat) :=
  (List.range s.e).map (fun k => rd s.heap ⟨p.base, p.off + k⟩)

end QM.BlockAllocator
