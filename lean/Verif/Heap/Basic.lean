import Mathlib.Data.Multiset.Filter
import Mathlib.Data.Multiset.MapFold
import Mathlib.Data.Finset.Sum
import Mathlib.Algebra.BigOperators.Group.Finset.Basic
import Mathlib.Algebra.Order.BigOperators.Group.Multiset
import Mathlib.Tactic.Abel

/-!
# The heap

The blocks of memory that a program has allocated and not yet released, for the functions whose allocations are modelled. A block has an address, which is never used again, and a size in
bytes.
-/

namespace QM.Heap

/-- The heap: the next address and the live blocks, address and size. -/
structure Heap where
  next : Nat
  live : Multiset (Nat × Nat)

/-- Programs that allocate and release memory; `none` is undefined behaviour. -/
def M (α : Type) := Heap → Option (α × Heap)

/-- The result of a program without effects. -/
def ret {α : Type} (a : α) : M α := fun h => some (a, h)

/-- One program after another. -/
def bind {α β : Type} (f : M α) (g : α → M β) : M β := fun h => (f h).bind fun r => g r.1 r.2

instance : Monad M where
  pure := ret
  bind := bind

/-- `malloc` and `new`, which are taken not to fail. -/
def malloc (size : Nat) : M Nat := fun h => some (h.next, ⟨h.next + 1, (h.next, size) ::ₘ h.live⟩)

/-- `free` and `delete`: undefined for what is not a live block. -/
def free (p : Nat) : M Unit := fun h => if p ∈ h.live.map Prod.fst then some ((), ⟨h.next, h.live.filter (·.1 ≠ p)⟩) else none

/-- A use of a block: undefined if it is not live. -/
def use (p : Nat) : M Unit := fun h => if p ∈ h.live.map Prod.fst then some ((), h) else none

/-- `for (i = 0; i < n; ++i) …`, with the results in a list. -/
def rep {α : Type} : Nat → M α → M (List α)
  | 0, _ => ret []
  | n + 1, f => bind (rep n f) fun l => bind f fun a => ret (l ++ [a])

/-- `for (i = 0; i < n; ++i) …`, without results. -/
def each : Nat → (Nat → M Unit) → M Unit
  | 0, _ => ret ()
  | n + 1, f => bind (each n f) fun _ => f n

/-- The element `i` of a list of pointers. -/
def rd {α : Type} (l : List α) (i : Nat) : M α := fun h => (l[i]?).map fun a => (a, h)

/-- One block. -/
abbrev blk (p s : Nat) : Multiset (Nat × Nat) := {(p, s)}

/-- Addresses are not used twice. -/
structure Heap.WF (h : Heap) : Prop where
  nodup : (h.live.map Prod.fst).Nodup
  lt : ∀ p ∈ h.live.map Prod.fst, p < h.next

open Finset

theorem bind_some {α β : Type} {f : M α} {g : α → M β} {h h' : Heap} {a : α} (e : f h = some (a, h')) : (f >>= g) h = g a h' := by
  show (f h).bind _ = _
  rw [e]; rfl

theorem step {α β : Type} {f : M α} {g : α → M β} {h h' : Heap} {a : α} {r : Option (β × Heap)} (e : f h = some (a, h')) (k : g a h' = r) : (f >>= g) h = r :=
  (bind_some e).trans k

theorem malloc_ok {h : Heap} (w : h.WF) (s : Nat) : ∃ p h', malloc s h = some (p, h') ∧ h'.WF ∧ h'.live = blk p s + h.live := by
  refine ⟨h.next, _, rfl, ⟨?_, ?_⟩, (Multiset.singleton_add _ _).symm⟩
  · rw [Multiset.map_cons, Multiset.nodup_cons]
    exact ⟨fun hp => absurd (w.lt _ hp) (by simp), w.nodup⟩
  · intro p hp
    rw [Multiset.map_cons, Multiset.mem_cons] at hp
    rcases hp with rfl | hp
    · exact Nat.lt_succ_self _
    · exact Nat.lt_succ_of_lt (w.lt p hp)

theorem mem_of_live {h : Heap} {p s : Nat} {rest : Multiset (Nat × Nat)} (e : h.live = blk p s + rest) : p ∈ h.live.map Prod.fst := by
  rw [e]; simp

theorem free_ok {h : Heap} (w : h.WF) {p s : Nat} {rest : Multiset (Nat × Nat)} (e : h.live = blk p s + rest) :
    ∃ h', free p h = some ((), h') ∧ h'.WF ∧ h'.live = rest := by
  have hf : h.live.filter (·.1 ≠ p) = rest := by
    have hn := w.nodup
    rw [e, Multiset.map_add, Multiset.map_singleton, Multiset.singleton_add, Multiset.nodup_cons] at hn
    rw [e, Multiset.filter_add, Multiset.filter_singleton, if_neg (by simp)]
    rw [Multiset.empty_eq_zero, zero_add, Multiset.filter_eq_self]
    rintro ⟨q, t⟩ hq hqp
    exact hn.1 (Multiset.mem_map.2 ⟨(q, t), hq, hqp⟩)
  have hle : rest ≤ h.live := by rw [e]; exact Multiset.le_add_left _ _
  refine ⟨⟨h.next, rest⟩, ?_, ⟨?_, ?_⟩, rfl⟩
  · rw [free, if_pos (mem_of_live e), hf]
  · exact Multiset.nodup_of_le (Multiset.map_le_map hle) w.nodup
  · exact fun q hq => w.lt q (Multiset.mem_of_le (Multiset.map_le_map hle) hq)

theorem use_ok {h : Heap} {p s : Nat} {rest : Multiset (Nat × Nat)} (e : h.live = blk p s + rest) : use p h = some ((), h) := by
  rw [use, if_pos (mem_of_live e)]

theorem rd_ok {α : Type} {n : Nat} (f : Nat → α) {i : Nat} (hi : i < n) (h : Heap) : rd ((List.range n).map f) i h = some (f i, h) := by
  rw [rd, List.getElem?_map, List.getElem?_range hi]
  rfl

/-- A loop that allocates. -/
theorem rep_ok {α : Type} {body : M α} {own : α → Multiset (Nat × Nat)} {good : α → Prop} [Inhabited α]
    (hb : ∀ h : Heap, h.WF → ∃ r h', body h = some (r, h') ∧ h'.WF ∧ h'.live = own r + h.live ∧ good r) (n : Nat) {h : Heap} (w : h.WF) :
    ∃ (f : Nat → α) (h' : Heap), rep n body h = some ((List.range n).map f, h') ∧ h'.WF ∧ h'.live = ∑ i ∈ range n, own (f i) + h.live ∧ ∀ i < n, good (f i) := by
  induction n with
  | zero => exact ⟨fun _ => default, h, rfl, w, by simp, fun i hi => absurd hi (by simp)⟩
  | succ n ih =>
    obtain ⟨f, h1, e1, w1, l1, g1⟩ := ih
    obtain ⟨r, h2, e2, w2, l2, g2⟩ := hb h1 w1
    refine ⟨fun i => if i = n then r else f i, h2, ?_, w2, ?_, ?_⟩
    · show (rep n body h).bind _ = _
      rw [e1]
      show (body h1).bind _ = _
      rw [e2]
      show some (_, h2) = _
      rw [List.range_succ, List.map_append]
      congr 3
      · refine List.map_congr_left fun i hi => ?_
        rw [if_neg (by have := List.mem_range.1 hi; omega)]
      · simp
    · rw [l2, l1, sum_range_succ]
      dsimp only
      rw [if_pos rfl]
      have : ∑ i ∈ range n, own (if i = n then r else f i) = ∑ i ∈ range n, own (f i) :=
        sum_congr rfl fun i hi => by rw [if_neg (by have := mem_range.1 hi; omega)]
      rw [this]; abel
    · intro i hi
      dsimp only
      split
      · exact g2
      · exact g1 i (by omega)

/-- A loop that releases what belongs to it, while other blocks `C` stay. -/
theorem each_ok {n : Nat} {body : Nat → M Unit} {own : Nat → Multiset (Nat × Nat)} {C : Multiset (Nat × Nat)}
    (hb : ∀ i < n, ∀ (h : Heap) (rest : Multiset (Nat × Nat)), h.WF → h.live = own i + (C + rest) → ∃ h', body i h = some ((), h') ∧ h'.WF ∧ h'.live = C + rest)
    {h : Heap} (w : h.WF) {rest : Multiset (Nat × Nat)} (e : h.live = ∑ i ∈ range n, own i + (C + rest)) :
    ∃ h', each n body h = some ((), h') ∧ h'.WF ∧ h'.live = C + rest := by
  induction n generalizing rest with
  | zero => exact ⟨h, rfl, w, by simpa using e⟩
  | succ n ih =>
    obtain ⟨h1, e1, w1, l1⟩ := ih (fun i hi => hb i (by omega)) (rest := own n + rest) (by rw [e, sum_range_succ]; abel)
    obtain ⟨h2, e2, w2, l2⟩ := hb n (by omega) h1 rest w1 (by rw [l1]; abel)
    refine ⟨h2, ?_, w2, l2⟩
    show (each n body h).bind _ = _
    rw [e1]
    exact e2

/-- The sizes of the rows of a block. -/
theorem rep_malloc (n s : Nat) {h : Heap} (w : h.WF) :
    ∃ (f : Nat → Nat) (h' : Heap), rep n (malloc s) h = some ((List.range n).map f, h') ∧ h'.WF ∧ h'.live = ∑ i ∈ range n, blk (f i) s + h.live := by
  obtain ⟨f, h', e, w', l, -⟩ := rep_ok (own := fun p => blk p s) (good := fun _ => True)
    (fun h w => by obtain ⟨p, h', e, w', l⟩ := malloc_ok w s; exact ⟨p, h', e, w', l, trivial⟩) n w
  exact ⟨f, h', e, w', l⟩

end QM.Heap
