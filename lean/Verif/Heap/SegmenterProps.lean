import Mathlib.Tactic.Ring
import Mathlib.Algebra.Module.Defs
import Verif.Heap.SegmenterLemmas

/-!
# Structural segmentation and memory that is not released
-/

namespace QM.Heap

/-- Number of bytes in blocks that have not been released. -/
def bytes (h : Heap) : Nat := (h.live.map Prod.snd).sum

/-- A call of `cluster_segment` or of `constq_segment`, with its arguments as far as they matter for memory. `oks` has one element for each pass of the training. -/
inductive Call
  | cluster (T L N k : Nat) (oks : List Bool)
  | constq (f : Feature) (T bins ncoeff N k : Nat) (oks : List Bool)

/-- What a call does to the heap. -/
def Call.run (nb : Nat) : Call → M Unit
  | .cluster T L N k oks => clusterSegment nb T L N k oks
  | .constq f T bins ncoeff N k oks => constqSegment f nb T bins ncoeff N k oks

/-- Calls one after the other. -/
def runs (nb : Nat) : List Call → M Unit
  | [] => pure ()
  | c :: cs => do
    c.run nb
    runs nb cs

/-- Sizes of the blocks lost by a model with `N` states for `L` features that is trained in `n` passes: the initial probabilities, and a block of integers for each inversion of a matrix, one in each
pass and one for decoding. -/
def lostSizes (N L n : Nat) : Multiset Nat := (8 * N) ::ₘ Multiset.replicate (n + 1) (4 * (L * L))

/-- Sizes of the blocks that a call loses. -/
def Call.lost : Call → Multiset Nat
  | .cluster _ L N _ oks => lostSizes N L oks.length
  | .constq .constq _ _ _ N _ oks => lostSizes N 21 oks.length
  | .constq .chroma _ bins _ N _ oks => lostSizes N bins oks.length
  | .constq .other _ _ _ _ _ _ => 0

theorem lostSizes_sum (N L n : Nat) : (lostSizes N L n).sum = 8 * N + 4 * (L * L) * (n + 1) := by
  simp only [lostSizes, Multiset.sum_cons, Multiset.sum_replicate, smul_eq_mul]
  ring

theorem call_ok (nb : Nat) (c : Call) {h : Heap} (w : h.WF) :
    ∃ (lost : Multiset (Nat × Nat)) (h' : Heap), c.run nb h = some ((), h') ∧ h'.WF ∧ h'.live = lost + h.live ∧ lost.map Prod.snd = c.lost := by
  cases c with
  | cluster T L N k oks => exact clusterSegment_ok nb T L N k oks w
  | constq f T bins ncoeff N k oks =>
    cases f with
    | constq =>
      obtain ⟨h1, e1, w1, l1⟩ := pcaProject_ok ncoeff w
      obtain ⟨lost, h2, e2, w2, l2, s2⟩ := clusterSegment_ok nb T 21 N k oks w1
      exact ⟨lost, h2, step e1 e2, w2, by rw [l2, l1], s2⟩
    | chroma =>
      obtain ⟨a, f, h1, e1, w1, l1⟩ := allocRows_ok T (8 * bins) w
      obtain ⟨lost, h2, e2, w2, l2, s2⟩ := clusterSegment_ok nb T bins N k oks w1
      obtain ⟨h3, e3, w3, l3⟩ := freeRows_ok (n := T) (s := 8 * bins) (base := a) (f := f) (rest := lost + h.live) w2 (by rw [l2, l1]; abel)
      refine ⟨lost, h3, ?_, w3, l3, s2⟩
      exact step e1 (step (touchRows_ok (by rw [l1]; exact Multiset.le_add_right _ _)) (step e2 e3))
    | other => exact ⟨0, h, rfl, w, by simp, rfl⟩

/-- **C110** Whatever calls have been made before and whatever other blocks are in use, a call of the structural segmentation releases no block twice, uses none that has been released, and leaves the
blocks of others alone. Of its own blocks it loses exactly those listed in `Call.lost`. The full claim would be that it loses none; see `C110_violation`. -/
theorem C110_calls_partial (nb : Nat) (cs : List Call) {h : Heap} (w : h.WF) :
    ∃ (lost : Multiset (Nat × Nat)) (h' : Heap), runs nb cs h = some ((), h') ∧ h'.WF ∧ h'.live = lost + h.live ∧ lost.map Prod.snd = (cs.map Call.lost).sum := by
  induction cs generalizing h with
  | nil => exact ⟨0, h, rfl, w, by simp, rfl⟩
  | cons c cs ih =>
    obtain ⟨l1, h1, e1, w1, a1, s1⟩ := call_ok nb c w
    obtain ⟨l2, h2, e2, w2, a2, s2⟩ := ih w1
    refine ⟨l1 + l2, h2, step e1 e2, w2, by rw [a2, a1]; abel, ?_⟩
    rw [Multiset.map_add, s1, s2, List.map_cons, List.sum_cons]

/-- Non-vacuity: two calls on a heap where a block of 100 bytes is in use. -/
example : ∃ h', runs 64 [.cluster 10 2 3 2 [true, true], .constq .chroma 10 12 60 3 2 [false]] ⟨8, {(7, 100)}⟩ = some ((), h') ∧
    h'.live.map Prod.snd = {24, 16, 16, 16, 24, 576, 576, 100} := by
  obtain ⟨lost, h', e, -, l, s⟩ := C110_calls_partial 64 [.cluster 10 2 3 2 [true, true], .constq .chroma 10 12 60 3 2 [false]] (h := ⟨8, {(7, 100)}⟩)
    ⟨by simp, by simp⟩
  refine ⟨h', e, ?_⟩
  rw [l, Multiset.map_add, s]
  decide

/-- **C110** The full claim fails at every call with at least one state: the initial probabilities of the model (8 bytes a state) and the pivots of every inversion (4 bytes for each entry of the
matrix, for each pass of the training and once more) are never released. -/
theorem C110_violation (nb T L N k : Nat) (oks : List Bool) {h : Heap} (w : h.WF) :
    ∃ h', Call.run nb (.cluster T L N k oks) h = some ((), h') ∧ bytes h' = bytes h + (8 * N + 4 * (L * L) * (oks.length + 1)) := by
  obtain ⟨lost, h', e, -, l, s⟩ := call_ok nb (.cluster T L N k oks) w
  refine ⟨h', e, ?_⟩
  have s' : lost.map Prod.snd = lostSizes N L oks.length := s
  rw [bytes, bytes, l, Multiset.map_add, Multiset.sum_add, s', lostSizes_sum, add_comm]

/-- With the parameters that the library uses by default (`ClusterMeltSegmenterParams`: 40 states, constant-Q features of which 20 components and the envelope remain) and all 50 passes, a single
segmentation loses 90 284 bytes. -/
example (nb T ncoeff k : Nat) (oks : List Bool) (n : oks.length = 50) {h : Heap} (w : h.WF) :
    ∃ h', Call.run nb (.constq .constq T 8 ncoeff 40 k oks) h = some ((), h') ∧ bytes h' = bytes h + 90284 := by
  obtain ⟨lost, h', e, -, l, s⟩ := call_ok nb (.constq .constq T 8 ncoeff 40 k oks) w
  refine ⟨h', e, ?_⟩
  have s' : lost.map Prod.snd = lostSizes 40 21 oks.length := s
  rw [bytes, bytes, l, Multiset.map_add, Multiset.sum_add, s', lostSizes_sum, n, add_comm]

/-- **C110** A program that segments recordings one after the other needs more memory than any bound. -/
theorem C110_unbounded (nb T L N k : Nat) (oks : List Bool) (hN : 0 < N) (B : Nat) {h : Heap} (w : h.WF) :
    ∃ (n : Nat) (h' : Heap), runs nb (List.replicate n (.cluster T L N k oks)) h = some ((), h') ∧ B < bytes h' := by
  obtain ⟨lost, h', e, -, l, s⟩ := C110_calls_partial nb (List.replicate (B + 1) (.cluster T L N k oks)) w
  refine ⟨B + 1, h', e, ?_⟩
  rw [bytes, l, Multiset.map_add, Multiset.sum_add, s, List.map_replicate, List.sum_replicate, Multiset.sum_nsmul]
  have : (Call.lost (.cluster T L N k oks)).sum = 8 * N + 4 * (L * L) * (oks.length + 1) := lostSizes_sum _ _ _
  rw [this, smul_eq_mul]
  have : (B + 1) * 1 ≤ (B + 1) * (8 * N + 4 * (L * L) * (oks.length + 1)) := Nat.mul_le_mul_left _ (by omega)
  omega

example : ∃ (n : Nat) (h' : Heap), runs 64 (List.replicate n (.cluster 100 21 40 10 [true, true])) ⟨0, 0⟩ = some ((), h') ∧ 2 ^ 34 < bytes h' :=
  C110_unbounded 64 100 21 40 10 [true, true] (by norm_num) _ ⟨by simp, by simp⟩

end QM.Heap
