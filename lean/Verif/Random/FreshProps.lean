import Verif.Random.Props
import Verif.Segment.Fresh

namespace QM.Random

open Segment

variable {α S : Type} {G : Generator S} {inv : List (List ℝ) → List (List ℝ) × ℝ} {pca : List (List ℝ) → Nat → Nat → Option (List (List ℝ))}
  {rnd : Rand} {w w' : SWork} {s : Segmenter α}

/-- Memory of the sizes that `segment()` and the functions below it allocate, with any contents. -/
structure SSizes (s : Segmenter α) (w : SWork) : Prop where
  arr : Shape2 s.features.length (if s.ftype = .unknown then (s.features.headD []).length else s.ncoeff + 1) w.arr
  q : w.q.length = s.features.length
  chroma : s.ftype = .chroma → Shape2 s.features.length s.nbins w.chroma
  c : CSizes s.features.length (width s) s.states s.nclusters w.c

theorem labels_fresh (hm : s.ftype = .mfcc → ∀ r ∈ s.features.head?, r.length ≤ s.ncoeff) (h : SSizes s w) (h' : SSizes s w') :
    Segment.labels inv pca rnd w s = Segment.labels inv pca rnd w' s := by
  obtain ⟨ha, hq, hch, hc⟩ := h
  obtain ⟨ha', hq', hch', hc'⟩ := h'
  unfold Segment.labels
  cases hf : s.features with
  | nil => rw [show ([] : List (List ℝ))[0]? = none from rfl]; simp only [Option.bind_eq_bind, Option.bind_none]
  | cons r0 rs =>
  have hT : 0 < s.features.length := by rw [hf]; exact Nat.succ_pos _
  have hd : s.features.headD [] = r0 := by rw [hf]; rfl
  have hm0 : s.ftype = .mfcc → r0.length ≤ s.ncoeff := fun e => hm e r0 (by rw [hf]; rfl)
  rw [← hf]
  have h0 : s.features[0]? = some r0 := by rw [hf]; rfl
  rw [bind_ok h0, bind_ok h0]
  rw [hd] at ha ha'
  unfold width at hc hc'
  rw [hd] at hc hc'
  apply Same.eq
  cases ht : s.ftype with
  | unknown =>
    rw [ht] at ha ha' hc hc'
    refine Same.bindM (copyFeatures_fresh (Hmm.fresh2 ha ha')) fun M M' hM => ?_
    rw [if_pos (Or.inl rfl), if_pos (Or.inl rfl), narrow_fresh (wd := r0.length) (hM.mono fun _ _ _ _ h => h)]
    exact Same.of_eq (clusterSegment_fresh hT hc hc' hq hq')
  | mfcc =>
    rw [ht] at ha ha' hc hc'
    refine Same.bindM (copyFeatures_fresh (Hmm.fresh2 ha ha')) fun M M' hM => ?_
    have hle := hm0 ht
    rw [if_pos (Or.inr rfl), if_pos (Or.inr rfl), narrow_fresh (hM.mono fun _ b _ _ h => lt_of_lt_of_le h hle)]
    exact Same.of_eq (clusterSegment_fresh hT hc hc' hq hq')
  | constq =>
    rw [ht] at ha ha' hc hc'
    refine Same.bindM (copyFeatures_fresh (Hmm.fresh2 ha ha')) fun M M' hM => ?_
    rw [if_neg (by decide), if_neg (by decide)]
    unfold Segment.constqSegment
    dsimp only
    exact Same.step (mpeg7_fresh hM) fun x => Same.step rfl fun x => Same.step rfl fun x => Same.of_eq (clusterSegment_fresh hT hc hc' hq hq')
  | chroma =>
    rw [ht] at ha ha' hc hc'
    refine Same.bindM (copyFeatures_fresh (Hmm.fresh2 ha ha')) fun M M' hM => ?_
    rw [if_neg (by decide), if_neg (by decide)]
    unfold Segment.constqSegment
    dsimp only
    exact Same.step (chromaAll_fresh hM (Hmm.fresh2 (hch ht) (hch' ht))) fun x => Same.of_eq (clusterSegment_fresh hT hc hc' hq hq')

/-- **C116** For features of every kind, all random numbers and any two contents of the memory that `segment()` allocates, it does the same: it
succeeds with the same segments or fails in both cases. Features computed from sound as cepstral coefficients have `ncoeff` coefficients. -/
theorem C116_memory (hm : s.ftype = .mfcc → ∀ r ∈ s.features.head?, r.length ≤ s.ncoeff) (h : SSizes s w) (h' : SSizes s w') :
    Segment.segment inv pca rnd w s = Segment.segment inv pca rnd w' s := by
  unfold Segment.segment
  rw [labels_fresh hm h h']

/-- **C116** So the segments depend on the features, the parameters and the second only: neither on the memory nor on the generator. -/
theorem C116_reproducible (now : Nat) (g g' : S) (hh : s.hlen ≤ s.features.length)
    (hm : s.ftype = .mfcc → ∀ r ∈ s.features.head?, r.length ≤ s.ncoeff) (h : SSizes s w) (h' : SSizes s w') :
    ((segment inv pca G.top w s).run G now g).1 = ((segment inv pca G.top w' s).run G now g').1 := by
  rw [(C115_alone now g hh).1, (C115_alone now g' hh).1, C116_memory hm h h']

/-! ## The hypotheses can be met -/

theorem demoWork_sizes : SSizes demoSegmenter demoWork := ⟨grid_shape _ _ _, rfl, fun h => (by cases h), work_sizes 5 2 3 2⟩

/-- Other contents of the same memory. -/
noncomputable def otherWork : SWork := ⟨grid 5 2 (-1), [4, 0, 9, 9, 1], [[3]], { work 5 2 3 2 with p0 := [1, -2, 3], mu := grid 3 2 1000, l := 5, h := List.replicate 15 (-8) }⟩

theorem otherWork_sizes : SSizes demoSegmenter otherWork :=
  ⟨grid_shape _ _ _, rfl, fun h => (by cases h), { work_sizes 5 2 3 2 with p0 := rfl, mu := grid_shape _ _ _, h := by rfl }⟩

example : demoWork.q ≠ otherWork.q := by simp [demoWork, otherWork]

/-- Both runs give the same segments. -/
example (now g g' : Nat) : ∃ s', Segmented demoSegmenter s' ∧
    ((segment (fun _ => (grid 2 2 1, 1)) (fun x _ _ => some x) example32.top demoWork demoSegmenter).run example32 now g).1 = some s' ∧
    ((segment (fun _ => (grid 2 2 1, 1)) (fun x _ _ => some x) example32.top otherWork demoSegmenter).run example32 now g').1 = some s' := by
  obtain ⟨s', h, h'⟩ := demo_segments now g
  have h : ((segment (fun _ => (grid 2 2 1, 1)) (fun x _ _ => some x) example32.top demoWork demoSegmenter).run example32 now g).1 = some s' := by rw [h]
  exact ⟨s', h', h, (C116_reproducible now g' g (by simp [demoSegmenter]) (fun h => by cases h) otherWork_sizes demoWork_sizes).trans h⟩

end QM.Random
