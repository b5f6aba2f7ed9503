import Verif.Segment.Pipeline
import Verif.Segment.Props
import Verif.Segment.Mpeg7Props
import Verif.Hmm.InitProps
import Verif.PolyFit.Gauss

namespace QM.Segment

open Finset Hmm

/-- The allocated arrays have the right sizes. -/
structure CSizes (T L N k : Nat) (w : CWork) : Prop where
  p0 : w.p0.length = N
  a : Shape2 N N w.a
  mu : Shape2 N L w.mu
  cov : Shape2 L L w.cov
  gm : w.gm.length = L
  train : ∀ i, WorkSizes N T L (w.train i)
  vit : VSizes N T L w.vit
  h : w.h.length = T * N
  bsched : w.bsched.length = 20
  cl : Rect k N w.melt.cl
  nc : Rect T k w.melt.nc
  lp : Rect T k w.melt.lp
  oldc : w.melt.oldc.length = T

/-- `rand()` gives numbers in [0, 1] of `RAND_MAX`. -/
structure Rand.Valid (r : Rand) : Prop where
  mean : ∀ i d, |r.mean i d| ≤ 1 / 4
  init : ∀ i, 0 ≤ r.init i
  trans : ∀ i j, 0 ≤ r.trans i j

/-- The inversion gives a matrix of the same size and a positive determinant for every square matrix of this size. -/
def Inverts (L : Nat) (inv : List (List ℝ) → List (List ℝ) × ℝ) : Prop :=
  ∀ m, (∃ C, Holds2 L L C m) → (∃ D, Holds2 L L D (inv m).1) ∧ 0 < (inv m).2

variable {T L N k hlen : Nat} {inv : List (List ℝ) → List (List ℝ) × ℝ} {rnd : Rand} {x : List (List ℝ)} {X : Nat → Nat → ℝ} {w : CWork} {q : List Nat}
  {limit : Int}

theorem scaleFeatures_ok (hx : Holds2 T L X x) :
    ∃ x', scaleFeatures T L x = some x' ∧ Holds2 T L (fun t d => X t d * 10) x' := by
  unfold scaleFeatures
  refine hx.fillAll (fun t d => X t d * 10) _ ?_
  intro i j M hi hj hM
  have hr := hM.rd hi hj
  simp only [lt_irrefl, and_false, or_false, if_false] at hr
  rw [bind_ok hr]

theorem schedule_ok {b : List ℝ} (hb : b.length = 20) :
    ∃ b', schedule b = some b' ∧ Holds 20 (fun i => 100 * (7 / 10) ^ i) b' := by
  obtain ⟨b', h1, h2⟩ := loop_inv (n := 19) (s := b.set 0 100) (f := fun i (b : List ℝ) => do
      let v ← b[i]?
      wr b (i + 1) (7 / 10 * v))
    (P := fun n b' => b'.length = 20 ∧ ∀ i : Nat, i ≤ n → b'[i]? = some (100 * (7 / 10 : ℝ) ^ i))
    ⟨by simp [hb], fun i hi => by
      obtain rfl : i = 0 := by omega
      rw [List.getElem?_set_self (by omega)]
      simp⟩
    (by
      rintro i c hi ⟨hl, hc⟩
      refine ⟨c.set (i + 1) (7 / 10 * (100 * (7 / 10) ^ i)), ?_, by simp [hl], ?_⟩
      · rw [bind_ok (hc i le_rfl), wr_some _ (by omega)]
      · intro j hj
        by_cases e : j = i + 1
        · subst e
          rw [List.getElem?_set_self (by omega)]
          congr 1
          ring
        · rw [List.getElem?_set_ne (by omega)]
          exact hc j (by omega))
  refine ⟨b', ?_, h2.1, fun i hi => h2.2 i (by omega)⟩
  unfold schedule
  rw [bind_ok (wr_some _ (by omega))]
  exact h1

/-- **C68** `cluster_segment` is the documented chain: a hidden Markov model started and trained on the features times ten, the
most probable states under it, the histograms of the states in the sliding window, and the clusters of these histograms under the
cooling schedule 100, 70, 49, ...; no step leaves its arrays or divides by zero, and every label is in 1..k. -/
theorem C68_stages (hT : 2 ≤ T) (hN : 0 < N) (hk : 1 ≤ k) (hh : 2 * (hlen / 2) + 1 ≤ T) (hx : Holds2 T L X x) (hinv : Inverts L inv)
    (hr : rnd.Valid) (hw : CSizes T L N k w) (hq : q.length = T) :
    ∃ (x10 : List (List ℝ)) (m0 m1 : Params) (st : List Nat) (best : Fin T → Fin N) (h b : List ℝ) (its : Nat) (c : List Int),
      clusterSegment inv rnd q x T L N hlen k limit w = some c ∧
      Holds2 T L (fun t d => X t d * 10) x10 ∧
      hmmInit N T L x10 rnd.mean rnd.init rnd.trans w.p0 w.a w.mu w.cov w.gm = some m0 ∧ Proper N L m0 ∧
      hmmTrain inv N T L x10 w.train w.l w.l1 w.l2 m0 = some m1 ∧ Proper N L m1 ∧
      viterbiDecode inv N T L x10 m1 w.vit q = some st ∧ (∀ t : Fin T, st[t.1]? = some (best t).1) ∧
      (∀ i j : Nat, i < T → j < N → h[i * N + j]? =
        some (scaled (st.map Int.ofNat) N (centre T (hlen / 2) i - hlen / 2) (2 * (hlen / 2) + 1) j)) ∧
      Holds 20 (fun i => 100 * (7 / 10) ^ i) b ∧
      clusterMelt realArith h N T b 20 k limit rnd.cluster ⟨w.melt.cl, w.melt.nc, w.melt.lp, w.melt.oldc, st.map Int.ofNat⟩ = some (c, its) ∧
      c.length = T ∧ ∀ l ∈ c, 1 ≤ l ∧ l ≤ (k : Int) := by
  obtain ⟨x10, e1, hx10⟩ := scaleFeatures_ok hx
  obtain ⟨m0, _, e2, p0, _⟩ := C33_hmm_init rnd.mean rnd.init rnd.trans hr.mean hr.init hr.trans hT hN hx10 hw.p0 hw.a hw.mu hw.cov hw.gm
  obtain ⟨m1, e3, p1⟩ := C33_training hT hN hx10 hinv hw.train w.l w.l1 w.l2 m0 p0
  obtain ⟨st, best, _, _, _, _, e4, hl, hb, _⟩ := C34_viterbi_decode inv (by omega) hN hx10 hinv m1 p1 w.vit hw.vit q hq
  have hst : ∀ l ∈ st.map Int.ofNat, 0 ≤ l ∧ l < (N : Int) := by
    intro l hl'
    obtain ⟨v, hv, rfl⟩ := List.mem_map.mp hl'
    obtain ⟨t, ht⟩ := List.mem_iff_getElem?.mp hv
    have htT : t < T := hl ▸ lt_of_getElem?_some ht
    have := hb ⟨t, htT⟩
    rw [ht] at this
    have hv' : v = (best ⟨t, htT⟩).1 := Option.some.inj this
    have := (best ⟨t, htT⟩).2
    exact ⟨Int.natCast_nonneg v, by simp only [Int.ofNat_eq_natCast]; omega⟩
  have hlen' : (st.map Int.ofNat).length = T := by simp [hl]
  obtain ⟨h, e5, e6, e7⟩ := C43_createHistograms (K := ℝ) (st.map Int.ofNat) N hlen w.h hst (by rw [hlen']; exact hh) (by rw [hlen']; exact hw.h)
  obtain ⟨b, e8, e9⟩ := schedule_ok hw.bsched
  obtain ⟨c, its, e10, e11, e12, _⟩ := C42_clusterMelt realArith h N T b 20 k limit rnd.cluster
    ⟨w.melt.cl, w.melt.nc, w.melt.lp, w.melt.oldc, st.map Int.ofNat⟩ hk (by rw [e6, hlen']) (by rw [e9.1]) hw.cl hw.nc hw.lp hw.oldc hlen'
  rw [hlen'] at e7
  refine ⟨x10, m0, m1, st, best, h, b, its, c, ?_, hx10, e2, p0, e3, p1, e4, hb, e7, e9, e10, e11, e12⟩
  unfold clusterSegment
  rw [bind_ok e1, bind_ok e2, bind_ok e3, bind_ok e4, bind_ok e5, bind_ok e8, bind_ok e10]
  rfl

/-- With an even histogram as long as the data there is no complete window; the histograms stay empty. -/
theorem createHistograms_even {K : Type} [Field K] (c : List Int) (m hlen : Nat) (h : List K) (hl : c.length = hlen) (he : hlen % 2 = 0) (hpos : 0 < hlen)
    (hh : h.length = c.length * m) : ∃ h', createHistograms c m hlen h = some h' ∧ h'.length = c.length * m := by
  suffices H : Tri True (createHistograms c m hlen h) (fun h' => h'.length = c.length * m) from H.total trivial
  have bound : ∀ i j : Nat, i < c.length → j < m → i * m + j < c.length * m := by
    intro i j hi hj
    have h1 : (i + 1) * m ≤ c.length * m := Nat.mul_le_mul_right m hi
    have : (i + 1) * m = i * m + m := Nat.succ_mul i m
    omega
  unfold createHistograms
  refine Tri.bind (P := fun (h : List K) => h.length = c.length * m) (Tri.loop (fun _ (h : List K) => h.length = c.length * m) hh (fun i h hi hp => ?_)) (fun h1 p1 => ?_)
  · exact (Tri.wr (by omega)).mono (fun _ e => by rw [e.2]; simpa using hp)
  rw [show c.length - hlen / 2 - hlen / 2 = 0 by omega, loop]
  refine Tri.bind (P := fun (h : List K) => h.length = c.length * m) p1 (fun h2 p2 => ?_)
  refine Tri.bind (P := fun (h : List K) => h.length = c.length * m) (Tri.loop (fun _ (h : List K) => h.length = c.length * m) p2
    (fun i h hi hp => Tri.loop (fun _ (h : List K) => h.length = c.length * m) hp (fun j h hj hp => ?_))) (fun h3 p3 => ?_)
  · have b1 := bound (hlen / 2) j (by omega) hj
    have b2 := bound i j (by omega) hj
    refine Tri.bind (Tri.get (by omega)) (fun v _ => (Tri.wr (by omega)).mono (fun _ e => by rw [e.2]; simpa using hp))
  · refine Tri.loop (fun _ (h : List K) => h.length = c.length * m) p3 (fun i h hi hp => Tri.loop (fun _ (h : List K) => h.length = c.length * m) hp (fun j h hj hp => ?_))
    have b1 := bound (c.length - hlen / 2 - 1) j (by omega) hj
    have b2 := bound (c.length - hlen / 2 + i) j (by omega) hj
    have e1 : ((c.length : Int) - (hlen / 2 : Nat) - 1) * m + j = ((c.length - hlen / 2 - 1) * m + j : Nat) := by
      rw [Int.natCast_add, Int.natCast_mul]
      congr 2
      omega
    have e2 : ((c.length : Int) - (hlen / 2 : Nat) + i) * m + j = ((c.length - hlen / 2 + i) * m + j : Nat) := by
      rw [Int.natCast_add, Int.natCast_mul]
      congr 2
      omega
    rw [e1, e2, rdI_natCast]
    refine Tri.bind (Tri.get (by omega)) (fun v _ => ?_)
    rw [wrI_natCast]
    exact (Tri.wr (by omega)).mono (fun _ e => by rw [e.2]; simpa using hp)

/-- `cluster_segment` works for every histogram length up to the number of frames, odd or even. -/
theorem clusterSegment_ok (hT : 2 ≤ T) (hN : 0 < N) (hk : 1 ≤ k) (hh : hlen ≤ T) (hx : Holds2 T L X x) (hinv : Inverts L inv)
    (hr : rnd.Valid) (hw : CSizes T L N k w) (hq : q.length = T) :
    ∃ c, clusterSegment inv rnd q x T L N hlen k limit w = some c ∧ c.length = T ∧ ∀ l ∈ c, 1 ≤ l ∧ l ≤ (k : Int) := by
  by_cases hodd : 2 * (hlen / 2) + 1 ≤ T
  · obtain ⟨_, _, _, _, _, _, _, _, c, e3, _, _, _, _, _, _, _, _, _, _, e4, e5⟩ := C68_stages (limit := limit) hT hN hk hodd hx hinv hr hw hq
    exact ⟨c, e3, e4, e5⟩
  · obtain ⟨x10, e1, hx10⟩ := scaleFeatures_ok hx
    obtain ⟨m0, _, e2, p0, _⟩ := C33_hmm_init rnd.mean rnd.init rnd.trans hr.mean hr.init hr.trans hT hN hx10 hw.p0 hw.a hw.mu hw.cov hw.gm
    obtain ⟨m1, e3, p1⟩ := C33_training hT hN hx10 hinv hw.train w.l w.l1 w.l2 m0 p0
    obtain ⟨st, best, _, _, _, _, e4, hl, hb, _⟩ := C34_viterbi_decode inv (by omega) hN hx10 hinv m1 p1 w.vit hw.vit q hq
    have hlen' : (st.map Int.ofNat).length = T := by simp [hl]
    obtain ⟨h, e5, e6⟩ := createHistograms_even (K := ℝ) (st.map Int.ofNat) N hlen w.h (by omega) (by omega) (by omega) (by rw [hlen']; exact hw.h)
    obtain ⟨b, e8, e9⟩ := schedule_ok hw.bsched
    obtain ⟨c, its, e10, e11, e12, _⟩ := C42_clusterMelt realArith h N T b 20 k limit rnd.cluster
      ⟨w.melt.cl, w.melt.nc, w.melt.lp, w.melt.oldc, st.map Int.ofNat⟩ hk (by rw [e6, hlen']) (by rw [e9.1]) hw.cl hw.nc hw.lp hw.oldc hlen'
    refine ⟨c, ?_, e11, e12⟩
    unfold clusterSegment
    rw [bind_ok e1, bind_ok e2, bind_ok e3, bind_ok e4, bind_ok e5, bind_ok e8, bind_ok e10]
    rfl

theorem narrow_ok {m : Nat} (hm : L ≤ m) (hx : Holds2 T m X x) : Holds2 T L X (narrow L x) := by
  refine ⟨by simp [narrow, hx.1], fun i hi => ?_⟩
  obtain ⟨r, h1, h2⟩ := hx.2 i hi
  refine ⟨r.take L, by simp [narrow, h1], by simp [h2.1]; omega, fun j hj => ?_⟩
  rw [List.getElem?_take_of_lt hj]
  exact h2.2 j (by omega)

theorem copyFeatures_ok {f arr : List (List ℝ)} {wd m : Nat} (hf : ∀ i j : Nat, i < f.length → j < wd → rd2 f i j = some (X i j)) (hm : wd ≤ m)
    (ha : Shape2 f.length m arr) :
    ∃ arr' Y, copyFeatures f wd arr = some arr' ∧ Holds2 f.length m Y arr' ∧ ∀ i j, i < f.length → j < wd → Y i j = X i j := by
  obtain ⟨Z, ha⟩ := ha
  obtain ⟨a, h1, h2⟩ := loop_inv (n := f.length) (s := arr) (f := fun i (arr : List (List ℝ)) => loop wd (fun j (arr : List (List ℝ)) => do
      let v ← rd2 f i j
      wr2 arr i j v) arr)
    (P := fun n a => Holds2 f.length m (fun i j => if i < n ∧ j < wd then X i j else Z i j) a)
    (ha.congr fun i j _ _ => by simp)
    (by
      intro i a hi hA
      obtain ⟨a', e1, e2⟩ := hA.fillRow hi wd hm (X i) (fun j (arr : List (List ℝ)) => do
          let v ← rd2 f i j
          wr2 arr i j v) (fun j M hj _ => by rw [bind_ok (hf i j hi hj)])
      refine ⟨a', e1, e2.congr fun r s _ _ => ?_⟩
      by_cases h1 : r = i
      · subst h1; simp
      · have : r < i + 1 ↔ r < i := by omega
        simp [h1, this])
  exact ⟨a, _, h1, h2, fun i j hi hj => by simp [hi, hj]⟩

/-! ## `segment()` -/

variable {α : Type} {pca : List (List ℝ) → Nat → Nat → Option (List (List ℝ))} {s : Segmenter α} {sw : SWork}

/-- What a successful run leaves: the segments lie end to end from sample 0 to the end of the last frame, neighbours have different types, the types are in
1..nclusters, the features are used up, the analysis objects are gone, and everything else is as it was. -/
def Segmented (s s' : Segmenter α) : Prop :=
  Tiles 0 s'.segments ((s.features.length : Int) * s.hop) ∧ TypesDiffer s'.segments ∧
  (∀ g ∈ s'.segments, (1 ≤ g.type ∧ g.type ≤ (s.nclusters : Int)) ∧ s.hop ∣ g.start ∧ s.hop ∣ g.stop) ∧
  s' = { s with analysis := none, features := [], segments := s'.segments, nsegtypes := s.nclusters, segrate := s.samplerate }

theorem segment_of_labels (hh : s.hlen ≤ s.features.length) (hhop : 0 < s.hop) {c : List Int} (hc : labels inv pca rnd sw s = some c)
    (hl : c.length = s.features.length) (hpos : 0 < s.features.length) (hr : ∀ l ∈ c, 1 ≤ l ∧ l ≤ (s.nclusters : Int)) :
    ∃ s', segment inv pca rnd sw s = some s' ∧ Segmented s s' ∧ expand s.hop s'.segments = c := by
  have hne : c ≠ [] := by rintro rfl; simp at hl; omega
  obtain ⟨segs, h1, h2, h3, h4, h5⟩ := C41_makeSegmentation s.hop c hhop hne
  refine ⟨{ s with analysis := none, features := [], segments := segs, nsegtypes := s.nclusters, segrate := s.samplerate }, ?_, ⟨?_, h3, ?_, rfl⟩, h5⟩
  · unfold segment
    rw [if_neg (by omega), bind_ok hc, bind_ok h1]
    rfl
  · rw [← hl]; exact h2
  · intro g hg
    have := (C41_types s.hop c hhop hne segs h1 g.type).mp (List.mem_map.mpr ⟨g, hg, rfl⟩)
    exact ⟨hr _ this, h4 g hg⟩

/-- **C68** Fewer feature vectors than the histogram is long: the segmentation and the features stay as they are. -/
theorem C68_too_few (h : s.features.length < s.hlen) : segment inv pca rnd sw s = some { s with analysis := none } := if_pos h

/-- **C68** Features provided by the caller, all of the same length, at least two and as many as the histogram is long: for all random numbers, all memory contents
and every inversion with positive determinants `segment()` succeeds. -/
theorem C68_given (hty : s.ftype = .unknown) (hn : 2 ≤ s.features.length) (hh : s.hlen ≤ s.features.length)
    (hf : ∀ r ∈ s.features, r.length = L) (hN : 0 < s.states) (hk : 1 ≤ s.nclusters) (hhop : 0 < s.hop) (hinv : Inverts L inv)
    (hr : rnd.Valid) (ha : Shape2 s.features.length L sw.arr) (hq : sw.q.length = s.features.length)
    (hw : CSizes s.features.length L s.states s.nclusters sw.c) :
    ∃ s', segment inv pca rnd sw s = some s' ∧ Segmented s s' := by
  have hF : Holds2 s.features.length L _ s.features := holds2_of rfl hf 0
  obtain ⟨arr, Y, e1, e2, _⟩ := copyFeatures_ok (fun i j hi hj => hF.rd hi hj) (le_refl L) ha
  obtain ⟨r0, hr0, _⟩ := hF.2 0 (by omega)
  have hr0L : r0.length = L := hf r0 (List.mem_of_getElem? hr0)
  obtain ⟨c, e3, e4, e5⟩ := clusterSegment_ok (limit := s.limit) hn hN hk hh (narrow_ok (le_refl L) e2) hinv hr hw hq
  have hc : labels inv pca rnd sw s = some c := by
    unfold labels
    rw [bind_ok hr0, if_pos hty, hr0L, bind_ok e1, if_pos (Or.inl hty)]
    exact e3
  obtain ⟨s', h1, h2, _⟩ := segment_of_labels (by omega) hhop hc e4 (by omega) e5
  exact ⟨s', h1, h2⟩

/-- **C68** `setFeatures` and then `segment(m)`: the features given are cut into at most `m` types of segment, numbered from 1 to `m`, whatever number of types and
whatever feature type the object was made for and whatever features it had before; `m` is kept for later calls. -/
theorem C68_into (f : List (List ℝ)) (m : Nat) (hn : 2 ≤ f.length) (hh : s.hlen ≤ f.length)
    (hf : ∀ r ∈ f, r.length = L) (hN : 0 < s.states) (hk : 1 ≤ m) (hhop : 0 < s.hop) (hinv : Inverts L inv)
    (hr : rnd.Valid) (ha : Shape2 f.length L sw.arr) (hq : sw.q.length = f.length) (hw : CSizes f.length L s.states m sw.c) :
    ∃ s', segmentInto inv pca rnd sw m (setFeatures f s) = some s' ∧ Tiles 0 s'.segments ((f.length : Int) * s.hop) ∧ TypesDiffer s'.segments ∧
      (∀ g ∈ s'.segments, 1 ≤ g.type ∧ g.type ≤ (m : Int)) ∧ s'.nsegtypes = m ∧ s'.nclusters = m ∧ s'.segrate = s.samplerate ∧ s'.features = [] ∧
      ∀ (n : Nat) (t : FeatureType) (f' : List (List ℝ)), segmentInto inv pca rnd sw m (setFeatures f { s with nclusters := n, ftype := t, features := f' }) = some s' := by
  obtain ⟨s', h1, h2, h3, h4, h5⟩ := C68_given (inv := inv) (pca := pca) (rnd := rnd) (sw := sw) (s := { setFeatures f s with nclusters := m }) rfl hn hh hf hN hk hhop hinv hr ha hq hw
  refine ⟨s', h1, h2, h3, fun g hg => (h4 g hg).1, ?_, ?_, ?_, ?_, fun n t f' => h1⟩ <;> rw [h5] <;> rfl

/-- **C68** The same for cepstral features, of which there are `ncoeff`, in arrays with one place more. -/
theorem C68_mfcc (hty : s.ftype = .mfcc) (hn : 2 ≤ s.features.length) (hh : s.hlen ≤ s.features.length)
    (hf : ∀ r ∈ s.features, r.length = s.ncoeff) (hN : 0 < s.states) (hk : 1 ≤ s.nclusters) (hhop : 0 < s.hop) (hinv : Inverts s.ncoeff inv)
    (hr : rnd.Valid) (ha : Shape2 s.features.length (s.ncoeff + 1) sw.arr) (hq : sw.q.length = s.features.length)
    (hw : CSizes s.features.length s.ncoeff s.states s.nclusters sw.c) :
    ∃ s', segment inv pca rnd sw s = some s' ∧ Segmented s s' := by
  have hF : Holds2 s.features.length s.ncoeff _ s.features := holds2_of rfl hf 0
  obtain ⟨arr, Y, e1, e2, _⟩ := copyFeatures_ok (fun i j hi hj => hF.rd hi hj) (Nat.le_succ _) ha
  obtain ⟨r0, hr0, _⟩ := hF.2 0 (by omega)
  have hr0L : r0.length = s.ncoeff := hf r0 (List.mem_of_getElem? hr0)
  obtain ⟨c, e3, e4, e5⟩ := clusterSegment_ok (limit := s.limit) hn hN hk hh (narrow_ok (Nat.le_succ _) e2) hinv hr hw hq
  have hc : labels inv pca rnd sw s = some c := by
    unfold labels
    rw [bind_ok hr0, if_neg (by rw [hty]; decide), hr0L, bind_ok e1, if_pos (Or.inr hty)]
    exact e3
  obtain ⟨s', h1, h2, _⟩ := segment_of_labels (by omega) hhop hc e4 (by omega) e5
  exact ⟨s', h1, h2⟩

theorem chromaAll_ok {m ncoeff bins : Nat} {c : List (List ℝ)} (hx : Holds2 T m X x) (hm : ncoeff ≤ m) (hc : Shape2 T bins c) :
    ∃ c', chromaAll T ncoeff bins x c = some c' ∧ Holds2 T bins (fun t b => ∑ oct ∈ range (ncoeff / bins), |X t (oct * bins + b)|) c' := by
  obtain ⟨Z, hc⟩ := hc
  obtain ⟨c', h1, h2⟩ := loop_inv (n := T) (s := c) (f := fun t (c : List (List ℝ)) => do
      let r ← x[t]?
      let row ← c[t]?
      let row ← cq2chroma r ncoeff bins row
      wr c t row)
    (P := fun n c => Holds2 T bins (fun t b => if t < n then ∑ oct ∈ range (ncoeff / bins), |X t (oct * bins + b)| else Z t b) c)
    (hc.congr fun i j _ _ => by simp)
    (by
      intro t c ht h
      obtain ⟨r, r1, r2⟩ := hx.2 t ht
      obtain ⟨row, w1, w2⟩ := h.2 t ht
      have hcq := C46_cq2chroma r ncoeff bins row (by rw [r2.1]; exact hm) w2.1
      refine ⟨_, by rw [bind_ok r1, bind_ok w1, bind_ok hcq, wr_some _ (by rw [h.1]; exact ht)], by simp [h.1], fun i hi => ?_⟩
      by_cases e : i = t
      · subst e
        refine ⟨_, List.getElem?_set_self (by rw [h.1]; exact hi), by simp, fun b hb => ?_⟩
        rw [List.getElem?_map, List.getElem?_range hb]
        simp only [Option.map_some, Nat.lt_succ_self, if_true]
        congr 1
        refine sum_congr rfl fun oct ho => ?_
        rw [mem_range] at ho
        have : oct * bins + b < ncoeff := by
          have h1 : (oct + 1) * bins ≤ ncoeff / bins * bins := Nat.mul_le_mul_right _ ho
          have h2 := Nat.div_mul_le_self ncoeff bins
          have h3 : (oct + 1) * bins = oct * bins + bins := Nat.succ_mul _ _
          omega
        have := r2.2 _ (show oct * bins + b < m by omega)
        rw [List.getD_eq_getElem?_getD, this]
        rfl
      · obtain ⟨r', a1, a2⟩ := h.2 i hi
        refine ⟨r', by rw [List.getElem?_set_ne (Ne.symm e)]; exact a1, a2.congr fun b _ => ?_⟩
        have : i < t + 1 ↔ i < t := by omega
        simp [this])
  exact ⟨c', h1, h2.congr fun i j hi _ => by simp [hi]⟩

/-- **C68** The same for chroma features: the constant-Q values are folded into `nbins` classes first. -/
theorem C68_chroma (hty : s.ftype = .chroma) (hn : 2 ≤ s.features.length) (hh : s.hlen ≤ s.features.length)
    (hf : ∀ r ∈ s.features, r.length = s.ncoeff) (hN : 0 < s.states) (hk : 1 ≤ s.nclusters) (hhop : 0 < s.hop) (hinv : Inverts s.nbins inv)
    (hr : rnd.Valid) (ha : Shape2 s.features.length (s.ncoeff + 1) sw.arr) (hq : sw.q.length = s.features.length)
    (hch : Shape2 s.features.length s.nbins sw.chroma) (hw : CSizes s.features.length s.nbins s.states s.nclusters sw.c) :
    ∃ s', segment inv pca rnd sw s = some s' ∧ Segmented s s' := by
  have hF : Holds2 s.features.length s.ncoeff _ s.features := holds2_of rfl hf 0
  obtain ⟨arr, Y, e1, e2, _⟩ := copyFeatures_ok (fun i j hi hj => hF.rd hi hj) (Nat.le_succ _) ha
  obtain ⟨r0, hr0, _⟩ := hF.2 0 (by omega)
  obtain ⟨ch, k1, k2⟩ := chromaAll_ok e2 (Nat.le_succ _) hch
  obtain ⟨c, e3, e4, e5⟩ := clusterSegment_ok (limit := s.limit) hn hN hk hh k2 hinv hr hw hq
  have hc : labels inv pca rnd sw s = some c := by
    unfold labels
    rw [bind_ok hr0, if_neg (by rw [hty]; decide), bind_ok e1, if_neg (by rw [hty]; decide), hty]
    unfold constqSegment
    dsimp only
    rw [bind_ok k1]
    exact e3
  obtain ⟨s', h1, h2, _⟩ := segment_of_labels (by omega) hhop hc e4 (by omega) e5
  exact ⟨s', h1, h2⟩

theorem moveEnvelope_ok {m : Nat} (hm : 20 ≤ m) (hx : Holds2 T (m + 1) X x) :
    ∃ x' Y, moveEnvelope T m x = some x' ∧ Holds2 T (m + 1) Y x' ∧ ∀ t, t < T → (Y t 20 = X t m ∧ ∀ j, j < 20 → Y t j = X t j) := by
  obtain ⟨x', h1, h2⟩ := loop_inv (n := T) (s := x) (f := fun i (x : List (List ℝ)) => do
      let v ← rd2 x i m
      wr2 x i 20 v)
    (P := fun n x => Holds2 T (m + 1) (fun t j => if t < n ∧ j = 20 then X t m else X t j) x)
    (hx.congr fun i j _ _ => by simp)
    (by
      intro t x ht h
      have hr := h.rd ht (show m < m + 1 by omega)
      simp only [lt_irrefl, false_and, if_false] at hr
      obtain ⟨x', a1, a2⟩ := h.wr ht (show 20 < m + 1 by omega) (X t m)
      refine ⟨x', by rw [bind_ok hr, a1], a2.congr fun i j _ _ => ?_⟩
      by_cases e : i = t
      · subst e
        by_cases e2 : j = 20 <;> simp [e2]
      · have : i < t + 1 ↔ i < t := by omega
        simp [e, this])
  refine ⟨x', _, h1, h2, fun t ht => ⟨by simp [ht], fun j hj => ?_⟩⟩
  simp only [show j ≠ 20 by omega, and_false, if_false]

/-- **C68** The same for constant-Q features, with at least twenty coefficients, none negative and no frame at exactly 0 dB throughout, for any
projection on twenty components that keeps the shape of the array. -/
theorem C68_constq (hty : s.ftype = .constq) (hn : 2 ≤ s.features.length) (hh : s.hlen ≤ s.features.length)
    (hf : ∀ r ∈ s.features, r.length = s.ncoeff) (h20 : 20 ≤ s.ncoeff) (hpos : ∀ r ∈ s.features, ∀ v ∈ r, 0 ≤ v)
    (hdb : ∀ r ∈ s.features, ∃ v ∈ r, decibels v ≠ 0) (hN : 0 < s.states) (hk : 1 ≤ s.nclusters) (hhop : 0 < s.hop) (hinv : Inverts 21 inv)
    (hpca : ∀ x, Shape2 s.features.length (s.ncoeff + 1) x → ∃ y, pca x s.features.length s.ncoeff = some y ∧ Shape2 s.features.length (s.ncoeff + 1) y)
    (hr : rnd.Valid) (ha : Shape2 s.features.length (s.ncoeff + 1) sw.arr) (hq : sw.q.length = s.features.length)
    (hw : CSizes s.features.length 21 s.states s.nclusters sw.c) :
    ∃ s', segment inv pca rnd sw s = some s' ∧ Segmented s s' := by
  have hF : Holds2 s.features.length s.ncoeff _ s.features := holds2_of rfl hf 0
  obtain ⟨arr, Y, e1, e2, e2'⟩ := copyFeatures_ok (fun i j hi hj => hF.rd hi hj) (Nat.le_succ _) ha
  obtain ⟨r0, hr0, _⟩ := hF.2 0 (by omega)
  have hrow : ∀ i, i < s.features.length → ∃ r ∈ s.features, r.length = s.ncoeff ∧ ∀ j, j < s.ncoeff → r[j]? = some (Y i j) := by
    intro i hi
    obtain ⟨r, h1, h2⟩ := hF.2 i hi
    exact ⟨r, List.mem_of_getElem? h1, h2.1, fun j hj => by rw [h2.2 j hj, e2' i j hi hj]⟩
  obtain ⟨x1, _, a1, _, _, a2⟩ := C67_mpeg7 (show 0 < s.features.length by omega) e2
    (by
      intro i j hi hj
      obtain ⟨r, m1, _, m2⟩ := hrow i hi
      exact hpos r m1 _ (List.mem_of_getElem? (m2 j hj)))
    (by
      intro i hi
      obtain ⟨r, m1, ml, m2⟩ := hrow i hi
      obtain ⟨v, v1, v2⟩ := hdb r m1
      obtain ⟨j, hj⟩ := List.mem_iff_getElem?.mp v1
      have hj' : j < s.ncoeff := ml ▸ lt_of_getElem?_some hj
      rw [m2 j hj'] at hj
      cases hj
      exact ⟨j, hj', v2⟩)
  obtain ⟨x2, b1, Z, b2⟩ := hpca x1 a2.shape
  obtain ⟨x3, Z', c1, c2, _⟩ := moveEnvelope_ok h20 b2
  obtain ⟨c, e3, e4, e5⟩ := clusterSegment_ok (limit := s.limit) hn hN hk hh (narrow_ok (show 21 ≤ s.ncoeff + 1 by omega) c2) hinv hr hw hq
  have hc : labels inv pca rnd sw s = some c := by
    unfold labels
    rw [bind_ok hr0, if_neg (by rw [hty]; decide), bind_ok e1, if_neg (by rw [hty]; decide), hty]
    unfold constqSegment
    dsimp only
    rw [bind_ok a1, bind_ok b1, bind_ok c1]
    exact e3
  obtain ⟨s', h1, h2, _⟩ := segment_of_labels (by omega) hhop hc e4 (by omega) e5
  exact ⟨s', h1, h2⟩

theorem copyFeatures_shape {f arr : List (List ℝ)} {wd n m : Nat} (ha : Shape2 n m arr) : Tri False (copyFeatures f wd arr) (Shape2 n m) := by
  unfold copyFeatures
  refine Tri.loop (fun _ a => Shape2 n m a) ha (fun i a _ h => Tri.loop (fun _ a => Shape2 n m a) h (fun j a _ h => ?_))
  refine Tri.bind (P := fun _ => True) ?_ (fun v _ => (Tri.wr2 h False.elim).mono fun _ h => h.2)
  cases rd2 f i j
  · exact id
  · trivial

theorem mpeg7_shape {n m k : Nat} (hx : Shape2 n m x) : Tri False (mpeg7 x n k) (Shape2 n m) := by
  have hdiv : ∀ a b : ℝ, Tri False (div? a b) (fun _ => True) := by
    intro a b
    unfold div?
    split_ifs
    · exact id
    · trivial
  unfold mpeg7
  refine Tri.bind (P := Shape2 n m) ?_ (fun f1 h1 => Tri.bind (P := fun s => Shape2 n m s.1) ?_ (fun f2 h2 => ?_))
  · unfold toDecibels
    refine Tri.loop (fun _ f => Shape2 n m f) hx (fun i f1 hi h1 => Tri.loop (fun _ f => Shape2 n m f) h1 (fun j f2 hj h2 => ?_))
    refine Tri.bind (Tri.rd2 h2 False.elim) (fun v _ => Tri.bind (P := fun _ => True) ?_ (fun l _ => (Tri.wr2 h2 False.elim).mono fun _ h => h.2))
    unfold log10?
    split_ifs
    · trivial
    · exact id
  · unfold normaliseRows
    refine Tri.loop (fun _ (f : List (List ℝ) × ℝ) => Shape2 n m f.1) h1 (fun i s hi h => ?_)
    refine Tri.bind (P := fun _ => True) ?_ (fun ss _ => Tri.bind (P := Shape2 n m) ?_ (fun f2 h2 => ?_))
    · cases sumSquares k i s.1
      · exact id
      · trivial
    · refine Tri.loop (fun _ f => Shape2 n m f) h (fun j f2 hj h2 => ?_)
      exact Tri.bind (Tri.rd2 h2 False.elim) (fun v _ => Tri.bind (hdiv _ _) (fun l _ => (Tri.wr2 h2 False.elim).mono fun _ h => h.2))
    · exact Tri.bind (Tri.wr2 h2 False.elim) (fun f3 h3 => h3.2)
  · refine Tri.loop (fun _ f => Shape2 n m f) h2 (fun j f2 hj h2 => ?_)
    exact Tri.bind (Tri.rd2 h2 False.elim) (fun v _ => Tri.bind (hdiv _ _) (fun l _ => (Tri.wr2 h2 False.elim).mono fun _ h => h.2))

/-- **C68** With fewer than twenty constant-Q coefficients the envelope is written outside its row. -/
theorem C68_constq_overrun (hty : s.ftype = .constq) (hn : 0 < s.features.length) (hh : s.hlen ≤ s.features.length) (h20 : s.ncoeff < 20)
    (hpca : ∀ x y, pca x s.features.length s.ncoeff = some y → Shape2 s.features.length (s.ncoeff + 1) x → Shape2 s.features.length (s.ncoeff + 1) y)
    (ha : Shape2 s.features.length (s.ncoeff + 1) sw.arr) : segment inv pca rnd sw s = none := by
  suffices h : labels inv pca rnd sw s = none by
    unfold segment
    rw [if_neg (by omega), h]
    rfl
  apply Tri.none_of
  unfold labels
  refine Tri.bind (P := fun _ => True) ?_ (fun r0 _ => ?_)
  · cases s.features[0]?
    · exact id
    · trivial
  · refine Tri.bind (copyFeatures_shape ha) (fun arr h1 => ?_)
    rw [if_neg (by rw [hty]; decide), hty]
    unfold constqSegment
    dsimp only
    refine Tri.bind (mpeg7_shape h1) (fun x1 h2 => Tri.bind (P := Shape2 s.features.length (s.ncoeff + 1)) ?_ (fun x2 h3 => ?_))
    · cases h : pca x1 s.features.length s.ncoeff with
      | none => exact id
      | some y => exact hpca x1 y h h2
    · have : moveEnvelope s.features.length s.ncoeff x2 = none := by
        unfold moveEnvelope
        refine loop_none_of_le (m := 1) hn ?_
        rw [loop, loop, Option.bind_some]
        beta_reduce
        apply Tri.none_of
        refine Tri.bind (Tri.rd2 h3 False.elim) (fun v _ => ?_)
        rw [wr2_none_col h3 (by omega)]
        exact id
      rw [this]
      exact id

/-- **C68** Feature vectors of different lengths: a row shorter than the first is overread. -/
theorem C68_ragged (hty : s.ftype = .unknown) (hh : s.hlen ≤ s.features.length) (r0 : List ℝ) (h0 : s.features[0]? = some r0) (r : List ℝ) (hr : r ∈ s.features)
    (hlt : r.length < r0.length) : segment inv pca rnd sw s = none := by
  obtain ⟨i, hi⟩ := List.mem_iff_getElem?.mp hr
  unfold segment
  rw [if_neg (by omega)]
  suffices h : labels inv pca rnd sw s = none by rw [h]; rfl
  unfold labels
  rw [bind_ok h0, if_pos hty]
  suffices h : copyFeatures s.features r0.length sw.arr = none by rw [h]; rfl
  unfold copyFeatures
  refine PolyFit.loop_none_at _ i _ _ (lt_of_getElem?_some hi) (fun a => ?_)
  refine PolyFit.loop_none_at _ r.length _ _ hlt (fun b => ?_)
  unfold rd2
  rw [bind_ok hi, List.getElem?_eq_none (le_refl _)]
  rfl

/-- A matrix of `n` rows of `m` values, all the same. -/
def grid {β : Type} (n m : Nat) (v : β) : List (List β) := List.replicate n (List.replicate m v)

theorem grid_shape {β : Type} (n m : Nat) (v : β) : Shape2 n m (grid n m v) :=
  ⟨_, holds2_of (by simp [grid]) (by
    intro r hr
    obtain ⟨_, rfl⟩ := List.mem_replicate.mp hr
    simp) v⟩

theorem grid_rect {β : Type} (n m : Nat) (v : β) : Rect n m (grid n m v) :=
  ⟨by simp [grid], by
    intro r hr
    obtain ⟨_, rfl⟩ := List.mem_replicate.mp hr
    simp⟩

/-- Arrays of the right sizes. -/
def work (T L N k : Nat) : CWork :=
  ⟨List.replicate N 7, grid N N 7, grid N L 7, grid L L 7, List.replicate L 7,
    fun _ => ⟨grid T N 7, List.replicate T (grid N N 7), grid T N 7, List.replicate L 7, List.replicate L 7, grid T N 7, grid T N 7, List.replicate T 7,
      List.replicate N 7, List.replicate (L * L) 7, List.replicate (L * T) 7, List.replicate (L * T) 7⟩, 7, 7, 7,
    ⟨grid T N 7, grid T N ⊥, grid T N 7, List.replicate L 7, List.replicate L 7⟩, List.replicate (T * N) 7, List.replicate 20 7,
    ⟨grid k N 7, grid T k 7, grid T k 7, List.replicate T 7, []⟩⟩

theorem work_sizes (T L N k : Nat) : CSizes T L N k (work T L N k) where
  p0 := by simp [work]
  a := grid_shape _ _ _
  mu := grid_shape _ _ _
  cov := grid_shape _ _ _
  gm := by simp [work]
  train := fun _ => ⟨grid_shape _ _ _, by simp [work], fun t ht => ⟨grid N N 7, _, by simp [work, ht], (grid_shape N N (7 : ℝ)).choose_spec⟩, grid_shape _ _ _,
    by simp [work], by simp [work], grid_shape _ _ _, grid_shape _ _ _, ⟨_, holds_of_length (by simp [work]) 0⟩, by simp [work], by simp [work],
    by simp [work], by simp [work]⟩
  vit := ⟨grid_shape _ _ _, grid_shape _ _ _, grid_shape _ _ _, by simp [work], by simp [work]⟩
  h := by simp [work]
  bsched := by simp [work]
  cl := grid_rect _ _ _
  nc := grid_rect _ _ _
  lp := grid_rect _ _ _
  oldc := by simp [work]

/-- Five frames of two features, three states, two clusters, a histogram of three frames. -/
def demoSegmenter : Segmenter Unit :=
  ⟨some (), [[1, 2], [1, 3], [5, 0], [5, 1], [1, 2]], .unknown, 8, 64, 3, 2, 3, 20, 44100, 8820, [⟨0, 7, 7⟩], 9, 0⟩

def demoRand : Rand := ⟨fun _ _ => 0, fun i => i, fun i j => i * j, fun i j => i + j⟩

theorem demoRand_valid : demoRand.Valid :=
  ⟨fun _ _ => by norm_num [demoRand], fun i => by simp [demoRand], fun i j => by simp only [demoRand]; positivity⟩

theorem demo_inverts (L : Nat) : Inverts L (fun _ => (grid L L 1, 1)) := fun _ _ => ⟨grid_shape _ _ _, by norm_num⟩

example : ∃ s', segment (fun _ => (grid 2 2 1, 1)) (fun x _ _ => some x) demoRand ⟨grid 5 2 7, List.replicate 5 7, [], work 5 2 3 2⟩ demoSegmenter = some s' ∧
    Segmented demoSegmenter s' :=
  C68_given rfl (by simp [demoSegmenter]) (by simp [demoSegmenter]) (L := 2) (by simp [demoSegmenter]) (by simp [demoSegmenter])
    (by simp [demoSegmenter]) (by simp [demoSegmenter]) (demo_inverts 2) demoRand_valid (grid_shape _ _ _) rfl (work_sizes 5 2 3 2)

/-- The same given to an object that was last used for spectra, with another number of clusters. -/
example : ∃ s', segmentInto (fun _ => (grid 2 2 1, 1)) (fun x _ _ => some x) demoRand ⟨grid 5 2 7, List.replicate 5 7, [], work 5 2 3 2⟩ 2
    (setFeatures [[1, 2], [1, 3], [5, 0], [5, 1], [1, 2]] { demoSegmenter with ftype := .constq, nclusters := 9 }) = some s' ∧ s'.nsegtypes = 2 := by
  obtain ⟨s', h1, -, -, -, h2, -⟩ := C68_into (s := { demoSegmenter with ftype := .constq, nclusters := 9 }) (pca := fun x _ _ => some x)
    [[1, 2], [1, 3], [5, 0], [5, 1], [1, 2]] 2 (by simp) (by simp [demoSegmenter]) (L := 2) (by simp) (by simp [demoSegmenter]) (by simp) (by simp [demoSegmenter])
    (demo_inverts 2) demoRand_valid (sw := ⟨grid 5 2 7, List.replicate 5 7, [], work 5 2 3 2⟩) (grid_shape _ _ _) rfl (work_sizes 5 2 3 2)
  exact ⟨s', h1, h2⟩

/-- The same with two frames of thirty magnitudes each. -/
example : ∃ s', segment (fun _ => (grid 21 21 1, 1)) (fun x _ _ => some x) demoRand ⟨grid 2 31 7, List.replicate 2 7, [], work 2 21 3 2⟩
      { demoSegmenter with ftype := .constq, ncoeff := 30, features := grid 2 30 0, hlen := 1 } = some s' ∧
    Segmented { demoSegmenter with ftype := .constq, ncoeff := 30, features := grid 2 30 0, hlen := 1 } s' :=
  C68_constq rfl (by simp [grid]) (by simp [grid]) (grid_rect 2 30 0).2 (by simp) (by simp [grid]) (by simpa [grid] using demo_decibels)
    (by simp [demoSegmenter]) (by simp [demoSegmenter]) (by simp [demoSegmenter]) (demo_inverts 21) (fun x hx => ⟨x, rfl, hx⟩) demoRand_valid
    (grid_shape _ _ _) rfl (work_sizes 2 21 3 2)

end QM.Segment
