import Verif.Tonal.Props

/-!
# C63: the sequence of tonal centroids and the harmonic change function
-/

namespace QM.Tonal

open Finset

/-! ## The sequence -/

/-- Adding vectors one after another. -/
noncomputable def addAll : Gram → List (List ℝ) → Option Gram
  | g, [] => some g
  | g, v :: vs => do
    let g ← g.add v
    addAll g vs

/-- The sequence holding the vectors `vs` with frame duration `d`. -/
noncomputable def gramOf (d : ℝ) (vs : List (List ℝ)) : Gram :=
  ⟨(List.range vs.length).map (fun i : Nat => (trunc (i * d), vs.getD i [])), some d⟩

theorem gramOf_add (d : ℝ) (vs : List (List ℝ)) (v : List ℝ) :
    (gramOf d vs).add v = some (gramOf d (vs ++ [v])) := by
  unfold Gram.add gramOf
  simp only [Option.bind_eq_bind, Option.bind_some, List.length_map, List.length_range,
    List.length_append, List.length_singleton, List.range_succ, List.map_append, List.map_cons, List.map_nil]
  congr 2
  refine congrArg₂ _ ?_ ?_
  · refine List.map_congr_left fun i hi => ?_
    have hi := List.mem_range.mp hi
    simp only [List.getD_eq_getElem?_getD, List.getElem?_append_left hi]
  · simp

theorem addAll_gramOf (d : ℝ) (us vs : List (List ℝ)) :
    addAll (gramOf d us) vs = some (gramOf d (us ++ vs)) := by
  induction vs generalizing us with
  | nil => simp [addAll]
  | cons v vs ih =>
    rw [addAll, gramOf_add, bind_ok rfl, ih]
    simp

/-- C63. After setting the frame duration (in milliseconds) and adding any vectors, the sequence has
that many entries, position `i` gives back the `i`-th vector, every position outside (negative ones too)
gives the zero vector, entry `i` is stamped with `i` frame durations, cut to whole milliseconds, and the
total duration is the number of frames times the frame duration, cut likewise. -/
theorem C63_sequence (d : ℝ) (vs : List (List ℝ)) :
    ∃ g, addAll (Gram.new.setFrameDuration d) vs = some g ∧ g.getSize = vs.length ∧
      (∀ i : Nat, i < vs.length → g.get i = vs.getD i []) ∧
      (∀ i : Int, i < 0 ∨ vs.length ≤ i → g.get i = List.replicate 6 0) ∧
      (∀ i : Nat, i < vs.length → g.getTime i = some (trunc (i * d))) ∧
      g.getDuration = some (trunc (vs.length * d)) := by
  refine ⟨gramOf d vs, addAll_gramOf d [] vs, by simp [gramOf, Gram.getSize], ?_, ?_, ?_, ?_⟩
  · intro i hi
    unfold Gram.get
    rw [if_neg (by omega), if_neg (by simp [gramOf]; omega)]
    simp [gramOf, hi]
  · intro i hi
    unfold Gram.get
    by_cases h : i < 0
    · rw [if_pos h]
    · rw [if_neg h, if_pos (by simp [gramOf]; omega)]
  · intro i hi
    simp [Gram.getTime, gramOf, hi]
  · simp [Gram.getDuration, gramOf]

/-- Without `setFrameDuration` the first addition reads an uninitialised member. -/
theorem C63_uninitialised (v : List ℝ) : Gram.new.add v = none := rfl

/-! ## The smoothing kernel -/

/-- C63. For a smoothing width `w ≥ 0` the kernel has `2w+1` positive elements, is symmetric, and its
middle element is the largest. -/
theorem C63_kernel (w : Nat) : ∃ k, gaussian w = some k ∧ k.length = 2 * w + 1 ∧ (∀ x ∈ k, 0 < x) ∧
    k.reverse = k ∧ ∀ x ∈ k, x ≤ k.getD w 0 := by
  set sigma : ℝ := ((w * 2 + 1 : Nat) : ℝ) / (2 * 2.3548) with hs
  have hsp : 0 < sigma := by rw [hs]; positivity
  set scale : ℝ := 1 / (sigma * Real.sqrt (2 * Real.pi)) with hsc
  have hscp : 0 < scale := by rw [hsc]; have := Real.pi_pos; positivity
  set f : Nat → ℝ := fun i => scale * Real.exp (-(((i : ℝ) - w) * ((i : ℝ) - w)) / (2 * sigma * sigma)) with hf
  have hk : gaussian w = some ((List.range (w * 2 + 1)).map f) := by
    unfold gaussian
    rw [if_neg (by omega)]
    simp only [Int.toNat_natCast]
    rfl
  refine ⟨_, hk, by simp; omega, ?_, ?_, ?_⟩
  · intro x hx
    obtain ⟨i, _, rfl⟩ := List.mem_map.mp hx
    rw [hf]; positivity
  · apply List.ext_getElem
    · simp
    · intro i h1 h2
      have hi : i < w * 2 + 1 := by simpa using h2
      simp only [List.getElem_reverse, List.getElem_map, List.getElem_range, List.length_map, List.length_range,
        hf]
      congr 3
      have : ((w * 2 + 1 - 1 - i : Nat) : ℝ) = 2 * w - i := by
        rw [Nat.add_sub_cancel, Nat.cast_sub (by omega)]; push_cast; ring
      rw [this]
      ring
  · intro x hx
    obtain ⟨i, _, rfl⟩ := List.mem_map.mp hx
    have : ((List.range (w * 2 + 1)).map f).getD w 0 = f w := by
      simp only [List.getD_eq_getElem?_getD, List.getElem?_map, List.getElem?_range (show w < w * 2 + 1 by omega),
        Option.map_some, Option.getD_some]
    rw [this]
    simp only [hf]
    refine mul_le_mul_of_nonneg_left (Real.exp_le_exp.mpr ?_) hscp.le
    have h1 : 0 ≤ ((i : ℝ) - w) * ((i : ℝ) - w) := mul_self_nonneg _
    have h2 : (0 : ℝ) < 2 * sigma * sigma := by positivity
    rw [sub_self, mul_zero, neg_zero, zero_div]
    exact div_nonpos_of_nonpos_of_nonneg (by linarith) h2.le

/-- A negative width asks for an impossible array. -/
theorem C63_negative_width (w : Int) (h : w < 0) : gaussian w = none := if_pos h

/-! ## The change function -/

/-- Element `bin` of frame `t`, zero outside the sequence. -/
noncomputable def frame (vs : List (List ℝ)) (t : Int) (bin : Nat) : ℝ :=
  if 0 ≤ t ∧ t < vs.length then (vs.getD t.toNat []).getD bin 0 else 0

/-- The sequence smoothed by the kernel `k`, centred: frames outside the sequence count as zero. -/
noncomputable def smoothed (k : List ℝ) (vs : List (List ℝ)) (t bin : Nat) : ℝ :=
  ∑ j ∈ range k.length, k.getD j 0 * frame vs ((t : Int) + j - ((k.length - 1) / 2 : Nat)) bin

/-- The smoothed sequence, zero outside the range of frames. -/
noncomputable def smoothedAt (k : List ℝ) (vs : List (List ℝ)) (t : Int) (bin : Nat) : ℝ :=
  if 0 ≤ t ∧ t < vs.length then smoothed k vs t.toNat bin else 0

/-- Euclidean distance between the smoothed frames before and after frame `t`. -/
noncomputable def change (k : List ℝ) (vs : List (List ℝ)) (t : Nat) : ℝ :=
  Real.sqrt (∑ b ∈ range 6, (smoothedAt k vs ((t : Int) + 1) b - smoothedAt k vs ((t : Int) - 1) b) ^ 2)

theorem sum_window (f : Nat → ℝ) (skip cnt n : Nat) (h : skip + cnt ≤ n)
    (h0 : ∀ j, j < skip → f j = 0) (h1 : ∀ j, skip + cnt ≤ j → j < n → f j = 0) :
    ∑ j ∈ range n, f j = ∑ j ∈ range cnt, f (skip + j) := by
  obtain ⟨r, rfl⟩ := Nat.exists_eq_add_of_le h
  rw [sum_range_add, sum_range_add, sum_eq_zero (fun j hj => h0 j (mem_range.mp hj)),
    sum_eq_zero (s := range r) (fun j hj => h1 _ (by omega) (by have := mem_range.mp hj; omega))]
  ring

theorem get_gramOf (d : ℝ) (vs : List (List ℝ)) (hv : ∀ v ∈ vs, v.length = 6) (t : Int) :
    Holds 6 (frame vs t) ((gramOf d vs).get t) := by
  unfold Gram.get frame
  have hlen : (gramOf d vs).vectors.length = vs.length := by simp [gramOf]
  rw [hlen]
  by_cases h1 : t < 0
  · rw [if_pos h1]
    exact (holds_replicate 6 (0 : ℝ)).congr fun j _ => by rw [if_neg (by omega)]
  · rw [if_neg h1]
    by_cases h2 : t ≥ vs.length
    · rw [if_pos h2]
      exact (holds_replicate 6 (0 : ℝ)).congr fun j _ => by rw [if_neg (by omega)]
    · rw [if_neg h2]
      have ht : t.toNat < vs.length := by omega
      have e : ((gramOf d vs).vectors.getD t.toNat (0, [])).2 = vs.getD t.toNat [] := by
        simp [gramOf, ht]
      rw [e]
      have hm : (vs.getD t.toNat []).length = 6 := by
        rw [List.getD_eq_getElem?_getD, List.getElem?_eq_getElem ht]
        exact hv _ (List.getElem_mem ht)
      exact (holds_of_length hm 0).congr fun j _ => by rw [if_pos (by omega)]

theorem smoothOne_ok (k : List ℝ) (d : ℝ) (vs : List (List ℝ)) (hv : ∀ v ∈ vs, v.length = 6)
    (lower upper skip bin : Nat) (hb : bin < 6) (hk : skip + (upper + 1 - lower) ≤ k.length) :
    smoothOne k (gramOf d vs) lower upper skip bin =
      some (∑ j ∈ range (upper + 1 - lower), k.getD (skip + j) 0 * frame vs ((lower + j : Nat) : Int) bin) := by
  unfold smoothOne
  rw [loop_sum _ _ (fun j => k.getD (skip + j) 0 * frame vs ((lower + j : Nat) : Int) bin), zero_add]
  intro j acc hj
  rw [bind_ok (get_getD k (skip + j) 0 (by omega)), bind_ok ((get_gramOf d vs hv _).2 bin hb)]

theorem smooth_ok (k : List ℝ) (w : Nat) (hk : k.length = 2 * w + 1) (d e : ℝ) (vs : List (List ℝ))
    (hv : ∀ v ∈ vs, v.length = 6) :
    smooth k (gramOf d vs) (some e) = some (gramOf e ((List.range vs.length).map (fun t =>
      (List.range 6).map (fun b => smoothed k vs t b)))) := by
  have hsz : (gramOf d vs).getSize = vs.length := by simp [gramOf, Gram.getSize]
  obtain ⟨g, h1, h2⟩ := loop_inv (gramOf d vs).getSize (fun (pos : Nat) (sm : Gram) => do
    let half : Int := ((k.length : Int) - 1) / 2
    let lowerPos : Int := pos - half
    let upperPos : Int := pos + half
    let skip := if lowerPos < 0 then -lowerPos else 0
    let lower := if lowerPos < 0 then 0 else lowerPos
    let upper := if upperPos ≥ (gramOf d vs).getSize then ((gramOf d vs).getSize : Int) - 1 else upperPos
    let v ← loop 6 (fun bin v => do
      let x ← smoothOne k (gramOf d vs) lower.toNat upper.toNat skip.toNat bin
      wr v bin x) (List.replicate 6 (0 : ℝ))
    sm.add v) ⟨[], some e⟩
    (fun i g => g = gramOf e ((List.range i).map (fun t =>
      (List.range 6).map (fun b => smoothed k vs t b))))
    rfl (by
      rintro pos g hpos rfl
      rw [hsz] at hpos
      refine ⟨_, ?_, rfl⟩
      dsimp only
      rw [hsz]
      obtain ⟨skip, hskip⟩ : ∃ s : Nat, (if (pos : Int) - ((k.length : Int) - 1) / 2 < 0 then
        -((pos : Int) - ((k.length : Int) - 1) / 2) else 0) = s := ⟨w - pos, by split <;> omega⟩
      obtain ⟨lower, hlower⟩ : ∃ s : Nat, (if (pos : Int) - ((k.length : Int) - 1) / 2 < 0 then
        0 else (pos : Int) - ((k.length : Int) - 1) / 2) = s := ⟨pos - w, by split <;> omega⟩
      obtain ⟨upper, hupper⟩ : ∃ s : Nat, (if (pos : Int) + ((k.length : Int) - 1) / 2 ≥ (vs.length : Int) then
        (vs.length : Int) - 1 else (pos : Int) + ((k.length : Int) - 1) / 2) = s :=
        ⟨min (pos + w) (vs.length - 1), by split <;> omega⟩
      have hs : skip = w - pos := by split at hskip <;> omega
      have hl : lower = pos - w := by split at hlower <;> omega
      have hu : upper = min (pos + w) (vs.length - 1) := by split at hupper <;> omega
      rw [hskip, hlower, hupper]
      simp only [Int.toNat_natCast]
      obtain ⟨v, e1, e2⟩ := fill_part (L := 6) (new := fun b => smoothed k vs pos b)
        (f := fun bin v => do
          let x ← smoothOne k (gramOf d vs) lower upper skip bin
          wr v bin x) (holds_replicate 6 (0 : ℝ)) (by
          intro b ys hb hp
          rw [bind_ok (smoothOne_ok k d vs hv lower upper skip b hb (by omega))]
          congr 1
          unfold smoothed
          rw [sum_window _ skip (upper + 1 - lower) k.length (by omega)]
          · refine sum_congr rfl fun j hj => ?_
            congr 2
            have := mem_range.mp hj
            omega
          · intro j hj
            rw [frame, if_neg (by omega), mul_zero]
          · intro j hj hj2
            rw [frame, if_neg (by omega), mul_zero])
      rw [bind_ok e1]
      have hvv : v = (List.range 6).map (fun b => smoothed k vs pos b) :=
        e2.ext ⟨by simp, fun j hj => by simp [hj]⟩
      rw [hvv, gramOf_add, List.range_succ (n := pos), List.map_append]
      rfl)
  unfold smooth
  rw [h1, h2, hsz]

theorem distance_ok (a b : List ℝ) (f g : Nat → ℝ) (ha : Holds 6 f a) (hb : Holds 6 g b) :
    distance a b = some (Real.sqrt (∑ j ∈ range 6, (f j - g j) ^ 2)) := by
  unfold distance
  rw [bind_ok (loop_sum 6 _ (fun j => (f j - g j) ^ 2) 0 (by
    intro j acc hj
    rw [bind_ok (ha.2 j hj), bind_ok (hb.2 j hj)])), zero_add]

/-- C63. For every odd-length kernel (whatever the constructor made it) and every sequence of
six-element vectors, if the unset frame duration of the temporary sequence is read as some number `e`,
the change function has one value per frame, and each is the Euclidean distance between the smoothed
frame after it and the smoothed frame before it. Every access is in bounds. The suffix: as the code
stands, the read of the unset member is undefined behaviour, see `C63_violation`. -/
theorem C63_change_partial (k : List ℝ) (w : Nat) (hk : k.length = 2 * w + 1) (d e : ℝ)
    (vs : List (List ℝ)) (hv : ∀ v ∈ vs, v.length = 6) :
    processWith (some e) k (gramOf d vs) = some ((List.range vs.length).map (change k vs)) := by
  have hsz : (gramOf d vs).getSize = vs.length := by simp [gramOf, Gram.getSize]
  set sm := (List.range vs.length).map (fun t => (List.range 6).map (fun b => smoothed k vs t b)) with hsm
  have hsmv : ∀ v ∈ sm, v.length = 6 := by
    intro v hv
    obtain ⟨t, _, rfl⟩ := List.mem_map.mp hv
    simp
  have hfr : ∀ t b, b < 6 → frame sm t b = smoothedAt k vs t b := by
    intro t b hb
    unfold frame smoothedAt
    have hl : sm.length = vs.length := by simp [hsm]
    rw [hl]
    by_cases h : 0 ≤ t ∧ t < vs.length
    · rw [if_pos h, if_pos h]
      have ht : t.toNat < vs.length := by omega
      simp [hsm, ht, hb]
    · rw [if_neg h, if_neg h]
  obtain ⟨r, e1, e2⟩ := fill_part (L := vs.length) (new := change k vs)
    (f := fun (pos : Nat) (r : List ℝ) => do
      let dd ← distance ((gramOf e sm).get (pos + 1)) ((gramOf e sm).get ((pos : Int) - 1))
      wr r pos dd) (holds_replicate vs.length (0 : ℝ)) (by
      intro pos ys hpos hp
      rw [bind_ok (distance_ok _ _ _ _ (get_gramOf e sm hsmv _) (get_gramOf e sm hsmv _))]
      congr 1
      unfold change
      congr 1
      refine sum_congr rfl fun b hb => ?_
      rw [hfr _ b (mem_range.mp hb), hfr _ b (mem_range.mp hb)])
  unfold processWith
  rw [bind_ok (smooth_ok k w hk d e vs hv), hsz, e1]
  congr 1
  exact e2.ext ⟨by simp, fun j hj => by simp [hj]⟩

/-- As the code stands, any non-empty sequence makes `process` read the uninitialised frame duration of
its temporary sequence. -/
theorem C63_violation (k : List ℝ) (g : Gram) (h : g.vectors ≠ []) : process k g = none := by
  unfold process processWith smooth
  have hpos : 0 < g.getSize := List.length_pos_iff.mpr h
  have : ∀ f : Nat → Gram → Option Gram, f 0 ⟨[], none⟩ = none → loop g.getSize f ⟨[], none⟩ = none := by
    intro f hf
    refine loop_none_of_le (m := 1) hpos ?_
    rw [loop, loop]
    exact hf
  rw [this]
  · rfl
  · dsimp only
    cases hl : loop 6 (fun bin v => do
        let x ← smoothOne k g _ _ _ bin
        wr v bin x) (List.replicate 6 (0 : ℝ)) with
    | none => rfl
    | some v => rfl

/-- C63. An empty sequence gives an empty result. -/
theorem C63_empty (k : List ℝ) (d : Option ℝ) : process k ⟨[], d⟩ = some [] := rfl

/-- C63. In the middle of a stretch of unchanging harmony the change function is 0: if all frames within
`w + 1` of frame `t` exist and are equal, its value at `t` is 0. -/
theorem C63_steady (k : List ℝ) (w : Nat) (hk : k.length = 2 * w + 1) (vs : List (List ℝ)) (t : Nat)
    (h0 : w + 1 ≤ t) (h1 : t + w + 1 < vs.length) (v : List ℝ)
    (hv : ∀ s : Nat, t ≤ s + w + 1 → s ≤ t + w + 1 → vs.getD s [] = v) : change k vs t = 0 := by
  have key : ∀ s : Nat, t ≤ s + 1 → s ≤ t + 1 → ∀ b, smoothed k vs s b = ∑ j ∈ range k.length, k.getD j 0 * v.getD b 0 := by
    intro s hs1 hs2 b
    unfold smoothed
    refine sum_congr rfl fun j hj => ?_
    have hj := mem_range.mp hj
    rw [frame, if_pos (by omega), hv _ (by omega) (by omega)]
  unfold change
  rw [sum_eq_zero, Real.sqrt_zero]
  intro b _
  rw [smoothedAt, if_pos (by omega), smoothedAt, if_pos (by omega), key _ (by omega) (by omega),
    key _ (by omega) (by omega), sub_self]
  ring

/-- The tonal centroids of a chromagram. -/
noncomputable def tonalFrames (cs : List (List ℝ)) : List (List ℝ) := cs.map tcs

/-- The kernel-smoothed centroids on one circle. -/
noncomputable def smoothedCentroid (θ : ℝ) (k : List ℝ) (cs : List (List ℝ)) (t : Int) : ℂ :=
  if 0 ≤ t ∧ t < cs.length then
    ∑ j ∈ range k.length, (k.getD j 0 : ℂ) *
      (if 0 ≤ (t.toNat : Int) + j - ((k.length - 1) / 2 : Nat) ∧
          (t.toNat : Int) + j - ((k.length - 1) / 2 : Nat) < cs.length then
        centroid θ (cs.getD ((t.toNat : Int) + j - ((k.length - 1) / 2 : Nat)).toNat []) else 0)
  else 0

theorem frame_tonal (cs : List (List ℝ)) (t : Int) (b : Nat) :
    frame (tonalFrames cs) t b = if 0 ≤ t ∧ t < cs.length then (tcs (cs.getD t.toNat [])).getD b 0 else 0 := by
  unfold frame tonalFrames
  rw [List.length_map]
  split
  · next h =>
    have : t.toNat < cs.length := by omega
    simp [this]
  · rfl

theorem smoothedAt_tonal (k : List ℝ) (cs : List (List ℝ)) (t : Int) :
    smoothedAt k (tonalFrames cs) t 0 = (smoothedCentroid fifths k cs t).im ∧
    smoothedAt k (tonalFrames cs) t 1 = (smoothedCentroid fifths k cs t).re ∧
    smoothedAt k (tonalFrames cs) t 2 = 6 / 10 * (smoothedCentroid majorThirds k cs t).im ∧
    smoothedAt k (tonalFrames cs) t 3 = 6 / 10 * (smoothedCentroid majorThirds k cs t).re ∧
    smoothedAt k (tonalFrames cs) t 4 = 11 / 10 * (smoothedCentroid minorThirds k cs t).im ∧
    smoothedAt k (tonalFrames cs) t 5 = 11 / 10 * (smoothedCentroid minorThirds k cs t).re := by
  have hl : (tonalFrames cs).length = cs.length := by simp [tonalFrames]
  unfold smoothedAt smoothedCentroid
  rw [hl]
  by_cases h : 0 ≤ t ∧ t < cs.length
  · simp only [if_pos h, Complex.re_sum, Complex.im_sum, mul_sum]
    unfold smoothed
    refine ⟨?_, ?_, ?_, ?_, ?_, ?_⟩ <;>
    · refine sum_congr rfl fun j _ => ?_
      rw [frame_tonal]
      first | rw [Complex.re_ofReal_mul] | rw [Complex.im_ofReal_mul]
      split <;> simp [tcs]
      try ring
  · simp [if_neg h]

theorem smoothedCentroid_turn (θ : ℝ) (k : List ℝ) (cs : List (List ℝ)) (n : Nat)
    (h : ∀ c, centroid θ (transpose^[n] c) = Complex.exp ((θ : ℂ) * Complex.I) ^ n * centroid θ c) (t : Int) :
    smoothedCentroid θ k (cs.map (transpose^[n])) t =
      Complex.exp ((θ : ℂ) * Complex.I) ^ n * smoothedCentroid θ k cs t := by
  unfold smoothedCentroid
  rw [List.length_map]
  by_cases ht : 0 ≤ t ∧ t < cs.length
  · rw [if_pos ht, if_pos ht, mul_sum]
    refine sum_congr rfl fun j _ => ?_
    split
    · next hj =>
      have : ((t.toNat : Int) + j - ((k.length - 1) / 2 : Nat)).toNat < cs.length := by omega
      have e : (cs.map (transpose^[n])).getD ((t.toNat : Int) + j - ((k.length - 1) / 2 : Nat)).toNat [] =
          transpose^[n] (cs.getD ((t.toNat : Int) + j - ((k.length - 1) / 2 : Nat)).toNat []) := by
        rw [List.getD_eq_getElem?_getD, List.getD_eq_getElem?_getD, List.getElem?_map,
          List.getElem?_eq_getElem this]
        rfl
      rw [e, h]
      ring
    · simp
  · rw [if_neg ht, if_neg ht, mul_zero]

theorem change_tonal (k : List ℝ) (cs : List (List ℝ)) (t : Nat) :
    change k (tonalFrames cs) t = Real.sqrt
      (‖smoothedCentroid fifths k cs (t + 1) - smoothedCentroid fifths k cs (t - 1)‖ ^ 2 +
        (6 / 10) ^ 2 * ‖smoothedCentroid majorThirds k cs (t + 1) - smoothedCentroid majorThirds k cs (t - 1)‖ ^ 2 +
        (11 / 10) ^ 2 * ‖smoothedCentroid minorThirds k cs (t + 1) - smoothedCentroid minorThirds k cs (t - 1)‖ ^ 2) := by
  unfold change
  obtain ⟨a0, a1, a2, a3, a4, a5⟩ := smoothedAt_tonal k cs ((t : Int) + 1)
  obtain ⟨b0, b1, b2, b3, b4, b5⟩ := smoothedAt_tonal k cs ((t : Int) - 1)
  simp only [sum_range_succ, sum_range_zero, a0, a1, a2, a3, a4, a5, b0, b1, b2, b3, b4, b5]
  rw [← norm_sq_im_re, ← norm_sq_im_re, ← norm_sq_im_re]
  congr 1
  simp only [Complex.sub_re, Complex.sub_im]
  ring

/-- C63. Transposing the whole piece by any number of semitones leaves the harmonic change function
unchanged. -/
theorem C63_transposition (k : List ℝ) (cs : List (List ℝ)) (n t : Nat) :
    change k (tonalFrames (cs.map (transpose^[n]))) t = change k (tonalFrames cs) t := by
  rw [change_tonal, change_tonal]
  simp only [smoothedCentroid_turn fifths k cs n (fun c => (C62_transpose n c).1),
    smoothedCentroid_turn majorThirds k cs n (fun c => (C62_transpose n c).2.1),
    smoothedCentroid_turn minorThirds k cs n (fun c => (C62_transpose n c).2.2), ← mul_sub, norm_turn]

example : ∃ k, gaussian 1 = some k ∧ k.length = 2 * 1 + 1 := by
  obtain ⟨k, h1, h2, _⟩ := C63_kernel 1
  exact ⟨k, h1, h2⟩

example : ∀ v ∈ tonalFrames [[1, 0, 0, 0, 1, 0, 0, 1, 0, 0, 0, 0]], v.length = 6 := by
  simp [tonalFrames, tcs]

end QM.Tonal
