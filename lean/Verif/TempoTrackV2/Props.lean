import Verif.TempoTrackV2.Decode

/-!
# C35: the beat periods
-/

namespace QM.TempoTrackV2

open QM.MathReal

section
variable {K : Type} [Field K] [LinearOrder K] [IsStrictOrderedRing K]

/-- Element `i` after adaptive thresholding: what exceeds the local mean. -/
def thresholded (xs : List K) (i : Nat) : K := max 0 (xs.getD i 0 - localMean xs i)

omit [IsStrictOrderedRing K] in
theorem threshold_nonneg (xs : List K) (i : Nat) : 0 ≤ thresholded xs i := le_max_left _ _

theorem threshold_ok (xs : List K) : ∃ ys, adaptiveThreshold xs = some ys ∧ Holds xs.length (thresholded xs) ys := by
  obtain ⟨o, h1, h2, h3⟩ := C07_adaptiveThreshold xs
  refine ⟨o, h1, h2, fun i hi => ?_⟩
  rw [h3 i hi]
  simp [thresholded, List.getD, hi]

/-- Mean product at distance `k` of the `L` values `x`. -/
def acf (x : Nat → K) (L k : Nat) : K := (∑ n ∈ Finset.range (L - k), x n * x (n + k)) / ((L - k : Nat) : K)

/-- The comb filter for period `i`: elements around the first four multiples of the period, the `a`-th of width `2 a - 1`. Index `i` of
the vector stands for period `i + 1`. -/
def comb (c : Nat → K) (W : Nat → K) (M i : Nat) : K :=
  if 1 ≤ i ∧ i + 1 < M then ∑ a ∈ Finset.range 4, ∑ b ∈ Finset.range (2 * (a + 1) - 1), c ((a + 1) * i + b) * W i / (2 * ((a + 1 : Nat) : K) - 1) else 0

omit [LinearOrder K] [IsStrictOrderedRing K] in
/-- Repeatedly adding to one element. -/
theorem accumulate {n p : Nat} {xs : List K} {r : K} {F : Nat → List K → Option (List K)} (g : Nat → K) (hp : p < xs.length) (hr : xs[p]? = some r)
    (hF : ∀ j ys, j < n → ys.length = xs.length → ∀ y, ys[p]? = some y → F j ys = some (ys.set p (y + g j))) :
    loop n F xs = some (xs.set p (r + ∑ j ∈ Finset.range n, g j)) := by
  obtain ⟨ys, h1, h2⟩ := loop_inv (n := n) (f := F) (s := xs) (P := fun k ys => ys = xs.set p (r + ∑ j ∈ Finset.range k, g j))
    (by
      apply List.ext_getElem?
      intro m
      rw [List.getElem?_set]
      split
      · next e => subst e; rw [hr]; simp [hp]
      · rfl)
    (by
      intro k ys hk hys
      subst hys
      refine ⟨_, hF k _ hk (by simp) (r + ∑ j ∈ Finset.range k, g j) (by simp [hp]), ?_⟩
      rw [List.set_set, Finset.sum_range_succ, add_assoc])
  rw [h1, h2]

/-- C35. The comb filter output of a frame of `L` values at `M` periods reads no element outside the frame's autocorrelation, and
consists of the thresholded comb filter outputs, made positive and divided by their sum. -/
theorem C35_comb {frame wv : List K} {W : Nat → K} {L M : Nat} (hf : frame.length = L) (hw : Holds M W wv) (hL : 4 * (M - 2) + 6 < L) :
    ∃ out, getRcf frame wv (List.replicate M 0) = some out ∧
      Holds M (fun i => (thresholded ((List.range M).map (comb (acf (thresholded frame) L) W M)) i + eps)
        / (∑ j ∈ Finset.range M, (thresholded ((List.range M).map (comb (acf (thresholded frame) L) W M)) j + eps) + eps)) out := by
  obtain ⟨x, h1, h2⟩ := threshold_ok frame
  rw [hf] at h2
  obtain ⟨ac, h3, h4⟩ := fill_part (L := L) (new := acf (thresholded frame) L) (holds_replicate L (0 : K)) (f := fun lag ac => do
    let sum ← loop (L - lag) (fun n sum => do
      let u ← x[n]?
      let v ← x[n + lag]?
      pure (sum + u * v)) 0
    wr ac lag (sum / ((L - lag : Nat) : K))) (fun lag ys hlag _ => by
      rw [bind_ok (loop_sum (L - lag) _ (fun n => thresholded frame n * thresholded frame (n + lag)) 0 (fun n s hn => by
        rw [bind_ok (h2.2 n (by omega)), bind_ok (h2.2 (n + lag) (by omega))]; rfl)), zero_add]
      rfl)
  obtain ⟨rc, h5, h6⟩ := loop_inv (n := M - 2) (f := fun i' rcf =>
    loop 4 (fun a' rcf =>
      loop (2 * (a' + 1) - 1) (fun b' rcf => do
        let v ← ac[(a' + 1) * (i' + 2) + 1 + b' - (a' + 1) - 1]?
        let w ← wv[i' + 2 - 1]?
        let r ← rcf[i' + 2 - 1]?
        wr rcf (i' + 2 - 1) (r + v * w / (2 * ((a' + 1 : Nat) : K) - 1))) rcf) rcf) (s := List.replicate M 0)
    (P := fun k rc => Holds M (fun i => if i ≤ k then comb (acf (thresholded frame) L) W M i else 0) rc)
    ((holds_replicate M (0 : K)).congr fun i hi => by
      split
      · unfold comb; rw [if_neg (by omega)]
      · rfl)
    (by
      intro k rc hk hrc
      have hp : k + 2 - 1 < rc.length := by rw [hrc.1]; omega
      have hr := hrc.2 (k + 2 - 1) (by omega)
      dsimp only at hr
      rw [if_neg (by omega)] at hr
      have e := accumulate (n := 4) (p := k + 2 - 1) (xs := rc) (F := fun a' rcf =>
        loop (2 * (a' + 1) - 1) (fun b' rcf => do
          let v ← ac[(a' + 1) * (k + 2) + 1 + b' - (a' + 1) - 1]?
          let w ← wv[k + 2 - 1]?
          let r ← rcf[k + 2 - 1]?
          wr rcf (k + 2 - 1) (r + v * w / (2 * ((a' + 1 : Nat) : K) - 1))) rcf)
        (fun a => ∑ b ∈ Finset.range (2 * (a + 1) - 1), acf (thresholded frame) L ((a + 1) * (k + 1) + b) * W (k + 1) / (2 * ((a + 1 : Nat) : K) - 1)) hp hr
        (fun a ys ha hys y hy => accumulate _ (by rw [hys]; exact hp) hy (fun b zs hb hzs z hz => by
          have hi : (a + 1) * (k + 2) + 1 + b - (a + 1) - 1 = (a + 1) * (k + 1) + b := by
            have : (a + 1) * (k + 2) = (a + 1) * (k + 1) + (a + 1) := by ring
            omega
          have hlt : (a + 1) * (k + 1) + b < L := by
            have : (a + 1) * (k + 1) ≤ 4 * (k + 1) := Nat.mul_le_mul_right _ (by omega)
            omega
          rw [hi, bind_ok (h4.2 _ hlt), bind_ok (hw.2 (k + 2 - 1) (by omega)), bind_ok hz]
          exact wr_some _ (by rw [hzs, hys]; exact hp)))
      refine ⟨_, e, (Hmm.Holds.wr' hrc (i := k + 2 - 1) (by omega) _).2.congr fun i hi => ?_⟩
      by_cases c : i = k + 2 - 1
      · rw [if_pos c, if_pos (by omega), zero_add, c]
        unfold comb
        rw [if_pos (by omega)]
        rfl
      · rw [if_neg c]
        by_cases c2 : i ≤ k
        · rw [if_pos c2, if_pos (by omega)]
        · rw [if_neg c2, if_neg (by omega)])
  have h7 : Holds M (comb (acf (thresholded frame) L) W M) rc := h6.congr fun i hi => by
    split
    · rfl
    · unfold comb; rw [if_neg (by omega)]
  have h8 : rc = (List.range M).map (comb (acf (thresholded frame) L) W M) := h7.ext ⟨by simp, fun j hj => by simp [hj]⟩
  obtain ⟨th, h9, h10⟩ := threshold_ok rc
  rw [h7.1] at h10
  rw [h8] at h9 h10
  have hG := threshold_nonneg ((List.range M).map (comb (acf (thresholded frame) L) W M))
  generalize thresholded ((List.range M).map (comb (acf (thresholded frame) L) W M)) = G at h10 hG ⊢
  obtain ⟨⟨r1, s1⟩, h11, h12, h13⟩ := loop_inv (n := M) (f := fun i (s : List K × K) => do
      let r ← s.1[i]?
      let rcf ← wr s.1 i (r + eps)
      pure (rcf, s.2 + (r + eps))) (s := (th, 0))
    (P := fun k s => Part M k (fun i => G i + eps) G s.1 ∧ s.2 = ∑ j ∈ Finset.range k, (G j + eps))
    ⟨h10.part _, by simp⟩
    (by
      rintro k ⟨r, s⟩ hk ⟨i1, i2⟩
      dsimp only at i1 i2
      refine ⟨(r.set k (G k + eps), s + (G k + eps)), ?_, i1.step hk, ?_⟩
      · dsimp only
        rw [bind_ok (i1.get hk), bind_ok (i1.wr hk)]
        rfl
      · dsimp only
        rw [i2, Finset.sum_range_succ])
  dsimp only at h12 h13
  have hpos : 0 < s1 + (eps : K) := by
    rw [h13]
    exact add_pos_of_nonneg_of_pos (Finset.sum_nonneg fun i _ => add_nonneg (hG i) eps_pos.le) eps_pos
  obtain ⟨out, h14, h15⟩ := fill_part (L := M) (new := fun i => (G i + eps) / (s1 + eps)) h12.holds (f := fun i rcf => do
      let r ← rcf[i]?
      wr rcf i (r / (s1 + eps))) (fun i ys hi hys => by rw [bind_ok (hys.get hi)])
  rw [h13] at h15
  refine ⟨out, ?_, h15⟩
  unfold getRcf
  rw [bind_ok h1]
  rw [h2.1, bind_ok h3, List.length_replicate, bind_ok h5, h8, bind_ok h9, h10.1, bind_ok h11]
  dsimp only
  rw [if_neg hpos.ne', h12.1]
  exact h14

/-- The number of analysis frames: the frames begin at the multiples of 128 and leave at least one value after their 512. -/
def frames (n : Nat) : Nat := (n - 512 + 127) / 128

theorem frames_spec (n t : Nat) : t < frames n ↔ 128 * t + 512 < n := by unfold frames; omega

/-- The strength of index `i` in frame `t`. -/
def strength (df : List K) (W : Nat → K) (t i : Nat) : K :=
  (thresholded ((List.range 128).map (comb (acf (thresholded ((df.drop (128 * t)).take 512)) 512) W 128)) i + eps)
    / (∑ j ∈ Finset.range 128, (thresholded ((List.range 128).map (comb (acf (thresholded ((df.drop (128 * t)).take 512)) 512) W 128)) j + eps) + eps)

theorem strength_pos (df : List K) (W : Nat → K) (t i : Nat) : 0 < strength df W t i := by
  unfold strength
  have h := threshold_nonneg ((List.range 128).map (comb (acf (thresholded ((df.drop (128 * t)).take 512)) 512) W 128))
  exact div_pos (add_pos_of_nonneg_of_pos (h i) eps_pos)
    (add_pos_of_nonneg_of_pos (Finset.sum_nonneg fun j _ => add_nonneg (h j) eps_pos.le) eps_pos)

theorem matrix_ok (df wv : List K) {W : Nat → K} (hw : Holds 128 W wv) :
    ∃ m, rcfMatrix df wv = some m ∧ Holds2 (frames df.length) 128 (strength df W) m := by
  obtain ⟨m, h1, h2⟩ := loop_inv (n := frames df.length) (f := fun i (m : List (List K)) => do
    let frame ← loop 512 (fun k frame => do
      let v ← df[128 * i + k]?
      wr frame k v) (List.replicate 512 0)
    let rcf ← getRcf frame wv (List.replicate 128 0)
    pure (m ++ [rcf])) (s := []) (P := fun k m => Holds2 k 128 (strength df W) m)
    ⟨rfl, fun i hi => absurd hi (Nat.not_lt_zero i)⟩
    (by
      intro k m hk hm
      have hk' := (frames_spec df.length k).mp hk
      have hlen : ((df.drop (128 * k)).take 512).length = 512 := by simp; omega
      obtain ⟨fr, e1, e2⟩ := fill_part (L := 512) (new := fun j => ((df.drop (128 * k)).take 512).getD j 0) (holds_replicate 512 (0 : K)) (f := fun j frame => do
        let v ← df[128 * k + j]?
        wr frame j v) (fun j ys hj _ => by
          have : df[128 * k + j]? = some (((df.drop (128 * k)).take 512).getD j 0) := by
            rw [get_getD df _ 0 (by omega)]
            simp [List.getD, List.getElem?_take, hj]
          rw [bind_ok this])
      have e3 : fr = (df.drop (128 * k)).take 512 := e2.ext (holds_of_length hlen 0)
      obtain ⟨out, e4, e5⟩ := C35_comb (L := 512) hlen hw (by omega)
      refine ⟨m ++ [out], ?_, by simp [hm.1], fun i hi => ?_⟩
      · rw [bind_ok e1, e3, bind_ok e4]
        rfl
      · by_cases c : i < k
        · obtain ⟨r, g1, g2⟩ := hm.2 i c
          exact ⟨r, by rw [List.getElem?_append_left (by rw [hm.1]; exact c)]; exact g1, g2⟩
        · obtain rfl : i = k := by omega
          exact ⟨out, by simp [← hm.1], e5⟩)
  exact ⟨m, h1, h2⟩

/-- The weight of index `i`: a bell around the period that belongs to the given tempo, or a Rayleigh curve with that maximum. -/
def weight (ex : K → K) (tempo : K) (constrain : Bool) (i : Nat) : K :=
  if constrain then ex ((-1) * ((i : K) - 5167 / tempo) ^ 2 / (2 * (5167 / tempo / 4) ^ 2))
  else (i : K) / (5167 / tempo) ^ 2 * ex ((-1) * (-(i : K)) ^ 2 / (2 * (5167 / tempo) ^ 2))

omit [IsStrictOrderedRing K] in
theorem weights_ok (ex : K → K) {tempo : K} (ht : tempo ≠ 0) (constrain : Bool) :
    ∃ wv, weights ex tempo constrain = some wv ∧ Holds 128 (weight ex tempo constrain) wv := by
  obtain ⟨wv, h1, h2⟩ := fill_part (L := 128) (new := weight ex tempo constrain) (holds_replicate 128 (0 : K)) (f := fun i wv =>
      if constrain then wr wv i (ex ((-1) * ((i : K) - ((60 * 44100 / 512 : Nat) : K) / tempo) ^ 2 / (2 * (((60 * 44100 / 512 : Nat) : K) / tempo / 4) ^ 2)))
      else wr wv i ((i : K) / (((60 * 44100 / 512 : Nat) : K) / tempo) ^ 2 * ex ((-1) * (-(i : K)) ^ 2 / (2 * (((60 * 44100 / 512 : Nat) : K) / tempo) ^ 2))))
    (fun i ys _ _ => by
      have e : ((60 * 44100 / 512 : Nat) : K) = 5167 := by norm_num
      rw [e]
      unfold weight
      cases constrain <;> rfl)
  refine ⟨wv, ?_, h2⟩
  unfold weights
  rw [if_neg ht]
  exact h1

theorem weight_pos {ex : K → K} (hex : ∀ x, 0 < ex x) {tempo : K} (ht : tempo ≠ 0) (constrain : Bool) (i : Nat) :
    0 ≤ weight ex tempo constrain i ∧ (1 ≤ i → 0 < weight ex tempo constrain i) := by
  have hr : (0 : K) < (5167 / tempo) ^ 2 := by
    have : (5167 : K) / tempo ≠ 0 := div_ne_zero (by norm_num) ht
    positivity
  unfold weight
  cases constrain with
  | true => exact ⟨(hex _).le, fun _ => hex _⟩
  | false =>
    refine ⟨mul_nonneg (div_nonneg (Nat.cast_nonneg i) hr.le) (hex _).le, fun hi => mul_pos (div_pos ?_ hr) (hex _)⟩
    exact_mod_cast hi

/-- C35. For every detection function with at least two analysis frames, any tempo but zero, and an output vector at least as long as the
detection function: there are periods from 20 to 107, one per frame, that have the greatest score of all sequences of indices below 128.
Entry `m` of the output is the period of frame `m / 128`, or of the last frame beyond it. One tempo is appended per entry, and none of
them divides by zero. -/
theorem C35_periods {ex : K → K} (hex : ∀ x, 0 < ex x) (rate : K) {inc : Int} (hinc : inc ≠ 0) (df bp tempi : List K) {tempo : K} (ht : tempo ≠ 0)
    (constrain : Bool) (hT : 2 ≤ frames df.length) (hl : df.length ≤ bp.length) :
    ∃ (q : Nat → Nat) (bp' : List K),
      calculateBeatPeriod ex rate inc df bp tempi tempo constrain = some (bp', tempi ++ bp'.map fun b => 60 * rate / (inc : K) / b) ∧
      bp'.length = bp.length ∧ (∀ m, m < bp.length → bp'[m]? = some ((q (min (m / 128) (frames df.length - 1)) : Nat) : K)) ∧
      (∀ t, t < frames df.length → 20 ≤ q t ∧ q t < 108) ∧
      ∀ q' : Nat → Nat, (∀ t, t < frames df.length → q' t < 128) →
        score ex 128 (weight ex tempo constrain) (strength df (weight ex tempo constrain)) q' (frames df.length) ≤
          score ex 128 (weight ex tempo constrain) (strength df (weight ex tempo constrain)) q (frames df.length) := by
  obtain ⟨wv, h1, h2⟩ := weights_ok ex ht constrain
  obtain ⟨m, h3, h4⟩ := matrix_ok df wv h2
  obtain ⟨q, bp', h5, h6, h7, h8⟩ := decode_ok hex (rate := rate) hinc (tempi := tempi) hT (by omega) h4 h2 (fun t j => (strength_pos _ _ t j).le)
    (fun t j _ _ => strength_pos _ _ t j) (fun j => (weight_pos hex ht constrain j).1) (fun j hj _ => (weight_pos hex ht constrain j).2 (by omega))
    (bp := bp) rfl (by
      have := (frames_spec df.length (frames df.length - 1)).mp (by omega)
      omega)
  refine ⟨q, bp', ?_, h6.1, h6.2, h7, h8⟩
  unfold calculateBeatPeriod
  rw [bind_ok h1, bind_ok h3]
  exact h5

/-- C35. A detection function with fewer than two analysis frames changes nothing. -/
theorem C35_short (ex : K → K) (rate : K) (inc : Int) (df bp tempi : List K) {tempo : K} (ht : tempo ≠ 0)
    (constrain : Bool) (hT : df.length ≤ 640) : calculateBeatPeriod ex rate inc df bp tempi tempo constrain = some (bp, tempi) := by
  obtain ⟨wv, h1, h2⟩ := weights_ok ex ht constrain
  obtain ⟨m, h3, h4⟩ := matrix_ok df wv h2
  obtain ⟨tm, h5, _⟩ := transitions_ok ex wv.length
  unfold calculateBeatPeriod
  rw [bind_ok h1, bind_ok h3]
  unfold viterbiDecode
  rw [bind_ok h5]
  exact if_pos (by rw [h4.1]; unfold frames; omega)

/-- The exponential is positive, 768 values make two frames, and 641 are the fewest that do. -/
example : (∀ x, 0 < Real.exp x) ∧ 2 ≤ frames 768 ∧ frames 641 = 2 ∧ frames 640 = 1 := ⟨Real.exp_pos, by decide, by decide, by decide⟩

/-- The decoder on a small case: two frames, 41 indices, the band is index 20 alone. -/
example : viterbiDecode (fun _ : ℚ => 1) 44100 512 [List.replicate 41 1, List.replicate 41 2] (List.replicate 41 1) (List.replicate 257 0) []
    = some (List.replicate 257 20, List.replicate 257 (60 * 44100 / 512 / 20)) := by decide +kernel

end

end QM.TempoTrackV2
