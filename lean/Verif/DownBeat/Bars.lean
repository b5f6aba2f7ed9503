import Verif.DownBeat.ObjectProps
import Verif.FFT.RoundedLemmas
import Mathlib.Topology.Algebra.Order.Field
import Mathlib.Analysis.SpecialFunctions.Log.NegMulLog

/-! # C101: sounds that change at the bar lines, and the level of the audio: specification and lemmas -/

namespace QM.DownBeat

open Finset QM.DFT QM.MathReal _root_.Filter Topology

/-! ## Specification -/

/-- How many samples beat `i` has. -/
def beatLength {K : Type} [Field K] [LinearOrder K] [FloorRing K] (p : Finder K) (N : Nat) (beats : List K) (i : Nat) : Nat :=
  stopOf p N (beats.getD i 0) (beats.getD (i + 1) 0) - startOf p (beats.getD i 0)

/-- Beats `i` and `j` sound the same: as many samples, and the same ones. -/
def SameSound {K : Type} [Field K] [LinearOrder K] [FloorRing K] (p : Finder K) (audio beats : List K) (i j : Nat) : Prop :=
  beatLength p audio.length beats i = beatLength p audio.length beats j ∧
    ∀ t, t < beatLength p audio.length beats i → audio.getD (startOf p (beats.getD i 0) + t) 0 = audio.getD (startOf p (beats.getD j 0) + t) 0

/-- The change into beat `k`: the divergence of the spectra of beats `k - 1` and `k`. -/
def change {K : Type} [Field K] [LinearOrder K] [FloorRing K] (p : Finder K) (audio beats : List K) (k : Nat) : K :=
  divergence p.lg p.eps ((spectrumOf p audio beats (k - 1)).getD []) ((spectrumOf p audio beats k).getD [])

/-- The shape of the spectrum of beat `i`: the part that is compared, divided by its sum. -/
def shape {K : Type} [Field K] [LinearOrder K] [FloorRing K] (p : Finder K) (audio beats : List K) (i : Nat) (j : Nat) : K :=
  normalised p.eps (min 512 (p.frameSize / 2 / 4)) ((spectrumOf p audio beats i).getD []) j

/-- Beats `i` and `j` have spectra of different shape. -/
def Differ {K : Type} [Field K] [LinearOrder K] [FloorRing K] (p : Finder K) (audio beats : List K) (i j : Nat) : Prop :=
  ∃ t, t < min 512 (p.frameSize / 2 / 4) ∧ shape p audio beats i t ≠ shape p audio beats j t

/-! ## Lemmas -/

section
variable {K : Type} [Field K] [LinearOrder K] [FloorRing K] [IsStrictOrderedRing K]

omit [IsStrictOrderedRing K] in
theorem spectrum_same {p : Finder K} {audio beats : List K} {i j : Nat} (h : SameSound p audio beats i j) :
    spectrumOf p audio beats i = spectrumOf p audio beats j := by
  obtain ⟨h1, h2⟩ := h
  have : ∀ i, spectrumOf p audio beats i =
      adaptiveThreshold (p.mag (beatFrame p audio (startOf p (beats.getD i 0)) (beatLength p audio.length beats i))) := fun _ => rfl
  rw [this, this, ← h1]
  congr 2
  unfold beatFrame
  refine List.map_congr_left (fun t _ => ?_)
  by_cases ht : t < beatLength p audio.length beats i
  · rw [if_pos ht, if_pos ht, h2 t ht]
  · rw [if_neg ht, if_neg ht]

omit [FloorRing K] in
theorem mean_le {sd : List K} {ts e : Nat} {c : K} (hc : 0 ≤ c) (h : ∀ k ∈ positions sd.length ts e, sd.getD (k - 1) 0 ≤ c) :
    meanChange sd ts e ≤ c := by
  unfold meanChange
  by_cases hp : positions sd.length ts e = ∅
  · rw [hp]; simpa using hc
  · have hpos : (0 : K) < ((positions sd.length ts e).card : K) := by
      exact_mod_cast card_pos.mpr (nonempty_iff_ne_empty.mpr hp)
    rw [div_le_iff₀ hpos]
    have := sum_le_card_nsmul _ _ _ h
    rw [nsmul_eq_mul] at this
    linarith

omit [FloorRing K] in
theorem lt_mean {sd : List K} {ts e : Nat} {c : K} (hne : (positions sd.length ts e).Nonempty)
    (h : ∀ k ∈ positions sd.length ts e, c < sd.getD (k - 1) 0) : c < meanChange sd ts e := by
  unfold meanChange
  have hpos : (0 : K) < ((positions sd.length ts e).card : K) := by exact_mod_cast card_pos.mpr hne
  rw [lt_div_iff₀ hpos]
  have := sum_lt_sum_of_nonempty hne h
  rw [sum_const, nsmul_eq_mul] at this
  linarith

omit [FloorRing K] in
theorem mean_pos {sd : List K} {ts e k : Nat} (hk : k ∈ positions sd.length ts e) (h0 : ∀ v ∈ sd, 0 ≤ v) (hp : 0 < sd.getD (k - 1) 0) :
    0 < meanChange sd ts e := by
  unfold meanChange
  have hpos : (0 : K) < ((positions sd.length ts e).card : K) := by exact_mod_cast card_pos.mpr ⟨k, hk⟩
  refine div_pos (sum_pos' (fun i _ => ?_) ⟨k, hk, hp⟩) hpos
  rw [List.getD_eq_getElem?_getD]
  cases hk : sd[i - 1]? with
  | none => exact le_refl _
  | some v => exact h0 v (List.mem_of_getElem? hk)

omit [IsStrictOrderedRing K] in
theorem change_of_areChanges {p : Finder K} {audio beats sd : List K} (h : AreChanges p audio beats sd) {k : Nat} (hk : k < sd.length) :
    sd.getD k 0 = change p audio beats (k + 1) := by
  obtain ⟨o, n, h1, h2, h3⟩ := h k hk
  rw [List.getD_eq_getElem?_getD, h3]
  unfold change
  rw [Nat.add_sub_cancel, h1, h2]
  rfl

omit [IsStrictOrderedRing K] in
theorem areChanges_eq {p : Finder K} {audio beats sd : List K} (h : AreChanges p audio beats sd) :
    sd = (List.range sd.length).map (fun k => change p audio beats (k + 1)) := by
  refine List.ext_getElem (by simp) (fun i h1 h2 => ?_)
  rw [List.getElem_map, List.getElem_range, ← change_of_areChanges h h1]
  exact (List.getD_eq_getElem _ _ h1).symm

end

/-! ### Level -/

theorem localMean_scale (g : ℝ) (xs : List ℝ) (i : Nat) : localMean (xs.map (g * ·)) i = g * localMean xs i := by
  unfold localMean
  dsimp only
  rw [← List.map_drop, ← List.map_take, List.length_map, List.sum_map_mul_left, List.map_id', mul_div_assoc]

theorem adaptiveThreshold_scale {g : ℝ} (hg : 0 ≤ g) (xs : List ℝ) :
    adaptiveThreshold (xs.map (g * ·)) = (adaptiveThreshold xs).map (List.map (g * ·)) := by
  obtain ⟨a, a1, a2, a3⟩ := C07_adaptiveThreshold xs
  obtain ⟨b, b1, b2, b3⟩ := C07_adaptiveThreshold (xs.map (g * ·))
  rw [a1, b1, Option.map_some, Option.some.injEq]
  rw [List.length_map] at b2
  refine List.ext_getElem? (fun i => ?_)
  by_cases hi : i < xs.length
  · rw [b3 i (by rw [List.length_map]; exact hi), List.getElem?_map, a3 i hi, Option.map_some, List.getElem_map, localMean_scale, mul_max_of_nonneg _ _ hg, mul_zero, mul_sub]
  · rw [List.getElem?_eq_none (by omega), List.getElem?_eq_none (by rw [List.length_map]; omega)]

theorem spectrumMag_scale (g : ℝ) (n : Nat) (f : List ℝ) : spectrumMag n (f.map (g * ·)) = (spectrumMag n f).map (|g| * ·) := by
  unfold spectrumMag
  rw [List.map_map]
  refine List.map_congr_left (fun k _ => ?_)
  have : (fun j => (((f.map (g * ·)).getD j 0 : ℝ) : ℂ)) = fun j => (g : ℂ) * ((f.getD j 0 : ℝ) : ℂ) := by
    funext j
    rw [List.getD_eq_getElem?_getD, List.getElem?_map, List.getD_eq_getElem?_getD]
    cases f[j]? <;> simp
  rw [this, FFT.dft_smul]
  simp

theorem beatFrame_scale (p : Finder ℝ) (g : ℝ) (audio : List ℝ) (a l : Nat) :
    beatFrame p (audio.map (g * ·)) a l = (beatFrame p audio a l).map (g * ·) := by
  unfold beatFrame
  rw [List.map_map]
  refine List.map_congr_left (fun j _ => ?_)
  have : (audio.map (g * ·)).getD (a + j) 0 = g * audio.getD (a + j) 0 := by
    rw [List.getD_eq_getElem?_getD, List.getElem?_map, List.getD_eq_getElem?_getD]
    cases audio[a + j]? <;> simp
  rw [this]
  dsimp only [Function.comp]
  split_ifs
  · ring
  · ring

theorem spectrumOf_scale {bpb : Int} {factor increment n : Nat} (g : ℝ) (audio beats : List ℝ) (i : Nat) :
    spectrumOf (reference bpb factor increment n) (audio.map (g * ·)) beats i =
      (spectrumOf (reference bpb factor increment n) audio beats i).map (List.map (|g| * ·)) := by
  unfold spectrumOf
  dsimp only
  rw [List.length_map, beatFrame_scale, ← adaptiveThreshold_scale (abs_nonneg g)]
  congr 1
  exact spectrumMag_scale g n _

theorem getD_scale (g : ℝ) (xs : List ℝ) (i : Nat) : (xs.map (g * ·)).getD i 0 = g * xs.getD i 0 := by
  rw [List.getD_eq_getElem?_getD, List.getElem?_map, List.getD_eq_getElem?_getD]
  cases xs[i]? <;> simp

theorem normalised_scale {g : ℝ} (hg : 0 < g) (eps : ℝ) (size : Nat) (xs : List ℝ) (i : Nat) :
    normalised eps size (xs.map (g * ·)) i = normalised (eps / g) size xs i := by
  unfold normalised
  have h : ∀ j, (xs.map (g * ·)).getD j 0 + eps = g * (xs.getD j 0 + eps / g) := by
    intro j
    rw [getD_scale]
    field_simp
  rw [h, sum_congr rfl (fun j _ => h j), ← mul_sum, mul_div_mul_left _ _ hg.ne']

theorem divergence_scale {g : ℝ} (hg : 0 < g) (lg : ℝ → ℝ) (eps : ℝ) (o n : List ℝ) :
    divergence lg eps (o.map (g * ·)) (n.map (g * ·)) = divergence lg (eps / g) o n := by
  unfold divergence
  rw [List.length_map]
  exact sum_congr rfl (fun i _ => by rw [normalised_scale hg, normalised_scale hg])

/-- The same finder with another `eps`. -/
def Finder.withEps {K : Type} (p : Finder K) (e : K) : Finder K := { p with eps := e }

theorem change_scale {bpb : Int} {factor increment n : Nat} {g : ℝ} (hg : g ≠ 0) (audio beats : List ℝ) (k : Nat) :
    change (reference bpb factor increment n) (audio.map (g * ·)) beats k =
      change ((reference bpb factor increment n).withEps ((reference bpb factor increment n).eps / |g|)) audio beats k := by
  have hs : ∀ i, spectrumOf ((reference bpb factor increment n).withEps ((reference bpb factor increment n).eps / |g|)) audio beats i =
    spectrumOf (reference bpb factor increment n) audio beats i := fun _ => rfl
  unfold change
  rw [spectrumOf_scale, spectrumOf_scale, hs, hs]
  have hm : ∀ o : Option (List ℝ), (o.map (List.map (|g| * ·))).getD [] = (o.getD []).map (|g| * ·) := by
    intro o; cases o <;> rfl
  rw [hm, hm, divergence_scale (abs_pos.mpr hg)]
  rfl

theorem find_eq {p q : Finder ℝ} (frame audio audio' beats : List ℝ) (ha : audio ≠ []) (ha' : audio' ≠ []) (hb : ∀ b ∈ beats, 0 ≤ b)
    (hf : frame.length = p.frameSize) (hmag : ∀ f, (p.mag f).length = p.frameSize / 2) (heps : 0 < p.eps)
    (hf' : frame.length = q.frameSize) (hmag' : ∀ f, (q.mag f).length = q.frameSize / 2) (heps' : 0 < q.eps) (hbpb : q.bpb = p.bpb)
    (hc : ∀ k, change p audio beats k = change q audio' beats k) : findDownBeats p frame audio beats = findDownBeats q frame audio' beats := by
  obtain ⟨s, h1, h2, h3⟩ := beats_ok p frame audio beats ha hb hf hmag heps
  obtain ⟨s', h1', h2', h3'⟩ := beats_ok q frame audio' beats ha' hb hf' hmag' heps'
  have e : s.2.2 = s'.2.2 := by
    rw [areChanges_eq h3, areChanges_eq h3', h2, h2']
    exact List.map_congr_left (fun k _ => hc _)
  unfold findDownBeats
  have e1 : ¬ audio.length = 0 := by simpa using ha
  have e2 : ¬ audio'.length = 0 := by simpa using ha'
  rw [if_neg e1, if_neg e2, bind_ok h1, bind_ok h1', hbpb, e]

/-- The change, as a function of the level, for an amplitude that is not negative. -/
theorem divergence_tendsto {eps : ℝ} (heps : 0 < eps) (o n : List ℝ) :
    Tendsto (fun g : ℝ => divergence Real.log eps (o.map (g * ·)) (n.map (g * ·))) (𝓝 0) (𝓝 0) := by
  unfold divergence
  simp only [List.length_map]
  set size := min 512 (o.length / 4) with hsz
  have hnorm : ∀ (xs : List ℝ) (i : Nat), 0 < size → Tendsto (fun g : ℝ => normalised eps size (xs.map (g * ·)) i) (𝓝 0) (𝓝 (1 / size)) := by
    intro xs i hs
    have hs' : (0 : ℝ) < (size : ℝ) := by exact_mod_cast hs
    have hv : (1 / size : ℝ) = (0 * xs.getD i 0 + eps) / ∑ j ∈ range size, (0 * xs.getD j 0 + eps) := by
      simp only [zero_mul, zero_add, sum_const, card_range, nsmul_eq_mul]
      field_simp
    rw [hv]
    unfold normalised
    simp only [getD_scale]
    refine Tendsto.div ?_ ?_ ?_
    · exact ((continuous_id.mul continuous_const).add continuous_const).tendsto 0
    · exact (continuous_finsetSum _ (fun j _ => (continuous_id.mul continuous_const).add continuous_const)).tendsto 0
    · simp only [zero_mul, zero_add, sum_const, card_range, nsmul_eq_mul]
      positivity
  have hterm : ∀ i ∈ range size, Tendsto (fun g : ℝ => jsTerm Real.log (normalised eps size (o.map (g * ·)) i) (normalised eps size (n.map (g * ·)) i)) (𝓝 0) (𝓝 0) := by
    intro i hi
    have hs : 0 < size := by have := mem_range.mp hi; omega
    have ho := hnorm o i hs
    have hn := hnorm n i hs
    have hv : (0 : ℝ) = 1 / 2 * (1 / size * Real.log (1 / size)) + 1 / 2 * (1 / size * Real.log (1 / size)) -
        (1 / 2 * (1 / size) + 1 / 2 * (1 / size)) * Real.log (1 / 2 * (1 / size) + 1 / 2 * (1 / size)) := by
      rw [show (1 / 2 * (1 / size) + 1 / 2 * (1 / size) : ℝ) = 1 / size by ring]
      ring
    unfold jsTerm
    have hc := Real.continuous_mul_log
    have T := ((((hc.tendsto _).comp ho).const_mul (1 / 2)).add (((hc.tendsto _).comp hn).const_mul (1 / 2))).sub
      ((hc.tendsto _).comp ((ho.const_mul (1 / 2)).add (hn.const_mul (1 / 2))))
    rw [← hv] at T
    exact T
  simpa using tendsto_finsetSum (range size) hterm

/-! ### Changes found by the object -/

section
variable {rate : ℝ} {factor increment n : Nat} {junk : Nat → ℝ}

theorem sorted_eq {db : List Nat} {N ts d : Nat} (h1 : db.Pairwise (· < ·)) (h2 : ∀ k, k ∈ db ↔ k < N ∧ k % ts = d) :
    db = (List.range N).filter (fun k => k % ts = d) := by
  refine List.Perm.eq_of_pairwise (fun a b _ _ p q => absurd p (by omega)) h1 (List.Pairwise.filter _ List.pairwise_lt_range) ?_
  refine (List.perm_ext_iff_of_nodup (h1.imp (fun h => by omega)) ((List.nodup_range).filter _)).mpr (fun k => ?_)
  rw [h2, List.mem_filter, List.mem_range, decide_eq_true_eq]

theorem spectra {bpb : Int} (audio beats : List ℝ) (i : Nat) : ∃ o, spectrumOf (reference bpb factor increment n) audio beats i = some o ∧ o.length = n / 2 ∧ ∀ x ∈ o, 0 ≤ x :=
  spectrumOf_ok (reference bpb factor increment n) audio beats i reference_ok.1

theorem change_range {bpb : Int} (audio beats : List ℝ) (k : Nat) :
    0 ≤ change (reference bpb factor increment n) audio beats k ∧
      (change (reference bpb factor increment n) audio beats k = 0 ↔ ¬ Differ (reference bpb factor increment n) audio beats (k - 1) k) := by
  obtain ⟨o, o1, o2, o3⟩ := spectra (bpb := bpb) (factor := factor) (increment := increment) (n := n) audio beats (k - 1)
  obtain ⟨w, w1, w2, w3⟩ := spectra (bpb := bpb) (factor := factor) (increment := increment) (n := n) audio beats k
  have hl : w.length = o.length := w2.trans o2.symm
  have hm := measureSpecDiff_ok (reference bpb factor increment n) o w hl (fun j hj => (normalised_pos reference_ok.2 o3 hj).ne')
    (fun j hj => (normalised_pos reference_ok.2 w3 hj).ne')
  have hr := C57_range (reference bpb factor increment n) rfl reference_ok.2 o w hl o3 w3
  have hz := C57_zero (reference bpb factor increment n) rfl reference_ok.2 o w hl o3 w3
  rw [hm] at hr hz
  obtain ⟨v, e, hv, _⟩ := hr
  have hc : change (reference bpb factor increment n) audio beats k = divergence (reference bpb factor increment n).lg (reference bpb factor increment n).eps o w := by
    unfold change
    rw [o1, w1]
    rfl
  refine ⟨by rw [hc]; rw [Option.some.inj e]; exact hv, ?_⟩
  rw [Option.some.injEq] at hz
  rw [hc]
  refine hz.trans ?_
  unfold Differ shape
  rw [o1, w1, o2]
  push Not
  rfl

end

end QM.DownBeat
