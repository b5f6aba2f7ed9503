import Verif.Silence.Detection
import Verif.PeakPicking.EventsProps
import Verif.Framer.Props
import Verif.FFT.RealMath

/-!
# C122: from audio to onsets
-/

namespace QM.DetectionFunction

/-- Something in a frame is heard: a sample that is not zero, except the first, where the window is zero. -/
def Heard (n : Nat) (f : List ℝ) : Prop := ∃ j, 1 ≤ j ∧ j < n ∧ f.getD j 0 ≠ 0

theorem hanning_zero (n j : Nat) (hn : 2 ≤ n) (hj : j < n) : Window.shape .hanning n j = 0 ↔ j = 0 := by
  unfold Window.shape
  simp only [if_neg (show ¬n ≤ 1 by omega)]
  constructor
  · intro h
    have h1 : Real.cos (2 * Real.pi * j / n) = 1 := by linarith
    rw [Real.cos_eq_one_iff] at h1
    obtain ⟨k, hk⟩ := h1
    have hn0 : (0 : ℝ) < n := by exact_mod_cast (show 0 < n by omega)
    have hpi := Real.pi_pos
    rw [eq_div_iff hn0.ne'] at hk
    have h2 : (k : ℝ) * n = j := by
      have : 2 * Real.pi * ((k : ℝ) * n) = 2 * Real.pi * j := by linarith
      exact mul_left_cancel₀ (by positivity) this
    have h3 : k * (n : ℤ) = j := by exact_mod_cast h2
    have h4 : k = 0 := by
      rcases lt_trichotomy k 0 with h | h | h
      · nlinarith
      · exact h
      · nlinarith
    subst h4
    simpa using h3.symm
  · rintro rfl
    simp

/-- A real signal whose spectrum is zero up to the middle is zero. -/
theorem zero_of_half (n : Nat) (hn : 0 < n) (y : Nat → ℝ) (h : ∀ k, k ≤ n / 2 → DFT.dft false n (fun j => (y j : ℂ)) k = 0) (j : Nat) (hj : j < n) : y j = 0 := by
  have hall : ∀ k, k < n → DFT.dft false n (fun j => (y j : ℂ)) k = 0 := by
    intro k hk
    by_cases hc : k ≤ n / 2
    · exact h k hc
    · have := FFT.dft_real_conj false (show n ≠ 0 by omega) y (n - k) (by omega)
      rw [h (n - k) (by omega), map_zero, show n - (n - k) = k by omega] at this
      exact this.symm
  have h1 := DFT.dft_dft false (fun j => (y j : ℂ)) j hj
  have h2 : DFT.dft (!false) n (DFT.dft false n fun j => (y j : ℂ)) j = 0 := by
    unfold DFT.dft
    refine Finset.sum_eq_zero fun k hk => ?_
    have := hall k (Finset.mem_range.mp hk)
    unfold DFT.dft at this
    rw [this, zero_mul]
  rw [h2] at h1
  have h3 : (n : ℂ) ≠ 0 := by exact_mod_cast hn.ne'
  have h4 : ((y j : ℝ) : ℂ) = 0 := by
    rcases mul_eq_zero.mp h1.symm with h | h
    · exact absurd h h3
    · exact h
  exact_mod_cast h4

/-- The spectrum of a frame is zero if and only if nothing is heard. -/
theorem spectrum_zero (n : Nat) (hn : 2 ≤ n) (f : List ℝ) : (∀ k, k ≤ n / 2 → ofFrame n f k = 0) ↔ ¬Heard n f := by
  have hsame : ∀ k, ofFrame n f k = 0 ↔ DFT.dft false n (fun j => ((Window.shape .hanning n j * f.getD j 0 : ℝ) : ℂ)) k = 0 := fun k => by
    unfold ofFrame
    rw [mul_eq_zero, or_iff_right (pow_ne_zero _ (by norm_num))]
  constructor
  · rintro h ⟨j, h1, h2, h3⟩
    have := zero_of_half n (by omega) (fun j => Window.shape .hanning n j * f.getD j 0) (fun k hk => (hsame k).mp (h k hk)) j h2
    rcases mul_eq_zero.mp this with h4 | h4
    · have := (hanning_zero n j hn h2).mp h4
      omega
    · exact h3 h4
  · intro h k _
    rw [hsame]
    unfold DFT.dft
    refine Finset.sum_eq_zero fun j hj => ?_
    have hj := Finset.mem_range.mp hj
    have : Window.shape .hanning n j * f.getD j 0 = 0 := by
      rcases Nat.eq_zero_or_pos j with h0 | h0
      · rw [(hanning_zero n j hn hj).mpr h0, zero_mul]
      · by_contra hc
        exact h ⟨j, h0, hj, fun e => hc (by rw [e, mul_zero])⟩
    dsimp only
    rw [this]
    simp

/-- `processTimeDomain` on one frame after the other; the values returned. -/
noncomputable def hear (d : DF) : List (List ℝ) → Option (DF × List ℝ)
  | [] => some (d, [])
  | f :: fs => do
    let (d, v) ← processTime d f
    let (d, vs) ← hear d fs
    pure (d, v :: vs)

/-- The high frequency content of a frame. -/
noncomputable def hfcOf (n : Nat) (f : List ℝ) : ℝ := ∑ k ∈ Finset.range (n / 2 + 1), (k + 1) * ‖ofFrame n f k‖

theorem hfcOf_nonneg (n : Nat) (f : List ℝ) : 0 ≤ hfcOf n f := Finset.sum_nonneg fun k _ => by positivity

theorem hfcOf_ne_zero (n : Nat) (hn : 2 ≤ n) (f : List ℝ) : hfcOf n f ≠ 0 ↔ Heard n f := by
  rw [← not_iff_comm.mp (spectrum_zero n hn f).symm, not_iff_not]
  unfold hfcOf
  rw [Finset.sum_eq_zero_iff_of_nonneg fun k _ => by positivity]
  constructor
  · intro h k hk
    have := h k (Finset.mem_range.mpr (by omega))
    rcases mul_eq_zero.mp this with h1 | h1
    · have : (0 : ℝ) ≤ k := Nat.cast_nonneg k
      linarith
    · exact norm_eq_zero.mp h1
  · intro h k hk
    rw [h k (by have := Finset.mem_range.mp hk; omega), norm_zero, mul_zero]

theorem hear_ok (c : Config) (h : Valid c) (hty : c.ty = .hfc) (hw : c.whiten = false) (fs : List (List ℝ)) (hf : ∀ f ∈ fs, c.frame ≤ f.length) :
    ∀ (zs : List (Nat → ℂ)) (d : DF), Reach c zs d → ∃ d', hear d fs = some (d', fs.map (hfcOf c.frame)) := by
  induction fs with
  | nil => intro zs d _; exact ⟨d, rfl⟩
  | cons f fs ih =>
    intro zs d hd
    obtain ⟨e, v, a1, a2⟩ := C28_time_value c h hd f (hf f List.mem_cons_self)
    obtain ⟨d', b1⟩ := ih (fun g hg => hf g (List.mem_cons_of_mem _ hg)) _ e (.time hd (hf f List.mem_cons_self) a1)
    have hv : v = hfcOf c.frame f := by
      unfold IsValue at a2
      simp only [hty] at a2
      rw [a2]
      unfold hfcOf mag
      simp only [hw, Bool.false_eq_true, if_false]
    refine ⟨d', ?_⟩
    rw [hear]
    simp only [a1, b1, Option.bind_eq_bind, Option.bind_some, hv]
    rfl

end QM.DetectionFunction

namespace QM.PeakPicking

open QM.DetectionFunction (Config Valid Reach DF hear hfcOf Heard)

variable {len pre post alpha : Nat} {delta qa qb qc u : ℝ} {b a : List ℝ} {p p0 : PP}

/-- **C122** (no sound is overlooked). The high frequency content of a frame of samples is zero if and only if all samples but the first,
where the window is zero, are zero, and positive otherwise. -/
theorem C122_value (c : Config) (h : Valid c) (hty : c.ty = .hfc) (hw : c.whiten = false) {zs : List (Nat → ℂ)} {d : DF} (hd : Reach c zs d) (f : List ℝ)
    (hf : c.frame ≤ f.length) : ∃ e v, DetectionFunction.processTime d f = some (e, v) ∧ 0 ≤ v ∧ (v ≠ 0 ↔ Heard c.frame f) := by
  obtain ⟨e, he⟩ := DetectionFunction.hear_ok c h hty hw [f] (by simpa using hf) zs d hd
  rw [hear] at he
  obtain ⟨⟨e1, v⟩, h1, h2⟩ := Option.bind_eq_some_iff.mp he
  simp only [hear, Option.bind_eq_bind, Option.bind_some] at h2
  obtain ⟨rfl, h4⟩ := Prod.mk.inj (Option.some.inj h2)
  have : v = hfcOf c.frame f := by simpa using h4
  subst this
  exact ⟨_, _, h1, DetectionFunction.hfcOf_nonneg _ _, DetectionFunction.hfcOf_ne_zero _ h.pos f⟩

/-- Frame `i` of the audio: `n` samples from `i` hops on, zeros after the end. -/
def cut (n hop : Nat) (src : List ℝ) (i : Nat) : List ℝ := (List.range n).map fun j => src.getD (i * hop + j) 0

/-- **C122** (from audio to onsets). Audio that is cut into frames by a framer, turned into high frequency content without whitening and
handed to a peak picker: if the frames in which something is heard are far enough apart and about equally loud, exactly these frames are
reported, in order, each once. -/
theorem C122_onsets (ha : Filter.NoFeedback a) (hh : Hump b) (hb : 2 ≤ b.length) (hal : 0 < alpha) (h4 : 4 ≤ len) (hw : post + pre < len ∨ post = 0)
    (hm : make len pre post alpha delta qa qb qc b a u = some p0) {calls : List (List ℝ)} (hc : ∀ c ∈ calls, c.length = len)
    (hr : runs p0 calls = some p) (hwide : 2 * (2 * (b.length - 1) + 1) < pre + post + 1) (hdelta : 0 ≤ delta) (hqa : 0 ≤ qa)
    (c : Config) (hv : Valid c) (hty : c.ty = .hfc) (hnw : c.whiten = false) {zs : List (Nat → ℂ)} {d : DF} (hd : Reach c zs d)
    (f0 s : Framer.State ℝ) (hop : Nat) (hhop : 0 < hop) (src : List ℝ) (hs : Framer.setSource (Framer.configure f0 c.frame hop) src = some s)
    (dsts : List (List ℝ)) (hdst : ∀ x ∈ dsts, x.length = c.frame) (hn : dsts.length ≤ s.maxFrames) (hlen : dsts.length = len)
    (hin : ∀ i, i < len → Heard c.frame (cut c.frame hop src i) → b.length - 1 + pre + post ≤ i ∧ i + (b.length - 1) + pre + post < len)
    (hfar : ∀ i j, i < j → j < len → Heard c.frame (cut c.frame hop src i) → Heard c.frame (cut c.frame hop src j) → i + 2 * (b.length - 1) + pre + post < j)
    (hsome : ∃ i, i < len ∧ Heard c.frame (cut c.frame hop src i))
    {top : ℝ} (hloud : ∀ i, i < len → Heard c.frame (cut c.frame hop src i) → hfcOf c.frame (cut c.frame hop src i) ≤ top ∧
      delta * top < hfcOf c.frame (cut c.frame hop src i) * auto b 0 ∧
      qa * top < hfcOf c.frame (cut c.frame hop src i) * (auto b 0 + auto b 1 - 2 * auto b 2) / 7)
    (onsets : List Nat) :
    ∃ s' fs d' vals p' v l, Framer.frames s dsts = some (s', fs) ∧ hear d fs = some (d', vals) ∧
      process p vals len onsets = some (p', v, onsets ++ l) ∧ l.Pairwise (· < ·) ∧ ∀ i, i ∈ l ↔ i < len ∧ Heard c.frame (cut c.frame hop src i) := by
  obtain ⟨s', fs, f1, f2, f3⟩ := Framer.C13_frames f0 s c.frame hop hhop src hs dsts hdst hn
  have hfs : fs = (List.range len).map (cut c.frame hop src) := by
    refine List.ext_getElem (by simp; omega) fun i h1 h2 => ?_
    rw [List.getElem_map, List.getElem_range]
    obtain ⟨g1, g2⟩ := f3 i _ (List.getElem?_eq_getElem h1)
    unfold cut
    refine List.ext_getElem? fun j => ?_
    by_cases hj : j < c.frame
    · rw [g2 j hj, List.getElem?_map, List.getElem?_range hj]
      rfl
    · rw [List.getElem?_eq_none (by omega), List.getElem?_eq_none (by simpa using hj)]
  have hcut : ∀ i, (cut c.frame hop src i).length = c.frame := fun i => by simp [cut]
  obtain ⟨d', h1⟩ := DetectionFunction.hear_ok c hv hty hnw fs (by
    intro f hf
    rw [hfs] at hf
    obtain ⟨i, _, rfl⟩ := List.mem_map.mp hf
    exact (hcut i).ge) zs d hd
  let e : Nat → ℝ := fun i => if i < len then hfcOf c.frame (cut c.frame hop src i) else 0
  have he : ∀ i, e i ≠ 0 ↔ i < len ∧ Heard c.frame (cut c.frame hop src i) := by
    intro i
    show (if i < len then hfcOf c.frame (cut c.frame hop src i) else 0) ≠ 0 ↔ _
    by_cases hi : i < len
    · rw [if_pos hi, DetectionFunction.hfcOf_ne_zero _ hv.pos]
      exact ⟨fun h => ⟨hi, h⟩, fun h => h.2⟩
    · rw [if_neg hi]
      exact ⟨fun h => absurd rfl h, fun h => absurd h.1 hi⟩
  have hvals : fs.map (hfcOf c.frame) = withEvents 0 e len := by
    unfold withEvents
    rw [hfs, List.map_map]
    refine List.map_congr_left fun i hi => ?_
    rw [zero_add]
    exact (if_pos (List.mem_range.mp hi)).symm
  have hval : ∀ i, i < len → e i = hfcOf c.frame (cut c.frame hop src i) := fun i hi => if_pos hi
  have hl : ∀ i, e i ≠ 0 → 0 < e i ∧ e i ≤ top ∧ delta * top < e i * auto b 0 ∧ qa * top < e i * (auto b 0 + auto b 1 - 2 * auto b 2) / 7 := by
    intro i hi
    obtain ⟨h1, h2⟩ := (he i).mp hi
    rw [hval i h1] at hi ⊢
    exact ⟨lt_of_le_of_ne (DetectionFunction.hfcOf_nonneg _ _) (Ne.symm hi), hloud i h1 h2⟩
  obtain ⟨i0, hi0⟩ := hsome
  obtain ⟨p', v, l, k1, k2, k3⟩ := C102_spaced_partial (e := e) (top := top) ha hh hb hal h4 hw hm hc hr (fun i hi => ⟨(hl i hi).1, (hl i hi).2.1⟩) hwide
    (fun i hi => hin i ((he i).mp hi).1 ((he i).mp hi).2) (fun i j hi hj hij => hfar i j hij ((he j).mp hj).1 ((he i).mp hi).2 ((he j).mp hj).2)
    ⟨i0, (he i0).mpr hi0⟩ (fun i hi => (hl i hi).2.2) hdelta hqa onsets
  rw [← hvals] at k1
  exact ⟨s', fs, d', _, p', v, l, f1, h1, k1, k2, fun i => (k3 i).trans (he i)⟩

/-- **C122** (clicks). The value of a frame with a single sample that is not zero is its size times the window there times a constant, so
clicks of one size at one place in their frames are equally loud. -/
theorem C122_click (n : Nat) (hn : 2 ≤ n) (f : List ℝ) (j : Nat) (hj : j < n) (h : ∀ i, i < n → i ≠ j → f.getD i 0 = 0) :
    hfcOf n f = Window.shape .hanning n j * |f.getD j 0| * ∑ k ∈ Finset.range (n / 2 + 1), ((k : ℝ) + 1) := by
  have h0 : 0 ≤ Window.shape .hanning n j := by
    unfold Window.shape
    simp only [if_neg (show ¬n ≤ 1 by omega)]
    linarith [Real.cos_le_one (2 * Real.pi * j / n)]
  unfold hfcOf
  rw [Finset.mul_sum]
  refine Finset.sum_congr rfl fun k _ => ?_
  have : ‖DetectionFunction.ofFrame n f k‖ = Window.shape .hanning n j * |f.getD j 0| := by
    unfold DetectionFunction.ofFrame
    rw [DFT.dft, Finset.sum_eq_single j (fun i hi hne => by
        rw [h i (Finset.mem_range.mp hi) hne, mul_zero]
        simp) (fun hc => absurd (Finset.mem_range.mpr hj) hc)]
    rw [norm_mul, norm_mul, norm_pow, norm_neg, norm_one, one_pow, one_mul]
    have hexp : ‖Complex.exp ((if false = true then 1 else -1) * (2 * Real.pi * Complex.I * j * k / n))‖ = 1 := by
      have e : ((if false = true then (1 : ℂ) else -1) * (2 * Real.pi * Complex.I * j * k / n)) = ((-(2 * Real.pi * j * k / n) : ℝ) : ℂ) * Complex.I := by
        simp only [Bool.false_eq_true, if_false]
        push_cast
        ring
      rw [e, Complex.norm_exp_ofReal_mul_I]
    rw [hexp, mul_one, Complex.norm_real, Real.norm_eq_abs, abs_mul, abs_of_nonneg h0]
  rw [this]
  ring

/-- The audio of the example: a click at sample 82 of 160. -/
def click : List ℝ := (List.range 160).map fun m => if m = 82 then 1 else 0

theorem click_get (m : Nat) : click.getD m 0 = if m = 82 then 1 else 0 := by
  unfold click
  rw [List.getD_eq_getElem?_getD, List.getElem?_map]
  by_cases h : m < 160
  · rw [List.getElem?_range h]
    rfl
  · rw [List.getElem?_eq_none (by simpa using h), if_neg (by omega)]
    rfl

theorem click_heard (i : Nat) : Heard 4 (cut 4 4 click i) ↔ i = 20 := by
  have h : ∀ j, j < 4 → (cut 4 4 click i).getD j 0 = if i * 4 + j = 82 then 1 else 0 := by
    intro j hj
    unfold cut
    rw [List.getD_eq_getElem?_getD, List.getElem?_map, List.getElem?_range hj, ← click_get]
    rfl
  constructor
  · rintro ⟨j, _, h2, h3⟩
    rw [h j h2] at h3
    split_ifs at h3 with h4
    · omega
    · exact absurd rfl h3
  · rintro rfl
    exact ⟨2, by omega, by omega, by rw [h 2 (by omega)]; norm_num⟩

example : ∃ p0 d s s' fs d' vals p' v l, make 40 8 8 1 (1 / 8) (1 / 20) 0 1 [1 / 4, 1 / 2, 1 / 4] [1, 0, 0] 0 = some p0 ∧
    DetectionFunction.make ⟨4, 4, .hfc, 3, false, -1, -1⟩ 0 0 = some d ∧ Framer.setSource (Framer.configure Framer.new 4 4) click = some s ∧
    Framer.frames s (List.replicate 40 [0, 0, 0, 0]) = some (s', fs) ∧ hear d fs = some (d', vals) ∧
    process p0 vals 40 [] = some (p', v, l) ∧ ∀ i, i ∈ l ↔ i = 20 := by
  obtain ⟨p0, hp0⟩ := make_example
  have hv : Valid ⟨4, 4, .hfc, 3, false, -1, -1⟩ := ⟨by decide, by decide, by decide, by simp⟩
  obtain ⟨d, hd, hr⟩ := DetectionFunction.C28_construct _ hv 0 0
  have hs : ∃ s, Framer.setSource (Framer.configure Framer.new 4 4) click = some s ∧ s.maxFrames = 40 := by
    refine ⟨_, rfl, ?_⟩
    simp [click, Framer.configure, Framer.resetCounters]
  obtain ⟨s, hs, hmax⟩ := hs
  have hne : Heard 4 (cut 4 4 click 20) := (click_heard 20).mpr rfl
  have hpos : 0 < hfcOf 4 (cut 4 4 click 20) :=
    lt_of_le_of_ne (DetectionFunction.hfcOf_nonneg _ _) (Ne.symm ((DetectionFunction.hfcOf_ne_zero 4 (by omega) _).mpr hne))
  obtain ⟨s', fs, d', vals, p', v, l, h1, h2, h3, _, h5⟩ := C122_onsets (p := p0) (calls := []) (top := hfcOf 4 (cut 4 4 click 20)) noFeedback_example
    hump_example (by simp) (by norm_num) (by norm_num) (by norm_num) hp0 (by simp) rfl (by simp) (by norm_num) (by norm_num) _ hv rfl rfl hr
    Framer.new s 4 (by omega) click hs (List.replicate 40 [0, 0, 0, 0]) (by intro x hx; rw [(List.mem_replicate.mp hx).2]; rfl) (by simp [hmax]) (by simp)
    (by
      intro i _ hi
      have := (click_heard i).mp hi
      simp [this])
    (by
      intro i j hij _ hi hj
      have := (click_heard i).mp hi
      have := (click_heard j).mp hj
      omega)
    ⟨20, by omega, hne⟩
    (by
      intro i _ hi
      have := (click_heard i).mp hi
      subst this
      refine ⟨le_rfl, ?_, ?_⟩
      · norm_num [auto, Finset.sum_range_succ]
        linarith
      · norm_num [auto, Finset.sum_range_succ]
        linarith) []
  refine ⟨p0, d, s, s', fs, d', vals, p', v, l, hp0, hd, hs, h1, h2, by simpa using h3, fun i => ?_⟩
  rw [h5]
  constructor
  · exact fun h => (click_heard i).mp h.2
  · rintro rfl
    exact ⟨by omega, hne⟩

end QM.PeakPicking
