import Verif.Mfcc.Power

/-!
# C106: mel-frequency cepstral coefficients are numbers
-/

namespace QM.Mfcc

open Ext

/-! ## Loops -/

theorem earsE_ok {c : Config} {W : List (List ℝ)} (hW : Holds2 40 c.fftsize (fun i j => band i (j * c.fs / c.fftsize)) W)
    {mag : List ℝ} {g : Nat → ℝ} (hm : Holds (c.fftsize / 2) g mag) (e : List Ext) (he : e.length = 40) (p : ℝ) :
    ∃ l, earsE (c.fftsize / 2) p W mag e = some l ∧ Holds 40 (fun i => earE p (bandOut c.fs c.fftsize g i)) l := by
  obtain ⟨z, h1, h2⟩ := fill_part (new := fun _ => (0 : Ext)) (f := fun i e => wr e i (0 : Ext)) (holds_of_length he 0) fun i ys _ _ => rfl
  unfold earsE
  rw [bind_ok h1]
  refine fill_part h2 ?_
  intro i ys hi _
  have := loop_sum (c.fftsize / 2) (fun j acc => do
      let w ← rd2 W i j
      let m ← mag[j]?
      some (acc + w * m)) (fun j => band i (j * c.fs / c.fftsize) * g j) (0 : ℝ) (by
    intro j acc hj
    rw [bind_ok (hW.rd hi (by omega)), bind_ok (hm.2 j hj)])
  rw [bind_ok this, zero_add]
  rfl

theorem dctRowE_ok {nc : Nat} {D : List (List ℝ)} (hD : Holds2 (nc + 1) 40 dctEntry D) {e : List Ext} {g : Nat → Ext} (he : Holds 40 g e)
    {i : Nat} (hi : i ≤ nc) : dctRowE D e i = some (total 40 (fun j => fin (dctEntry i j) * g j)) := by
  unfold dctRowE
  obtain ⟨r, h1, h2⟩ := loop_inv (n := 40) (s := (0 : Ext)) (f := fun j acc => do
      let d ← rd2 D i j
      let x ← e[j]?
      some (acc + fin d * x)) (P := fun n r => r = total n (fun j => fin (dctEntry i j) * g j)) rfl (by
    intro j acc hj hp
    refine ⟨_, ?_, rfl⟩
    rw [bind_ok (hD.rd (by omega) hj), bind_ok (he.2 j hj), hp]
    rfl)
  rw [h1, h2]

theorem cepstraE_ok (c : Config) {D : List (List ℝ)} (hD : Holds2 (c.nceps + 1) 40 dctEntry D) {e : List Ext} {g : Nat → Ext} (he : Holds 40 g e)
    (out : List Ext) (ho : nout c ≤ out.length) :
    ∃ out', cepstraE c.wantC0 c.nceps D e out = some out' ∧ out'.length = out.length ∧
      (∀ k : Nat, k < nout c → out'[k]? = some (total 40 (fun j => fin (dctEntry (order c k) j) * g j))) ∧ ∀ k : Nat, nout c ≤ k → out'[k]? = out[k]? := by
  have key : ∃ out', loop (nout c) (fun k out => do
      let t ← dctRowE D e (order c k)
      wr out k t) out = some out' ∧ out'.length = out.length ∧
      (∀ k : Nat, k < nout c → out'[k]? = some (total 40 (fun j => fin (dctEntry (order c k) j) * g j))) ∧ ∀ k : Nat, nout c ≤ k → out'[k]? = out[k]? := by
    refine fill_ok (nout c) _ (fun k => total 40 (fun j => fin (dctEntry (order c k) j) * g j)) out ho ?_
    intro i b hi hb _ _
    have : order c i ≤ c.nceps := by unfold order; unfold nout at hi; split at hi <;> split <;> simp_all <;> omega
    rw [bind_ok (dctRowE_ok hD he this), wr_some _ (by omega)]
  unfold nout order at *
  unfold cepstraE
  by_cases h : c.wantC0
  · simp only [h, if_true] at key ⊢
    exact key
  · simp only [h, if_false, Bool.false_eq_true] at key ⊢
    exact key

/-- The magnitudes of a spectrum. -/
noncomputable def mags (re im : List ℝ) (j : Nat) : ℝ := Real.sqrt (re.getD j 0 ^ 2 + im.getD j 0 ^ 2)

theorem processE_ok {c : Config} (h0 : c.fftsize % 2 = 0) (h1 : 2 ≤ c.fftsize) (h2 : c.fftsize ≤ 2147483647) {m : MFCC} (h : Reach c m) (p : ℝ)
    (re im : List ℝ) (em out : List Ext) (hr : c.fftsize / 2 ≤ re.length) (hi : c.fftsize / 2 ≤ im.length) (he : em.length = 40) (ho : nout c ≤ out.length) :
    ∃ out', processE m p re im em out = some out' ∧ out'.length = out.length ∧
      (∀ k : Nat, k < nout c → out'[k]? = some (total 40 (fun j => fin (dctEntry (order c k) j) * earE p (bandOut c.fs c.fftsize (mags re im) j)))) ∧
      ∀ k : Nat, nout c ≤ k → out'[k]? = out[k]? := by
  have ok := reach_ok h0 h1 h2 h
  obtain ⟨mag, a1, a2⟩ := magnitudes_ok (c.fftsize / 2) re im m.fftMag hr hi ok.mag
  obtain ⟨e, b1, b2⟩ := earsE_ok ok.weights a2 em he p
  obtain ⟨out', c1, c2⟩ := cepstraE_ok c ok.dct b2 out ho
  refine ⟨out', ?_, c2⟩
  unfold processE
  rw [ok.size, ok.c0, ok.nceps, bind_ok a1, bind_ok b1, c1]

theorem total_dct {g : Nat → ℝ} {f : Nat → Ext} (h : ∀ j, j < 40 → f j = fin (g j)) (k : Nat) :
    total 40 (fun j => fin (dctEntry k j) * f j) = fin (DCT.dctU 40 g k) := by
  rw [total_fin (g := fun j => dctEntry k j * g j) (fun j hj => by rw [h j hj, fin_mul]), DCT.dctU_eq, DCT.dct2, Finset.mul_sum]
  congr 1
  refine Finset.sum_congr rfl fun j _ => ?_
  unfold dctEntry
  ring

/-! ## Powers -/

theorem powE_nat (x : ℝ) (n : Nat) : powE x n = fin (x ^ n) := by
  unfold powE
  rcases Nat.eq_zero_or_pos n with rfl | hn
  · rw [if_pos (by norm_num), pow_zero]; rfl
  rw [if_neg (by exact_mod_cast hn.ne')]
  split_ifs with h1 h2 h3 h4
  · rw [Real.rpow_natCast]
  · rw [h2, zero_pow hn.ne']; rfl
  · exact absurd (by exact_mod_cast hn) h3
  · have := h4.choose_spec
    have e : h4.choose = (n : ℤ) := by exact_mod_cast this.symm
    rw [e, zpow_natCast]
  · exact absurd ⟨(n : ℤ), by push_cast; rfl⟩ h4

theorem earE_nat (n : Nat) (t : ℝ) : earE n t = fin (logOut t ^ n) := by
  unfold earE
  split_ifs with h
  · exact powE_nat _ _
  · have : n = 1 := by exact_mod_cast not_not.mp h
    rw [this, pow_one]
    rfl

theorem earE_loud {p t : ℝ} (hp : 0 < p) (ht : t ≤ 0 ∨ 1 ≤ t) : earE p t = fin (logOut t ^ p) := by
  have h0 : 0 ≤ ear t := by
    unfold ear
    split_ifs with h
    · exact Real.logb_nonneg (by norm_num) (by rcases ht with ht | ht <;> linarith)
    · exact le_rfl
  unfold earE
  split_ifs with h
  · unfold powE
    rw [if_neg hp.ne']
    split_ifs with h1 h2 <;> try rfl
    · rw [show logOut t = ear t from rfl, h2, Real.zero_rpow hp.ne']; rfl
    · exact absurd (lt_of_le_of_ne h0 (Ne.symm h2)) h1
    · exact absurd (lt_of_le_of_ne h0 (Ne.symm h2)) h1
  · rw [not_not.mp h, Real.rpow_one]
    rfl

theorem earE_quiet {p t : ℝ} (hp : ∀ n : ℤ, p ≠ n) (h0 : 0 < t) (h1 : t < 1) : earE p t = nan := by
  have hl : ear t < 0 := by
    unfold ear
    rw [if_pos h0]
    exact Real.logb_neg (by norm_num) h0 h1
  unfold earE powE
  rw [if_pos (by simpa using hp 1), if_neg (by simpa using hp 0), if_neg (by linarith), if_neg hl.ne, dif_neg (by rintro ⟨n, hn⟩; exact hp n hn)]

/-! ## C106 -/

variable {c : Config} (h0 : c.fftsize % 2 = 0) (h1 : 2 ≤ c.fftsize) (h2 : c.fftsize ≤ 2147483647)
include h0 h1 h2

/-- **C106, partial** With a power that is a natural number, every coefficient is a number, for every spectrum: the one C64 gives. (Missing: other powers.) -/
theorem C106_integer_partial {m : MFCC} (h : Reach c m) (n : Nat) (re im : List ℝ) (em out : List Ext) (hr : c.fftsize / 2 ≤ re.length)
    (hi : c.fftsize / 2 ≤ im.length) (he : em.length = 40) (ho : nout c ≤ out.length) :
    ∃ out', processE m n re im em out = some out' ∧
      ∀ k : Nat, k < nout c → out'[k]? = some (fin (coeff (· ^ n) c.fs c.fftsize (mags re im) (order c k))) := by
  obtain ⟨out', a, _, b, _⟩ := processE_ok h0 h1 h2 h n re im em out hr hi he ho
  refine ⟨out', a, fun k hk => ?_⟩
  rw [b k hk, total_dct (g := fun i => logOut (bandOut c.fs c.fftsize (mags re im) i) ^ n) (fun j _ => earE_nat n _)]
  rfl

/-- **C106, partial** With any positive power, every coefficient is a number if every band is silent or at least 1. -/
theorem C106_loud_partial {m : MFCC} (h : Reach c m) {p : ℝ} (hp : 0 < p) (re im : List ℝ) (em out : List Ext) (hr : c.fftsize / 2 ≤ re.length)
    (hi : c.fftsize / 2 ≤ im.length) (he : em.length = 40) (ho : nout c ≤ out.length)
    (hb : ∀ i, i < 40 → bandOut c.fs c.fftsize (mags re im) i ≤ 0 ∨ 1 ≤ bandOut c.fs c.fftsize (mags re im) i) :
    ∃ out', processE m p re im em out = some out' ∧
      ∀ k : Nat, k < nout c → out'[k]? = some (fin (coeff (· ^ p) c.fs c.fftsize (mags re im) (order c k))) := by
  obtain ⟨out', a, _, b, _⟩ := processE_ok h0 h1 h2 h p re im em out hr hi he ho
  refine ⟨out', a, fun k hk => ?_⟩
  rw [b k hk, total_dct (g := fun i => logOut (bandOut c.fs c.fftsize (mags re im) i) ^ p) (fun j hj => earE_loud hp (hb j hj))]
  rfl

/-- **C106 violated.** With a power that is not an integer, one band with an output between 0 and 1 makes every coefficient NaN. -/
theorem C106_quiet_violation {m : MFCC} (h : Reach c m) {p : ℝ} (hp : ∀ n : ℤ, p ≠ n) (re im : List ℝ) (em out : List Ext) (hr : c.fftsize / 2 ≤ re.length)
    (hi : c.fftsize / 2 ≤ im.length) (he : em.length = 40) (ho : nout c ≤ out.length) {i : Nat} (hi40 : i < 40)
    (hb0 : 0 < bandOut c.fs c.fftsize (mags re im) i) (hb1 : bandOut c.fs c.fftsize (mags re im) i < 1) :
    ∃ out', processE m p re im em out = some out' ∧ ∀ k : Nat, k < nout c → out'[k]? = some nan := by
  obtain ⟨out', a, _, b, _⟩ := processE_ok h0 h1 h2 h p re im em out hr hi he ho
  refine ⟨out', a, fun k hk => ?_⟩
  rw [b k hk, total_nan hi40 (by rw [earE_quiet hp hb0 hb1, mul_nan])]

/-- **C106 violated.** So every sound that is not silent in all bands, played softly enough, gives nothing but NaN. -/
theorem C106_soft_violation {m : MFCC} (h : Reach c m) {p : ℝ} (hp : ∀ n : ℤ, p ≠ n) (re im : List ℝ) (em out : List Ext) (hr : c.fftsize / 2 ≤ re.length)
    (hi : c.fftsize / 2 ≤ im.length) (he : em.length = 40) (ho : nout c ≤ out.length) {i : Nat} (hi40 : i < 40)
    (hb : 0 < bandOut c.fs c.fftsize (mags re im) i) :
    ∃ g₀ > 0, ∀ g, 0 < g → g < g₀ →
      ∃ out', processE m p (re.map (g * ·)) (im.map (g * ·)) em out = some out' ∧ ∀ k : Nat, k < nout c → out'[k]? = some nan := by
  refine ⟨1 / bandOut c.fs c.fftsize (mags re im) i, by positivity, fun g hg hs => ?_⟩
  have e : bandOut c.fs c.fftsize (mags (re.map (g * ·)) (im.map (g * ·))) i = g * bandOut c.fs c.fftsize (mags re im) i := by
    rw [← bandOut_smul]
    congr 1
    funext j
    exact mag_gain hg re im j
  refine C106_quiet_violation h0 h1 h2 h hp _ _ em out (by simpa) (by simpa) he ho hi40 ?_ ?_
  · rw [e]; positivity
  · rw [e]; exact (lt_div_iff₀ hb).mp hs

/-- **C106 violated.** Without a power the coefficients are numbers, but not those of silence as a sound fades: silence gives 0 (C64_silence), while the first
coefficient of a sound in all bands falls below every bound. -/
theorem C106_fade_violation (hp : c.logpower = none) (hc : c.nceps < 80) (hc0 : c.wantC0 = true) {m : MFCC} (h : Reach c m) (re im out : List ℝ)
    (hr : c.fftsize / 2 ≤ re.length) (hi : c.fftsize / 2 ≤ im.length) (ho : nout c ≤ out.length)
    (hb : ∀ i, i < 40 → 0 < bandOut c.fs c.fftsize (fun j => Real.sqrt (re.getD j 0 ^ 2 + im.getD j 0 ^ 2)) i) (B : ℝ) :
    ∃ g₀ > 0, ∀ g, 0 < g → g < g₀ → ∃ m' out' v, m.processSpectrum (re.map (g * ·)) (im.map (g * ·)) out = some (m', out', c.nceps) ∧
      out'[0]? = some v ∧ v < B := by
  have hn : 0 < nout c := by unfold nout; rw [if_pos hc0]; omega
  obtain ⟨m1, o1, m2, o2, a1, _, a3⟩ := C64_gain_invariant h0 h1 h2 hp hc h h re im out out hr hi ho ho one_pos hb
  obtain ⟨v, hv, _⟩ := a3 0 hn
  have hs : (0 : ℝ) < Real.sqrt 40 := Real.sqrt_pos.mpr (by norm_num)
  refine ⟨10 ^ ((B - v) / Real.sqrt 40), Real.rpow_pos_of_pos (by norm_num) _, fun g hg hlt => ?_⟩
  obtain ⟨m1', o1', m2', o2', b1, b2, b3⟩ := C64_gain_invariant h0 h1 h2 hp hc h h re im out out hr hi ho ho hg hb
  rw [a1] at b1
  obtain ⟨rfl, rfl⟩ : m1 = m1' ∧ o1 = o1' := by
    have := Option.some.inj b1
    exact ⟨congrArg Prod.fst this, congrArg (fun x => x.2.1) this⟩
  obtain ⟨w, w1, w2⟩ := b3 0 hn
  obtain rfl : v = w := Option.some.inj (hv.symm.trans w1)
  rw [if_pos (by unfold order; rw [if_pos hc0])] at w2
  refine ⟨m2', o2', _, b2, w2, ?_⟩
  have hl : Real.logb 10 g < (B - v) / Real.sqrt 40 := (Real.logb_lt_iff_lt_rpow (by norm_num) hg).mpr hlt
  rw [lt_div_iff₀ hs] at hl
  linarith

omit h0 h1 h2

/-- The default configuration, all bins sounding at level 1, and the square root as power: at low level everything is NaN. -/
example : ∃ m, Reach defaultConfig m ∧ ∃ g₀ > 0, ∀ g, 0 < g → g < g₀ →
    ∃ out', processE m (1 / 2) ((List.replicate 1024 1).map (g * ·)) ((List.replicate 1024 0).map (g * ·)) (List.replicate 40 nan) (List.replicate 20 nan) = some out' ∧
      ∀ k : Nat, k < nout defaultConfig → out'[k]? = some nan := by
  obtain ⟨m, h⟩ := C64_make defaultConfig (by decide) (by decide) (by decide) 0
  refine ⟨m, .make h, C106_soft_violation (by decide) (by decide) (by decide) (.make h) (fun n hn => ?_) _ _ _ _ (by rw [List.length_replicate]; decide) (by rw [List.length_replicate]; decide)
    (by simp) (by simp [nout, defaultConfig]) (i := 0) (by norm_num) ?_⟩
  · have h1 : (2 * n : ℝ) = 1 := by linarith
    have h2 : 2 * n = 1 := by exact_mod_cast h1
    omega
  · have e1 : ((defaultConfig.fs : Int) : ℝ) = 44100 := by simp [defaultConfig]
    have e2 : defaultConfig.fftsize = 2048 := rfl
    have := C64_bands_cover 44100 2048 (by decide) (by decide) (by norm_num) (by linarith [edge41]) (fun _ => 1) (fun _ => one_pos) 0 (by norm_num)
    rw [e1, e2]
    refine lt_of_lt_of_eq this (Finset.sum_congr rfl fun j hj => ?_)
    have hj : j < 1024 := Finset.mem_range.mp hj
    unfold mags
    rw [List.getD_replicate _ hj, List.getD_replicate _ hj]
    norm_num

end QM.Mfcc
