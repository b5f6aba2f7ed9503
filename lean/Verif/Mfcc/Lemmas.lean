import Verif.Mfcc.Model
import Verif.Mfcc.Spec
import Verif.Window.Props
import Verif.FFT.RealProps
import Verif.DCT.Math

namespace QM.Mfcc

theorem edge_step (i : Nat) : edge i < edge (i + 1) := by
  unfold edge
  by_cases h : i + 1 < 13
  · rw [if_pos h, if_pos (by omega)]; push_cast; linarith
  · rw [if_neg h]
    by_cases h2 : i < 13
    · have : i = 12 := by omega
      subst this
      norm_num
    · rw [if_neg h2, show i + 1 - 12 = (i - 12) + 1 by omega, pow_succ]
      have : (0 : ℝ) < 1.0711703 ^ (i - 12) := by positivity
      nlinarith

theorem edge_lt {i j : Nat} (h : i < j) : edge i < edge j := strictMono_nat_of_lt_succ edge_step h

theorem edge_pos (i : Nat) : 0 < edge i := by
  have h0 : (0 : ℝ) < edge 0 := by unfold edge; norm_num
  rcases Nat.eq_zero_or_pos i with h | h
  · rw [h]; exact h0
  · exact h0.trans (edge_lt h)

theorem weight_eq (i : Nat) (f : ℝ) : weight (2 / (edge (i + 2) - edge i)) (edge i) (edge (i + 1)) (edge (i + 2)) f = band i f := by
  have h1 : 0 < edge (i + 1) - edge i := by linarith [edge_step i]
  have h2 : 0 < edge (i + 2) - edge (i + 1) := by linarith [edge_step (i + 1)]
  unfold weight band
  set H := 2 / (edge (i + 2) - edge i)
  dsimp only
  by_cases a : f > edge i
  · by_cases b : f ≤ edge (i + 1)
    · rw [if_pos (show f > edge i ∧ f ≤ edge (i + 1) from ⟨a, b⟩), if_neg (show ¬ (f > edge (i + 1) ∧ f < edge (i + 2)) by rintro ⟨c, _⟩; linarith), add_zero]
      have e1 : (f - edge i) / (edge (i + 1) - edge i) ≤ 1 := by rw [div_le_one h1]; linarith
      have e2 : 1 ≤ (edge (i + 2) - f) / (edge (i + 2) - edge (i + 1)) := by rw [one_le_div h2]; linarith
      rw [min_eq_left (by linarith), max_eq_right (div_nonneg (by linarith) h1.le), mul_div_assoc]
    · push Not at b
      rw [if_neg (show ¬ (f > edge i ∧ f ≤ edge (i + 1)) by rintro ⟨_, c⟩; linarith)]
      have e1 : 1 ≤ (f - edge i) / (edge (i + 1) - edge i) := by rw [one_le_div h1]; linarith
      have e2 : (edge (i + 2) - f) / (edge (i + 2) - edge (i + 1)) ≤ 1 := by rw [div_le_one h2]; linarith
      rw [min_eq_right (by linarith)]
      by_cases c : f < edge (i + 2)
      · rw [if_pos (show f > edge (i + 1) ∧ f < edge (i + 2) from ⟨b, c⟩), max_eq_right (div_nonneg (by linarith) h2.le), zero_add, mul_div_assoc]
      · rw [if_neg (show ¬ (f > edge (i + 1) ∧ f < edge (i + 2)) by rintro ⟨_, d⟩; exact c d), max_eq_left (div_nonpos_of_nonpos_of_nonneg (by linarith) h2.le)]
        simp
  · rw [if_neg (show ¬ (f > edge i ∧ f ≤ edge (i + 1)) by rintro ⟨c, _⟩; exact a c), if_neg (show ¬ (f > edge (i + 1) ∧ f < edge (i + 2)) by rintro ⟨c, _⟩; linarith)]
    rw [max_eq_left]
    · simp
    · exact (min_le_left _ _).trans (div_nonpos_of_nonpos_of_nonneg (by linarith) h1.le)

theorem freqs_ok : ∃ l, mkFreqs = some l ∧ Holds 42 edge l := by
  obtain ⟨a, h1, h2⟩ := loop_inv (n := 13) (f := fun i freqs => wr freqs i (66.6666666 + (i : ℝ) * 66.66666666)) (s := List.replicate 42 0)
    (P := fun i (l : List ℝ) => l.length = 42 ∧ ∀ j : Nat, j < i → l[j]? = some (edge j)) ⟨by simp, by intro j hj; omega⟩ (by
      intro i l hi hl
      refine ⟨_, wr_some _ (by rw [hl.1]; omega), by simp [hl.1], fun j hj => ?_⟩
      by_cases e : j = i
      · subst e
        rw [List.getElem?_set_self (by rw [hl.1]; omega)]; unfold edge; rw [if_pos hi]
      · rw [List.getElem?_set_ne (Ne.symm e)]; exact hl.2 j (by omega))
  obtain ⟨b, h3, h4⟩ := loop_inv (n := 29) (f := fun t (freqs : List ℝ) => do
      let last ← freqs[12]?
      wr freqs (13 + t) (last * (1.0711703 : ℝ) ^ (13 + t - 13 + 1))) (s := a)
    (P := fun i (l : List ℝ) => l.length = 42 ∧ ∀ j : Nat, j < 13 + i → l[j]? = some (edge j)) ⟨h2.1, fun j hj => h2.2 j (by omega)⟩ (by
      intro i l hi hl
      refine ⟨_, (bind_ok (hl.2 12 (by omega)) _).trans (wr_some _ (by rw [hl.1]; omega)), by simp [hl.1], fun j hj => ?_⟩
      by_cases e : j = 13 + i
      · subst e
        rw [List.getElem?_set_self (by rw [hl.1]; omega)]
        unfold edge
        rw [if_pos (by omega), if_neg (by omega), show 13 + i - 13 + 1 = 13 + i - 12 by omega]
        norm_num
      · rw [List.getElem?_set_ne (Ne.symm e)]; exact hl.2 j (by omega))
  refine ⟨b, ?_, h4.1, fun j hj => h4.2 j (by omega)⟩
  unfold mkFreqs
  rw [bind_ok h1]
  exact h3

theorem slice {l : List ℝ} (h : Holds 42 edge l) (k : Nat) (hk : k ≤ 2) : Holds 40 (fun i => edge (i + k)) ((l.drop k).take 40) := by
  refine ⟨by simp [h.1]; omega, fun j hj => ?_⟩
  rw [List.getElem?_take_of_lt hj, List.getElem?_drop, Nat.add_comm]
  exact h.2 _ (by omega)

theorem height_ok {lo up : List ℝ} (h1 : Holds 40 edge lo) (h2 : Holds 40 (fun i => edge (i + 2)) up) :
    ∃ l, mkHeight lo up = some l ∧ Holds 40 (fun i => 2 / (edge (i + 2) - edge i)) l := by
  unfold mkHeight
  refine fill_part (holds_replicate 40 0) ?_
  intro i ys hi _
  rw [bind_ok (h2.2 i hi), bind_ok (h1.2 i hi)]

theorem fftFreqs_ok (n : Nat) (fs : Int) : ∃ l, mkFftFreqs n fs = some l ∧ Holds n (fun i => (i : ℝ) / n * fs) l := by
  unfold mkFftFreqs
  exact fill_part (holds_replicate n 0) fun i ys hi _ => rfl

theorem holds2_replicate (n m : Nat) : Holds2 n m (fun _ _ => (0 : ℝ)) (List.replicate n (List.replicate m 0)) :=
  ⟨by simp, fun i hi => ⟨List.replicate m 0, by simp [hi], holds_replicate m 0⟩⟩

theorem weights_ok {n : Nat} {fs : Int} {lo ce up h f : List ℝ} (h1 : Holds 40 edge lo) (h2 : Holds 40 (fun i => edge (i + 1)) ce)
    (h3 : Holds 40 (fun i => edge (i + 2)) up) (h4 : Holds 40 (fun i => 2 / (edge (i + 2) - edge i)) h)
    (h5 : Holds n (fun i => (i : ℝ) / n * fs) f) :
    ∃ W, mkWeights n lo ce up h f = some W ∧ Holds2 40 n (fun i j => band i (j * fs / n)) W := by
  unfold mkWeights
  refine (holds2_replicate 40 n).fillAll _ (fun i j M => do
    let f ← f[j]?
    let l ← lo[i]?
    let c ← ce[i]?
    let u ← up[i]?
    let h ← h[i]?
    wr2 M i j (weight h l c u f)) ?_
  intro i j M hi hj _
  rw [bind_ok (h5.2 j hj), bind_ok (h1.2 i hi), bind_ok (h2.2 i hi), bind_ok (h3.2 i hi), bind_ok (h4.2 i hi), weight_eq]
  show wr2 M i j (band i ((j : ℝ) / n * fs)) = _
  rw [div_mul_eq_mul_div]

/-- The entry of the cosine transform. -/
noncomputable def dctEntry (i j : Nat) : ℝ := DCT.rowScale 40 i * DCT.ker 40 i j

theorem dct_ok (nceps : Nat) : ∃ D, mkDct nceps = some D ∧ Holds2 (nceps + 1) 40 dctEntry D := by
  obtain ⟨D, h1, h2⟩ := (holds2_replicate (nceps + 1) 40).fillAll
    (fun i j => (1 / Real.sqrt (40 / 2)) * Real.cos ((i : ℝ) * ((j : ℝ) + 0.5) / 40 * Real.pi))
    (fun i j D => wr2 D i j ((1 / Real.sqrt (40 / 2)) * Real.cos ((i : ℝ) * ((j : ℝ) + 0.5) / 40 * Real.pi)))
    (fun i j M _ _ _ => rfl)
  obtain ⟨D2, h3, h4⟩ := h2.fillRow (i := 0) (by omega) 40 (Nat.le_refl _)
    (fun j => (Real.sqrt 2 / 2) * ((1 / Real.sqrt (40 / 2)) * Real.cos (((0 : Nat) : ℝ) * ((j : ℝ) + 0.5) / 40 * Real.pi)))
    (fun j D => do
      let v ← rd2 D 0 j
      wr2 D 0 j ((Real.sqrt 2 / 2) * v)) (by
      intro j M hj hM
      have := hM.rd (i := 0) (j := j) (by omega) hj
      rw [if_neg (by omega)] at this
      rw [bind_ok this])
  refine ⟨D2, ?_, h4.congr ?_⟩
  · unfold mkDct
    rw [bind_ok h1]
    exact h3
  · intro i j hi hj
    have hc : Real.cos ((i : ℝ) * ((j : ℝ) + 0.5) / 40 * Real.pi) = DCT.ker 40 i j := by
      unfold DCT.ker
      congr 1
      push_cast
      ring
    have s0 : (1 / Real.sqrt (40 / 2) : ℝ) = Real.sqrt (2 / 40) := by
      rw [one_div, ← Real.sqrt_inv]; congr 1; norm_num
    unfold dctEntry DCT.rowScale
    by_cases e : i = 0
    · subst e
      rw [if_pos ⟨rfl, hj⟩, if_pos rfl, hc, s0, ← mul_assoc]
      congr 1
      have : (Real.sqrt 2 / 2 : ℝ) = Real.sqrt (1 / 2) := by
        rw [show (1 / 2 : ℝ) = 2 / 2 ^ 2 by norm_num, Real.sqrt_div (by norm_num), Real.sqrt_sq (by norm_num)]
      rw [this, ← Real.sqrt_mul (by norm_num)]
      congr 1; norm_num
    · rw [if_neg (by rintro ⟨c, _⟩; exact e c), if_neg e, hc, s0]
      norm_num

/-- What an `MFCC` object contains. -/
structure Ok (c : Config) (m : MFCC) : Prop where
  size : m.fftSize = c.fftsize
  nceps : m.nceps = c.nceps
  power : m.logPower = c.logpower
  c0 : m.wantC0 = c.wantC0
  dct : Holds2 (c.nceps + 1) 40 dctEntry m.dctMatrix
  weights : Holds2 40 c.fftsize (fun i j => band i (j * c.fs / c.fftsize)) m.weights
  window : Holds c.fftsize (Window.shape c.window c.fftsize) m.window
  fft : FFT.RReach c.fftsize m.fft
  re : m.realOut.length = c.fftsize
  im : m.imagOut.length = c.fftsize
  ear : m.earMag.length = 40
  mag : m.fftMag.length = c.fftsize / 2

theorem make_ok (c : Config) (u : ℂ) {d : FFT.RD} (hd : FFT.RD.make c.fftsize u = some d) :
    ∃ m, MFCC.make c u = some m ∧ Ok c m := by
  obtain ⟨fr, a1, a2⟩ := freqs_ok
  have lo := slice a2 0 (by omega)
  have ce := slice a2 1 (by omega)
  have up := slice a2 2 (by omega)
  rw [List.drop_zero] at lo
  obtain ⟨h, b1, b2⟩ := height_ok lo up
  obtain ⟨ff, c1, c2⟩ := fftFreqs_ok c.fftsize c.fs
  obtain ⟨W, d1, d2⟩ := weights_ok lo ce up b2 c2
  obtain ⟨D, e1, e2⟩ := dct_ok c.nceps
  obtain ⟨w, f1, f2, f3⟩ := Window.encache_ok c.window c.fftsize
  refine ⟨⟨c.fftsize, c.nceps, c.logpower, c.wantC0, D, W, w, d,
    List.replicate c.fftsize 0, List.replicate c.fftsize 0, List.replicate 40 0, List.replicate (c.fftsize / 2) 0⟩, ?_,
    ⟨rfl, rfl, rfl, rfl, e2, d2, ⟨f2, f3⟩, .make hd, by simp, by simp, by simp, by simp⟩⟩
  unfold MFCC.make
  rw [bind_ok hd, bind_ok a1]
  dsimp only
  rw [bind_ok b1, bind_ok c1, bind_ok d1, bind_ok e1, bind_ok f1]

theorem magnitudes_ok (n : Nat) (re im mag : List ℝ) (hr : n ≤ re.length) (hi : n ≤ im.length) (hm : mag.length = n) :
    ∃ l, magnitudes n re im mag = some l ∧ Holds n (fun j => Real.sqrt (re.getD j 0 ^ 2 + im.getD j 0 ^ 2)) l := by
  unfold magnitudes
  refine fill_part (holds_of_length hm 0) ?_
  intro i ys h _
  rw [bind_ok (get_getD re i 0 (by omega)), bind_ok (get_getD im i 0 (by omega)), sq, sq]

theorem ears_ok {c : Config} {W : List (List ℝ)} (hW : Holds2 40 c.fftsize (fun i j => band i (j * c.fs / c.fftsize)) W)
    {mag : List ℝ} {g : Nat → ℝ} (hm : Holds (c.fftsize / 2) g mag) (e : List ℝ) (he : e.length = 40) (p : Option (ℝ → ℝ)) :
    ∃ l, ears (c.fftsize / 2) p W mag e = some l ∧ Holds 40 (fun i => applyPower p (logOut (bandOut c.fs c.fftsize g i))) l := by
  obtain ⟨z, h1, h2⟩ := fill_part (new := fun _ => (0 : ℝ)) (f := fun i e => wr e i (0 : ℝ)) (holds_of_length he 0) fun i ys _ _ => rfl
  unfold ears
  rw [bind_ok h1]
  refine fill_part h2 ?_
  intro i ys hi _
  have := loop_sum (c.fftsize / 2) (fun j acc => do
      let w ← rd2 W i j
      let m ← mag[j]?
      some (acc + w * m)) (fun j => band i (j * c.fs / c.fftsize) * g j) (0 : ℝ) (by
    intro j acc hj
    rw [bind_ok (hW.rd hi (by omega)), bind_ok (hm.2 j hj)])
  rw [bind_ok this, zero_add]
  rfl

theorem dctRow_ok {nc : Nat} {D : List (List ℝ)} (hD : Holds2 (nc + 1) 40 dctEntry D) {e : List ℝ} {g : Nat → ℝ} (he : Holds 40 g e)
    {i : Nat} (hi : i ≤ nc) : dctRow D e i = some (DCT.dctU 40 g i) := by
  unfold dctRow
  rw [loop_sum 40 _ (fun j => dctEntry i j * g j) (0 : ℝ) (by
    intro j acc hj
    rw [bind_ok (hD.rd (by omega) hj), bind_ok (he.2 j hj)]), zero_add, DCT.dctU_eq, DCT.dct2, Finset.mul_sum]
  congr 1
  refine Finset.sum_congr rfl fun j _ => ?_
  unfold dctEntry
  ring

/-- How many values are written. -/
def nout (c : Config) : Nat := if c.wantC0 then c.nceps + 1 else c.nceps

/-- Which coefficient is at position `k` of the output. -/
def order (c : Config) (k : Nat) : Nat := if c.wantC0 then k else k + 1

theorem cepstra_ok (c : Config) {D : List (List ℝ)} (hD : Holds2 (c.nceps + 1) 40 dctEntry D) {e : List ℝ} {g : Nat → ℝ} (he : Holds 40 g e)
    (out : List ℝ) (ho : nout c ≤ out.length) :
    ∃ out', cepstra c.wantC0 c.nceps D e out = some out' ∧ out'.length = out.length ∧
      (∀ k : Nat, k < nout c → out'[k]? = some (DCT.dctU 40 g (order c k))) ∧ ∀ k : Nat, nout c ≤ k → out'[k]? = out[k]? := by
  have key : ∃ out', loop (nout c) (fun k out => do
      let t ← dctRow D e (order c k)
      wr out k t) out = some out' ∧ out'.length = out.length ∧
      (∀ k : Nat, k < nout c → out'[k]? = some (DCT.dctU 40 g (order c k))) ∧ ∀ k : Nat, nout c ≤ k → out'[k]? = out[k]? := by
    refine fill_ok (nout c) _ (fun k => DCT.dctU 40 g (order c k)) out ho ?_
    intro i b hi hb _ _
    have : order c i ≤ c.nceps := by unfold order; unfold nout at hi; split at hi <;> split <;> simp_all <;> omega
    rw [bind_ok (dctRow_ok hD he this), wr_some _ (by omega)]
  unfold nout order at *
  unfold cepstra
  by_cases h : c.wantC0
  · simp only [h, if_true] at key ⊢
    exact key
  · simp only [h, if_false, Bool.false_eq_true] at key ⊢
    exact key

end QM.Mfcc
