import Verif.DetectionFunction.Props
import Verif.Kiss.RoundedBfly
import Mathlib.Analysis.SpecialFunctions.Trigonometric.Bounds
import Mathlib.Analysis.SpecialFunctions.Sqrt

/-!
# Small changes of the input of a detection function: lemmas for C105
-/

namespace QM.DetectionFunction

/-- Two histories of spectra of the same length, where no bin up to `n` differs by more than `ε`. -/
def Close (n : Nat) (ε : ℝ) : List (Nat → ℂ) → List (Nat → ℂ) → Prop := List.Forall₂ fun z w => ∀ k, k ≤ n → ‖z k - w k‖ ≤ ε

/-- An object with configuration `c` has been given the spectra `h`, most recent first, and its last result is `v`. -/
def Gives (c : Config) (h : List (Nat → ℂ)) (v : ℝ) : Prop :=
  ∃ zs d d', Reach c zs d ∧
    ((∃ reals imags, c.frame / 2 + 1 ≤ reals.length ∧ c.frame / 2 + 1 ≤ imags.length ∧ processFreq d reals imags = some (d', v) ∧ h = ofSplit reals imags :: zs) ∨
      ∃ samples, c.frame ≤ samples.length ∧ processTime d samples = some (d', v) ∧ h = ofFrame c.frame samples :: zs)

theorem gives_value {c : Config} (hc : Valid c) {h : List (Nat → ℂ)} {v : ℝ} (hg : Gives c h v) : IsValue c h v := by
  obtain ⟨zs, d, d', hr, ⟨re, im, h1, h2, h3, rfl⟩ | ⟨x, h1, h2, rfl⟩⟩ := hg
  · obtain ⟨d1, v1, e1, e2⟩ := C28_frequency_value c hc hr re im h1 h2
    rw [e1] at h3
    cases h3
    exact e2
  · obtain ⟨d1, v1, e1, e2⟩ := C28_time_value c hc hr x h1
    rw [e1] at h2
    cases h2
    exact e2

theorem reach_exists {c : Config} (hc : Valid c) : ∀ l : List (List ℝ × List ℝ), (∀ p ∈ l, c.frame / 2 + 1 ≤ p.1.length ∧ c.frame / 2 + 1 ≤ p.2.length) →
    ∃ d, Reach c (l.map fun p => ofSplit p.1 p.2) d
  | [], _ => by
    obtain ⟨d, _, h⟩ := C28_construct c hc 0 0
    exact ⟨d, h⟩
  | p :: l, h => by
    obtain ⟨d, hd⟩ := reach_exists hc l (fun q hq => h q (List.mem_cons_of_mem _ hq))
    obtain ⟨h1, h2⟩ := h p List.mem_cons_self
    obtain ⟨d', v, e, _⟩ := C28_frequency_value c hc hd p.1 p.2 h1 h2
    exact ⟨d', .freq hd h1 h2 e⟩

theorem gives_exists {c : Config} (hc : Valid c) (p : List ℝ × List ℝ) (l : List (List ℝ × List ℝ))
    (h : ∀ q ∈ p :: l, c.frame / 2 + 1 ≤ q.1.length ∧ c.frame / 2 + 1 ≤ q.2.length) : ∃ v, Gives c ((p :: l).map fun p => ofSplit p.1 p.2) v := by
  obtain ⟨d, hd⟩ := reach_exists hc l (fun q hq => h q (List.mem_cons_of_mem _ hq))
  obtain ⟨h1, h2⟩ := h p List.mem_cons_self
  obtain ⟨d', v, e, _⟩ := C28_frequency_value c hc hd p.1 p.2 h1 h2
  exact ⟨v, _, d, d', hd, .inl ⟨p.1, p.2, h1, h2, e, rfl⟩⟩

/-! ## Magnitudes -/

/-- How much the magnitudes in use can change if no bin changes by more than `ε`. -/
noncomputable def magTol (c : Config) (ε : ℝ) : ℝ := if c.whiten then 2 * ε / c.floorVal else ε

theorem relaxed {x p r : ℝ} (h0 : 0 ≤ r) (h1 : r ≤ 1) : (if x < p then x + (p - x) * r else x) = max x ((1 - r) * x + r * p) := by
  split
  · rw [max_eq_right (by nlinarith)]
    ring
  · rw [max_eq_left (by nlinarith)]

theorem floored {m f : ℝ} : (if m < f then f else m) = max f m := by
  split
  · rw [max_eq_left (by linarith)]
  · rw [max_eq_right (by linarith)]

theorem peak_close {c : Config} {k : Nat} {ε : ℝ} (hr : c.relax ≤ 1) (hk : k ≤ c.frame / 2) (hε : 0 ≤ ε) {zs ws : List (Nat → ℂ)} (h : Close (c.frame / 2) ε zs ws) :
    |peak c k zs - peak c k ws| ≤ ε := by
  induction h with
  | nil => simpa [peak] using hε
  | cons h1 _ ih =>
    rename_i z w zs ws _
    rw [peak, peak]
    rw [relaxed (relax_nonneg c) hr, relaxed (relax_nonneg c) hr, floored, floored]
    have hx : |‖z k‖ - ‖w k‖| ≤ ε := (abs_norm_sub_norm_le _ _).trans (h1 k hk)
    refine (abs_max_sub_max_le_max _ _ _ _).trans (max_le (by simpa using hε) ((abs_max_sub_max_le_max _ _ _ _).trans (max_le hx ?_)))
    have h0 := relax_nonneg c
    rw [show (1 - c.relax) * ‖z k‖ + c.relax * peak c k zs - ((1 - c.relax) * ‖w k‖ + c.relax * peak c k ws) =
      (1 - c.relax) * (‖z k‖ - ‖w k‖) + c.relax * (peak c k zs - peak c k ws) by ring]
    refine (abs_add_le _ _).trans ?_
    rw [abs_mul, abs_mul, abs_of_nonneg (by linarith : 0 ≤ 1 - c.relax), abs_of_nonneg h0]
    nlinarith

theorem mag_close {c : Config} (hc : Valid c) {k : Nat} {ε : ℝ} (hr : c.whiten = true → c.relax ≤ 1) (hk : k ≤ c.frame / 2) (hε : 0 ≤ ε) {zs ws : List (Nat → ℂ)}
    (h : Close (c.frame / 2) ε zs ws) : |mag c k zs - mag c k ws| ≤ magTol c ε := by
  cases h with
  | nil =>
    rw [sub_self, abs_zero]
    unfold magTol
    split
    · exact div_nonneg (by linarith) (hc.safe ‹_›).le
    · exact hε
  | cons h1 h2 =>
    rename_i z w zs ws
    have hx : |‖z k‖ - ‖w k‖| ≤ ε := (abs_norm_sub_norm_le _ _).trans (h1 k hk)
    show |(if c.whiten then ‖z k‖ / peak c k (z :: zs) else ‖z k‖) - (if c.whiten then ‖w k‖ / peak c k (w :: ws) else ‖w k‖)| ≤ _
    unfold magTol
    by_cases hw : c.whiten
    · rw [if_pos hw, if_pos hw, if_pos hw]
      have hf := hc.safe hw
      have hp := peak_close (k := k) (hr hw) hk hε (List.Forall₂.cons h1 h2)
      have p1 := peak_ge c k z zs
      have p2 := peak_ge c k w ws
      have n2 := norm_le_peak c k w ws
      set p := peak c k (z :: zs)
      set q := peak c k (w :: ws)
      have hp0 : 0 < p := by linarith
      have hq0 : 0 < q := by linarith
      have e : ‖z k‖ / p - ‖w k‖ / q = ((‖z k‖ - ‖w k‖) + ‖w k‖ / q * (q - p)) / p := by
        field_simp
        ring
      have b : ‖w k‖ / q ≤ 1 := (div_le_one hq0).mpr n2
      have b0 : 0 ≤ ‖w k‖ / q := by positivity
      rw [e, abs_div, abs_of_pos hp0]
      have t : |‖z k‖ - ‖w k‖ + ‖w k‖ / q * (q - p)| ≤ 2 * ε := by
        refine (abs_add_le _ _).trans ?_
        rw [abs_mul, abs_of_nonneg b0, abs_sub_comm q p]
        nlinarith [abs_nonneg (p - q)]
      calc _ ≤ 2 * ε / p := by gcongr
        _ ≤ _ := div_le_div_of_nonneg_left (by linarith) hf p1
    · rw [if_neg hw, if_neg hw, if_neg hw]
      exact hx

theorem abs_sqrt_sub_sqrt_le {x y : ℝ} (hx : 0 ≤ x) (hy : 0 ≤ y) : |Real.sqrt x - Real.sqrt y| ≤ Real.sqrt |x - y| := by
  rw [← Real.sqrt_sq_eq_abs]
  refine Real.sqrt_le_sqrt ?_
  wlog h : y ≤ x generalizing x y
  · rw [abs_sub_comm, show (√x - √y) ^ 2 = (√y - √x) ^ 2 by ring]
    exact this hy hx (by linarith)
  rw [abs_of_nonneg (by linarith)]
  have h1 := Real.sq_sqrt hx
  have h2 := Real.sq_sqrt hy
  have h3 := Real.sqrt_le_sqrt h
  nlinarith [Real.sqrt_nonneg y, Real.sqrt_nonneg x]

/-! ## Phases -/

/-- The direction of a number that is not 0. -/
noncomputable def dir (z : ℂ) : ℂ := Complex.exp (z.arg * Complex.I)

theorem norm_mul_dir (z : ℂ) : (‖z‖ : ℂ) * dir z = z := Complex.norm_mul_exp_arg_mul_I z

theorem norm_dir (z : ℂ) : ‖dir z‖ = 1 := Complex.norm_exp_ofReal_mul_I _

theorem dir_close {z w : ℂ} {ε r : ℝ} (hr : 0 < r) (hz : r ≤ ‖z‖) (h : ‖z - w‖ ≤ ε) : ‖dir z - dir w‖ ≤ 2 * ε / r := by
  have hz0 : 0 < ‖z‖ := by linarith
  have e : (‖z‖ : ℂ) * (dir z - dir w) = (z - w) + ((‖w‖ - ‖z‖ : ℝ) : ℂ) * dir w := by
    have h1 := norm_mul_dir z
    have h2 := norm_mul_dir w
    push_cast
    linear_combination h1 - h2
  have h1 : ‖z‖ * ‖dir z - dir w‖ ≤ 2 * ε := by
    have := congrArg norm e
    rw [norm_mul, Complex.norm_real, norm_norm] at this
    rw [this]
    refine (norm_add_le _ _).trans ?_
    rw [norm_mul, Complex.norm_real, norm_dir, Real.norm_eq_abs, abs_sub_comm]
    have := (abs_norm_sub_norm_le z w)
    linarith
  rw [le_div_iff₀ hr]
  nlinarith [norm_nonneg (dir z - dir w)]

/-- What the deviation of the phase does to the spectrum. -/
theorem exp_dev {k : Nat} {z z1 z2 : Nat → ℂ} {zs : List (Nat → ℂ)} {d : ℝ} (h : IsDev k (z :: z1 :: z2 :: zs) d) :
    Complex.exp (d * Complex.I) = dir (z k) * (starRingEnd ℂ (dir (z1 k))) ^ 2 * dir (z2 k) := by
  obtain ⟨_, _, j, hj⟩ := h
  simp only [phase, List.tail_cons] at hj
  have hc : starRingEnd ℂ (dir (z1 k)) = Complex.exp (-((z1 k).arg * Complex.I)) := by
    unfold dir
    rw [← Complex.exp_conj]
    simp
  rw [hc]
  unfold dir
  rw [← Complex.exp_nat_mul, ← Complex.exp_add, ← Complex.exp_add, Complex.exp_eq_exp_iff_exists_int]
  refine ⟨-j, ?_⟩
  have : (d : ℂ) = ((z k).arg : ℂ) - 2 * (z1 k).arg + (z2 k).arg - 2 * Real.pi * j := by
    have := congrArg (fun x : ℝ => (x : ℂ)) hj
    push_cast at this
    linear_combination -this
  rw [this]
  push_cast
  ring

theorem norm_prod_sub {a b c a' b' c' : ℂ} (hb : ‖b‖ = 1) (hb' : ‖b'‖ = 1) (hc : ‖c‖ = 1) :
    ‖a * b ^ 2 * c - a' * b' ^ 2 * c'‖ ≤ ‖a - a'‖ + ‖a'‖ * (2 * ‖b - b'‖ + ‖c - c'‖) := by
  have e : a * b ^ 2 * c - a' * b' ^ 2 * c' = (a - a') * b ^ 2 * c + (a' * (b - b') * (b + b') * c + a' * b' ^ 2 * (c - c')) := by ring
  rw [e]
  refine (norm_add_le _ _).trans ?_
  have h3 := norm_add_le (a' * (b - b') * (b + b') * c) (a' * b' ^ 2 * (c - c'))
  have h2 := norm_add_le b b'
  rw [hb, hb'] at h2
  simp only [norm_mul, norm_pow, hb, hb', hc, one_pow, mul_one] at h3 ⊢
  have := mul_le_mul_of_nonneg_left h2 (mul_nonneg (norm_nonneg a') (norm_nonneg (b - b')))
  nlinarith

theorem conj_sub_norm (a b : ℂ) : ‖starRingEnd ℂ a - starRingEnd ℂ b‖ = ‖a - b‖ := by rw [← map_sub, Complex.norm_conj]

theorem abs_dev_close {d e : ℝ} (h1 : -Real.pi < d) (h2 : d ≤ Real.pi) (h3 : -Real.pi < e) (h4 : e ≤ Real.pi) :
    |(|d| - |e|)| ≤ Real.pi / 2 * ‖Complex.exp (d * Complex.I) - Complex.exp (e * Complex.I)‖ := by
  have hpi := Real.pi_pos
  have hn : ‖Complex.exp (d * Complex.I) - Complex.exp (e * Complex.I)‖ ^ 2 = (Real.cos d - Real.cos e) ^ 2 + (Real.sin d - Real.sin e) ^ 2 := by
    rw [← Complex.normSq_eq_norm_sq, Complex.normSq_apply, Complex.exp_mul_I, Complex.exp_mul_I]
    simp only [Complex.sub_re, Complex.sub_im, Complex.add_re, Complex.add_im, Complex.mul_re, Complex.mul_im, Complex.I_re, Complex.I_im, Complex.cos_ofReal_re,
      Complex.cos_ofReal_im, Complex.sin_ofReal_re, Complex.sin_ofReal_im]
    ring
  set x := |d| with hx
  set y := |e| with hy
  have x0 : 0 ≤ x := abs_nonneg _
  have y0 : 0 ≤ y := abs_nonneg _
  have xp : x ≤ Real.pi := abs_le.mpr ⟨h1.le, h2⟩
  have yp : y ≤ Real.pi := abs_le.mpr ⟨h3.le, h4⟩
  have cx : Real.cos x = Real.cos d := Real.cos_abs d
  have cy : Real.cos y = Real.cos e := Real.cos_abs e
  have sx : Real.sin x = |Real.sin d| := by
    rw [hx]
    rcases abs_cases d with ⟨h, h'⟩ | ⟨h, h'⟩ <;> rw [h]
    · rw [abs_of_nonneg (Real.sin_nonneg_of_nonneg_of_le_pi h' h2)]
    · rw [Real.sin_neg, abs_of_nonpos (Real.sin_nonpos_of_nonpos_of_neg_pi_le h'.le h1.le)]
  have sy : Real.sin y = |Real.sin e| := by
    rw [hy]
    rcases abs_cases e with ⟨h, h'⟩ | ⟨h, h'⟩ <;> rw [h]
    · rw [abs_of_nonneg (Real.sin_nonneg_of_nonneg_of_le_pi h' h4)]
    · rw [Real.sin_neg, abs_of_nonpos (Real.sin_nonpos_of_nonpos_of_neg_pi_le h'.le h3.le)]
  have hs : (Real.sin x - Real.sin y) ^ 2 ≤ (Real.sin d - Real.sin e) ^ 2 := by
    rw [sx, sy, ← sq_abs (Real.sin d - Real.sin e)]
    exact sq_le_sq' (by have := abs_abs_sub_abs_le_abs_sub (Real.sin d) (Real.sin e); have := (abs_le.mp this).1; linarith) (abs_sub_abs_le_abs_sub _ _)
  have hh : (Real.cos x - Real.cos y) ^ 2 + (Real.sin x - Real.sin y) ^ 2 = (2 * Real.sin (|x - y| / 2)) ^ 2 := by
    have e1 : Real.sin (|x - y| / 2) ^ 2 = 1 / 2 - Real.cos (x - y) / 2 := by
      rw [Real.sin_sq_eq_half_sub, mul_div_cancel₀ _ two_ne_zero, Real.cos_abs]
    rw [mul_pow, e1, Real.cos_sub]
    nlinarith [Real.sin_sq_add_cos_sq x, Real.sin_sq_add_cos_sq y]
  have hxy : |x - y| ≤ Real.pi := abs_le.mpr ⟨by linarith, by linarith⟩
  have hj : 2 / Real.pi * (|x - y| / 2) ≤ Real.sin (|x - y| / 2) := Real.mul_le_sin (by positivity) (by linarith)
  have hs0 : 0 ≤ Real.sin (|x - y| / 2) := le_trans (by positivity) hj
  have hk : 2 * Real.sin (|x - y| / 2) ≤ ‖Complex.exp (d * Complex.I) - Complex.exp (e * Complex.I)‖ := by
    refine abs_le_of_sq_le_sq' ?_ (norm_nonneg _) |>.2
    rw [hn, ← hh, cx, cy]
    linarith
  have : 2 / Real.pi * (|x - y| / 2) = |x - y| / Real.pi := by field_simp
  rw [this, div_le_iff₀ hpi] at hj
  nlinarith

end QM.DetectionFunction
