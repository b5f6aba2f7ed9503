import Verif.Kiss.RoundedWork
import Verif.Kiss.Props

/-!
# C83: the complex transform in double precision
-/

namespace QM.Kiss

open Complex QM.DFT QM.Double

/-- A C library whose `cos` and `sin` are within one unit in the last place of a number of size 1 for arguments up to 7. -/
structure Libm (cosF sinF : ℝ → ℝ) : Prop where
  cos : ∀ x, |x| ≤ 7 → |cosF x - Real.cos x| ≤ 2 / 2 ^ 53
  sin : ∀ x, |x| ≤ 7 → |sinF x - Real.sin x| ≤ 2 / 2 ^ 53

/-- Correctly rounded functions are such a library. -/
theorem libm_rn : Libm (fun x => rn (Real.cos x)) (fun x => rn (Real.sin x)) := by
  have key : ∀ y : ℝ, |y| ≤ 1 → |rn y - y| ≤ 2 / 2 ^ 53 := by
    intro y hy
    have h := rounds_rn y (hy.trans (le_trans (by norm_num) huge))
    have h1 := tiny
    have h2 := div_le_div_of_nonneg_right hy (show (0 : ℝ) ≤ 2 ^ 53 by norm_num)
    calc |rn y - y| ≤ |y| / 2 ^ 53 + 1 / 2 ^ 1075 := h
      _ ≤ 1 / 2 ^ 53 + 1 / 2 ^ 54 := add_le_add h2 h1
      _ ≤ 2 / 2 ^ 53 := by norm_num
  exact ⟨fun x _ => key _ (Real.abs_cos_le_one x), fun x _ => key _ (Real.abs_sin_le_one x)⟩

section

variable {fl : ℝ → ℝ} (hfl : Rounds fl)

include hfl in
/-- One rounding of a moderate number, in units of `2^-53`. -/
theorem rnd_mid (x X : ℝ) (hX : X ≤ 2 ^ 40) (hx : |x| ≤ X) : |fl x - x| ≤ (X + 1 / 2 ^ 10) / 2 ^ 53 := by
  have hbig : (2 : ℝ) ^ 40 ≤ 2 ^ 1023 := pow_le_pow_right₀ (by norm_num) (by norm_num)
  have h := hfl x (hx.trans (hX.trans hbig))
  have h1 : (1 : ℝ) / 2 ^ 1075 ≤ 1 / 2 ^ 63 :=
    one_div_le_one_div_of_le (by positivity) (pow_le_pow_right₀ (by norm_num) (by norm_num))
  have h2 := div_le_div_of_nonneg_right hx (show (0 : ℝ) ≤ 2 ^ 53 by norm_num)
  calc |fl x - x| ≤ |x| / 2 ^ 53 + 1 / 2 ^ 1075 := h
    _ ≤ X / 2 ^ 53 + 1 / 2 ^ 63 := add_le_add h2 h1
    _ = (X + 1 / 2 ^ 10) / 2 ^ 53 := by ring

include hfl in
theorem phaseF_near (n i : Nat) (inv : Bool) (hn : n ≤ 2147483647) (hi : i < n) :
    |phaseF fl n inv i - phase n inv i| ≤ 28 / 2 ^ 53 ∧ |phaseF fl n inv i| ≤ 7 := by
  have hpi1 := Real.pi_gt_three
  have hpi2 := Real.pi_lt_d2
  have hpi3 : Real.pi < 3.1416 := Real.pi_lt_d4
  have a0 := rnd_mid hfl Real.pi 3.1416 (by norm_num) (by rw [abs_le]; constructor <;> linarith)
  have hn0 : (0 : ℝ) < n := Nat.cast_pos.mpr (by omega)
  have hi0 : (0 : ℝ) ≤ i := Nat.cast_nonneg i
  have hin : (i : ℝ) ≤ n := Nat.cast_le.mpr (by omega)
  have hn31 : (n : ℝ) ≤ 2147483647 := by
    have : (n : ℝ) ≤ ((2147483647 : ℕ) : ℝ) := Nat.cast_le.mpr hn
    simpa using this
  rw [abs_le] at a0
  have b1 : |-2 * fl Real.pi - -2 * Real.pi| ≤ 6.3 / 2 ^ 53 := by
    rw [abs_le]; norm_num at a0 ⊢; constructor <;> linarith
  have b2 : |-2 * fl Real.pi| ≤ 6.2833 := by
    rw [abs_le]; norm_num at a0 ⊢; constructor <;> linarith
  have e2 : ∀ inv, phaseF fl n inv i = if inv then fl (fl (fl (-2 * fl Real.pi * i) / n) * -1)
      else fl (fl (-2 * fl Real.pi * i) / n) := fun inv => rfl
  generalize -2 * fl Real.pi = P at *
  have hn1 : (1 : ℝ) ≤ n := by
    have : ((1 : ℕ) : ℝ) ≤ n := Nat.cast_le.mpr (by omega)
    simpa using this
  have c1 : |P * i| ≤ 6.2833 * n := by
    rw [abs_mul, abs_of_nonneg hi0]
    exact mul_le_mul b2 hin hi0 (by norm_num)
  have c2 := rnd_mid hfl (P * i) (6.2833 * n) (by norm_num; linarith) c1
  have c3 : |fl (P * i) / n - P * i / n| ≤ 6.3 / 2 ^ 53 := by
    rw [← sub_div, abs_div, abs_of_pos hn0, div_le_iff₀ hn0]
    refine c2.trans ?_
    rw [div_mul_eq_mul_div]
    refine div_le_div_of_nonneg_right ?_ (by norm_num)
    norm_num
    linarith
  have hr : (i : ℝ) / n ≤ 1 := by rw [div_le_one hn0]; exact hin
  have hr0 : 0 ≤ (i : ℝ) / n := by positivity
  have c4 : |P * i / n - -2 * Real.pi * i / n| ≤ 6.3 / 2 ^ 53 := by
    have : P * i / n - -2 * Real.pi * i / n = (P - -2 * Real.pi) * (i / n) := by ring
    rw [this, abs_mul, abs_of_nonneg hr0]
    calc |P - -2 * Real.pi| * (i / n) ≤ 6.3 / 2 ^ 53 * 1 := mul_le_mul b1 hr hr0 (by norm_num)
      _ = _ := by ring
  have c5 : |-2 * Real.pi * i / n| ≤ 6.2832 := by
    rw [mul_div_assoc, abs_mul, abs_of_nonneg hr0]
    calc |-2 * Real.pi| * (i / n) ≤ 6.2832 * 1 := by
          refine mul_le_mul ?_ hr hr0 (by norm_num)
          rw [abs_le]; constructor <;> linarith
      _ = _ := by ring
  have c6 : |fl (P * i) / n - -2 * Real.pi * i / n| ≤ 12.6 / 2 ^ 53 := by
    have := abs_sub_le (fl (P * i) / n) (P * i / n) (-2 * Real.pi * i / n)
    calc _ ≤ _ := this
      _ ≤ 6.3 / 2 ^ 53 + 6.3 / 2 ^ 53 := add_le_add c3 c4
      _ = _ := by ring
  have c7 : |fl (P * i) / n| ≤ 6.2833 := by
    have := abs_le_of_sub _ _ _ _ c6 c5
    norm_num at this ⊢
    linarith
  have c8 := rnd_mid hfl (fl (P * i) / n) 6.2833 (by norm_num) c7
  have c9 : |fl (fl (P * i) / n) - -2 * Real.pi * i / n| ≤ 19 / 2 ^ 53 := by
    have := abs_sub_le (fl (fl (P * i) / n)) (fl (P * i) / n) (-2 * Real.pi * i / n)
    calc _ ≤ _ := this
      _ ≤ (6.2833 + 1 / 2 ^ 10) / 2 ^ 53 + 12.6 / 2 ^ 53 := add_le_add c8 c6
      _ ≤ _ := by norm_num
  have c10 : |fl (fl (P * i) / n)| ≤ 6.2834 := by
    have := abs_le_of_sub _ _ _ _ c9 c5
    norm_num at this ⊢
    linarith
  rw [e2 inv]
  cases inv
  · have e1 : phase n false i = -2 * Real.pi * i / n := by simp [phase]
    rw [e1]
    simp only [Bool.false_eq_true, if_false]
    exact ⟨c9.trans (by norm_num), c10.trans (by norm_num)⟩
  · have e1 : phase n true i = (-2 * Real.pi * i / n) * -1 := by simp only [phase, if_true]
    rw [e1]
    simp only [if_true]
    generalize fl (fl (P * i) / n) = Q at *
    have d1 : |Q * -1| ≤ 6.2834 := by rw [mul_neg_one, abs_neg]; exact c10
    have d2 := rnd_mid hfl (Q * -1) 6.2834 (by norm_num) d1
    have d3 : |Q * -1 - -2 * Real.pi * i / n * -1| ≤ 19 / 2 ^ 53 := by
      rw [← sub_mul, mul_neg_one, abs_neg]; exact c9
    have d4 : |fl (Q * -1) - -2 * Real.pi * i / n * -1| ≤ 28 / 2 ^ 53 := by
      have := abs_sub_le (fl (Q * -1)) (Q * -1) (-2 * Real.pi * i / n * -1)
      calc _ ≤ _ := this
        _ ≤ (6.2834 + 1 / 2 ^ 10) / 2 ^ 53 + 19 / 2 ^ 53 := add_le_add d2 d3
        _ ≤ _ := by norm_num
    refine ⟨d4, ?_⟩
    have := abs_le_of_sub _ _ _ _ d4 (show |-2 * Real.pi * i / n * -1| ≤ 6.2832 by rw [mul_neg_one, abs_neg]; exact c5)
    norm_num at this ⊢
    linarith

variable {cosF sinF : ℝ → ℝ} (hlib : Libm cosF sinF)

include hfl hlib in
theorem twiddleF_near (n i : Nat) (inv : Bool) (hn : n ≤ 2147483647) (hi : i < n) :
    TwNear ⟨cosF (phaseF fl n inv i), sinF (phaseF fl n inv i)⟩ (root inv n ^ i) := by
  obtain ⟨h1, h2⟩ := phaseF_near hfl n i inv hn hi
  rw [← twiddle_eq, kfCexp]
  have hc : |Real.cos (phaseF fl n inv i) - Real.cos (phase n inv i)| ≤ 28 / 2 ^ 53 :=
    (Real.abs_cos_sub_cos_le _ _).trans h1
  have hs : |Real.sin (phaseF fl n inv i) - Real.sin (phase n inv i)| ≤ 28 / 2 ^ 53 :=
    (Real.abs_sin_sub_sin_le _ _).trans h1
  constructor
  · have := abs_sub_le (cosF (phaseF fl n inv i)) (Real.cos (phaseF fl n inv i)) (Real.cos (phase n inv i))
    calc _ ≤ _ := this
      _ ≤ 2 / 2 ^ 53 + 28 / 2 ^ 53 := add_le_add (hlib.cos _ h2) hc
      _ ≤ _ := by norm_num
  · have := abs_sub_le (sinF (phaseF fl n inv i)) (Real.sin (phaseF fl n inv i)) (Real.sin (phase n inv i))
    calc _ ≤ _ := this
      _ ≤ 2 / 2 ^ 53 + 28 / 2 ^ 53 := add_le_add (hlib.sin _ h2) hs
      _ ≤ _ := by norm_num

/-- The radices are few and not larger than the size. -/
theorem radices_le : ∀ (fac : List (Nat × Nat)) (n : Nat), Chain n fac → radices fac ≤ fac.length * n := by
  intro fac
  induction fac with
  | nil => intro n h; exact h.elim
  | cons pm rest ih =>
    obtain ⟨p, m⟩ := pm
    intro n ⟨h1, h2, h3, h4⟩
    have hp : p ≤ n := by rw [← h1]; exact Nat.le_mul_of_pos_right p h3
    have hm : m ≤ n := by rw [← h1]; exact Nat.le_mul_of_pos_left m h2
    have hr : radices rest ≤ rest.length * n := by
      by_cases hm1 : m = 1
      · rw [if_pos hm1] at h4; subst h4; simp [radices]
      · rw [if_neg hm1] at h4
        exact (ih m h4).trans (Nat.mul_le_mul_left _ hm)
    have : radices ((p, m) :: rest) = p + radices rest := by simp [radices]
    rw [this, List.length_cons, Nat.add_mul, Nat.one_mul]
    omega

include hfl hlib in
/-- A plan is made for every size from 1 to `INT_MAX`, with rounded tables. -/
theorem allocF_ok (n : Nat) (inv : Bool) (h1 : 1 ≤ n) (h2 : n ≤ 2147483647) :
    ∃ st, allocF fl cosF sinF n inv = some st ∧ factor n = some st.factors ∧ PlanNear st n ∧ st.inverse = inv ∧
      Chain n st.factors ∧ 500 * radices st.factors ≤ 2 ^ 45 := by
  obtain ⟨fac, e1, e2, e3, _⟩ := C21_factorisation n h1 h2
  refine ⟨⟨n, inv, fac, (List.range n).map (fun i => ⟨cosF (phaseF fl n inv i), sinF (phaseF fl n inv i)⟩)⟩, ?_, e1,
    ⟨rfl, ?_⟩, rfl, e2, ?_⟩
  · simp [allocF, e1]
  · intro i hi
    exact ⟨_, by simp [hi], twiddleF_near hfl hlib n i inv h2 hi⟩
  · have := radices_le fac n e2
    have h3 : fac.length * n ≤ 32 * 2147483647 := Nat.mul_le_mul e3 h2
    simp only
    omega

include hfl hlib in
/-- The transform of a plan. -/
theorem fftF_ok (n : Nat) (inv : Bool) (h1 : 1 ≤ n) (h2 : n ≤ 2147483647) (st : Plan) (hp : PlanNear st n)
    (hinv : st.inverse = inv) (hc : Chain n st.factors) (hr : 500 * radices st.factors ≤ 2 ^ 45) (fin fout : List ℂ)
    (hi : n ≤ fin.length) (ho : n ≤ fout.length)
    (hs : ∑ j ∈ Finset.range n, (‖fin.getD j 0‖ + 1 / 2 ^ 1022) ≤ 2 ^ 1000) :
    ∃ out, fftF fl st fin fout = some out ∧ out.length = fout.length ∧
      (∀ k, k < n → ∃ v, out[k]? = some v ∧ ‖v - dft inv n (fun j => fin.getD j 0) k‖ ≤
        500 * radices st.factors / 2 ^ 53 * ∑ j ∈ Finset.range n, (‖fin.getD j 0‖ + 1 / 2 ^ 1022)) ∧
      (∀ k, n ≤ k → out[k]? = fout[k]?) := by
  have hsz : size fin n (1 * 1) 0 = ∑ j ∈ Finset.range n, (‖fin.getD j 0‖ + 1 / 2 ^ 1022) := by
    unfold size
    refine Finset.sum_congr rfl fun j _ => ?_
    simp only [get, kappa, Nat.zero_add, Nat.mul_one]
  obtain ⟨out, f1, f2, f3, f4⟩ := workF_ok hfl (fin := fin) (inStride := 1) hp (by omega) st.factors n 1 0 0 fout hc h2 hr
    (by simp) (by omega) (by intro j hj; omega) (by rw [hsz]; exact hs)
  refine ⟨out, f1, f2, fun k hk => ?_, fun k hk => f4 k (by omega)⟩
  obtain ⟨v, hv1, hv2⟩ := f3 k hk
  rw [Nat.zero_add] at hv1
  refine ⟨v, hv1, ?_⟩
  rw [hsz, hinv] at hv2
  rw [dft_eq]
  have he : ∑ j ∈ Finset.range n, get fin (0 + j * (1 * 1)) * root inv n ^ (1 * j * k) =
      ∑ j ∈ Finset.range n, fin.getD j 0 * root inv n ^ (j * k) :=
    Finset.sum_congr rfl fun j _ => by simp [get]
  rw [he] at hv2
  refine hv2.trans (le_of_eq ?_)
  ring

include hfl hlib in
/-- **C83** (`kiss_fft`): in double precision the transform of every size from 1 to `INT_MAX` stays within
`500 · r · 2^-53 · Σ (|x_j| + 2^-1022)` of the discrete Fourier transform, where `r` is the sum of the radices of the plan, for
every input whose sum of sizes is at most `2^1000`; nothing is read out of bounds and nothing beyond the results is written. -/
theorem C83_fft_rounding (n : Nat) (inv : Bool) (h1 : 1 ≤ n) (h2 : n ≤ 2147483647) (fin fout : List ℂ)
    (hi : n ≤ fin.length) (ho : n ≤ fout.length)
    (hs : ∑ j ∈ Finset.range n, (‖fin.getD j 0‖ + 1 / 2 ^ 1022) ≤ 2 ^ 1000) :
    ∃ fac st out, factor n = some fac ∧ allocF fl cosF sinF n inv = some st ∧ fftF fl st fin fout = some out ∧
      out.length = fout.length ∧
      (∀ k, k < n → ∃ v, out[k]? = some v ∧ ‖v - dft inv n (fun j => fin.getD j 0) k‖ ≤
        500 * (fac.map (·.1)).sum / 2 ^ 53 * ∑ j ∈ Finset.range n, (‖fin.getD j 0‖ + 1 / 2 ^ 1022)) ∧
      (∀ k, n ≤ k → out[k]? = fout[k]?) := by
  obtain ⟨st, e1, e0, e2, e3, e4, e5⟩ := allocF_ok hfl hlib n inv h1 h2
  obtain ⟨out, f1, f2, f3, f4⟩ := fftF_ok hfl hlib n inv h1 h2 st e2 e3 e4 e5 fin fout hi ho hs
  exact ⟨st.factors, st, out, e0, e1, f1, f2, f3, f4⟩

theorem nextRadix_four (fs n : Nat) (h : n % 4 = 0) : nextRadix fs n 4 = 4 := by rw [nextRadix, if_pos h]

theorem factorFrom_pow (fs : Nat) : ∀ (k cap : Nat), 1 ≤ k → k ≤ cap →
    ∃ fac, factorFrom fs cap (2 ^ k) 4 = some fac ∧ radices fac = 2 * k := by
  intro k
  induction k using Nat.strong_induction_on with
  | _ k ih =>
    intro cap hk hcap
    obtain ⟨cap, rfl⟩ : ∃ c, cap = c + 1 := ⟨cap - 1, by omega⟩
    by_cases h1 : k = 1
    · subst h1
      have hn : nextRadix fs 2 4 = 2 := by
        rw [nextRadix, if_neg (by decide)]
        have : bump fs 2 4 = 2 := by simp [bump]
        rw [this, nextRadix, if_pos (by decide)]
      exact ⟨[(2, 1)], by simp [factorFrom, hn], by simp [radices]⟩
    · obtain ⟨j, rfl⟩ : ∃ j, k = j + 2 := ⟨k - 2, by omega⟩
      have e : 2 ^ (j + 2) = 4 * 2 ^ j := by rw [pow_add]; ring
      have hn := nextRadix_four fs (2 ^ (j + 2)) (by rw [e]; simp)
      have hd : 2 ^ (j + 2) / 4 = 2 ^ j := by rw [e, Nat.mul_div_cancel_left _ (by norm_num)]
      by_cases h0 : j = 0
      · subst h0
        have hn' : nextRadix fs 4 4 = 4 := nextRadix_four fs 4 (by decide)
        exact ⟨[(4, 1)], by simp [factorFrom, hn'], by simp [radices]⟩
      · obtain ⟨fac, g1, g2⟩ := ih j (by omega) cap (by omega) (by omega)
        have hgt : 2 ^ j > 1 := Nat.one_lt_two_pow h0
        refine ⟨(4, 2 ^ j) :: fac, ?_, ?_⟩
        · simp only [factorFrom, hn, hd, if_pos hgt, g1, Option.map_some]
        · have : radices ((4, 2 ^ j) :: fac) = 4 + radices fac := by simp [radices]
          rw [this, g2]; ring

include hfl hlib in
/-- **C83** for the sizes the library uses: a transform of size `2^k` stays within `1000 · k · 2^-53` of the sum of the sizes of the
inputs. -/
theorem C83_power_of_two (k : Nat) (inv : Bool) (h1 : 1 ≤ k) (h2 : k ≤ 30) (fin fout : List ℂ)
    (hi : 2 ^ k ≤ fin.length) (ho : 2 ^ k ≤ fout.length)
    (hs : ∑ j ∈ Finset.range (2 ^ k), (‖fin.getD j 0‖ + 1 / 2 ^ 1022) ≤ 2 ^ 1000) :
    ∃ st out, allocF fl cosF sinF (2 ^ k) inv = some st ∧ fftF fl st fin fout = some out ∧
      (∀ i, i < 2 ^ k → ∃ v, out[i]? = some v ∧ ‖v - dft inv (2 ^ k) (fun j => fin.getD j 0) i‖ ≤
        1000 * k / 2 ^ 53 * ∑ j ∈ Finset.range (2 ^ k), (‖fin.getD j 0‖ + 1 / 2 ^ 1022)) := by
  have hle : 2 ^ k ≤ 2147483647 := le_trans (Nat.pow_le_pow_right (by norm_num) h2) (by norm_num)
  obtain ⟨fac, st, out, e1, e2, e3, _, e4, _⟩ := C83_fft_rounding hfl hlib (2 ^ k) inv Nat.one_le_two_pow hle fin fout hi ho hs
  obtain ⟨fac', g1, g2⟩ := factorFrom_pow (Nat.sqrt (2 ^ k)) k 32 h1 (by omega)
  have : fac = fac' := by
    rw [factor, g1] at e1
    exact (Option.some.inj e1).symm
  subst this
  refine ⟨st, out, e2, e3, fun i hi => ?_⟩
  obtain ⟨v, hv1, hv2⟩ := e4 i hi
  refine ⟨v, hv1, hv2.trans (le_of_eq ?_)⟩
  have : (((fac.map (·.1)).sum : ℕ) : ℝ) = 2 * k := by
    have h : ((radices fac : ℕ) : ℝ) = ((2 * k : ℕ) : ℝ) := by rw [g2]
    push_cast at h
    exact h
  rw [this]
  ring

end

/-- Four numbers, in IEEE arithmetic with correctly rounded cosine and sine: every result is within `2^-38` of the transform. -/
example : ∃ st out, allocF rn (fun x => rn (Real.cos x)) (fun x => rn (Real.sin x)) (2 ^ 2) false = some st ∧
    fftF rn st [1, I, -1, 2] [0, 0, 0, 0] = some out ∧
    ∀ i, i < 2 ^ 2 → ∃ v, out[i]? = some v ∧
      ‖v - dft false (2 ^ 2) (fun j => ([1, I, -1, 2] : List ℂ).getD j 0) i‖ ≤ 1 / 2 ^ 38 := by
  have hk : (1 : ℝ) / 2 ^ 1022 ≤ 1 := by
    rw [div_le_one (by positivity)]; exact one_le_pow₀ (by norm_num)
  have hk0 : (0 : ℝ) ≤ 1 / 2 ^ 1022 := by positivity
  have hS : ∑ j ∈ Finset.range (2 ^ 2), (‖([1, I, -1, 2] : List ℂ).getD j 0‖ + 1 / 2 ^ 1022) =
      5 + 4 * (1 / 2 ^ 1022) := by
    simp [Finset.sum_range_succ]
    ring
  obtain ⟨st, out, h1, h2, h3⟩ := C83_power_of_two rounds_rn libm_rn 2 false (by norm_num) (by norm_num)
    [1, I, -1, 2] [0, 0, 0, 0] (by simp) (by simp) (by
      rw [hS]
      exact le_trans (by linarith) (le_trans (by norm_num : (9 : ℝ) ≤ 2 ^ 4) (pow_le_pow_right₀ (by norm_num) (by norm_num))))
  refine ⟨st, out, h1, h2, fun i hi => ?_⟩
  obtain ⟨v, hv1, hv2⟩ := h3 i hi
  refine ⟨v, hv1, hv2.trans ?_⟩
  rw [hS]
  calc (1000 : ℝ) * (2 : ℕ) / 2 ^ 53 * (5 + 4 * (1 / 2 ^ 1022)) ≤ 1000 * (2 : ℕ) / 2 ^ 53 * 9 :=
        mul_le_mul_of_nonneg_left (by linarith) (by norm_num)
    _ ≤ 1 / 2 ^ 38 := by norm_num

end QM.Kiss
