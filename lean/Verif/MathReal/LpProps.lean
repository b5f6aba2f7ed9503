import Verif.MathReal.Props
import Mathlib.Analysis.SpecialFunctions.Pow.Real

/-!
# C54: Lp normalisation (`getLpNorm`, `normaliseLp`, `getAlphaNorm`)
-/

namespace QM.MathReal

/-- The p-norm as usually written. -/
noncomputable def pNorm (v : List ℝ) (p : Nat) : ℝ := ((v.map (fun x => |x| ^ p)).sum) ^ ((1 : ℝ) / p)

theorem foldl_add_map (f : ℝ → ℝ) (l : List ℝ) (a : ℝ) :
    l.foldl (fun t x => t + f x) a = a + (l.map f).sum := by
  induction l generalizing a with
  | nil => simp
  | cons x l ih => simp only [List.foldl_cons, List.map_cons, List.sum_cons, ih]; ring

/-- C54. `getLpNorm` is the p-norm. -/
theorem C54_getLpNorm (v : List ℝ) (p : Nat) : getLpNorm v p = pNorm v p := by
  unfold getLpNorm pNorm
  rw [foldl_add_map (fun x => |x ^ p|), zero_add]
  simp [abs_pow]

theorem sum_pow_nonneg (v : List ℝ) (p : Nat) : 0 ≤ (v.map (fun x => |x| ^ p)).sum :=
  List.sum_nonneg (by intro x hx; obtain ⟨y, _, rfl⟩ := List.mem_map.mp hx; positivity)

theorem pNorm_pow (v : List ℝ) (p : Nat) (hp : p ≠ 0) :
    pNorm v p ^ p = (v.map (fun x => |x| ^ p)).sum := by
  unfold pNorm
  rw [one_div, Real.rpow_inv_natCast_pow (sum_pow_nonneg v p) hp]

/-- C54. For any non-empty vector, `p ≥ 1` and positive threshold, `normaliseLp` returns a vector of
the same length whose p-norm is exactly 1 (including the "below threshold" fallback). -/
theorem C54_normaliseLp_unit (v : List ℝ) (p : Nat) (th : ℝ) (hv : v ≠ []) (hp : p ≠ 0)
    (hth : 0 < th) :
    pNorm (normaliseLp v p th) p = 1 ∧ (normaliseLp v p th).length = v.length := by
  have hn : v.length ≠ 0 := by simpa using hv
  have hnpos : (0 : ℝ) < v.length := by exact_mod_cast Nat.pos_of_ne_zero hn
  unfold normaliseLp
  simp only [hn, hp, or_self, if_false]
  rw [C54_getLpNorm]
  split
  · refine ⟨?_, by simp⟩
    unfold pNorm
    rw [List.map_replicate, List.sum_replicate, nsmul_eq_mul]
    have hpos : (0:ℝ) < (v.length : ℝ) ^ ((1 : ℝ) / p) := Real.rpow_pos_of_pos hnpos _
    rw [abs_of_pos (by positivity), div_pow, one_pow]
    rw [one_div, one_div, Real.rpow_inv_natCast_pow hnpos.le hp, mul_inv_cancel₀ hnpos.ne',
      Real.one_rpow]
  · next h =>
    rw [not_lt] at h
    have hpos : 0 < pNorm v p := lt_of_lt_of_le hth h
    refine ⟨?_, by simp⟩
    have : ((v.map (· / pNorm v p)).map (fun x => |x| ^ p)).sum = 1 := by
      rw [List.map_map]
      have : ((fun x => |x| ^ p) ∘ (· / pNorm v p)) = fun x : ℝ => (|x| ^ p) / (pNorm v p ^ p) := by
        funext x
        simp only [Function.comp, abs_div, div_pow, abs_of_pos hpos]
      rw [this]
      have h2 := sum_map_div (v.map (fun x => |x| ^ p)) (pNorm v p ^ p)
      rw [List.map_map] at h2
      have h3 : ((· / pNorm v p ^ p) ∘ fun x : ℝ => |x| ^ p) = fun x : ℝ => (|x| ^ p) / (pNorm v p ^ p) := rfl
      rw [h3] at h2
      rw [h2, ← pNorm_pow v p hp, div_self (pow_pos hpos p).ne']
    show ((v.map (· / pNorm v p)).map (fun x => |x| ^ p)).sum ^ ((1 : ℝ) / p) = 1
    rw [this, Real.one_rpow]

/-- C54. Above the threshold the direction is kept: one positive factor for all elements. -/
theorem C54_normaliseLp_scale (v : List ℝ) (p : Nat) (th : ℝ) (hv : v ≠ []) (hp : p ≠ 0)
    (hth : th ≤ pNorm v p) : normaliseLp v p th = v.map (· / pNorm v p) := by
  have hn : v.length ≠ 0 := by simpa using hv
  unfold normaliseLp
  simp only [hn, hp, or_self, if_false]
  rw [C54_getLpNorm, if_neg (not_lt.mpr hth)]

/-- C54. Empty vector or `p = 0`: unchanged. -/
theorem C54_normaliseLp_skip (v : List ℝ) (p : Nat) (th : ℝ) (h : v = [] ∨ p = 0) :
    normaliseLp v p th = v := by
  unfold normaliseLp
  rcases h with rfl | rfl <;> simp

example : ([3, -4] : List ℝ) ≠ [] ∧ pNorm [3, -4] 2 = 5 := by
  refine ⟨by simp, ?_⟩
  unfold pNorm
  have : ([3, -4] : List ℝ).map (fun x => |x| ^ 2) = [9, 16] := by norm_num
  rw [this]
  have h2 : ([9, 16] : List ℝ).sum = 5 ^ 2 := by norm_num
  rw [h2, one_div, Real.pow_rpow_inv_natCast (by norm_num) (by norm_num)]

/-- C54. `getAlphaNorm` is the p-norm of the block scaled by `length^(-1/alpha)`: the power mean of
the magnitudes. It lies between the smallest and the largest magnitude. -/
theorem C54_getAlphaNorm_bounds (v : List ℝ) (a : Nat) (ha : a ≠ 0) (hv : v ≠ []) (lo hi : ℝ)
    (hlo : 0 ≤ lo) (hb : ∀ x ∈ v, lo ≤ |x| ∧ |x| ≤ hi) :
    ∃ r, getAlphaNorm v a = some r ∧ lo ≤ r ∧ r ≤ hi := by
  have hn : v.length ≠ 0 := by simpa using hv
  have hnpos : (0 : ℝ) < v.length := by exact_mod_cast Nat.pos_of_ne_zero hn
  have hhi : 0 ≤ hi := by
    obtain ⟨x, hx⟩ := List.exists_mem_of_ne_nil v hv
    exact le_trans (abs_nonneg x) (hb x hx).2
  refine ⟨((v.foldl (fun b x => b + |x| ^ (a : ℝ)) 0) / (v.length : ℝ)) ^ ((1 : ℝ) / a),
    by unfold getAlphaNorm; simp only [hn, ha, or_self, if_false], ?_⟩
  rw [foldl_add_map (fun x => |x| ^ (a : ℝ)), zero_add]
  have hs : ∀ l : List ℝ, (∀ x ∈ l, lo ≤ |x| ∧ |x| ≤ hi) →
      l.length * lo ^ a ≤ (l.map (fun x => |x| ^ (a : ℝ))).sum ∧
      (l.map (fun x => |x| ^ (a : ℝ))).sum ≤ l.length * hi ^ a := by
    intro l
    induction l with
    | nil => intro _; simp
    | cons x l ih =>
      intro h
      obtain ⟨h1, h2⟩ := ih (fun y hy => h y (by simp [hy]))
      obtain ⟨h3, h4⟩ := h x (by simp)
      have h5 : lo ^ a ≤ |x| ^ a := pow_le_pow_left₀ hlo h3 a
      have h6 : |x| ^ a ≤ hi ^ a := pow_le_pow_left₀ (abs_nonneg x) h4 a
      simp only [List.map_cons, List.sum_cons, List.length_cons, Real.rpow_natCast] at h1 h2 ⊢
      push_cast
      constructor <;> linarith [add_mul (l.length : ℝ) 1 (lo ^ a), add_mul (l.length : ℝ) 1 (hi ^ a)]
  obtain ⟨h1, h2⟩ := hs v hb
  have hinv : (0:ℝ) ≤ 1 / (a : ℝ) := by positivity
  constructor
  · calc lo = (lo ^ a) ^ ((1 : ℝ) / a) := by rw [one_div, Real.pow_rpow_inv_natCast hlo ha]
      _ ≤ _ := Real.rpow_le_rpow (by positivity) (by rw [le_div_iff₀ hnpos]; linarith) hinv
  · calc _ ≤ (hi ^ a) ^ ((1 : ℝ) / a) :=
          Real.rpow_le_rpow (div_nonneg (le_trans (by positivity) h1) hnpos.le)
            (by rw [div_le_iff₀ hnpos]; linarith) hinv
      _ = hi := by rw [one_div, Real.pow_rpow_inv_natCast hhi ha]

end QM.MathReal
