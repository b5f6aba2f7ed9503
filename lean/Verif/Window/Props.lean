import Verif.Window.Model
import Verif.Common.Fill
import Verif.MathInt.Props
import Mathlib.Analysis.SpecialFunctions.Trigonometric.Bounds
import Mathlib.Tactic.Linarith
import Mathlib.Tactic.FieldSimp

namespace QM.Window

/-! ## The shapes -/

/-- The documented shape of each window: value `i` of a window of length `n`. -/
noncomputable def shape (ty : WindowType) (n i : Nat) : ℝ :=
  let θ := 2 * Real.pi * i / n
  match ty with
  | .rectangular => 1 / 2
  | .hanning => if n ≤ 1 then 1 else (1 - Real.cos θ) / 2
  | .hamming => if n ≤ 1 then 1 else 0.54 - 0.46 * Real.cos θ
  | .blackman => if n ≤ 1 then 1 else 0.42 - 0.5 * Real.cos θ + 0.08 * Real.cos (2 * θ)
  | .blackmanHarris =>
    if n ≤ 1 then 1 else 0.35875 - 0.48829 * Real.cos θ + 0.14128 * Real.cos (2 * θ) - 0.01168 * Real.cos (3 * θ)
  | .bartlett =>
    if n ≤ 1 then 1 else if n = 2 then 0 else if n = 3 then (if i = 0 then 0 else 2 / 3)
    else if i ≤ n / 2 then i / ((n / 2 : Nat) : ℝ) else ((n - i : Nat) : ℝ) / ((n / 2 : Nat) : ℝ)

theorem scale_ok {n : Nat} (g : Nat → ℝ) (mult : List ℝ) (hl : mult.length = n) (h1 : ∀ i : Nat, i < n → mult[i]? = some 1) :
    ∃ l, scale n g mult = some l ∧ l.length = n ∧ ∀ i : Nat, i < n → l[i]? = some (g i) := by
  obtain ⟨l, a1, a2, a3, _⟩ := fill_ok n (fun i mult => do
      let v ← mult[i]?
      wr mult i (v * g i)) g mult (by omega)
    (by
      intro i b hin hb hs _
      simp only [hs i (le_refl i), h1 i hin, Option.bind_eq_bind, Option.bind_some, one_mul]
      rw [wr_some _ (by omega)])
  exact ⟨l, a1, by omega, a3⟩

theorem encache_ok (ty : WindowType) (n : Nat) :
    ∃ l, encache ty n = some l ∧ l.length = n ∧ ∀ i : Nat, i < n → l[i]? = some (shape ty n i) := by
  obtain ⟨m, a1, a2, a3, _⟩ := fill_ok n (fun i mult => wr mult i (1 : ℝ)) (fun _ => 1) (List.replicate n 0) (by simp)
    (by
      intro i b hin hb _ _
      rw [List.length_replicate] at hb
      rw [wr_some _ (by omega)])
  rw [List.length_replicate] at a2
  have small : ∀ x : Nat → ℝ, n ≤ 1 → (∀ i, i < n → x i = 1) →
      ∃ l, some m = some l ∧ l.length = n ∧ ∀ i : Nat, i < n → l[i]? = some (x i) :=
    fun x _ hx => ⟨m, rfl, a2, fun i hi => by rw [a3 i hi, hx i hi]⟩
  unfold encache
  simp only [a1, Option.bind_eq_bind, Option.bind_some]
  cases ty with
  | rectangular =>
    obtain ⟨l, b1, b2, b3⟩ := scale_ok (fun _ => (0.5 : ℝ)) m a2 a3
    exact ⟨l, b1, b2, fun i hi => by rw [b3 i hi]; simp only [shape]; norm_num⟩
  | hamming =>
    simp only
    split_ifs with h
    · obtain ⟨l, b1, b2, b3⟩ := scale_ok (fun i : Nat => 0.54 - 0.46 * Real.cos (2 * Real.pi * i / n)) m a2 a3
      exact ⟨l, b1, b2, fun i hi => by rw [b3 i hi]; simp only [shape]; rw [if_neg (by omega)]⟩
    · exact small _ (by omega) fun i hi => by simp only [shape]; rw [if_pos (by omega)]
  | hanning =>
    simp only
    split_ifs with h
    · obtain ⟨l, b1, b2, b3⟩ := scale_ok (fun i : Nat => 0.50 - 0.50 * Real.cos (2 * Real.pi * i / n)) m a2 a3
      exact ⟨l, b1, b2, fun i hi => by rw [b3 i hi]; simp only [shape]; rw [if_neg (by omega)]; congr 1; ring⟩
    · exact small _ (by omega) fun i hi => by simp only [shape]; rw [if_pos (by omega)]
  | blackman =>
    simp only
    split_ifs with h
    · obtain ⟨l, b1, b2, b3⟩ := scale_ok
        (fun i : Nat => 0.42 - 0.50 * Real.cos (2 * Real.pi * i / n) + 0.08 * Real.cos (4 * Real.pi * i / n)) m a2 a3
      refine ⟨l, b1, b2, fun i hi => ?_⟩
      rw [b3 i hi]; simp only [shape]; rw [if_neg (by omega)]
      rw [show 2 * (2 * Real.pi * i / n) = 4 * Real.pi * i / n by ring]; congr 1; ring
    · exact small _ (by omega) fun i hi => by simp only [shape]; rw [if_pos (by omega)]
  | blackmanHarris =>
    simp only
    split_ifs with h
    · obtain ⟨l, b1, b2, b3⟩ := scale_ok (fun i : Nat => 0.35875 - 0.48829 * Real.cos (2 * Real.pi * i / n)
      + 0.14128 * Real.cos (4 * Real.pi * i / n) - 0.01168 * Real.cos (6 * Real.pi * i / n)) m a2 a3
      refine ⟨l, b1, b2, fun i hi => ?_⟩
      rw [b3 i hi]; simp only [shape]; rw [if_neg (by omega)]
      rw [show 2 * (2 * Real.pi * i / n) = 4 * Real.pi * i / n by ring, show 3 * (2 * Real.pi * i / n) = 6 * Real.pi * i / n by ring]
    · exact small _ (by omega) fun i hi => by simp only [shape]; rw [if_pos (by omega)]
  | bartlett =>
    simp only
    by_cases h2 : n = 2
    · subst h2
      rw [if_pos rfl, wr_some _ (by omega)]
      simp only [Option.bind_some]
      rw [wr_some _ (by simp; omega)]
      refine ⟨_, rfl, by simp [a2], ?_⟩
      intro i hi
      have : i = 0 ∨ i = 1 := by omega
      rcases this with rfl | rfl
      · rw [List.getElem?_set_self (by simp; omega)]; simp [shape]
      · rw [List.getElem?_set_ne (by omega), List.getElem?_set_self (by omega)]; simp [shape]
    rw [if_neg h2]
    by_cases h3 : n = 3
    · subst h3
      rw [if_pos rfl, wr_some _ (by omega)]
      simp only [Option.bind_some]
      rw [wr_some _ (by simp; omega)]
      simp only [Option.bind_some]
      rw [wr_some _ (by simp; omega)]
      refine ⟨_, rfl, by simp [a2], ?_⟩
      intro i hi
      have : i = 0 ∨ i = 1 ∨ i = 2 := by omega
      rcases this with rfl | rfl | rfl
      · rw [List.getElem?_set_ne (by omega), List.getElem?_set_ne (by omega), List.getElem?_set_self (by omega)]; simp [shape]
      · rw [List.getElem?_set_self (by simp; omega)]; simp [shape]
      · rw [List.getElem?_set_ne (by omega), List.getElem?_set_self (by simp; omega)]; simp [shape]
    rw [if_neg h3]
    by_cases h4 : n > 3
    · rw [if_pos h4]
      obtain ⟨l, b1, b2, b3, b4, b5⟩ := loop_inv (n := n / 2) (s := m) (f := fun i mult => do
          let v ← mult[i]?
          let mult ← wr mult i (v * (i / ((n / 2 : Nat) : ℝ)))
          let w ← mult[i + n - n / 2]?
          wr mult (i + n - n / 2) (w * (1 - (i / ((n / 2 : Nat) : ℝ)))))
        (P := fun i l => l.length = n ∧ (∀ j : Nat, j < i → l[j]? = some (j / ((n / 2 : Nat) : ℝ))) ∧
          (∀ j : Nat, j < i → l[j + n - n / 2]? = some (1 - (j / ((n / 2 : Nat) : ℝ)))) ∧
          (∀ j : Nat, j < n → i ≤ j → ¬(n - n / 2 ≤ j ∧ j < i + n - n / 2) → l[j]? = some 1))
        ⟨a2, fun j hj => absurd hj (Nat.not_lt_zero j), fun j hj => absurd hj (Nat.not_lt_zero j), fun j hj _ _ => a3 j hj⟩
        (by
          rintro i l hi ⟨hl, hx, hy, hz⟩
          refine ⟨(l.set i (i / ((n / 2 : Nat) : ℝ))).set (i + n - n / 2) (1 - (i / ((n / 2 : Nat) : ℝ))), ?_, by simp [hl], ?_, ?_, ?_⟩
          · simp only [hz i (by omega) (le_refl i) (by omega), Option.bind_eq_bind, Option.bind_some, one_mul]
            rw [wr_some _ (by omega)]
            simp only [Option.bind_some]
            rw [List.getElem?_set_ne (by omega), hz (i + n - n / 2) (by omega) (by omega) (by omega)]
            simp only [Option.bind_some, one_mul]
            rw [wr_some _ (by simp; omega)]
          · intro j hj
            rw [List.getElem?_set_ne (by omega)]
            by_cases e : j = i
            · subst e; rw [List.getElem?_set_self (by omega)]
            · rw [List.getElem?_set_ne (by omega)]; exact hx j (by omega)
          · intro j hj
            by_cases e : j = i
            · subst e; rw [List.getElem?_set_self (by simp; omega)]
            · rw [List.getElem?_set_ne (by omega), List.getElem?_set_ne (by omega)]; exact hy j (by omega)
          · intro j hj hj' hj''
            rw [List.getElem?_set_ne (by omega), List.getElem?_set_ne (by omega)]
            exact hz j hj (by omega) (by omega))
      simp only [Option.bind_eq_bind] at b1
      refine ⟨l, b1, b2, fun i hi => ?_⟩
      have hh : ((n / 2 : Nat) : ℝ) ≠ 0 := by exact_mod_cast (show n / 2 ≠ 0 by omega)
      simp only [shape]
      rw [if_neg (by omega), if_neg h2, if_neg h3]
      by_cases e1 : i < n / 2
      · rw [if_pos (by omega), b3 i e1]
      · by_cases e2 : n - n / 2 ≤ i
        · obtain ⟨j, rfl⟩ : ∃ j, i = j + n - n / 2 := ⟨i - (n - n / 2), by omega⟩
          rw [b4 j (by omega)]
          congr 1
          by_cases e3 : j + n - n / 2 ≤ n / 2
          · rw [if_pos e3, show j = 0 by omega, show 0 + n - n / 2 = n / 2 by omega]
            field_simp; simp
          · rw [if_neg e3]
            rw [show n - (j + n - n / 2) = n / 2 - j by omega, Nat.cast_sub (by omega)]
            field_simp
        · rw [b5 i hi (by omega) (by omega), if_pos (by omega), show i = n / 2 by omega]
          congr 1
          field_simp
    · rw [if_neg h4]
      exact small _ (by omega) fun i hi => by simp only [shape]; rw [if_pos (by omega)]

/-! ## C50 -/

/-- C50: constructing a window of any type and length stays inside its array and gives the documented shape. -/
theorem C50_window_shape (ty : WindowType) (n : Nat) :
    ∃ l, encache ty n = some l ∧ l.length = n ∧ ∀ i : Nat, i < n → l[i]? = some (shape ty n i) := encache_ok ty n

theorem cos_sym (n i m : Nat) (hi : i ≤ n) (hn : n ≠ 0) :
    Real.cos (m * (2 * Real.pi * ((n - i : Nat) : ℝ) / n)) = Real.cos (m * (2 * Real.pi * i / n)) := by
  have hn' : (n : ℝ) ≠ 0 := by exact_mod_cast hn
  rw [Nat.cast_sub hi, show (m : ℝ) * (2 * Real.pi * ((n : ℝ) - i) / n) = m * (2 * Real.pi) - m * (2 * Real.pi * i / n) by
    field_simp, Real.cos_nat_mul_two_pi_sub]

/-- C50: every window type is periodic-symmetric: `w[i] = w[n - i]`. -/
theorem C50_window_symmetric (ty : WindowType) (n : Nat) (l : List ℝ) (h : encache ty n = some l) (i : Nat) (h0 : 0 < i) (h1 : i < n) :
    l[i]? = l[n - i]? ∧ ∃ v, l[i]? = some v := by
  obtain ⟨l', e1, e2, e3⟩ := encache_ok ty n
  rw [e1] at h; cases h
  rw [e3 i h1, e3 (n - i) (by omega)]
  refine ⟨?_, _, rfl⟩
  congr 1
  have c1 := cos_sym n i 1 (by omega) (by omega)
  have c2 := cos_sym n i 2 (by omega) (by omega)
  have c3 := cos_sym n i 3 (by omega) (by omega)
  simp only [Nat.cast_one, one_mul, Nat.cast_ofNat] at c1 c2 c3
  cases ty with
  | rectangular => simp [shape]
  | hamming => simp only [shape]; rw [c1]
  | hanning => simp only [shape]; rw [c1]
  | blackman => simp only [shape]; rw [c1, c2]
  | blackmanHarris => simp only [shape]; rw [c1, c2, c3]
  | bartlett =>
    simp only [shape]
    by_cases a1 : n ≤ 1
    · omega
    rw [if_neg a1, if_neg a1]
    by_cases a2 : n = 2
    · rw [if_pos a2, if_pos a2]
    rw [if_neg a2, if_neg a2]
    by_cases a3 : n = 3
    · rw [if_pos a3, if_pos a3, if_neg (by omega), if_neg (by omega)]
    rw [if_neg a3, if_neg a3]
    by_cases a4 : i ≤ n / 2
    · rw [if_pos a4]
      by_cases a5 : n - i ≤ n / 2
      · rw [if_pos a5, show n - i = i by omega]
      · rw [if_neg a5, show n - (n - i) = i by omega]
    · rw [if_neg a4, if_pos (by omega)]

/-- C50: all window values lie between 0 and 1; Hamming values are at least 0.08. -/
theorem C50_window_bounded (ty : WindowType) (n : Nat) (l : List ℝ) (h : encache ty n = some l) (v : ℝ) (hv : v ∈ l) :
    0 ≤ v ∧ v ≤ 1 ∧ (ty = .hamming → 0.08 ≤ v) := by
  obtain ⟨l', e1, e2, e3⟩ := encache_ok ty n
  rw [e1] at h; cases h
  obtain ⟨i, hi⟩ := List.mem_iff_getElem?.mp hv
  have hin : i < n := by have := lt_of_getElem?_some hi; omega
  rw [e3 i hin] at hi
  cases hi
  have d2 := Real.cos_two_mul (2 * Real.pi * i / n)
  have d3 := Real.cos_three_mul (2 * Real.pi * i / n)
  have l1 := Real.neg_one_le_cos (2 * Real.pi * i / n)
  have l2 := Real.cos_le_one (2 * Real.pi * i / n)
  have hn0 : (0 : ℝ) < n := by exact_mod_cast (show 0 < n by omega)
  cases ty with
  | rectangular => simp only [shape]; norm_num
  | hamming =>
    simp only [shape]
    split_ifs
    · norm_num
    · exact ⟨by linarith, by linarith, fun _ => by linarith⟩
  | hanning =>
    simp only [shape]
    split_ifs
    · norm_num
    · exact ⟨by linarith, by linarith, fun h => by cases h⟩
  | blackman =>
    simp only [shape]
    rw [d2]
    generalize Real.cos (2 * Real.pi * i / n) = c at l1 l2
    split_ifs
    · norm_num
    · exact ⟨by nlinarith, by nlinarith, fun h => by cases h⟩
  | blackmanHarris =>
    simp only [shape]
    rw [d2, d3]
    generalize Real.cos (2 * Real.pi * i / n) = c at l1 l2
    split_ifs
    · norm_num
    · have p1 : 0 ≤ (1 - c) * (c + 1) := mul_nonneg (by linarith) (by linarith)
      have p2 : 0 ≤ (1 - c) * (1 - c) := mul_nonneg (by linarith) (by linarith)
      have p3 : 0 ≤ (1 + c) * (1 + c) := mul_nonneg (by linarith) (by linarith)
      have p4 : 0 ≤ (1 - c) * ((1 - c) * (1 + c)) := mul_nonneg (by linarith) (by nlinarith)
      have p5 : 0 ≤ (1 + c) * ((1 - c) * (1 + c)) := mul_nonneg (by linarith) (by nlinarith)
      refine ⟨by nlinarith [mul_nonneg (show 0 ≤ 1 - c by linarith) p2], by nlinarith [mul_nonneg (show 0 ≤ 1 + c by linarith) p3], fun h => by cases h⟩
  | bartlett =>
    simp only [shape]
    split_ifs with a1 a2 a3 a4 a5
    · norm_num
    · norm_num
    · norm_num
    · norm_num
    · have hh : (0 : ℝ) < ((n / 2 : Nat) : ℝ) := by exact_mod_cast (show 0 < n / 2 by omega)
      refine ⟨by positivity, ?_, fun h => by cases h⟩
      rw [div_le_one hh]; exact_mod_cast a5
    · have hh : (0 : ℝ) < ((n / 2 : Nat) : ℝ) := by exact_mod_cast (show 0 < n / 2 by omega)
      refine ⟨by positivity, ?_, fun h => by cases h⟩
      rw [div_le_one hh]; exact_mod_cast (show n - i ≤ n / 2 by omega)

/-- C50: `cut` multiplies element by element and touches only the first `n` elements. -/
theorem C50_cut (n : Nat) (cache src dst : List ℝ) (h1 : n ≤ cache.length) (h2 : n ≤ src.length) (h3 : n ≤ dst.length) :
    ∃ d, cut n cache src dst = some d ∧ d.length = dst.length ∧
      (∀ i : Nat, i < n → ∃ s c, src[i]? = some s ∧ cache[i]? = some c ∧ d[i]? = some (s * c)) ∧
      (∀ i : Nat, n ≤ i → d[i]? = dst[i]?) := by
  have hs : ∀ i : Nat, i < n → src[i]? = some (src.getD i 0) := fun i hi => by
    simp [List.getElem?_eq_getElem (show i < src.length by omega)]
  have hc : ∀ i : Nat, i < n → cache[i]? = some (cache.getD i 0) := fun i hi => by
    simp [List.getElem?_eq_getElem (show i < cache.length by omega)]
  obtain ⟨d, a1, a2, a3, a4⟩ := fill_ok n (fun i dst => do
      let s ← src[i]?
      let c ← cache[i]?
      wr dst i (s * c)) (fun i => src.getD i 0 * cache.getD i 0) dst h3
    (by
      intro i b hin hb _ _
      simp only [hs i hin, hc i hin, Option.bind_eq_bind, Option.bind_some]
      rw [wr_some _ (by omega)])
  exact ⟨d, a1, a2, fun i hi => ⟨_, _, hs i hi, hc i hi, a3 i hi⟩, a4⟩

/-- C50: the in-place `cut` gives the same result as cutting into another array. -/
theorem C50_cut_in_place (n : Nat) (cache src : List ℝ) (h1 : n ≤ cache.length) (h2 : n ≤ src.length) :
    ∃ d, cutInPlace n cache src = some d ∧ cut n cache src src = some d := by
  have hs : ∀ i : Nat, i < n → src[i]? = some (src.getD i 0) := fun i hi => by
    simp [List.getElem?_eq_getElem (show i < src.length by omega)]
  have hc : ∀ i : Nat, i < n → cache[i]? = some (cache.getD i 0) := fun i hi => by
    simp [List.getElem?_eq_getElem (show i < cache.length by omega)]
  obtain ⟨d, a1, a2, a3, a4⟩ := fill_ok n (fun i dst => do
      let s ← src[i]?
      let c ← cache[i]?
      wr dst i (s * c)) (fun i => src.getD i 0 * cache.getD i 0) src h2
    (by
      intro i b hin hb _ _
      simp only [hs i hin, hc i hin, Option.bind_eq_bind, Option.bind_some]
      rw [wr_some _ (by omega)])
  obtain ⟨d', b1, b2, b3, b4⟩ := fill_ok n (fun i src => do
      let s ← src[i]?
      let c ← cache[i]?
      wr src i (s * c)) (fun i => src.getD i 0 * cache.getD i 0) src h2
    (by
      intro i b hin hb hsame _
      simp only [hsame i (le_refl i), hs i hin, hc i hin, Option.bind_eq_bind, Option.bind_some]
      rw [wr_some _ (by omega)])
  have : d = d' := by
    apply List.ext_getElem?
    intro i
    by_cases h : i < n
    · rw [a3 i h, b3 i h]
    · rw [a4 i (by omega), b4 i (by omega)]
  subst this
  exact ⟨d, b1, a1⟩

/-- C50: `getWindowData` returns the window. -/
theorem C50_window_data (ty : WindowType) (n : Nat) (l : List ℝ) (h : encache ty n = some l) : getWindowData n l = some l := by
  obtain ⟨l', e1, e2, e3⟩ := encache_ok ty n
  rw [e1] at h; cases h
  obtain ⟨d, a1, a2⟩ := loop_inv (n := n) (s := ([] : List ℝ)) (f := fun i d => do
      let c ← l[i]?
      pure (d ++ [c])) (P := fun i d => d = l.take i) (by simp)
    (by
      rintro i d hi rfl
      refine ⟨_, by simp only [List.getElem?_eq_getElem (show i < l.length by omega), Option.bind_eq_bind, Option.bind_some]; rfl, ?_⟩
      rw [List.take_add_one, List.getElem?_eq_getElem (show i < l.length by omega)]; rfl)
  rw [getWindowData, a1, a2, List.take_of_length_le (by omega)]

/-! ### Kaiser -/

theorem bessel_sum (x : ℝ) : bessel0 x = ∑ i ∈ Finset.range 20, ((x / 2) ^ i / (i.factorial : ℝ)) ^ 2 := by
  have hterm : ∀ i : Nat, besselTerm x i = ((x / 2) ^ i / (i.factorial : ℝ)) ^ 2 := by
    intro i
    unfold besselTerm
    split_ifs with h
    · subst h; simp
    · simp only
      rw [(MathInt.C02_factorial (i : Int)).1 i rfl, pow_mul, div_pow ((x / 2) ^ i), sq (i.factorial : ℝ)]
  have hl : ∀ m : Nat, (List.range m).foldl (fun b i => b + besselTerm x i) 0 = ∑ i ∈ Finset.range m, besselTerm x i := by
    intro m
    induction m with
    | zero => simp
    | succ m ih => rw [List.range_succ, List.foldl_append, ih, Finset.sum_range_succ]; simp
  rw [bessel0, hl]
  exact Finset.sum_congr rfl fun i _ => hterm i

theorem bessel_pos (x : ℝ) : 1 ≤ bessel0 x := by
  rw [bessel_sum, Finset.sum_range_succ']
  have : 0 ≤ ∑ i ∈ Finset.range 19, ((x / 2) ^ (i + 1) / ((i + 1).factorial : ℝ)) ^ 2 := Finset.sum_nonneg fun i _ => sq_nonneg _
  simp only [pow_zero, Nat.factorial_zero, Nat.cast_one, div_one, one_pow]
  linarith

theorem bessel_mono {x y : ℝ} (h : |x| ≤ |y|) : bessel0 x ≤ bessel0 y := by
  rw [bessel_sum, bessel_sum]
  refine Finset.sum_le_sum fun i _ => ?_
  rw [div_pow ((x / 2) ^ i), div_pow ((y / 2) ^ i), ← pow_mul, ← pow_mul, mul_comm i 2, pow_mul, pow_mul]
  apply div_le_div_of_nonneg_right _ (by positivity)
  apply pow_le_pow_left₀ (by positivity)
  rw [div_pow, div_pow]
  apply div_le_div_of_nonneg_right _ (by positivity)
  exact sq_le_sq.mpr h

/-- Value `i` of a Kaiser window (with the 20-term Bessel series of the code), for `i` up to the middle. -/
noncomputable def kaiserAt (n : Nat) (beta : ℝ) (i : Nat) : ℝ :=
  bessel0 (beta * Real.sqrt (1 - (2 * i / ((n : ℝ) - 1) - 1) ^ 2)) / bessel0 beta

theorem kaiserAt_sym (n : Nat) (beta : ℝ) (i : Nat) (h : 2 ≤ n) (hi : i < n) : kaiserAt n beta (n - 1 - i) = kaiserAt n beta i := by
  unfold kaiserAt
  have hn : (n : ℝ) - 1 ≠ 0 := by
    have : (2 : ℝ) ≤ n := by exact_mod_cast h
    linarith
  congr 5
  rw [Nat.cast_sub (by omega), Nat.cast_sub (by omega)]
  push_cast
  field_simp
  ring

theorem kaiser_ok (n : Nat) (beta : ℝ) (h : 2 ≤ n) :
    ∃ w, kaiser n beta = some w ∧ w.length = n ∧ ∀ i : Nat, i < n → w[i]? = some (kaiserAt n beta i) := by
  obtain ⟨h1, hh1⟩ : ∃ h1, h1 = if n % 2 = 0 then n / 2 else (n + 1) / 2 := ⟨_, rfl⟩
  obtain ⟨h2, hh2⟩ : ∃ h2, h2 = if n % 2 = 0 then n / 2 else (n - 1) / 2 := ⟨_, rfl⟩
  have e12 : h1 + h2 = n ∧ h2 ≤ h1 ∧ h2 = n / 2 := by
    by_cases e : n % 2 = 0
    · rw [if_pos e] at hh1 hh2; omega
    · rw [if_neg e] at hh1 hh2; omega
  have hcast : ((n - 1 : Nat) : ℝ) = (n : ℝ) - 1 := by rw [Nat.cast_sub (by omega)]; simp
  obtain ⟨w, a1, a2⟩ := loop_inv (n := h1) (s := ([] : List ℝ)) (f := fun i w =>
      if n = 1 then none
      else
        let k : ℝ := ((2 * i : Nat) : ℝ) / ((n - 1 : Nat) : ℝ) - 1
        some (w ++ [bessel0 (beta * Real.sqrt (1 - k * k)) / bessel0 beta]))
    (P := fun i w => w = (List.range i).map (kaiserAt n beta)) (by simp)
    (by
      rintro i w hi rfl
      refine ⟨_, by rw [if_neg (by omega)], ?_⟩
      rw [List.range_succ, List.map_append]
      simp only [List.map_cons, List.map_nil, kaiserAt]
      rw [hcast, sq]; push_cast; rfl)
  obtain ⟨v, b1, b2⟩ := loop_inv (n := h2) (s := w) (f := fun i w => do
      let v ← rdI w ((n / 2 : Nat) - (i : Int) - 1)
      pure (w ++ [v]))
    (P := fun i w => w = (List.range (h1 + i)).map (kaiserAt n beta)) (by simp [a2])
    (by
      rintro i w hi rfl
      have hidx : ((n / 2 : Nat) : Int) - (i : Int) - 1 = ((h2 - 1 - i : Nat) : Int) := by omega
      refine ⟨(List.range (h1 + (i + 1))).map (kaiserAt n beta), ?_, rfl⟩
      rw [hidx, rdI_natCast]
      have : ((List.range (h1 + i)).map (kaiserAt n beta))[h2 - 1 - i]? = some (kaiserAt n beta (h2 - 1 - i)) := by
        rw [List.getElem?_map, List.getElem?_range (by omega)]; rfl
      rw [this]
      simp only [Option.bind_eq_bind, Option.bind_some]
      rw [← Nat.add_assoc, List.range_succ, List.map_append]
      simp only [List.map_cons, List.map_nil]
      rw [← kaiserAt_sym n beta (h1 + i) h (by omega), show n - 1 - (h1 + i) = h2 - 1 - i by omega]
      rfl)
  refine ⟨v, ?_, by rw [b2]; simp; omega, ?_⟩
  · unfold kaiser
    simp only
    rw [← hh1, ← hh2, a1]
    exact b1
  · intro i hi
    rw [b2, List.getElem?_map, List.getElem?_range (by omega)]; rfl

/-- C50: a Kaiser window of length at least 2 is built without leaving its array, is symmetric, and its values are between 0
(exclusive) and 1; with an odd length the centre value is 1. Partial: length 1 fails, see `C50_kaiser_one_violation`. -/
theorem C50_kaiser_partial (n : Nat) (beta : ℝ) (h : 2 ≤ n) :
    ∃ w, kaiser n beta = some w ∧ w.length = n ∧ (∀ i : Nat, i < n → w[i]? = w[n - 1 - i]?) ∧
      (∀ v ∈ w, 0 < v ∧ v ≤ 1) ∧ (n % 2 = 1 → w[n / 2]? = some 1) := by
  obtain ⟨w, a1, a2, a3⟩ := kaiser_ok n beta h
  refine ⟨w, a1, a2, ?_, ?_, ?_⟩
  · intro i hi
    rw [a3 i hi, a3 (n - 1 - i) (by omega), kaiserAt_sym n beta i h hi]
  · intro v hv
    obtain ⟨i, hi⟩ := List.mem_iff_getElem?.mp hv
    have hin : i < n := by have := lt_of_getElem?_some hi; omega
    rw [a3 i hin] at hi
    cases hi
    have p1 := bessel_pos beta
    have p2 := bessel_pos (beta * Real.sqrt (1 - (2 * i / ((n : ℝ) - 1) - 1) ^ 2))
    refine ⟨div_pos (by linarith) (by linarith), ?_⟩
    rw [kaiserAt, div_le_one (by linarith)]
    apply bessel_mono
    rw [abs_mul, abs_of_nonneg (Real.sqrt_nonneg _)]
    have : Real.sqrt (1 - (2 * i / ((n : ℝ) - 1) - 1) ^ 2) ≤ 1 := by
      rw [Real.sqrt_le_one]; linarith [sq_nonneg (2 * i / ((n : ℝ) - 1) - 1)]
    calc |beta| * _ ≤ |beta| * 1 := mul_le_mul_of_nonneg_left this (abs_nonneg _)
      _ = |beta| := mul_one _
  · intro ho
    rw [a3 (n / 2) (by omega), kaiserAt]
    have hn : (n : ℝ) - 1 = 2 * ((n / 2 : Nat) : ℝ) := by
      have : (n : ℝ) = 2 * ((n / 2 : Nat) : ℝ) + 1 := by exact_mod_cast (show n = 2 * (n / 2) + 1 by omega)
      linarith
    have h0 : ((n / 2 : Nat) : ℝ) ≠ 0 := by exact_mod_cast (show n / 2 ≠ 0 by omega)
    rw [hn, div_self (by simpa using h0)]
    simp
    have := bessel_pos beta
    intro h; linarith

/-- C50 fails for a Kaiser window of length 1: its only value is computed from 0/0. -/
theorem C50_kaiser_one_violation (beta : ℝ) : kaiser 1 beta = none := by
  unfold kaiser
  simp [loop]

/-! ### Sinc -/

/-- The normalised cardinal sine `sin x / x`, 1 at 0. -/
noncomputable def sincFn (x : ℝ) : ℝ := if x = 0 then 1 else Real.sin x / x

theorem sinc_ok (n : Nat) (p : ℝ) (hp : p ≠ 0) :
    ∃ w, sinc n p = some w ∧ w.length = n ∧ ∀ i : Nat, i < n → w[i]? = some (sincFn (((i : ℝ) - ((n / 2 : Nat) : ℝ)) * (2 * Real.pi / p))) := by
  have hm : 2 * Real.pi / p ≠ 0 := div_ne_zero (by positivity) hp
  obtain ⟨g, hg⟩ : ∃ g : Nat → ℝ, g = fun i : Nat => sincFn (((i : ℝ) - ((n / 2 : Nat) : ℝ)) * (2 * Real.pi / p)) := ⟨_, rfl⟩
  have hodd : ∀ x : ℝ, x ≠ 0 → sincFn (-x) = Real.sin x / x := by
    intro x hx
    unfold sincFn
    rw [if_neg (by simpa using hx), Real.sin_neg, neg_div_neg_eq]
  unfold sinc
  by_cases h1 : n < 1
  · rw [if_pos h1]
    exact ⟨[], rfl, by simp; omega, fun i hi => by omega⟩
  rw [if_neg h1]
  by_cases h2 : n < 2
  · rw [if_pos h2]
    have : n = 1 := by omega
    subst this
    refine ⟨[1], rfl, rfl, fun i hi => ?_⟩
    have : i = 0 := by omega
    subst this
    simp [sincFn]
  rw [if_neg h2]
  obtain ⟨n0, hn0⟩ : ∃ n0, n0 = if n % 2 = 0 then n / 2 else (n - 1) / 2 := ⟨_, rfl⟩
  obtain ⟨n1, hn1⟩ : ∃ n1, n1 = if n % 2 = 0 then n / 2 else (n + 1) / 2 := ⟨_, rfl⟩
  have e12 : n0 = n / 2 ∧ n0 + n1 = n ∧ 1 ≤ n1 := by
    by_cases e : n % 2 = 0
    · rw [if_pos e] at hn0 hn1; omega
    · rw [if_neg e] at hn0 hn1; omega
  obtain ⟨w, a1, a2⟩ := loop_inv (n := n0) (s := ([] : List ℝ)) (f := fun i w => do
      let v ← sincAt (((n / 2 : Nat) - (i : Int) : Int) * (2 * Real.pi / p))
      pure (w ++ [v]))
    (P := fun i w => w = (List.range i).map g) (by simp)
    (by
      rintro i w hi rfl
      have hx : ((((n / 2 : Nat) - (i : Int) : Int) : ℝ)) * (2 * Real.pi / p) ≠ 0 :=
        mul_ne_zero (by exact_mod_cast (show ((n / 2 : Nat) : Int) - (i : Int) ≠ 0 by omega)) hm
      refine ⟨(List.range (i + 1)).map g, ?_, rfl⟩
      unfold sincAt
      rw [if_neg hx]
      simp only [Option.bind_eq_bind, Option.bind_some]
      rw [List.range_succ, List.map_append]
      simp only [List.map_cons, List.map_nil, Option.pure_def]
      rw [← hodd _ hx, hg]
      congr 5
      rw [Int.cast_sub, Int.cast_natCast, Int.cast_natCast]; ring)
  obtain ⟨v, b1, b2⟩ := loop_inv (n := n1 - 1) (s := w ++ [1]) (f := fun i w => do
      let v ← sincAt (((i + 1 : Nat) : ℝ) * (2 * Real.pi / p))
      pure (w ++ [v]))
    (P := fun i w => w = (List.range (n0 + 1 + i)).map g)
    (by
      rw [a2, Nat.add_zero, List.range_succ, List.map_append]
      simp only [List.map_cons, List.map_nil]
      rw [hg, e12.1]
      simp [sincFn])
    (by
      rintro i w hi rfl
      have hx : ((i + 1 : Nat) : ℝ) * (2 * Real.pi / p) ≠ 0 :=
        mul_ne_zero (by exact_mod_cast Nat.succ_ne_zero i) hm
      refine ⟨(List.range (n0 + 1 + (i + 1))).map g, ?_, rfl⟩
      unfold sincAt
      rw [if_neg hx]
      simp only [Option.bind_eq_bind, Option.bind_some]
      rw [← Nat.add_assoc, List.range_succ, List.map_append]
      simp only [List.map_cons, List.map_nil, Option.pure_def]
      rw [hg]
      beta_reduce
      rw [← e12.1, show ((n0 + 1 + i : Nat) : ℝ) - (n0 : ℝ) = ((i + 1 : Nat) : ℝ) by push_cast; ring]
      rw [sincFn, if_neg hx])
  refine ⟨v, ?_, by rw [b2]; simp; omega, ?_⟩
  · simp only
    rw [← hn0, ← hn1, a1]
    exact b1
  · intro i hi
    rw [b2, List.getElem?_map, List.getElem?_range (by omega), hg]; rfl

/-- C50: a sinc window has the peak value 1 at element `n/2`, is symmetric about it, and never exceeds 1 in magnitude. -/
theorem C50_sinc (n : Nat) (p : ℝ) (hp : p ≠ 0) :
    ∃ w, sinc n p = some w ∧ w.length = n ∧
      (∀ i : Nat, i < n → w[i]? = some (sincFn (((i : ℝ) - ((n / 2 : Nat) : ℝ)) * (2 * Real.pi / p)))) ∧
      (1 ≤ n → w[n / 2]? = some 1) ∧ (∀ d : Nat, d ≤ n / 2 → n / 2 + d < n → w[n / 2 - d]? = w[n / 2 + d]?) ∧ (∀ v ∈ w, |v| ≤ 1) := by
  obtain ⟨w, a1, a2, a3⟩ := sinc_ok n p hp
  refine ⟨w, a1, a2, a3, ?_, ?_, ?_⟩
  · intro h
    rw [a3 (n / 2) (by omega)]
    simp [sincFn]
  · intro d hd hd'
    rw [a3 _ (by omega), a3 _ hd']
    congr 1
    rw [Nat.cast_sub hd, Nat.cast_add, show ((n / 2 : Nat) : ℝ) - d - ((n / 2 : Nat) : ℝ) = -d by ring,
      show ((n / 2 : Nat) : ℝ) + d - ((n / 2 : Nat) : ℝ) = d by ring, neg_mul]
    generalize (d : ℝ) * (2 * Real.pi / p) = x
    unfold sincFn
    by_cases hx : x = 0
    · simp [hx]
    · rw [if_neg (by simpa using hx), if_neg hx, Real.sin_neg, neg_div_neg_eq]
  · intro v hv
    obtain ⟨i, hi⟩ := List.mem_iff_getElem?.mp hv
    have hin : i < n := by have := lt_of_getElem?_some hi; omega
    rw [a3 i hin] at hi
    cases hi
    unfold sincFn
    split_ifs with hx
    · simp
    · rw [abs_div, div_le_one (abs_pos.mpr hx)]
      exact Real.abs_sin_le_abs

example : ∃ l, encache .hanning 4 = some l ∧ l[2]? = some 1 := by
  obtain ⟨l, a, _, c⟩ := C50_window_shape .hanning 4
  refine ⟨l, a, ?_⟩
  rw [c 2 (by norm_num)]
  simp only [shape]
  rw [if_neg (by norm_num), show 2 * Real.pi * ((2 : Nat) : ℝ) / ((4 : Nat) : ℝ) = Real.pi by push_cast; ring, Real.cos_pi]
  norm_num

example : ∃ l, encache .bartlett 5 = some l ∧ l[1]? = some (1 / 2) ∧ l[4]? = some (1 / 2) := by
  obtain ⟨l, a, _, c⟩ := C50_window_shape .bartlett 5
  refine ⟨l, a, ?_, ?_⟩
  · rw [c 1 (by norm_num)]; simp [shape]
  · rw [c 4 (by norm_num)]; simp [shape]

example : ∃ w, kaiser 5 3 = some w ∧ w[2]? = some 1 := by
  obtain ⟨w, a, _, _, _, e⟩ := C50_kaiser_partial 5 3 (by norm_num)
  exact ⟨w, a, e (by norm_num)⟩

example : ∃ w, sinc 6 2 = some w ∧ w[3]? = some 1 := by
  obtain ⟨w, a, _, _, e, _⟩ := C50_sinc 6 2 (by norm_num)
  exact ⟨w, a, e (by norm_num)⟩

end QM.Window
