import Verif.DCT.UnitaryCalls

/-!
# C134: the unitary cosine transforms in double precision
-/

namespace QM.DCT

open QM.FFT QM.DFT QM.Kiss QM.Double Finset

variable {fl cosF sinF : ℝ → ℝ}

/-- The `DCT` objects a program can have: constructed with size `n`, then used any number of times, in any order, by all four transforms, where what the inverse
transforms work on has sizes up to `B` and the inputs of the forward transforms up to `2^980`. -/
inductive ReachU (fl cosF sinF : ℝ → ℝ) (n : Nat) (B : ℝ) : T → Prop
  | make {u d} : makeF fl cosF sinF n u = some d → ReachU fl cosF sinF n B d
  | forward {d d' inp out out'} : ReachU fl cosF sinF n B d → n ≤ inp.length → n ≤ out.length → size1 n inp ≤ 2 ^ 980 →
      forwardF fl d inp out = some (d', out') → ReachU fl cosF sinF n B d'
  | forwardUnitary {d d' inp out out'} : ReachU fl cosF sinF n B d → n ≤ inp.length → n ≤ out.length → size1 n inp ≤ 2 ^ 980 →
      forwardUnitaryF fl d inp out = some (d', out') → ReachU fl cosF sinF n B d'
  | inverse {d d' inp out out'} : ReachU fl cosF sinF n B d → n ≤ inp.length → n ≤ out.length → size1 n inp ≤ B →
      inverseF fl d inp out = some (d', out') → ReachU fl cosF sinF n B d'
  | inverseUnitary {d d' inp out out'} : ReachU fl cosF sinF n B d → n ≤ inp.length → n ≤ out.length →
      2 * (n * Real.sqrt (2 / n)) * size1 n inp + n * (1 / 2 ^ 1022) ≤ B → inverseUnitaryF fl d inp out = some (d', out') → ReachU fl cosF sinF n B d'

/-- The inverse of the unitary DCT-II: the sum of its rows, weighted by the input. -/
noncomputable def idctU (n : Nat) (y : Nat → ℝ) (m : Nat) : ℝ := ∑ k ∈ range n, y k * ((if k = 0 then Real.sqrt (1 / n) else Real.sqrt (2 / n)) * ker n k m)

variable (hfl : Rounds fl) (hlib : Libm cosF sinF)

include hfl hlib in
theorem reachU_near {n : Nat} (h1 : 1 ≤ n) (h2 : 4 * n ≤ 2147483647) {B : ℝ} (hB0 : 0 ≤ B) (hB : B ≤ 2 ^ 980) {d : T} (h : ReachU fl cosF sinF n B d) :
    NearU fl cosF sinF d n (rest n B) := by
  induction h with
  | @make u d hm =>
    obtain ⟨d', e1, e2⟩ := makeF_ok hfl hlib h1 h2 u
    obtain ⟨k1, k2⟩ := makeF_keeps hm
    rw [e1] at hm; cases hm
    exact ⟨e2.mono (rest_nonneg n hB0), k1, k2⟩
  | @forward d d' inp out out' hr a b hs hf ih =>
    obtain ⟨_, _, e1, e2, _⟩ := near_forward hfl hlib h1 h2 hB0 hB ih.near inp out a b hs
    obtain ⟨k1, k2⟩ := forwardF_keeps hf
    rw [e1] at hf; cases hf
    exact ⟨e2, k1.trans ih.scale, by rw [k2, ih.scaled]⟩
  | @forwardUnitary d d' inp out out' hr a b hs hf ih =>
    obtain ⟨_, _, e1, e2, _⟩ := forwardUnitaryF_ok hfl hlib h1 h2 hB0 hB ih inp out a b hs
    rw [e1] at hf; cases hf
    exact e2
  | @inverse d d' inp out out' hr a b hs hf ih =>
    obtain ⟨_, _, e1, e2, _⟩ := inverseF_ok hfl hlib h1 h2 ih.near inp out a b (fits_inverse h2 (hs.trans hB))
    obtain ⟨k1, k2⟩ := inverseF_keeps hf
    rw [e1] at hf; cases hf
    exact ⟨e2.mono (rest_mono n hs), k1.trans ih.scale, by rw [k2, ih.scaled]⟩
  | @inverseUnitary d d' inp out out' hr a b hs hf ih =>
    obtain ⟨_, _, e1, e2, _⟩ := inverseUnitaryF_ok hfl hlib h1 h2 hB ih inp out a b hs
    rw [e1] at hf; cases hf
    exact e2

/-! ## C134 -/

include hfl hlib in
/-- **C134** Objects of every size exist. -/
theorem C134_construct (n : Nat) (h1 : 1 ≤ n) (h2 : 4 * n ≤ 2147483647) (u : ℂ) (B : ℝ) :
    ∃ d, makeF fl cosF sinF n u = some d ∧ ReachU fl cosF sinF n B d := by
  obtain ⟨d, e1, _⟩ := makeF_ok hfl hlib h1 h2 u
  exact ⟨d, e1, ReachU.make e1⟩

include hfl hlib in
/-- **C134** `DCT::forwardUnitary` in double precision returns the unitary DCT-II, each value off by at most `1820 · r · 2^-53 · √(2/n)` times the size of the input,
plus `1325 · r · 2^-53 · √(2/n)` times the size `B` of what earlier inverse transforms worked on. -/
theorem C134_forwardUnitary (n : Nat) (h1 : 1 ≤ n) (h2 : 4 * n ≤ 2147483647) {B : ℝ} (hB0 : 0 ≤ B) (hB : B ≤ 2 ^ 980) {d : T} (hd : ReachU fl cosF sinF n B d)
    (inp out : List ℝ) (hi : n ≤ inp.length) (ho : n ≤ out.length) (hS : size1 n inp ≤ 2 ^ 980) :
    ∃ d' out', forwardUnitaryF fl d inp out = some (d', out') ∧ ReachU fl cosF sinF n B d' ∧ out'.length = out.length ∧
      (∀ k, k < n → |out'.getD k 0 - dctU n (fun j => inp.getD j 0) k| ≤
        Real.sqrt (2 / n) * (1820 * ((radixSum (2 * n) : ℝ) / 2 ^ 53) * (size1 n inp + 2 * n * (1 / 2 ^ 1022)) +
          1325 * ((radixSum (2 * n) : ℝ) / 2 ^ 53) * (B + n * (1 / 2 ^ 1022)))) ∧
      (∀ k, n ≤ k → out'[k]? = out[k]?) := by
  obtain ⟨d', o, e1, _, e3, e4, e5⟩ := forwardUnitaryF_ok hfl hlib h1 h2 hB0 hB (reachU_near hfl hlib h1 h2 hB0 hB hd) inp out hi ho hS
  exact ⟨d', o, e1, ReachU.forwardUnitary hd hi ho hS e1, e3, e4, e5⟩

include hfl hlib in
/-- **C134** `DCT::inverseUnitary` in double precision returns the inverse of the unitary DCT-II, each value off by at most `2120 · r · 2^-53 · √(2/n)` times the
size of the input, whatever was done with the object before. -/
theorem C134_inverseUnitary (n : Nat) (h1 : 1 ≤ n) (h2 : 4 * n ≤ 2147483647) {B : ℝ} (hB0 : 0 ≤ B) (hB : B ≤ 2 ^ 980) {d : T} (hd : ReachU fl cosF sinF n B d)
    (inp out : List ℝ) (hi : n ≤ inp.length) (ho : n ≤ out.length) (hS : 2 * (n * Real.sqrt (2 / n)) * size1 n inp + n * (1 / 2 ^ 1022) ≤ B) :
    ∃ d' out', inverseUnitaryF fl d inp out = some (d', out') ∧ ReachU fl cosF sinF n B d' ∧ out'.length = out.length ∧
      (∀ m, m < n → |out'.getD m 0 - idctU n (fun k => inp.getD k 0) m| ≤
        (radixSum (2 * n) : ℝ) / 2 ^ 53 * (2120 * (Real.sqrt (2 / n) * size1 n inp) + 2630 * (1 / 2 ^ 1022))) ∧
      (∀ m, n ≤ m → out'[m]? = out[m]?) := by
  obtain ⟨d', o, e1, _, e3, e4, e5⟩ := inverseUnitaryF_ok hfl hlib h1 h2 hB (reachU_near hfl hlib h1 h2 hB0 hB hd) inp out hi ho hS
  exact ⟨d', o, e1, ReachU.inverseUnitary hd hi ho hS e1, e3, e4, e5⟩

include hfl hlib in
/-- **C134** The bounds of C133 hold for histories with unitary transforms as well. -/
theorem C134_history (n : Nat) (h1 : 1 ≤ n) (h2 : 4 * n ≤ 2147483647) {B : ℝ} (hB0 : 0 ≤ B) (hB : B ≤ 2 ^ 980) {d : T} (hd : ReachU fl cosF sinF n B d)
    (inp out : List ℝ) (hi : n ≤ inp.length) (ho : n ≤ out.length) :
    (size1 n inp ≤ 2 ^ 980 → ∃ d' out', forwardF fl d inp out = some (d', out') ∧ ReachU fl cosF sinF n B d' ∧
      ∀ k, k < n → |out'.getD k 0 - 2 * dct2 n (fun j => inp.getD j 0) k| ≤
        3600 * ((radixSum (2 * n) : ℝ) / 2 ^ 53) * (size1 n inp + 2 * n * (1 / 2 ^ 1022)) + 2640 * ((radixSum (2 * n) : ℝ) / 2 ^ 53) * (B + n * (1 / 2 ^ 1022))) ∧
    (size1 n inp ≤ B → ∃ d' out', inverseF fl d inp out = some (d', out') ∧ ReachU fl cosF sinF n B d' ∧
      ∀ m, m < n → |out'.getD m 0 - dct3 n (fun k => inp.getD k 0) m / n| ≤ 1310 * ((radixSum (2 * n) : ℝ) / 2 ^ 53) * (size1 n inp / n + 1 / 2 ^ 1022)) := by
  have hn := (reachU_near hfl hlib h1 h2 hB0 hB hd).near
  constructor
  · intro hS
    obtain ⟨d', o, e1, _, _, e4, _⟩ := near_forward hfl hlib h1 h2 hB0 hB hn inp out hi ho hS
    exact ⟨d', o, e1, ReachU.forward hd hi ho hS e1, e4⟩
  · intro hS
    obtain ⟨d', o, e1, _, _, e4, _⟩ := inverseF_ok hfl hlib h1 h2 hn inp out hi ho (fits_inverse h2 (hS.trans hB))
    refine ⟨d', o, e1, ReachU.inverse hd hi ho hS e1, fun m hm => ?_⟩
    rw [← mul_div_assoc]
    exact e4 m hm

theorem rowScale_le {n : Nat} (h1 : 1 ≤ n) (k : Nat) : 0 ≤ rowScale n k ∧ rowScale n k ≤ Real.sqrt (2 / n) := by
  have hn : (0 : ℝ) < n := by exact_mod_cast h1
  unfold rowScale
  split_ifs
  · exact ⟨Real.sqrt_nonneg _, Real.sqrt_le_sqrt (div_le_div_of_nonneg_right (by norm_num) hn.le)⟩
  · exact ⟨Real.sqrt_nonneg _, le_refl _⟩

theorem idctU_dctU {n : Nat} (x : Nat → ℝ) {j : Nat} (hj : j < n) : idctU n (dctU n x) j = x j := by
  have e1 : ∀ k ∈ range n, dctU n x k * (rowScale n k * ker n k j) = ∑ i ∈ range n, x i * (rowScale n k * rowScale n k * (ker n k i * ker n k j)) := by
    intro k _
    rw [dctU_eq, dct2, mul_sum, sum_mul]
    exact sum_congr rfl fun i _ => by ring
  have e2 : ∀ i ∈ range n, ∑ k ∈ range n, x i * (rowScale n k * rowScale n k * (ker n k i * ker n k j)) = if i = j then x i else 0 := by
    intro i hi'
    rw [← mul_sum, col_orth (mem_range.mp hi') hj]
    split_ifs <;> simp
  have e0 : idctU n (dctU n x) j = ∑ k ∈ range n, dctU n x k * (rowScale n k * ker n k j) := rfl
  rw [e0, sum_congr rfl e1, sum_comm, sum_congr rfl e2, sum_ite_eq', if_pos (mem_range.mpr hj)]

theorem idctU_sub_le {n : Nat} (h1 : 1 ≤ n) (x y : Nat → ℝ) {δ : ℝ} (h : ∀ k, k < n → |x k - y k| ≤ δ) (m : Nat) :
    |idctU n x m - idctU n y m| ≤ n * Real.sqrt (2 / n) * δ := by
  have e : idctU n x m - idctU n y m = ∑ k ∈ range n, (x k - y k) * (rowScale n k * ker n k m) := by
    unfold idctU rowScale
    rw [← sum_sub_distrib]
    exact sum_congr rfl fun k _ => by ring
  rw [e]
  refine (abs_sum_le_sum_abs _ _).trans ((sum_le_card_nsmul _ _ (Real.sqrt (2 / n) * δ) fun k hk => ?_).trans (le_of_eq ?_))
  · have hk := h k (mem_range.mp hk)
    obtain ⟨r0, r1⟩ := rowScale_le h1 k
    rw [abs_mul, abs_mul, abs_of_nonneg r0]
    have : rowScale n k * |ker n k m| ≤ Real.sqrt (2 / n) := (mul_le_of_le_one_right r0 (Real.abs_cos_le_one _)).trans r1
    rw [mul_comm]
    exact mul_le_mul this hk (abs_nonneg _) (Real.sqrt_nonneg _)
  · rw [card_range, nsmul_eq_mul]; ring

theorem dctU_le {n : Nat} (h1 : 1 ≤ n) (inp : List ℝ) (k : Nat) : |dctU n (fun j => inp.getD j 0) k| ≤ Real.sqrt (2 / n) * size1 n inp := by
  obtain ⟨r0, r1⟩ := rowScale_le h1 k
  rw [dctU_eq, abs_mul, abs_of_nonneg r0]
  exact mul_le_mul r1 (dct2_le n inp k) (abs_nonneg _) (Real.sqrt_nonneg _)

include hfl hlib in
/-- **C134** `inverseUnitary` after `forwardUnitary`, on any two objects of the same size, returns the input, each value off by at most `7920 · r · 2^-53` times its
size, plus what earlier inverse transforms have left in the first object. -/
theorem C134_round_trip (n : Nat) (h1 : 1 ≤ n) (h2 : 4 * n ≤ 2147483647) {B C : ℝ} (hB0 : 0 ≤ B) (hB : B ≤ 2 ^ 900) (hC : C ≤ 2 ^ 980) {d e : T}
    (hd : ReachU fl cosF sinF n B d) (he : ReachU fl cosF sinF n C e) (hC2 : 2 ^ 970 ≤ C)
    (inp mid out : List ℝ) (hi : n ≤ inp.length) (hm : n ≤ mid.length) (ho : n ≤ out.length) (hS : size1 n inp ≤ 2 ^ 900) :
    ∃ d' mid' e' out', forwardUnitaryF fl d inp mid = some (d', mid') ∧ inverseUnitaryF fl e mid' out = some (e', out') ∧
      ∀ j, j < n → |out'.getD j 0 - inp.getD j 0| ≤
        7920 * ((radixSum (2 * n) : ℝ) / 2 ^ 53) * (size1 n inp + 2 * n * (1 / 2 ^ 1022)) + 2680 * ((radixSum (2 * n) : ℝ) / 2 ^ 53) * (B + n * (1 / 2 ^ 1022)) := by
  have hle : (2 : ℝ) ^ 900 ≤ 2 ^ 980 := pow_le_pow_right₀ (by norm_num) (by norm_num)
  have hn : (0 : ℝ) < n := by exact_mod_cast h1
  obtain ⟨d', mid', a1, _, a3, a4, _⟩ := C134_forwardUnitary hfl hlib n h1 h2 hB0 (hB.trans hle) hd inp mid hi hm (hS.trans hle)
  obtain ⟨t1, t2⟩ := tiny n h2
  obtain ⟨r1, r2⟩ := radix_small hfl hlib h1 h2
  obtain ⟨g1, g2, g3⟩ := scale_facts h1
  have hS0 := size1_nonneg n inp
  have hb0 : 0 ≤ Real.sqrt (2 / (n : ℝ)) := Real.sqrt_nonneg _
  obtain ⟨δ, hδ⟩ : ∃ δ : ℝ, δ = 1820 * ((radixSum (2 * n) : ℝ) / 2 ^ 53) * (size1 n inp + 2 * n * (1 / 2 ^ 1022)) +
    1325 * ((radixSum (2 * n) : ℝ) / 2 ^ 53) * (B + n * (1 / 2 ^ 1022)) := ⟨_, rfl⟩
  rw [← hδ] at a4
  have hδ0 : 0 ≤ δ := by rw [hδ]; positivity
  have hmid : size1 n mid' ≤ n * (Real.sqrt (2 / n) * (size1 n inp + δ)) := by
    rw [show size1 n mid' = ∑ j ∈ range n, |mid'.getD j 0| from rfl]
    refine (sum_le_card_nsmul _ _ (Real.sqrt (2 / n) * (size1 n inp + δ)) fun k hk => ?_).trans (by rw [card_range, nsmul_eq_mul])
    have h3 := a4 k (mem_range.mp hk)
    have h4 := dctU_le h1 inp k
    rw [mul_add]
    rw [abs_le] at h3 h4 ⊢
    constructor <;> linarith
  have hδS : δ ≤ size1 n inp + B + 3 := by
    rw [hδ]
    clear hC hC2 hle hmid a4 hδ hB hS
    generalize (radixSum (2 * n) : ℝ) / 2 ^ 53 = u at *
    generalize (1 : ℝ) / 2 ^ 1022 = τ at *
    generalize size1 n inp = S at *
    have h3 : 1820 * u * (S + 2 * n * τ) ≤ 1 * (S + 2 * n * τ) := mul_le_mul_of_nonneg_right (by linarith) (by positivity)
    have h4 : 1325 * u * (B + n * τ) ≤ 1 * (B + n * τ) := mul_le_mul_of_nonneg_right (by linarith) (by positivity)
    linarith
  have hn32 : (n : ℝ) ≤ 2 ^ 32 := by
    have : (n : ℝ) ≤ 2147483647 := by exact_mod_cast (show n ≤ 2147483647 by omega)
    linarith [show (2147483647 : ℝ) ≤ 2 ^ 32 by norm_num]
  have hmC : 2 * (n * Real.sqrt (2 / n)) * size1 n mid' + n * (1 / 2 ^ 1022) ≤ C := by
    have e1 : 2 * (n * Real.sqrt (2 / n)) * size1 n mid' ≤ 4 * n * (size1 n inp + δ) := by
      have := mul_le_mul_of_nonneg_left hmid (show 0 ≤ 2 * (n * Real.sqrt (2 / (n : ℝ))) by linarith)
      refine this.trans (le_of_eq ?_)
      linear_combination (2 * n * (size1 n inp + δ)) * g3
    have hp : (2 : ℝ) ^ 970 = 2 ^ 32 * (64 * (2 ^ 32 * 2 ^ 900)) := by
      rw [show (64 : ℝ) = 2 ^ 6 by norm_num, ← pow_add, ← pow_add, ← pow_add]
    have hP1 : (1 : ℝ) ≤ 2 ^ 900 := one_le_pow₀ (by norm_num)
    rw [hp] at hC2
    refine le_trans ?_ hC2
    have e2 : 4 * n * (size1 n inp + δ) ≤ 2 ^ 32 * (4 * (size1 n inp + δ)) := by
      have := mul_le_mul_of_nonneg_right hn32 (show 0 ≤ 4 * (size1 n inp + δ) by linarith)
      linarith
    clear hp hC hC2 hle hn32 hmid a4 hδ
    generalize (1 : ℝ) / 2 ^ 1022 = τ at *
    generalize (2 : ℝ) ^ 900 = P at *
    refine (add_le_add (e1.trans e2) t2).trans ?_
    norm_num
    linarith
  obtain ⟨e', out', b1, _, b3, b4, _⟩ := C134_inverseUnitary hfl hlib n h1 h2 ((by positivity : (0 : ℝ) ≤ 2 ^ 970).trans hC2) hC he mid' out (by omega) ho hmC
  refine ⟨d', mid', e', out', a1, b1, fun j hj => ?_⟩
  have c1 := b4 j hj
  have c2 := idctU_sub_le h1 (fun k => mid'.getD k 0) (dctU n (fun j => inp.getD j 0)) a4 j
  rw [idctU_dctU _ hj] at c2
  have c3 : (n : ℝ) * Real.sqrt (2 / n) * (Real.sqrt (2 / n) * δ) = 2 * δ := by linear_combination δ * g3
  rw [c3] at c2
  have c4 : Real.sqrt (2 / n) * size1 n mid' ≤ 2 * (size1 n inp + δ) := by
    refine (mul_le_mul_of_nonneg_left hmid hb0).trans (le_of_eq ?_)
    linear_combination (size1 n inp + δ) * g3
  refine (abs_sub_le _ _ _).trans ((add_le_add c1 c2).trans ?_)
  have hn1 : (1 : ℝ) ≤ n := by exact_mod_cast h1
  clear hC hC2 hle hn32 hmid a4 hB hS hmC b4 c1 c2 hδS
  generalize Real.sqrt (2 / n) * size1 n mid' = Q at *
  generalize (radixSum (2 * n) : ℝ) / 2 ^ 53 = u at *
  generalize (1 : ℝ) / 2 ^ 1022 = τ at *
  generalize size1 n inp = S at *
  have h5 : u * (2120 * Q + 2630 * τ) ≤ u * (2120 * (2 * (S + δ)) + 2630 * τ) := mul_le_mul_of_nonneg_left (by linarith) r1
  have h6 : 4240 * u * δ ≤ 17 / 1000 * δ := mul_le_mul_of_nonneg_right (by linarith) hδ0
  have h7 : u * τ ≤ u * (n * τ) := mul_le_mul_of_nonneg_left (by nlinarith) r1
  have g1 : 0 ≤ u * S := by positivity
  have g2 : 0 ≤ u * (n * τ) := by positivity
  have g3 : 0 ≤ u * B := by positivity
  have h8 : u * (2120 * Q + 2630 * τ) + 2 * δ ≤ 4240 * (u * S) + 2630 * (u * τ) + 2017 / 1000 * δ := by linarith
  refine h8.trans ?_
  rw [hδ]
  linarith

/-- The hypotheses are met: five values, on a new object, come back within a billionth. -/
example : ∃ d d' mid e' out, makeF rn (fun x => rn (Real.cos x)) (fun x => rn (Real.sin x)) 5 0 = some d ∧
    forwardUnitaryF rn d [1, -2, 3, 0, 4] (List.replicate 5 0) = some (d', mid) ∧ inverseUnitaryF rn d mid (List.replicate 5 0) = some (e', out) ∧
    |out.getD 2 0 - 3| ≤ 1 / 10 ^ 9 := by
  have hS : size1 5 [1, -2, 3, 0, 4] = 10 := by norm_num [size1, sum_range_succ]
  obtain ⟨d, h, hr⟩ := C134_construct rounds_rn libm_rn 5 (by norm_num) (by norm_num) 0 0
  obtain ⟨_, h', hr'⟩ := C134_construct rounds_rn libm_rn 5 (by norm_num) (by norm_num) 0 (2 ^ 980)
  rw [h] at h'; cases h'
  obtain ⟨d', mid, e', out, e1, e2, e3⟩ := C134_round_trip rounds_rn libm_rn 5 (by norm_num) (by norm_num) (le_refl 0) (by positivity) (le_refl _) hr hr'
    (pow_le_pow_right₀ (by norm_num) (by norm_num)) [1, -2, 3, 0, 4] (List.replicate 5 0) (List.replicate 5 0) (by simp) (by simp) (by simp)
    (by rw [hS]; exact le_trans (by norm_num : (10 : ℝ) ≤ 2 ^ 4) (pow_le_pow_right₀ (by norm_num) (by norm_num)))
  refine ⟨d, d', mid, e', out, h, e1, e2, ?_⟩
  have hR : radixSum (2 * 5) = 7 := by decide +kernel
  have h3 := e3 2 (by norm_num)
  rw [hS, hR] at h3
  have hk : (1 : ℝ) / 2 ^ 1022 ≤ 1 := by
    rw [div_le_one (by positivity)]; exact one_le_pow₀ (by norm_num)
  refine le_trans h3 ?_
  generalize (1 : ℝ) / 2 ^ 1022 = τ at *
  norm_num
  linarith

end QM.DCT
