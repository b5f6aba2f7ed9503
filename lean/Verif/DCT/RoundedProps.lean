import Verif.DCT.RoundedLemmas
import Verif.DCT.Props

/-!
# C133: the cosine transform in double precision
-/

namespace QM.DCT

open QM.FFT QM.DFT QM.Kiss QM.Double Finset

variable {fl cosF sinF : ℝ → ℝ}

/-- The `DCT` objects a program can have: constructed with size `n`, then used any number of times, in any order, where the inputs of the inverse transforms
have sizes up to `B` and those of the forward transforms up to `2^980`. -/
inductive ReachF (fl cosF sinF : ℝ → ℝ) (n : Nat) (B : ℝ) : T → Prop
  | make {u d} : makeF fl cosF sinF n u = some d → ReachF fl cosF sinF n B d
  | forward {d d' inp out out'} : ReachF fl cosF sinF n B d → n ≤ inp.length → n ≤ out.length → size1 n inp ≤ 2 ^ 980 →
      forwardF fl d inp out = some (d', out') → ReachF fl cosF sinF n B d'
  | inverse {d d' inp out out'} : ReachF fl cosF sinF n B d → n ≤ inp.length → n ≤ out.length → size1 n inp ≤ B →
      inverseF fl d inp out = some (d', out') → ReachF fl cosF sinF n B d'

/-! ## Sizes -/

theorem tiny (n : Nat) (h2 : 4 * n ≤ 2147483647) : (0 : ℝ) ≤ 1 / 2 ^ 1022 ∧ (n : ℝ) * (1 / 2 ^ 1022) ≤ 1 := by
  refine ⟨by positivity, ?_⟩
  have h3 : (n : ℝ) ≤ 2 ^ 32 := by
    have : (n : ℝ) ≤ 2147483647 := by exact_mod_cast (show n ≤ 2147483647 by omega)
    linarith [show (2147483647 : ℝ) ≤ 2 ^ 32 by norm_num]
  rw [mul_one_div, div_le_one (by positivity)]
  exact h3.trans (pow_le_pow_right₀ (by norm_num) (by norm_num))

theorem powers : (2 : ℝ) ^ 990 = 1024 * 2 ^ 980 ∧ (2 : ℝ) ^ 1000 = 1048576 * 2 ^ 980 ∧ (1 : ℝ) ≤ 2 ^ 980 := by
  refine ⟨?_, ?_, one_le_pow₀ (by norm_num)⟩
  · rw [show (990 : Nat) = 10 + 980 by norm_num, pow_add]; norm_num
  · rw [show (1000 : Nat) = 20 + 980 by norm_num, pow_add]; norm_num

variable (hfl : Rounds fl) (hlib : Libm cosF sinF)

include hfl hlib in
theorem radix_small {n : Nat} (h1 : 1 ≤ n) (h2 : 4 * n ≤ 2147483647) : 0 ≤ (radixSum (2 * n) : ℝ) / 2 ^ 53 ∧ 256000 * ((radixSum (2 * n) : ℝ) / 2 ^ 53) ≤ 1 := by
  obtain ⟨st, p1, _⟩ := allocF_ok hfl hlib (2 * n) false (by omega) (by omega)
  obtain ⟨_, _, _, _, _, q6⟩ := allocF_facts (2 * n) false hfl hlib (by omega) (by omega) st p1
  have : (500 : ℝ) * radixSum (2 * n) ≤ 2 ^ 44 := by exact_mod_cast q6
  refine ⟨by positivity, ?_⟩
  rw [← mul_div_assoc, div_le_one (by positivity)]
  norm_num at this ⊢
  linarith

/-- What inverse transforms of size `B` leave behind. -/
noncomputable def rest (n : Nat) (B : ℝ) : ℝ := 1310 * radixSum (2 * n) / 2 ^ 53 * (B / n + 1 / 2 ^ 1022)

theorem rest_eq {n : Nat} (h1 : 1 ≤ n) (B : ℝ) : 2 * n * rest n B = 2620 * ((radixSum (2 * n) : ℝ) / 2 ^ 53) * (B + n * (1 / 2 ^ 1022)) := by
  have hn : (n : ℝ) ≠ 0 := by exact_mod_cast (show n ≠ 0 by omega)
  obtain ⟨τ, hτ⟩ : ∃ τ : ℝ, τ = 1 / 2 ^ 1022 := ⟨_, rfl⟩
  unfold rest
  rw [← hτ]
  field_simp
  ring

theorem Near.mono {d : T} {n : Nat} {ρ ρ' : ℝ} (h : Near fl cosF sinF d n ρ) (hle : ρ ≤ ρ') : Near fl cosF sinF d n ρ' :=
  ⟨h.size, h.time2, fun j hj hj' => (h.even j hj hj').trans hle, h.fr, h.fi, h.fft⟩

theorem rest_mono (n : Nat) {a b : ℝ} (h : a ≤ b) : rest n a ≤ rest n b := by
  unfold rest
  refine mul_le_mul_of_nonneg_left ?_ (by positivity)
  have : a / (n : ℝ) ≤ b / n := div_le_div_of_nonneg_right h (by positivity)
  linarith

theorem rest_nonneg (n : Nat) {B : ℝ} (h : 0 ≤ B) : 0 ≤ rest n B := by unfold rest; positivity

include hfl hlib in
theorem fits_forward {n : Nat} (h1 : 1 ≤ n) (h2 : 4 * n ≤ 2147483647) {B S : ℝ} (hB0 : 0 ≤ B) (hB : B ≤ 2 ^ 980) (hS : S ≤ 2 ^ 980) :
    2 * S + 2 * n * rest n B + 4 * n * (1 / 2 ^ 1022) ≤ 2 ^ 1000 := by
  obtain ⟨t1, t2⟩ := tiny n h2
  obtain ⟨-, p2, p3⟩ := powers
  obtain ⟨r1, r2⟩ := radix_small hfl hlib h1 h2
  rw [rest_eq h1, p2]
  clear p2
  generalize (radixSum (2 * n) : ℝ) / 2 ^ 53 = u at *
  generalize (1 : ℝ) / 2 ^ 1022 = τ at *
  generalize (2 : ℝ) ^ 980 = P at *
  have hn : (0 : ℝ) ≤ n := Nat.cast_nonneg n
  have h3 : 2620 * u * (B + n * τ) ≤ 1 * (B + n * τ) := mul_le_mul_of_nonneg_right (by linarith) (by positivity)
  linarith

theorem fits_inverse {n : Nat} (h2 : 4 * n ≤ 2147483647) {S : ℝ} (hS : S ≤ 2 ^ 980) : 4 * S + 4 * n * (1 / 2 ^ 1022) ≤ 2 ^ 990 := by
  obtain ⟨t1, t2⟩ := tiny n h2
  obtain ⟨p1, -, p3⟩ := powers
  rw [p1]
  clear p1
  generalize (1 : ℝ) / 2 ^ 1022 = τ at *
  generalize (2 : ℝ) ^ 980 = P at *
  linarith

include hfl hlib in
theorem reachF_near {n : Nat} (h1 : 1 ≤ n) (h2 : 4 * n ≤ 2147483647) {B : ℝ} (hB0 : 0 ≤ B) (hB : B ≤ 2 ^ 980) {d : T} (h : ReachF fl cosF sinF n B d) :
    Near fl cosF sinF d n (rest n B) := by
  induction h with
  | @make u d hm =>
    obtain ⟨d', e1, e2⟩ := makeF_ok hfl hlib h1 h2 u
    rw [e1] at hm; cases hm
    exact e2.mono (rest_nonneg n hB0)
  | @forward d d' inp out out' hr a b hs hf ih =>
    obtain ⟨_, _, e1, e2, _⟩ := forwardF_ok hfl hlib h1 h2 ih inp out a b (fits_forward hfl hlib h1 h2 hB0 hB hs)
    rw [e1] at hf; cases hf
    exact e2
  | @inverse d d' inp out out' hr a b hs hf ih =>
    obtain ⟨_, _, e1, e2, _⟩ := inverseF_ok hfl hlib h1 h2 ih inp out a b (fits_inverse h2 (hs.trans hB))
    rw [e1] at hf; cases hf
    exact e2.mono (rest_mono n hs)

include hfl hlib in
theorem near_forward {n : Nat} (h1 : 1 ≤ n) (h2 : 4 * n ≤ 2147483647) {B : ℝ} (hB0 : 0 ≤ B) (hB : B ≤ 2 ^ 980) {d : T} (hd : Near fl cosF sinF d n (rest n B))
    (inp out : List ℝ) (hi : n ≤ inp.length) (ho : n ≤ out.length) (hS : size1 n inp ≤ 2 ^ 980) :
    ∃ d' out', forwardF fl d inp out = some (d', out') ∧ Near fl cosF sinF d' n (rest n B) ∧ out'.length = out.length ∧
      (∀ k, k < n → |out'.getD k 0 - 2 * dct2 n (fun j => inp.getD j 0) k| ≤
        3600 * ((radixSum (2 * n) : ℝ) / 2 ^ 53) * (size1 n inp + 2 * n * (1 / 2 ^ 1022)) + 2640 * ((radixSum (2 * n) : ℝ) / 2 ^ 53) * (B + n * (1 / 2 ^ 1022))) ∧
      (∀ k, n ≤ k → out'[k]? = out[k]?) := by
  obtain ⟨d', o, e1, e2, e3, e4, e5⟩ := forwardF_ok hfl hlib h1 h2 hd inp out hi ho (fits_forward hfl hlib h1 h2 hB0 hB hS)
  refine ⟨d', o, e1, e2, e3, fun k hk => (e4 k hk).trans ?_, e5⟩
  obtain ⟨t1, t2⟩ := tiny n h2
  obtain ⟨r1, r2⟩ := radix_small hfl hlib h1 h2
  have hS0 := size1_nonneg n inp
  rw [rest_eq h1, mul_div_assoc]
  generalize (radixSum (2 * n) : ℝ) / 2 ^ 53 = u at *
  generalize (1 : ℝ) / 2 ^ 1022 = τ at *
  generalize size1 n inp = S at *
  have hn : (0 : ℝ) ≤ n := Nat.cast_nonneg n
  have hq : 0 ≤ u * (B + n * τ) := by positivity
  have h3 : 1800 * u * (2620 * u * (B + n * τ)) ≤ 20 * (u * (B + n * τ)) := by
    have h4 : (1800 * 2620 * u) * (u * (B + n * τ)) ≤ 20 * (u * (B + n * τ)) := mul_le_mul_of_nonneg_right (by linarith) hq
    linarith
  linarith

/-! ## C133 -/

include hfl hlib in
/-- **C133** In double precision too, objects of every size exist. -/
theorem C133_construct (n : Nat) (h1 : 1 ≤ n) (h2 : 4 * n ≤ 2147483647) (u : ℂ) (B : ℝ) :
    ∃ d, makeF fl cosF sinF n u = some d ∧ ReachF fl cosF sinF n B d := by
  obtain ⟨d, e1, _⟩ := makeF_ok hfl hlib h1 h2 u
  exact ⟨d, e1, ReachF.make e1⟩

include hfl hlib in
/-- **C133** `DCT::forward` in double precision returns twice the DCT-II, each value off by at most `3600 · r · 2^-53` times the size of the input, `r` being
the sum of the radices of `2n`. The object remembers the rounding errors of earlier inverse transforms: they add `2640 · r · 2^-53` times the size `B` of
their largest input, and no more however many there were. -/
theorem C133_forward (n : Nat) (h1 : 1 ≤ n) (h2 : 4 * n ≤ 2147483647) {B : ℝ} (hB0 : 0 ≤ B) (hB : B ≤ 2 ^ 980) {d : T} (hd : ReachF fl cosF sinF n B d)
    (inp out : List ℝ) (hi : n ≤ inp.length) (ho : n ≤ out.length) (hS : size1 n inp ≤ 2 ^ 980) :
    ∃ d' out', forwardF fl d inp out = some (d', out') ∧ ReachF fl cosF sinF n B d' ∧ out'.length = out.length ∧
      (∀ k, k < n → |out'.getD k 0 - 2 * dct2 n (fun j => inp.getD j 0) k| ≤
        3600 * ((radixSum (2 * n) : ℝ) / 2 ^ 53) * (size1 n inp + 2 * n * (1 / 2 ^ 1022)) + 2640 * ((radixSum (2 * n) : ℝ) / 2 ^ 53) * (B + n * (1 / 2 ^ 1022))) ∧
      (∀ k, n ≤ k → out'[k]? = out[k]?) := by
  obtain ⟨d', o, e1, _, e3, e4, e5⟩ := near_forward hfl hlib h1 h2 hB0 hB (reachF_near hfl hlib h1 h2 hB0 hB hd) inp out hi ho hS
  exact ⟨d', o, e1, ReachF.forward hd hi ho hS e1, e3, e4, e5⟩

include hfl hlib in
/-- **C133** `DCT::inverse` in double precision returns the DCT-III divided by `n`, each value off by at most `1310 · r · 2^-53` times the mean size of the
input, whatever was done with the object before. -/
theorem C133_inverse (n : Nat) (h1 : 1 ≤ n) (h2 : 4 * n ≤ 2147483647) {B : ℝ} (hB : B ≤ 2 ^ 980) {d : T} (hd : ReachF fl cosF sinF n B d)
    (inp out : List ℝ) (hi : n ≤ inp.length) (ho : n ≤ out.length) (hS : size1 n inp ≤ B) :
    ∃ d' out', inverseF fl d inp out = some (d', out') ∧ ReachF fl cosF sinF n B d' ∧ out'.length = out.length ∧
      (∀ m, m < n → |out'.getD m 0 - dct3 n (fun k => inp.getD k 0) m / n| ≤ 1310 * ((radixSum (2 * n) : ℝ) / 2 ^ 53) * (size1 n inp / n + 1 / 2 ^ 1022)) ∧
      (∀ m, n ≤ m → out'[m]? = out[m]?) := by
  have hB0 := (size1_nonneg n inp).trans hS
  obtain ⟨d', o, e1, _, e3, e4, e5⟩ := inverseF_ok hfl hlib h1 h2 (reachF_near hfl hlib h1 h2 hB0 hB hd) inp out hi ho (fits_inverse h2 (hS.trans hB))
  refine ⟨d', o, e1, ReachF.inverse hd hi ho hS e1, e3, fun m hm => ?_, e5⟩
  rw [← mul_div_assoc]
  exact e4 m hm

theorem dct2_le (n : Nat) (inp : List ℝ) (k : Nat) : |dct2 n (fun j => inp.getD j 0) k| ≤ size1 n inp := by
  unfold dct2 size1
  refine (abs_sum_le_sum_abs _ _).trans (sum_le_sum fun j _ => ?_)
  rw [abs_mul]
  exact mul_le_of_le_one_right (abs_nonneg _) (Real.abs_cos_le_one _)

theorem dct3_sub_le {n : Nat} (h1 : 1 ≤ n) (x y : Nat → ℝ) {δ : ℝ} (h : ∀ k, k < n → |x k - y k| ≤ δ) (m : Nat) : |dct3 n x m / n - dct3 n y m / n| ≤ δ := by
  have hn : (0 : ℝ) < n := by exact_mod_cast h1
  have hδ : 0 ≤ δ := (abs_nonneg _).trans (h 0 (by omega))
  rw [← sub_div, abs_div, abs_of_pos hn, div_le_iff₀ hn]
  have e : dct3 n x m - dct3 n y m = (x 0 - y 0) / 2 + ∑ k ∈ Ico 1 n, (x k - y k) * ker n k m := by
    unfold dct3
    rw [sum_congr rfl fun k _ => sub_mul (x k) (y k) (ker n k m), sum_sub_distrib]
    ring
  rw [e]
  have s1 : |∑ k ∈ Ico 1 n, (x k - y k) * ker n k m| ≤ (n - 1 : Nat) * δ := by
    refine (abs_sum_le_sum_abs _ _).trans ((sum_le_card_nsmul _ _ δ fun k hk => ?_).trans (by rw [Nat.card_Ico, nsmul_eq_mul]))
    rw [abs_mul]
    exact (mul_le_of_le_one_right (abs_nonneg _) (Real.abs_cos_le_one _)).trans (h k (mem_Ico.mp hk).2)
  have s2 : |(x 0 - y 0) / 2| ≤ δ := by
    rw [abs_div, abs_of_pos (show (0 : ℝ) < 2 by norm_num)]
    linarith [h 0 (by omega)]
  have s3 : ((n - 1 : Nat) : ℝ) = n - 1 := by rw [Nat.cast_sub h1, Nat.cast_one]
  rw [s3] at s1
  refine (abs_add_le _ _).trans ?_
  linarith

include hfl hlib in
/-- **C133** `inverse` after `forward`, on any two objects of the same size, returns the input, each value off by at most `6300 · r · 2^-53` times its size, plus
what earlier inverse transforms have left in the first object. -/
theorem C133_round_trip (n : Nat) (h1 : 1 ≤ n) (h2 : 4 * n ≤ 2147483647) {B C : ℝ} (hB0 : 0 ≤ B) (hB : B ≤ 2 ^ 900) (hC : C ≤ 2 ^ 980) {d e : T}
    (hd : ReachF fl cosF sinF n B d) (he : ReachF fl cosF sinF n C e) (hC2 : 2 ^ 970 ≤ C)
    (inp mid out : List ℝ) (hi : n ≤ inp.length) (hm : n ≤ mid.length) (ho : n ≤ out.length) (hS : size1 n inp ≤ 2 ^ 900) :
    ∃ d' mid' e' out', forwardF fl d inp mid = some (d', mid') ∧ inverseF fl e mid' out = some (e', out') ∧
      ∀ j, j < n → |out'.getD j 0 - inp.getD j 0| ≤
        6300 * ((radixSum (2 * n) : ℝ) / 2 ^ 53) * (size1 n inp + 2 * n * (1 / 2 ^ 1022)) + 2660 * ((radixSum (2 * n) : ℝ) / 2 ^ 53) * (B + n * (1 / 2 ^ 1022)) := by
  have hle : (2 : ℝ) ^ 900 ≤ 2 ^ 980 := pow_le_pow_right₀ (by norm_num) (by norm_num)
  have hn : (0 : ℝ) < n := by exact_mod_cast h1
  obtain ⟨d', mid', a1, _, a3, a4, _⟩ := C133_forward hfl hlib n h1 h2 hB0 (hB.trans hle) hd inp mid hi hm (hS.trans hle)
  obtain ⟨t1, t2⟩ := tiny n h2
  obtain ⟨r1, r2⟩ := radix_small hfl hlib h1 h2
  have hS0 := size1_nonneg n inp
  obtain ⟨δ, hδ⟩ : ∃ δ : ℝ, δ = 3600 * ((radixSum (2 * n) : ℝ) / 2 ^ 53) * (size1 n inp + 2 * n * (1 / 2 ^ 1022)) +
    2640 * ((radixSum (2 * n) : ℝ) / 2 ^ 53) * (B + n * (1 / 2 ^ 1022)) := ⟨_, rfl⟩
  rw [← hδ] at a4
  have hδ0 : 0 ≤ δ := (abs_nonneg _).trans (a4 0 (by omega))
  have hmid : size1 n mid' ≤ n * (2 * size1 n inp + δ) := by
    rw [show size1 n mid' = ∑ j ∈ range n, |mid'.getD j 0| from rfl]
    refine (sum_le_card_nsmul _ _ (2 * size1 n inp + δ) fun k hk => ?_).trans (by rw [card_range, nsmul_eq_mul])
    have h3 := a4 k (mem_range.mp hk)
    have h4 := dct2_le n inp k
    rw [abs_le] at h3 h4 ⊢
    constructor <;> linarith
  have hn32 : (n : ℝ) ≤ 2 ^ 32 := by
    have : (n : ℝ) ≤ 2147483647 := by exact_mod_cast (show n ≤ 2147483647 by omega)
    linarith [show (2147483647 : ℝ) ≤ 2 ^ 32 by norm_num]
  have hmC : size1 n mid' ≤ C := by
    refine hmid.trans (le_trans ?_ hC2)
    have hp : (2 : ℝ) ^ 970 = 2 ^ 32 * (64 * (2 ^ 32 * 2 ^ 900)) := by
      rw [show (64 : ℝ) = 2 ^ 6 by norm_num, ← pow_add, ← pow_add, ← pow_add]
    rw [hp]
    refine mul_le_mul hn32 ?_ (by positivity) (by positivity)
    have hP1 : (1 : ℝ) ≤ 2 ^ 900 := one_le_pow₀ (by norm_num)
    rw [hδ]
    clear hp hC hC2 hle hn32 hmid a4 hδ
    generalize (radixSum (2 * n) : ℝ) / 2 ^ 53 = u at *
    generalize (1 : ℝ) / 2 ^ 1022 = τ at *
    generalize size1 n inp = S at *
    generalize (2 : ℝ) ^ 900 = P at *
    have h3 : 3600 * u * (S + 2 * n * τ) ≤ 1 * (S + 2 * n * τ) := mul_le_mul_of_nonneg_right (by linarith) (by positivity)
    have h4 : 2640 * u * (B + n * τ) ≤ 1 * (B + n * τ) := mul_le_mul_of_nonneg_right (by linarith) (by positivity)
    norm_num
    linarith
  obtain ⟨e', out', b1, _, b3, b4, _⟩ := C133_inverse hfl hlib n h1 h2 hC he mid' out (by omega) ho hmC
  refine ⟨d', mid', e', out', a1, b1, fun j hj => ?_⟩
  have c1 := b4 j hj
  have c2 := dct3_sub_le h1 (fun k => mid'.getD k 0) (fun k => 2 * dct2 n (fun j => inp.getD j 0) k) a4 j
  have c3 : dct3 n (fun k => 2 * dct2 n (fun j => inp.getD j 0) k) j / n = inp.getD j 0 := by
    have : dct3 n (fun k => 2 * dct2 n (fun j => inp.getD j 0) k) j = 2 * dct3 n (dct2 n (fun j => inp.getD j 0)) j := by
      unfold dct3
      rw [mul_add, Finset.mul_sum]
      congr 1
      · ring
      · exact Finset.sum_congr rfl fun k _ => by ring
    rw [this, dct3_dct2 hj]
    field_simp
  rw [c3] at c2
  refine (abs_sub_le _ _ _).trans ((add_le_add c1 c2).trans ?_)
  have hm2 : size1 n mid' / n ≤ 2 * size1 n inp + δ := by
    rw [div_le_iff₀ hn]
    linarith
  have hn1 : (1 : ℝ) ≤ n := by exact_mod_cast h1
  generalize size1 n mid' / n = M at *
  generalize (radixSum (2 * n) : ℝ) / 2 ^ 53 = u at *
  generalize (1 : ℝ) / 2 ^ 1022 = τ at *
  generalize size1 n inp = S at *
  have h5 : 1310 * u * (M + τ) ≤ 1310 * u * (2 * S + δ + τ) := mul_le_mul_of_nonneg_left (by linarith) (by positivity)
  have h6 : 1310 * u * δ ≤ 6 / 1000 * δ := mul_le_mul_of_nonneg_right (by linarith) hδ0
  have h7 : u * τ ≤ u * (n * τ) := mul_le_mul_of_nonneg_left (by nlinarith) r1
  have g1 : 0 ≤ u * S := by positivity
  have g2 : 0 ≤ u * (n * τ) := by positivity
  have g3 : 0 ≤ u * B := by positivity
  nlinarith

/-- The hypotheses are met: five values, on a new object, come back within a billionth. -/
example : ∃ d d' mid e' out, makeF rn (fun x => rn (Real.cos x)) (fun x => rn (Real.sin x)) 5 0 = some d ∧
    forwardF rn d [1, -2, 3, 0, 4] (List.replicate 5 0) = some (d', mid) ∧ inverseF rn d mid (List.replicate 5 0) = some (e', out) ∧ |out.getD 2 0 - 3| ≤ 1 / 10 ^ 9 := by
  have hS : size1 5 [1, -2, 3, 0, 4] = 10 := by norm_num [size1, sum_range_succ]
  obtain ⟨d, h, hr⟩ := C133_construct rounds_rn libm_rn 5 (by norm_num) (by norm_num) 0 0
  obtain ⟨_, h', hr'⟩ := C133_construct rounds_rn libm_rn 5 (by norm_num) (by norm_num) 0 (2 ^ 980)
  rw [h] at h'; cases h'
  obtain ⟨d', mid, e', out, e1, e2, e3⟩ := C133_round_trip rounds_rn libm_rn 5 (by norm_num) (by norm_num) (le_refl 0) (by positivity) (le_refl _) hr hr'
    (pow_le_pow_right₀ (by norm_num) (by norm_num)) [1, -2, 3, 0, 4] (List.replicate 5 0) (List.replicate 5 0) (by simp) (by simp) (by simp)
    (by rw [hS]; exact le_trans (by norm_num : (10 : ℝ) ≤ 2 ^ 4) (pow_le_pow_right₀ (by norm_num) (by norm_num)))
  refine ⟨d, d', mid, e', out, h, e1, e2, ?_⟩
  have hR : radixSum (2 * 5) = 7 := by decide +kernel
  have h3 := e3 2 (by norm_num)
  rw [hS, hR] at h3
  have hk : (1 : ℝ) / 2 ^ 1022 ≤ 1 := by
    rw [div_le_one (by positivity)]; exact one_le_pow₀ (by norm_num)
  refine le_trans h3 ?_
  generalize (1 : ℝ) / 2 ^ 1022 = τ at *
  norm_num
  linarith

end QM.DCT
