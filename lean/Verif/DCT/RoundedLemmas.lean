import Verif.DCT.Rounded
import Verif.DCT.Lemmas
import Verif.FFT.RoundedRealProps

/-!
# The cosine transform in double precision: what a call leaves behind and what it returns
-/

namespace QM.DCT

open QM.FFT QM.DFT QM.Kiss QM.Double Finset

variable {fl cosF sinF : ℝ → ℝ}

/-- The sum of the moduli of the first `n` values. -/
noncomputable def size1 (n : Nat) (xs : List ℝ) : ℝ := ∑ j ∈ range n, |xs.getD j 0|

theorem size1_nonneg (n : Nat) (xs : List ℝ) : 0 ≤ size1 n xs := sum_nonneg fun _ _ => abs_nonneg _

/-- An object between two calls: what an inverse transform has left at the even places of the time buffer is at most `ρ`. -/
structure Near (fl cosF sinF : ℝ → ℝ) (d : T) (n : Nat) (ρ : ℝ) : Prop where
  size : d.n = n
  time2 : d.time2.length = 4 * n
  even : ∀ j : Nat, j < 4 * n → j % 2 = 0 → |d.time2.getD j 0| ≤ ρ
  fr : d.freq2r.length = 4 * n
  fi : d.freq2i.length = 4 * n
  fft : RReachF fl cosF sinF (4 * n) d.fft

/-! ## Sums over the extended signals -/

theorem sum_pairs (m : Nat) (g : Nat → ℝ) : ∑ j ∈ range (2 * m), g j = ∑ j ∈ range m, g (2 * j) + ∑ j ∈ range m, g (2 * j + 1) := by
  induction m with
  | zero => simp
  | succ m ih =>
    rw [show 2 * (m + 1) = 2 * m + 1 + 1 by ring, sum_range_succ, sum_range_succ, ih, sum_range_succ, sum_range_succ]
    ring

theorem sum_odd (n : Nat) (g : Nat → ℝ) : ∑ j ∈ range (2 * n), g (2 * j + 1) = ∑ i ∈ range n, g (2 * i + 1) + ∑ i ∈ range n, g (4 * n - 2 * i - 1) := by
  rw [show 2 * n = n + n by ring, sum_range_add]
  congr 1
  rw [← sum_range_reflect]
  refine sum_congr rfl fun i hi => ?_
  have hi := mem_range.mp hi
  congr 1
  omega

theorem sum_anti (n : Nat) (a : Nat → ℝ) (y : Nat → ℝ) (ha : ∀ k, 0 ≤ a k) (h1 : ∀ k, k < n → a k = y k) (hm : a n = 0)
    (h2 : ∀ k, k < n → a (2 * n - k) = y k) :
    ∑ k ∈ range (2 * n), a k ≤ 2 * ∑ k ∈ range n, y k ∧ ∑ k ∈ range (2 * n), a (2 * n - k) ≤ 2 * ∑ k ∈ range n, y k := by
  have hs : ∑ k ∈ range (2 * n + 1), a k = 2 * ∑ k ∈ range n, y k := by
    rw [show 2 * n + 1 = n + (n + 1) by ring, sum_range_add, sum_range_succ', Nat.add_zero, hm, add_zero, sum_congr rfl fun k hk => h1 k (mem_range.mp hk),
      ← sum_range_reflect (fun j => a (n + (j + 1)))]
    have : ∑ j ∈ range n, a (n + (n - 1 - j + 1)) = ∑ j ∈ range n, y j := by
      refine sum_congr rfl fun j hj => ?_
      have hj := mem_range.mp hj
      rw [← h2 j hj]
      congr 1
      omega
    rw [this]
    ring
  constructor
  · rw [← hs, sum_range_succ]
    linarith [ha (2 * n)]
  · have hr : ∑ k ∈ range (2 * n + 1), a (2 * n - k) = ∑ k ∈ range (2 * n + 1), a k := by
      rw [← sum_range_reflect a]
      exact sum_congr rfl fun k _ => by rw [Nat.add_sub_cancel]
    rw [← hs, ← hr, sum_range_succ]
    linarith [ha (2 * n - 2 * n)]

variable (hfl : Rounds fl) (hlib : Libm cosF sinF)

include hfl hlib in
theorem makeF_ok {n : Nat} (h1 : 1 ≤ n) (h2 : 4 * n ≤ 2147483647) (u : ℂ) : ∃ d, makeF fl cosF sinF n u = some d ∧ Near fl cosF sinF d n 0 := by
  obtain ⟨r, e1, e2⟩ := C84_construct hfl hlib (4 * n) u (by omega) (by omega) h2
  refine ⟨⟨n, fl (n * fl (Real.sqrt (fl (2 / n)))), List.replicate n 0, List.replicate (n * 4) 0, List.replicate (n * 4) 0,
    List.replicate (n * 4) 0, r⟩, ?_, ⟨rfl, by simp; omega, ?_, by simp; omega, by simp; omega, e2⟩⟩
  · unfold makeF
    rw [show n * 4 = 4 * n by ring, e1]; rfl
  · intro j hj _
    have : j < n * 4 := by omega
    simp [List.getD, this]

include hfl hlib in
theorem forwardF_ok {n : Nat} {ρ : ℝ} (h1 : 1 ≤ n) (h2 : 4 * n ≤ 2147483647) {d : T} (hd : Near fl cosF sinF d n ρ) (inp out : List ℝ)
    (hi : n ≤ inp.length) (ho : n ≤ out.length) (hS : 2 * size1 n inp + 2 * n * ρ + 4 * n * (1 / 2 ^ 1022) ≤ 2 ^ 1000) :
    ∃ d' out', forwardF fl d inp out = some (d', out') ∧ Near fl cosF sinF d' n ρ ∧ out'.length = out.length ∧
      (∀ k : Nat, k < n → |out'.getD k 0 - 2 * dct2 n (fun j => inp.getD j 0) k| ≤
        1800 * radixSum (2 * n) / 2 ^ 53 * (2 * size1 n inp + 2 * n * ρ + 4 * n * (1 / 2 ^ 1022)) + 2 * n * ρ) ∧
      (∀ k : Nat, n ≤ k → out'[k]? = out[k]?) := by
  obtain ⟨t, a1, a2, a3, a4, a5⟩ := loop_inv (n := n) (s := d.time2) (f := fun i t => do
      let v ← inp[i]?
      let t ← wr t (i * 2 + 1) v
      wr t (n * 4 - i * 2 - 1) v)
    (P := fun i t => t.length = 4 * n ∧ (∀ j : Nat, j < 4 * n → j % 2 = 0 → t[j]? = d.time2[j]?) ∧
      (∀ j : Nat, j < i → t[2 * j + 1]? = some (inp.getD j 0)) ∧
      (∀ j : Nat, j < i → t[4 * n - 2 * j - 1]? = some (inp.getD j 0)))
    ⟨hd.time2, fun _ _ _ => rfl, fun j hj => absurd hj (Nat.not_lt_zero j), fun j hj => absurd hj (Nat.not_lt_zero j)⟩
    (by
      rintro i t hin ⟨hl, he, hf, hb⟩
      have hv : inp[i]? = some (inp.getD i 0) := by simp [List.getElem?_eq_getElem (show i < inp.length by omega)]
      refine ⟨(t.set (i * 2 + 1) (inp.getD i 0)).set (n * 4 - i * 2 - 1) (inp.getD i 0), ?_, by simp [hl], ?_, ?_, ?_⟩
      · simp only [hv, Option.bind_eq_bind, Option.bind_some]
        rw [wr_some _ (by omega)]
        simp only [Option.bind_some]
        rw [wr_some _ (by simp; omega)]
      · intro j hj hj'
        rw [List.getElem?_set_ne (by omega), List.getElem?_set_ne (by omega)]
        exact he j hj hj'
      · intro j hj
        rw [List.getElem?_set_ne (by omega)]
        by_cases e : j = i
        · subst e; rw [show j * 2 + 1 = 2 * j + 1 by ring, List.getElem?_set_self (by omega)]
        · rw [List.getElem?_set_ne (by omega)]; exact hf j (by omega)
      · intro j hj
        by_cases e : j = i
        · subst e
          rw [show n * 4 - j * 2 - 1 = 4 * n - 2 * j - 1 by omega, List.getElem?_set_self (by simp; omega)]
        · rw [List.getElem?_set_ne (by omega), List.getElem?_set_ne (by omega)]; exact hb j (by omega))
  have heven : ∀ j : Nat, j < 4 * n → j % 2 = 0 → |t.getD j 0| ≤ ρ := fun j hj hj' => by
    rw [List.getD_eq_getElem?_getD, a3 j hj hj', ← List.getD_eq_getElem?_getD]
    exact hd.even j hj hj'
  have hEv : ∑ j ∈ range (2 * n), |t.getD (2 * j) 0| ≤ 2 * n * ρ := by
    refine (sum_le_card_nsmul _ _ ρ fun j hj => heven (2 * j) ?_ ?_).trans (by rw [card_range, nsmul_eq_mul]; push_cast; rfl)
    · have := mem_range.mp hj; omega
    · omega
  have hOd : ∑ j ∈ range (2 * n), |t.getD (2 * j + 1) 0| = 2 * size1 n inp := by
    rw [sum_odd n (fun j => |t.getD j 0|)]
    unfold size1
    rw [two_mul]
    congr 1
    · exact sum_congr rfl fun j hj => by rw [List.getD_eq_getElem?_getD, a4 j (mem_range.mp hj), Option.getD_some]
    · exact sum_congr rfl fun j hj => by rw [List.getD_eq_getElem?_getD, a5 j (mem_range.mp hj), Option.getD_some]
  have hT : total (4 * n) (fun j => ((t.getD j 0 : ℝ) : ℂ)) ≤ 2 * size1 n inp + 2 * n * ρ + 4 * n * (1 / 2 ^ 1022) := by
    unfold total
    rw [sum_add_distrib, sum_const, card_range, nsmul_eq_mul]
    have : ∑ j ∈ range (4 * n), ‖((t.getD j 0 : ℝ) : ℂ)‖ = ∑ j ∈ range (2 * n), |t.getD (2 * j) 0| + ∑ j ∈ range (2 * n), |t.getD (2 * j + 1) 0| := by
      rw [show 4 * n = 2 * (2 * n) by ring, ← sum_pairs (2 * n) fun j => |t.getD j 0|]
      exact sum_congr rfl fun j _ => by rw [Complex.norm_real, Real.norm_eq_abs]
    rw [this, hOd, Nat.cast_mul, Nat.cast_ofNat]
    linarith
  obtain ⟨fft, fr, fi, b1, b2, b3, b4, b5, _⟩ := C84_forward hfl hlib (4 * n) (by omega) (by omega) h2 hd.fft t d.freq2r d.freq2i
    (by omega) (by rw [hd.fr]) (by rw [hd.fi]) (hT.trans hS)
  rw [show 4 * n / 2 = 2 * n by omega] at b5
  have hX : ∀ k : Nat, k < n → fr[k]? = some (fr.getD k 0) ∧ |fr.getD k 0 - 2 * dct2 n (fun j => inp.getD j 0) k| ≤
      1800 * radixSum (2 * n) / 2 ^ 53 * (2 * size1 n inp + 2 * n * ρ + 4 * n * (1 / 2 ^ 1022)) + 2 * n * ρ := by
    intro k hk
    obtain ⟨a, b, e1, _, e3⟩ := b5 k (by omega)
    have hg : fr.getD k 0 = a := by rw [List.getD_eq_getElem?_getD, e1, Option.getD_some]
    refine ⟨by rw [hg, e1], ?_⟩
    rw [hg]
    have hz := dft_ext (n := n) (by omega) (fun j => if j % 2 = 0 then 0 else t.getD j 0) (fun j => inp.getD j 0) (fun j hj => if_pos hj)
      (fun i hi' => by rw [if_neg (by omega), List.getD_eq_getElem?_getD, a4 i hi', Option.getD_some])
      (fun i hi' => by rw [if_neg (by omega), List.getD_eq_getElem?_getD, a5 i hi', Option.getD_some]) k
    rw [← hz]
    have hdiff : ‖dft false (4 * n) (fun j => ((t.getD j 0 : ℝ) : ℂ)) k - dft false (4 * n) (fun j => ((if j % 2 = 0 then 0 else t.getD j 0 : ℝ) : ℂ)) k‖ ≤ 2 * n * ρ := by
      refine (dft_sub_sum _ _ _ _ _).trans (le_trans (le_of_eq ?_) hEv)
      rw [show 4 * n = 2 * (2 * n) by ring, sum_pairs (2 * n) fun j => ‖((t.getD j 0 : ℝ) : ℂ) - ((if j % 2 = 0 then 0 else t.getD j 0 : ℝ) : ℂ)‖]
      have z1 : ∑ j ∈ range (2 * n), ‖((t.getD (2 * j + 1) 0 : ℝ) : ℂ) - ((if (2 * j + 1) % 2 = 0 then 0 else t.getD (2 * j + 1) 0 : ℝ) : ℂ)‖ = 0 :=
        sum_eq_zero fun j _ => by rw [if_neg (by omega), sub_self, norm_zero]
      rw [z1, add_zero]
      exact sum_congr rfl fun j _ => by rw [if_pos (by omega), Complex.ofReal_zero, sub_zero, Complex.norm_real, Real.norm_eq_abs]
    have hre := (Complex.abs_re_le_norm _).trans e3
    have hre2 := (Complex.abs_re_le_norm _).trans hdiff
    rw [Complex.sub_re] at hre hre2
    have hmono : 1800 * (radixSum (2 * n) : ℝ) / 2 ^ 53 * total (4 * n) (fun j => ((t.getD j 0 : ℝ) : ℂ)) ≤
        1800 * radixSum (2 * n) / 2 ^ 53 * (2 * size1 n inp + 2 * n * ρ + 4 * n * (1 / 2 ^ 1022)) := mul_le_mul_of_nonneg_left hT (by positivity)
    exact (abs_sub_le _ _ _).trans (add_le_add (hre.trans hmono) hre2)
  obtain ⟨o, c1, c2, c3, c4⟩ := fill_ok n (fun i o => do
      let v ← fr[i]?
      wr o i v) (fun k => fr.getD k 0) out ho
    (by
      intro i b hin hl _ _
      simp only [(hX i hin).1, Option.bind_eq_bind, Option.bind_some]
      rw [wr_some _ (by omega)])
  refine ⟨⟨n, d.scale, d.scaled, t, fr, fi, fft⟩, o, ?_, ⟨rfl, a2, heven, by simp only; rw [b3, hd.fr], by simp only; rw [b4, hd.fi], b2⟩, c2, ?_, c4⟩
  · unfold forwardF
    simp only [Option.bind_eq_bind] at a1 c1
    simp only [hd.size, Option.bind_eq_bind]
    rw [a1]
    simp only [Option.bind_some, b1]
    rw [c1]
    rfl
  · intro k hk
    rw [List.getD_eq_getElem?_getD, c3 k hk, Option.getD_some]
    exact (hX k hk).2

include hfl hlib in
theorem inverseF_ok {n : Nat} {ρ : ℝ} (h1 : 1 ≤ n) (h2 : 4 * n ≤ 2147483647) {d : T} (hd : Near fl cosF sinF d n ρ) (inp out : List ℝ)
    (hi : n ≤ inp.length) (ho : n ≤ out.length) (hS : 4 * size1 n inp + 4 * n * (1 / 2 ^ 1022) ≤ 2 ^ 990) :
    ∃ d' out', inverseF fl d inp out = some (d', out') ∧ Near fl cosF sinF d' n (1310 * radixSum (2 * n) / 2 ^ 53 * (size1 n inp / n + 1 / 2 ^ 1022)) ∧
      out'.length = out.length ∧
      (∀ m : Nat, m < n → |out'.getD m 0 - dct3 n (fun k => inp.getD k 0) m / n| ≤ 1310 * radixSum (2 * n) / 2 ^ 53 * (size1 n inp / n + 1 / 2 ^ 1022)) ∧
      (∀ m : Nat, n ≤ m → out'[m]? = out[m]?) := by
  have hn : (0 : ℝ) < n := by exact_mod_cast h1
  have hv : ∀ i : Nat, i < n → inp[i]? = some (inp.getD i 0) := fun i hin => by
    simp [List.getElem?_eq_getElem (show i < inp.length by omega)]
  obtain ⟨f1, a1, a2, a3, _⟩ := fill_ok n (fun i f => do
      let v ← inp[i]?
      wr f i v) (fun i => inp.getD i 0) d.freq2r (by rw [hd.fr]; omega)
    (by
      intro i b hin hl _ _
      simp only [hv i hin, Option.bind_eq_bind, Option.bind_some]
      rw [wr_some _ (by rw [hl, hd.fr]; omega)])
  rw [hd.fr] at a2
  obtain ⟨f2, b1, b2, b3, b4⟩ := loop_inv (n := n) (s := f1) (f := fun i f => do
      let v ← inp[i]?
      wr f (n * 2 - i) (-v))
    (P := fun i f => f.length = 4 * n ∧ (∀ j : Nat, j < n → f[j]? = some (inp.getD j 0)) ∧
      (∀ j : Nat, j < i → f[2 * n - j]? = some (-inp.getD j 0)))
    ⟨a2, a3, fun j hj => absurd hj (Nat.not_lt_zero j)⟩
    (by
      rintro i f hin ⟨hl, hx, hy⟩
      refine ⟨f.set (n * 2 - i) (-inp.getD i 0), ?_, by simp [hl], ?_, ?_⟩
      · simp only [hv i hin, Option.bind_eq_bind, Option.bind_some]
        rw [wr_some _ (by omega)]
      · intro j hj
        rw [List.getElem?_set_ne (by omega)]; exact hx j hj
      · intro j hj
        by_cases e : j = i
        · subst e; rw [show n * 2 - j = 2 * n - j by omega, List.getElem?_set_self (by omega)]
        · rw [List.getElem?_set_ne (by omega)]; exact hy j (by omega))
  obtain ⟨fi, c1, c2, c3, _⟩ := fill_ok (n * 2 + 1) (fun i f => wr f i (0 : ℝ)) (fun _ => 0) d.freq2i (by rw [hd.fi]; omega)
    (by
      intro i b hin hl _ _
      rw [wr_some _ (by rw [hl, hd.fi]; omega)])
  rw [hd.fi] at c2
  obtain ⟨Y, hY⟩ : ∃ Y : Nat → ℝ, Y = fun k => (f2.set n 0).getD k 0 := ⟨_, rfl⟩
  have y1 : ∀ k, k < n → Y k = inp.getD k 0 := fun k hk => by
    have hne : n ≠ k := by omega
    rw [hY]
    simp only [List.getD, List.getElem?_set_ne hne, b3 k hk]; rfl
  have y2 : Y n = 0 := by
    have hlt : n < f2.length := by omega
    rw [hY]
    simp only [List.getD, List.getElem?_set_self hlt]; rfl
  have y3 : ∀ k, k < n → Y (2 * n - k) = -inp.getD k 0 := fun k hk => by
    have hne : n ≠ 2 * n - k := by omega
    rw [hY]
    simp only [List.getD, List.getElem?_set_ne hne, b4 k hk]; rfl
  have hz : ∀ k : Nat, k ≤ 2 * n → fi.getD k 0 = 0 := by
    intro k hk
    simp only [List.getD, c3 k (by omega)]; rfl
  have hH : ∀ k, k < 4 * n → herm (4 * n / 2) (fun k => ⟨(f2.set n 0).getD k 0, fi.getD k 0⟩) k = herm (2 * n) (fun k => ⟨Y k, 0⟩) k := by
    intro k hk
    rw [show 4 * n / 2 = 2 * n by omega, hY]
    unfold herm
    beta_reduce
    split_ifs with x y z
    · rfl
    · rw [hz k (by omega)]
    · rfl
    · rw [hz _ (by omega)]
  obtain ⟨s1, s2⟩ := sum_anti n (fun k => |Y k|) (fun k => |inp.getD k 0|) (fun _ => abs_nonneg _) (fun k hk => by rw [y1 k hk]) (by rw [y2, abs_zero])
    (fun k hk => by rw [y3 k hk, abs_neg])
  have hT : total (4 * n) (herm (4 * n / 2) (fun k => ⟨(f2.set n 0).getD k 0, fi.getD k 0⟩)) ≤ 4 * size1 n inp + 4 * n * (1 / 2 ^ 1022) := by
    unfold total
    rw [sum_add_distrib, sum_const, card_range, nsmul_eq_mul, sum_congr rfl fun k hk => by rw [hH k (mem_range.mp hk)], show 4 * n = 2 * n + 2 * n by ring, sum_range_add]
    have t1 : ∑ k ∈ range (2 * n), ‖herm (2 * n) (fun k => ⟨Y k, 0⟩) k‖ = ∑ k ∈ range (2 * n), |Y k| := by
      refine sum_congr rfl fun k hk => ?_
      have hk := mem_range.mp hk
      unfold herm
      by_cases e : k = 0
      · subst e
        rw [if_pos rfl, Complex.norm_real, Real.norm_eq_abs]
      · rw [if_neg e, if_pos hk]
        exact (congrArg norm (show (⟨Y k, 0⟩ : ℂ) = ((Y k : ℝ) : ℂ) from rfl)).trans (by rw [Complex.norm_real, Real.norm_eq_abs])
    have t2 : ∑ k ∈ range (2 * n), ‖herm (2 * n) (fun k => ⟨Y k, 0⟩) (2 * n + k)‖ = ∑ k ∈ range (2 * n), |Y (2 * n - k)| := by
      refine sum_congr rfl fun k hk => ?_
      have hk := mem_range.mp hk
      unfold herm
      rw [if_neg (by omega), if_neg (by omega)]
      by_cases e : k = 0
      · subst e
        rw [if_pos (by omega), Complex.norm_real, Real.norm_eq_abs, Nat.sub_zero]
      · rw [if_neg (by omega), RCLike.norm_conj, show 2 * (2 * n) - (2 * n + k) = 2 * n - k by omega]
        exact (congrArg norm (show (⟨Y (2 * n - k), 0⟩ : ℂ) = ((Y (2 * n - k) : ℝ) : ℂ) from rfl)).trans (by rw [Complex.norm_real, Real.norm_eq_abs])
    rw [t1, t2]
    unfold size1
    rw [Nat.cast_add, Nat.cast_mul, Nat.cast_ofNat]
    linarith
  obtain ⟨fft, t, e1, e2, e3, e4, _⟩ := C84_inverse hfl hlib (4 * n) (by omega) (by omega) h2 hd.fft (f2.set n 0) fi d.time2
    (by simp [b2]; omega) (by omega) (by rw [hd.time2]) (hT.trans hS)
  rw [hd.time2] at e3
  have ht : ∀ l : Nat, l < 4 * n → t[l]? = some (t.getD l 0) ∧ |t.getD l 0 - if l % 2 = 0 then 0 else dct3 n (fun k => inp.getD k 0) (l / 2) / n| ≤
      1310 * radixSum (2 * n) / 2 ^ 53 * (size1 n inp / n + 1 / 2 ^ 1022) := by
    intro l hl
    obtain ⟨v, hv1, hv2⟩ := e4 l hl
    have hg : t.getD l 0 = v := by rw [List.getD_eq_getElem?_getD, hv1, Option.getD_some]
    refine ⟨by rw [hg, hv1], ?_⟩
    rw [hg, ← idft_ext (n := n) (by omega) Y (fun k => inp.getD k 0) y1 y2 y3 l]
    have hc : dft true (4 * n) (herm (4 * n / 2) (fun k => ⟨(f2.set n 0).getD k 0, fi.getD k 0⟩)) l = dft true (4 * n) (herm (2 * n) (fun k => ⟨Y k, 0⟩)) l :=
      dft_congr true hH l
    rw [hc] at hv2
    have hre := (Complex.abs_re_le_norm _).trans hv2
    rw [Complex.sub_re, Complex.ofReal_re] at hre
    refine hre.trans ?_
    rw [show 4 * n / 2 = 2 * n by omega] at hT ⊢
    refine mul_le_mul_of_nonneg_left ?_ (by positivity)
    calc 1 / ((4 * n : Nat) : ℝ) * total (4 * n) (herm (2 * n) (fun k => ⟨(f2.set n 0).getD k 0, fi.getD k 0⟩))
        ≤ 1 / ((4 * n : Nat) : ℝ) * (4 * size1 n inp + 4 * n * (1 / 2 ^ 1022)) := mul_le_mul_of_nonneg_left hT (by positivity)
      _ = size1 n inp / n + 1 / 2 ^ 1022 := by push_cast; field_simp
  obtain ⟨o, g1, g2, g3, g4⟩ := fill_ok n (fun i o => do
      let v ← t[i * 2 + 1]?
      wr o i v) (fun m => t.getD (m * 2 + 1) 0) out ho
    (by
      intro i b hin hl _ _
      simp only [(ht (i * 2 + 1) (by omega)).1, Option.bind_eq_bind, Option.bind_some]
      rw [wr_some _ (by omega)])
  refine ⟨⟨n, d.scale, d.scaled, t, f2.set n 0, fi, fft⟩, o, ?_, ⟨rfl, e3, ?_, by simp [b2], c2, e2⟩, g2, ?_, g4⟩
  · unfold inverseF
    simp only [Option.bind_eq_bind] at a1 b1 g1
    simp only [hd.size, Option.bind_eq_bind]
    rw [a1]
    simp only [Option.bind_some]
    rw [b1]
    simp only [Option.bind_some]
    rw [wr_some _ (by omega)]
    simp only [Option.bind_some]
    rw [c1]
    simp only [Option.bind_some, e1]
    rw [g1]
    rfl
  · intro j hj hj'
    have := (ht j hj).2
    rwa [if_pos hj', sub_zero] at this
  · intro m hm
    have := (ht (m * 2 + 1) (by omega)).2
    rw [if_neg (by omega), show (m * 2 + 1) / 2 = m by omega] at this
    rwa [List.getD_eq_getElem?_getD, g3 m hm, Option.getD_some]

end QM.DCT
