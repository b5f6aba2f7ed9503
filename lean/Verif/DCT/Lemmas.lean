import Verif.DCT.Model
import Verif.DCT.Math
import Verif.FFT.RealProps

namespace QM.DCT

open Complex QM.FFT QM.DFT

/-- What every `DCT` object of size `n` contains between calls: in particular the even elements of `m_time2` are zero. -/
structure Ok (d : T) (n : Nat) : Prop where
  size : d.n = n
  scale : d.scale = n * Real.sqrt (2 / n)
  scaled : d.scaled.length = n
  time2 : d.time2.length = 4 * n
  even : ∀ j : Nat, j < 4 * n → j % 2 = 0 → d.time2[j]? = some 0
  fr : d.freq2r.length = 4 * n
  fi : d.freq2i.length = 4 * n
  fft : RReach (4 * n) d.fft

theorem dft_re (N : Nat) (x : Nat → ℝ) (k : Nat) (inv : Bool) :
    (dft inv N (fun j => (x j : ℂ)) k).re = ∑ j ∈ Finset.range N, x j * Real.cos (2 * Real.pi * j * k / N) := by
  unfold dft
  rw [Complex.re_sum]
  refine Finset.sum_congr rfl fun j _ => ?_
  rw [Complex.re_ofReal_mul]
  congr 1
  have : (2 * Real.pi * I * j * k / N : ℂ) = ((2 * Real.pi * j * k / N : ℝ) : ℂ) * I := by push_cast; ring
  rw [this]
  cases inv
  · rw [show (if false = true then (1 : ℂ) else -1) * (((2 * Real.pi * j * k / N : ℝ) : ℂ) * I) =
      ((-(2 * Real.pi * j * k / N) : ℝ) : ℂ) * I by push_cast; simp, Complex.exp_ofReal_mul_I_re, Real.cos_neg]
  · rw [show (if true = true then (1 : ℂ) else -1) * (((2 * Real.pi * j * k / N : ℝ) : ℂ) * I) =
      ((2 * Real.pi * j * k / N : ℝ) : ℂ) * I by simp, Complex.exp_ofReal_mul_I_re]

theorem cos_refl {N : Nat} (hN : N ≠ 0) (j k : Nat) (hj : j ≤ N) :
    Real.cos (2 * Real.pi * ((N - j : Nat) : ℝ) * k / N) = Real.cos (2 * Real.pi * j * k / N) := by
  have hN' : (N : ℝ) ≠ 0 := by exact_mod_cast hN
  rw [Nat.cast_sub hj, show 2 * Real.pi * ((N : ℝ) - j) * k / N = k * (2 * Real.pi) - 2 * Real.pi * j * k / N by
    field_simp, Real.cos_nat_mul_two_pi_sub]

/-- The transform of the extended signal is twice the DCT-II. -/
theorem dft_ext {n : Nat} (hn : 0 < n) (e x : Nat → ℝ) (h0 : ∀ j, j % 2 = 0 → e j = 0)
    (h1 : ∀ i, i < n → e (2 * i + 1) = x i) (h2 : ∀ i, i < n → e (4 * n - 2 * i - 1) = x i) (k : Nat) :
    (dft false (4 * n) (fun j => (e j : ℂ)) k).re = 2 * dct2 n x k := by
  have hn' : (n : ℝ) ≠ 0 := by exact_mod_cast hn.ne'
  rw [dft_re, show 4 * n = 2 * (2 * n) by ring, sum_fold (2 * n) (by omega) 1]
  · rw [h0 0 (by omega), h0 (2 * n) (by omega)]
    have hsum : ∀ m : Nat, ∀ g : Nat → ℝ, (∀ j, j % 2 = 0 → g j = 0) →
        ∑ j ∈ Finset.range (2 * m), g j = ∑ i ∈ Finset.range m, g (2 * i + 1) := by
      intro m g hg
      induction m with
      | zero => simp
      | succ m ih =>
        rw [show 2 * (m + 1) = 2 * m + 1 + 1 by ring, Finset.sum_range_succ, Finset.sum_range_succ, ih, hg (2 * m) (by omega),
          Finset.sum_range_succ]
        ring
    have hs : ∑ j ∈ Finset.Ico 1 (2 * n), e j * Real.cos (2 * Real.pi * j * k / ((2 * (2 * n) : Nat) : ℝ)) = dct2 n x k := by
      have : ∑ j ∈ Finset.range (2 * n), e j * Real.cos (2 * Real.pi * j * k / ((2 * (2 * n) : Nat) : ℝ)) = dct2 n x k := by
        rw [hsum n _ (fun j hj => by rw [h0 j hj, zero_mul])]
        unfold dct2
        refine Finset.sum_congr rfl fun i hi => ?_
        rw [Finset.mem_range] at hi
        rw [h1 i hi, ker]
        congr 2
        push_cast; field_simp
      rw [← this, Finset.range_eq_Ico, Finset.sum_eq_sum_Ico_succ_bot (show 0 < 2 * n by omega), h0 0 (by omega)]
      simp
    rw [hs]; ring
  · intro j hj hj'
    rw [cos_refl (by omega) j k (by omega), one_mul]
    congr 1
    by_cases hp : j % 2 = 0
    · rw [h0 j hp, h0 _ (by omega)]
    · obtain ⟨i, rfl⟩ : ∃ i, j = 2 * i + 1 := ⟨j / 2, by omega⟩
      rw [h1 i (by omega), show 2 * (2 * n) - (2 * i + 1) = 4 * n - 2 * i - 1 by omega, h2 i (by omega)]

/-- The inverse transform of the antisymmetric real spectrum: the DCT-III at odd times and zero at even times. -/
theorem idft_ext {n : Nat} (hn : 0 < n) (Y y : Nat → ℝ) (h1 : ∀ k, k < n → Y k = y k) (hm : Y n = 0)
    (h2 : ∀ k, k < n → Y (2 * n - k) = -y k) (l : Nat) :
    (1 / ((4 * n : Nat) : ℂ) * dft true (4 * n) (herm (2 * n) (fun k => ⟨Y k, 0⟩)) l).re =
      if l % 2 = 0 then 0 else dct3 n y (l / 2) / n := by
  have hn' : (n : ℝ) ≠ 0 := by exact_mod_cast hn.ne'
  obtain ⟨Z, hZ⟩ : ∃ Z : Nat → ℝ, Z = fun k => if k ≤ 2 * n then Y k else Y (4 * n - k) := ⟨_, rfl⟩
  have hh : dft true (4 * n) (herm (2 * n) (fun k => ⟨Y k, 0⟩)) l = dft true (4 * n) (fun k => (Z k : ℂ)) l := by
    unfold dft
    refine Finset.sum_congr rfl fun k hk => ?_
    congr 1
    rw [hZ]
    unfold herm
    beta_reduce
    split_ifs with a b c d e f g
    · subst a; rfl
    · omega
    · rfl
    · omega
    · subst e; rfl
    · omega
    · omega
    · rw [show 2 * (2 * n) - k = 4 * n - k by ring_nf]
      apply Complex.ext <;> simp
  rw [hh]
  have e0 : (1 / ((4 * n : Nat) : ℂ)) = ((1 / ((4 * n : Nat) : ℝ) : ℝ) : ℂ) := by push_cast; rfl
  rw [e0, Complex.re_ofReal_mul, dft_re]
  have e1 := sum_fold (2 * n) (by omega) 1 (fun j => Z j * Real.cos (2 * Real.pi * j * l / ((4 * n : Nat) : ℝ)))
    (by
      intro k hk hk'
      beta_reduce
      rw [show 2 * (2 * n) - k = 4 * n - k by ring_nf, cos_refl (by omega) k l (by omega), one_mul]
      congr 1
      rw [hZ]; beta_reduce
      rw [if_neg (by omega), if_pos (by omega), show 4 * n - (4 * n - k) = k by omega])
  rw [show 2 * (2 * n) = 4 * n by ring] at e1
  rw [e1]
  have hcos : ∀ k, k ≤ 2 * n → Real.cos (2 * Real.pi * ((2 * n - k : Nat) : ℝ) * l / ((4 * n : Nat) : ℝ)) =
      (-1) ^ l * Real.cos (2 * Real.pi * k * l / ((4 * n : Nat) : ℝ)) := by
    intro k hk
    rw [Nat.cast_sub hk, ← Real.cos_nat_mul_pi_sub]
    congr 1
    push_cast; field_simp; ring
  have e2 := sum_fold n hn (-(-1) ^ l) (fun j => Z j * Real.cos (2 * Real.pi * j * l / ((4 * n : Nat) : ℝ)))
    (by
      intro k hk hk'
      beta_reduce
      rw [hcos k (by omega), hZ]
      beta_reduce
      rw [if_pos (by omega), if_pos (by omega), h2 k hk', h1 k hk']
      ring)
  rw [Finset.range_eq_Ico, Finset.sum_eq_sum_Ico_succ_bot (show 0 < 2 * n by omega)] at e2
  have e3 : ∑ k ∈ Finset.Ico 1 (2 * n), Z k * Real.cos (2 * Real.pi * k * l / ((4 * n : Nat) : ℝ)) =
      (1 - (-1) ^ l) * ∑ k ∈ Finset.Ico 1 n, Z k * Real.cos (2 * Real.pi * k * l / ((4 * n : Nat) : ℝ)) := by
    have hz : Z n = 0 := by rw [hZ]; beta_reduce; rw [if_pos (by omega), hm]
    rw [hz] at e2
    simp only [zero_add] at e2
    linear_combination e2
  beta_reduce
  rw [e3]
  have hz0 : Z 0 = y 0 := by rw [hZ]; beta_reduce; rw [if_pos (by omega), h1 0 hn]
  have hz2 : Z (2 * n) = -y 0 := by rw [hZ]; beta_reduce; rw [if_pos (by omega)]; exact h2 0 hn
  have hc2 : Real.cos (2 * Real.pi * ((2 * n : Nat) : ℝ) * l / ((4 * n : Nat) : ℝ)) = (-1) ^ l := by
    have := hcos 0 (by omega)
    simpa using this
  rw [hz0, hz2, hc2]
  by_cases hl : l % 2 = 0
  · rw [if_pos hl]
    have : (-1 : ℝ) ^ l = 1 := Even.neg_one_pow (Nat.even_iff.mpr hl)
    rw [this]; simp
  · rw [if_neg hl]
    have : (-1 : ℝ) ^ l = -1 := Odd.neg_one_pow (Nat.odd_iff.mpr (by omega))
    rw [this, dct3]
    have e4 : ∑ k ∈ Finset.Ico 1 n, Z k * Real.cos (2 * Real.pi * k * l / ((4 * n : Nat) : ℝ)) =
        ∑ k ∈ Finset.Ico 1 n, y k * ker n k (l / 2) := by
      refine Finset.sum_congr rfl fun k hk => ?_
      rw [Finset.mem_Ico] at hk
      have hzk : Z k = y k := by rw [hZ]; beta_reduce; rw [if_pos (by omega), h1 k hk.2]
      rw [hzk, ker]
      congr 2
      have hl' : (l : ℝ) = 2 * ((l / 2 : Nat) : ℝ) + 1 := by exact_mod_cast (show l = 2 * (l / 2) + 1 by omega)
      rw [hl']; push_cast; field_simp; ring
    rw [e4]
    push_cast
    field_simp
    simp
    ring

theorem forward_ok {n : Nat} (h1 : 1 ≤ n) (h2 : 4 * n ≤ 2147483647) {d : T} (hd : Ok d n) (inp out : List ℝ)
    (hi : n ≤ inp.length) (ho : n ≤ out.length) :
    ∃ d' out', forward d inp out = some (d', out') ∧ Ok d' n ∧ out'.length = out.length ∧
      (∀ k : Nat, k < n → out'[k]? = some (2 * dct2 n (fun j => inp.getD j 0) k)) ∧
      (∀ k : Nat, n ≤ k → out'[k]? = out[k]?) := by
  obtain ⟨t, a1, a2, a3, a4, a5⟩ := loop_inv (n := n) (s := d.time2) (f := fun i t => do
      let v ← inp[i]?
      let t ← wr t (i * 2 + 1) v
      wr t (n * 4 - i * 2 - 1) v)
    (P := fun i t => t.length = 4 * n ∧ (∀ j : Nat, j < 4 * n → j % 2 = 0 → t[j]? = some 0) ∧
      (∀ j : Nat, j < i → t[2 * j + 1]? = some (inp.getD j 0)) ∧
      (∀ j : Nat, j < i → t[4 * n - 2 * j - 1]? = some (inp.getD j 0)))
    ⟨hd.time2, hd.even, fun j hj => absurd hj (Nat.not_lt_zero j), fun j hj => absurd hj (Nat.not_lt_zero j)⟩
    (by
      rintro i t hin ⟨hl, he, hf, hb⟩
      have hv : inp[i]? = some (inp.getD i 0) := by simp [List.getElem?_eq_getElem (show i < inp.length by omega)]
      refine ⟨(t.set (i * 2 + 1) (inp.getD i 0)).set (n * 4 - i * 2 - 1) (inp.getD i 0), ?_, by simp [hl], ?_, ?_, ?_⟩
      · simp only [hv, Option.bind_eq_bind, Option.bind_some]
        rw [wr_some _ (by omega)]
        simp only [Option.bind_some]
        rw [wr_some _ (by simp; omega)]
      · intro j hj hj'
        rw [List.getElem?_set_ne (by omega), List.getElem?_set_ne (by omega)]
        exact he j hj hj'
      · intro j hj
        rw [List.getElem?_set_ne (by omega)]
        by_cases e : j = i
        · subst e; rw [show j * 2 + 1 = 2 * j + 1 by ring, List.getElem?_set_self (by omega)]
        · rw [List.getElem?_set_ne (by omega)]; exact hf j (by omega)
      · intro j hj
        by_cases e : j = i
        · subst e
          rw [show n * 4 - j * 2 - 1 = 4 * n - 2 * j - 1 by omega, List.getElem?_set_self (by simp; omega)]
        · rw [List.getElem?_set_ne (by omega), List.getElem?_set_ne (by omega)]; exact hb j (by omega))
  obtain ⟨fft, fr, fi, b1, b2, b3, b4, b5, _⟩ := C24_forward (4 * n) (by omega) (by omega) h2 hd.fft t d.freq2r d.freq2i
    (by omega) (by rw [hd.fr]) (by rw [hd.fi])
  have hX : ∀ k : Nat, k < n → fr[k]? = some (2 * dct2 n (fun j => inp.getD j 0) k) := by
    intro k hk
    obtain ⟨a, b, e1, _, e3⟩ := b5 k (by omega)
    rw [e1]
    congr 1
    have := congrArg Complex.re e3
    simp only at this
    rw [this]
    apply dft_ext (by omega)
    · intro j hj
      by_cases hj4 : j < 4 * n
      · simp [List.getD, a3 j hj4 hj]
      · simp [List.getD, List.getElem?_eq_none (show t.length ≤ j by omega)]
    · intro i hi'
      simp only [List.getD, a4 i hi']
      rfl
    · intro i hi'
      simp only [List.getD, a5 i hi']
      rfl
  obtain ⟨o, c1, c2, c3, c4⟩ := fill_ok n (fun i o => do
      let v ← fr[i]?
      wr o i v) (fun k => 2 * dct2 n (fun j => inp.getD j 0) k) out ho
    (by
      intro i b hin hl _ _
      simp only [hX i hin, Option.bind_eq_bind, Option.bind_some]
      rw [wr_some _ (by omega)])
  refine ⟨⟨n, d.scale, d.scaled, t, fr, fi, fft⟩, o, ?_, ⟨rfl, hd.scale, hd.scaled, a2, a3, by simp only; rw [b3, hd.fr],
    by simp only; rw [b4, hd.fi], b2⟩, c2, c3, c4⟩
  unfold forward
  simp only [Option.bind_eq_bind] at a1 c1
  simp only [hd.size, Option.bind_eq_bind]
  rw [a1]
  simp only [Option.bind_some, b1]
  rw [c1]
  rfl

theorem inverse_ok {n : Nat} (h1 : 1 ≤ n) (h2 : 4 * n ≤ 2147483647) {d : T} (hd : Ok d n) (inp out : List ℝ)
    (hi : n ≤ inp.length) (ho : n ≤ out.length) :
    ∃ d' out', inverse d inp out = some (d', out') ∧ Ok d' n ∧ out'.length = out.length ∧
      (∀ m : Nat, m < n → out'[m]? = some (dct3 n (fun k => inp.getD k 0) m / n)) ∧
      (∀ m : Nat, n ≤ m → out'[m]? = out[m]?) := by
  have hv : ∀ i : Nat, i < n → inp[i]? = some (inp.getD i 0) := fun i hin => by
    simp [List.getElem?_eq_getElem (show i < inp.length by omega)]
  obtain ⟨f1, a1, a2, a3, _⟩ := fill_ok n (fun i f => do
      let v ← inp[i]?
      wr f i v) (fun i => inp.getD i 0) d.freq2r (by rw [hd.fr]; omega)
    (by
      intro i b hin hl _ _
      simp only [hv i hin, Option.bind_eq_bind, Option.bind_some]
      rw [wr_some _ (by rw [hl, hd.fr]; omega)])
  rw [hd.fr] at a2
  obtain ⟨f2, b1, b2, b3, b4⟩ := loop_inv (n := n) (s := f1) (f := fun i f => do
      let v ← inp[i]?
      wr f (n * 2 - i) (-v))
    (P := fun i f => f.length = 4 * n ∧ (∀ j : Nat, j < n → f[j]? = some (inp.getD j 0)) ∧
      (∀ j : Nat, j < i → f[2 * n - j]? = some (-inp.getD j 0)))
    ⟨a2, a3, fun j hj => absurd hj (Nat.not_lt_zero j)⟩
    (by
      rintro i f hin ⟨hl, hx, hy⟩
      refine ⟨f.set (n * 2 - i) (-inp.getD i 0), ?_, by simp [hl], ?_, ?_⟩
      · simp only [hv i hin, Option.bind_eq_bind, Option.bind_some]
        rw [wr_some _ (by omega)]
      · intro j hj
        rw [List.getElem?_set_ne (by omega)]; exact hx j hj
      · intro j hj
        by_cases e : j = i
        · subst e; rw [show n * 2 - j = 2 * n - j by omega, List.getElem?_set_self (by omega)]
        · rw [List.getElem?_set_ne (by omega)]; exact hy j (by omega))
  obtain ⟨fi, c1, c2, c3, _⟩ := fill_ok (n * 2 + 1) (fun i f => wr f i (0 : ℝ)) (fun _ => 0) d.freq2i (by rw [hd.fi]; omega)
    (by
      intro i b hin hl _ _
      rw [wr_some _ (by rw [hl, hd.fi]; omega)])
  rw [hd.fi] at c2
  obtain ⟨fft, t, e1, e2, e3, e4, _⟩ := C25_inverse (4 * n) (by omega) (by omega) h2 hd.fft (f2.set n 0) fi d.time2
    (by simp [b2]; omega) (by omega) (by rw [hd.time2])
  rw [hd.time2] at e3
  have ht : ∀ l : Nat, l < 4 * n → t[l]? = some (if l % 2 = 0 then 0 else dct3 n (fun k => inp.getD k 0) (l / 2) / n) := by
    intro l hl
    obtain ⟨v, hv1, hv2⟩ := e4 l hl
    rw [hv1]
    congr 1
    have hY := idft_ext (n := n) (by omega) (fun k => (f2.set n 0).getD k 0) (fun k => inp.getD k 0)
      (by
        intro k hk
        have hne : n ≠ k := by omega
        simp only [List.getD, List.getElem?_set_ne hne, b3 k hk]; rfl)
      (by
        have hlt : n < f2.length := by omega
        simp only [List.getD, List.getElem?_set_self hlt]; rfl)
      (by
        intro k hk
        have hne : n ≠ 2 * n - k := by omega
        simp only [List.getD, List.getElem?_set_ne hne, b4 k hk]; rfl) l
    rw [← hY]
    have hc : dft true (4 * n) (herm (4 * n / 2) (fun k => ⟨(f2.set n 0).getD k 0, fi.getD k 0⟩)) l =
        dft true (4 * n) (herm (2 * n) (fun k => ⟨(f2.set n 0).getD k 0, 0⟩)) l := by
      rw [show 4 * n / 2 = 2 * n by omega]
      unfold dft
      refine Finset.sum_congr rfl fun k hk => ?_
      rw [Finset.mem_range] at hk
      congr 1
      have hz : ∀ k : Nat, k ≤ 2 * n → fi.getD k 0 = 0 := by
        intro k hk
        simp only [List.getD, c3 k (by omega)]; rfl
      unfold herm
      beta_reduce
      split_ifs with x y z
      · rfl
      · rw [hz k (by omega)]
      · rfl
      · rw [hz _ (by omega)]
    rw [← hc, ← hv2, Complex.ofReal_re]
  obtain ⟨o, g1, g2, g3, g4⟩ := fill_ok n (fun i o => do
      let v ← t[i * 2 + 1]?
      wr o i v) (fun m => dct3 n (fun k => inp.getD k 0) m / n) out ho
    (by
      intro i b hin hl _ _
      have := ht (i * 2 + 1) (by omega)
      rw [if_neg (by omega), show (i * 2 + 1) / 2 = i by omega] at this
      simp only [this, Option.bind_eq_bind, Option.bind_some]
      rw [wr_some _ (by omega)])
  refine ⟨⟨n, d.scale, d.scaled, t, f2.set n 0, fi, fft⟩, o, ?_, ⟨rfl, hd.scale, hd.scaled, e3, ?_, by simp [b2], c2, e2⟩,
    g2, g3, g4⟩
  · unfold inverse
    simp only [Option.bind_eq_bind] at a1 b1 g1
    simp only [hd.size, Option.bind_eq_bind]
    rw [a1]
    simp only [Option.bind_some]
    rw [b1]
    simp only [Option.bind_some]
    rw [wr_some _ (by omega)]
    simp only [Option.bind_some]
    rw [c1]
    simp only [Option.bind_some, e1]
    rw [g1]
    rfl
  · intro j hj hj'
    simp only
    rw [ht j hj, if_pos hj']

end QM.DCT
