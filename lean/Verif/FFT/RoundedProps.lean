import Verif.FFT.RoundedLemmas

/-!
# C83: `FFT` in double precision
-/

namespace QM.FFT

open Complex QM.DFT QM.Kiss QM.Double

/-- The objects a program can have: constructed with size `n`, then used for any sequence of transforms, of any input, however
large. -/
inductive ReachF (fl cosF sinF : ℝ → ℝ) (n : Nat) : D → Prop
  | make {k1 k2 d} : D.makeF fl cosF sinF n k1 k2 = some d → ReachF fl cosF sinF n d
  | process {d d' inverse ri ii ro io ro' io'} : ReachF fl cosF sinF n d →
      d.processF fl inverse ri ii ro io = some (d', ro', io') → ReachF fl cosF sinF n d'

variable {fl cosF sinF : ℝ → ℝ}

theorem reachF_plans {n : Nat} {d : D} (h : ReachF fl cosF sinF n d) :
    d.n = n ∧ allocF fl cosF sinF n false = some d.planf ∧ allocF fl cosF sinF n true = some d.plani ∧
      n = d.kin.length ∧ n = d.kout.length := by
  induction h with
  | make hm =>
    unfold D.makeF at hm
    simp only [Option.bind_eq_bind, Option.bind_eq_some_iff] at hm
    obtain ⟨pf, e1, pi, e2, e3⟩ := hm
    cases e3
    exact ⟨rfl, e1, e2, by simp, by simp⟩
  | @process d d' inverse ri ii ro io ro' io' hd hp ih =>
    obtain ⟨g1, g2, g3, g4, g5⟩ := ih
    unfold D.processF at hp
    simp only [Option.bind_eq_bind, Option.bind_eq_some_iff] at hp
    obtain ⟨kin, e1, e2⟩ := hp
    have hk : kin.length = n := len_loop (n := n)
      (fun i s hs => len_bind fun _ => len_bind fun _ => len_wr _ _ hs) _ g4.symm kin e1
    cases inverse
    · simp only [Bool.not_false, if_true, Option.bind_eq_some_iff] at e2
      obtain ⟨kout, f1, q, f2, f3⟩ := e2
      have hl := fftF_len fl _ _ _ _ f1
      cases f3
      exact ⟨g1, g2, g3, by simp only; omega, by simp only; omega⟩
    · simp only [Bool.not_true, Bool.false_eq_true, if_false, Option.bind_eq_some_iff] at e2
      obtain ⟨kout, f1, q, f2, f3⟩ := e2
      have hl := fftF_len fl _ _ _ _ f1
      cases f3
      exact ⟨g1, g2, g3, by simp only; omega, by simp only; omega⟩

variable (hfl : Rounds fl) (hlib : Libm cosF sinF)

include hfl hlib in
/-- **C83**: an object can be constructed for every size from 1 to `INT_MAX`. -/
theorem C83_construct (n : Nat) (h1 : 1 ≤ n) (h2 : n ≤ 2147483647) (k1 k2 : ℂ) :
    ∃ d, D.makeF fl cosF sinF n k1 k2 = some d ∧ ReachF fl cosF sinF n d := by
  obtain ⟨pf, e1, _⟩ := allocF_ok hfl hlib n false h1 h2
  obtain ⟨pi, e2, _⟩ := allocF_ok hfl hlib n true h1 h2
  have : D.makeF fl cosF sinF n k1 k2 = some ⟨n, pf, pi, List.replicate n k1, List.replicate n k2⟩ := by
    simp [D.makeF, e1, e2]
  exact ⟨_, this, ReachF.make this⟩

include hfl hlib in
/-- **C83**: on an object of any size `n` from 1 to `INT_MAX` with any history, `FFT::process` in double precision returns the discrete
Fourier transform of its input (scaled by `1/n` for the inverse), each bin off by at most `510 · r · 2^-53` times the size of the
input (scaled likewise), `r` being the sum of the radices of `n`. No access is out of bounds and the output arrays are otherwise left alone. -/
theorem C83_process (n : Nat) (h1 : 1 ≤ n) (h2 : n ≤ 2147483647) {d : D} (hd : ReachF fl cosF sinF n d) (inverse : Bool)
    (ri : List ℝ) (ii : Option (List ℝ)) (ro io : List ℝ) (hri : n ≤ ri.length) (hii : ∀ l, ii = some l → n ≤ l.length)
    (hro : n ≤ ro.length) (hio : n ≤ io.length) (hS : total n (inputOf ri ii) ≤ 2 ^ 1000) :
    ∃ d' ro' io', d.processF fl inverse ri ii ro io = some (d', ro', io') ∧ ReachF fl cosF sinF n d' ∧
      ro'.length = ro.length ∧ io'.length = io.length ∧
      (∀ k, k < n → ∃ a b, ro'[k]? = some a ∧ io'[k]? = some b ∧
        ‖(⟨a, b⟩ : ℂ) - ((if inverse then 1 / (n : ℝ) else 1 : ℝ) : ℂ) * dft inverse n (inputOf ri ii) k‖ ≤
          510 * radixSum n / 2 ^ 53 * ((if inverse then 1 / (n : ℝ) else 1) * total n (inputOf ri ii))) ∧
      (∀ k, n ≤ k → ro'[k]? = ro[k]? ∧ io'[k]? = io[k]?) := by
  obtain ⟨g1, g2, g3, g4, g5⟩ := reachF_plans hd
  obtain ⟨kin, a1, a2, a3, _⟩ := fill_ok n (fun i kin => (ri[i]?).bind fun r => (imagIn ii i).bind fun im => wr kin i ⟨r, im⟩)
    (inputOf ri ii) d.kin (by omega)
    (by
      intro i b1 hi hl _ _
      have hr : ri[i]? = some (ri.getD i 0) := by simp [List.getElem?_eq_getElem (show i < ri.length by omega)]
      rw [hr]
      simp only [Option.bind_some]
      cases ii with
      | none =>
        simp only [imagIn, Option.bind_some]
        rw [wr_some _ (by omega)]; rfl
      | some l =>
        have hl' := hii l rfl
        have hr' : l[i]? = some (l.getD i 0) := by simp [List.getElem?_eq_getElem (show i < l.length by omega)]
        simp only [imagIn, hr', Option.bind_some]
        rw [wr_some _ (by omega)]; rfl)
  have hkin : ∀ j, j < n → kin.getD j 0 = inputOf ri ii j := by
    intro j hj; simp [List.getD, a3 j hj]
  obtain ⟨st, p1, p2, p3, p4, p5, p6⟩ := allocF_ok hfl hlib n inverse h1 h2
  have htot : ∑ j ∈ Finset.range n, (‖kin.getD j 0‖ + 1 / 2 ^ 1022) = total n (inputOf ri ii) := total_congr hkin
  obtain ⟨out, c2, c3, c4, _⟩ := fftF_ok hfl hlib n inverse h1 h2 st p3 p4 p5 p6 kin d.kout (by omega) (by omega)
    (by rw [htot]; exact hS)
  rw [htot] at c4
  have hR := radixSum_eq p2
  have hR1 : 1 ≤ radixSum n := by rw [hR]; exact radices_pos p5
  rw [← hR] at c4 p6
  have hR1' : (1 : ℝ) ≤ radixSum n := by exact_mod_cast hR1
  have hR2 : (500 : ℝ) * radixSum n ≤ 2 ^ 45 := by exact_mod_cast p6
  obtain ⟨X, hX⟩ : ∃ X : Nat → ℂ, X = dft inverse n (inputOf ri ii) := ⟨_, rfl⟩
  have hXle : ∀ k, ‖X k‖ ≤ total n (inputOf ri ii) := by
    intro k; rw [hX]; exact (norm_dft_le _ _ _ _).trans (sum_le_total _ _)
  have hout : ∀ k, k < n → out[k]? = some (out.getD k 0) ∧
      ‖out.getD k 0 - X k‖ ≤ 500 * radixSum n / 2 ^ 53 * total n (inputOf ri ii) := by
    intro k hk
    obtain ⟨v, hv1, hv2⟩ := c4 k hk
    rw [dft_congr inverse hkin, ← hX] at hv2
    simp only [List.getD, hv1, Option.getD_some]
    exact ⟨trivial, hv2⟩
  have hS0 := total_nonneg n (inputOf ri ii)
  have hSn := count_le_total n (inputOf ri ii)
  rw [← hX]
  generalize total n (inputOf ri ii) = S at *
  cases inverse
  · rw [g2] at p1; cases p1
    obtain ⟨ro', io', b1, b2, b3, b4, b5⟩ := fill2_ok n (fun i (p : List ℝ × List ℝ) => do
        let v ← out[i]?
        let ro ← wr p.1 i v.re
        let io ← wr p.2 i v.im
        pure (ro, io)) (fun k => (out.getD k 0).re) (fun k => (out.getD k 0).im) ro io hro hio
      (by
        intro i x y hi hx hy
        rw [(hout i hi).1]
        simp only [Option.bind_eq_bind, Option.bind_some]
        rw [wr_some _ (by omega)]
        simp only [Option.bind_some]
        rw [wr_some _ (by omega)]
        rfl)
    have hres : d.processF fl false ri ii ro io = some ({ d with kin := kin, kout := out }, ro', io') := by
      unfold D.processF
      simp only [Option.bind_eq_bind] at b1 ⊢
      rw [g1, a1]
      simp only [Option.bind_some, Bool.not_false, if_true, c2]
      rw [b1]
      rfl
    refine ⟨_, ro', io', hres, ReachF.process hd hres, b2, b3, fun k hk => ⟨_, _, (b4 k hk).1, (b4 k hk).2, ?_⟩, b5⟩
    simp only [Bool.false_eq_true, if_false, Complex.ofReal_one, one_mul]
    refine (hout k hk).2.trans (mul_le_mul_of_nonneg_right ?_ hS0)
    refine div_le_div_of_nonneg_right ?_ (by norm_num)
    linarith
  · rw [g3] at p1; cases p1
    obtain ⟨ro', io', b1, b2, b3, b4, b5⟩ := fill2_ok n (fun i (p : List ℝ × List ℝ) => do
        let v ← out[i]?
        let ro ← wr p.1 i (fl (v.re * fl (1 / n)))
        let io ← wr p.2 i (fl (v.im * fl (1 / n)))
        pure (ro, io)) (fun k => fl ((out.getD k 0).re * fl (1 / n))) (fun k => fl ((out.getD k 0).im * fl (1 / n))) ro io hro hio
      (by
        intro i x y hi hx hy
        rw [(hout i hi).1]
        simp only [Option.bind_eq_bind, Option.bind_some]
        rw [wr_some _ (by omega)]
        simp only [Option.bind_some]
        rw [wr_some _ (by omega)]
        rfl)
    have hres : d.processF fl true ri ii ro io = some ({ d with kin := kin, kout := out }, ro', io') := by
      unfold D.processF
      simp only [Option.bind_eq_bind] at b1 ⊢
      rw [g1, a1]
      simp only [Option.bind_some, Bool.not_true, Bool.false_eq_true, if_false, c2]
      rw [b1]
      rfl
    refine ⟨_, ro', io', hres, ReachF.process hd hres, b2, b3, fun k hk => ⟨_, _, (b4 k hk).1, (b4 k hk).2, ?_⟩, b5⟩
    simp only [if_true]
    have hle : (2 : ℝ) ^ 1000 ≤ 2 ^ 1001 := pow_le_pow_right₀ (by norm_num) (by norm_num)
    refine (scaled_near hfl n h1 h2 _ _ S _ (hout k hk).2 (hXle k) (hR2.trans (by norm_num)) hSn (hS.trans hle)).trans ?_
    have hc : (0 : ℝ) ≤ 1 / n * S := mul_nonneg (by positivity) hS0
    refine mul_le_mul_of_nonneg_right ?_ hc
    refine div_le_div_of_nonneg_right ?_ (by norm_num)
    linarith

include hfl hlib in
/-- **C83**: transforming and transforming back, in either order, on an object with any history returns the input, each number off by at
most `1540 · r · 2^-53` times the size of the input. -/
theorem C83_round_trip (n : Nat) (h1 : 1 ≤ n) (h2 : n ≤ 2147483647) {d : D} (hd : ReachF fl cosF sinF n d) (inverse : Bool)
    (ri ii ro io ro2 io2 : List ℝ) (hri : n ≤ ri.length) (hii : n ≤ ii.length)
    (hro : n ≤ ro.length) (hio : n ≤ io.length) (hro2 : n ≤ ro2.length) (hio2 : n ≤ io2.length)
    (hS : total n (inputOf ri (some ii)) ≤ 2 ^ 960) :
    ∃ d' ro' io' d'' ro'' io'', d.processF fl inverse ri (some ii) ro io = some (d', ro', io') ∧
      d'.processF fl (!inverse) ro' (some io') ro2 io2 = some (d'', ro'', io'') ∧
      (∀ k, k < n → ∃ a b, ro''[k]? = some a ∧ io''[k]? = some b ∧
        ‖(⟨a, b⟩ : ℂ) - ⟨ri.getD k 0, ii.getD k 0⟩‖ ≤ 1540 * radixSum n / 2 ^ 53 * total n (inputOf ri (some ii))) := by
  have hle : (2 : ℝ) ^ 960 ≤ 2 ^ 1000 := pow_le_pow_right₀ (by norm_num) (by norm_num)
  obtain ⟨d', ro', io', e1, e2, e3, e4, e5, _⟩ := C83_process hfl hlib n h1 h2 hd inverse ri (some ii) ro io hri
    (by rintro l ⟨⟩; exact hii) hro hio (hS.trans hle)
  obtain ⟨x, hx⟩ : ∃ x, x = inputOf ri (some ii) := ⟨_, rfl⟩
  obtain ⟨y, hy⟩ : ∃ y, y = inputOf ro' (some io') := ⟨_, rfl⟩
  rw [← hx] at e5 hS ⊢
  have hn1 : (1 : ℝ) ≤ n := by exact_mod_cast h1
  have hnz : (n : ℝ) ≠ 0 := by linarith
  have hn2 : (n : ℝ) ≤ 2 ^ 31 := by
    have : (n : ℝ) ≤ ((2147483647 : ℕ) : ℝ) := Nat.cast_le.mpr h2
    norm_num at this ⊢; linarith
  obtain ⟨c, hc⟩ : ∃ c : ℝ, c = if inverse then 1 / (n : ℝ) else 1 := ⟨_, rfl⟩
  obtain ⟨c', hc'⟩ : ∃ c' : ℝ, c' = if !inverse then 1 / (n : ℝ) else 1 := ⟨_, rfl⟩
  rw [← hc] at e5
  have hcn : 0 < 1 / (n : ℝ) := by positivity
  have hcn1 : 1 / (n : ℝ) ≤ 1 := by rw [div_le_one (by linarith)]; exact hn1
  have hc0 : 0 < c := by rw [hc]; split_ifs <;> linarith
  have hc1 : c ≤ 1 := by rw [hc]; split_ifs <;> linarith
  have hc0' : 0 < c' := by rw [hc']; split_ifs <;> linarith
  have hc1' : c' ≤ 1 := by rw [hc']; split_ifs <;> linarith
  have hcc : c' * n * c = 1 := by
    rw [hc, hc']; cases inverse <;> simp <;> field_simp
  obtain ⟨st, p1, p2, p3, p4, p5, p6⟩ := allocF_ok hfl hlib n inverse h1 h2
  have hR := radixSum_eq p2
  have hR1 : 1 ≤ radixSum n := by rw [hR]; exact radices_pos p5
  rw [← hR] at p6
  have hR1' : (1 : ℝ) ≤ radixSum n := by exact_mod_cast hR1
  have hR2 : (500 : ℝ) * radixSum n ≤ 2 ^ 45 := by exact_mod_cast p6
  obtain ⟨S, hSd⟩ : ∃ S, S = total n x := ⟨_, rfl⟩
  obtain ⟨E, hE⟩ : ∃ E : ℝ, E = 510 * radixSum n / 2 ^ 53 := ⟨_, rfl⟩
  have hE0 : 0 ≤ E := by rw [hE]; positivity
  have hE1 : E ≤ 0.01 := by
    rw [hE, div_le_iff₀ (by norm_num)]; norm_num at hR2 ⊢; linarith
  rw [← hSd, ← hE] at e5
  rw [← hSd] at hS ⊢
  have hS0 : 0 ≤ S := by rw [hSd]; exact total_nonneg _ _
  have hSn : n * ((1 : ℝ) / 2 ^ 1022) ≤ S := by rw [hSd]; exact count_le_total _ _
  have hXle : ∀ k, ‖dft inverse n x k‖ ≤ S := by
    intro k; rw [hSd]; exact (norm_dft_le _ _ _ _).trans (sum_le_total _ _)
  have hmid : ∀ j, j < n → ‖y j - (c : ℂ) * dft inverse n x j‖ ≤ E * (c * S) := by
    intro j hj
    obtain ⟨a, b, ha, hb, hab⟩ := e5 j hj
    have : y j = ⟨a, b⟩ := by rw [hy]; simp [inputOf, List.getD, ha, hb]
    rw [this]; exact hab
  have hcS : 0 ≤ c * S := mul_nonneg hc0.le hS0
  have hyj : ∀ j, j < n → ‖y j‖ ≤ 1.01 * (c * S) := by
    intro j hj
    have h3 : ‖y j‖ ≤ ‖y j - (c : ℂ) * dft inverse n x j‖ + ‖(c : ℂ) * dft inverse n x j‖ := by
      have := norm_add_le (y j - (c : ℂ) * dft inverse n x j) ((c : ℂ) * dft inverse n x j)
      rwa [sub_add_cancel] at this
    have h4 : ‖(c : ℂ) * dft inverse n x j‖ ≤ c * S := by
      rw [norm_mul, Complex.norm_real, Real.norm_eq_abs, abs_of_pos hc0]
      exact mul_le_mul_of_nonneg_left (hXle j) hc0.le
    have h5 := hmid j hj
    have h6 : E * (c * S) ≤ 0.01 * (c * S) := mul_le_mul_of_nonneg_right hE1 hcS
    linarith
  have hS' : total n y ≤ 1.01 * (n * (c * S)) + S := by
    unfold total
    rw [Finset.sum_add_distrib]
    refine add_le_add ?_ ?_
    · calc ∑ j ∈ Finset.range n, ‖y j‖ ≤ ∑ j ∈ Finset.range n, 1.01 * (c * S) :=
            Finset.sum_le_sum fun j hj => hyj j (Finset.mem_range.mp hj)
        _ = 1.01 * (n * (c * S)) := by simp; ring
    · simpa using hSn
  have hbig : total n y ≤ 2 ^ 1000 := by
    have h3 : n * (c * S) ≤ 2 ^ 31 * S := by
      refine mul_le_mul hn2 ?_ hcS (by norm_num)
      calc c * S ≤ 1 * S := mul_le_mul_of_nonneg_right hc1 hS0
        _ = S := one_mul S
    have h4 : (2 : ℝ) ^ 1000 = 2 ^ 40 * 2 ^ 960 := by rw [← pow_add]
    rw [h4]
    generalize (2 : ℝ) ^ 960 = G at *
    norm_num at h3 ⊢
    linarith
  rw [hy] at hbig
  obtain ⟨d'', ro'', io'', f1, f2, f3, f4, f5, _⟩ := C83_process hfl hlib n h1 h2 e2 (!inverse) ro' (some io') ro2 io2 (by omega)
    (by rintro l ⟨⟩; omega) hro2 hio2 hbig
  refine ⟨d', ro', io', d'', ro'', io'', e1, f1, fun k hk => ?_⟩
  obtain ⟨a, b, ha, hb, hab⟩ := f5 k hk
  rw [← hc', ← hy, ← hE] at hab
  refine ⟨a, b, ha, hb, ?_⟩
  have hxk : (⟨ri.getD k 0, ii.getD k 0⟩ : ℂ) = (c' : ℂ) * dft (!inverse) n (fun j => (c : ℂ) * dft inverse n x j) k := by
    rw [dft_smul, dft_dft inverse x k hk, hx]
    have h7 : (c' : ℂ) * ((c : ℂ) * (n * inputOf ri (some ii) k)) = ((c' * n * c : ℝ) : ℂ) * inputOf ri (some ii) k := by
      push_cast; ring
    rw [h7, hcc]
    simp [inputOf]
  have h8 := dft_sub_le (!inverse) n y (fun j => (c : ℂ) * dft inverse n x j) _ hmid k
  have h9 : ‖(c' : ℂ) * dft (!inverse) n y k - (⟨ri.getD k 0, ii.getD k 0⟩ : ℂ)‖ ≤ E * S := by
    rw [hxk, ← mul_sub, norm_mul, Complex.norm_real, Real.norm_eq_abs, abs_of_pos hc0']
    calc c' * _ ≤ c' * (n * (E * (c * S))) := mul_le_mul_of_nonneg_left h8 hc0'.le
      _ = (c' * n * c) * (E * S) := by ring
      _ = E * S := by rw [hcc, one_mul]
  have h10 : E * (c' * total n y) ≤ E * (2.01 * S) := by
    refine mul_le_mul_of_nonneg_left ?_ hE0
    calc c' * total n y ≤ c' * (1.01 * (n * (c * S)) + S) := mul_le_mul_of_nonneg_left hS' hc0'.le
      _ = 1.01 * (c' * n * c) * S + c' * S := by ring
      _ ≤ 1.01 * S + S := by
        rw [hcc]
        have : c' * S ≤ 1 * S := mul_le_mul_of_nonneg_right hc1' hS0
        linarith
      _ = 2.01 * S := by ring
  have h11 := norm_sub_le_norm_sub_add_norm_sub (⟨a, b⟩ : ℂ) ((c' : ℂ) * dft (!inverse) n y k) ⟨ri.getD k 0, ii.getD k 0⟩
  have h12 : 1540 * radixSum n / 2 ^ 53 * S = 1540 / 510 * (E * S) := by rw [hE]; ring
  rw [h12]
  have h13 : 0 ≤ E * S := mul_nonneg hE0 hS0
  have h14 : E * (2.01 * S) = 2.01 * (E * S) := by ring
  rw [h14] at h10
  have h15 : 3.01 * (E * S) ≤ 1540 / 510 * (E * S) := mul_le_mul_of_nonneg_right (by norm_num) h13
  linarith

/-- The hypotheses are met: six real numbers there and back in IEEE arithmetic with correctly rounded cosine and sine. -/
example : ∃ d d' ro io d'' ro' io' a b,
    D.makeF rn (fun x => rn (Real.cos x)) (fun x => rn (Real.sin x)) 6 0 0 = some d ∧
    d.processF rn false [1, 2, 3, 4, 5, 6] (some [0, 0, 0, 0, 0, 0]) (List.replicate 6 0) (List.replicate 6 0) = some (d', ro, io) ∧
    d'.processF rn true ro (some io) (List.replicate 6 0) (List.replicate 6 0) = some (d'', ro', io') ∧
    ro'[2]? = some a ∧ io'[2]? = some b ∧ ‖(⟨a, b⟩ : ℂ) - ⟨3, 0⟩‖ ≤ 1 / 2 ^ 35 := by
  have hk0 : (0 : ℝ) ≤ 1 / 2 ^ 1022 := by positivity
  have hk : (1 : ℝ) / 2 ^ 1022 ≤ 1 := by
    rw [div_le_one (by positivity)]; exact one_le_pow₀ (by norm_num)
  have hS : total 6 (inputOf [1, 2, 3, 4, 5, 6] (some [0, 0, 0, 0, 0, 0])) = 21 + 6 * (1 / 2 ^ 1022) := by
    have h0 : ∀ a : ℝ, (⟨a, 0⟩ : ℂ) = (a : ℂ) := fun a => rfl
    simp [total, Finset.sum_range_succ, inputOf, h0]
    ring
  have hR : radixSum 6 = 5 := by decide +kernel
  obtain ⟨d, h, hr⟩ := C83_construct rounds_rn libm_rn 6 (by norm_num) (by norm_num) 0 0
  obtain ⟨d', ro, io, d'', ro', io', e1, e2, e3⟩ := C83_round_trip rounds_rn libm_rn 6 (by norm_num) (by norm_num) hr false
    [1, 2, 3, 4, 5, 6] [0, 0, 0, 0, 0, 0] (List.replicate 6 0) (List.replicate 6 0) (List.replicate 6 0)
    (List.replicate 6 0) (by simp) (by simp) (by simp) (by simp) (by simp) (by simp)
    (by
      rw [hS]
      exact le_trans (by linarith) (le_trans (by norm_num : (27 : ℝ) ≤ 2 ^ 5) (pow_le_pow_right₀ (by norm_num) (by norm_num))))
  obtain ⟨a, b, ha, hb, hab⟩ := e3 2 (by norm_num)
  refine ⟨d, d', ro, io, d'', ro', io', a, b, h, e1, e2, ha, hb, ?_⟩
  rw [hS, hR] at hab
  refine hab.trans ?_
  calc (1540 : ℝ) * (5 : ℕ) / 2 ^ 53 * (21 + 6 * (1 / 2 ^ 1022)) ≤ 1540 * (5 : ℕ) / 2 ^ 53 * 27 :=
        mul_le_mul_of_nonneg_left (by linarith) (by norm_num)
    _ ≤ 1 / 2 ^ 35 := by norm_num

end QM.FFT
