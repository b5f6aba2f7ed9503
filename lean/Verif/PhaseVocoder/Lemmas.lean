import Verif.PhaseVocoder.Model
import Verif.FFT.RealProps
import Verif.MathReal.Props

namespace QM.PhaseVocoder

open Complex QM.FFT QM.DFT QM.MathReal

/-- What a `PhaseVocoder` contains, where `prev k` is the unwrapped phase last returned for bin `k`. -/
structure Ok (n : Nat) (hop : Int) (d : PV) (prev : Nat → ℝ) : Prop where
  size : d.n = n
  hop_eq : d.hop = hop
  fft : RReach n d.fft
  time : d.time.length = n
  real : d.real.length = n
  imag : d.imag.length = n
  plen : d.phase.length = n / 2 + 1
  ulen : d.unwrapped.length = n / 2 + 1
  un : ∀ k : Nat, k ≤ n / 2 → d.unwrapped[k]? = some (prev k)
  ph : ∀ k : Nat, k ≤ n / 2 → ∃ p : ℝ, ∃ j : ℤ, d.phase[k]? = some p ∧ prev k = p + 2 * Real.pi * j

theorem princarg_shift (a : ℝ) (j : ℤ) : princarg (a + 2 * Real.pi * j) = princarg a := by
  obtain ⟨h1, h2, k, hk⟩ := C03_princarg_partial a
  exact princarg_unique _ _ h1 h2 ⟨k + j, by push_cast; linarith⟩

theorem reset_ok {n : Nat} {hop : Int} {d : PV} (hs : d.n = n) (hh : d.hop = hop) (hf : RReach n d.fft)
    (ht : d.time.length = n) (hr : d.real.length = n) (hi : d.imag.length = n) (hp : d.phase.length = n / 2 + 1)
    (hu : d.unwrapped.length = n / 2 + 1) :
    ∃ d', reset d = some d' ∧ Ok n hop d' (fun k => -omega n hop k) := by
  obtain ⟨p, q, a1, a2, a3, a4, _⟩ := fill2_ok (n / 2 + 1) (fun i (p : List ℝ × List ℝ) => do
      let ph ← wr p.1 i (-omega n hop i)
      let un ← wr p.2 i (-omega n hop i)
      pure (ph, un)) (fun i => -omega n hop i) (fun i => -omega n hop i) d.phase d.unwrapped (by omega) (by omega)
    (by
      intro i b c hin hb hc
      simp only [Option.bind_eq_bind]
      rw [wr_some _ (by omega)]
      simp only [Option.bind_some]
      rw [wr_some _ (by omega)]
      rfl)
  refine ⟨{ d with phase := p, unwrapped := q }, ?_, ⟨hs, hh, hf, ht, hr, hi, by simp only; omega, by simp only; omega, ?_, ?_⟩⟩
  · unfold reset
    simp only [Option.bind_eq_bind] at a1
    simp only [hs, hh, Option.bind_eq_bind]
    rw [a1]
    simp only [Option.bind_some, Option.pure_def]
  · intro k hk; exact (a4 k (by omega)).2
  · intro k hk; exact ⟨_, 0, (a4 k (by omega)).1, by simp⟩

theorem make_ok {n : Nat} (h0 : n % 2 = 0) (h1 : 2 ≤ n) (h2 : n ≤ 2147483647) (hop : Int) (u : ℂ) (v : ℝ) :
    ∃ d, make n hop u v = some d ∧ Ok n hop d (fun k => -omega n hop k) := by
  obtain ⟨r, e1, e2⟩ := C24_even_accepted n u h0 h1 h2
  obtain ⟨p, q, a1, a2, a3, _⟩ := fill2_ok (n / 2 + 1) (fun i (p : List ℝ × List ℝ) => do
      let ph ← wr p.1 i 0
      let un ← wr p.2 i 0
      pure (ph, un)) (fun i => 0) (fun i => 0) (List.replicate (n / 2 + 1) v) (List.replicate (n / 2 + 1) v) (by simp) (by simp)
    (by
      intro i b c hin hb hc
      rw [List.length_replicate] at hb hc
      simp only [Option.bind_eq_bind]
      rw [wr_some _ (by omega)]
      simp only [Option.bind_some]
      rw [wr_some _ (by omega)]
      rfl)
  obtain ⟨d', f1, f2⟩ := reset_ok (n := n) (hop := hop)
    (d := ⟨n, hop, r, List.replicate n v, List.replicate n v, List.replicate n v, p, q⟩) rfl rfl e2 (by simp) (by simp) (by simp)
    (by simp [a2]) (by simp [a3])
  refine ⟨d', ?_, f2⟩
  unfold make
  simp only [Option.bind_eq_bind] at a1
  simp only [e1, Option.bind_eq_bind, Option.bind_some]
  rw [a1]
  exact f1

theorem shift_ok {n : Nat} (h0 : n % 2 = 0) (src : List ℝ) (hs : src.length = n) :
    ∃ t, fftShift n src = some t ∧ t.length = n ∧
      (∀ i : Nat, i < n / 2 → t[i]? = src[i + n / 2]? ∧ t[i + n / 2]? = src[i]?) := by
  obtain ⟨t, a1, a2, a3, a4⟩ := loop_inv (n := n / 2) (s := src) (f := fun i src => do
      let tmp ← src[i]?
      let v ← src[i + n / 2]?
      let src ← wr src i v
      wr src (i + n / 2) tmp)
    (P := fun i t => t.length = n ∧ (∀ j : Nat, j < i → t[j]? = src[j + n / 2]? ∧ t[j + n / 2]? = src[j]?) ∧
      (∀ j : Nat, i ≤ j → j < n / 2 → t[j]? = src[j]? ∧ t[j + n / 2]? = src[j + n / 2]?))
    ⟨hs, fun j hj => absurd hj (Nat.not_lt_zero j), fun j _ _ => ⟨rfl, rfl⟩⟩
    (by
      rintro i t hi ⟨hl, hd, hr⟩
      obtain ⟨x1, x2⟩ := hr i (le_refl i) hi
      obtain ⟨a, ha⟩ : ∃ a, src[i]? = some a := ⟨_, List.getElem?_eq_getElem (by omega)⟩
      obtain ⟨b, hb⟩ : ∃ b, src[i + n / 2]? = some b := ⟨_, List.getElem?_eq_getElem (by omega)⟩
      refine ⟨(t.set i b).set (i + n / 2) a, ?_, by simp [hl], ?_, ?_⟩
      · simp only [x1, x2, ha, hb, Option.bind_eq_bind, Option.bind_some]
        rw [wr_some _ (by omega)]
        simp only [Option.bind_some]
        rw [wr_some _ (by simp; omega)]
      · intro j hj
        by_cases e : j = i
        · subst e
          rw [List.getElem?_set_ne (by omega), List.getElem?_set_self (by omega), List.getElem?_set_self (by simp; omega)]
          exact ⟨hb.symm, ha.symm⟩
        · rw [List.getElem?_set_ne (by omega), List.getElem?_set_ne (by omega), List.getElem?_set_ne (by omega),
            List.getElem?_set_ne (by omega)]
          exact hd j (by omega)
      · intro j hj hj'
        rw [List.getElem?_set_ne (by omega), List.getElem?_set_ne (by omega), List.getElem?_set_ne (by omega),
          List.getElem?_set_ne (by omega)]
        exact hr j (by omega) hj')
  exact ⟨t, a1, a2, a3⟩

/-- Swapping the halves of the frame multiplies bin `k` of the spectrum by `(-1)^k`. -/
theorem dft_shift {nc : Nat} (hn : nc ≠ 0) (x y : Nat → ℂ) (h1 : ∀ i, i < nc → y i = x (i + nc))
    (h2 : ∀ i, i < nc → y (i + nc) = x i) (k : Nat) :
    dft false (2 * nc) y k = (-1) ^ k * dft false (2 * nc) x k := by
  rw [dft_eq, dft_eq, two_mul, Finset.sum_range_add, Finset.sum_range_add, mul_add, add_comm, Finset.mul_sum, Finset.mul_sum,
    ← two_mul]
  have hr : ∀ j, root false (2 * nc) ^ ((j + nc) * k) = (-1) ^ k * root false (2 * nc) ^ (j * k) := by
    intro j
    rw [Nat.add_mul, pow_add, pow_mul _ nc k, root_half false hn]; ring
  have hs : (-1 : ℂ) ^ k * (-1) ^ k = 1 := by rw [← mul_pow]; simp
  congr 1
  · refine Finset.sum_congr rfl fun j hj => ?_
    rw [Finset.mem_range] at hj
    rw [Nat.add_comm nc j, h2 j hj, hr]; ring
  · refine Finset.sum_congr rfl fun j hj => ?_
    rw [Finset.mem_range] at hj
    rw [Nat.add_comm nc j, h1 j hj, hr]
    linear_combination (-(x (j + nc) * root false (2 * nc) ^ (j * k))) * hs

theorem unwrap_ok {n : Nat} {hop : Int} {d : PV} {prev : Nat → ℝ} (hd : Ok n hop d prev) (theta out : List ℝ) (th : Nat → ℝ)
    (hth : ∀ k : Nat, k ≤ n / 2 → theta[k]? = some (th k)) (ho : n / 2 + 1 ≤ out.length) :
    ∃ d' out', unwrapPhases d theta out = some (d', out') ∧ d'.n = n ∧ d'.hop = hop ∧ d'.fft = d.fft ∧ d'.time = d.time ∧
      d'.real = d.real ∧ d'.imag = d.imag ∧
      out'.length = out.length ∧
      (∀ k : Nat, k ≤ n / 2 → out'[k]? = some (prev k + omega n hop k + princarg (th k - (prev k + omega n hop k)))) ∧
      (∀ k : Nat, n / 2 < k → out'[k]? = out[k]?) ∧
      Ok n hop d' (fun k => prev k + omega n hop k + princarg (th k - (prev k + omega n hop k))) := by
  obtain ⟨g, hg⟩ : ∃ g : Nat → ℝ, g = fun k => prev k + omega n hop k + princarg (th k - (prev k + omega n hop k)) := ⟨_, rfl⟩
  obtain ⟨⟨p, u, o⟩, a1, a2, a3, a4, a5, a6, a7, a8, a9, a10⟩ := loop_inv (n := n / 2 + 1) (s := (d.phase, d.unwrapped, out))
    (f := unwrapBody n hop theta)
    (P := fun i s => s.1.length = n / 2 + 1 ∧ s.2.1.length = n / 2 + 1 ∧ s.2.2.length = out.length ∧
      (∀ j : Nat, i ≤ j → s.1[j]? = d.phase[j]?) ∧ (∀ j : Nat, i ≤ j → s.2.1[j]? = d.unwrapped[j]?) ∧
      (∀ j : Nat, i ≤ j → s.2.2[j]? = out[j]?) ∧
      (∀ j : Nat, j < i → s.1[j]? = some (th j)) ∧ (∀ j : Nat, j < i → s.2.1[j]? = some (g j)) ∧
      (∀ j : Nat, j < i → s.2.2[j]? = some (g j)))
    ⟨hd.plen, hd.ulen, rfl, fun j _ => rfl, fun j _ => rfl, fun j _ => rfl, fun j hj => absurd hj (Nat.not_lt_zero j),
      fun j hj => absurd hj (Nat.not_lt_zero j), fun j hj => absurd hj (Nat.not_lt_zero j)⟩
    (by
      rintro i ⟨p, u, o⟩ hi ⟨l1, l2, l3, r1, r2, r3, v1, v2, v3⟩
      dsimp only at l1 l2 l3 r1 r2 r3 v1 v2 v3
      obtain ⟨ph, j, hp1, hp2⟩ := hd.ph i (by omega)
      have hgi : prev i + omega n hop i + princarg (th i - (ph + omega n hop i)) = g i := by
        rw [hg]; beta_reduce
        congr 1
        rw [← princarg_shift (th i - (prev i + omega n hop i)) j]
        congr 1
        rw [hp2]; ring
      refine ⟨(p.set i (th i), u.set i (g i), o.set i (g i)), ?_, by simp [l1], by simp [l2], by simp [l3], ?_, ?_, ?_, ?_, ?_, ?_⟩
      · unfold unwrapBody
        simp only [r1 i (le_refl i), r2 i (le_refl i), hp1, hd.un i (by omega), hth i (by omega), Option.bind_eq_bind,
          Option.bind_some, hgi]
        rw [wr_some _ (by omega)]
        simp only [Option.bind_some]
        rw [wr_some _ (by omega)]
        simp only [Option.bind_some]
        rw [List.getElem?_set_self (by omega)]
        simp only [Option.bind_some]
        rw [wr_some _ (by omega)]
        rfl
      all_goals intro k hk
      all_goals dsimp only
      · rw [List.getElem?_set_ne (by omega)]; exact r1 k (by omega)
      · rw [List.getElem?_set_ne (by omega)]; exact r2 k (by omega)
      · rw [List.getElem?_set_ne (by omega)]; exact r3 k (by omega)
      · by_cases e : k = i
        · subst e; rw [List.getElem?_set_self (by omega)]
        · rw [List.getElem?_set_ne (by omega)]; exact v1 k (by omega)
      · by_cases e : k = i
        · subst e; rw [List.getElem?_set_self (by omega)]
        · rw [List.getElem?_set_ne (by omega)]; exact v2 k (by omega)
      · by_cases e : k = i
        · subst e; rw [List.getElem?_set_self (by omega)]
        · rw [List.getElem?_set_ne (by omega)]; exact v3 k (by omega))
  dsimp only at a2 a3 a4 a5 a6 a7 a8 a9 a10
  refine ⟨{ d with phase := p, unwrapped := u }, o, ?_, hd.size, hd.hop_eq, rfl, rfl, rfl, rfl, a4, ?_, ?_, ?_⟩
  · unfold unwrapPhases
    rw [hd.size, hd.hop_eq, a1]
    rfl
  · intro k hk; rw [a10 k (by omega), hg]
  · intro k hk; exact a7 k (by omega)
  · rw [← hg]
    refine ⟨hd.size, hd.hop_eq, hd.fft, hd.time, hd.real, hd.imag, a2, a3, fun k hk => a9 k (by omega), fun k hk => ?_⟩
    obtain ⟨_, _, j, hj⟩ := C03_princarg_partial (th k - (prev k + omega n hop k))
    refine ⟨th k, -j, a8 k (by omega), ?_⟩
    rw [hg]; beta_reduce
    push_cast
    linarith

theorem finish_ok {n : Nat} {hop : Int} {d : PV} {prev : Nat → ℝ} (hd : Ok n hop d prev) (z : Nat → ℂ)
    (hr : ∀ k : Nat, k ≤ n / 2 → d.real[k]? = some (z k).re) (hi : ∀ k : Nat, k ≤ n / 2 → d.imag[k]? = some (z k).im)
    (mag theta out : List ℝ) (hm : n / 2 + 1 ≤ mag.length) (ht : n / 2 + 1 ≤ theta.length) (ho : n / 2 + 1 ≤ out.length) :
    ∃ d' mag' theta' out', finish d mag theta out = some (d', mag', theta', out') ∧
      mag'.length = mag.length ∧ theta'.length = theta.length ∧ out'.length = out.length ∧
      (∀ k : Nat, k ≤ n / 2 → mag'[k]? = some ‖z k‖ ∧ theta'[k]? = some (z k).arg ∧
        out'[k]? = some (prev k + omega n hop k + princarg ((z k).arg - (prev k + omega n hop k)))) ∧
      (∀ k : Nat, n / 2 < k → mag'[k]? = mag[k]? ∧ theta'[k]? = theta[k]? ∧ out'[k]? = out[k]?) ∧
      Ok n hop d' (fun k => prev k + omega n hop k + princarg ((z k).arg - (prev k + omega n hop k))) := by
  obtain ⟨m, a1, a2, a3, a4⟩ := fill_ok (n / 2 + 1) (fun i mag => do
      let r ← d.real[i]?
      let im ← d.imag[i]?
      wr mag i (Real.sqrt (r * r + im * im))) (fun k => ‖z k‖) mag hm
    (by
      intro i b hin hl _ _
      simp only [hr i (by omega), hi i (by omega), Option.bind_eq_bind, Option.bind_some]
      rw [wr_some _ (by omega), Complex.norm_def, Complex.normSq_apply])
  obtain ⟨t, b1, b2, b3, b4⟩ := fill_ok (n / 2 + 1) (fun i theta => do
      let r ← d.real[i]?
      let im ← d.imag[i]?
      wr theta i (Complex.arg ⟨r, im⟩)) (fun k => (z k).arg) theta ht
    (by
      intro i b hin hl _ _
      simp only [hr i (by omega), hi i (by omega), Option.bind_eq_bind, Option.bind_some]
      rw [wr_some _ (by omega)])
  obtain ⟨d', o, c1, _, _, _, _, _, _, c8, c9, c10, c11⟩ := unwrap_ok hd t out (fun k => (z k).arg)
    (fun k hk => b3 k (by omega)) ho
  refine ⟨d', m, t, o, ?_, a2, b2, c8, fun k hk => ⟨a3 k (by omega), b3 k (by omega), c9 k hk⟩,
    fun k hk => ⟨a4 k (by omega), b4 k (by omega), c10 k hk⟩, c11⟩
  unfold finish getMagnitudes getPhases
  simp only [hd.size]
  rw [a1]
  simp only [Option.bind_eq_bind, Option.bind_some]
  simp only [Option.bind_eq_bind] at b1
  rw [b1]
  simp only [Option.bind_some, c1]
  rfl

/-- The spectrum of a frame with its halves swapped. -/
noncomputable def spectrum (n : Nat) (src : List ℝ) (k : Nat) : ℂ :=
  (-1) ^ k * dft false n (fun j => ((src.getD j 0 : ℝ) : ℂ)) k

theorem time_ok {n : Nat} (h0 : n % 2 = 0) (h1 : 2 ≤ n) (h2 : n ≤ 2147483647) {hop : Int} {d : PV} {prev : Nat → ℝ}
    (hd : Ok n hop d prev) (src mag theta out : List ℝ)
    (hs : n ≤ src.length) (hm : n / 2 + 1 ≤ mag.length) (ht : n / 2 + 1 ≤ theta.length) (ho : n / 2 + 1 ≤ out.length) :
    ∃ d' mag' theta' out', processTime d src mag theta out = some (d', mag', theta', out') ∧
      mag'.length = mag.length ∧ theta'.length = theta.length ∧ out'.length = out.length ∧
      (∀ k : Nat, k ≤ n / 2 → mag'[k]? = some ‖spectrum n src k‖ ∧ theta'[k]? = some (spectrum n src k).arg ∧
        out'[k]? = some (prev k + omega n hop k + princarg ((spectrum n src k).arg - (prev k + omega n hop k)))) ∧
      (∀ k : Nat, n / 2 < k → mag'[k]? = mag[k]? ∧ theta'[k]? = theta[k]? ∧ out'[k]? = out[k]?) ∧
      Ok n hop d' (fun k => prev k + omega n hop k + princarg ((spectrum n src k).arg - (prev k + omega n hop k))) := by
  obtain ⟨t, a1, a2, a3, _⟩ := fill_ok n (fun i t => do
      let v ← src[i]?
      wr t i v) (fun i => src.getD i 0) d.time (by rw [hd.time])
    (by
      intro i b hin hl _ _
      have hv : src[i]? = some (src.getD i 0) := by simp [List.getElem?_eq_getElem (show i < src.length by omega)]
      simp only [hv, Option.bind_eq_bind, Option.bind_some]
      rw [wr_some _ (by rw [hl, hd.time]; exact hin)])
  rw [hd.time] at a2
  obtain ⟨t2, b1, b2, b3⟩ := shift_ok h0 t a2
  obtain ⟨fft, re, im, c1, c2, c3, c4, c5, _⟩ := C24_forward n h0 h1 h2 hd.fft t2 d.real d.imag (by omega) (by rw [hd.real])
    (by rw [hd.imag])
  have hspec : ∀ k, dft false n (fun j => ((t2.getD j 0 : ℝ) : ℂ)) k = spectrum n src k := by
    intro k
    obtain ⟨nc, rfl⟩ : ∃ nc, n = 2 * nc := ⟨n / 2, by omega⟩
    rw [show 2 * nc / 2 = nc by omega] at b3
    apply dft_shift (by omega)
    · intro i hi
      simp only [List.getD, (b3 i hi).1, a3 (i + nc) (by omega), Option.getD_some]
    · intro i hi
      simp only [List.getD, (b3 i hi).2, a3 i (by omega), Option.getD_some]
  have hre : ∀ k : Nat, k ≤ n / 2 → re[k]? = some (spectrum n src k).re ∧ im[k]? = some (spectrum n src k).im := by
    intro k hk
    obtain ⟨a, b, x1, x2, x3⟩ := c5 k (by omega)
    rw [hspec] at x3
    rw [x1, x2, ← x3]; exact ⟨rfl, rfl⟩
  obtain ⟨d', m, th, o, e1, e2⟩ := finish_ok (d := { d with fft := fft, time := t2, real := re, imag := im })
    ⟨hd.size, hd.hop_eq, c2, b2, by simp only; rw [c3, hd.real], by simp only; rw [c4, hd.imag], hd.plen, hd.ulen, hd.un, hd.ph⟩
    (spectrum n src) (fun k hk => (hre k hk).1) (fun k hk => (hre k hk).2) mag theta out hm ht ho
  refine ⟨d', m, th, o, ?_, e2⟩
  unfold processTime
  simp only [Option.bind_eq_bind] at a1
  rw [hd.size]
  simp only [Option.bind_eq_bind]
  rw [a1]
  simp only [Option.bind_some, b1, c1]
  simp only [hd.size] at e1
  exact e1

theorem freq_ok {n : Nat} (h1 : 2 ≤ n) {hop : Int} {d : PV} {prev : Nat → ℝ}
    (hd : Ok n hop d prev) (reals imags mag theta out : List ℝ) (hr : n / 2 + 1 ≤ reals.length) (hi : n / 2 + 1 ≤ imags.length)
    (hm : n / 2 + 1 ≤ mag.length) (ht : n / 2 + 1 ≤ theta.length) (ho : n / 2 + 1 ≤ out.length) :
    ∃ d' mag' theta' out', processFreq d reals imags mag theta out = some (d', mag', theta', out') ∧
      mag'.length = mag.length ∧ theta'.length = theta.length ∧ out'.length = out.length ∧
      (∀ k : Nat, k ≤ n / 2 → mag'[k]? = some ‖(⟨reals.getD k 0, imags.getD k 0⟩ : ℂ)‖ ∧
        theta'[k]? = some (⟨reals.getD k 0, imags.getD k 0⟩ : ℂ).arg ∧
        out'[k]? = some (prev k + omega n hop k +
          princarg ((⟨reals.getD k 0, imags.getD k 0⟩ : ℂ).arg - (prev k + omega n hop k)))) ∧
      (∀ k : Nat, n / 2 < k → mag'[k]? = mag[k]? ∧ theta'[k]? = theta[k]? ∧ out'[k]? = out[k]?) ∧
      Ok n hop d' (fun k => prev k + omega n hop k +
        princarg ((⟨reals.getD k 0, imags.getD k 0⟩ : ℂ).arg - (prev k + omega n hop k))) := by
  have hl1 := hd.real
  have hl2 := hd.imag
  obtain ⟨re, im, a1, a2, a3, a4, _⟩ := fill2_ok (n / 2 + 1) (fun i (p : List ℝ × List ℝ) => do
      let r ← reals[i]?
      let real ← wr p.1 i r
      let im ← imags[i]?
      let imag ← wr p.2 i im
      pure (real, imag)) (fun i => reals.getD i 0) (fun i => imags.getD i 0) d.real d.imag (by omega) (by omega)
    (by
      intro i b c hin hb hc
      have hv : reals[i]? = some (reals.getD i 0) := by simp [List.getElem?_eq_getElem (show i < reals.length by omega)]
      have hw : imags[i]? = some (imags.getD i 0) := by simp [List.getElem?_eq_getElem (show i < imags.length by omega)]
      simp only [hv, hw, Option.bind_eq_bind, Option.bind_some]
      rw [wr_some _ (by omega)]
      simp only [Option.bind_some]
      rw [wr_some _ (by omega)]
      rfl)
  obtain ⟨d', m, th, o, e1, e2⟩ := finish_ok (d := { d with real := re, imag := im })
    ⟨hd.size, hd.hop_eq, hd.fft, hd.time, by simp only; omega, by simp only; omega, hd.plen, hd.ulen, hd.un, hd.ph⟩
    (fun k => ⟨reals.getD k 0, imags.getD k 0⟩) (fun k hk => (a4 k (by omega)).1) (fun k hk => (a4 k (by omega)).2)
    mag theta out hm ht ho
  refine ⟨d', m, th, o, ?_, e2⟩
  unfold processFreq
  simp only [Option.bind_eq_bind] at a1
  rw [hd.size]
  simp only [Option.bind_eq_bind]
  rw [a1]
  simp only [hd.size] at e1
  exact e1

end QM.PhaseVocoder
