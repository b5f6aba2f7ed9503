import Verif.Kiss.Rounded
import Verif.Kiss.Work
import Verif.Common.DoubleNear

/-!
# One butterfly in floating point
-/

namespace QM.Kiss

open Complex QM.DFT QM.Double

/-- A complex number known within 32 units of a number of size at most 1. -/
def TwNear (t w : ℂ) : Prop := |t.re - w.re| ≤ 32 / 2 ^ 53 ∧ |t.im - w.im| ≤ 32 / 2 ^ 53

/-- What a plan for size `N` contains, up to rounding. -/
structure PlanNear (st : Plan) (N : Nat) : Prop where
  nfft : st.nfft = N
  tw : ∀ i, i < N → ∃ t, st.twiddles[i]? = some t ∧ TwNear t (root st.inverse N ^ i)

/-- The plan without rounding. -/
noncomputable def exactPlan (N : Nat) (inv : Bool) : Plan :=
  ⟨N, inv, [], (List.range N).map (fun i => root inv N ^ i)⟩

theorem exactPlan_ok (N : Nat) (inv : Bool) : PlanOk (exactPlan N inv) N :=
  ⟨rfl, by simp [exactPlan], fun i hi => by simp [exactPlan, hi]⟩

/-- What one iteration of a radix-`p` butterfly has to do up to rounding. -/
def CombineF (M : ℝ) (w : ℂ) (fs m p off u : Nat) (b b' : List ℂ) : Prop :=
  b'.length = b.length ∧
  (∀ q, q < p → ∃ v, b'[off + u + q * m]? = some v ∧
    ‖v - ∑ q' ∈ Finset.range p, get b (off + u + q' * m) * w ^ (fs * q' * (u + q * m))‖ ≤ 250 * p * (M / 2 ^ 53)) ∧
  (∀ i, (∀ q, q < p → i ≠ off + u + q * m) → b'[i]? = b[i]?)

theorem norm_root_pow (inv : Bool) (n i : Nat) : ‖root inv n ^ i‖ = 1 := by
  rw [norm_pow]
  have h : ‖root inv n‖ = 1 := by
    unfold root
    have : ((if inv then 1 else -1 : ℂ) * (2 * Real.pi * I / n)) =
        (((if inv then 1 else -1 : ℝ) * (2 * Real.pi / n) : ℝ) : ℂ) * I := by
      cases inv <;> push_cast <;> simp <;> ring
    rw [this, Complex.norm_exp_ofReal_mul_I]
  rw [h, one_pow]

section

variable {fl : ℝ → ℝ} (hfl : Rounds fl) {M : ℝ} (hM : Scale M)

include hfl hM in
theorem cadd_near {E E' : ℝ} {a b c d : ℂ} (h1 : NearC M E a b) (h2 : NearC M E' c d) (hb : ‖b‖ + ‖d‖ ≤ 2 * M)
    (hE : E + E' ≤ 2 ^ 45) : NearC M (E + E' + 4) (cadd fl a c) (b + d) := by
  have h := (norm_add_le b d).trans hb
  refine ⟨?_, ?_⟩
  · have := near_add hfl hM h1.1 h2.1 (by rw [← add_re]; exact re_le _ h) hE
    rwa [← add_re] at this
  · have := near_add hfl hM h1.2 h2.2 (by rw [← add_im]; exact im_le _ h) hE
    rwa [← add_im] at this

include hfl hM in
theorem csub_near {E E' : ℝ} {a b c d : ℂ} (h1 : NearC M E a b) (h2 : NearC M E' c d) (hb : ‖b‖ + ‖d‖ ≤ 2 * M)
    (hE : E + E' ≤ 2 ^ 45) : NearC M (E + E' + 4) (csub fl a c) (b - d) := by
  have h := (norm_sub_le b d).trans hb
  refine ⟨?_, ?_⟩
  · have := near_sub hfl hM h1.1 h2.1 (by rw [← sub_re]; exact re_le _ h) hE
    rwa [← sub_re] at this
  · have := near_sub hfl hM h1.2 h2.2 (by rw [← sub_im]; exact im_le _ h) hE
    rwa [← sub_im] at this

include hfl hM in
/-- A twiddled input. -/
theorem cmul_near {f t w : ℂ} (ht : TwNear t w) (hw : ‖w‖ = 1) (hf : ‖f‖ ≤ M) :
    NearC M 78 (cmul fl f t) (f * w) ∧ ‖f * w‖ = ‖f‖ := by
  have hr := re_le w hw.le
  have hi := im_le w hw.le
  have fr := re_le f hf
  have fi := im_le f hf
  have hn : ‖f * w‖ = ‖f‖ := by rw [norm_mul, hw, mul_one]
  have hf2 : ‖f‖ ≤ 2 * M := by have := hM.pos; linarith
  have nr := re_le (f * w) (hn.le.trans hf2)
  have ni := im_le (f * w) (hn.le.trans hf2)
  rw [mul_re] at nr
  rw [mul_im] at ni
  refine ⟨⟨?_, ?_⟩, hn⟩
  · have h1 := near_mul hfl hM (near_refl M f.re) ht.1 hr fr le_rfl (by norm_num)
    have h2 := near_mul hfl hM (near_refl M f.im) ht.2 hi fi le_rfl (by norm_num)
    have := near_sub hfl hM h1 h2 nr (by norm_num)
    rw [← mul_re] at this
    exact near_mono hM this (by norm_num)
  · have h1 := near_mul hfl hM (near_refl M f.re) ht.2 hi fr le_rfl (by norm_num)
    have h2 := near_mul hfl hM (near_refl M f.im) ht.1 hr fi le_rfl (by norm_num)
    have := near_add hfl hM h1 h2 ni (by norm_num)
    rw [← mul_im] at this
    exact near_mono hM this (by norm_num)

include hfl hM in
theorem bfly2F_ok {st : Plan} {N fs m off u : Nat} {b : List ℂ} (hp : PlanNear st N) (hN : N = fs * (2 * m))
    (hu : u < m) (hN0 : N ≠ 0) (hb : off + 2 * m ≤ b.length)
    (hs : ∑ q ∈ Finset.range 2, ‖get b (off + u + q * m)‖ ≤ M) :
    ∃ b', bfly2BodyF fl st fs m off u b = some b' ∧ CombineF M (root st.inverse N) fs m 2 off u b b' := by
  have hx := exactPlan_ok N st.inverse
  obtain ⟨be, he, hc⟩ := bfly2_ok hx hN hu hN0 hb
  have hfs : fs ≠ 0 := by rintro rfl; simp at hN; exact hN0 hN
  have h1 : u * fs < N := by rw [hN]; nlinarith [Nat.pos_of_ne_zero hfs]
  have e0 := get_eq (b := b) (i := off + u) (by omega)
  have e1 := get_eq (b := b) (i := off + m + u) (by omega)
  obtain ⟨t1, k1, n1⟩ := hp.tw _ h1
  have x1 := hx.tw _ h1
  have c1 : off + u + 1 * m = off + m + u := by omega
  have c0 : off + u + 0 * m = off + u := by omega
  simp only [Finset.sum_range_succ, Finset.sum_range_zero, c1, c0, zero_add] at hs
  have g1 := norm_root_pow st.inverse N (u * fs)
  change (exactPlan N st.inverse).twiddles[u * fs]? = some (root st.inverse N ^ (u * fs)) at x1
  change Combine (root st.inverse N) fs m 2 off u b be at hc
  simp only [bfly2Body, e0, e1, x1, Option.bind_eq_bind, Option.bind_some] at he
  rw [wr_some _ (by omega)] at he
  simp only [Option.bind_some] at he
  rw [wr_some _ (by simp; omega)] at he
  generalize hF0 : get b (off + u) = f0 at *
  generalize hF1 : get b (off + m + u) = f1 at *
  have hf0 := norm_nonneg f0
  have hf1 := norm_nonneg f1
  obtain ⟨a1, a2⟩ := cmul_near hfl hM n1 g1 (f := f1) (by linarith)
  have y0 : NearC M 82 (cadd fl f0 (cmul fl f1 t1)) (f0 + f1 * root st.inverse N ^ (u * fs)) :=
    nearC_mono hM (cadd_near hfl hM (nearC_refl M f0) a1 (by linarith) (by norm_num)) (by norm_num)
  have y1 : NearC M 82 (csub fl f0 (cmul fl f1 t1)) (f0 - f1 * root st.inverse N ^ (u * fs)) :=
    nearC_mono hM (csub_near hfl hM (nearC_refl M f0) a1 (by linarith) (by norm_num)) (by norm_num)
  obtain ⟨d1, d2, d3⟩ := hc
  rw [← Option.some.inj he] at d2
  have hw := unit_pos hM
  have fin : ∀ a b : ℂ, NearC M 82 a b → ‖a - b‖ ≤ 250 * (2 : ℕ) * (M / 2 ^ 53) := fun a b h =>
    (norm_of_near h).trans (mul_le_mul_of_nonneg_right (by norm_num) hw)
  refine ⟨(b.set (off + m + u) (csub fl f0 (cmul fl f1 t1))).set (off + u) (cadd fl f0 (cmul fl f1 t1)), ?_, ?_, ?_, ?_⟩
  · simp only [bfly2BodyF, e0, e1, k1, Option.bind_eq_bind, Option.bind_some]
    rw [wr_some _ (by omega)]
    simp only [Option.bind_some]
    rw [wr_some _ (by simp; omega)]
  · simp
  · intro q hq
    have := d2 q hq
    interval_cases q
    · rw [c0, set_hit (by simp; omega)] at this
      rw [c0, set_hit (by simp; omega)]
      exact ⟨_, rfl, by rw [← Option.some.inj this]; exact fin _ _ y0⟩
    · rw [c1, set_miss (by omega), set_hit (by omega)] at this
      rw [c1, set_miss (by omega), set_hit (by omega)]
      exact ⟨_, rfl, by rw [← Option.some.inj this]; exact fin _ _ y1⟩
  · intro i hi
    have i0 := hi 0 (by omega)
    have i1 := hi 1 (by omega)
    rw [set_miss (by omega), set_miss (by omega)]


/-! ### Radix 3 -/

/-- The three results. -/
noncomputable def v3 (fl : ℝ → ℝ) (f0 f1 f2 t1 t2 e : ℂ) : ℂ × ℂ × ℂ :=
  let s1 := cmul fl f1 t1
  let s2 := cmul fl f2 t2
  let s3 := cadd fl s1 s2
  let s0 := csub fl s1 s2
  let g1 : ℂ := ⟨fl (f0.re - fl (s3.re * (1 / 2))), fl (f0.im - fl (s3.im * (1 / 2)))⟩
  let s0 : ℂ := ⟨fl (s0.re * e.im), fl (s0.im * e.im)⟩
  (cadd fl f0 s3, ⟨fl (g1.re - s0.im), fl (g1.im + s0.re)⟩, ⟨fl (g1.re + s0.im), fl (g1.im - s0.re)⟩)

theorem eval3 (fl : ℝ → ℝ) {st : Plan} {fs m off u : Nat} {b : List ℂ} {f0 f1 f2 t1 t2 e : ℂ} (hu : u < m)
    (hb : off + 3 * m ≤ b.length) (h0 : b[off + u]? = some f0) (h1 : b[off + u + m]? = some f1)
    (h2 : b[off + u + 2 * m]? = some f2) (k0 : st.twiddles[fs * m]? = some e) (k1 : st.twiddles[u * fs]? = some t1)
    (k2 : st.twiddles[u * (fs * 2)]? = some t2) :
    bfly3BodyF fl st fs m off u b = some (((b.set (off + u) (v3 fl f0 f1 f2 t1 t2 e).1).set (off + u + 2 * m)
      (v3 fl f0 f1 f2 t1 t2 e).2.2).set (off + u + m) (v3 fl f0 f1 f2 t1 t2 e).2.1) := by
  simp only [bfly3BodyF, h0, h1, h2, k0, k1, k2, Option.bind_eq_bind, Option.bind_some]
  rw [wr_some _ (by omega)]
  simp only [Option.bind_some]
  rw [wr_some _ (by simp; omega)]
  simp only [Option.bind_some]
  rw [wr_some _ (by simp; omega)]
  rfl

include hfl hM in
/-- Half of a number. -/
theorem near_half {E a b : ℝ} (h : Near M E a b) (hb : |b| ≤ M) (hE0 : 0 ≤ E) (hE : E ≤ 2 ^ 44) :
    Near M (E + 37) (fl (a * (1 / 2))) (b * (1 / 2)) :=
  near_mul hfl hM h (by norm_num) (by norm_num [abs_le]) hb hE0 hE

include hfl hM in
theorem near3 {f0 f1 f2 t1 t2 e w1 w2 v : ℂ} (h1 : TwNear t1 w1) (h2 : TwNear t2 w2) (h0 : TwNear e v) (n1 : ‖w1‖ = 1)
    (n2 : ‖w2‖ = 1) (n0 : ‖v‖ = 1) (hs : ‖f0‖ + ‖f1‖ + ‖f2‖ ≤ M) :
    NearC M 450 (v3 fl f0 f1 f2 t1 t2 e).1 (v3 id f0 f1 f2 w1 w2 v).1 ∧
    NearC M 450 (v3 fl f0 f1 f2 t1 t2 e).2.1 (v3 id f0 f1 f2 w1 w2 v).2.1 ∧
    NearC M 450 (v3 fl f0 f1 f2 t1 t2 e).2.2 (v3 id f0 f1 f2 w1 w2 v).2.2 := by
  have p0 := norm_nonneg f0
  have p1 := norm_nonneg f1
  have p2 := norm_nonneg f2
  obtain ⟨a1, b1⟩ := cmul_near hfl hM h1 n1 (f := f1) (by linarith)
  obtain ⟨a2, b2⟩ := cmul_near hfl hM h2 n2 (f := f2) (by linarith)
  simp only [v3, cadd_id, csub_id, cmul_id, id_eq]
  generalize f1 * w1 = s1 at *
  generalize f2 * w2 = s2 at *
  generalize cmul fl f1 t1 = S1 at *
  generalize cmul fl f2 t2 = S2 at *
  have a3 := cadd_near hfl hM a1 a2 (by linarith) (by norm_num)
  have a0 := csub_near hfl hM a1 a2 (by linarith) (by norm_num)
  have b3 := norm_add_le s1 s2
  have b0 := norm_sub_le s1 s2
  generalize s1 + s2 = s3 at *
  generalize s1 - s2 = s0 at *
  generalize cadd fl S1 S2 = S3 at *
  generalize csub fl S1 S2 = S0 at *
  rw [show (78 : ℝ) + 78 + 4 = 160 by norm_num] at a3 a0
  have vi := im_le v n0.le
  have r0 := abs_le.mp (re_le f0 le_rfl)
  have i0 := abs_le.mp (im_le f0 le_rfl)
  have r3 := re_le s3 (n := ‖f1‖ + ‖f2‖) (by linarith)
  have i3 := im_le s3 (n := ‖f1‖ + ‖f2‖) (by linarith)
  have r4 := re_le s0 (n := ‖f1‖ + ‖f2‖) (by linarith)
  have i4 := im_le s0 (n := ‖f1‖ + ‖f2‖) (by linarith)
  have pr := near_half hfl hM a3.1 (by linarith) (by norm_num) (by norm_num)
  have pi := near_half hfl hM a3.2 (by linarith) (by norm_num) (by norm_num)
  have qr := near_mul hfl hM a0.1 h0.2 vi (by linarith) (by norm_num) (by norm_num)
  have qi := near_mul hfl hM a0.2 h0.2 vi (by linarith) (by norm_num) (by norm_num)
  have mr := abs_le.mp ((abs_mul_le (x := s0.re) vi).trans r4)
  have mi := abs_le.mp ((abs_mul_le (x := s0.im) vi).trans i4)
  have hr := abs_le.mp r3
  have hi := abs_le.mp i3
  have gr := near_sub hfl hM (near_refl M f0.re) pr (by rw [abs_le]; constructor <;> linarith) (by norm_num)
  have gi := near_sub hfl hM (near_refl M f0.im) pi (by rw [abs_le]; constructor <;> linarith) (by norm_num)
  refine ⟨nearC_mono hM (cadd_near hfl hM (nearC_refl M f0) a3 (by linarith) (by norm_num)) (by norm_num), ⟨?_, ?_⟩, ⟨?_, ?_⟩⟩
  · exact near_mono hM (near_sub hfl hM gr qi (by rw [abs_le]; constructor <;> linarith) (by norm_num)) (by norm_num)
  · exact near_mono hM (near_add hfl hM gi qr (by rw [abs_le]; constructor <;> linarith) (by norm_num)) (by norm_num)
  · exact near_mono hM (near_add hfl hM gr qi (by rw [abs_le]; constructor <;> linarith) (by norm_num)) (by norm_num)
  · exact near_mono hM (near_sub hfl hM gi qr (by rw [abs_le]; constructor <;> linarith) (by norm_num)) (by norm_num)

include hfl hM in
theorem bfly3F_ok {st : Plan} {N fs m off u : Nat} {b : List ℂ} (hp : PlanNear st N) (hN : N = fs * (3 * m))
    (hu : u < m) (hN0 : N ≠ 0) (hb : off + 3 * m ≤ b.length)
    (hs : ∑ q ∈ Finset.range 3, ‖get b (off + u + q * m)‖ ≤ M) :
    ∃ b', bfly3BodyF fl st fs m off u b = some b' ∧ CombineF M (root st.inverse N) fs m 3 off u b b' := by
  have hx := exactPlan_ok N st.inverse
  obtain ⟨be, he, hc⟩ := bfly3_ok hx hN hu hN0 hb
  rw [← bfly3_id] at he
  have hfs : fs ≠ 0 := by rintro rfl; simp at hN; exact hN0 hN
  have hfs1 : 1 ≤ fs := Nat.pos_of_ne_zero hfs
  have h0 : fs * m < N := by rw [hN]; nlinarith
  have h1 : u * fs < N := by rw [hN]; nlinarith
  have h2 : u * (fs * 2) < N := by rw [hN]; nlinarith
  have e0 := get_eq (b := b) (i := off + u) (by omega)
  have e1 := get_eq (b := b) (i := off + u + m) (by omega)
  have e2 := get_eq (b := b) (i := off + u + 2 * m) (by omega)
  obtain ⟨t0, k0, n0⟩ := hp.tw _ h0
  obtain ⟨t1, k1, n1⟩ := hp.tw _ h1
  obtain ⟨t2, k2, n2⟩ := hp.tw _ h2
  have c1 : off + u + 1 * m = off + u + m := by omega
  have c0 : off + u + 0 * m = off + u := by omega
  simp only [Finset.sum_range_succ, Finset.sum_range_zero, c1, c0, zero_add] at hs
  change Combine (root st.inverse N) fs m 3 off u b be at hc
  rw [eval3 id hu hb e0 e1 e2 (hx.tw _ h0) (hx.tw _ h1) (hx.tw _ h2)] at he
  obtain ⟨y0, y1, y2⟩ := near3 hfl hM n1 n2 n0 (norm_root_pow st.inverse N _) (norm_root_pow st.inverse N _)
    (norm_root_pow st.inverse N _) hs
  obtain ⟨d1, d2, d3⟩ := hc
  rw [← Option.some.inj he] at d2
  have hw := unit_pos hM
  have fin : ∀ a b : ℂ, NearC M 450 a b → ‖a - b‖ ≤ 250 * (3 : ℕ) * (M / 2 ^ 53) := fun a b h =>
    (norm_of_near h).trans (mul_le_mul_of_nonneg_right (by norm_num) hw)
  refine ⟨_, eval3 fl hu hb e0 e1 e2 k0 k1 k2, by simp, ?_, ?_⟩
  · intro q hq
    have := d2 q hq
    interval_cases q
    · rw [c0, set_miss (by omega), set_miss (by omega), set_hit (by omega)] at this ⊢
      exact ⟨_, rfl, by rw [← Option.some.inj this]; exact fin _ _ y0⟩
    · rw [c1, set_hit (by simp; omega)] at this ⊢
      exact ⟨_, rfl, by rw [← Option.some.inj this]; exact fin _ _ y1⟩
    · rw [set_miss (by omega), set_hit (by simp; omega)] at this ⊢
      exact ⟨_, rfl, by rw [← Option.some.inj this]; exact fin _ _ y2⟩
  · intro i hi
    have i0 := hi 0 (by omega)
    have i1 := hi 1 (by omega)
    have i2 := hi 2 (by omega)
    rw [set_miss (by omega), set_miss (by omega), set_miss (by omega)]


/-! ### Radix 4 -/

/-- The four results, forward (`inv` false) or inverse. -/
noncomputable def v4 (fl : ℝ → ℝ) (inv : Bool) (f0 f1 f2 f3 t1 t2 t3 : ℂ) : ℂ × ℂ × ℂ × ℂ :=
  let s0 := cmul fl f1 t1
  let s1 := cmul fl f2 t2
  let s2 := cmul fl f3 t3
  let s5 := csub fl f0 s1
  let f0 := cadd fl f0 s1
  let s3 := cadd fl s0 s2
  let s4 := csub fl s0 s2
  let x : ℂ := ⟨fl (s5.re - s4.im), fl (s5.im + s4.re)⟩
  let y : ℂ := ⟨fl (s5.re + s4.im), fl (s5.im - s4.re)⟩
  (cadd fl f0 s3, if inv then x else y, csub fl f0 s3, if inv then y else x)

theorem eval4 (fl : ℝ → ℝ) {st : Plan} {fs m off u : Nat} {b : List ℂ} {f0 f1 f2 f3 t1 t2 t3 : ℂ} (hu : u < m)
    (hb : off + 4 * m ≤ b.length) (h0 : b[off + u]? = some f0) (h1 : b[off + u + m]? = some f1)
    (h2 : b[off + u + 2 * m]? = some f2) (h3 : b[off + u + 3 * m]? = some f3) (k1 : st.twiddles[u * fs]? = some t1)
    (k2 : st.twiddles[u * (fs * 2)]? = some t2) (k3 : st.twiddles[u * (fs * 3)]? = some t3) :
    bfly4BodyF fl st fs m off u b = some ((((b.set (off + u + 2 * m) (v4 fl st.inverse f0 f1 f2 f3 t1 t2 t3).2.2.1).set
      (off + u) (v4 fl st.inverse f0 f1 f2 f3 t1 t2 t3).1).set (off + u + m)
      (v4 fl st.inverse f0 f1 f2 f3 t1 t2 t3).2.1).set (off + u + 3 * m) (v4 fl st.inverse f0 f1 f2 f3 t1 t2 t3).2.2.2) := by
  simp only [bfly4BodyF, h0, h1, h2, h3, k1, k2, k3, Option.bind_eq_bind, Option.bind_some]
  rw [wr_some _ (by omega)]
  simp only [Option.bind_some]
  rw [wr_some _ (by simp; omega)]
  simp only [Option.bind_some, v4]
  cases st.inverse
  · simp only [Bool.false_eq_true, if_false]
    rw [wr_some _ (by simp; omega)]
    simp only [Option.bind_some]
    rw [wr_some _ (by simp; omega)]
  · simp only [if_true]
    rw [wr_some _ (by simp; omega)]
    simp only [Option.bind_some]
    rw [wr_some _ (by simp; omega)]

include hfl hM in
theorem near4 (inv : Bool) {f0 f1 f2 f3 t1 t2 t3 w1 w2 w3 : ℂ} (h1 : TwNear t1 w1) (h2 : TwNear t2 w2) (h3 : TwNear t3 w3)
    (n1 : ‖w1‖ = 1) (n2 : ‖w2‖ = 1) (n3 : ‖w3‖ = 1) (hs : ‖f0‖ + ‖f1‖ + ‖f2‖ + ‖f3‖ ≤ M) :
    NearC M 450 (v4 fl inv f0 f1 f2 f3 t1 t2 t3).1 (v4 id inv f0 f1 f2 f3 w1 w2 w3).1 ∧
    NearC M 450 (v4 fl inv f0 f1 f2 f3 t1 t2 t3).2.1 (v4 id inv f0 f1 f2 f3 w1 w2 w3).2.1 ∧
    NearC M 450 (v4 fl inv f0 f1 f2 f3 t1 t2 t3).2.2.1 (v4 id inv f0 f1 f2 f3 w1 w2 w3).2.2.1 ∧
    NearC M 450 (v4 fl inv f0 f1 f2 f3 t1 t2 t3).2.2.2 (v4 id inv f0 f1 f2 f3 w1 w2 w3).2.2.2 := by
  have p0 := norm_nonneg f0
  have p1 := norm_nonneg f1
  have p2 := norm_nonneg f2
  have p3 := norm_nonneg f3
  obtain ⟨a0, b0⟩ := cmul_near hfl hM h1 n1 (f := f1) (by linarith)
  obtain ⟨a1, b1⟩ := cmul_near hfl hM h2 n2 (f := f2) (by linarith)
  obtain ⟨a2, b2⟩ := cmul_near hfl hM h3 n3 (f := f3) (by linarith)
  simp only [v4, cadd_id, csub_id, cmul_id, id_eq]
  generalize f1 * w1 = s0 at *
  generalize f2 * w2 = s1 at *
  generalize f3 * w3 = s2 at *
  generalize cmul fl f1 t1 = S0 at *
  generalize cmul fl f2 t2 = S1 at *
  generalize cmul fl f3 t3 = S2 at *
  have a5 := csub_near hfl hM (nearC_refl M f0) a1 (by linarith) (by norm_num)
  have a6 := cadd_near hfl hM (nearC_refl M f0) a1 (by linarith) (by norm_num)
  have a3 := cadd_near hfl hM a0 a2 (by linarith) (by norm_num)
  have a4 := csub_near hfl hM a0 a2 (by linarith) (by norm_num)
  have b5 := norm_sub_le f0 s1
  have b6 := norm_add_le f0 s1
  have b3 := norm_add_le s0 s2
  have b4 := norm_sub_le s0 s2
  generalize f0 - s1 = s5 at *
  generalize f0 + s1 = s6 at *
  generalize s0 + s2 = s3 at *
  generalize s0 - s2 = s4 at *
  generalize csub fl f0 S1 = S5 at *
  generalize cadd fl f0 S1 = S6 at *
  generalize cadd fl S0 S2 = S3 at *
  generalize csub fl S0 S2 = S4 at *
  have r5 := abs_le.mp (re_le s5 (n := ‖f0‖ + ‖f2‖) (by linarith))
  have i5 := abs_le.mp (im_le s5 (n := ‖f0‖ + ‖f2‖) (by linarith))
  have r4 := abs_le.mp (re_le s4 (n := ‖f1‖ + ‖f3‖) (by linarith))
  have i4 := abs_le.mp (im_le s4 (n := ‖f1‖ + ‖f3‖) (by linarith))
  have x : NearC M 450 ⟨fl (S5.re - S4.im), fl (S5.im + S4.re)⟩ ⟨s5.re - s4.im, s5.im + s4.re⟩ :=
    ⟨near_mono hM (near_sub hfl hM a5.1 a4.2 (by rw [abs_le]; constructor <;> linarith) (by norm_num)) (by norm_num),
      near_mono hM (near_add hfl hM a5.2 a4.1 (by rw [abs_le]; constructor <;> linarith) (by norm_num)) (by norm_num)⟩
  have y : NearC M 450 ⟨fl (S5.re + S4.im), fl (S5.im - S4.re)⟩ ⟨s5.re + s4.im, s5.im - s4.re⟩ :=
    ⟨near_mono hM (near_add hfl hM a5.1 a4.2 (by rw [abs_le]; constructor <;> linarith) (by norm_num)) (by norm_num),
      near_mono hM (near_sub hfl hM a5.2 a4.1 (by rw [abs_le]; constructor <;> linarith) (by norm_num)) (by norm_num)⟩
  refine ⟨nearC_mono hM (cadd_near hfl hM a6 a3 (by linarith) (by norm_num)) (by norm_num), ?_,
    nearC_mono hM (csub_near hfl hM a6 a3 (by linarith) (by norm_num)) (by norm_num), ?_⟩
  · cases inv
    · exact y
    · exact x
  · cases inv
    · exact x
    · exact y

include hfl hM in
theorem bfly4F_ok {st : Plan} {N fs m off u : Nat} {b : List ℂ} (hp : PlanNear st N) (hN : N = fs * (4 * m))
    (hu : u < m) (hN0 : N ≠ 0) (hb : off + 4 * m ≤ b.length)
    (hs : ∑ q ∈ Finset.range 4, ‖get b (off + u + q * m)‖ ≤ M) :
    ∃ b', bfly4BodyF fl st fs m off u b = some b' ∧ CombineF M (root st.inverse N) fs m 4 off u b b' := by
  have hx := exactPlan_ok N st.inverse
  obtain ⟨be, he, hc⟩ := bfly4_ok hx hN hu hN0 hb
  rw [← bfly4_id] at he
  have hfs : fs ≠ 0 := by rintro rfl; simp at hN; exact hN0 hN
  have hfs1 : 1 ≤ fs := Nat.pos_of_ne_zero hfs
  have h1 : u * fs < N := by rw [hN]; nlinarith
  have h2 : u * (fs * 2) < N := by rw [hN]; nlinarith
  have h3 : u * (fs * 3) < N := by rw [hN]; nlinarith
  have e0 := get_eq (b := b) (i := off + u) (by omega)
  have e1 := get_eq (b := b) (i := off + u + m) (by omega)
  have e2 := get_eq (b := b) (i := off + u + 2 * m) (by omega)
  have e3 := get_eq (b := b) (i := off + u + 3 * m) (by omega)
  obtain ⟨t1, k1, n1⟩ := hp.tw _ h1
  obtain ⟨t2, k2, n2⟩ := hp.tw _ h2
  obtain ⟨t3, k3, n3⟩ := hp.tw _ h3
  have c1 : off + u + 1 * m = off + u + m := by omega
  have c0 : off + u + 0 * m = off + u := by omega
  simp only [Finset.sum_range_succ, Finset.sum_range_zero, c1, c0, zero_add] at hs
  change Combine (root st.inverse N) fs m 4 off u b be at hc
  rw [eval4 id hu hb e0 e1 e2 e3 (hx.tw _ h1) (hx.tw _ h2) (hx.tw _ h3)] at he
  obtain ⟨y0, y1, y2, y3⟩ := near4 hfl hM st.inverse n1 n2 n3 (norm_root_pow st.inverse N _) (norm_root_pow st.inverse N _)
    (norm_root_pow st.inverse N _) hs
  obtain ⟨d1, d2, d3⟩ := hc
  rw [← Option.some.inj he] at d2
  have hw := unit_pos hM
  have fin : ∀ a b : ℂ, NearC M 450 a b → ‖a - b‖ ≤ 250 * (4 : ℕ) * (M / 2 ^ 53) := fun a b h =>
    (norm_of_near h).trans (mul_le_mul_of_nonneg_right (by norm_num) hw)
  refine ⟨_, eval4 fl hu hb e0 e1 e2 e3 k1 k2 k3, by simp, ?_, ?_⟩
  · intro q hq
    have := d2 q hq
    interval_cases q
    · rw [c0, set_miss (by omega), set_miss (by omega), set_hit (by simp; omega)] at this ⊢
      exact ⟨_, rfl, by rw [← Option.some.inj this]; exact fin _ _ y0⟩
    · rw [c1, set_miss (by omega), set_hit (by simp; omega)] at this ⊢
      exact ⟨_, rfl, by rw [← Option.some.inj this]; exact fin _ _ y1⟩
    · rw [set_miss (by omega), set_miss (by omega), set_miss (by omega), set_hit (by omega)] at this ⊢
      exact ⟨_, rfl, by rw [← Option.some.inj this]; exact fin _ _ y2⟩
    · rw [set_hit (by simp; omega)] at this ⊢
      exact ⟨_, rfl, by rw [← Option.some.inj this]; exact fin _ _ y3⟩
  · intro i hi
    have i0 := hi 0 (by omega)
    have i1 := hi 1 (by omega)
    have i2 := hi 2 (by omega)
    have i3 := hi 3 (by omega)
    rw [set_miss (by omega), set_miss (by omega), set_miss (by omega), set_miss (by omega)]

/-! ### Radix 5 -/

/-- The five results. -/
noncomputable def v5 (fl : ℝ → ℝ) (s0 f1 f2 f3 f4 t1 t2 t3 t4 ya yb : ℂ) : ℂ × ℂ × ℂ × ℂ × ℂ :=
  let s1 := cmul fl f1 t1
  let s2 := cmul fl f2 t2
  let s3 := cmul fl f3 t3
  let s4 := cmul fl f4 t4
  let s7 := cadd fl s1 s4
  let s10 := csub fl s1 s4
  let s8 := cadd fl s2 s3
  let s9 := csub fl s2 s3
  let s5 : ℂ := ⟨fl (fl (s0.re + fl (s7.re * ya.re)) + fl (s8.re * yb.re)),
    fl (fl (s0.im + fl (s7.im * ya.re)) + fl (s8.im * yb.re))⟩
  let s6 : ℂ := ⟨fl (fl (s10.im * ya.im) + fl (s9.im * yb.im)), fl (-fl (s10.re * ya.im) - fl (s9.re * yb.im))⟩
  let s11 : ℂ := ⟨fl (fl (s0.re + fl (s7.re * yb.re)) + fl (s8.re * ya.re)),
    fl (fl (s0.im + fl (s7.im * yb.re)) + fl (s8.im * ya.re))⟩
  let s12 : ℂ := ⟨fl (-fl (s10.im * yb.im) + fl (s9.im * ya.im)), fl (fl (s10.re * yb.im) - fl (s9.re * ya.im))⟩
  (⟨fl (s0.re + fl (s7.re + s8.re)), fl (s0.im + fl (s7.im + s8.im))⟩, csub fl s5 s6, cadd fl s11 s12, csub fl s11 s12,
    cadd fl s5 s6)

theorem eval5 (fl : ℝ → ℝ) {st : Plan} {fs m off u : Nat} {b : List ℂ} {f0 f1 f2 f3 f4 t1 t2 t3 t4 ya yb : ℂ} (hu : u < m)
    (hb : off + 5 * m ≤ b.length) (h0 : b[off + u]? = some f0) (h1 : b[off + u + m]? = some f1)
    (h2 : b[off + u + 2 * m]? = some f2) (h3 : b[off + u + 3 * m]? = some f3) (h4 : b[off + u + 4 * m]? = some f4)
    (ka : st.twiddles[fs * m]? = some ya) (kb : st.twiddles[fs * 2 * m]? = some yb)
    (k1 : st.twiddles[u * fs]? = some t1) (k2 : st.twiddles[2 * u * fs]? = some t2)
    (k3 : st.twiddles[3 * u * fs]? = some t3) (k4 : st.twiddles[4 * u * fs]? = some t4) :
    bfly5BodyF fl st fs m off u b = some (((((b.set (off + u) (v5 fl f0 f1 f2 f3 f4 t1 t2 t3 t4 ya yb).1).set
      (off + u + m) (v5 fl f0 f1 f2 f3 f4 t1 t2 t3 t4 ya yb).2.1).set (off + u + 4 * m)
      (v5 fl f0 f1 f2 f3 f4 t1 t2 t3 t4 ya yb).2.2.2.2).set (off + u + 2 * m)
      (v5 fl f0 f1 f2 f3 f4 t1 t2 t3 t4 ya yb).2.2.1).set (off + u + 3 * m)
      (v5 fl f0 f1 f2 f3 f4 t1 t2 t3 t4 ya yb).2.2.2.1) := by
  simp only [bfly5BodyF, h0, h1, h2, h3, h4, ka, kb, k1, k2, k3, k4, Option.bind_eq_bind, Option.bind_some]
  rw [wr_some _ (by omega)]
  simp only [Option.bind_some]
  rw [wr_some _ (by simp; omega)]
  simp only [Option.bind_some]
  rw [wr_some _ (by simp; omega)]
  simp only [Option.bind_some]
  rw [wr_some _ (by simp; omega)]
  simp only [Option.bind_some]
  rw [wr_some _ (by simp; omega)]
  rfl

include hfl hM in
/-- `s0 + s7 * a + s8 * b` in one part. -/
theorem near_dot {x S7 s7 S8 s8 A a B b X N7 N8 : ℝ} (h7 : Near M 160 S7 s7) (h8 : Near M 160 S8 s8)
    (hA : |A - a| ≤ 32 / 2 ^ 53) (hB : |B - b| ≤ 32 / 2 ^ 53) (ha : |a| ≤ 1) (hb : |b| ≤ 1) (hx : |x| ≤ X) (h7' : |s7| ≤ N7)
    (h8' : |s8| ≤ N8) (hX : 0 ≤ X) (h70 : 0 ≤ N7) (h80 : 0 ≤ N8) (hs : X + N7 + N8 ≤ M) :
    Near M 402 (fl (fl (x + fl (S7 * A)) + fl (S8 * B))) (x + s7 * a + s8 * b) ∧ |x + s7 * a + s8 * b| ≤ X + N7 + N8 := by
  have m7 := near_mul hfl hM h7 hA ha (by linarith) (by norm_num) (by norm_num)
  have m8 := near_mul hfl hM h8 hB hb (by linarith) (by norm_num) (by norm_num)
  have y7 := abs_le.mp ((abs_mul_le (x := s7) ha).trans h7')
  have y8 := abs_le.mp ((abs_mul_le (x := s8) hb).trans h8')
  have yx := abs_le.mp hx
  have z := near_add hfl hM (near_refl M x) m7 (by rw [abs_le]; constructor <;> linarith) (by norm_num)
  exact ⟨near_mono hM (near_add hfl hM z m8 (by rw [abs_le]; constructor <;> linarith) (by norm_num)) (by norm_num),
    by rw [abs_le]; constructor <;> linarith⟩

include hfl hM in
/-- `s10 * a + s9 * b` in one part. -/
theorem near_dot2 {S7 s7 S8 s8 A a B b N7 N8 : ℝ} (h7 : Near M 160 S7 s7) (h8 : Near M 160 S8 s8)
    (hA : |A - a| ≤ 32 / 2 ^ 53) (hB : |B - b| ≤ 32 / 2 ^ 53) (ha : |a| ≤ 1) (hb : |b| ≤ 1) (h7' : |s7| ≤ N7)
    (h8' : |s8| ≤ N8) (h70 : 0 ≤ N7) (h80 : 0 ≤ N8) (hs : N7 + N8 ≤ M) :
    (Near M 398 (fl (fl (S7 * A) + fl (S8 * B))) (s7 * a + s8 * b) ∧ |s7 * a + s8 * b| ≤ N7 + N8) ∧
    (Near M 398 (fl (-fl (S7 * A) - fl (S8 * B))) (-(s7 * a) - s8 * b) ∧ |-(s7 * a) - s8 * b| ≤ N7 + N8) ∧
    (Near M 398 (fl (-fl (S7 * A) + fl (S8 * B))) (-(s7 * a) + s8 * b) ∧ |-(s7 * a) + s8 * b| ≤ N7 + N8) ∧
    (Near M 398 (fl (fl (S7 * A) - fl (S8 * B))) (s7 * a - s8 * b) ∧ |s7 * a - s8 * b| ≤ N7 + N8) := by
  have m7 := near_mul hfl hM h7 hA ha (by linarith) (by norm_num) (by norm_num)
  have m8 := near_mul hfl hM h8 hB hb (by linarith) (by norm_num) (by norm_num)
  have y7 := abs_le.mp ((abs_mul_le (x := s7) ha).trans h7')
  have y8 := abs_le.mp ((abs_mul_le (x := s8) hb).trans h8')
  refine ⟨⟨near_mono hM (near_add hfl hM m7 m8 ?_ (by norm_num)) (by norm_num), ?_⟩,
    ⟨near_mono hM (near_sub hfl hM (near_neg m7) m8 ?_ (by norm_num)) (by norm_num), ?_⟩,
    ⟨near_mono hM (near_add hfl hM (near_neg m7) m8 ?_ (by norm_num)) (by norm_num), ?_⟩,
    ⟨near_mono hM (near_sub hfl hM m7 m8 ?_ (by norm_num)) (by norm_num), ?_⟩⟩ <;>
  · rw [abs_le]; constructor <;> linarith

include hfl hM in
theorem near5 {f0 f1 f2 f3 f4 t1 t2 t3 t4 ya yb w1 w2 w3 w4 va vb : ℂ} (h1 : TwNear t1 w1) (h2 : TwNear t2 w2)
    (h3 : TwNear t3 w3) (h4 : TwNear t4 w4) (ha : TwNear ya va) (hb : TwNear yb vb) (n1 : ‖w1‖ = 1) (n2 : ‖w2‖ = 1)
    (n3 : ‖w3‖ = 1) (n4 : ‖w4‖ = 1) (na : ‖va‖ = 1) (nb : ‖vb‖ = 1) (hs : ‖f0‖ + ‖f1‖ + ‖f2‖ + ‖f3‖ + ‖f4‖ ≤ M) :
    NearC M 810 (v5 fl f0 f1 f2 f3 f4 t1 t2 t3 t4 ya yb).1 (v5 id f0 f1 f2 f3 f4 w1 w2 w3 w4 va vb).1 ∧
    NearC M 810 (v5 fl f0 f1 f2 f3 f4 t1 t2 t3 t4 ya yb).2.1 (v5 id f0 f1 f2 f3 f4 w1 w2 w3 w4 va vb).2.1 ∧
    NearC M 810 (v5 fl f0 f1 f2 f3 f4 t1 t2 t3 t4 ya yb).2.2.1 (v5 id f0 f1 f2 f3 f4 w1 w2 w3 w4 va vb).2.2.1 ∧
    NearC M 810 (v5 fl f0 f1 f2 f3 f4 t1 t2 t3 t4 ya yb).2.2.2.1 (v5 id f0 f1 f2 f3 f4 w1 w2 w3 w4 va vb).2.2.2.1 ∧
    NearC M 810 (v5 fl f0 f1 f2 f3 f4 t1 t2 t3 t4 ya yb).2.2.2.2 (v5 id f0 f1 f2 f3 f4 w1 w2 w3 w4 va vb).2.2.2.2 := by
  have p0 := norm_nonneg f0
  have p1 := norm_nonneg f1
  have p2 := norm_nonneg f2
  have p3 := norm_nonneg f3
  have p4 := norm_nonneg f4
  obtain ⟨a1, b1⟩ := cmul_near hfl hM h1 n1 (f := f1) (by linarith)
  obtain ⟨a2, b2⟩ := cmul_near hfl hM h2 n2 (f := f2) (by linarith)
  obtain ⟨a3, b3⟩ := cmul_near hfl hM h3 n3 (f := f3) (by linarith)
  obtain ⟨a4, b4⟩ := cmul_near hfl hM h4 n4 (f := f4) (by linarith)
  simp only [v5, cadd_id, csub_id, cmul_id, id_eq]
  generalize f1 * w1 = s1 at *
  generalize f2 * w2 = s2 at *
  generalize f3 * w3 = s3 at *
  generalize f4 * w4 = s4 at *
  generalize cmul fl f1 t1 = S1 at *
  generalize cmul fl f2 t2 = S2 at *
  generalize cmul fl f3 t3 = S3 at *
  generalize cmul fl f4 t4 = S4 at *
  have a7 := cadd_near hfl hM a1 a4 (by linarith) (by norm_num)
  have a10 := csub_near hfl hM a1 a4 (by linarith) (by norm_num)
  have a8 := cadd_near hfl hM a2 a3 (by linarith) (by norm_num)
  have a9 := csub_near hfl hM a2 a3 (by linarith) (by norm_num)
  have b7 : ‖s1 + s4‖ ≤ ‖f1‖ + ‖f4‖ := by rw [← b1, ← b4]; exact norm_add_le s1 s4
  have b10 : ‖s1 - s4‖ ≤ ‖f1‖ + ‖f4‖ := by rw [← b1, ← b4]; exact norm_sub_le s1 s4
  have b8 : ‖s2 + s3‖ ≤ ‖f2‖ + ‖f3‖ := by rw [← b2, ← b3]; exact norm_add_le s2 s3
  have b9 : ‖s2 - s3‖ ≤ ‖f2‖ + ‖f3‖ := by rw [← b2, ← b3]; exact norm_sub_le s2 s3
  generalize s1 + s4 = s7 at *
  generalize s1 - s4 = s10 at *
  generalize s2 + s3 = s8 at *
  generalize s2 - s3 = s9 at *
  generalize cadd fl S1 S4 = S7 at *
  generalize csub fl S1 S4 = S10 at *
  generalize cadd fl S2 S3 = S8 at *
  generalize csub fl S2 S3 = S9 at *
  rw [show (78 : ℝ) + 78 + 4 = 160 by norm_num] at a7 a8 a9 a10
  have var := re_le va na.le
  have vai := im_le va na.le
  have vbr := re_le vb nb.le
  have vbi := im_le vb nb.le
  have x0r := re_le f0 le_rfl
  have x0i := im_le f0 le_rfl
  have x7r := re_le _ b7
  have x7i := im_le _ b7
  have x8r := re_le _ b8
  have x8i := im_le _ b8
  have x9r := re_le _ b9
  have x9i := im_le _ b9
  have x10r := re_le _ b10
  have x10i := im_le _ b10
  obtain ⟨d5r, e5r⟩ := near_dot hfl hM a7.1 a8.1 ha.1 hb.1 var vbr x0r x7r x8r p0 (by linarith) (by linarith) (by linarith)
  obtain ⟨d5i, e5i⟩ := near_dot hfl hM a7.2 a8.2 ha.1 hb.1 var vbr x0i x7i x8i p0 (by linarith) (by linarith) (by linarith)
  obtain ⟨d11r, e11r⟩ := near_dot hfl hM a7.1 a8.1 hb.1 ha.1 vbr var x0r x7r x8r p0 (by linarith) (by linarith) (by linarith)
  obtain ⟨d11i, e11i⟩ := near_dot hfl hM a7.2 a8.2 hb.1 ha.1 vbr var x0i x7i x8i p0 (by linarith) (by linarith) (by linarith)
  obtain ⟨d6r, e6r⟩ := (near_dot2 hfl hM a10.2 a9.2 ha.2 hb.2 vai vbi x10i x9i (by linarith) (by linarith) (by linarith)).1
  obtain ⟨d6i, e6i⟩ := (near_dot2 hfl hM a10.1 a9.1 ha.2 hb.2 vai vbi x10r x9r (by linarith) (by linarith) (by linarith)).2.1
  obtain ⟨d12r, e12r⟩ := (near_dot2 hfl hM a10.2 a9.2 hb.2 ha.2 vbi vai x10i x9i (by linarith) (by linarith)
    (by linarith)).2.2.1
  obtain ⟨d12i, e12i⟩ := (near_dot2 hfl hM a10.1 a9.1 hb.2 ha.2 vbi vai x10r x9r (by linarith) (by linarith)
    (by linarith)).2.2.2
  have bnd : ∀ x y : ℝ, |x| ≤ ‖f0‖ + (‖f1‖ + ‖f4‖) + (‖f2‖ + ‖f3‖) → |y| ≤ ‖f1‖ + ‖f4‖ + (‖f2‖ + ‖f3‖) →
      |x + y| ≤ 2 * M ∧ |x - y| ≤ 2 * M := by
    intro x y hx hy
    rw [abs_le] at hx hy
    constructor <;> rw [abs_le] <;> constructor <;> linarith
  have q7r := abs_le.mp x7r
  have q7i := abs_le.mp x7i
  have q8r := abs_le.mp x8r
  have q8i := abs_le.mp x8i
  have q0r := abs_le.mp x0r
  have q0i := abs_le.mp x0i
  have z78r := near_add hfl hM a7.1 a8.1 (by rw [abs_le]; constructor <;> linarith) (by norm_num)
  have z78i := near_add hfl hM a7.2 a8.2 (by rw [abs_le]; constructor <;> linarith) (by norm_num)
  refine ⟨⟨?_, ?_⟩, ⟨?_, ?_⟩, ⟨?_, ?_⟩, ⟨?_, ?_⟩, ⟨?_, ?_⟩⟩
  · exact near_mono hM (near_add hfl hM (near_refl M f0.re) z78r (by rw [abs_le]; constructor <;> linarith) (by norm_num))
      (by norm_num)
  · exact near_mono hM (near_add hfl hM (near_refl M f0.im) z78i (by rw [abs_le]; constructor <;> linarith) (by norm_num))
      (by norm_num)
  · exact near_mono hM (near_sub hfl hM d5r d6r (bnd _ _ e5r e6r).2 (by norm_num)) (by norm_num)
  · exact near_mono hM (near_sub hfl hM d5i d6i (bnd _ _ e5i e6i).2 (by norm_num)) (by norm_num)
  · exact near_mono hM (near_add hfl hM d11r d12r (bnd _ _ e11r e12r).1 (by norm_num)) (by norm_num)
  · exact near_mono hM (near_add hfl hM d11i d12i (bnd _ _ e11i e12i).1 (by norm_num)) (by norm_num)
  · exact near_mono hM (near_sub hfl hM d11r d12r (bnd _ _ e11r e12r).2 (by norm_num)) (by norm_num)
  · exact near_mono hM (near_sub hfl hM d11i d12i (bnd _ _ e11i e12i).2 (by norm_num)) (by norm_num)
  · exact near_mono hM (near_add hfl hM d5r d6r (bnd _ _ e5r e6r).1 (by norm_num)) (by norm_num)
  · exact near_mono hM (near_add hfl hM d5i d6i (bnd _ _ e5i e6i).1 (by norm_num)) (by norm_num)

include hfl hM in
theorem bfly5F_ok {st : Plan} {N fs m off u : Nat} {b : List ℂ} (hp : PlanNear st N) (hN : N = fs * (5 * m))
    (hu : u < m) (hN0 : N ≠ 0) (hb : off + 5 * m ≤ b.length)
    (hs : ∑ q ∈ Finset.range 5, ‖get b (off + u + q * m)‖ ≤ M) :
    ∃ b', bfly5BodyF fl st fs m off u b = some b' ∧ CombineF M (root st.inverse N) fs m 5 off u b b' := by
  have hx := exactPlan_ok N st.inverse
  obtain ⟨be, he, hc⟩ := bfly5_ok hx hN hu hN0 hb
  rw [← bfly5_id] at he
  have hfs : fs ≠ 0 := by rintro rfl; simp at hN; exact hN0 hN
  have hfs1 : 1 ≤ fs := Nat.pos_of_ne_zero hfs
  have ha : fs * m < N := by rw [hN]; nlinarith
  have hb' : fs * 2 * m < N := by rw [hN]; nlinarith
  have h1 : u * fs < N := by rw [hN]; nlinarith
  have h2 : 2 * u * fs < N := by rw [hN]; nlinarith
  have h3 : 3 * u * fs < N := by rw [hN]; nlinarith
  have h4 : 4 * u * fs < N := by rw [hN]; nlinarith
  have e0 := get_eq (b := b) (i := off + u) (by omega)
  have e1 := get_eq (b := b) (i := off + u + m) (by omega)
  have e2 := get_eq (b := b) (i := off + u + 2 * m) (by omega)
  have e3 := get_eq (b := b) (i := off + u + 3 * m) (by omega)
  have e4 := get_eq (b := b) (i := off + u + 4 * m) (by omega)
  obtain ⟨ta, ka, na⟩ := hp.tw _ ha
  obtain ⟨tb, kb, nb⟩ := hp.tw _ hb'
  obtain ⟨t1, k1, n1⟩ := hp.tw _ h1
  obtain ⟨t2, k2, n2⟩ := hp.tw _ h2
  obtain ⟨t3, k3, n3⟩ := hp.tw _ h3
  obtain ⟨t4, k4, n4⟩ := hp.tw _ h4
  have c1 : off + u + 1 * m = off + u + m := by omega
  have c0 : off + u + 0 * m = off + u := by omega
  simp only [Finset.sum_range_succ, Finset.sum_range_zero, c1, c0, zero_add] at hs
  change Combine (root st.inverse N) fs m 5 off u b be at hc
  rw [eval5 id hu hb e0 e1 e2 e3 e4 (hx.tw _ ha) (hx.tw _ hb') (hx.tw _ h1) (hx.tw _ h2) (hx.tw _ h3) (hx.tw _ h4)] at he
  obtain ⟨y0, y1, y2, y3, y4⟩ := near5 hfl hM n1 n2 n3 n4 na nb (norm_root_pow st.inverse N _) (norm_root_pow st.inverse N _)
    (norm_root_pow st.inverse N _) (norm_root_pow st.inverse N _) (norm_root_pow st.inverse N _)
    (norm_root_pow st.inverse N _) hs
  obtain ⟨d1, d2, d3⟩ := hc
  rw [← Option.some.inj he] at d2
  have hw := unit_pos hM
  have fin : ∀ a b : ℂ, NearC M 810 a b → ‖a - b‖ ≤ 250 * (5 : ℕ) * (M / 2 ^ 53) := fun a b h =>
    (norm_of_near h).trans (mul_le_mul_of_nonneg_right (by norm_num) hw)
  refine ⟨_, eval5 fl hu hb e0 e1 e2 e3 e4 ka kb k1 k2 k3 k4, by simp, ?_, ?_⟩
  · intro q hq
    have := d2 q hq
    interval_cases q
    · rw [c0, set_miss (by omega), set_miss (by omega), set_miss (by omega), set_miss (by omega),
        set_hit (by omega)] at this ⊢
      exact ⟨_, rfl, by rw [← Option.some.inj this]; exact fin _ _ y0⟩
    · rw [c1, set_miss (by omega), set_miss (by omega), set_miss (by omega), set_hit (by simp; omega)] at this ⊢
      exact ⟨_, rfl, by rw [← Option.some.inj this]; exact fin _ _ y1⟩
    · rw [set_miss (by omega), set_hit (by simp; omega)] at this ⊢
      exact ⟨_, rfl, by rw [← Option.some.inj this]; exact fin _ _ y2⟩
    · rw [set_hit (by simp; omega)] at this ⊢
      exact ⟨_, rfl, by rw [← Option.some.inj this]; exact fin _ _ y3⟩
    · rw [set_miss (by omega), set_miss (by omega), set_hit (by simp; omega)] at this ⊢
      exact ⟨_, rfl, by rw [← Option.some.inj this]; exact fin _ _ y4⟩
  · intro i hi
    have i0 := hi 0 (by omega)
    have i1 := hi 1 (by omega)
    have i2 := hi 2 (by omega)
    have i3 := hi 3 (by omega)
    have i4 := hi 4 (by omega)
    rw [set_miss (by omega), set_miss (by omega), set_miss (by omega), set_miss (by omega), set_miss (by omega)]

end

end QM.Kiss
