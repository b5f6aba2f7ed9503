import Verif.Kiss.Root
import Verif.Kiss.Factor
import Mathlib.Tactic.Linarith

namespace QM.Kiss

open Complex QM.DFT

/-- Element `i` of a buffer (0 outside; only used inside). -/
def get (b : List ℂ) (i : Nat) : ℂ := b.getD i 0

theorem get_eq {b : List ℂ} {i : Nat} (h : i < b.length) : b[i]? = some (get b i) := by
  simp [get, h]

theorem get_of_some {b : List ℂ} {i : Nat} {v : ℂ} (h : b[i]? = some v) : get b i = v := by
  simp [get, List.getD, h]

theorem set_hit {b : List ℂ} {i : Nat} {v : ℂ} (h : i < b.length) : (b.set i v)[i]? = some v := by
  simp [h]

theorem set_miss {b : List ℂ} {i j : Nat} {v : ℂ} (h : i ≠ j) : (b.set i v)[j]? = b[j]? := by
  simp [h]

/-- What a plan for size `N` contains. -/
structure PlanOk (st : Plan) (N : Nat) : Prop where
  nfft : st.nfft = N
  len : st.twiddles.length = N
  tw : ∀ i, i < N → st.twiddles[i]? = some (root st.inverse N ^ i)

/-- What one iteration of a radix-`p` butterfly has to do: replace the `p` elements at distance `m` by their
twiddled transform, and nothing else. -/
def Combine (w : ℂ) (fs m p off u : Nat) (b b' : List ℂ) : Prop :=
  b'.length = b.length ∧
  (∀ q, q < p → b'[off + u + q * m]? =
    some (∑ q' ∈ Finset.range p, get b (off + u + q' * m) * w ^ (fs * q' * (u + q * m)))) ∧
  (∀ i, (∀ q, q < p → i ≠ off + u + q * m) → b'[i]? = b[i]?)

theorem term_eq (w : ℂ) (fs m u q q' : Nat) :
    w ^ (fs * q' * (u + q * m)) = w ^ (u * fs * q') * (w ^ (fs * m)) ^ (q' * q) := by
  rw [← pow_mul, ← pow_add]; congr 1; ring

theorem bfly2_ok {st : Plan} {N fs m off u : Nat} {b : List ℂ} (hp : PlanOk st N) (hN : N = fs * (2 * m))
    (hu : u < m) (hN0 : N ≠ 0) (hb : off + 2 * m ≤ b.length) :
    ∃ b', bfly2Body st fs m off u b = some b' ∧ Combine (root st.inverse N) fs m 2 off u b b' := by
  have hfs : fs ≠ 0 := by rintro rfl; simp at hN; exact hN0 hN
  have hv : root st.inverse N ^ (fs * m) = -1 := by
    have : N = (fs * m) * 2 := by rw [hN]; ring
    rw [this, root_pow_mul _ (Nat.mul_ne_zero hfs (by omega)) (by norm_num), root_two]
  have h1 : u * fs < N := by rw [hN]; nlinarith [Nat.pos_of_ne_zero hfs]
  have e0 := get_eq (b := b) (i := off + u) (by omega)
  have e1 := get_eq (b := b) (i := off + m + u) (by omega)
  refine ⟨(b.set (off + m + u) (get b (off + u) - get b (off + m + u) * root st.inverse N ^ (u * fs))).set (off + u)
    (get b (off + u) + get b (off + m + u) * root st.inverse N ^ (u * fs)), ?_, ?_, ?_, ?_⟩
  · simp only [bfly2Body, e0, e1, hp.tw _ h1, Option.bind_eq_bind, Option.bind_some]
    rw [wr_some _ (by omega)]
    simp only [Option.bind_some]
    rw [wr_some _ (by simp; omega)]
  · simp
  · intro q hq
    simp only [term_eq, hv]
    have c1 : off + u + 1 * m = off + m + u := by omega
    interval_cases q
    · rw [show off + u + 0 * m = off + u by omega, set_hit (by simp; omega)]
      simp only [Finset.sum_range_succ, Finset.sum_range_zero, c1]
      simp
    · rw [c1, set_miss (by omega), set_hit (by omega)]
      simp only [Finset.sum_range_succ, Finset.sum_range_zero, c1]
      simp
      ring
  · intro i hi
    have i0 := hi 0 (by omega)
    have i1 := hi 1 (by omega)
    rw [set_miss (by omega), set_miss (by omega)]

theorem alg4_inv (s5 s4 : ℂ) : (⟨s5.re - s4.im, s5.im + s4.re⟩ : ℂ) = s5 + s4 * I := by
  apply Complex.ext <;> simp <;> ring

theorem alg4_fwd (s5 s4 : ℂ) : (⟨s5.re + s4.im, s5.im - s4.re⟩ : ℂ) = s5 - s4 * I := by
  apply Complex.ext <;> simp <;> ring

theorem bfly4_ok {st : Plan} {N fs m off u : Nat} {b : List ℂ} (hp : PlanOk st N) (hN : N = fs * (4 * m))
    (hu : u < m) (hN0 : N ≠ 0) (hb : off + 4 * m ≤ b.length) :
    ∃ b', bfly4Body st fs m off u b = some b' ∧ Combine (root st.inverse N) fs m 4 off u b b' := by
  have hfs : fs ≠ 0 := by rintro rfl; simp at hN; exact hN0 hN
  have hfs1 : 1 ≤ fs := Nat.pos_of_ne_zero hfs
  have hv : root st.inverse N ^ (fs * m) = if st.inverse then I else -I := by
    have : N = (fs * m) * 4 := by rw [hN]; ring
    rw [this, root_pow_mul _ (Nat.mul_ne_zero hfs (by omega)) (by norm_num), root_four]
  have h1 : u * fs < N := by rw [hN]; nlinarith
  have h2 : u * (fs * 2) < N := by rw [hN]; nlinarith
  have h3 : u * (fs * 3) < N := by rw [hN]; nlinarith
  have e0 := get_eq (b := b) (i := off + u) (by omega)
  have e1 := get_eq (b := b) (i := off + u + m) (by omega)
  have e2 := get_eq (b := b) (i := off + u + 2 * m) (by omega)
  have e3 := get_eq (b := b) (i := off + u + 3 * m) (by omega)
  have k1 := hp.tw _ h1
  have k2 := hp.tw _ h2
  have k3 := hp.tw _ h3
  generalize hw : root st.inverse N = w at *
  obtain ⟨c, hc⟩ : ∃ c : ℂ, (if st.inverse then I else -I) = c := ⟨_, rfl⟩
  rw [hc] at hv
  have hI : c ^ 2 = -1 := by
    rw [← hc]; split_ifs <;> simp
  have hI3 : c ^ 3 = -c := by rw [pow_succ, hI]; ring
  have hI4 : c ^ 4 = 1 := by rw [show c ^ 4 = c ^ 2 * c ^ 2 by ring, hI]; ring
  have hI6 : c ^ 6 = -1 := by rw [show c ^ 6 = c ^ 4 * c ^ 2 by ring, hI4, hI]; ring
  have hI9 : c ^ 9 = c := by rw [show c ^ 9 = c ^ 4 * c ^ 4 * c by ring, hI4]; ring
  refine ⟨(((b.set (off + u + 2 * m) (get b (off + u) + get b (off + u + 2 * m) * w ^ (u * (fs * 2)) -
      (get b (off + u + m) * w ^ (u * fs) + get b (off + u + 3 * m) * w ^ (u * (fs * 3))))).set (off + u)
      (get b (off + u) + get b (off + u + 2 * m) * w ^ (u * (fs * 2)) +
      (get b (off + u + m) * w ^ (u * fs) + get b (off + u + 3 * m) * w ^ (u * (fs * 3))))).set (off + u + m)
      (get b (off + u) - get b (off + u + 2 * m) * w ^ (u * (fs * 2)) +
        (get b (off + u + m) * w ^ (u * fs) - get b (off + u + 3 * m) * w ^ (u * (fs * 3))) *
          c)).set (off + u + 3 * m)
      (get b (off + u) - get b (off + u + 2 * m) * w ^ (u * (fs * 2)) -
        (get b (off + u + m) * w ^ (u * fs) - get b (off + u + 3 * m) * w ^ (u * (fs * 3))) *
          c), ?_, ?_, ?_, ?_⟩
  · simp only [bfly4Body, e0, e1, e2, e3, k1, k2, k3, Option.bind_eq_bind,
      Option.bind_some, alg4_inv, alg4_fwd]
    rw [wr_some _ (by omega)]
    simp only [Option.bind_some]
    rw [wr_some _ (by simp; omega)]
    simp only [Option.bind_some]
    by_cases hinv : st.inverse = true
    swap
    · rw [if_neg hinv] at hc ⊢
      subst hc
      rw [wr_some _ (by simp; omega)]
      simp only [Option.bind_some]
      rw [wr_some _ (by simp; omega)]
      simp only [mul_neg, sub_neg_eq_add, ← sub_eq_add_neg]
    · rw [if_pos hinv] at hc ⊢
      subst hc
      rw [wr_some _ (by simp; omega)]
      simp only [Option.bind_some]
      rw [wr_some _ (by simp; omega)]
  · simp
  · intro q hq
    simp only [term_eq, hv]
    have c1 : off + u + 1 * m = off + u + m := by omega
    have t2 : w ^ (u * (fs * 2)) = w ^ (u * fs * 2) := by congr 1; ring
    have t3 : w ^ (u * (fs * 3)) = w ^ (u * fs * 3) := by congr 1; ring
    rw [t2, t3]
    interval_cases q
    · rw [show off + u + 0 * m = off + u by omega, set_miss (by omega), set_miss (by omega), set_hit (by simp; omega)]
      simp [Finset.sum_range_succ]
      ring
    · rw [c1, set_miss (by omega), set_hit (by simp; omega)]
      simp only [Finset.sum_range_succ, Finset.sum_range_zero, c1]
      simp [hI, hI3]; ring
    · rw [set_miss (by omega), set_miss (by omega), set_miss (by omega), set_hit (by omega)]
      simp only [Finset.sum_range_succ, Finset.sum_range_zero, c1]
      simp [hI, hI4, hI6]; ring
    · rw [set_hit (by simp; omega)]
      simp only [Finset.sum_range_succ, Finset.sum_range_zero, c1]
      simp [hI3, hI6, hI9]; ring
  · intro i hi
    have i0 := hi 0 (by omega)
    have i1 := hi 1 (by omega)
    have i2 := hi 2 (by omega)
    have i3 := hi 3 (by omega)
    rw [set_miss (by omega), set_miss (by omega), set_miss (by omega), set_miss (by omega)]

theorem root_three_re (inv : Bool) : (root inv 3).re = -(1 / 2) := by
  have h := root_primitive inv (n := 3) (by norm_num)
  have h0 := sum_root inv (n := 3) (by norm_num) 1
  have hc := conj_root inv 3
  simp [Finset.sum_range_succ] at h0
  have h3 : root inv 3 ^ 2 = (starRingEnd ℂ) (root inv 3) := by
    rw [hc]
    have := h.pow_eq_one
    exact eq_inv_of_mul_eq_one_left (by rw [← this]; ring)
  rw [h3] at h0
  have := congrArg Complex.re h0
  simp at this
  linarith

theorem pow_conj (inv : Bool) {n a b : Nat} (hn : a + b = n) (h0 : n ≠ 0) :
    root inv n ^ a = (starRingEnd ℂ) (root inv n ^ b) := by
  rw [map_pow, conj_root, inv_pow]
  exact eq_inv_of_mul_eq_one_left (by rw [← pow_add, hn, root_pow_self inv h0])

theorem alg3a (f0 s1 s2 v : ℂ) (hre : v.re = -(1 / 2)) (h2 : v ^ 2 = (starRingEnd ℂ) v) :
    (⟨f0.re - (s1 + s2).re * (1 / 2) - (s1 - s2).im * v.im,
      f0.im - (s1 + s2).im * (1 / 2) + (s1 - s2).re * v.im⟩ : ℂ) = f0 + s1 * v + s2 * v ^ 2 := by
  rw [h2]
  apply Complex.ext <;> simp [hre] <;> ring

theorem alg3b (f0 s1 s2 v : ℂ) (hre : v.re = -(1 / 2)) (h2 : v ^ 2 = (starRingEnd ℂ) v) (h4 : v ^ 4 = v) :
    (⟨f0.re - (s1 + s2).re * (1 / 2) + (s1 - s2).im * v.im,
      f0.im - (s1 + s2).im * (1 / 2) - (s1 - s2).re * v.im⟩ : ℂ) = f0 + s1 * v ^ 2 + s2 * v ^ 4 := by
  rw [h4, h2]
  apply Complex.ext <;> simp [hre] <;> ring

theorem bfly3_ok {st : Plan} {N fs m off u : Nat} {b : List ℂ} (hp : PlanOk st N) (hN : N = fs * (3 * m))
    (hu : u < m) (hN0 : N ≠ 0) (hb : off + 3 * m ≤ b.length) :
    ∃ b', bfly3Body st fs m off u b = some b' ∧ Combine (root st.inverse N) fs m 3 off u b b' := by
  have hfs : fs ≠ 0 := by rintro rfl; simp at hN; exact hN0 hN
  have hfs1 : 1 ≤ fs := Nat.pos_of_ne_zero hfs
  have hv : root st.inverse N ^ (fs * m) = root st.inverse 3 := by
    have : N = (fs * m) * 3 := by rw [hN]; ring
    rw [this, root_pow_mul _ (Nat.mul_ne_zero hfs (by omega)) (by norm_num)]
  have h0 : fs * m < N := by rw [hN]; nlinarith
  have h1 : u * fs < N := by rw [hN]; nlinarith
  have h2 : u * (fs * 2) < N := by rw [hN]; nlinarith
  have e0 := get_eq (b := b) (i := off + u) (by omega)
  have e1 := get_eq (b := b) (i := off + u + m) (by omega)
  have e2 := get_eq (b := b) (i := off + u + 2 * m) (by omega)
  have k0 := hp.tw _ h0
  have k1 := hp.tw _ h1
  have k2 := hp.tw _ h2
  rw [hv] at k0
  have hre := root_three_re st.inverse
  have hsq : root st.inverse 3 ^ 2 = (starRingEnd ℂ) (root st.inverse 3) := by
    have := pow_conj st.inverse (n := 3) (a := 2) (b := 1) rfl (by norm_num)
    simpa using this
  have h4 : root st.inverse 3 ^ 4 = root st.inverse 3 := by
    have := root_pow_self st.inverse (n := 3) (by norm_num)
    rw [pow_succ, this, one_mul]
  generalize root st.inverse N = w at *
  generalize root st.inverse 3 = v at *
  refine ⟨((b.set (off + u) (get b (off + u) + (get b (off + u + m) * w ^ (u * fs) +
      get b (off + u + 2 * m) * w ^ (u * (fs * 2))))).set (off + u + 2 * m)
      (get b (off + u) + get b (off + u + m) * w ^ (u * fs) * v ^ 2 +
        get b (off + u + 2 * m) * w ^ (u * (fs * 2)) * v ^ 4)).set (off + u + m)
      (get b (off + u) + get b (off + u + m) * w ^ (u * fs) * v +
        get b (off + u + 2 * m) * w ^ (u * (fs * 2)) * v ^ 2), ?_, ?_, ?_, ?_⟩
  · simp only [bfly3Body, e0, e1, e2, k0, k1, k2, Option.bind_eq_bind, Option.bind_some]
    rw [alg3a _ _ _ _ hre hsq, alg3b _ _ _ _ hre hsq h4]
    rw [wr_some _ (by omega)]
    simp only [Option.bind_some]
    rw [wr_some _ (by simp; omega)]
    simp only [Option.bind_some]
    rw [wr_some _ (by simp; omega)]
  · simp
  · intro q hq
    simp only [term_eq, hv]
    have c1 : off + u + 1 * m = off + u + m := by omega
    have t2 : w ^ (u * (fs * 2)) = w ^ (u * fs * 2) := by congr 1; ring
    rw [t2]
    interval_cases q
    · rw [show off + u + 0 * m = off + u by omega, set_miss (by omega), set_miss (by omega), set_hit (by omega)]
      simp [Finset.sum_range_succ]
      ring
    · rw [c1, set_hit (by simp; omega)]
      simp only [Finset.sum_range_succ, Finset.sum_range_zero, c1]
      simp
      ring
    · rw [set_miss (by omega), set_hit (by simp; omega)]
      simp only [Finset.sum_range_succ, Finset.sum_range_zero, c1]
      simp
      ring
  · intro i hi
    have i0 := hi 0 (by omega)
    have i1 := hi 1 (by omega)
    have i2 := hi 2 (by omega)
    rw [set_miss (by omega), set_miss (by omega), set_miss (by omega)]

theorem alg5_0 (a b c : ℂ) : (⟨a.re + (b.re + c.re), a.im + (b.im + c.im)⟩ : ℂ) = a + b + c := by
  apply Complex.ext <;> simp <;> ring

theorem alg5_1 (s0 s1 s2 s3 s4 v v2 : ℂ) :
    (⟨s0.re + (s1 + s4).re * v.re + (s2 + s3).re * v2.re, s0.im + (s1 + s4).im * v.re + (s2 + s3).im * v2.re⟩ : ℂ) -
      ⟨(s1 - s4).im * v.im + (s2 - s3).im * v2.im, -((s1 - s4).re * v.im) - (s2 - s3).re * v2.im⟩ =
    s0 + s1 * v + s2 * v2 + s3 * (starRingEnd ℂ) v2 + s4 * (starRingEnd ℂ) v := by
  apply Complex.ext <;> simp <;> ring

theorem alg5_4 (s0 s1 s2 s3 s4 v v2 : ℂ) :
    (⟨s0.re + (s1 + s4).re * v.re + (s2 + s3).re * v2.re, s0.im + (s1 + s4).im * v.re + (s2 + s3).im * v2.re⟩ : ℂ) +
      ⟨(s1 - s4).im * v.im + (s2 - s3).im * v2.im, -((s1 - s4).re * v.im) - (s2 - s3).re * v2.im⟩ =
    s0 + s1 * (starRingEnd ℂ) v + s2 * (starRingEnd ℂ) v2 + s3 * v2 + s4 * v := by
  apply Complex.ext <;> simp <;> ring

theorem alg5_2 (s0 s1 s2 s3 s4 v v2 : ℂ) :
    (⟨s0.re + (s1 + s4).re * v2.re + (s2 + s3).re * v.re, s0.im + (s1 + s4).im * v2.re + (s2 + s3).im * v.re⟩ : ℂ) +
      ⟨-((s1 - s4).im * v2.im) + (s2 - s3).im * v.im, (s1 - s4).re * v2.im - (s2 - s3).re * v.im⟩ =
    s0 + s1 * v2 + s2 * (starRingEnd ℂ) v + s3 * v + s4 * (starRingEnd ℂ) v2 := by
  apply Complex.ext <;> simp <;> ring

theorem alg5_3 (s0 s1 s2 s3 s4 v v2 : ℂ) :
    (⟨s0.re + (s1 + s4).re * v2.re + (s2 + s3).re * v.re, s0.im + (s1 + s4).im * v2.re + (s2 + s3).im * v.re⟩ : ℂ) -
      ⟨-((s1 - s4).im * v2.im) + (s2 - s3).im * v.im, (s1 - s4).re * v2.im - (s2 - s3).re * v.im⟩ =
    s0 + s1 * (starRingEnd ℂ) v2 + s2 * v + s3 * (starRingEnd ℂ) v + s4 * v2 := by
  apply Complex.ext <;> simp <;> ring

theorem bfly5_ok {st : Plan} {N fs m off u : Nat} {b : List ℂ} (hp : PlanOk st N) (hN : N = fs * (5 * m))
    (hu : u < m) (hN0 : N ≠ 0) (hb : off + 5 * m ≤ b.length) :
    ∃ b', bfly5Body st fs m off u b = some b' ∧ Combine (root st.inverse N) fs m 5 off u b b' := by
  have hfs : fs ≠ 0 := by rintro rfl; simp at hN; exact hN0 hN
  have hfs1 : 1 ≤ fs := Nat.pos_of_ne_zero hfs
  have hv : root st.inverse N ^ (fs * m) = root st.inverse 5 := by
    have : N = (fs * m) * 5 := by rw [hN]; ring
    rw [this, root_pow_mul _ (Nat.mul_ne_zero hfs (by omega)) (by norm_num)]
  have hv2 : root st.inverse N ^ (fs * 2 * m) = root st.inverse 5 ^ 2 := by
    rw [← hv, ← pow_mul]; congr 1; ring
  have h0 : fs * m < N := by rw [hN]; nlinarith
  have h0' : fs * 2 * m < N := by rw [hN]; nlinarith
  have h1 : u * fs < N := by rw [hN]; nlinarith
  have h2 : 2 * u * fs < N := by rw [hN]; nlinarith
  have h3 : 3 * u * fs < N := by rw [hN]; nlinarith
  have h4 : 4 * u * fs < N := by rw [hN]; nlinarith
  have e0 := get_eq (b := b) (i := off + u) (by omega)
  have e1 := get_eq (b := b) (i := off + u + m) (by omega)
  have e2 := get_eq (b := b) (i := off + u + 2 * m) (by omega)
  have e3 := get_eq (b := b) (i := off + u + 3 * m) (by omega)
  have e4 := get_eq (b := b) (i := off + u + 4 * m) (by omega)
  have k0 := hp.tw _ h0
  have k0' := hp.tw _ h0'
  have k1 := hp.tw _ h1
  have k2 := hp.tw _ h2
  have k3 := hp.tw _ h3
  have k4 := hp.tw _ h4
  rw [hv] at k0
  rw [hv2] at k0'
  have hc4 : (starRingEnd ℂ) (root st.inverse 5) = root st.inverse 5 ^ 4 := by
    have := pow_conj st.inverse (n := 5) (a := 4) (b := 1) rfl (by norm_num)
    rw [this]; simp
  have hc3 : (starRingEnd ℂ) (root st.inverse 5 ^ 2) = root st.inverse 5 ^ 3 :=
    (pow_conj st.inverse (n := 5) (a := 3) (b := 2) rfl (by norm_num)).symm
  have h5 := root_pow_self st.inverse (n := 5) (by norm_num)
  generalize root st.inverse N = w at *
  generalize root st.inverse 5 = v at *
  have p6 : v ^ 6 = v := by rw [pow_succ, h5, one_mul]
  have p8 : v ^ 8 = v ^ 3 := by rw [show v ^ 8 = v ^ 5 * v ^ 3 by ring, h5, one_mul]
  have p9 : v ^ 9 = v ^ 4 := by rw [show v ^ 9 = v ^ 5 * v ^ 4 by ring, h5, one_mul]
  have p12 : v ^ 12 = v ^ 2 := by rw [show v ^ 12 = v ^ 5 * v ^ 5 * v ^ 2 by ring, h5]; ring
  have p16 : v ^ 16 = v := by rw [show v ^ 16 = v ^ 5 * v ^ 5 * v ^ 5 * v by ring, h5]; ring
  obtain ⟨g0, hg0⟩ : ∃ g, get b (off + u) = g := ⟨_, rfl⟩
  obtain ⟨s1, hs1⟩ : ∃ g, get b (off + u + m) * w ^ (u * fs) = g := ⟨_, rfl⟩
  obtain ⟨s2, hs2⟩ : ∃ g, get b (off + u + 2 * m) * w ^ (2 * u * fs) = g := ⟨_, rfl⟩
  obtain ⟨s3, hs3⟩ : ∃ g, get b (off + u + 3 * m) * w ^ (3 * u * fs) = g := ⟨_, rfl⟩
  obtain ⟨s4, hs4⟩ : ∃ g, get b (off + u + 4 * m) * w ^ (4 * u * fs) = g := ⟨_, rfl⟩
  refine ⟨((((b.set (off + u) (g0 + (s1 + s4) + (s2 + s3))).set (off + u + m)
      (g0 + s1 * v + s2 * v ^ 2 + s3 * v ^ 3 + s4 * v ^ 4)).set (off + u + 4 * m)
      (g0 + s1 * v ^ 4 + s2 * v ^ 3 + s3 * v ^ 2 + s4 * v)).set (off + u + 2 * m)
      (g0 + s1 * v ^ 2 + s2 * v ^ 4 + s3 * v + s4 * v ^ 3)).set (off + u + 3 * m)
      (g0 + s1 * v ^ 3 + s2 * v + s3 * v ^ 4 + s4 * v ^ 2), ?_, ?_, ?_, ?_⟩
  · simp only [bfly5Body, e0, e1, e2, e3, e4, k0, k0', k1, k2, k3, k4, Option.bind_eq_bind, Option.bind_some,
      hg0, hs1, hs2, hs3, hs4]
    rw [alg5_0, alg5_1, alg5_2, alg5_3, alg5_4]
    rw [wr_some _ (by omega)]
    simp only [Option.bind_some]
    rw [wr_some _ (by simp; omega)]
    simp only [Option.bind_some]
    rw [wr_some _ (by simp; omega)]
    simp only [Option.bind_some]
    rw [wr_some _ (by simp; omega)]
    simp only [Option.bind_some]
    rw [wr_some _ (by simp; omega)]
    rw [hc3, hc4]
  · simp
  · intro q hq
    simp only [term_eq, hv]
    have c1 : off + u + 1 * m = off + u + m := by omega
    have c0 : off + u + 0 * m = off + u := by omega
    have t1 : w ^ (u * fs * 1) = w ^ (u * fs) := by congr 1; ring
    have t2 : w ^ (u * fs * 2) = w ^ (2 * u * fs) := by congr 1; ring
    have t3 : w ^ (u * fs * 3) = w ^ (3 * u * fs) := by congr 1; ring
    have t4 : w ^ (u * fs * 4) = w ^ (4 * u * fs) := by congr 1; ring
    simp only [Finset.sum_range_succ, Finset.sum_range_zero, c0, c1, t1, t2, t3, t4, ← mul_assoc, hs1, hs2, hs3,
      hs4, hg0]
    interval_cases q
    · rw [show off + u + 0 * m = off + u by omega, set_miss (by omega), set_miss (by omega), set_miss (by omega),
        set_miss (by omega), set_hit (by omega)]
      simp
      ring
    · rw [c1, set_miss (by omega), set_miss (by omega), set_miss (by omega), set_hit (by simp; omega)]
      simp
    · rw [set_miss (by omega), set_hit (by simp; omega)]
      simp [p6, p8]
    · rw [set_hit (by simp; omega)]
      simp [p6, p9, p12]
    · rw [set_miss (by omega), set_miss (by omega), set_hit (by simp; omega)]
      simp [p8, p12, p16]
  · intro i hi
    have i0 := hi 0 (by omega)
    have i1 := hi 1 (by omega)
    have i2 := hi 2 (by omega)
    have i3 := hi 3 (by omega)
    have i4 := hi 4 (by omega)
    rw [set_miss (by omega), set_miss (by omega), set_miss (by omega), set_miss (by omega), set_miss (by omega)]

end QM.Kiss
