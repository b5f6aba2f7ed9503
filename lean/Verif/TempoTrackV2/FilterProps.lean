import Verif.TempoTrackV2.Model
import Verif.Filter.Spec
import Mathlib.Algebra.BigOperators.Intervals

/-!
# C35: the smoothing filter of the tempo tracker runs forwards and backwards
-/

namespace QM.TempoTrackV2

open QM.Filter Finset

variable {K : Type} [Field K] [LinearOrder K]

/-- `butter(2, 0.4)` to four decimals: numerator. -/
def bCoef : List K := [2066 / 10000, 4131 / 10000, 2066 / 10000]
/-- Denominator. -/
def aCoef : List K := [1, -(3695 / 10000), 1958 / 10000]

omit [LinearOrder K] in
theorem delayed_set_lt (y : List K) (i n j : Nat) (v : K) (h : n < i + j) : delayed (y.set i v) n j = delayed y n j := by
  unfold delayed
  split
  · rw [List.getD_eq_getElem?_getD, List.getD_eq_getElem?_getD, List.getElem?_set_ne (by omega)]
  · rfl

theorem biquad_spec (df lp : List K) (hl : lp.length = df.length) :
    ∃ s, biquad df lp = some s ∧ DiffEq bCoef aCoef df s.1 := by
  obtain ⟨s, e1, e2, e3, -⟩ := loop_inv df.length (fun i (s : List K × K × K × K × K) => do
    let x ← df[i]?
    let y := 2066 / 10000 * x + 4131 / 10000 * s.2.1 + 2066 / 10000 * s.2.2.1 - (-(3695 / 10000)) * s.2.2.2.1 - 1958 / 10000 * s.2.2.2.2
    let lp ← wr s.1 i y
    pure (lp, x, s.2.1, y, s.2.2.2.1)) (lp, 0, 0, 0, 0)
    (fun i s => s.1.length = df.length ∧
      (∀ n, n < i → s.1.getD n 0 = 2066 / 10000 * delayed df n 0 + 4131 / 10000 * delayed df n 1 + 2066 / 10000 * delayed df n 2
        - (-(3695 / 10000)) * delayed s.1 n 1 - 1958 / 10000 * delayed s.1 n 2) ∧
      s.2.1 = delayed df i 1 ∧ s.2.2.1 = delayed df i 2 ∧ s.2.2.2.1 = delayed s.1 i 1 ∧ s.2.2.2.2 = delayed s.1 i 2)
    ⟨hl, by simp, by simp [delayed], by simp [delayed], by simp [delayed], by simp [delayed]⟩
    (by
      rintro i ⟨l, p, q, r, t⟩ hi ⟨h1, h2, h3, h4, h5, h6⟩
      simp only at h1 h2 h3 h4 h5 h6
      have hd : delayed df i 0 = df[i] := by simp [delayed, List.getD_eq_getElem?_getD, hi]
      refine ⟨_, by simp only [List.getElem?_eq_getElem hi, bind, Option.bind, wr, h1, hi, if_true, pure]; rfl, ?_, ?_, ?_, ?_, ?_, ?_⟩
      · simpa using h1
      · intro n hn
        simp only
        rw [delayed_set_lt _ _ _ _ _ (by omega), delayed_set_lt _ _ _ _ _ (by omega)]
        rcases Nat.lt_succ_iff_lt_or_eq.mp hn with hn | rfl
        · rw [← h2 n hn, List.getD_eq_getElem?_getD, List.getD_eq_getElem?_getD, List.getElem?_set_ne (by omega)]
        · rw [List.getD_eq_getElem?_getD, List.getElem?_set_self (by omega), hd, h3, h4, h5, h6]
          rfl
      · simp [delayed, List.getD_eq_getElem?_getD, hi]
      · simp only [h3]
        unfold delayed
        rcases i with _ | i
        · simp
        · simp
      · simp only [delayed]
        simp [List.getD_eq_getElem?_getD, List.getElem?_set_self, h1, hi]
      · simp only [h5]
        unfold delayed
        rcases i with _ | i
        · simp
        · simp [List.getD_eq_getElem?_getD, List.getElem?_set_ne])
  refine ⟨s, e1, e2, ?_⟩
  intro n hn
  rw [e3 n hn]
  simp [bCoef, aCoef, sum_range_succ]
  ring

theorem revCopy_spec (src dst : List K) (hl : src.length = dst.length) : revCopy src dst = some src.reverse := by
  obtain ⟨d, e1, e2, e3⟩ := loop_inv dst.length (fun i (dst : List K) => do
    let v ← src[dst.length - i - 1]?
    wr dst i v) dst
    (fun i d => d.length = dst.length ∧ ∀ k, k < i → d[k]? = src.reverse[k]?) ⟨rfl, by simp⟩
    (by
      rintro i d hi ⟨h1, h2⟩
      have hlt : dst.length - i - 1 < src.length := by omega
      refine ⟨_, by simp only [List.getElem?_eq_getElem hlt, bind, Option.bind, wr, h1, hi, if_true]; rfl, by simpa using h1, ?_⟩
      intro k hk
      rcases Nat.lt_succ_iff_lt_or_eq.mp hk with hk | rfl
      · rw [List.getElem?_set_ne (by omega), h2 k hk]
      · rw [List.getElem?_set_self (by omega), List.getElem?_reverse (by omega), ← List.getElem?_eq_getElem hlt]
        congr 1
        omega)
  unfold revCopy
  rw [e1]
  congr 1
  apply List.ext_getElem?
  intro k
  rcases Nat.lt_or_ge k dst.length with h | h
  · exact e3 k h
  · rw [List.getElem?_eq_none (by omega), List.getElem?_eq_none (by simp; omega)]

/-- **C35** `filter_df` smooths the detection function with the second-order low-pass filter run forwards, then backwards, from rest both
times, and never reads outside it. -/
theorem C35_filter_df (df : List K) :
    ∃ u v, DiffEq bCoef aCoef df u ∧ DiffEq bCoef aCoef u.reverse v ∧ filterDf df = some v.reverse := by
  obtain ⟨s, e1, e2⟩ := biquad_spec df (List.replicate df.length 0) (by simp)
  have hl := e2.1
  have r1 := revCopy_spec s.1 df hl
  obtain ⟨t, f1, f2⟩ := biquad_spec s.1.reverse (s.1.map fun _ => 0) (by simp)
  have r2 := revCopy_spec t.1 s.1.reverse f2.1
  refine ⟨s.1, t.1, e2, f2, ?_⟩
  unfold filterDf
  simp only [e1, r1, f1, r2, bind, Option.bind]

example : DiffEq (bCoef : List ℚ) aCoef [1, 0] [2066 / 10000, 4131 / 10000 + 3695 / 10000 * (2066 / 10000)] := by
  refine ⟨rfl, ?_⟩
  intro n hn
  match n, hn with
  | 0, _ | 1, _ => simp [bCoef, aCoef, sum_range_succ, delayed] <;> norm_num

end QM.TempoTrackV2
