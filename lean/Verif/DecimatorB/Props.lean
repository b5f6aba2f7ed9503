import Verif.DecimatorB.Lemmas
import Verif.MathInt.Props
import Mathlib.Algebra.Order.BigOperators.Ring.Finset
import Mathlib.Algebra.Order.Field.Basic
import Mathlib.Tactic.Positivity
import Mathlib.Tactic.IntervalCases

/-!
# C60: decimation by powers of two
-/

namespace QM.DecimatorB

variable {K : Type} [Field K]
open Finset QM.Filter QM.Decimator

/-- The filter coefficients in the sample field. -/
def bOf : List K := bCoeffs.map (fun q : ℚ => (q : K))
/-- The filter coefficients in the sample field. -/
def aOf : List K := aCoeffs.map (fun q : ℚ => (q : K))

/-- Successive `process` calls; each block comes with the caller's output buffer. -/
def run (s : State K) : List (List K × List K) → Option (State K × List (List K))
  | [] => some (s, [])
  | (src, dst) :: rest => do
    let (s, o) ← process s src dst
    let (s, os) ← run s rest
    some (s, o :: os)

/-- The decimator after the stream `xs ↦ zs`. -/
structure Running (q k : Nat) (s : State K) (xs zs : List K) : Prop where
  hL : s.inputLength = q * 2 ^ k
  hO : s.outputLength = q
  hf : s.decFactor = 2 ^ k
  hb : s.b = bOf
  ha : s.a = aOf
  hk : s.o.length = k
  haa : s.aaBuffer.length = s.inputLength
  htmp : s.tmpBuffer.length = s.inputLength
  hc : Chain s.b s.a s.o xs zs

theorem process_spec (q k : Nat) (s : State K) (xs zs : List K) (h : Running q k s xs zs)
    (src dst : List K) (hs : src.length = q * 2 ^ k) (hd : dst.length = q) :
    ∃ s' out, process s src dst = some (s', out) ∧ out.length = q ∧
      Running q k s' (xs ++ src) (zs ++ out) := by
  obtain ⟨hL, hO, hf, hb, ha, hk, haa, htmp, hc⟩ := h
  obtain ⟨t1, e1, e2, e3⟩ := gather s.inputLength (fun i => src[i]?) s.tmpBuffer (by omega) (by
    intro i hi
    simp; omega)
  have hbl : s.b.length = 7 := by rw [hb]; rfl
  have hal : s.a.length = 7 := by rw [ha]; rfl
  have hlt := Nat.lt_two_pow_self (n := k)
  obtain ⟨os', aa', tmp', out, f1, f2, f3, f4, f5, f6, f7⟩ := doProcess_spec s hbl hal s.o [] xs zs src
    s.aaBuffer t1 (s.decFactor + 1) q hc (by rw [hf, hk]; simp) (by rw [hL, hf]) (by rw [hs, hk]) haa
    (by omega) (by
      intro i hi
      rw [e3, if_pos (by omega)]) (by rw [hk, hf]; omega)
  obtain ⟨d, g1, g2, g3⟩ := gather s.outputLength.toNat (fun i => tmp'[i]?) dst (by omega) (by
    intro i hi
    have : q ≤ q * 2 ^ k := Nat.le_mul_of_pos_right _ (by positivity)
    simp; omega)
  have hdo : d = out := by
    apply List.ext_getElem?
    intro i
    rw [g3]
    by_cases hi : i < q
    · rw [if_pos (by omega), f7 i hi]
    · rw [if_neg (by omega), List.getElem?_eq_none (by omega), List.getElem?_eq_none (by omega)]
  refine ⟨{ s with o := os', aaBuffer := aa', tmpBuffer := tmp' }, out, ?_, f4,
    ⟨hL, hO, hf, hb, ha, by rw [← hk, ← f2], f5, f6, f3⟩⟩
  unfold process
  rw [if_neg (show ¬ s.decFactor = 0 by rw [hf]; positivity), bind_ok e1]
  have f1' : doProcess s (s.decFactor + 1) 0 1 (s.o, s.aaBuffer, t1) = some (os', aa', tmp') := by
    simpa using f1
  rw [bind_ok f1']
  dsimp only
  rw [bind_ok g1, hdo]

theorem run_spec (q k : Nat) (calls : List (List K × List K)) (s : State K) (xs zs : List K)
    (h : Running q k s xs zs) (hlen : ∀ c ∈ calls, c.1.length = q * 2 ^ k ∧ c.2.length = q) :
    ∃ s' outs, run s calls = some (s', outs) ∧
      Running q k s' (xs ++ (calls.map Prod.fst).flatten) (zs ++ outs.flatten) ∧
      outs.length = calls.length ∧ ∀ o ∈ outs, o.length = q := by
  induction calls generalizing s xs zs with
  | nil => exact ⟨s, [], rfl, by simpa using h, rfl, by simp⟩
  | cons c rest ih =>
    obtain ⟨src, dst⟩ := c
    obtain ⟨hc1, hc2⟩ := hlen (src, dst) (by simp)
    obtain ⟨s1, out, e1, e2, e3⟩ := process_spec q k s xs zs h src dst hc1 hc2
    obtain ⟨s2, outs, f1, f2, f3, f4⟩ := ih s1 _ _ e3 (fun c hc => hlen c (by simp [hc]))
    refine ⟨s2, out :: outs, ?_, by simpa using f2, by simp [f3], ?_⟩
    · rw [run, e1]
      simp only [Option.bind_eq_bind, Option.bind_some, f1]
    · intro o ho
      rcases List.mem_cons.mp ho with rfl | ho
      · exact e2
      · exact f4 o ho

theorem new_running (q k : Nat) (hk : 0 < k) (aa tmp : List K) (haa : aa.length = q * 2 ^ k)
    (htmp : tmp.length = q * 2 ^ k) :
    ∃ s, new (q * 2 ^ k) ((2 : Int) ^ k) aa tmp = some s ∧ Running q k s [] [] := by
  have h2 : (2 : Int) ≤ 2 ^ k := by
    calc (2 : Int) = 2 ^ 1 := by norm_num
      _ ≤ 2 ^ k := pow_le_pow_right₀ (by norm_num) hk
  have hnat : ((2 : Int) ^ k).toNat = 2 ^ k := by
    rw [show (2 : Int) ^ k = ((2 ^ k : Nat) : Int) by push_cast; rfl, Int.toNat_natCast]
  have hpow : MathInt.isPowerOfTwo ((2 : Int) ^ k) = true :=
    (MathInt.C01_isPowerOfTwo_iff _).mpr ⟨k, rfl⟩
  refine ⟨⟨q * 2 ^ k, q, 2 ^ k, filters (2 ^ k), bOf, aOf, aa, tmp⟩, ?_, ?_⟩
  · unfold new
    dsimp only
    rw [if_neg (by omega), if_neg (by rw [hpow]; simp; omega), if_neg (by simp)]
    simp [hnat, bOf, aOf]
  · refine ⟨rfl, rfl, rfl, rfl, rfl, by rw [filters_pow]; simp, haa, htmp, ?_⟩
    rw [filters_pow]
    exact chain_new _ _ _

/-- C60. For a decimation factor `2^k ≥ 2` and blocks of `q * 2^k` samples, the constructor succeeds and
reports that factor, and for every sequence of blocks, whatever was in the internal buffers and in the
output buffers beforehand, every call stays inside its arrays and delivers exactly `q` samples. The
output blocks joined together are the input blocks joined together, lowpass filtered and halved in rate
`k` times over: block boundaries leave no trace. -/
theorem C60_stream (q k : Nat) (hk : 0 < k) (aa tmp : List K) (haa : aa.length = q * 2 ^ k)
    (htmp : tmp.length = q * 2 ^ k) (calls : List (List K × List K))
    (hlen : ∀ c ∈ calls, c.1.length = q * 2 ^ k ∧ c.2.length = q) :
    ∃ s s' outs, new (q * 2 ^ k) ((2 : Int) ^ k) aa tmp = some s ∧ getFactor s = 2 ^ k ∧
      run s calls = some (s', outs) ∧ outs.length = calls.length ∧ (∀ o ∈ outs, o.length = q) ∧
      Cascade bOf aOf k (calls.map Prod.fst).flatten outs.flatten := by
  obtain ⟨s, hs, hr⟩ := new_running q k hk aa tmp haa htmp
  obtain ⟨s', outs, e1, e2, e3, e4⟩ := run_spec q k calls s [] [] hr hlen
  refine ⟨s, s', outs, hs, hr.hf, e1, e3, e4, ?_⟩
  have := e2.hc.cascade
  rw [e2.hk, e2.hb, e2.ha] at this
  simpa using this

/-- C60. The result of filtering and halving is determined by the input, so `C60_stream` fixes every
output sample. -/
theorem C60_determined (b a : List K) (k : Nat) (xs o1 o2 : List K) (h1 : Cascade b a k xs o1)
    (h2 : Cascade b a k xs o2) : o1 = o2 := by
  induction h1 with
  | done xs => cases h2; rfl
  | halve k xs ys out hd hc ih =>
    cases h2 with
    | halve _ _ ys2 _ hd2 hc2 =>
      have := diffEq_unique b a xs ys ys2 hd hd2
      subst this
      exact ih hc2

/-- C60. A factor below 2 or not a power of two, or a block length that is not a multiple of the factor,
is refused: `getFactor` is 0 and `process` leaves the output buffer as it was, whatever its length. -/
theorem C60_refused (inLength : Nat) (f : Int) (h0 : f ≠ 0)
    (hbad : f < 2 ∨ (¬ ∃ k : Nat, f = 2 ^ k) ∨ ¬ f ∣ (inLength : Int)) (aa tmp : List K) :
    ∃ s, new inLength f aa tmp = some s ∧ getFactor s = 0 ∧
      ∀ src dst, process s src dst = some (s, dst) := by
  unfold new
  dsimp only
  rw [if_neg h0]
  by_cases h1 : f < 2 ∨ MathInt.isPowerOfTwo f = false
  · rw [if_pos h1]
    exact ⟨_, rfl, rfl, fun src dst => by unfold process; rw [if_pos rfl]⟩
  · rw [if_neg h1]
    push Not at h1
    have h2 : (inLength : Int).tmod f ≠ 0 := by
      rcases hbad with h | h | h
      · omega
      · exact absurd ((MathInt.C01_isPowerOfTwo_iff f).mp (by simpa using h1.2)) h
      · exact fun hm => h (Int.dvd_of_tmod_eq_zero hm)
    rw [if_pos h2]
    exact ⟨_, rfl, rfl, fun src dst => by unfold process; rw [if_pos rfl]⟩

/-- Factor 0 is not refused: the constructor divides by it before the check. -/
theorem C60_zero (inLength : Nat) (aa tmp : List K) : new inLength 0 aa tmp = none := rfl

example : ∃ s s' : State ℚ, ∃ outs, new (2 * 2 ^ 2) ((2 : Int) ^ 2) (List.replicate 8 7) (List.replicate 8 9) = some s ∧
    getFactor s = 4 ∧ run s [(List.replicate 8 1, [5, 5]), (List.replicate 8 0, [6, 6])] = some (s', outs) ∧
    outs.length = 2 := by
  obtain ⟨s, s', outs, h1, h2, h3, h4, _⟩ := C60_stream (K := ℚ) 2 2 (by omega) (List.replicate 8 7)
    (List.replicate 8 9) rfl rfl [(List.replicate 8 1, [5, 5]), (List.replicate 8 0, [6, 6])] (by decide +kernel)
  exact ⟨s, s', outs, h1, h2, h3, h4⟩

example : ∃ s : State ℚ, new 8 3 [] [] = some s ∧ getFactor s = 0 := by
  obtain ⟨s, h1, h2, _⟩ := C60_refused (K := ℚ) 8 3 (by decide) (Or.inr (Or.inr (by decide))) [] []
  exact ⟨s, h1, h2⟩

/-! ## The lowpass filter -/

section Ordered

variable {F : Type} [Field F] [LinearOrder F] [IsStrictOrderedRing F]

theorem delayed_of_le (x : List F) (n i : Nat) (h : i ≤ n) : delayed x n i = x.getD (n - i) 0 := if_pos h

theorem diffEq_expand (x y : List F) (h : DiffEq bOf aOf x y) (n : Nat) (hn : n < x.length) :
    y.getD n 0 = ∑ i ∈ range 7, (bOf (K := F)).getD i 0 * delayed x n i
      - (777695961855673 / 10 ^ 15 * delayed y n 2 + 114199425062434 / 10 ^ 15 * delayed y n 4
        + 1750925956183 / 10 ^ 15 * delayed y n 6) := by
  have := h.2 n hn
  rw [this]
  congr 1
  simp only [show (aOf (K := F)).length - 1 = 6 from rfl, sum_range_succ, sum_range_zero]
  norm_num [aOf, aCoeffs]

theorem abs_feed_le (x : List F) (n : Nat) (M : F) (hM : ∀ i, |delayed x n i| ≤ M) :
    |∑ i ∈ range 7, (bOf (K := F)).getD i 0 * delayed x n i| ≤ 1893646312874292 / 10 ^ 15 * M := by
  calc |∑ i ∈ range 7, (bOf (K := F)).getD i 0 * delayed x n i|
      ≤ ∑ i ∈ range 7, |(bOf (K := F)).getD i 0 * delayed x n i| := Finset.abs_sum_le_sum_abs _ _
    _ ≤ ∑ i ∈ range 7, (bOf (K := F)).getD i 0 * M := by
      refine sum_le_sum (fun i hi => ?_)
      have hb : 0 ≤ (bOf (K := F)).getD i 0 := by
        have : i < 7 := mem_range.mp hi
        interval_cases i <;> norm_num [bOf, bCoeffs]
      rw [abs_mul, abs_of_nonneg hb]
      exact mul_le_mul_of_nonneg_left (hM i) hb
    _ = 1893646312874292 / 10 ^ 15 * M := by
      rw [← sum_mul]
      congr 1
      simp only [sum_range_succ, sum_range_zero]
      norm_num [bOf, bCoeffs]

/-- C60. The recursive filter is stable: inputs of magnitude at most `M` never give outputs of magnitude
above `18 M`, however long the signal. -/
theorem C60_stable (x y : List F) (h : DiffEq bOf aOf x y) (M : F) (hM : ∀ v ∈ x, |v| ≤ M)
    (n : Nat) (hn : n < y.length) : |y.getD n 0| ≤ 18 * M := by
  have hlen := h.1
  have hM0 : 0 ≤ M := by
    obtain ⟨v, hv⟩ := List.exists_mem_of_length_pos (l := x) (by omega)
    exact (abs_nonneg v).trans (hM v hv)
  have hdx : ∀ n i, |delayed x n i| ≤ M := by
    intro n i
    unfold delayed
    split
    · rw [List.getD_eq_getElem?_getD]
      rcases hx : x[n - i]? with _ | v
      · simpa using hM0
      · exact hM v (List.mem_of_getElem? hx)
    · simpa using hM0
  induction n using Nat.strong_induction_on with
  | _ n ih =>
    have hdy : ∀ i, 0 < i → |delayed y n i| ≤ 18 * M := by
      intro i hi
      unfold delayed
      split
      · exact ih (n - i) (by omega) (by omega)
      · simpa using hM0
    rw [diffEq_expand x y h n (by omega)]
    have f := abs_le.mp (abs_feed_le x n M (hdx n))
    have a2 := abs_le.mp (hdy 2 (by omega))
    have a4 := abs_le.mp (hdy 4 (by omega))
    have a6 := abs_le.mp (hdy 6 (by omega))
    rw [abs_le]
    constructor <;> linarith [f.1, f.2, a2.1, a2.2, a4.1, a4.2, a6.1, a6.2]

/-- C60. After `k` halvings the output is at most `18^k` times the largest input. -/
theorem C60_bounded (k : Nat) (x out : List F) (h : Cascade bOf aOf k x out) (M : F) (h0 : 0 ≤ M)
    (hM : ∀ v ∈ x, |v| ≤ M) : ∀ v ∈ out, |v| ≤ 18 ^ k * M := by
  induction h generalizing M with
  | done xs => simpa using hM
  | halve k xs ys out hd hc ih =>
    have hy : ∀ v ∈ ys, |v| ≤ 18 * M := by
      intro v hv
      obtain ⟨n, hn, rfl⟩ := List.mem_iff_getElem.mp hv
      have := C60_stable xs ys hd M hM n hn
      rwa [List.getD_eq_getElem?_getD, List.getElem?_eq_getElem hn] at this
    have he : ∀ (l : List F), ∀ v ∈ evens l, v ∈ l := by
      intro l
      induction l using evens.induct with
      | case1 => intro v hv; exact hv
      | case2 x => intro v hv; exact hv
      | case3 x y l ih =>
        intro v hv
        rw [evens] at hv
        rcases List.mem_cons.mp hv with rfl | hv
        · simp
        · simp [ih v hv]
    have := ih (18 * M) (by linarith) (fun v hv => hy v (he ys v hv))
    intro v hv
    calc |v| ≤ 18 ^ k * (18 * M) := this v hv
      _ = 18 ^ (k + 1) * M := by ring

/-- A response whose input part has died out decays geometrically. -/
theorem decay (e : Nat → F) (N : Nat) (C : F) (hC : ∀ n, n < 6 → n < N → |e n| ≤ C)
    (h0 : 0 ≤ C)
    (he : ∀ n, 6 ≤ n → n < N → e n = -(777695961855673 / 10 ^ 15 * e (n - 2)
      + 114199425062434 / 10 ^ 15 * e (n - 4) + 1750925956183 / 10 ^ 15 * e (n - 6)))
    (n : Nat) (hn : n < N) : |e n| ≤ C * (9 / 10) ^ (n / 6) := by
  induction n using Nat.strong_induction_on with
  | _ n ih =>
    by_cases h6 : n < 6
    · rw [Nat.div_eq_of_lt h6, pow_zero, mul_one]
      exact hC n h6 hn
    · have hb : ∀ i, 0 < i → i ≤ 6 → |e (n - i)| ≤ C * (9 / 10) ^ (n / 6 - 1) := by
        intro i h1 h2
        refine (ih (n - i) (by omega) (by omega)).trans ?_
        refine mul_le_mul_of_nonneg_left ?_ h0
        exact pow_le_pow_of_le_one (by norm_num) (by norm_num) (by omega)
      have hp : (9 / 10 : F) ^ (n / 6) = 9 / 10 * (9 / 10) ^ (n / 6 - 1) := by
        rw [← pow_succ', show n / 6 - 1 + 1 = n / 6 by omega]
      rw [he n (by omega) hn, hp]
      have hp0 : 0 ≤ C * (9 / 10) ^ (n / 6 - 1) := mul_nonneg h0 (by positivity)
      have a2 := abs_le.mp (hb 2 (by omega) (by omega))
      have a4 := abs_le.mp (hb 4 (by omega) (by omega))
      have a6 := abs_le.mp (hb 6 (by omega) (by omega))
      rw [abs_le]
      constructor <;> linarith [a2.1, a2.2, a4.1, a4.2, a6.1, a6.2]

/-- The filter's gain for a constant signal: the sum of `b` over the sum of `a`. -/
def dcGain : F := 1893646312874292 / 1893646312874290

/-- C60. A constant input `c` comes out as `c` within one part in `10^14`: the output approaches
`dcGain * c`, the distance shrinking by a tenth at least every six samples. -/
theorem C60_dc (c : F) (N : Nat) (y : List F) (h : DiffEq bOf aOf (List.replicate N c) y) (n : Nat)
    (hn : n < N) : |y.getD n 0 - dcGain * c| ≤ 20 * |c| * (9 / 10) ^ (n / 6) ∧
      |(dcGain : F) - 1| ≤ 1 / 10 ^ 14 := by
  have hylen : y.length = N := by rw [h.1]; simp
  refine ⟨?_, by norm_num [dcGain, abs_le]⟩
  refine decay (fun n => y.getD n 0 - dcGain * c) N (20 * |c|) ?_ (by positivity) ?_ n hn
  · intro n _ hn
    have := C60_stable _ y h |c| (by intro v hv; rw [List.eq_of_mem_replicate hv]) n (by omega)
    calc |y.getD n 0 - dcGain * c| ≤ |y.getD n 0| + |dcGain * c| := abs_sub _ _
      _ ≤ 18 * |c| + 2 * |c| := by
        refine add_le_add this ?_
        rw [abs_mul]
        exact mul_le_mul_of_nonneg_right (by norm_num [dcGain, abs_le]) (abs_nonneg c)
      _ = 20 * |c| := by ring
  · intro n h6 hn
    rw [diffEq_expand _ y h n (by simpa using hn)]
    have hx : ∀ i, i ≤ 6 → delayed (List.replicate N c) n i = c := by
      intro i hi
      rw [delayed_of_le _ _ _ (by omega)]
      simp [List.getD_eq_getElem?_getD, show n - i < N by omega]
    rw [delayed_of_le y n 2 (by omega), delayed_of_le y n 4 (by omega), delayed_of_le y n 6 (by omega)]
    simp only [sum_range_succ, sum_range_zero]
    rw [hx 0 (by omega), hx 1 (by omega), hx 2 (by omega), hx 3 (by omega), hx 4 (by omega),
      hx 5 (by omega), hx 6 (by omega)]
    norm_num [bOf, bCoeffs, dcGain]
    ring

/-- C60. The frequency that would be folded onto a constant, the alternating signal `c, -c, c, ...`, is
removed completely: the output dies away geometrically. -/
theorem C60_nyquist (c : F) (N : Nat) (y : List F)
    (h : DiffEq bOf aOf ((List.range N).map (fun i => c * (-1) ^ i)) y) (n : Nat) (hn : n < N) :
    |y.getD n 0| ≤ 18 * |c| * (9 / 10) ^ (n / 6) := by
  have hylen : y.length = N := by rw [h.1]; simp
  refine decay (fun n => y.getD n 0) N (18 * |c|) ?_ (by positivity) ?_ n hn
  · intro n _ hn
    refine C60_stable _ y h |c| ?_ n (by omega)
    intro v hv
    obtain ⟨i, _, rfl⟩ := List.mem_map.mp hv
    rw [abs_mul, abs_pow, abs_neg, abs_one, one_pow, mul_one]
  · intro n h6 hn
    rw [diffEq_expand _ y h n (by simpa using hn)]
    have hx : ∀ i, i ≤ 6 → delayed ((List.range N).map (fun i => c * (-1 : F) ^ i)) n i
        = c * (-1) ^ n * (-1) ^ i := by
      intro i hi
      rw [delayed_of_le _ _ _ (by omega)]
      have : n - i < N := by omega
      simp only [List.getD_eq_getElem?_getD, List.getElem?_map, List.getElem?_range this,
        Option.map_some, Option.getD_some]
      rw [mul_assoc, ← pow_add, show n + i = (n - i) + 2 * i by omega, pow_add, pow_mul]
      simp
    rw [delayed_of_le y n 2 (by omega), delayed_of_le y n 4 (by omega), delayed_of_le y n 6 (by omega)]
    simp only [sum_range_succ, sum_range_zero]
    rw [hx 0 (by omega), hx 1 (by omega), hx 2 (by omega), hx 3 (by omega), hx 4 (by omega),
      hx 5 (by omega), hx 6 (by omega)]
    norm_num [bOf, bCoeffs]
    ring

end Ordered

end QM.DecimatorB
