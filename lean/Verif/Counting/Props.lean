import Verif.Counting.Sizes
import Verif.PhaseVocoder.RoundedLemmas

/-!
# C90: sizes and indices computed in double precision are exact
-/

namespace QM.Counting

open QM QM.Resampler QM.Double

variable {R : Type} [CommRing R] {fl : ℝ → ℝ} (hfl : Nearest fl)

include hfl in
/-- **C90** The ceiling of a quotient, or of a product over a number, computed in doubles is the exact one: the least `k` with `a ≤ k b`. -/
theorem C90_ceil (a b : Nat) (ha : a < 2 ^ 53) (hb : 0 < b) (hb' : b ≤ 2 ^ 53) :
    a ≤ ceilDiv fl a b * b ∧ (∀ k, a ≤ k * b → ceilDiv fl a b ≤ k) ∧
    ∀ n c, n * c = a → ceilMulDiv fl n c b = ceilDiv fl a b := by
  rw [ceilDiv_eq hfl a b ha hb hb']
  obtain ⟨h1, h2⟩ := cdiv_spec a b hb
  refine ⟨h1, fun k hk => ?_, fun n c h => ?_⟩
  · by_contra hc
    have : (k + 1) * b ≤ cdiv a b * b := Nat.mul_le_mul_right _ (by omega)
    rw [Nat.succ_mul] at this
    omega
  · rw [ceilMulDiv_eq hfl n c b (by rw [h]; exact ha) hb hb', h]

include hfl in
/-- **C90** A resampler whose phase table, latency and buffer are computed with doubles is the one computed exactly, for all rates and filter lengths an int can hold. -/
theorem C90_resampler (S T : Nat) (hS : S < 2 ^ 31) (hT : T < 2 ^ 31) (f : List R) (hf : f.length < 2 ^ 31) (scale : R) :
    new fl S T f scale = Resampler.new S T f scale := by
  unfold new Resampler.new
  cases hg : QM.MathInt.gcd (min S T) (max S T) with
  | none => rfl
  | some g =>
    simp only [Option.bind_eq_bind, Option.bind_some]
    by_cases h0 : g = 0
    · rw [if_pos h0, if_pos h0]
    rw [if_neg h0, if_neg h0]
    have hTg : T / g ≤ T := Nat.div_le_self _ _
    have hSg : S / g ≤ S := Nat.div_le_self _ _
    generalize T / g = I at *
    generalize S / g = O at *
    have hp : (List.range (I)).mapM (mkPhase fl (I) (O) f) = (List.range (I)).mapM (Resampler.mkPhase (I) (O) f) := by
      by_cases hz : I = 0
      · rw [hz]; rfl
      · congr 1
        funext p
        exact mkPhase_eq hfl _ _ _ _ (by omega) (by omega) (by omega) (by omega)
    rw [hp]
    cases (List.range (I)).mapM (Resampler.mkPhase (I) (O) f) with
    | none => rfl
    | some pd =>
      simp only [Option.bind_some]
      split
      · rfl
      · next h =>
        rw [ceilDiv_eq hfl _ _ (by omega) (by omega) (by omega)]

include hfl in
/-- **C90** A call of `process` delivers what it would if the number of samples it may write were computed exactly. -/
theorem C90_process (s : State R) (src : List R) (h0 : 0 < s.sourceRate) (h1 : s.sourceRate < 2 ^ 31) (h2 : src.length * s.targetRate < 2 ^ 53) :
    process fl s src = Resampler.process s src := by
  unfold process Resampler.process
  dsimp only
  rw [ceilMulDiv_eq hfl _ _ _ h2 h0 (by omega)]
  rfl

include hfl in
/-- **C90** The same for resampling in one go. -/
theorem C90_resample (S T : Nat) (hS0 : 0 < S) (hT0 : 0 < T) (hS : S < 2 ^ 31) (hT : T < 2 ^ 31) (f : List R) (hf : f.length < 2 ^ 31) (scale : R)
    (data : List R) (hd : data.length * T + f.length * S + T < 2 ^ 53) :
    resample fl S T f scale data = Resampler.resample S T f scale data := by
  unfold resample Resampler.resample
  rw [C90_resampler hfl S T hS hT f hf scale]
  cases hr : Resampler.new S T f scale with
  | none => rfl
  | some r =>
    obtain ⟨r1, r2, r3⟩ := new_rates S T f scale r hr
    have hl : r.latency * S ≤ f.length * S := Nat.mul_le_mul_right _ r3
    have e1 : ceilMulDiv fl r.latency S T = cdiv (r.latency * S) T := ceilMulDiv_eq hfl _ _ _ (by omega) hT0 (by omega)
    obtain ⟨c1, c2⟩ := cdiv_spec (r.latency * S) T hT0
    set p := cdiv (r.latency * S) T with hp
    have hn1 : (data.length + p) * T < 2 ^ 53 := by
      rw [add_mul]
      omega
    have e2 : ceilMulDiv fl (data.length + p) T S = cdiv ((data.length + p) * T) S := ceilMulDiv_eq hfl _ _ _ hn1 hS0 (by omega)
    have e3 : ceilMulDiv fl data.length T S = cdiv (data.length * T) S := ceilMulDiv_eq hfl _ _ _ (by omega) hS0 (by omega)
    have e4 : process fl r data = Resampler.process r data := C90_process hfl r data (by omega) (by omega) (by rw [r2]; omega)
    dsimp only
    rw [e1, e2, e3, e4]
    cases h1 : Resampler.process r data with
    | error e => rfl
    | ok q =>
      obtain ⟨t, o1⟩ := q
      obtain ⟨t1, t2⟩ := process_rates _ _ _ _ h1
      have e5 : process fl t (List.replicate (data.length + p - data.length) 0) = Resampler.process t (List.replicate (data.length + p - data.length) 0) :=
        C90_process hfl t _ (by omega) (by omega) (by
          rw [List.length_replicate, t2, r2, Nat.add_sub_cancel_left]
          omega)
      dsimp only
      rw [e5]
      rfl

include hfl in
/-- **C90** The factorisation of a transform size depends on the floor of a square root, which is exact. -/
theorem C90_factor (n : Nat) (hn : n < 2 ^ 31) : factor fl n = Kiss.factor n := by
  unfold factor Kiss.factor
  rw [floor_sqrt hfl n (by omega), Int.toNat_natCast]

include hfl in
/-- **C90** The middle of the keys collected so far, dsp/keydetection/GetKeyMode.cpp:281, is as in the model of C30. -/
theorem C90_midpoint (n : Nat) (hn : n < 2 ^ 31) : ceilDiv fl n 2 = (n + 1) / 2 := by
  rw [ceilDiv_eq hfl n 2 (by omega) (by norm_num) (by norm_num)]
  rfl

include hfl in
/-- **C90** `round` returns whole numbers unchanged and takes halves away from zero, and nothing ends up further than half a unit away, up to rounding. -/
theorem C90_round (x : ℝ) (hx : |x| ≤ 2 ^ 51) : |(round fl x : ℝ) - x| ≤ 1 / 2 + (|x| + 1) / 2 ^ 53 ∧
    (∀ k : ℤ, x = k → round fl x = k) ∧ (∀ k : ℕ, x = k + 1 / 2 → round fl x = k + 1) ∧ ∀ k : ℕ, x = -(k + 1 / 2) → round fl x = -(k + 1) := by
  unfold round
  by_cases h : x < 0
  · rw [abs_of_neg h] at hx ⊢
    obtain ⟨h1, h2, h3⟩ := round_pos hfl (-x) (by linarith) hx
    rw [if_pos h]
    refine ⟨?_, fun k hk => ?_, fun k hk => ?_, fun k hk => ?_⟩
    · rw [Int.cast_neg, show -(⌊fl (-x + 1 / 2)⌋ : ℝ) - x = -((⌊fl (-x + 1 / 2)⌋ : ℝ) - -x) by ring, abs_neg]
      exact h1
    · have hk0 : k < 0 := by
        rw [hk] at h
        exact_mod_cast h
      rw [h2 (-k).toNat (by
        rw [hk, ← Int.cast_natCast, Int.toNat_of_nonneg (by omega)]
        push_cast
        rfl)]
      omega
    · have : (0 : ℝ) ≤ k := by positivity
      linarith
    · rw [h3 k (by rw [hk]; ring)]
  · rw [not_lt] at h
    rw [abs_of_nonneg h] at hx ⊢
    obtain ⟨h1, h2, h3⟩ := round_pos hfl x h hx
    rw [if_neg (by linarith)]
    refine ⟨h1, fun k hk => ?_, h3, fun k hk => ?_⟩
    · have hk0 : 0 ≤ k := by
        rw [hk] at h
        exact_mod_cast h
      rw [h2 k.toNat (by rw [hk, ← Int.cast_natCast, Int.toNat_of_nonneg hk0])]
      omega
    · have : (0 : ℝ) ≤ k := by positivity
      linarith

/-- **C90** But `round` is not always the nearest whole number: the largest double below a half goes to 1, and an odd number beyond `2 ^ 52` goes
to the next even one. (`rn` takes the greater of two nearest doubles; in both cases that is the one with an even last bit, so the usual rule for ties gives the same.) -/
theorem C90_round_violation : IsDbl (1 / 2 - 1 / 2 ^ 54) ∧ round rn (1 / 2 - 1 / 2 ^ 54) = 1 ∧ IsDbl (2 ^ 52 + 1) ∧ round rn (2 ^ 52 + 1) = 2 ^ 52 + 2 := by
  refine ⟨⟨2 ^ 53 - 1, -54, by norm_num, by norm_num, by norm_num [zpow_neg]⟩, ?_, ⟨2 ^ 52 + 1, 0, by norm_num, by norm_num, by norm_num⟩, ?_⟩
  · unfold round
    rw [if_neg (by norm_num), PhaseVocoder.rn_eq (1 / 2 - 1 / 2 ^ 54 + 1 / 2) (-1) (2 ^ 53) (by norm_num) (by rw [abs_of_pos (by norm_num)]; norm_num)
      (by rw [abs_of_pos (by norm_num)]; norm_num) (by norm_num [zpow_neg]) (by norm_num [zpow_neg])]
    norm_num [zpow_neg]
  · unfold round
    rw [if_neg (by norm_num), PhaseVocoder.rn_eq (2 ^ 52 + 1 + 1 / 2) 52 (2 ^ 52 + 2) (by norm_num) (by rw [abs_of_pos (by norm_num)]; norm_num)
      (by rw [abs_of_pos (by norm_num)]; norm_num) (by norm_num [zpow_neg]) (by norm_num [zpow_neg])]
    norm_num

/-- 44.1 kHz to 48 kHz, an hour of samples at once: the hypotheses of the resampler's theorems hold. -/
example (fl : ℝ → ℝ) (hfl : Nearest fl) (data : List ℝ) (f : List ℝ) (h : data.length = 3600 * 44100) (hf : f.length = 200001) :
    resample fl 44100 48000 f 1 data = Resampler.resample 44100 48000 f 1 data :=
  C90_resample hfl _ _ (by norm_num) (by norm_num) (by norm_num) (by norm_num) f (by rw [hf]; norm_num) 1 data (by rw [h, hf]; norm_num)

/-- There is a way to round to nearest. -/
example : factor rn 1000 = Kiss.factor 1000 := C90_factor nearest_rn 1000 (by norm_num)

end QM.Counting
