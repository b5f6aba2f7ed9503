import Verif.Resampler.RoundedLemmas
import Mathlib.Tactic.IntervalCases

/-!
# C91: resampling in double precision
-/

namespace QM.Resampler.Rounded

open QM QM.Resampler QM.Double

variable {fl : ℝ → ℝ} (hfl : Nearest fl)

include hfl in
/-- **C91** A stream resampled in double precision: no call fails, every call delivers as many samples as in exact arithmetic, and every sample of a stream of any length
is close to the exact one. With `n` coefficients for each phase, input up to `A` and absolute values of the coefficients of a phase summing to at most `F`, it
is at most `5 n + 3` units of `scale * A * F / 2^53` away. -/
theorem C91_stream (S T : Nat) (hS0 : 0 < S) (hT0 : 0 < T) (hS : S < 2 ^ 31) (hT : T < 2 ^ 31) (f : List ℝ) (hf : f.length < 2 ^ 31) (scale : ℝ)
    (hL : S / Nat.gcd S T ≤ f.length) (A F : ℝ) (h1 : 1 / 2 ^ 1000 ≤ A * F) (h2 : A * F ≤ 2 ^ 1000) (h3 : 1 / 2 ^ 1000 ≤ |scale| * (A * F))
    (h4 : |scale| * (A * F) ≤ 2 ^ 1000)
    (hF : ∀ p, p < T / Nat.gcd S T → ∑ i ∈ Finset.range f.length, |tap f (p + i * (T / Nat.gcd S T : Nat))| ≤ F)
    (blocks : List (List ℝ)) (hb : ∀ b ∈ blocks, b.length * T < 2 ^ 53) (hA : ∀ b ∈ blocks, ∀ v ∈ b, |v| ≤ A) :
    ∃ r r' outs outsR, Resampler.new S T f scale = some r ∧ Counting.new fl S T f scale = some r ∧
      Resampler.feed r blocks = .ok (r', outs) ∧ Rounded.feed fl r blocks = .ok (r', outsR) ∧ outsR.map List.length = outs.map List.length ∧
      ∀ (i : Nat) a b, outs.flatten[i]? = some a → outsR.flatten[i]? = some b →
        |b - a| ≤ (5 * cdiv f.length (T / Nat.gcd S T) + 3) * (|scale| * (A * F) / 2 ^ 53) := by
  have hg : 0 < Nat.gcd S T := Nat.gcd_pos_of_pos_left _ hS0
  have hI : 0 < T / Nat.gcd S T := Nat.div_pos (Nat.le_of_dvd hT0 (Nat.gcd_dvd_right _ _)) hg
  have hO : 0 < S / Nat.gcd S T := Nat.div_pos (Nat.le_of_dvd hS0 (Nat.gcd_dvd_left _ _)) hg
  have e1 : S / Nat.gcd S T * Nat.gcd S T = S := Nat.div_mul_cancel (Nat.gcd_dvd_left S T)
  have e2 : T / Nat.gcd S T * Nat.gcd S T = T := Nat.div_mul_cancel (Nat.gcd_dvd_right S T)
  have hA0 : 0 < A := by
    have hp : (0 : ℝ) < A * F := lt_of_lt_of_le (by positivity) h1
    have hF0 : 0 ≤ F := (Finset.sum_nonneg (fun _ _ => abs_nonneg _)).trans (hF 0 hI)
    by_contra hc
    nlinarith
  let x : Nat → ℝ := fun i => blocks.flatten.getD i 0
  have hx : ∀ m, |x m| ≤ A := by
    intro m
    show |blocks.flatten.getD m 0| ≤ A
    rw [List.getD_eq_getElem?_getD]
    cases hm : blocks.flatten[m]? with
    | none => simpa using hA0.le
    | some v =>
      obtain ⟨b, hb, hv⟩ := List.mem_flatten.1 (List.mem_of_getElem? hm)
      exact hA b hb v hv
  obtain ⟨r, hr, h0⟩ := new_spec S T hS0 hT0 f scale x
  obtain ⟨r', outs, outsR, f1, f2, f3, f4, f5⟩ := Ready.feed hfl hI hO hg hL (by rw [e1]; exact hS) blocks (by rw [e2]; exact hb) h0 (by
    intro i hi
    show _ = some (blocks.flatten.getD _ 0)
    rw [Nat.zero_add, List.getD_eq_getElem?_getD, List.getElem?_eq_getElem hi]; rfl)
  refine ⟨r, r', outs, outsR, hr, by rw [Counting.C90_resampler hfl S T hS hT f hf scale, hr], f1, f2, f3.symm, fun i a b ha hb => ?_⟩
  rw [f4] at ha
  rw [f5] at hb
  rw [List.getElem?_map] at ha hb
  cases hi : (List.range' 0 outs.flatten.length)[i]? with
  | none => rw [hi] at ha; cases ha
  | some j =>
    rw [hi] at ha hb
    cases ha
    cases hb
    exact rounded_near hfl.rounds hI scale A F (scale_of _ h1 h2) (scale_of _ h3 h4) hx hF (by omega)

include hfl in
/-- **C91** However the input is cut into blocks, the samples delivered are the same bit for bit, apart from how many there are. -/
theorem C91_chunking (S T : Nat) (hS0 : 0 < S) (hT0 : 0 < T) (hS : S < 2 ^ 31) (hT : T < 2 ^ 31) (f : List ℝ) (hf : f.length < 2 ^ 31) (scale : ℝ)
    (hL : S / Nat.gcd S T ≤ f.length) (b1 b2 : List (List ℝ)) (h1 : ∀ b ∈ b1, b.length * T < 2 ^ 53) (h2 : ∀ b ∈ b2, b.length * T < 2 ^ 53)
    (hb : b1.flatten = b2.flatten) :
    ∃ r r1 r2 o1 o2, Counting.new fl S T f scale = some r ∧ Rounded.feed fl r b1 = .ok (r1, o1) ∧ Rounded.feed fl r b2 = .ok (r2, o2) ∧
      (o1.flatten <+: o2.flatten ∨ o2.flatten <+: o1.flatten) := by
  have hg : 0 < Nat.gcd S T := Nat.gcd_pos_of_pos_left _ hS0
  have hI : 0 < T / Nat.gcd S T := Nat.div_pos (Nat.le_of_dvd hT0 (Nat.gcd_dvd_right _ _)) hg
  have hO : 0 < S / Nat.gcd S T := Nat.div_pos (Nat.le_of_dvd hS0 (Nat.gcd_dvd_left _ _)) hg
  have e1 : S / Nat.gcd S T * Nat.gcd S T = S := Nat.div_mul_cancel (Nat.gcd_dvd_left S T)
  have e2 : T / Nat.gcd S T * Nat.gcd S T = T := Nat.div_mul_cancel (Nat.gcd_dvd_right S T)
  let x : Nat → ℝ := fun i => b2.flatten.getD i 0
  have hx : ∀ b : List (List ℝ), b.flatten = b2.flatten → ∀ i, i < b.flatten.length → b.flatten[i]? = some (x (0 + i)) := by
    intro b e i hi
    show _ = some (b2.flatten.getD _ 0)
    rw [e] at hi ⊢
    rw [Nat.zero_add, List.getD_eq_getElem?_getD, List.getElem?_eq_getElem hi]; rfl
  obtain ⟨r, hr, h0⟩ := new_spec S T hS0 hT0 f scale x
  obtain ⟨r1, o1, q1, -, p1, -, -, c1⟩ := Ready.feed hfl hI hO hg hL (by rw [e1]; exact hS) b1 (by rw [e2]; exact h1) h0 (hx b1 hb)
  obtain ⟨r2, o2, q2, -, p2, -, -, c2⟩ := Ready.feed hfl hI hO hg hL (by rw [e1]; exact hS) b2 (by rw [e2]; exact h2) h0 (hx b2 rfl)
  refine ⟨r, r1, r2, q1, q2, by rw [Counting.C90_resampler hfl S T hS hT f hf scale, hr], p1, p2, ?_⟩
  rw [c1, c2]
  have hpre : ∀ m n : Nat, m ≤ n → List.range' 0 m <+: List.range' 0 n := by
    intro m n h
    obtain ⟨d, rfl⟩ := Nat.exists_eq_add_of_le h
    rw [← List.range'_append_1]
    exact List.prefix_append _ _
  rcases le_total o1.flatten.length o2.flatten.length with h | h
  · exact Or.inl ((hpre _ _ h).map _)
  · exact Or.inr ((hpre _ _ h).map _)

include hfl in
/-- **C91** Resampling in one go: as many samples as in exact arithmetic, each close to the exact one. -/
theorem C91_resample (S T : Nat) (hS0 : 0 < S) (hT0 : 0 < T) (hS : S < 2 ^ 31) (hT : T < 2 ^ 31) (f : List ℝ) (hf : f.length < 2 ^ 31) (scale : ℝ)
    (hL : S / Nat.gcd S T ≤ f.length) (A F : ℝ) (h1 : 1 / 2 ^ 1000 ≤ A * F) (h2 : A * F ≤ 2 ^ 1000) (h3 : 1 / 2 ^ 1000 ≤ |scale| * (A * F))
    (h4 : |scale| * (A * F) ≤ 2 ^ 1000)
    (hF : ∀ p, p < T / Nat.gcd S T → ∑ i ∈ Finset.range f.length, |tap f (p + i * (T / Nat.gcd S T : Nat))| ≤ F)
    (data : List ℝ) (hd : data.length * T + f.length * S + T < 2 ^ 53) (hA : ∀ v ∈ data, |v| ≤ A) :
    ∃ out outR, Resampler.resample S T f scale data = .ok out ∧ Rounded.resample fl S T f scale data = .ok outR ∧
      outR.length = out.length ∧ out.length = cdiv (data.length * T) S ∧
      ∀ (i : Nat) a b, out[i]? = some a → outR[i]? = some b → |b - a| ≤ (5 * cdiv f.length (T / Nat.gcd S T) + 3) * (|scale| * (A * F) / 2 ^ 53) := by
  obtain ⟨out, ho, hol, -⟩ := C55_one_off S T hS0 hT0 f scale hL data
  have hg : 0 < Nat.gcd S T := Nat.gcd_pos_of_pos_left _ hS0
  have hI : 0 < T / Nat.gcd S T := Nat.div_pos (Nat.le_of_dvd hT0 (Nat.gcd_dvd_right _ _)) hg
  have hO : 0 < S / Nat.gcd S T := Nat.div_pos (Nat.le_of_dvd hS0 (Nat.gcd_dvd_left _ _)) hg
  have q1 : S / Nat.gcd S T * Nat.gcd S T = S := Nat.div_mul_cancel (Nat.gcd_dvd_left S T)
  have q2 : T / Nat.gcd S T * Nat.gcd S T = T := Nat.div_mul_cancel (Nat.gcd_dvd_right S T)
  have hA0 : 0 < A := by
    have hp : (0 : ℝ) < A * F := lt_of_lt_of_le (by positivity) h1
    have hF0 : 0 ≤ F := (Finset.sum_nonneg (fun _ _ => abs_nonneg _)).trans (hF 0 hI)
    by_contra hc
    nlinarith
  let x : Nat → ℝ := fun i => data.getD i 0
  have hx : ∀ m, |x m| ≤ A := by
    intro m
    show |data.getD m 0| ≤ A
    rw [List.getD_eq_getElem?_getD]
    cases hm : data[m]? with
    | none => simpa using hA0.le
    | some v => exact hA v (List.mem_of_getElem? hm)
  obtain ⟨r, hr, h0⟩ := new_spec S T hS0 hT0 f scale x
  obtain ⟨r1, r2, r3⟩ := Counting.new_rates S T f scale r hr
  have hl : r.latency * S ≤ f.length * S := Nat.mul_le_mul_right _ r3
  have e1 : Counting.ceilMulDiv fl r.latency S T = cdiv (r.latency * S) T := Counting.ceilMulDiv_eq hfl _ _ _ (by omega) hT0 (by omega)
  obtain ⟨c1, c2⟩ := Counting.cdiv_spec (r.latency * S) T hT0
  have hun := ho
  unfold Resampler.resample at hun
  unfold Rounded.resample
  rw [hr] at hun
  rw [Counting.C90_resampler hfl S T hS hT f hf scale, hr]
  dsimp only at hun ⊢
  rw [e1]
  set p := cdiv (r.latency * S) T with hp
  have hn1 : (data.length + p) * T < 2 ^ 53 := by
    rw [add_mul]
    omega
  have e2 : Counting.ceilMulDiv fl (data.length + p) T S = cdiv ((data.length + p) * T) S := Counting.ceilMulDiv_eq hfl _ _ _ hn1 hS0 (by omega)
  have e3 : Counting.ceilMulDiv fl data.length T S = cdiv (data.length * T) S := Counting.ceilMulDiv_eq hfl _ _ _ (by omega) hS0 (by omega)
  obtain ⟨s1, n1, p1, p2, k1⟩ := Ready.process hfl h0 hI hO hg hL data (by
    intro i hi
    show _ = some (data.getD _ 0)
    rw [Nat.zero_add, List.getD_eq_getElem?_getD, List.getElem?_eq_getElem hi]; rfl) (by omega) (by rw [r2]; omega)
  rw [Nat.zero_add, Nat.zero_add] at k1
  obtain ⟨s2, n2, p3, p4, k2⟩ := Ready.process hfl k1 hI hO hg hL (List.replicate (data.length + p - data.length) 0) (by
    intro i hi
    show _ = some (data.getD _ 0)
    simp only [List.length_replicate] at hi
    rw [List.getElem?_replicate, if_pos hi, List.getD_eq_getElem?_getD, List.getElem?_eq_none (by omega)]; rfl)
    (by rw [k1.src, q1]; exact hS) (by rw [k1.tgt, q2, List.length_replicate, Nat.add_sub_cancel_left]; rw [add_mul] at hn1; omega)
  rw [e2, e3, p2]
  dsimp only
  rw [p4]
  dsimp only
  rw [p1] at hun
  dsimp only at hun
  rw [p3] at hun
  dsimp only at hun
  simp only [List.length_map, List.length_range', List.length_append, List.length_replicate] at hun ⊢
  split at hun
  · cases hun
  · next hc1 =>
    rw [if_neg hc1]
    generalize (if ((n1 + n2 : ℕ) : ℤ) - r.latency > (cdiv (data.length * T) S : ℕ) then ((cdiv (data.length * T) S : ℕ) : ℤ) else ((n1 + n2 : ℕ) : ℤ) - r.latency) = tr at hun ⊢
    split at hun
    · cases hun
    · next hc2 =>
      rw [if_neg hc2]
      simp only [Except.ok.injEq] at hun
      refine ⟨out, _, ho, rfl, ?_, hol, ?_⟩
      · rw [← hun]
        simp only [List.length_take, List.length_drop, List.length_append, List.length_map, List.length_range', List.length_replicate]
      · intro i a b ha hb
        rw [← hun] at ha
        rw [List.getElem?_take] at ha hb
        split at ha
        · next hi =>
          rw [if_pos hi, List.getElem?_drop, ← List.map_append, List.getElem?_append] at hb
          rw [List.getElem?_drop, ← List.map_append, List.getElem?_append] at ha
          simp only [List.length_map] at ha hb
          split at ha
          · next hj =>
            rw [if_pos hj, List.getElem?_map] at hb
            rw [List.getElem?_map] at ha
            cases hk : (List.range' 0 n1 ++ List.range' n1 n2)[r.latency + i]? with
            | none => rw [hk] at ha; cases ha
            | some j =>
              rw [hk] at ha hb
              cases ha
              cases hb
              exact rounded_near hfl.rounds hI scale A F (scale_of _ h1 h2) (scale_of _ h3 h4) hx hF (by omega)
          · next hj =>
            rw [if_neg hj, ha] at hb
            cases hb
            rw [sub_self, abs_zero]
            have := (scale_of _ h3 h4).pos
            positivity
        · cases ha

/-- The hypotheses are met: a filter of five taps, upsampling by 3/2, and rounding to nearest. -/
example : Nearest rn ∧ 2 / Nat.gcd 2 3 ≤ [(0.25 : ℝ), 0.75, 1, 0.75, 0.25].length ∧
    ∀ p, p < 3 / Nat.gcd 2 3 → ∑ i ∈ Finset.range [(0.25 : ℝ), 0.75, 1, 0.75, 0.25].length, |tap [(0.25 : ℝ), 0.75, 1, 0.75, 0.25] (p + i * (3 / Nat.gcd 2 3 : Nat))| ≤ 1 := by
  refine ⟨nearest_rn, by decide, fun p hp => ?_⟩
  have hp3 : p < 3 := hp
  interval_cases p <;> simp [Finset.sum_range_succ, tap, abs_of_pos] <;> norm_num [abs_of_pos]

end QM.Resampler.Rounded
