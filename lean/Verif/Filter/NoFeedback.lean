import Verif.Filter.ZeroPhaseLemmas

/-! # Zero-phase filtering with a denominator `1, 0, …, 0` -/

namespace QM.Filter

variable {R : Type} [CommRing R]
open Finset

/-- No feedback: all coefficients of the denominator but the first are zero. -/
def NoFeedback (a : List R) : Prop := a.length ≠ 1 ∧ ∀ i, a.getD (i + 1) 0 = 0

theorem diffEq_noFeedback {b a x y : List R} (ha : NoFeedback a) (h : DiffEq b a x y) : DiffEq b [] x y := by
  refine ⟨h.1, fun n hn => ?_⟩
  rw [h.2 n hn, sum_eq_zero (s := range (a.length - 1)) (fun i _ => by rw [ha.2, zero_mul])]
  simp

/-- One call on an object in any state. -/
theorem noFeedback_kernel {b a : List R} (ha : NoFeedback a) {t : State R} {xs ys : List R} (h2 : Inv b a t xs ys) (h3 : DiffEq b a xs ys) (src : List R) :
    ∃ s' dst xs' ys', filtfilt t src = some (s', dst) ∧ Inv b a s' xs' ys' ∧ DiffEq b a xs' ys' ∧ dst.length = src.length ∧ ∀ i, i < src.length →
      dst[i]? = some (∑ j ∈ range b.length, ∑ k ∈ range b.length, b.getD j 0 * b.getD k 0 * around src ((i : Int) + j - k)) := by
  by_cases hne : src = []
  · subst hne
    exact ⟨t, [], xs, ys, rfl, h2, h3, rfl, fun i hi => by simp at hi⟩
  obtain ⟨s2, z1, z2, f1, f2, f3, f4, f5⟩ := filtfilt_spec b a t xs ys h2 h3 src hne
  have f5' := f5
  have hyl : ys.length = xs.length := h3.1
  replace f4 := diffEq_noFeedback ha f4
  replace f5 := diffEq_noFeedback ha f5
  have hN : 0 < src.length := List.length_pos_iff.mpr hne
  have hpos := h2.hpos
  set n := 3 * (b.length - 1) with hn
  set ext := (List.range (src.length + 2 * n)).map (oddExt n src) with hext
  have hel : ext.length = src.length + 2 * n := by simp [hext]
  have hget : ∀ k, k < ext.length → ext.getD k 0 = around src ((k : Int) - n) := by
    intro k hk
    rw [← oddExt_around, hext, List.getD_eq_getElem?_getD, List.getElem?_map, List.getElem?_range (by omega)]
    rfl
  have k1 : ∀ k, b.length - 1 ≤ k → k < ext.length → z1.getD k 0 = ∑ i ∈ range b.length, b.getD i 0 * around src ((k : Int) - n - i) := by
    intro k hk hke
    have g1 := fir_value b _ _ f4 (xs.length + k) (by simp; omega)
    have : (ys ++ z1).getD (xs.length + k) 0 = z1.getD k 0 := by
      simp only [List.getD_eq_getElem?_getD]
      rw [List.getElem?_append_right (by omega)]
      congr 2; omega
    rw [← this, g1]
    refine sum_congr rfl (fun i hi => ?_)
    rw [mem_range] at hi
    rw [delayed_append_right _ _ _ _ (by omega), delayed, if_pos (by omega), hget _ (by omega)]
    congr 2
    omega
  have hz2 : z2.length = ext.length := by rw [f5.1]; simp; omega
  refine ⟨s2, _, _, _, f1, f2, f5', by simp [hz2, hel]; omega, ?_⟩
  intro i hil
  rw [List.getElem?_take, List.getElem?_drop, if_pos hil, List.getElem?_reverse (by omega)]
  rw [List.getElem?_eq_getElem (by omega), Option.some.injEq, ← getD_of_lt, hz2, fir_value b _ _ f5 _ (by simp; omega)]
  refine sum_congr rfl (fun j hj => ?_)
  rw [mem_range] at hj
  rw [delayed, if_pos (by omega), revget _ _ (by omega), k1 _ (by omega) (by omega), mul_sum]
  refine sum_congr rfl (fun k hk => ?_)
  rw [mul_assoc]
  congr 3
  omega

end QM.Filter
