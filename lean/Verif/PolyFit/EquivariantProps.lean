import Verif.PolyFit.Props

/-!
# C139: the fitted polynomial follows the data
-/

namespace QM.PolyFit

open Finset

/-- `a` times the coefficients `c` plus the coefficients `p`. -/
noncomputable def combine (a : ℝ) (c p : List ℝ) : List ℝ :=
  (List.range p.length).map fun j => a * c.getD j 0 + p.getD j 0

/-- The values scaled by `a` plus the values of the polynomial `p` at the points. -/
noncomputable def follow (a : ℝ) (x y p : List ℝ) : List ℝ :=
  (List.range y.length).map fun i => a * y.getD i 0 + evalPoly p (x.getD i 0)

/-! ## Helper lemmas -/

theorem getD_lt (l : List ℝ) (j : ℕ) (h : j < l.length) : l.getD j 0 = l[j] := by simp [h]

theorem combine_length (a : ℝ) (c p : List ℝ) : (combine a c p).length = p.length := by simp [combine]

theorem combine_getD (a : ℝ) (c p : List ℝ) (j : ℕ) (hj : j < p.length) :
    (combine a c p).getD j 0 = a * c.getD j 0 + p.getD j 0 := by
  simp [combine, hj]

theorem evalPoly_combine (a : ℝ) (c p : List ℝ) (h : c.length = p.length) (t : ℝ) :
    evalPoly (combine a c p) t = a * evalPoly c t + evalPoly p t := by
  unfold evalPoly
  rw [combine_length, h, mul_sum, ← sum_add_distrib]
  refine sum_congr rfl fun j hj => ?_
  rw [combine_getD a c p j (mem_range.mp hj)]
  ring

theorem residual_follow (a : ℝ) (x y c p : List ℝ) (hc : c.length = p.length) (hx : x.length = y.length) :
    residual x (follow a x y p) (combine a c p) = a ^ 2 * residual x y c := by
  unfold residual
  rw [mul_sum]
  refine sum_congr rfl fun i hi => ?_
  have hi : i < y.length := hx ▸ mem_range.mp hi
  have e : (follow a x y p).getD i 0 = a * y.getD i 0 + evalPoly p (x.getD i 0) := by simp [follow, hi]
  rw [e, evalPoly_combine a c p hc]
  ring

theorem combine_surjective (a : ℝ) (ha : a ≠ 0) (d p : List ℝ) (h : d.length = p.length) :
    ∃ c, c.length = p.length ∧ combine a c p = d := by
  refine ⟨(List.range p.length).map fun j => (d.getD j 0 - p.getD j 0) / a, by simp, ?_⟩
  refine List.ext_getElem (by rw [combine_length, h]) fun j h1 h2 => ?_
  rw [combine_length] at h1
  have e := combine_getD a ((List.range p.length).map fun j => (d.getD j 0 - p.getD j 0) / a) p j h1
  have e2 : ((List.range p.length).map fun j => (d.getD j 0 - p.getD j 0) / a).getD j 0 = (d.getD j 0 - p.getD j 0) / a := by
    simp [h1]
  rw [e2, mul_div_cancel₀ _ ha, sub_add_cancel] at e
  rwa [getD_lt _ _ (by rw [combine_length]; exact h1), getD_lt _ _ h2] at e

/-! ## The claims -/

/-- C139. Scaling the values and adding a polynomial of the fitted degree to them scales the coefficients and adds
those of the polynomial. A fit is made for the one set of values exactly if it is made for the other. -/
theorem C139_follow (a : ℝ) (x y p coefs : List ℝ) (h : Args x y coefs) (hp : p.length = coefs.length) :
    ((polyFit2 x (follow a x y p) coefs).ret = -1 ↔ (polyFit2 x y coefs).ret = -1) ∧
    ((polyFit2 x y coefs).ret ≠ -1 →
      (polyFit2 x (follow a x y p) coefs).coefs = combine a (polyFit2 x y coefs).coefs p) := by
  have h' : Args x (follow a x y p) coefs := ⟨h.terms, h.points, by rw [h.values]; simp [follow]⟩
  have hiff : (polyFit2 x (follow a x y p) coefs).ret = -1 ↔ (polyFit2 x y coefs).ret = -1 := by
    rw [(C40_failure x _ coefs h').1, (C40_failure x y coefs h).1]
  refine ⟨hiff, fun hs => ?_⟩
  obtain ⟨l1, _, m1, _⟩ := C40_least_squares x y coefs h hs
  obtain ⟨l2, _, m2, u2⟩ := C40_least_squares x _ coefs h' (fun hh => hs (hiff.mp hh))
  set c := (polyFit2 x y coefs).coefs with hc
  set c' := (polyFit2 x (follow a x y p) coefs).coefs with hc'
  have hcl : c.length = p.length := by rw [l1, hp]
  refine (u2 (combine a c p) (by rw [combine_length, hp]) (le_antisymm ?_ (m2 _ (by rw [combine_length, hp])))).symm
  rw [residual_follow a x y c p hcl h.values]
  by_cases ha : a = 0
  · rw [ha]
    have : 0 ≤ residual x (follow a x y p) c' := sum_nonneg fun _ _ => sq_nonneg _
    rw [ha] at this
    simpa using this
  · obtain ⟨d, d1, d2⟩ := combine_surjective a ha c' p (by rw [l2, hp])
    rw [← d2, residual_follow a x y d p d1 h.values]
    exact mul_le_mul_of_nonneg_left (m1 d (by rw [d1, hp])) (sq_nonneg a)

/-- C139. Values that lie on a polynomial of the fitted degree give back that polynomial. -/
theorem C139_exact (x p coefs : List ℝ) (hx : 2 ≤ x.length) (h1 : 1 ≤ coefs.length) (hp : p.length = coefs.length)
    (hd : coefs.length ≤ x.toFinset.card) : (polyFit2 x (x.map (evalPoly p)) coefs).coefs = p := by
  have h : Args x (x.map fun _ => 0) coefs := ⟨h1, hx, by simp⟩
  have hs : (polyFit2 x (x.map fun _ => 0) coefs).ret ≠ -1 := by
    rw [Ne, (C40_failure x _ coefs h).1]
    omega
  have hf := (C139_follow 0 x (x.map fun _ => 0) p coefs h hp).2 hs
  have e1 : follow 0 x (x.map fun _ => 0) p = x.map (evalPoly p) := by
    refine List.ext_getElem (by simp [follow]) fun i g1 g2 => ?_
    have hi : i < x.length := by simpa using g2
    simp [follow, hi]
  rw [e1] at hf
  rw [hf]
  refine List.ext_getElem (combine_length _ _ _) fun j g1 g2 => ?_
  have := combine_getD 0 (polyFit2 x (x.map fun _ => 0) coefs).coefs p j g2
  rw [getD_lt _ _ g1, getD_lt _ _ g2] at this
  rw [this]
  ring

/-- C139. The order of the points does not matter. -/
theorem C139_order (σ : Equiv.Perm ℕ) (x y x2 y2 coefs : List ℝ) (h : Args x y coefs)
    (hσ : ∀ i, i < x.length ↔ σ i < x.length) (hx : x2.length = x.length) (hy : y2.length = x.length)
    (ex : ∀ i, i < x.length → x2.getD i 0 = x.getD (σ i) 0) (ey : ∀ i, i < x.length → y2.getD i 0 = y.getD (σ i) 0)
    (hs : (polyFit2 x y coefs).ret ≠ -1) :
    (polyFit2 x2 y2 coefs).ret ≠ -1 ∧ (polyFit2 x2 y2 coefs).coefs = (polyFit2 x y coefs).coefs := by
  have h' : Args x2 y2 coefs := ⟨h.terms, by rw [hx]; exact h.points, by rw [hx, hy]⟩
  have hset : x2.toFinset = x.toFinset := by
    ext t
    rw [List.mem_toFinset, List.mem_toFinset, List.mem_iff_getElem, List.mem_iff_getElem]
    constructor
    · rintro ⟨i, hi, rfl⟩
      have hi' : i < x.length := hx ▸ hi
      have := ex i hi'
      rw [getD_lt _ _ hi, getD_lt _ _ ((hσ i).mp hi')] at this
      exact ⟨σ i, (hσ i).mp hi', this.symm⟩
    · rintro ⟨i, hi, rfl⟩
      have hj : σ.symm i < x.length := (hσ _).mpr (by simpa using hi)
      have := ex _ hj
      simp only [Equiv.apply_symm_apply] at this
      rw [getD_lt _ _ (hx.symm ▸ hj), getD_lt _ _ hi] at this
      exact ⟨σ.symm i, hx.symm ▸ hj, this⟩
  have hs' : (polyFit2 x2 y2 coefs).ret ≠ -1 := by
    rw [Ne, (C40_failure x2 y2 coefs h').1, hset, ← (C40_failure x y coefs h).1]
    exact hs
  have hres : ∀ c, residual x2 y2 c = residual x y c := by
    intro c
    unfold residual
    rw [hx]
    refine Eq.trans (sum_congr rfl fun i hi => ?_) (sum_equiv σ (t := range x.length)
      (g := fun i => (evalPoly c (x.getD i 0) - y.getD i 0) ^ 2) (f := fun i => (evalPoly c (x.getD (σ i) 0) - y.getD (σ i) 0) ^ 2)
      (fun i => by simpa using hσ i) (fun _ _ => rfl))
    rw [ex i (mem_range.mp hi), ey i (mem_range.mp hi)]
  obtain ⟨l1, _, m1, _⟩ := C40_least_squares x y coefs h hs
  obtain ⟨l2, _, m2, u2⟩ := C40_least_squares x2 y2 coefs h' hs'
  refine ⟨hs', (u2 _ l1 (le_antisymm ?_ (m2 _ l1))).symm⟩
  rw [hres, hres]
  exact m1 _ l2

/-- A parabola through five points meets the hypotheses of `C139_exact`. -/
example : (polyFit2 [-2, -1, 0, 1, 2] (([-2, -1, 0, 1, 2] : List ℝ).map (evalPoly [3, -1, 2])) [0, 0, 0]).coefs = [3, -1, 2] := by
  refine C139_exact _ _ _ (by decide) (by decide) rfl ?_
  have : ([-2, -1, 0, 1, 2] : List ℝ).Nodup := by norm_num
  rw [List.toFinset_card_of_nodup this]
  decide

end QM.PolyFit
