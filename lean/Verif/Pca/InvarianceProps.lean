import Verif.Pca.ProjectProps
import Mathlib.Tactic.IntervalCases

/-! # C138: principal components do not depend on offsets of the features or on the order of the rows -/

namespace QM.Pca

open Finset

variable {n m w comps : ℕ} {x : ℕ → ℕ → ℝ} {data data2 sym sym2 : List (List ℝ)} {mean mean2 evals interm : List ℝ}
  {negl : ℝ → ℝ → Bool} {ε : ℝ}

/-! ## Helper lemmas -/

theorem colMean_add (hn : 1 ≤ n) (c : ℕ → ℝ) (j : ℕ) :
    colMean (fun i j => if j < m then x i j + c j else x i j) n j = if j < m then colMean x n j + c j else colMean x n j := by
  unfold colMean
  have hn' : (n : ℝ) ≠ 0 := by exact_mod_cast (by omega : n ≠ 0)
  by_cases hj : j < m
  · simp only [hj, if_true]
    rw [sum_add_distrib, sum_const, card_range, nsmul_eq_mul, add_div, mul_div_cancel_left₀ _ hn']
  · simp only [hj, if_false]

theorem centred_add (hn : 1 ≤ n) (c : ℕ → ℝ) (i j : ℕ) :
    centred (fun i j => if j < m then x i j + c j else x i j) n i j = centred x n i j := by
  unfold centred
  rw [colMean_add hn]
  by_cases hj : j < m
  · simp only [hj, if_true]
    ring
  · simp only [hj, if_false]

theorem sum_rows (σ : Equiv.Perm ℕ) (hσ : ∀ i, i < n ↔ σ i < n) (f : ℕ → ℝ) :
    ∑ i ∈ range n, f (σ i) = ∑ i ∈ range n, f i :=
  sum_equiv σ (fun i => by simpa using hσ i) (fun _ _ => rfl)

theorem centred_rows (σ : Equiv.Perm ℕ) (hσ : ∀ i, i < n ↔ σ i < n) (i j : ℕ) :
    centred (fun i j => x (σ i) j) n i j = centred x n (σ i) j := by
  unfold centred colMean
  rw [sum_rows σ hσ (fun i => x i j)]

theorem scatter_rows (σ : Equiv.Perm ℕ) (hσ : ∀ i, i < n ↔ σ i < n) (j k : ℕ) :
    scatter (fun i j => x (σ i) j) n j k = scatter x n j k := by
  unfold scatter
  simp only [centred_rows σ hσ]
  exact sum_rows σ hσ (fun i => centred x n i j * centred x n i k)

/-! ## The claims -/

/-- C138. Adding a constant to each of the analysed columns does not change what `pca_project` gives, nor do
the contents of the arrays that it allocates for the covariance matrix and the means. -/
theorem C138_offset (hn : 1 ≤ n) (hw : m ≤ w) (c : ℕ → ℝ) (hd : Holds2 n w x data)
    (hd2 : Holds2 n w (fun i j => if j < m then x i j + c j else x i j) data2) (hs : Shape2 m m sym)
    (hs2 : Shape2 m m sym2) (h1 : mean.length = m) (h1' : mean2.length = m) :
    pcaProject negl data2 n m comps sym2 mean2 evals interm = pcaProject negl data n m comps sym mean evals interm := by
  obtain ⟨y, hy⟩ := hs
  obtain ⟨y2, hy2⟩ := hs2
  obtain ⟨d1, s1, c1, c2, c3⟩ := C52_wide (by omega) hw hd hy h1
  obtain ⟨d2, s2, e1, e2, e3⟩ := C52_wide (by omega) hw hd2 hy2 h1'
  have hdd : d2 = d1 := e2.ext (c2.congr fun i j _ _ => by
    by_cases hj : j < m
    · simp only [hj, if_true]
      have := centred_add (x := x) (m := m) hn c i j
      exact this.symm
    · simp only [hj, if_false])
  have hss : s2 = s1 := e3.ext (c3.congr fun j k _ _ => by
    unfold scatter
    exact sum_congr rfl fun i _ => by rw [centred_add hn, centred_add hn])
  unfold pcaProject
  rw [bind_ok c1, bind_ok e1, hdd, hss]

/-- C138. Rearranging the rows rearranges the rows of the result in the same way and changes nothing else: either
both analyses give up for want of convergence, or row `i` of the one is row `σ i` of the other. -/
theorem C138_rows (ht : Test negl ε) (hε : 0 ≤ ε) (hn : 1 ≤ n) (hm : 1 ≤ m) (hw : m ≤ w) (hc : comps ≤ m)
    (σ : Equiv.Perm ℕ) (hσ : ∀ i, i < n ↔ σ i < n) (hd : Holds2 n w x data)
    (hd2 : Holds2 n w (fun i j => x (σ i) j) data2) (hs : Shape2 m m sym) (hs2 : Shape2 m m sym2)
    (h1 : mean.length = m) (h1' : mean2.length = m) (h2 : evals.length = m) (h3 : interm.length = m) :
    (pcaProject negl data n m comps sym mean evals interm = some none ∧
      pcaProject negl data2 n m comps sym2 mean2 evals interm = some none) ∨
    ∃ r r2, pcaProject negl data n m comps sym mean evals interm = some (some r) ∧
      pcaProject negl data2 n m comps sym2 mean2 evals interm = some (some r2) ∧ r.length = n ∧ r2.length = n ∧
      ∀ i, i < n → r2[i]? = r[σ i]? := by
  obtain ⟨y, hy⟩ := hs
  obtain ⟨y2, hy2⟩ := hs2
  obtain ⟨d1, s1, c1, c2, c3⟩ := C52_wide (by omega) hw hd hy h1
  obtain ⟨d2, s2, e1, e2, e3⟩ := C52_wide (by omega) hw hd2 hy2 h1'
  have hss : s2 = s1 := e3.ext (c3.congr fun j k _ _ => (scatter_rows σ hσ j k).symm)
  subst hss
  obtain ⟨s3, r, g1, g2, g3⟩ := C69_eigen (a := ∑ k ∈ range m, ∑ q ∈ range m, |scatter x n k q|) ht hε hm
    (fun j k _ _ => scatter_symm x n j k) (by
      intro k q hk hq
      refine (single_le_sum (f := fun q => |scatter x n k q|) (fun _ _ => abs_nonneg _) (mem_range.mpr hq)).trans ?_
      exact single_le_sum (f := fun k => ∑ q ∈ range m, |scatter x n k q|)
        (fun _ _ => sum_nonneg fun _ _ => abs_nonneg _) (mem_range.mpr hk)) c3 h2 h3
  unfold pcaProject
  rw [bind_ok c1, bind_ok e1]
  dsimp only
  rw [bind_ok g1, bind_ok g2, bind_ok g1, bind_ok g2]
  cases r with
  | none => exact Or.inl ⟨rfl, rfl⟩
  | some s =>
    right
    obtain ⟨S, Z, D, k1, k2, k3, _⟩ := g3 s rfl
    obtain ⟨p, p1, p2⟩ := project_ok hw hc c2 k1 k3
    obtain ⟨q, q1, q2⟩ := project_ok hw hc e2 k1 k3
    refine ⟨p, q, ?_, ?_, p2.1, q2.1, fun i hi => ?_⟩
    · show (do
        let data ← project n m comps s.a d1 s.e
        some (some data) : Option (Option (List (List ℝ)))) = _
      rw [bind_ok p1]
    · show (do
        let data ← project n m comps s.a d2 s.e
        some (some data) : Option (Option (List (List ℝ)))) = _
      rw [bind_ok q1]
    · obtain ⟨u, u1, u2⟩ := q2.row hi
      obtain ⟨v, v1, v2⟩ := p2.row ((hσ i).mp hi)
      rw [u1, v1]
      congr 1
      refine List.ext_getElem? fun j => ?_
      by_cases hj : j < w
      · rw [u2.2 j hj, v2.2 j hj]
        congr 1
        unfold component
        have e : ∀ j, (if j < m then centred (fun i j => x (σ i) j) n i j else x (σ i) j) =
            (if j < m then centred x n (σ i) j else x (σ i) j) := fun j => by rw [centred_rows σ hσ]
        simp only [e]
      · rw [List.getElem?_eq_none (by rw [u2.1]; omega), List.getElem?_eq_none (by rw [v2.1]; omega)]

/-- Three rows, the first two swapped, meet the hypotheses. -/
example : ∃ (x : ℕ → ℕ → ℝ) (σ : Equiv.Perm ℕ), (∀ i, i < 3 ↔ σ i < 3) ∧
    Holds2 3 2 x [[1, 2], [3, 4], [5, 9]] ∧ Holds2 3 2 (fun i j => x (σ i) j) [[3, 4], [1, 2], [5, 9]] := by
  refine ⟨fun i j => (([[1, 2], [3, 4], [5, 9]] : List (List ℝ)).getD i []).getD j 0, Equiv.swap 0 1, ?_, ?_, ?_⟩
  · intro i
    match i with
    | 0 => simp
    | 1 => simp
    | k + 2 => rw [Equiv.swap_apply_of_ne_of_ne (by omega) (by omega)]
  · refine ⟨rfl, fun i hi => ?_⟩
    interval_cases i <;> exact ⟨_, rfl, rfl, fun j hj => by interval_cases j <;> rfl⟩
  · refine ⟨rfl, fun i hi => ?_⟩
    have e2 : Equiv.swap 0 1 2 = 2 := Equiv.swap_apply_of_ne_of_ne (by omega) (by omega)
    interval_cases i
    · exact ⟨_, rfl, rfl, fun j hj => by interval_cases j <;> simp⟩
    · exact ⟨_, rfl, rfl, fun j hj => by interval_cases j <;> simp⟩
    · exact ⟨_, rfl, rfl, fun j hj => by interval_cases j <;> simp [e2]⟩

end QM.Pca
