import Verif.Pca.EigenProps
import Verif.Pca.Props
import Verif.Common.Tri2
import Verif.PolyFit.Gauss

/-! # C70: projection on principal components -/

namespace QM.Pca

open Finset

variable {n m w comps : ℕ} {x X Z : ℕ → ℕ → ℝ} {data sym : List (List ℝ)} {mean evals interm : List ℝ} {negl : ℝ → ℝ → Bool} {ε a : ℝ}

/-- Component `k` of a row: its product with column `m - 1 - k`. -/
noncomputable def component (m : ℕ) (X Z : ℕ → ℕ → ℝ) (i k : ℕ) : ℝ := ∑ j ∈ range m, X i j * Z j (m - 1 - k)

theorem project_ok (hw : m ≤ w) (hc : comps ≤ m) (hd : Holds2 n w X data) (hz : Holds2 m m Z sym) (hi : interm.length = m) :
    ∃ data', project n m comps sym data interm = some data' ∧ Holds2 n w (fun i k => if k < comps then component m X Z i k else X i k) data' := by
  obtain ⟨⟨data', t⟩, h1, h2, _⟩ := loop_inv (n := n) (s := (data, interm)) (f := fun i (s : List (List ℝ) × List ℝ) => do
      let interm ← loop m (fun j (t : List ℝ) => do
        let v ← rd2 s.1 i j
        wr t j v) s.2
      let data ← loop comps (fun k (data : List (List ℝ)) => do
        let data ← wr2 data i k 0
        loop m (fun k2 (data : List (List ℝ)) => do
          let v ← rd2 data i k
          let x ← interm[k2]?
          let row ← sym[k2]?
          let y ← rdI row ((m : Int) - k - 1)
          wr2 data i k (v + x * y)) data) s.1
      pure (data, interm))
    (P := fun i s => Holds2 n w (fun r k => if r < i ∧ k < comps then component m X Z r k else X r k) s.1 ∧ s.2.length = m)
    ⟨hd.congr fun r k _ _ => by simp, hi⟩
    (by
      rintro i ⟨b, t⟩ hi ⟨hb, ht⟩
      dsimp only at hb ht ⊢
      obtain ⟨t', c1, c2⟩ := fill_part (L := m) (new := X i) (holds_of_length ht 0) (f := fun j (t : List ℝ) => do
          let v ← rd2 b i j
          wr t j v)
        (by
          intro j ys hj _
          have := hb.rd hi (show j < w by omega)
          simp only [lt_irrefl, false_and, if_false] at this
          rw [bind_ok this])
      obtain ⟨b', k1, k2⟩ := loop_inv (n := comps) (s := b) (f := fun k (data : List (List ℝ)) => do
          let data ← wr2 data i k 0
          loop m (fun k2 (data : List (List ℝ)) => do
            let v ← rd2 data i k
            let x ← t'[k2]?
            let row ← sym[k2]?
            let y ← rdI row ((m : Int) - k - 1)
            wr2 data i k (v + x * y)) data)
        (P := fun k b => Holds2 n w (fun r c => if r < i ∧ c < comps ∨ r = i ∧ c < k then component m X Z r c else X r c) b)
        (hb.congr fun r c _ _ => by simp)
        (by
          intro k b hk hb
          obtain ⟨b1, e1, e2⟩ := hb.wr hi (show k < w by omega) 0
          obtain ⟨b2, l1, l2⟩ := loop_inv (n := m) (s := b1) (f := fun k2 (data : List (List ℝ)) => do
              let v ← rd2 data i k
              let x ← t'[k2]?
              let row ← sym[k2]?
              let y ← rdI row ((m : Int) - k - 1)
              wr2 data i k (v + x * y))
            (P := fun p b => Holds2 n w (fun r c => if r = i ∧ c = k then ∑ j ∈ range p, X i j * Z j (m - 1 - k) else
              if r < i ∧ c < comps ∨ r = i ∧ c < k then component m X Z r c else X r c) b)
            (e2.congr fun r c _ _ => by simp)
            (by
              intro p b hp hb
              have r1 := hb.rd hi (show k < w by omega)
              simp only [and_self, if_true] at r1
              obtain ⟨row, r2, r3⟩ := hz.row hp
              have r4 : rdI row ((m : Int) - k - 1) = some (Z p (m - 1 - k)) := by
                rw [show (m : Int) - k - 1 = ((m - 1 - k : Nat) : Int) by omega, rdI_natCast]
                exact r3.2 _ (by omega)
              obtain ⟨b', w1, w2⟩ := hb.wr hi (show k < w by omega) ((∑ j ∈ range p, X i j * Z j (m - 1 - k)) + X i p * Z p (m - 1 - k))
              refine ⟨b', ?_, w2.congr fun r c _ _ => ?_⟩
              · rw [bind_ok r1, bind_ok (c2.2 p hp), bind_ok r2, bind_ok r4]
                exact w1
              · rw [sum_range_succ]
                by_cases h : r = i ∧ c = k
                · rw [if_pos h, if_pos h]
                · rw [if_neg h, if_neg h, if_neg h])
          refine ⟨b2, by rw [bind_ok e1]; exact l1, l2.congr fun r c _ _ => ?_⟩
          by_cases h1 : r = i
          · subst h1
            by_cases h2 : c = k
            · subst h2
              simp [component]
            · have : c < k + 1 ↔ c < k := by omega
              simp [h2, this]
          · simp [h1])
      refine ⟨(b', t'), ?_, k2.congr fun r c _ _ => ?_, c2.1⟩
      · rw [bind_ok c1, bind_ok k1]
        rfl
      · by_cases h1 : r = i
        · subst h1
          simp
        · have : r < i + 1 ↔ r < i := by omega
          simp [h1, this])
  refine ⟨data', ?_, h2.congr fun r k hr _ => by simp [hr]⟩
  unfold project
  rw [bind_ok h1]
  rfl

/-- **C70** `pca_project` on any data with at least one row and column, with at most as many components as columns, for any contents of the allocated memory: it does not leave
its arrays or divide by zero; unless the program exits for want of convergence, the first columns become the products of the centred rows with orthonormal vectors, which are
the eigenvectors of a symmetric matrix close to the scatter matrix, the remaining ones of the `m` columns are centred, and further columns stay as they are. -/
theorem C70_project_partial (ht : Test negl ε) (hε : 0 ≤ ε) (hn : 1 ≤ n) (hm : 1 ≤ m) (hw : m ≤ w) (hc : comps ≤ m) (hd : Holds2 n w x data) (hs : Shape2 m m sym)
    (h1 : mean.length = m) (h2 : evals.length = m) (h3 : interm.length = m) (ha : ∀ j k, j < m → k < m → |scatter x n j k| ≤ a) :
    ∃ r, pcaProject negl data n m comps sym mean evals interm = some r ∧ ∀ data', r = some data' →
      ∃ S Z D, Orthonormal m Z ∧ Symm m S ∧ Eigenvectors m S Z D ∧ Close m (a * ((1 + 4 * m * ε) ^ (31 * m) - 1)) (scatter x n) S ∧
        Holds2 n w (fun i k => if k < comps then component m (centred x n) Z i k else if k < m then centred x n i k else x i k) data' := by
  obtain ⟨y, hy⟩ := hs
  obtain ⟨d1, s1, c1, c2, c3⟩ := C52_wide (by omega) hw hd hy h1
  obtain ⟨s2, r, e1, e2, e3⟩ := C69_eigen ht hε hm (fun j k _ _ => scatter_symm x n j k) ha c3 h2 h3
  unfold pcaProject
  rw [bind_ok c1]
  dsimp only
  rw [bind_ok e1, bind_ok e2]
  cases r with
  | none => exact ⟨none, rfl, by rintro _ ⟨⟩⟩
  | some s =>
    obtain ⟨S, Z, D, g1, g2, g3, g4, g5, g6, g7⟩ := e3 s rfl
    obtain ⟨d2, p1, p2⟩ := project_ok hw hc c2 g1 g3
    refine ⟨some d2, ?_, ?_⟩
    · show (do
        let data ← project n m comps s.a d1 s.e
        some (some data) : Option (Option (List (List ℝ)))) = _
      rw [bind_ok p1]
    · rintro _ ⟨⟩
      refine ⟨S, Z, D, g4, g5, g6, g7, p2.congr fun i k _ _ => ?_⟩
      by_cases hk : k < comps
      · simp only [hk, if_true]
        unfold component
        exact sum_congr rfl fun j hj => by beta_reduce; rw [if_pos (mem_range.mp hj)]
      · simp [hk]

/-- Products with orthonormal vectors, as a quadratic form of the scatter matrix. -/
theorem scores_product {Z : ℕ → ℕ → ℝ} (k l : ℕ) :
    ∑ i ∈ range n, component m (centred x n) Z i k * component m (centred x n) Z i l =
      ∑ p ∈ range m, Z p (m - 1 - k) * ∑ q ∈ range m, scatter x n p q * Z q (m - 1 - l) := by
  unfold component scatter
  have : ∀ i ∈ range n, (∑ j ∈ range m, centred x n i j * Z j (m - 1 - k)) * (∑ j ∈ range m, centred x n i j * Z j (m - 1 - l)) =
      ∑ p ∈ range m, ∑ q ∈ range m, (centred x n i p * Z p (m - 1 - k)) * (centred x n i q * Z q (m - 1 - l)) := fun i _ => sum_mul_sum _ _ _ _
  rw [sum_congr rfl this, sum_comm]
  refine sum_congr rfl fun p _ => ?_
  rw [sum_comm, mul_sum]
  refine sum_congr rfl fun q _ => ?_
  rw [sum_mul, mul_sum]
  exact sum_congr rfl fun i _ => by ring

/-- **C70** The components of the projected data are uncorrelated and component `k` has the variance `D (m - 1 - k)`, up to `m` times the distance of the matrices. -/
theorem C70_uncorrelated {S Z : ℕ → ℕ → ℝ} {D : ℕ → ℝ} {δ : ℝ} (hz : Orthonormal m Z) (he : Eigenvectors m S Z D) (hS : Close m δ (scatter x n) S) {k l : ℕ}
    (hk : k < m) (hl : l < m) :
    |(∑ i ∈ range n, component m (centred x n) Z i k * component m (centred x n) Z i l) - (if k = l then D (m - 1 - k) else 0)| ≤ m * δ := by
  have hδ : 0 ≤ δ := (abs_nonneg _).trans (hS k k hk hk)
  rw [scores_product]
  have h1 : (if k = l then D (m - 1 - k) else 0) = ∑ p ∈ range m, Z p (m - 1 - k) * ∑ q ∈ range m, S p q * Z q (m - 1 - l) := by
    have : ∀ p ∈ range m, Z p (m - 1 - k) * ∑ q ∈ range m, S p q * Z q (m - 1 - l) = D (m - 1 - l) * (Z p (m - 1 - k) * Z p (m - 1 - l)) := by
      intro p hp
      rw [he p (m - 1 - l) (mem_range.mp hp) (by omega)]
      ring
    rw [sum_congr rfl this, ← mul_sum, hz _ _ (by omega) (by omega)]
    by_cases e : k = l
    · simp [e]
    · rw [if_neg e, if_neg (by omega), mul_zero]
  rw [h1, ← sum_sub_distrib]
  have h2 : ∀ p ∈ range m, Z p (m - 1 - k) * ∑ q ∈ range m, scatter x n p q * Z q (m - 1 - l) - Z p (m - 1 - k) * ∑ q ∈ range m, S p q * Z q (m - 1 - l) =
      Z p (m - 1 - k) * ∑ q ∈ range m, (scatter x n p q - S p q) * Z q (m - 1 - l) := by
    intro p _
    rw [← mul_sub, ← sum_sub_distrib]
    congr 1
    exact sum_congr rfl fun q _ => by ring
  rw [sum_congr rfl h2]
  have h3 : |∑ p ∈ range m, Z p (m - 1 - k) * ∑ q ∈ range m, (scatter x n p q - S p q) * Z q (m - 1 - l)| ≤
      (∑ p ∈ range m, |Z p (m - 1 - k)|) * (δ * ∑ q ∈ range m, |Z q (m - 1 - l)|) := by
    rw [sum_mul]
    refine (abs_sum_le_sum_abs _ _).trans (sum_le_sum fun p hp => ?_)
    rw [abs_mul]
    refine mul_le_mul_of_nonneg_left ?_ (abs_nonneg _)
    refine (abs_sum_le_sum_abs _ _).trans ?_
    rw [mul_sum]
    refine sum_le_sum fun q hq => ?_
    rw [abs_mul]
    exact mul_le_mul_of_nonneg_right (hS p q (mem_range.mp hp) (mem_range.mp hq)) (abs_nonneg _)
  have h4 : ∀ j, j < m → (∑ p ∈ range m, |Z p j|) ^ 2 ≤ m := by
    intro j hj
    have := sq_sum_le_card_mul_sum_sq (s := range m) (f := fun k => |Z k j|)
    rw [card_range] at this
    have h3 : ∑ k ∈ range m, |Z k j| ^ 2 = 1 := by
      have := hz j j hj hj
      rw [if_pos rfl] at this
      rw [← this]
      exact sum_congr rfl fun k _ => by rw [sq_abs, sq]
    rwa [h3, mul_one] at this
  have h5 : (∑ p ∈ range m, |Z p (m - 1 - k)|) * (∑ q ∈ range m, |Z q (m - 1 - l)|) ≤ m := by
    have e1 := h4 (m - 1 - k) (by omega)
    have e2 := h4 (m - 1 - l) (by omega)
    have e3 := two_mul_le_add_sq (∑ p ∈ range m, |Z p (m - 1 - k)|) (∑ q ∈ range m, |Z q (m - 1 - l)|)
    linarith
  refine h3.trans ?_
  calc (∑ p ∈ range m, |Z p (m - 1 - k)|) * (δ * ∑ q ∈ range m, |Z q (m - 1 - l)|)
      = δ * ((∑ p ∈ range m, |Z p (m - 1 - k)|) * ∑ q ∈ range m, |Z q (m - 1 - l)|) := by ring
    _ ≤ δ * m := mul_le_mul_of_nonneg_left h5 hδ
    _ = m * δ := mul_comm _ _

/-- **C70** The projected columns are centred. -/
theorem C70_centred (hn : 1 ≤ n) (Z : ℕ → ℕ → ℝ) (k : ℕ) : ∑ i ∈ range n, component m (centred x n) Z i k = 0 := by
  unfold component
  rw [sum_comm]
  refine sum_eq_zero fun j _ => ?_
  rw [← sum_mul, C52_centred (by omega), zero_mul]

/-- **C70** With all components the distances between rows are kept: nothing is lost. -/
theorem C70_isometry (hz : Orthonormal m Z) (i i' : ℕ) :
    ∑ k ∈ range m, (component m X Z i k - component m X Z i' k) ^ 2 = ∑ j ∈ range m, (X i j - X i' j) ^ 2 := by
  set v : ℕ → ℝ := fun j => X i j - X i' j with hv
  have h1 : ∀ k ∈ range m, (component m X Z i k - component m X Z i' k) ^ 2 = (fun t => (∑ j ∈ range m, v j * Z j t) ^ 2) (m - 1 - k) := by
    intro k _
    dsimp only
    unfold component
    rw [← sum_sub_distrib]
    congr 1
    exact sum_congr rfl fun j _ => by rw [hv]; ring
  rw [sum_congr rfl h1, sum_range_reflect (fun t => (∑ j ∈ range m, v j * Z j t) ^ 2) m]
  have h2 : ∀ t ∈ range m, (∑ j ∈ range m, v j * Z j t) ^ 2 = ∑ p ∈ range m, ∑ q ∈ range m, v p * v q * (Z p t * Z q t) := by
    intro t _
    rw [sq, sum_mul_sum]
    exact sum_congr rfl fun p _ => sum_congr rfl fun q _ => by ring
  rw [sum_congr rfl h2, sum_comm]
  refine sum_congr rfl fun p hp => ?_
  rw [sum_comm]
  have h3 : ∀ q ∈ range m, ∑ t ∈ range m, v p * v q * (Z p t * Z q t) = v p * v q * if p = q then 1 else 0 := by
    intro q hq
    rw [← mul_sum, hz.rows (mem_range.mp hp) (mem_range.mp hq)]
  rw [sum_congr rfl h3, Finset.sum_eq_single p]
  · simp [sq, hv]
  · intro q _ hq
    simp [Ne.symm hq]
  · intro h
    exact absurd hp h

/-- **C70** Data whose columns are already uncorrelated: the components are the columns, from the last to the first. -/
theorem C70_reversed (hz : ∀ x, 0 ≤ x → negl 0 x = true) (hn : 1 ≤ n) (hm : 1 ≤ m) (hw : m ≤ w) (hc : comps ≤ m) (hd : Holds2 n w x data) (hs : Shape2 m m sym)
    (h1 : mean.length = m) (h2 : evals.length = m) (h3 : interm.length = m) (hu : ∀ j k, j < m → k < m → j ≠ k → scatter x n j k = 0) :
    ∃ data', pcaProject negl data n m comps sym mean evals interm = some (some data') ∧
      Holds2 n w (fun i k => if k < comps then centred x n i (m - 1 - k) else if k < m then centred x n i k else x i k) data' := by
  obtain ⟨y, hy⟩ := hs
  obtain ⟨d1, s1, c1, c2, c3⟩ := C52_wide (by omega) hw hd hy h1
  obtain ⟨s2, s, e1, e2, e3, _, e4⟩ := C69_diagonal hz hm hu c3 h2 h3
  obtain ⟨d2, p1, p2⟩ := project_ok hw hc c2 e3 e4
  refine ⟨d2, ?_, p2.congr fun i k _ _ => ?_⟩
  · unfold pcaProject
    rw [bind_ok c1]
    dsimp only
    rw [bind_ok e1, bind_ok e2]
    show (do
      let data ← project n m comps s.a d1 s.e
      some (some data) : Option (Option (List (List ℝ)))) = _
    rw [bind_ok p1]
  · by_cases hk : k < comps
    · simp only [hk, if_true]
      unfold component
      rw [Finset.sum_eq_single (m - 1 - k)]
      · simp [show m - 1 - k < m by omega]
      · intro j _ hj
        simp [hj]
      · intro h
        exact absurd (mem_range.mpr (by omega)) h
    · simp [hk]

/-- **C70** More components than columns: the eigenvectors are read before their first column (or the program exits for want of convergence). -/
theorem C70_too_many (ht : Test negl ε) (hε : 0 ≤ ε) (hn : 1 ≤ n) (hm : 1 ≤ m) (hw : m ≤ w) (hc : m < comps) (hd : Holds2 n w x data) (hs : Shape2 m m sym)
    (h1 : mean.length = m) (h2 : evals.length = m) (h3 : interm.length = m) :
    ∀ r, pcaProject negl data n m comps sym mean evals interm = some r → r = none := by
  obtain ⟨y, hy⟩ := hs
  obtain ⟨d1, s1, c1, c2, c3⟩ := C52_wide (by omega) hw hd hy h1
  obtain ⟨s2, r, e1, e2, e3⟩ := C69_eigen (a := ∑ k ∈ range m, ∑ q ∈ range m, |scatter x n k q|) ht hε hm (fun j k _ _ => scatter_symm x n j k) (by
    intro k q hk hq
    refine (single_le_sum (f := fun q => |scatter x n k q|) (fun _ _ => abs_nonneg _) (mem_range.mpr hq)).trans ?_
    exact single_le_sum (f := fun k => ∑ q ∈ range m, |scatter x n k q|) (fun _ _ => sum_nonneg fun _ _ => abs_nonneg _) (mem_range.mpr hk)) c3 h2 h3
  unfold pcaProject
  rw [bind_ok c1]
  dsimp only
  rw [bind_ok e1, bind_ok e2]
  cases r with
  | none => rintro r ⟨⟩; rfl
  | some s =>
    obtain ⟨S, Z, D, g1, g2, g3, _, _, _, _⟩ := e3 s rfl
    have : project n m comps s.a d1 s.e = none := by
      unfold project
      rw [show loop n _ (d1, s.e) = none from loop_none_of_le (m := 1) hn ?_]
      · rfl
      · rw [loop, loop, Option.bind_some]
        beta_reduce
        apply Tri.none_of
        refine Tri.bind (P := fun _ => True) ?_ (fun t _ => ?_)
        · cases loop m (fun j (t : List ℝ) => do
            let v ← rd2 d1 0 j
            wr t j v) s.e
          · exact id
          · trivial
        · rw [show loop comps _ d1 = none from ?_]
          · exact id
          · refine PolyFit.loop_none_at _ m _ _ hc (fun b => ?_)
            cases wr2 b 0 m 0 with
            | none => rfl
            | some b =>
              refine PolyFit.loop_none_at _ 0 _ _ hm (fun b => ?_)
              obtain ⟨row, r2, r3⟩ := g1.row (show 0 < m by omega)
              cases rd2 b 0 m with
              | none => rfl
              | some v =>
                cases t[0]? with
                | none => rfl
                | some v =>
                  rw [Option.bind_eq_bind, Option.bind_some, Option.bind_eq_bind, Option.bind_some, r2, Option.bind_some]
                  have : rdI row ((m : Int) - (m : Int) - 1) = none := by
                    unfold rdI
                    rw [if_pos (show (m : Int) - (m : Int) - 1 < 0 by omega)]
                  rw [this]
                  rfl
    intro r hr
    have h4 : projectWith n m comps d1 (some s) = none := by
      show (do
        let data ← project n m comps s.a d1 s.e
        some (some data) : Option (Option (List (List ℝ)))) = _
      rw [this]
      rfl
    rw [h4] at hr
    cases hr

/-! ## Examples -/

/-- Four points on the axes. -/
def cross : ℕ → ℕ → ℝ := fun i j => (([[2, 0], [-2, 0], [0, 1], [0, -1]] : List (List ℝ)).getD i []).getD j 0

theorem cross_holds : Holds2 4 2 cross [[2, 0], [-2, 0], [0, 1], [0, -1]] := by
  refine ⟨rfl, fun i hi => ?_⟩
  have h : i = 0 ∨ i = 1 ∨ i = 2 ∨ i = 3 := by omega
  rcases h with rfl | rfl | rfl | rfl <;> refine ⟨_, rfl, rfl, fun j hj => ?_⟩ <;> (have h : j = 0 ∨ j = 1 := by omega) <;> rcases h with rfl | rfl <;> rfl

theorem cross_mean (j : ℕ) (hj : j < 2) : colMean cross 4 j = 0 := by
  have h : j = 0 ∨ j = 1 := by omega
  rcases h with rfl | rfl <;> simp [colMean, cross, sum_range_succ]

/-- **C70** The eigenvalues are not sorted, so the projection on one component need not keep the direction of greatest variance: of four points on the axes it keeps the
coordinate with variance 2 and drops the one with variance 8. -/
theorem C70_variance_violation (hz : ∀ x, 0 ≤ x → negl 0 x = true) (hs : Shape2 2 2 sym) (h1 : mean.length = 2) (h2 : evals.length = 2) (h3 : interm.length = 2) :
    ∃ data' Y, pcaProject negl [[2, 0], [-2, 0], [0, 1], [0, -1]] 4 2 1 sym mean evals interm = some (some data') ∧ Holds2 4 2 Y data' ∧
      ∑ i ∈ range 4, Y i 0 ^ 2 = 2 ∧ ∑ i ∈ range 4, (centred cross 4 i 0) ^ 2 = 8 := by
  have hc : ∀ i j, j < 2 → centred cross 4 i j = cross i j := by
    intro i j hj
    rw [centred, cross_mean j hj, sub_zero]
  obtain ⟨data', h4, h5⟩ := C70_reversed (comps := 1) hz (by omega) (by omega) le_rfl (by omega) cross_holds hs h1 h2 h3 (by
    intro j k hj hk hjk
    unfold scatter
    rw [sum_congr rfl fun i _ => by rw [hc i j hj, hc i k hk]]
    have : (j = 0 ∧ k = 1) ∨ (j = 1 ∧ k = 0) := by omega
    rcases this with ⟨rfl, rfl⟩ | ⟨rfl, rfl⟩ <;> simp [cross, sum_range_succ])
  refine ⟨data', _, h4, h5, ?_, ?_⟩
  · simp only [show (0 : ℕ) < 1 by omega, if_true]
    rw [sum_congr rfl fun i _ => by rw [hc i (2 - 1 - 0) (by omega)]]
    simp [cross, sum_range_succ]
    norm_num
  · rw [sum_congr rfl fun i _ => by rw [hc i 0 (by omega)]]
    simp [cross, sum_range_succ]
    norm_num

/-- The hypotheses of `C70_project_partial` are met with two columns and any data; there it does not exit. -/
example (hn : 1 ≤ n) (hd : Holds2 n 3 x data) :
    ∃ data', pcaProject exactTest data n 2 2 [[1, 2], [3, 4]] [5, 6] [7, 8] [9, 10] = some (some data') := by
  have hs : Shape2 2 2 ([[1, 2], [3, 4]] : List (List ℝ)) := ⟨_, holds2_of rfl (by simp) 0⟩
  obtain ⟨y, hy⟩ := hs
  obtain ⟨d1, s1, c1, c2, c3⟩ := C52_wide (mean := [5, 6]) (by omega) (show 2 ≤ 3 by omega) hd hy rfl
  obtain ⟨s2, s, e1, e2⟩ := C69_two (d := [7, 8]) (e := [9, 10]) exactTest_test.zero (fun j k _ _ => scatter_symm x n j k) c3 rfl rfl
  obtain ⟨s2', r, g1, g2, g3⟩ := C69_eigen_exact (d := [7, 8]) (e := [9, 10]) exactTest_test (by omega) (fun j k _ _ => scatter_symm x n j k) c3 rfl rfl
  rw [e1] at g1
  cases g1
  rw [e2] at g2
  cases g2
  obtain ⟨Z, D, k1, _, k2, _⟩ := g3 s rfl
  obtain ⟨d2, p1, p2⟩ := project_ok (show 2 ≤ 3 by omega) le_rfl c2 k1 k2
  refine ⟨d2, ?_⟩
  unfold pcaProject
  rw [bind_ok c1]
  dsimp only
  rw [bind_ok e1, bind_ok e2]
  show (do
    let data ← project n 2 2 s.a d1 s.e
    some (some data) : Option (Option (List (List ℝ)))) = _
  rw [bind_ok p1]

end QM.Pca
