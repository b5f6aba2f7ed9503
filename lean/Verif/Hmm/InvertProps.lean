import Verif.Hmm.InvertLemmas
import Verif.Hmm.EmProps
import Verif.Lapack.Props
import Mathlib.LinearAlgebra.Matrix.Block

/-!
# C80: the inversion of the covariance
-/

namespace QM.Hmm

open Finset

variable {L : Nat}

theorem columns_inArray {M : Matrix (Fin L) (Fin L) ℝ} {v : List ℝ} : Columns L M v ↔ Lapack.InArray M v := by
  unfold Columns Lapack.InArray
  simp only [Nat.add_comm]

/-- The fresh arrays of `invert` have the sizes it asks for. -/
structure Fresh (L : Nat) (a : List ℝ) (ipiv : List Nat) (work : List ℝ) : Prop where
  a : a.length = L * L
  ipiv : ipiv.length = L * L
  work : work.length = 64 * L

theorem le_square (L : Nat) : L ≤ L * L := by
  rcases Nat.eq_zero_or_pos L with h | h
  · simp [h]
  · exact Nat.le_mul_of_pos_left L h

theorem sign_abs {d : ℝ} : (if d < 0 then -d else d) = |d| := by
  split
  · next h => exact (abs_of_neg h).symm
  · next h => exact (abs_of_nonneg (not_lt.mp h)).symm

/-- **C80** `invert`, with the LAPACK of the repository, gives the inverse and the absolute value of the determinant of every nonsingular
matrix, whatever the caller's and the fresh arrays hold. -/
theorem C80_invert (sfmin : ℝ) {C : Nat → Nat → ℝ} {cov icov : List (List ℝ)} {a work : List ℝ} {ipiv : List Nat} (hL : 0 < L) (hc : Holds2 L L C cov)
    (hi : ∃ f, Holds2 L L f icov) (hf : Fresh L a ipiv work) (hn : (mat L C).det ≠ 0) :
    ∃ icov' D, invert sfmin L cov icov a ipiv work = some (icov', |(mat L C).det|) ∧ Holds2 L L D icov' ∧ mat L D = (mat L C)⁻¹ := by
  obtain ⟨a', h1, h2⟩ := toColumns_ok hc hf.a
  have hp : L ≤ ipiv.length := by rw [hf.ipiv]; exact le_square L
  have hw : Lapack.workSize Lapack.blockSize L = 64 * L := Nat.mul_comm _ _
  obtain ⟨s, F, P, σ, h3, h4, _, _, _, _, h5, _⟩ := Lapack.C81_factors Lapack.blockSize sfmin (columns_inArray.mp h2) hp
  obtain ⟨s', r, h6, h7, h8⟩ := Lapack.C81_inverse Lapack.blockSize Lapack.blockSize Lapack.blockSize sfmin (columns_inArray.mp h2)
    (lwork := Lapack.workSize Lapack.blockSize L) (work := work) hL hp (by omega) (by rw [hw, hf.work]) hn
  obtain rfl : s = s' := Option.some.inj (h3.symm.trans h6)
  obtain ⟨icov', D, h9, h10, h11⟩ := fromColumns_ok (columns_inArray.mpr h8) hi
  refine ⟨icov', D, ?_, h10, h11⟩
  unfold invert
  rw [bind_ok h1, bind_ok h3, bind_ok (diagProd_ok (columns_inArray.mpr h4)), bind_ok h7, bind_ok h9, sign_abs, h5]
  rfl

/-- **C80** So the inversion of the C code, with the LAPACK of the repository, meets the assumption of `C79_training` on it. -/
theorem C80_inverts (sfmin : ℝ) {icov : List (List ℝ)} {a work : List ℝ} {ipiv : List Nat} (hL : 0 < L) (hi : ∃ f, Holds2 L L f icov)
    (hf : Fresh L a ipiv work) : Inverts L (fun m => (invert sfmin L m icov a ipiv work).getD ([], 0)) := by
  intro m C hm hpd
  obtain ⟨icov', D, h1, h2, h3⟩ := C80_invert sfmin hL hm hi hf hpd.det_pos.ne'
  simp only [h1, Option.getD_some]
  exact ⟨⟨D, h2, h3⟩, abs_of_pos hpd.det_pos⟩

/-- **C80** `hmm_init` and `hmm_train` with the inversion of the repository, no assumption left on it: for every set of observations that do not
all agree in some direction the result is a sound model that makes them at least as likely as the start model. -/
theorem C80_training (sfmin : ℝ) {N T : Nat} {X : Nat → Nat → ℝ} {x : List (List ℝ)} {icov : List (List ℝ)} {ia work : List ℝ} {ipiv : List Nat}
    (hL : 0 < L) (hi : ∃ f, Holds2 L L f icov) (hf : Fresh L ia ipiv work) (hT : 2 ≤ T) (hN : 0 < N) (hx : Holds2 T L X x) (hX : Spread T L X)
    (rm : Nat → Nat → ℝ) (r0 : Nat → ℝ) (r : Nat → Nat → ℝ) (hr0 : ∀ i, 0 ≤ r0 i) (hr : ∀ i j, 0 ≤ r i j) {p0 gm : List ℝ} {a mu cov : List (List ℝ)}
    (hp : p0.length = N) (ha : ∃ f, Holds2 N N f a) (hmu : ∃ f, Holds2 N L f mu) (hc : ∃ f, Holds2 L L f cov) (hg : gm.length = L) {ws : Nat → Work}
    (hw : ∀ i, WorkSizes N T L (ws i)) (l l1 l2 : ℝ) :
    ∃ m P A Mu C m' P' A' Mu' C', hmmInit N T L x rm r0 r p0 a mu cov gm = some m ∧ Sound N L m P A Mu C ∧
      hmmTrain (fun m => (invert sfmin L m icov ia ipiv work).getD ([], 0)) N T L x ws l l1 l2 m = some m' ∧ Sound N L m' P' A' Mu' C' ∧
      dataLikelihood N T L X P A Mu C ≤ dataLikelihood N T L X P' A' Mu' C' :=
  C79_init_train (C80_inverts sfmin hL hi hf) hT hN hx hX rm r0 r hr0 hr hp ha hmu hc hg hw l l1 l2

/-- **C80 violated.** A singular matrix is never reported, although LAPACK reports it in `info`: for every singular matrix `invert` returns
as if nothing had happened, with determinant 0 and, in the place of the inverse, the triangular factors. -/
theorem C80_singular_violation (sfmin : ℝ) {C : Nat → Nat → ℝ} {cov icov : List (List ℝ)} {a work : List ℝ} {ipiv : List Nat} (hL : 0 < L)
    (hc : Holds2 L L C cov) (hi : ∃ f, Holds2 L L f icov) (hf : Fresh L a ipiv work) (hn : (mat L C).det = 0) :
    ∃ a' s icov' D, toColumns L cov a = some a' ∧ Lapack.dgetrf Lapack.blockSize sfmin L L L a' ipiv = some s ∧ 0 < s.info ∧
      invert sfmin L cov icov a ipiv work = some (icov', 0) ∧ Holds2 L L D icov' ∧
      ∃ σ : Equiv.Perm (Fin L), (mat L C).submatrix σ id = Lapack.unitLower (mat L D) * Lapack.upper (mat L D) := by
  obtain ⟨a', h1, h2⟩ := toColumns_ok hc hf.a
  have hp : L ≤ ipiv.length := by rw [hf.ipiv]; exact le_square L
  have hw : Lapack.workSize Lapack.blockSize L = 64 * L := Nat.mul_comm _ _
  obtain ⟨s, F, P, σ, h3, h4, h5, _, _, _, h6, _⟩ := Lapack.C81_factors Lapack.blockSize sfmin (columns_inArray.mp h2) hp
  obtain ⟨s', h7, h8, h9⟩ := Lapack.C81_singular Lapack.blockSize Lapack.blockSize Lapack.blockSize sfmin (columns_inArray.mp h2)
    (lwork := Lapack.workSize Lapack.blockSize L) (work := work) hp (by omega) (by rw [hw, hf.work]) hn
  obtain rfl : s = s' := Option.some.inj (h3.symm.trans h7)
  obtain ⟨icov', D, h10, h11, h12⟩ := fromColumns_ok (columns_inArray.mpr h4) hi
  refine ⟨a', s, icov', D, h1, h3, h8, ?_, h11, σ, by rw [h12]; exact h5⟩
  unfold invert
  rw [bind_ok h1, bind_ok h3, bind_ok (diagProd_ok (columns_inArray.mpr h4)), bind_ok h9, bind_ok h10, sign_abs, h6, hn, abs_zero]
  rfl

theorem holds2_one (v : ℝ) : Holds2 1 1 (fun _ _ => v) [[v]] :=
  ⟨rfl, fun i hi => ⟨[v], by obtain rfl : i = 0 := by omega
                             rfl, rfl, fun j hj => by obtain rfl : j = 0 := by omega
                                                      rfl⟩⟩

theorem holds_rep {n : Nat} (v : ℝ) : Holds n (fun _ => v) (List.replicate n v) := ⟨by simp, fun i hi => by simp [hi]⟩

theorem holds2_rep {n m : Nat} (v : ℝ) : Holds2 n m (fun _ _ => v) (List.replicate n (List.replicate m v)) :=
  ⟨by simp, fun i hi => ⟨List.replicate m v, by simp [hi], holds_rep v⟩⟩

/-- A covariance matrix and arrays with other contents. -/
example : ∃ icov' D, invert 0 1 [[4]] [[7]] [7] [7] (List.replicate 64 7) = some (icov', |(mat 1 fun _ _ => 4).det|) ∧ Holds2 1 1 D icov' ∧
    mat 1 D = (mat 1 fun _ _ => 4)⁻¹ :=
  C80_invert 0 (by norm_num) (holds2_one 4) ⟨_, holds2_one 7⟩ ⟨rfl, rfl, by simp⟩ (by simp [mat])

/-- A feature that never changes: the covariance is 0. -/
example : ∃ a' s icov' D, toColumns 1 [[0]] [7] = some a' ∧ Lapack.dgetrf Lapack.blockSize 0 1 1 1 a' [7] = some s ∧ 0 < s.info ∧
    invert 0 1 [[0]] [[7]] [7] [7] (List.replicate 64 7) = some (icov', 0) ∧ Holds2 1 1 D icov' ∧
    ∃ σ : Equiv.Perm (Fin 1), (mat 1 fun _ _ => 0).submatrix σ id = Lapack.unitLower (mat 1 D) * Lapack.upper (mat 1 D) :=
  C80_singular_violation 0 (by norm_num) (holds2_one 0) ⟨_, holds2_one 7⟩ ⟨rfl, rfl, by simp⟩ (by simp [mat])

/-- Three numbers, two states, a sound model, and work arrays full of old values: all assumptions of `C79_training` hold. -/
example : Inverts 1 (fun m => (invert 0 1 m [[7]] [7] [7] (List.replicate 64 7)).getD ([], 0)) ∧ (∃ x, Holds2 3 1 (fun t _ => (t : ℝ)) x) ∧
    Spread 3 1 (fun t _ => (t : ℝ)) ∧ (∃ w, WorkSizes 2 3 1 w) ∧
    ∃ m, Sound 2 1 m (fun _ => 1 / 2) (fun _ _ => 1 / 2) (fun _ _ => 0) (fun _ _ => 1) := by
  refine ⟨C80_inverts 0 (by norm_num) ⟨_, holds2_one 7⟩ ⟨rfl, rfl, by simp⟩, ⟨[[0], [1], [2]], rfl, fun i hi => ?_⟩, ?_,
    ⟨⟨List.replicate 3 (List.replicate 2 7), List.replicate 3 (List.replicate 2 (List.replicate 2 7)), List.replicate 3 (List.replicate 2 7), [7], [7],
      List.replicate 3 (List.replicate 2 7), List.replicate 3 (List.replicate 2 7), List.replicate 3 7, [7, 7], [7], [7, 7, 7], [7, 7, 7]⟩, ?_⟩,
    ⟨⟨List.replicate 2 (1 / 2), List.replicate 2 (List.replicate 2 (1 / 2)), List.replicate 2 (List.replicate 1 0), List.replicate 1 (List.replicate 1 1)⟩,
      holds_rep _, holds2_rep _, holds2_rep _, holds2_rep _, ?_, ?_, ?_, ?_, ?_⟩⟩
  · have : i = 0 ∨ i = 1 ∨ i = 2 := by omega
    rcases this with rfl | rfl | rfl
    · exact ⟨[0], rfl, rfl, fun j hj => by obtain rfl : j = 0 := by omega
                                           simp⟩
    · exact ⟨[1], rfl, rfl, fun j hj => by obtain rfl : j = 0 := by omega
                                           simp⟩
    · exact ⟨[2], rfl, rfl, fun j hj => by obtain rfl : j = 0 := by omega
                                           simp⟩
  · rintro v ⟨d, hd, hv⟩
    obtain rfl : d = 0 := by omega
    exact ⟨0, 1, by norm_num, by norm_num, by simpa using Ne.symm hv⟩
  · constructor
    all_goals first
      | exact ⟨_, holds2_rep _⟩
      | exact ⟨_, holds_rep _⟩
      | rfl
      | exact fun t ht => ⟨List.replicate 2 (List.replicate 2 7), _, by rw [List.getElem?_replicate, if_pos ht], holds2_rep _⟩
  · intro i _
    norm_num
  · intro i j _ _
    norm_num
  · norm_num
  · intro i _
    norm_num
  · have : mat 1 (fun _ _ => (1 : ℝ)) = 1 := by
      ext i j
      rw [Subsingleton.elim i j, Matrix.one_apply_eq]
      rfl
    rw [this]
    exact Matrix.PosDef.one

end QM.Hmm
