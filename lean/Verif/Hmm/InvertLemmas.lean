import Verif.Hmm.Invert
import Verif.Hmm.Em
import Verif.Common.Flat

/-!
# The copies of `invert`
-/

namespace QM.Hmm

open Finset

/-- `v` holds the matrix `M` in column-major order. -/
def Columns (L : Nat) (M : Matrix (Fin L) (Fin L) ℝ) (v : List ℝ) : Prop :=
  v.length = L * L ∧ ∀ i j : Fin L, v[j.1 * L + i.1]? = some (M i j)

variable {L : Nat}

theorem columns_index {L i j i' j' : Nat} (hi : i < L) (hi' : i' < L) : j * L + i = j' * L + i' ↔ i = i' ∧ j = j' := by
  constructor
  · intro h
    have h1 : (j * L + i) % L = (j' * L + i') % L := by rw [h]
    rw [Nat.mul_comm, Nat.mul_comm j', Nat.mul_add_mod, Nat.mul_add_mod, Nat.mod_eq_of_lt hi, Nat.mod_eq_of_lt hi'] at h1
    subst h1
    refine ⟨rfl, ?_⟩
    have : j * L = j' * L := by omega
    exact Nat.eq_of_mul_eq_mul_right (by omega) this
  · rintro ⟨rfl, rfl⟩
    rfl

theorem toColumns_ok {C : Nat → Nat → ℝ} {cov : List (List ℝ)} {a : List ℝ} (hc : Holds2 L L C cov) (ha : a.length = L * L) :
    ∃ a', toColumns L cov a = some a' ∧ Columns L (mat L C) a' := by
  unfold toColumns
  rw [loop_nest L L (fun j i (a : List ℝ) => do
    let v ← rd2 cov i j
    wr a (j * L + i) v)]
  obtain ⟨a', h1, h2⟩ := fill_part (L := L * L) (new := fun k => C (k % L) (k / L)) (holds_of_length ha 0) (f := fun k (a : List ℝ) => do
    let v ← rd2 cov (k % L) (k / L)
    wr a (k / L * L + k % L) v) (by
      intro k ys hk _
      have hL : 0 < L := by
        rcases Nat.eq_zero_or_pos L with h | h
        · subst h; omega
        · exact h
      rw [bind_ok (hc.rd (Nat.mod_lt _ hL) (Nat.div_lt_of_lt_mul hk)), Nat.mul_comm (k / L), Nat.div_add_mod])
  refine ⟨a', h1, h2.1, fun i j => ?_⟩
  have hlt : j.1 * L + i.1 < L * L := by
    have := Nat.mul_le_mul_right L (Nat.succ_le_of_lt j.2)
    have := i.2
    rw [Nat.succ_mul] at *
    omega
  have hL : 0 < L := by have := i.2; omega
  rw [h2.2 _ hlt]
  beta_reduce
  rw [Nat.mul_comm, Nat.mul_add_mod, Nat.mod_eq_of_lt i.2, Nat.mul_add_div hL, Nat.div_eq_of_lt i.2]
  rfl

theorem fromColumns_ok {M : Matrix (Fin L) (Fin L) ℝ} {a : List ℝ} {icov : List (List ℝ)} (hc : Columns L M a) (hi : ∃ f, Holds2 L L f icov) :
    ∃ icov' D, fromColumns L a icov = some icov' ∧ Holds2 L L D icov' ∧ mat L D = M := by
  obtain ⟨f, hi⟩ := hi
  let D : Nat → Nat → ℝ := fun i j => if h : i < L ∧ j < L then M ⟨i, h.1⟩ ⟨j, h.2⟩ else 0
  unfold fromColumns
  rw [loop_nest L L (fun j i (icov : List (List ℝ)) => do
    let v ← a[j * L + i]?
    wr2 icov i j v)]
  obtain ⟨c, h1, h2⟩ := loop_inv (n := L * L) (s := icov) (f := fun k (icov : List (List ℝ)) => do
      let v ← a[k / L * L + k % L]?
      wr2 icov (k % L) (k / L) v)
    (P := fun k c => Holds2 L L (fun i j => if j * L + i < k then D i j else f i j) c)
    (hi.congr fun i j _ _ => by simp)
    (by
      intro k c hk hP
      have hL : 0 < L := by
        rcases Nat.eq_zero_or_pos L with h | h
        · subst h; omega
        · exact h
      have hm := Nat.mod_lt k hL
      have hd : k / L < L := Nat.div_lt_of_lt_mul hk
      have hkk : k / L * L + k % L = k := by rw [Nat.mul_comm, Nat.div_add_mod]
      obtain ⟨c', e1, e2⟩ := hP.wr hm hd (D (k % L) (k / L))
      refine ⟨c', ?_, e2.congr fun i j hi hj => ?_⟩
      · have := hc.2 ⟨k % L, hm⟩ ⟨k / L, hd⟩
        simp only at this
        rw [bind_ok this, ← e1]
        simp only [D, hm, hd, and_self, dif_pos]
      · by_cases h : i = k % L ∧ j = k / L
        · rw [if_pos h, h.1, h.2, if_pos (by omega)]
        · rw [if_neg h]
          have : j * L + i ≠ k := fun h' => h ((columns_index hi hm).mp (h'.trans hkk.symm))
          by_cases c2 : j * L + i < k
          · rw [if_pos c2, if_pos (by omega)]
          · rw [if_neg c2, if_neg (by omega)])
  refine ⟨c, D, h1, h2.congr fun i j hi hj => ?_, ?_⟩
  · have : j * L + i < L * L := by
      have := Nat.mul_le_mul_right L (Nat.succ_le_of_lt hj)
      rw [Nat.succ_mul] at *
      omega
    rw [if_pos this]
  · ext i j
    simp [mat, D]

theorem diagProd_ok {F : Matrix (Fin L) (Fin L) ℝ} {a : List ℝ} (hc : Columns L F a) : diagProd L a = some (∏ i, F i i) := by
  let g : Nat → ℝ := fun i => if h : i < L then F ⟨i, h⟩ ⟨i, h⟩ else 1
  obtain ⟨d, h1, h2⟩ := loop_inv (n := L) (s := (1 : ℝ)) (f := fun i (det : ℝ) => do
      let v ← a[i * L + i]?
      pure (det * v)) (P := fun n d => d = ∏ i ∈ range n, g i) (by simp) (by
      rintro i d hi rfl
      refine ⟨_, by rw [bind_ok (hc.2 ⟨i, hi⟩ ⟨i, hi⟩)]; rfl, ?_⟩
      rw [prod_range_succ]
      simp only [g, hi, dif_pos])
  unfold diagProd
  rw [h1, h2, Finset.prod_range]
  congr 1
  exact prod_congr rfl fun i _ => by simp [g]

end QM.Hmm
