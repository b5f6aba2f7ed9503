import Verif.Hmm.Underflow
import Verif.Hmm.Train

/-! # C103: lemmas -/

namespace QM.Hmm.Under

open Ext

variable {N T L : Nat} {p0 : Nat → Ext} {a b : Nat → Nat → Ext}

/-! ## NaN -/

theorem rawRow_zero {t : Nat} {i : Nat} (h : b t i = fin 0) : rawRow N p0 a b t i = fin 0 ∨ rawRow N p0 a b t i = nan := by
  cases t with
  | zero => show p0 i * b 0 i = _ ∨ p0 i * b 0 i = _; rw [h]; exact mul_fin_zero _
  | succ t => show _ * b (t + 1) i = _ ∨ _ * b (t + 1) i = _; rw [h]; exact mul_fin_zero _

theorem c_zero {t : Nat} (h : ∀ i, i < N → b t i = fin 0) :
    (c N p0 a b t = pinf ∧ ∀ i, i < N → rawRow N p0 a b t i = fin 0) ∨ c N p0 a b t = nan := by
  by_cases hn : ∃ i, i < N ∧ rawRow N p0 a b t i = nan
  · obtain ⟨i, hi, hx⟩ := hn
    right
    unfold c
    rw [total_nan hi hx, div_nan]
  · left
    push Not at hn
    have hz : ∀ i, i < N → rawRow N p0 a b t i = fin 0 := fun i hi => (rawRow_zero (h i hi)).resolve_right (hn i hi)
    refine ⟨?_, hz⟩
    unfold c
    rw [total_fin hz, Finset.sum_const_zero, one_div_zero]

theorem alpha_zero {t : Nat} (h : ∀ i, i < N → b t i = fin 0) {i : Nat} (hi : i < N) : alpha N p0 a b t i = nan := by
  unfold alpha
  rcases c_zero (p0 := p0) (a := a) h with ⟨h1, h2⟩ | h1
  · rw [h1, h2 i hi, zero_mul_pinf]
  · rw [h1, mul_nan]

theorem c_nan {t : Nat} (hN : 0 < N) (h : ∀ i, i < N → alpha N p0 a b t i = nan) : c N p0 a b (t + 1) = nan := by
  have : ∀ j, rawRow N p0 a b (t + 1) j = nan := by
    intro j
    show Ext.total N (fun i => alpha N p0 a b t i * a i j) * b (t + 1) j = nan
    rw [total_nan (i := 0) hN (by rw [h 0 hN, nan_mul]), nan_mul]
  unfold c
  rw [total_nan hN (this 0), div_nan]

theorem loglik_nan {t s : Nat} (h : loglik N p0 a b t = nan) (hs : t ≤ s) : loglik N p0 a b s = nan := by
  induction s, hs using Nat.le_induction with
  | base => exact h
  | succ s _ ih => show loglik N p0 a b s - _ = nan; rw [ih, nan_sub]

theorem loglik_of_c {t s : Nat} (h : c N p0 a b t = nan) (hs : t ≤ s) : loglik N p0 a b s = nan := by
  refine loglik_nan (t := t) ?_ hs
  cases t with
  | zero => show -log (c N p0 a b 0) = nan; rw [h]; rfl
  | succ t => show _ - log (c N p0 a b (t + 1)) = nan; rw [h, log_nan, sub_nan]

theorem zero_mul_c (hx : ∀ i, i < N → b (T - 1) i = fin 0) (y : Ext) : y * fin 0 * back N T p0 a b 0 0 = nan := by
  show y * fin 0 * (1 * c N p0 a b (T - 1)) = nan
  rcases c_zero (p0 := p0) (a := a) hx with ⟨h1, _⟩ | h1
  · have h2 : (1 : Ext) * pinf = pinf := by
      show infOf 1 = pinf
      unfold infOf
      rw [if_pos one_pos]
    rw [h1, h2]
    rcases mul_fin_zero y with h | h <;> rw [h]
    · exact zero_mul_pinf
    · rfl
  · rw [h1, mul_nan, mul_nan]

theorem back_nan (hN : 0 < N) (hx : ∀ i, i < N → b (T - 1) i = fin 0) : ∀ k i, back N T p0 a b (k + 1) i = nan
  | 0, i => by
    show Ext.total N (fun j => a i j * b (T - 1 - 0) j * back N T p0 a b 0 0) * _ = nan
    rw [total_nan hN (by rw [Nat.sub_zero, hx 0 hN, zero_mul_c hx]), nan_mul]
  | k + 1, i => by
    show Ext.total N (fun j => a i j * b (T - 1 - (k + 1)) j * back N T p0 a b (k + 1) j) * _ = nan
    rw [total_nan hN (by rw [back_nan hN hx k 0, mul_nan]), nan_mul]

theorem gamma_nan (hN : 0 < N) (hx : ∀ i, i < N → b (T - 1) i = fin 0) {t i : Nat} (ht : t < T) (hi : i < N) : gamma N T p0 a b t i = nan := by
  unfold gamma beta
  rcases Nat.lt_or_ge (t + 1) T with h | h
  · rw [show T - 1 - t = (T - 2 - t) + 1 by omega, back_nan hN hx, mul_nan, nan_div]
  · obtain rfl : t = T - 1 := by omega
    rw [alpha_zero hx hi, nan_mul, nan_div]

theorem xi_nan (hN : 0 < N) (hx : ∀ i, i < N → b (T - 1) i = fin 0) {t i j : Nat} (ht : t + 1 < T) (hj : j < N) : xi N T p0 a b t i j = nan := by
  unfold xi joint beta
  rcases Nat.lt_or_ge (t + 2) T with h | h
  · rw [show T - 1 - (t + 1) = (T - 3 - t) + 1 by omega, back_nan hN hx, mul_nan, nan_div]
  · have e : t + 1 = T - 1 := by omega
    rw [e, hx j hj, Nat.sub_self]
    have := zero_mul_c (N := N) (T := T) (p0 := p0) (a := a) hx (alpha N p0 a b t i * a i j)
    rw [show back N T p0 a b 0 j = back N T p0 a b 0 0 from rfl, this, nan_div]

/-! ## Finite values -/

variable {P : Nat → ℝ} {A B : Nat → Nat → ℝ}

theorem c_of_raw {t : Nat} {v : Nat → ℝ} (h : ∀ i, i < N → rawRow N p0 a b t i = fin (v i)) (hs : ∑ i ∈ Finset.range N, v i ≠ 0) :
    c N p0 a b t = fin (1 / ∑ i ∈ Finset.range N, v i) := by
  unfold c
  rw [total_fin h, one_def, fin_div hs]

theorem forward_fin (hp : ∀ i, i < N → p0 i = fin (P i)) (ha : ∀ i j, i < N → j < N → a i j = fin (A i j)) {m : Nat}
    (hb : ∀ t i, t ≤ m → i < N → b t i = fin (B t i)) (hS : ∀ t, t < m → 0 < S N P A B t) :
    ∀ t, t ≤ m → ∀ i, i < N → rawRow N p0 a b t i = fin (F N P A B t i / Sp N P A B t)
  | 0, ht, i, hi => by
    show p0 i * b 0 i = _
    rw [hp i hi, hb 0 i ht hi, fin_mul]
    show fin (P i * B 0 i) = fin (P i * B 0 i / 1)
    rw [div_one]
  | t + 1, ht, j, hj => by
    have ih := forward_fin hp ha hb hS t (by omega)
    have hs := hS t (by omega)
    have hsp : 0 < Sp N P A B t := by
      cases t with
      | zero => exact one_pos
      | succ t => exact hS t (by omega)
    have hc : c N p0 a b t = fin (Sp N P A B t / S N P A B t) := by
      have : ∑ i ∈ Finset.range N, F N P A B t i / Sp N P A B t = S N P A B t / Sp N P A B t := by rw [← Finset.sum_div]; rfl
      rw [c_of_raw ih (by rw [this]; exact (div_pos hs hsp).ne'), this, one_div_div]
    show Ext.total N (fun i => rawRow N p0 a b t i * c N p0 a b t * a i j) * b (t + 1) j = _
    have : ∀ i, i < N → rawRow N p0 a b t i * c N p0 a b t * a i j = fin (F N P A B t i * A i j / S N P A B t) := by
      intro i hi
      rw [ih i hi, hc, ha i j hi hj, fin_mul, fin_mul]
      congr 1
      field_simp
    rw [total_fin this, hb (t + 1) j ht hj, fin_mul]
    congr 1
    show _ = (∑ i ∈ Finset.range N, F N P A B t i * (A i j * B (t + 1) j)) / S N P A B t
    rw [← Finset.sum_div, div_mul_eq_mul_div, Finset.sum_mul]
    congr 1
    exact Finset.sum_congr rfl (fun i _ => by ring)

theorem Sp_pos {m : Nat} (hS : ∀ t, t < m → 0 < S N P A B t) : ∀ t, t ≤ m → 0 < Sp N P A B t
  | 0, _ => one_pos
  | t + 1, h => hS t (by omega)

theorem c_fin (hp : ∀ i, i < N → p0 i = fin (P i)) (ha : ∀ i j, i < N → j < N → a i j = fin (A i j)) {m : Nat}
    (hb : ∀ t i, t ≤ m → i < N → b t i = fin (B t i)) (hS : ∀ t, t ≤ m → 0 < S N P A B t) {t : Nat} (ht : t ≤ m) :
    c N p0 a b t = fin (Sp N P A B t / S N P A B t) := by
  have hsp := Sp_pos (fun t ht => hS t (Nat.le_of_lt ht)) t ht
  have : ∑ i ∈ Finset.range N, F N P A B t i / Sp N P A B t = S N P A B t / Sp N P A B t := by rw [← Finset.sum_div]; rfl
  rw [c_of_raw (forward_fin hp ha hb (fun t ht => hS t (Nat.le_of_lt ht)) t ht) (by rw [this]; exact (div_pos (hS t ht) hsp).ne'), this, one_div_div]

theorem alpha_fin (hp : ∀ i, i < N → p0 i = fin (P i)) (ha : ∀ i j, i < N → j < N → a i j = fin (A i j)) {m : Nat}
    (hb : ∀ t i, t ≤ m → i < N → b t i = fin (B t i)) (hS : ∀ t, t ≤ m → 0 < S N P A B t) {t i : Nat} (ht : t ≤ m) (hi : i < N) :
    alpha N p0 a b t i = fin (F N P A B t i / S N P A B t) := by
  have hsp := Sp_pos (fun t ht => hS t (Nat.le_of_lt ht)) t ht
  unfold alpha
  rw [c_fin hp ha hb hS ht, forward_fin hp ha hb (fun t ht => hS t (Nat.le_of_lt ht)) t ht i hi, fin_mul]
  congr 1
  field_simp

theorem loglik_fin (hp : ∀ i, i < N → p0 i = fin (P i)) (ha : ∀ i j, i < N → j < N → a i j = fin (A i j)) {m : Nat}
    (hb : ∀ t i, t ≤ m → i < N → b t i = fin (B t i)) (hS : ∀ t, t ≤ m → 0 < S N P A B t) :
    ∀ t, t ≤ m → loglik N p0 a b t = fin (Real.log (S N P A B t))
  | 0, ht => by
    show -log (c N p0 a b 0) = _
    have h0 := hS 0 ht
    have e : Sp N P A B 0 = 1 := rfl
    rw [c_fin hp ha hb hS ht, e, log_fin (div_pos one_pos h0), neg_fin, one_div, Real.log_inv, neg_neg]
  | t + 1, ht => by
    show loglik N p0 a b t - log (c N p0 a b (t + 1)) = _
    have h0 := hS t (by omega)
    have h1 := hS (t + 1) ht
    have e : Sp N P A B (t + 1) = S N P A B t := rfl
    rw [loglik_fin hp ha hb hS t (by omega), c_fin hp ha hb hS ht, e, log_fin (div_pos h0 h1), fin_sub, Real.log_div h0.ne' h1.ne']
    congr 1
    ring

theorem back_fin (hp : ∀ i, i < N → p0 i = fin (P i)) (ha : ∀ i j, i < N → j < N → a i j = fin (A i j)) (hT : 0 < T)
    (hb : ∀ t i, t ≤ T - 1 → i < N → b t i = fin (B t i)) (hS : ∀ t, t ≤ T - 1 → 0 < S N P A B t) :
    ∀ k, k < T → ∀ i, i < N → back N T p0 a b k i = fin (bwd N (W A B) k (T - 1 - k) i * (Sp N P A B (T - 1 - k) / S N P A B (T - 1)))
  | 0, _, i, hi => by
    show 1 * c N p0 a b (T - 1) = _
    rw [c_fin hp ha hb hS le_rfl, one_def, fin_mul]
    rfl
  | k + 1, hk, i, hi => by
    show Ext.total N (fun j => a i j * b (T - 1 - k) j * back N T p0 a b k j) * c N p0 a b (T - 1 - (k + 1)) = _
    have e : T - 1 - k = T - 1 - (k + 1) + 1 := by omega
    have hs := hS (T - 1 - (k + 1)) (by omega)
    have hsl := hS (T - 1) le_rfl
    have : ∀ j, j < N → a i j * b (T - 1 - k) j * back N T p0 a b k j =
        fin (W A B (T - 1 - (k + 1)) i j * bwd N (W A B) k (T - 1 - (k + 1) + 1) j * (S N P A B (T - 1 - (k + 1)) / S N P A B (T - 1))) := by
      intro j hj
      rw [ha i j hi hj, hb _ j (by omega) hj, back_fin hp ha hT hb hS k (by omega) j hj, fin_mul, fin_mul, e]
      congr 1
      unfold W
      show _ * (_ * (S N P A B (T - 1 - (k + 1)) / _)) = _
      ring
    rw [total_fin this, c_fin hp ha hb hS (by omega), fin_mul]
    congr 1
    rw [bwd, ← Finset.sum_mul]
    field_simp

theorem sum_square (N : Nat) (f : Nat → Nat → ℝ) : ∀ n, ∑ k ∈ Finset.range (n * N), f (k / N) (k % N) = ∑ i ∈ Finset.range n, ∑ j ∈ Finset.range N, f i j
  | 0 => by simp
  | n + 1 => by
    rw [Nat.succ_mul, Finset.sum_range_add, sum_square N f n, Finset.sum_range_succ]
    congr 1
    refine Finset.sum_congr rfl (fun j hj => ?_)
    rw [Finset.mem_range] at hj
    rw [Nat.mul_comm n N, Nat.mul_add_div (by omega), Nat.div_eq_of_lt hj, Nat.mul_add_mod, Nat.mod_eq_of_lt hj, Nat.add_zero]

section
variable (hp : ∀ i, i < N → p0 i = fin (P i)) (ha : ∀ i j, i < N → j < N → a i j = fin (A i j)) (hT : 0 < T)
  (hb : ∀ t i, t ≤ T - 1 → i < N → b t i = fin (B t i)) (hS : ∀ t, t ≤ T - 1 → 0 < S N P A B t)
include hp ha hT hb hS

theorem beta_fin {t i : Nat} (ht : t < T) (hi : i < N) : beta N T p0 a b t i = fin (Bk N T A B t i * (Sp N P A B t / S N P A B (T - 1))) := by
  unfold beta Bk
  rw [back_fin hp ha hT hb hS _ (by omega) i hi, show T - 1 - (T - 1 - t) = t by omega]

theorem gamma_fin {t i : Nat} (ht : t < T) (hi : i < N) : gamma N T p0 a b t i = fin (F N P A B t i * Bk N T A B t i / S N P A B (T - 1)) := by
  have hs := hS t (by omega)
  have hl := hS (T - 1) le_rfl
  have hsp := Sp_pos (fun t ht => hS t (Nat.le_of_lt ht)) t (by omega)
  have key : ∀ i, i < N → alpha N p0 a b t i * beta N T p0 a b t i = fin (F N P A B t i * Bk N T A B t i * (Sp N P A B t / (S N P A B t * S N P A B (T - 1)))) := by
    intro i hi
    rw [alpha_fin hp ha hb hS (by omega) hi, beta_fin hp ha hT hb hS ht hi, fin_mul]
    congr 1
    field_simp
  unfold gamma
  rw [total_fin key, key i hi, ← Finset.sum_mul, Hmm.total hT t ht, fin_div (by positivity)]
  congr 1
  field_simp

theorem xi_fin {t i j : Nat} (ht : t + 1 < T) (hi : i < N) (hj : j < N) : xi N T p0 a b t i j = fin (X N T P A B t i j / S N P A B (T - 1)) := by
  have hs := hS t (by omega)
  have hl := hS (T - 1) le_rfl
  have key : ∀ i j, i < N → j < N → joint N T p0 a b t i j = fin (X N T P A B t i j / S N P A B (T - 1)) := by
    intro i j hi hj
    unfold joint X
    rw [alpha_fin hp ha hb hS (by omega) hi, beta_fin hp ha hT hb hS ht hj, ha i j hi hj, hb _ j (by omega) hj, fin_mul, fin_mul, fin_mul]
    congr 1
    show _ * (_ * (S N P A B t / _)) = _
    field_simp
  have hN : 0 < N := by omega
  unfold xi
  rw [total_fin (g := fun k => X N T P A B t (k / N) (k % N) / S N P A B (T - 1)) (fun k hk => key _ _ (Nat.div_lt_of_lt_mul hk) (Nat.mod_lt _ hN)), key i j hi hj,
    sum_square N (fun i j => X N T P A B t i j / S N P A B (T - 1)) N]
  have : ∑ i ∈ Finset.range N, ∑ j ∈ Finset.range N, X N T P A B t i j / S N P A B (T - 1) = 1 := by
    simp only [← Finset.sum_div]
    rw [Finset.sum_congr rfl (fun i _ => X_sum_right t i ht), Hmm.total hT t (by omega), div_self hl.ne']
  rw [this, fin_div one_ne_zero, div_one]

end

/-- Re-estimation from finite posteriors. -/
theorem baumWelch_fin (hT : 0 < T) {g : Nat → Nat → Ext} {G : Nat → Nat → ℝ} {z : Nat → Nat → Nat → Ext} {Z : Nat → Nat → Nat → ℝ}
    {mu : Nat → Nat → Ext} {Mu Xx : Nat → Nat → ℝ} (hg : ∀ t i, t < T → i < N → g t i = fin (G t i)) (hz : ∀ t i j, t + 1 < T → i < N → j < N → z t i j = fin (Z t i j))
    (hm : ∀ i d, i < N → d < L → mu i d = fin (Mu i d)) (hG : ∀ t i, t < T → i < N → 0 ≤ G t i) :
    (∀ i, i < N → (baumWelch N T Xx mu g z).p0 i = fin (G 0 i)) ∧
    (∀ i j, i < N → j < N → (baumWelch N T Xx mu g z).a i j = fin (newA T G Z i j)) ∧
    (∀ j d, j < N → d < L → (baumWelch N T Xx mu g z).mu j d = (newMu T G Xx j d).elim nan fin) ∧
    (∀ d e, d < L → e < L → (baumWelch N T Xx mu g z).cov d e = fin (newCov N T G Xx Mu d e)) := by
  refine ⟨fun i hi => hg 0 i hT hi, fun i j hi hj => ?_, fun j d hj hd => ?_, fun d e hd he => ?_⟩
  · show (if Ext.total (T - 1) (fun t => g t i) = 0 then 0 else Ext.total (T - 1) (fun t => z t i j) / Ext.total (T - 1) (fun t => g t i)) = _
    rw [total_fin (g := fun t => G t i) (fun t ht => hg t i (by omega) hi), total_fin (g := fun t => Z t i j) (fun t ht => hz t i j (by omega) hi hj)]
    unfold newA
    by_cases h0 : ∑ t ∈ Finset.range (T - 1), G t i = 0
    · rw [if_pos h0, if_pos (by rw [h0]; rfl)]
      rfl
    · rw [if_neg h0, if_neg (show ¬ fin _ = (0 : Ext) from fun h => h0 (Ext.fin.inj h)), fin_div h0]
  · show Ext.total T (fun t => g t j * fin (Xx t d)) / (Ext.total (T - 1) (fun t => g t j) + g (T - 1) j) = _
    have e1 : Ext.total (T - 1) (fun t => g t j) + g (T - 1) j = Ext.total T (fun t => g t j) := by
      obtain ⟨n, rfl⟩ : ∃ n, T = n + 1 := ⟨T - 1, by omega⟩
      rfl
    rw [e1, total_fin (g := fun t => G t j) (fun t ht => hg t j ht hj), total_fin (g := fun t => G t j * Xx t d) (fun t ht => by rw [hg t j ht hj, fin_mul])]
    unfold newMu
    by_cases h0 : ∑ t ∈ Finset.range T, G t j = 0
    · have hz : ∀ t ∈ Finset.range T, G t j = 0 := (Finset.sum_eq_zero_iff_of_nonneg (fun t ht => hG t j (Finset.mem_range.mp ht) hj)).mp h0
      rw [if_pos h0, h0, Finset.sum_eq_zero (fun t ht => by rw [hz t ht, zero_mul])]
      show (if (0 : ℝ) = 0 then infOf 0 else _) = nan
      rw [if_pos rfl]
      unfold infOf
      rw [if_neg (lt_irrefl _), if_neg (lt_irrefl _)]
    · rw [if_neg h0, fin_div h0]
      rfl
  · show Ext.total N (fun j => Ext.total T (fun t => (fin (Xx t d) - mu j d) * (g t j * (fin (Xx t e) - mu j e)))) / fin T = _
    have h1 : ∀ j, j < N → Ext.total T (fun t => (fin (Xx t d) - mu j d) * (g t j * (fin (Xx t e) - mu j e))) = fin (covTerm T G Xx Mu j d e) := by
      intro j hj
      rw [total_fin (g := fun t => (Xx t d - Mu j d) * (G t j * (Xx t e - Mu j e)))]
      · rfl
      · intro t ht
        rw [hm j d hj hd, hm j e hj he, hg t j ht hj, fin_sub, fin_sub, fin_mul, fin_mul]
    rw [total_fin h1, fin_div (by exact_mod_cast hT.ne')]
    rfl

/-! ## A model of NaN -/

/-- Every parameter of the model is NaN. -/
def AllNan (N L : Nat) (m : Params) : Prop :=
  (∀ i, i < N → m.p0 i = nan) ∧ (∀ i j, i < N → j < N → m.a i j = nan) ∧ (∀ i d, i < N → d < L → m.mu i d = nan) ∧ ∀ d e, d < L → e < L → m.cov d e = nan

theorem baumWelch_nan (hN : 0 < N) (hT : 2 ≤ T) {g : Nat → Nat → Ext} {z : Nat → Nat → Nat → Ext} {mu : Nat → Nat → Ext} {x : Nat → Nat → ℝ}
    (hg : ∀ t i, t < T → i < N → g t i = nan) (hz : ∀ t i j, t + 1 < T → i < N → j < N → z t i j = nan) : AllNan N L (baumWelch N T x mu g z) := by
  refine ⟨fun i hi => hg 0 i (by omega) hi, fun i j hi hj => ?_, fun j d hj _ => ?_, fun d e _ _ => ?_⟩
  · show (if Ext.total (T - 1) (fun t => g t i) = 0 then 0 else Ext.total (T - 1) (fun t => z t i j) / Ext.total (T - 1) (fun t => g t i)) = nan
    rw [total_nan (n := T - 1) (i := 0) (by omega) (hg 0 i (by omega) hi), if_neg (fun h => by cases h), div_nan]
  · show Ext.total T (fun t => g t j * fin (x t d)) / _ = nan
    rw [total_nan (i := 0) (by omega) (by rw [hg 0 j (by omega) hj, nan_mul]), nan_div]
  · show Ext.total N (fun j => Ext.total T (fun t => (fin (x t d) - mu j d) * (g t j * (fin (x t e) - mu j e)))) / fin T = nan
    rw [total_nan hN (total_nan (i := 0) (by omega) (by rw [hg 0 0 (by omega) hN, nan_mul, mul_nan])), nan_div]

theorem loggauss_nan (hL : 0 < L) {x : Nat → ℝ} {mu : Nat → Ext} (h : ∀ d, d < L → mu d = nan) (icov : Nat → Nat → Ext) (det : Ext) :
    loggauss L x mu icov det = nan := by
  unfold loggauss
  rw [total_nan hL (by rw [h 0 hL, sub_nan, mul_nan]), nan_add, nan_add, mul_nan]

theorem trainLoop_nan (hN : 0 < N) {lib : Lib} {x : Nat → Nat → ℝ} {m : Params} (h : AllNan N L m) :
    ∀ fuel iter ll ll1 ll2, trainLoop lib N T L x fuel iter ll ll1 ll2 m = m
  | 0, _, _, _, _ => rfl
  | fuel + 1, iter, ll, ll1, ll2 => by
    have hl : loglik N m.p0 m.a (density lib L x m) (T - 1) = nan := by
      refine loglik_of_c (t := 0) ?_ (Nat.zero_le _)
      unfold c
      rw [total_nan hN (show rawRow N m.p0 m.a (density lib L x m) 0 0 = nan by show m.p0 0 * _ = nan; rw [h.1 0 hN, nan_mul]), div_nan]
    unfold trainLoop
    by_cases hc : iter > 1 ∧ lt (ll - ll1) (fin (1 / 10000) * (ll1 - ll2))
    · rw [if_pos hc]
    · rw [if_neg hc]
      exact if_pos hl

theorem best_nan {f : Nat → Ext} : ∀ n, 0 < n → (∀ i, i < n → f i = nan) → best f n = (nan, true, 0)
  | 1, _, h => by
    show (if lt (fin (-1000000)) (f 0) ∨ false = false then (f 0, true, 0) else _) = _
    rw [if_pos (Or.inr rfl), h 0 (by omega)]
  | n + 2, _, h => by
    have ih := best_nan (n + 1) (by omega) (fun i hi => h i (by omega))
    show (if lt (best f (n + 1)).1 (f (n + 1)) ∨ (best f (n + 1)).2.1 = false then (f (n + 1), true, n + 1) else best f (n + 1)) = _
    rw [ih, if_neg]
    rintro (h1 | h1)
    · exact nan_lt _ h1
    · cases h1

theorem lastState_nan {f : Nat → Ext} : ∀ n, (∀ i, i ≤ n → f i = nan) → (lastState f n).2 = 0
  | 0, _ => rfl
  | n + 1, h => by
    show (if lt (lastState f n).1 (f (n + 1)) then (f (n + 1), n + 1) else lastState f n).2 = 0
    rw [h (n + 1) le_rfl, if_neg (lt_nan _), lastState_nan n (fun i hi => h i (by omega))]

theorem path_nan (hN : 0 < N) {p0 : Nat → Ext} {a logb : Nat → Nat → Ext} (h : ∀ t i, i < N → logb t i = nan) : ∀ k, path N T p0 a logb k = 0
  | 0 => lastState_nan _ (fun i hi => by
      generalize T - 1 = t
      cases t with
      | zero => show _ + logb 0 i = nan; rw [h 0 i (by omega), add_nan]
      | succ t => show _ + logb (t + 1) i = nan; rw [h (t + 1) i (by omega), add_nan])
  | k + 1 => by
    show psi N p0 a logb (T - 1 - k) (path N T p0 a logb k) = 0
    generalize T - 1 - k = t
    cases t with
    | zero => rfl
    | succ t =>
      show (best (fun i => phi N p0 a logb t i + log (a i _)) N).2.2 = 0
      rw [best_nan N hN]
      intro i hi
      have : phi N p0 a logb t i = nan := by
        cases t with
        | zero => show _ + logb 0 i = nan; rw [h 0 i hi, add_nan]
        | succ t => show _ + logb (t + 1) i = nan; rw [h (t + 1) i hi, add_nan]
      rw [this, nan_add]

end QM.Hmm.Under
