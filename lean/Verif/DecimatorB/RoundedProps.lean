import Verif.DecimatorB.ResponseProps
import Verif.Common.DoubleOps

/-!
# C86: the decimator by powers of two in double precision
-/

namespace QM.DecimatorB

open QM.IntPoly QM.Stable QM.Double Finset

/-- One rounded stage stays close to the exact one. -/
theorem stage_close (fl : ℝ → ℝ) (hfl : Rounds fl) (M : ℝ) (hM : Scale M) (x : ℕ → ℝ) (hx : ∀ n, |x n| ≤ M) (n : ℕ) :
    |filt fl (flB fl) (flA fl) x n - filt id (flB id) (flA id) x n| ≤ 32000 / 2 ^ 53 * M := by
  have hM0 := hM.pos
  obtain ⟨as, e2, i1⟩ := intA_cons
  obtain ⟨b, bs, e1, i2⟩ := intB_cons
  have hcoef := coef_eq
  have hex := exact_eq x
  have hc1 := cert_three
  have hc2 := cert_rec
  rw [e1, e2] at hcoef hex hc1
  rw [e2] at hc2
  have hw := unit_pos hM
  have hwM := unit_le hM
  have hnum : (4 : ℝ) * (8 * (1000 * (M / 2 ^ 53))) = 32000 / 2 ^ 53 * M := by ring
  have hsmall : 32000 / 2 ^ 53 * M ≤ M / 10 := by
    norm_num
    linarith
  have key := stays_close 1000000000000000 b bs as certQ 6 i2 i1 (by omega) (by norm_num) 50 4 60 (by norm_num) hc1 hc2 (by norm_num)
    coefA coefB (fun k => (coefs_le k).2) (fun k => (coefs_le k).1) (by simpa using (hcoef 0).1) (by
      intro i _
      rw [Nat.add_comm 1]
      simpa using (hcoef (i + 1)).1) (by
      intro i _
      rw [Nat.add_comm 1]
      simpa using (hcoef (i + 1)).2) M (1000 * (M / 2 ^ 53)) hM0.le (by linarith) hwM (by push_cast; rw [hnum]; exact hsmall) x
    (filt fl (flB fl) (flA fl) x) (filt id (flB id) (flA id) x)
    (fun k n => (mems fl (flB fl) (flA fl) x n).getD k 0) hx hex (fun k => mems_zero _ _ _ _ k) (fun k n hk => mems_high _ _ _ _ _ _ hk) (by
      intro n ho
      beta_reduce at ho ⊢
      rw [filt, (mem_step fl _ _ _ _).1, flB_get _ 0 (by omega)]
      exact stmtFirst hfl hM _ _ _ (coefs_le 0).1 (hx n) ho) (by
      intro k n hk hy ho
      beta_reduce at hy ho ⊢
      rw [mems]
      by_cases h6 : k < 5
      · rw [(mem_step fl _ _ _ _).2.1 k h6, flB_get _ _ (by omega), flA_get _ _ (by omega)]
        exact stmtNext hfl hM _ _ _ _ _ (coefs_le _).1 (coefs_le _).2 (hx n) hy ho
      · obtain rfl : k = 5 := by omega
        rw [(mem_step fl _ _ _ _).2.2, flB_get _ _ (by omega), flA_get _ _ (by omega), mems_high _ _ _ _ _ _ (by omega), add_zero]
        exact (stmtLast hfl hM _ _ _ _ (coefs_le _).1 (coefs_le _).2 (hx n) hy).1.trans (by linarith)) n
  have := key.1
  push_cast at this
  rwa [hnum] at this

/-- All the stages: rounded on one signal, exact on a signal close to it. -/
theorem casc_close (fl : ℝ → ℝ) (hfl : Rounds fl) (k : ℕ) (M E : ℝ) (hM1 : 1 / 2 ^ 1000 ≤ M) (hM2 : 2.1 ^ k * M ≤ 2 ^ 1000) (x x' : ℕ → ℝ)
    (hx : ∀ n, |x n| ≤ M) (hE : ∀ n, |x n - x' n| ≤ E) (n : ℕ) :
    |casc fl (flB fl) (flA fl) k x n - casc id (flB id) (flA id) k x' n| ≤ 2 ^ k * E + k * 2.1 ^ k * (32000 / 2 ^ 53 * M) ∧
      |casc fl (flB fl) (flA fl) k x n| ≤ 2.1 ^ k * M := by
  induction k generalizing M E x x' n with
  | zero => simpa [casc] using ⟨hE n, hx n⟩
  | succ k ih =>
    have hM0 : 0 < M := lt_of_lt_of_le (by positivity) hM1
    have hE0 : 0 ≤ E := (abs_nonneg _).trans (hE 0)
    have hpk : (1 : ℝ) ≤ 2.1 ^ k := one_le_pow₀ (by norm_num)
    have hMle : M ≤ 2.1 ^ (k + 1) * M := le_mul_of_one_le_left hM0.le (one_le_pow₀ (by norm_num))
    have hsc := scale_of M hM1 (hMle.trans hM2)
    have hst := stage_close fl hfl M hsc x hx
    have hsm : 32000 / 2 ^ 53 * M ≤ 0.1 * M := mul_le_mul_of_nonneg_right (by norm_num) hM0.le
    set δ := 32000 / 2 ^ 53 * M with hδ
    have hδ0 : 0 ≤ δ := by positivity
    have hy : ∀ n, |filt fl (flB fl) (flA fl) x n| ≤ 2.1 * M := by
      intro n
      have h1 := hst n
      have h2 := bound2 x _ (exact_eq x) M hx n
      have h3 := abs_le_of_sub _ _ _ _ h1 h2
      linarith
    have hd : ∀ n, |filt fl (flB fl) (flA fl) x n - filt id (flB id) (flA id) x' n| ≤ 2 * E + δ := by
      intro n
      have h1 := hst n
      have h2 := filt_close x x' E hE n
      have h3 := abs_sub_le (filt fl (flB fl) (flA fl) x n) (filt id (flB id) (flA id) x n) (filt id (flB id) (flA id) x' n)
      linarith
    have := ih (2.1 * M) (2 * E + δ) (by linarith) (by rw [pow_succ] at hM2; linarith)
      (fun n => filt fl (flB fl) (flA fl) x (2 * n)) (fun n => filt id (flB id) (flA id) x' (2 * n)) (fun n => hy (2 * n)) (fun n => hd (2 * n)) n
    rw [casc, casc]
    refine ⟨this.1.trans ?_, this.2.trans (by rw [pow_succ]; linarith)⟩
    have h2 : (2 : ℝ) ^ k ≤ 2.1 ^ (k + 1) := by
      have : (2 : ℝ) ^ k ≤ 2.1 ^ k := pow_le_pow_left₀ (by norm_num) (by norm_num) k
      rw [pow_succ]
      linarith
    have h3 := mul_le_mul_of_nonneg_right h2 hδ0
    have h4 : 32000 / 2 ^ 53 * (2.1 * M) = 2.1 * δ := by rw [hδ]; ring
    rw [h4]
    push_cast
    rw [show (2 : ℝ) ^ (k + 1) = 2 ^ k * 2 from pow_succ _ _]
    rw [show (2.1 : ℝ) ^ (k + 1) = 2.1 ^ k * 2.1 from pow_succ _ _] at *
    linarith

/-- **C86** In double precision the decimator by `2 ^ k` stays within `k · 2.1 ^ k · 32000 · 2 ^ -53` of the peak of its input from the exact one, however long the
stream and however it is cut into blocks, and as long as `2.1 ^ k` times the peak is in the middle of the range of a double nothing overflows. -/
theorem C86_rounding (fl : ℝ → ℝ) (hfl : Rounds fl) (q k : Nat) (hk : 0 < k) (aa tmp aaf tmpf : List ℝ) (haa : aa.length = q * 2 ^ k)
    (htmp : tmp.length = q * 2 ^ k) (haaf : aaf.length = q * 2 ^ k) (htmpf : tmpf.length = q * 2 ^ k) (M : ℝ) (hM1 : 1 / 2 ^ 1000 ≤ M)
    (hM2 : 2.1 ^ k * M ≤ 2 ^ 1000) (calls : List (List ℝ × List ℝ)) (hlen : ∀ c ∈ calls, c.1.length = q * 2 ^ k ∧ c.2.length = q)
    (hx : ∀ c ∈ calls, ∀ v ∈ c.1, |v| ≤ M) :
    ∃ s s' outs sf sf' outsf, new (q * 2 ^ k) ((2 : Int) ^ k) aa tmp = some s ∧ run s calls = some (s', outs) ∧
      newFl fl (q * 2 ^ k) ((2 : Int) ^ k) aaf tmpf = some sf ∧ runFl fl sf calls = some (sf', outsf) ∧
      outs.flatten.length = calls.length * q ∧ outsf.flatten.length = calls.length * q ∧
      ∀ (m : ℕ) v w, outs.flatten[m]? = some v → outsf.flatten[m]? = some w →
        |w - v| ≤ k * 2.1 ^ k * (32000 / 2 ^ 53 * M) ∧ |w| ≤ 2.1 ^ k * M := by
  have hM0 : 0 < M := lt_of_lt_of_le (by positivity) hM1
  set X := (calls.map Prod.fst).flatten with hX
  obtain ⟨s, h1, h2⟩ := newFl_streaming id q k hk aa tmp haa htmp (fun n => X.getD n 0)
  obtain ⟨sf, g1, g2⟩ := newFl_streaming fl q k hk aaf tmpf haaf htmpf (fun n => X.getD n 0)
  have hin : ∀ i v, (calls.map Prod.fst).flatten[i]? = some v → v = (fun n => X.getD n 0) (0 * 2 ^ k + i) := by
    intro i v hv
    rw [← hX] at hv
    simp [List.getD_eq_getElem?_getD, hv]
  obtain ⟨s', outs, e1, e2, e3⟩ := runFl_spec id _ _ q k calls s _ 0 h2 hlen hin
  obtain ⟨sf', outsf, f1, f2, f3⟩ := runFl_spec fl _ _ q k calls sf _ 0 g2 hlen hin
  refine ⟨s, s', outs, sf, sf', outsf, h1, (run_id s calls).symm.trans e1, g1, f1, e2, f2, ?_⟩
  intro m v w hv hw
  rw [e3 m v hv, f3 m w hw]
  have hXM : ∀ n, |X.getD n 0| ≤ M := by
    intro n
    rw [List.getD_eq_getElem?_getD]
    cases hg : X[n]? with
    | none => simpa using hM0.le
    | some w =>
      have hw := List.mem_of_getElem? hg
      rw [hX, List.mem_flatten] at hw
      obtain ⟨l, hl, hwl⟩ := hw
      obtain ⟨c, hc, rfl⟩ := List.mem_map.mp hl
      exact hx c hc w hwl
  have := casc_close fl hfl k M 0 hM1 hM2 (fun n => X.getD n 0) (fun n => X.getD n 0) hXM (by simp) (0 + m)
  rw [mul_zero, zero_add ((k : ℝ) * 2.1 ^ k * _)] at this
  exact this

/-- Rounding to nearest, and two blocks of the fastest oscillation at full scale through two stages. -/
example : Rounds rn ∧ ∃ (aa tmp : List ℝ) (calls : List (List ℝ × List ℝ)), aa.length = 1 * 2 ^ 2 ∧ tmp.length = 1 * 2 ^ 2 ∧ calls.length = 2 ∧
    (1 / 2 ^ 1000 : ℝ) ≤ 1 ∧ (2.1 ^ 2 * 1 : ℝ) ≤ 2 ^ 1000 ∧
    (∀ c ∈ calls, c.1.length = 1 * 2 ^ 2 ∧ c.2.length = 1) ∧ ∀ c ∈ calls, ∀ v ∈ c.1, |v| ≤ 1 := by
  refine ⟨rounds_rn, List.replicate 4 0, List.replicate 4 0, [([1, -1, 1, -1], [0]), ([1, -1, 1, -1], [0])], rfl, rfl, rfl, ?_, ?_, by simp, by simp⟩
  · rw [div_le_iff₀ (by positivity), one_mul]
    exact one_le_pow₀ (by norm_num)
  · exact le_trans (by norm_num : (2.1 ^ 2 * 1 : ℝ) ≤ 2 ^ 3) (pow_le_pow_right₀ (by norm_num) (by norm_num))

end QM.DecimatorB
