import Verif.Common.Stable

/-!
# A stable recursive filter whose statements are off by a bounded amount

The filter is in the form of `Decimator` and `DecimatorB`: `y = x b₀ + o₀`, then `oₖ = x bₖ₊₁ - y aₖ₊₁ + oₖ₊₁` with the old value of `oₖ₊₁`.
Every statement may be off by `ε`, as long as the variables are within the bounds. Then the output stays close to the exact one forever,
and the variables do stay within the bounds.
-/

namespace QM.Stable

open QM.IntPoly

/-- What the errors of the statements `k`, `k + 1`, … contribute. -/
def errs (E : ℕ → ℕ → ℝ) : ℕ → ℕ → ℕ → ℝ
  | _, 0, _ => 0
  | k, l + 1, n => E k n + sh (errs E (k + 1) l) n

theorem abs_errs_le (E : ℕ → ℕ → ℝ) (ε : ℝ) (hε : 0 ≤ ε) (l k n : ℕ) (h : ∀ i m, i < l → m + i ≤ n → |E (k + i) m| ≤ ε) : |errs E k l n| ≤ l * ε := by
  induction l generalizing k n with
  | zero => simp [errs]
  | succ l ih =>
    simp only [errs]
    refine (abs_add_le _ _).trans ?_
    have h1 : |E k n| ≤ ε := by simpa using h 0 n (by omega) (by omega)
    have h2 : |sh (errs E (k + 1) l) n| ≤ l * ε := by
      cases n with
      | zero =>
        simp only [sh, abs_zero]
        positivity
      | succ n =>
        refine ih (k + 1) n (fun i m hi hm => ?_)
        have := h (i + 1) m (by omega) (by omega)
        rwa [show k + (i + 1) = k + 1 + i by omega] at this
    push_cast
    linarith

theorem chain (c : ℝ) (α β : ℕ → ℝ) (x y : ℕ → ℝ) (o : ℕ → ℕ → ℝ) (E : ℕ → ℕ → ℝ) (h0 : ∀ k, o k 0 = 0)
    (hs : ∀ k n, o k (n + 1) = x n * β (k + 1) - y n * α (k + 1) + o (k + 1) n + E (k + 1) n) (bs as : List ℤ) (hl : bs.length = as.length) (k : ℕ)
    (hb : ∀ i, i < bs.length → ((bs.getD i 0 : ℤ) : ℝ) = c * β (k + 1 + i)) (ha : ∀ i, i < as.length → ((as.getD i 0 : ℤ) : ℝ) = c * α (k + 1 + i))
    (hr : ∀ n, o (k + bs.length) n = 0) (n : ℕ) :
    c * o k (n + 1) = cv bs x n - cv as y n + c * errs E (k + 1) bs.length n ∨ bs = [] := by
  induction bs generalizing as k n with
  | nil => exact Or.inr rfl
  | cons b bs ih =>
    refine Or.inl ?_
    match as, hl with
    | a :: as, hl =>
      have hb0 := hb 0 (by simp)
      have ha0 := ha 0 (by simp)
      simp only [List.getD_cons_zero, Nat.add_zero] at hb0 ha0
      have e1 : c * o (k + 1) n = cv bs (sh x) n - cv as (sh y) n + c * sh (errs E (k + 1 + 1) bs.length) n := by
        rw [cv_sh, cv_sh]
        cases n with
        | zero => simp [sh, h0]
        | succ n =>
          simp only [sh]
          rcases ih as (by simpa using hl) (k + 1) (fun i hi => by
            have := hb (i + 1) (by simpa using hi)
            rwa [List.getD_cons_succ, show k + 1 + (i + 1) = k + 1 + 1 + i by omega] at this) (fun i hi => by
            have := ha (i + 1) (by simpa using hi)
            rwa [List.getD_cons_succ, show k + 1 + (i + 1) = k + 1 + 1 + i by omega] at this) (fun n => by
            have := hr n
            rwa [List.length_cons, show k + (bs.length + 1) = k + 1 + bs.length by omega] at this) n with h | h
          · exact h
          · subst h
            have has : as = [] := List.length_eq_zero_iff.mp (by simpa using hl.symm)
            subst has
            have := hr (n + 1)
            simp only [List.length_cons, List.length_nil, Nat.zero_add] at this
            simp [cv, errs, this]
      rw [hs]
      simp only [cv, List.length_cons, errs]
      rw [hb0, ha0]
      linear_combination e1

/-- The output of the disturbed filter meets the difference equation up to the errors. -/
theorem disturbed (c : ℤ) (α β : ℕ → ℝ) (x y : ℕ → ℝ) (o : ℕ → ℕ → ℝ) (E : ℕ → ℕ → ℝ) (h0 : ∀ k, o k 0 = 0)
    (hy : ∀ n, y n = x n * β 0 + o 0 n + E 0 n)
    (hs : ∀ k n, o k (n + 1) = x n * β (k + 1) - y n * α (k + 1) + o (k + 1) n + E (k + 1) n) (b : ℤ) (bs as : List ℤ) (hl : bs.length = as.length)
    (hne : bs ≠ []) (hb0 : ((b : ℤ) : ℝ) = c * β 0)
    (hb : ∀ i, i < bs.length → ((bs.getD i 0 : ℤ) : ℝ) = c * β (1 + i)) (ha : ∀ i, i < as.length → ((as.getD i 0 : ℤ) : ℝ) = c * α (1 + i))
    (hr : ∀ n, o bs.length n = 0) (n : ℕ) :
    cv (c :: as) y n = cv (b :: bs) x n + c * errs E 0 (bs.length + 1) n := by
  have e1 : (c : ℝ) * o 0 n = cv bs (sh x) n - cv as (sh y) n + c * sh (errs E 1 bs.length) n := by
    rw [cv_sh, cv_sh]
    cases n with
    | zero => simp [sh, h0]
    | succ n =>
      rcases chain c α β x y o E h0 hs bs as hl 0 (by simpa using hb) (by simpa using ha) (by simpa using hr) n with h | h
      · simpa [sh] using h
      · exact absurd h hne
  simp only [cv, errs]
  rw [hb0]
  have := hy n
  linear_combination (c : ℝ) * this + e1

/-- Small errors stay small: `g` bounds the sum of the absolute values of the impulse response of the recursive part. -/
theorem stays_close (c : ℤ) (b : ℤ) (bs as q : List ℤ) (r : ℕ) (hlb : bs.length = r) (hla : as.length = r) (hr7 : r ≤ 7) (hr0 : 0 < r) (k g : ℤ) (T : ℕ) (hk : 1 < k)
    (h3 : cert (c :: as) (b :: bs) q k 3 T = true) (hg : cert (c :: as) [c] q k g T = true) (hg0 : 0 ≤ g)
    (α β : ℕ → ℝ) (hα : ∀ k, |α k| ≤ 20) (hβ : ∀ k, |β k| ≤ 20) (hb0 : ((b : ℤ) : ℝ) = c * β 0)
    (hb : ∀ i, i < bs.length → ((bs.getD i 0 : ℤ) : ℝ) = c * β (1 + i)) (ha : ∀ i, i < as.length → ((as.getD i 0 : ℤ) : ℝ) = c * α (1 + i))
    (M ε : ℝ) (hM : 0 ≤ M) (hε : 0 ≤ ε) (hε1 : ε ≤ M) (hgε : (g : ℝ) * (8 * ε) ≤ M / 10) (x y ye : ℕ → ℝ) (o : ℕ → ℕ → ℝ) (hx : ∀ n, |x n| ≤ M)
    (hye : ∀ n, cv (c :: as) ye n = cv (b :: bs) x n) (h0 : ∀ k, o k 0 = 0) (hr : ∀ k n, r ≤ k → o k n = 0)
    (hy : ∀ n, |o 0 n| ≤ 600 * M → |y n - (x n * β 0 + o 0 n)| ≤ ε)
    (hs : ∀ k n, k < r → |y n| ≤ 3.1 * M → |o (k + 1) n| ≤ 600 * M → |o k (n + 1) - (x n * β (k + 1) - y n * α (k + 1) + o (k + 1) n)| ≤ ε) (n : ℕ) :
    |y n - ye n| ≤ g * (8 * ε) ∧ |y n| ≤ 3.1 * M ∧ ∀ k, |o k n| ≤ 600 * M := by
  -- the errors of the statements
  obtain ⟨E, hE0, hEs⟩ : ∃ E : ℕ → ℕ → ℝ, (∀ n, E 0 n = y n - (x n * β 0 + o 0 n)) ∧
      ∀ k n, E (k + 1) n = o k (n + 1) - (x n * β (k + 1) - y n * α (k + 1) + o (k + 1) n) :=
    ⟨fun k n => match k with | 0 => y n - (x n * β 0 + o 0 n) | k + 1 => o k (n + 1) - (x n * β (k + 1) - y n * α (k + 1) + o (k + 1) n),
      fun _ => rfl, fun _ _ => rfl⟩
  have hd := disturbed c α β x y o E h0 (fun n => by rw [hE0]; ring) (fun k n => by rw [hEs]; ring) b bs as (hlb.trans hla.symm)
    (by rintro rfl; simp at hlb; omega) hb0 hb ha (fun n => hr _ n hlb.ge)
  obtain ⟨p0, ps, c1, c2, -, c4, -, -⟩ := cert_sound _ _ _ _ _ _ h3 hk
  obtain ⟨p0', ps', d1, d2, -, d4, -, -⟩ := cert_sound _ _ _ _ _ _ hg hk
  have hexact : ∀ n, |ye n| ≤ 3 * M := by
    intro n
    have h := bounded _ _ q ps p0 c1 c2 x ye (n + 1) (fun m _ => hye m) M hx n (by omega)
    have hD : (0 : ℝ) < ((p0 - l1 ps : ℤ) : ℝ) := by exact_mod_cast sub_pos.mpr c2
    have hG : ((l1 (mul q (b :: bs)) : ℤ) : ℝ) ≤ 3 * ((p0 - l1 ps : ℤ) : ℝ) := by exact_mod_cast c4
    refine le_of_mul_le_mul_left ?_ hD
    have := mul_le_mul_of_nonneg_right hG hM
    linarith
  -- output and errors at one time from those before
  have close : ∀ n, (∀ k, |o k n| ≤ ((r - k : ℕ) : ℝ) * (83 * M)) → (∀ k m, m < n → k ≤ r → |E k m| ≤ ε) → |E 0 n| ≤ ε ∧ |y n - ye n| ≤ g * (8 * ε) ∧ |y n| ≤ 3.1 * M := by
    intro n ho hE
    have e0 : |E 0 n| ≤ ε := by
      rw [hE0]
      refine hy n ((ho 0).trans ?_)
      have : ((r - 0 : ℕ) : ℝ) ≤ 7 := by exact_mod_cast hr7
      nlinarith
    have hrr : ((r + 1 : ℕ) : ℝ) ≤ 8 := by exact_mod_cast Nat.succ_le_succ hr7
    have e1 : ∀ m, m ≤ n → |errs E 0 (r + 1) m| ≤ 8 * ε := by
      intro m hm
      refine (abs_errs_le E ε hε (r + 1) 0 m ?_).trans (mul_le_mul_of_nonneg_right hrr hε)
      intro i m' hi hm'
      rw [Nat.zero_add]
      by_cases hmn : m' = n
      · have : i = 0 := by omega
        subst this hmn
        exact e0
      · exact hE i m' (by omega) (by omega)
    have e2 := bounded (c :: as) [c] q ps' p0' d1 d2 (fun m => if m ≤ n then errs E 0 (r + 1) m else 0) (fun m => y m - ye m) (n + 1) (by
      intro m hm
      rw [cv_sub, hd, hye, hlb]
      simp only [cv]
      rw [if_pos (by omega)]
      ring) (8 * ε) (by
      intro m
      beta_reduce
      split_ifs with h
      · exact e1 m h
      · rw [abs_zero]
        positivity) n (by omega)
    have hD : (0 : ℝ) < ((p0' - l1 ps' : ℤ) : ℝ) := by exact_mod_cast sub_pos.mpr d2
    have hG : ((l1 (mul q [c]) : ℤ) : ℝ) ≤ g * ((p0' - l1 ps' : ℤ) : ℝ) := by exact_mod_cast d4
    have e3 : |y n - ye n| ≤ g * (8 * ε) := by
      refine le_of_mul_le_mul_left ?_ hD
      have := mul_le_mul_of_nonneg_right hG (show 0 ≤ 8 * ε by positivity)
      beta_reduce at e2
      linarith
    refine ⟨e0, e3, ?_⟩
    have h1 := hexact n
    have h2 := abs_sub_abs_le_abs_sub (y n) (ye n)
    linarith
  have key : ∀ n, (∀ k, |o k n| ≤ ((r - k : ℕ) : ℝ) * (83 * M)) ∧ (∀ k m, m < n → k ≤ r → |E k m| ≤ ε) := by
    intro n
    induction n with
    | zero =>
      refine ⟨fun k => ?_, fun k m hm => by omega⟩
      rw [h0, abs_zero]
      positivity
    | succ n ih =>
      obtain ⟨e0, -, e2⟩ := close n ih.1 ih.2
      have e3 : ∀ k, k < r → |E (k + 1) n| ≤ ε := by
        intro k hk
        rw [hEs]
        refine hs k n hk e2 ((ih.1 (k + 1)).trans ?_)
        have : ((r - (k + 1) : ℕ) : ℝ) ≤ 7 := by exact_mod_cast (by omega : r - (k + 1) ≤ 7)
        nlinarith
      refine ⟨fun k => ?_, fun k m hm hkr => ?_⟩
      · by_cases hk : k < r
        · have h1 : o k (n + 1) = x n * β (k + 1) - y n * α (k + 1) + o (k + 1) n + E (k + 1) n := by rw [hEs]; ring
          have h2 : |x n * β (k + 1)| ≤ 20 * M := by
            rw [abs_mul]
            nlinarith [abs_nonneg (x n), abs_nonneg (β (k + 1)), hx n, hβ (k + 1)]
          have h3 : |y n * α (k + 1)| ≤ 62 * M := by
            rw [abs_mul]
            nlinarith [abs_nonneg (y n), abs_nonneg (α (k + 1)), hα (k + 1)]
          have h4 := ih.1 (k + 1)
          have h5 := e3 k hk
          have h6 : ((r - k : ℕ) : ℝ) = ((r - (k + 1) : ℕ) : ℝ) + 1 := by exact_mod_cast (by omega : r - k = r - (k + 1) + 1)
          rw [h1, h6]
          have h7 := abs_add_le (x n * β (k + 1) - y n * α (k + 1) + o (k + 1) n) (E (k + 1) n)
          have h8 := abs_add_le (x n * β (k + 1) - y n * α (k + 1)) (o (k + 1) n)
          have h9 := abs_sub (x n * β (k + 1)) (y n * α (k + 1))
          linarith
        · rw [hr k _ (by omega), abs_zero]
          positivity
      · by_cases hmn : m = n
        · subst hmn
          cases k with
          | zero => exact e0
          | succ k => exact e3 k (by omega)
        · exact ih.2 k m (by omega) hkr
  obtain ⟨k1, k2⟩ := key n
  obtain ⟨-, e1, e2⟩ := close n k1 k2
  refine ⟨e1, e2, fun k => (k1 k).trans ?_⟩
  have : ((r - k : ℕ) : ℝ) ≤ 7 := by exact_mod_cast (by omega : r - k ≤ 7)
  nlinarith

end QM.Stable
