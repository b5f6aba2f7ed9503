import Verif.Pca.QL
import Mathlib.Algebra.Order.Chebyshev

/-! `tqli` applies rotations to the tridiagonal matrix. -/

namespace QM.Pca

open Finset

/-! ## Neglecting an element -/

theorem Orthonormal.entry {n : ℕ} {Z : ℕ → ℕ → ℝ} (h : Orthonormal n Z) {k j : ℕ} (hk : k < n) (hj : j < n) : |Z k j| ≤ 1 := by
  have h1 := h j j hj hj
  rw [if_pos rfl] at h1
  have h2 : Z k j * Z k j ≤ ∑ k ∈ range n, Z k j * Z k j := single_le_sum (f := fun k => Z k j * Z k j) (fun k _ => mul_self_nonneg _) (mem_range.mpr hk)
  rw [h1] at h2
  rw [← sq_le_one_iff_abs_le_one, sq]
  exact h2

theorem diag_eq {n : ℕ} {A Z : ℕ → ℕ → ℝ} {o D : ℕ → ℝ} (h : Rel n A Z o D 0 0) (hz : Orthonormal n Z) (ho : o (n - 1) = 0) {j : ℕ} (hj : j < n) :
    ∑ k ∈ range n, Z k j * ∑ q ∈ range n, A k q * Z q j = D j := by
  have : ∀ k ∈ range n, Z k j * ∑ q ∈ range n, A k q * Z q j =
      (if j = 0 then 0 else o (j - 1)) * (Z k j * Z k (j - 1)) + D j * (Z k j * Z k j) + o j * (Z k j * Z k (j + 1)) := by
    intro k hk
    have := h k (mem_range.mp hk) j hj
    dsimp only at this
    rw [this]
    simp only [zero_mul, ite_self, add_zero]
    split_ifs <;> ring
  rw [sum_congr rfl this, sum_add_distrib, sum_add_distrib, ← mul_sum, ← mul_sum, ← mul_sum, hz j j hj hj, if_pos rfl]
  have h1 : (if j = 0 then 0 else o (j - 1)) * ∑ k ∈ range n, Z k j * Z k (j - 1) = 0 := by
    by_cases e : j = 0
    · simp [e]
    · rw [hz j (j - 1) hj (by omega), if_neg (show ¬ j = j - 1 by omega), mul_zero]
  have h2 : o j * ∑ k ∈ range n, Z k j * Z k (j + 1) = 0 := by
    by_cases e : j + 1 < n
    · rw [hz j (j + 1) hj e, if_neg (by omega), mul_zero]
    · rw [show j = n - 1 by omega, ho, zero_mul]
  rw [h1, h2]
  ring

theorem diag_bound {n : ℕ} {A Z : ℕ → ℕ → ℝ} {o D : ℕ → ℝ} {B : ℝ} (h : Rel n A Z o D 0 0) (hz : Orthonormal n Z) (ho : o (n - 1) = 0)
    (hB : ∀ k q, k < n → q < n → |A k q| ≤ B) {j : ℕ} (hj : j < n) : |D j| ≤ n * B := by
  have hB0 : 0 ≤ B := (abs_nonneg _).trans (hB j j hj hj)
  rw [← diag_eq h hz ho hj]
  have h1 : |∑ k ∈ range n, Z k j * ∑ q ∈ range n, A k q * Z q j| ≤ ∑ k ∈ range n, |Z k j| * (B * ∑ q ∈ range n, |Z q j|) := by
    refine (abs_sum_le_sum_abs _ _).trans (sum_le_sum fun k hk => ?_)
    rw [abs_mul]
    refine mul_le_mul_of_nonneg_left ?_ (abs_nonneg _)
    refine (abs_sum_le_sum_abs _ _).trans ?_
    rw [mul_sum]
    refine sum_le_sum fun q hq => ?_
    rw [abs_mul]
    exact mul_le_mul_of_nonneg_right (hB k q (mem_range.mp hk) (mem_range.mp hq)) (abs_nonneg _)
  rw [← sum_mul] at h1
  have h2 : (∑ k ∈ range n, |Z k j|) ^ 2 ≤ n * ∑ k ∈ range n, |Z k j| ^ 2 := by
    have := sq_sum_le_card_mul_sum_sq (s := range n) (f := fun k => |Z k j|)
    rwa [card_range] at this
  have h3 : ∑ k ∈ range n, |Z k j| ^ 2 = 1 := by
    have := hz j j hj hj
    rw [if_pos rfl] at this
    rw [← this]
    exact sum_congr rfl fun k _ => by rw [sq_abs, sq]
  rw [h3, mul_one] at h2
  refine h1.trans ?_
  calc (∑ k ∈ range n, |Z k j|) * (B * ∑ q ∈ range n, |Z q j|) = B * (∑ k ∈ range n, |Z k j|) ^ 2 := by ring
    _ ≤ B * n := mul_le_mul_of_nonneg_left h2 hB0
    _ = n * B := mul_comm _ _

theorem drop_rel {n : ℕ} {A Z : ℕ → ℕ → ℝ} {o D : ℕ → ℝ} (h : Rel n A Z o D 0 0) (hz : Orthonormal n Z) {m : ℕ} (hm : m + 1 < n) :
    Rel n (fun k q => A k q - o m * (Z k m * Z q (m + 1) + Z k (m + 1) * Z q m)) Z (fun j => if j = m then 0 else o j) D 0 0 := by
  intro k hk j hj
  have h1 := h k hk j hj
  dsimp only at h1 ⊢
  have : ∑ q ∈ range n, (A k q - o m * (Z k m * Z q (m + 1) + Z k (m + 1) * Z q m)) * Z q j =
      (∑ q ∈ range n, A k q * Z q j) - o m * (Z k m * (∑ q ∈ range n, Z q (m + 1) * Z q j) + Z k (m + 1) * ∑ q ∈ range n, Z q m * Z q j) := by
    rw [mul_sum, mul_sum, ← sum_add_distrib, mul_sum, ← sum_sub_distrib]
    exact sum_congr rfl fun q _ => by ring
  rw [this, h1, hz (m + 1) j hm hj, hz m j (by omega) hj]
  simp only [zero_mul, ite_self, add_zero]
  by_cases e1 : j = m
  · subst e1
    by_cases z : j = 0
    · simp [z]
    · simp [z, show j - 1 ≠ j by omega]
  · by_cases e2 : j = m + 1
    · subst e2
      simp
      ring
    · simp [e1, Ne.symm e1, Ne.symm e2]
      by_cases z : j = 0
      · simp [z]
      · simp [z, show ¬ (j - 1 = m) by omega]

/-- `Z`, `D` and `o` are a tridiagonal decomposition of a symmetric matrix that is close to `A`. -/
def Track (n : ℕ) (A : ℕ → ℕ → ℝ) (a ε : ℝ) (t : ℕ) (Z : ℕ → ℕ → ℝ) (D o : ℕ → ℝ) : Prop :=
  ∃ A' : ℕ → ℕ → ℝ, (∀ k q, A' k q = A' q k ∨ ¬ (k < n ∧ q < n)) ∧ (∀ k q, k < n → q < n → |A k q - A' k q| ≤ a * ((1 + 4 * n * ε) ^ t - 1)) ∧
    Orthonormal n Z ∧ Rel n A' Z o D 0 0

theorem Rel.congr {n : ℕ} {A Z : ℕ → ℕ → ℝ} {o o' D D' : ℕ → ℝ} {b b' : ℕ} {F F' : ℝ} (h : Rel n A Z o D b F) (ho : ∀ j, j < n → o' j = o j)
    (hD : ∀ j, j < n → D' j = D j) (hF : F' = F) (hb : F = 0 ∨ b' = b) : Rel n A Z o' D' b' F' := by
  intro k hk j hj
  rw [h k hk j hj, ho j hj, hD j hj, hF]
  have h1 : (if j = 0 then 0 else o' (j - 1) * Z k (j - 1)) = if j = 0 then 0 else o (j - 1) * Z k (j - 1) := by
    rw [ho (j - 1) (by omega)]
  rw [h1]
  rcases hb with rfl | rfl
  · simp
  · rfl

theorem Track.congr {n : ℕ} {A : ℕ → ℕ → ℝ} {a ε : ℝ} {t : ℕ} {Z : ℕ → ℕ → ℝ} {D o o' : ℕ → ℝ} (h : Track n A a ε t Z D o) (ho : ∀ j, j < n → o' j = o j) :
    Track n A a ε t Z D o' := by
  obtain ⟨A', h1, h2, h3, h4⟩ := h
  exact ⟨A', h1, h2, h3, h4.congr ho (fun _ _ => rfl) rfl (Or.inr rfl)⟩

theorem Track.mono {n : ℕ} {A : ℕ → ℕ → ℝ} {a ε : ℝ} {t t' : ℕ} {Z : ℕ → ℕ → ℝ} {D o : ℕ → ℝ} (h : Track n A a ε t Z D o) (ha : 0 ≤ a) (hε : 0 ≤ ε) (ht : t ≤ t') :
    Track n A a ε t' Z D o := by
  obtain ⟨A', h1, h2, h3, h4⟩ := h
  refine ⟨A', h1, fun k q hk hq => (h2 k q hk hq).trans (mul_le_mul_of_nonneg_left ?_ ha), h3, h4⟩
  have : 0 ≤ 4 * (n : ℝ) * ε := by positivity
  have := pow_le_pow_right₀ (show (1 : ℝ) ≤ 1 + 4 * n * ε by linarith) ht
  linarith

theorem Track.drop {n : ℕ} {A : ℕ → ℕ → ℝ} {a ε : ℝ} {t : ℕ} {Z : ℕ → ℕ → ℝ} {D o : ℕ → ℝ} (h : Track n A a ε t Z D o) (ha : ∀ k q, k < n → q < n → |A k q| ≤ a)
    (hε : 0 ≤ ε) (ho : o (n - 1) = 0) {m : ℕ} (hm : m + 1 < n) (hsmall : |o m| ≤ ε * (|D m| + |D (m + 1)|)) :
    Track n A a ε (t + 1) Z D (fun j => if j = m then 0 else o j) := by
  obtain ⟨A', h1, h2, h3, h4⟩ := h
  have ha0 : 0 ≤ a := (abs_nonneg _).trans (ha m m (by omega) (by omega))
  refine ⟨_, ?_, ?_, h3, drop_rel h4 h3 hm⟩
  · intro k q
    by_cases hk : k < n ∧ q < n
    · left
      rw [(h1 k q).resolve_right (not_not_intro hk)]
      ring
    · exact Or.inr hk
  · intro k q hk hq
    set B := a * (1 + 4 * n * ε) ^ t with hB
    have hbound : ∀ k q, k < n → q < n → |A' k q| ≤ B := by
      intro k q hk hq
      have e1 := h2 k q hk hq
      have e2 := ha k q hk hq
      have e3 : |A' k q| ≤ |A k q - A' k q| + |A k q| := by
        have := abs_sub (A k q) (A k q - A' k q)
        rw [sub_sub_cancel] at this
        linarith
      rw [mul_sub, mul_one] at e1
      linarith
    have d1 := diag_bound h4 h3 ho hbound (show m < n by omega)
    have d2 := diag_bound h4 h3 ho hbound hm
    have z1 := h3.entry hk (show m < n by omega)
    have z2 := h3.entry hk hm
    have z3 := h3.entry hq (show m < n by omega)
    have z4 := h3.entry hq hm
    have s1 : |Z k m * Z q (m + 1) + Z k (m + 1) * Z q m| ≤ 2 := by
      refine (abs_add_le _ _).trans ?_
      rw [abs_mul, abs_mul]
      have := mul_le_one₀ z1 (abs_nonneg _) z4
      have := mul_le_one₀ z2 (abs_nonneg _) z3
      linarith
    have s2 : |o m * (Z k m * Z q (m + 1) + Z k (m + 1) * Z q m)| ≤ 4 * n * ε * B := by
      rw [abs_mul]
      have : ε * (|D m| + |D (m + 1)|) ≤ ε * (2 * (n * B)) := mul_le_mul_of_nonneg_left (by linarith) hε
      calc |o m| * |Z k m * Z q (m + 1) + Z k (m + 1) * Z q m| ≤ (ε * (2 * (n * B))) * 2 :=
            mul_le_mul (hsmall.trans this) s1 (abs_nonneg _) ((abs_nonneg _).trans (hsmall.trans this))
        _ = 4 * n * ε * B := by ring
    have e1 := h2 k q hk hq
    have e2 : |A k q - (A' k q - o m * (Z k m * Z q (m + 1) + Z k (m + 1) * Z q m))| ≤ |A k q - A' k q| + |o m * (Z k m * Z q (m + 1) + Z k (m + 1) * Z q m)| := by
      rw [← sub_add]
      exact abs_add_le _ _
    refine e2.trans ?_
    rw [pow_succ]
    calc |A k q - A' k q| + |o m * (Z k m * Z q (m + 1) + Z k (m + 1) * Z q m)| ≤ a * ((1 + 4 * n * ε) ^ t - 1) + 4 * n * ε * B := add_le_add e1 s2
      _ = a * ((1 + 4 * n * ε) ^ t * (1 + 4 * n * ε) - 1) := by rw [hB]; ring

/-! ## The code -/

theorem rotation_ok {f : ℝ} (g : ℝ) (hf : f ≠ 0) : ∃ s c E, rotation f g = some (s, c, E) ∧ s * E = f ∧ c * E = g ∧ s * s + c * c = 1 ∧ s ≠ 0 := by
  unfold rotation
  by_cases h : |f| ≥ |g|
  · rw [if_pos h]
    set c0 := g / f with hc0
    have hp : 0 < c0 * c0 + 1 := by have := mul_self_nonneg c0; linarith
    set r := Real.sqrt (c0 * c0 + 1) with hr
    have hr0 : 0 < r := Real.sqrt_pos.mpr hp
    have hrr : r * r = c0 * c0 + 1 := Real.mul_self_sqrt hp.le
    refine ⟨1 / r, c0 * (1 / r), f * r, ?_, ?_, ?_, ?_, ?_⟩
    · rw [bind_ok (div_ok hf), bind_ok (div_ok hr0.ne')]
      rfl
    · field_simp
    · have : c0 * f = g := div_mul_cancel₀ g hf
      field_simp
      linarith
    · field_simp
      rw [sq, sq, hrr]
      ring
    · exact one_div_ne_zero hr0.ne'
  · rw [if_neg h]
    have hg : g ≠ 0 := by
      rintro rfl
      exact h (by simp)
    set s0 := f / g with hs0
    have hp : 0 < s0 * s0 + 1 := by have := mul_self_nonneg s0; linarith
    set r := Real.sqrt (s0 * s0 + 1) with hr
    have hr0 : 0 < r := Real.sqrt_pos.mpr hp
    have hrr : r * r = s0 * s0 + 1 := Real.mul_self_sqrt hp.le
    refine ⟨s0 * (1 / r), 1 / r, g * r, ?_, ?_, ?_, ?_, ?_⟩
    · rw [bind_ok (div_ok hg), bind_ok (div_ok hr0.ne')]
      rfl
    · have : s0 * g = f := div_mul_cancel₀ f hg
      field_simp
      linarith
    · field_simp
    · field_simp
      rw [sq, sq, hrr]
    · exact mul_ne_zero (div_ne_zero hf hg) (one_div_ne_zero hr0.ne')

variable {n : ℕ} {A Z : ℕ → ℕ → ℝ} {D E : ℕ → ℝ} {z : List (List ℝ)} {d e : List ℝ}

theorem rotate_ok {i : ℕ} (hi : i + 1 < n) (hz : Holds2 n n Z z) (s c : ℝ) :
    ∃ z', rotate n i s c z = some z' ∧ Holds2 n n (fun k => rot i s c (Z k)) z' := by
  obtain ⟨z', h1, h2⟩ := loop_inv (n := n) (s := z) (f := fun k (z : List (List ℝ)) => do
      let f ← rd2 z k (i + 1)
      let x ← rd2 z k i
      let z ← wr2 z k (i + 1) (s * x + c * f)
      let x ← rd2 z k i
      wr2 z k i (c * x - s * f))
    (P := fun m z => Holds2 n n (fun k j => if k < m then rot i s c (Z k) j else Z k j) z)
    (hz.congr fun k j _ _ => by simp)
    (by
      intro k b hk hb
      have r1 := hb.rd hk hi
      have r2 := hb.rd hk (show i < n by omega)
      simp only [lt_irrefl, if_false] at r1 r2
      obtain ⟨b1, e1, e2⟩ := hb.wr hk hi (s * Z k i + c * Z k (i + 1))
      have r3 := e2.rd hk (show i < n by omega)
      simp only [lt_irrefl, show i ≠ i + 1 by omega, and_false, if_false] at r3
      obtain ⟨b2, e3, e4⟩ := e2.wr hk (show i < n by omega) (c * Z k i - s * Z k (i + 1))
      refine ⟨b2, ?_, e4.congr fun r j _ _ => ?_⟩
      · rw [bind_ok r1, bind_ok r2, bind_ok e1, bind_ok r3]
        exact e3
      · by_cases h : r = k
        · subst h
          by_cases h1 : j = i
          · simp [h1, rot]
          · by_cases h2 : j = i + 1
            · simp [h2, rot]
            · simp [h1, h2, rot]
        · have : r < k + 1 ↔ r < k := by omega
          simp [h, this])
  exact ⟨z', h1, h2.congr fun k j hk _ => by simp [hk]⟩

/-- The side diagonal in the course of a sweep whose last rotation was that of `i`. -/
noncomputable def during (l m i : ℕ) (g c : ℝ) (E : ℕ → ℝ) (j : ℕ) : ℝ :=
  if j = m then 0 else if j = i then g else if j < l then 0 else if j + 1 = i then c * E j else E j

/-- The bulge in the course of a sweep. -/
noncomputable def bulge (l m i : ℕ) (s : ℝ) (E : ℕ → ℝ) : ℝ := if i = m ∨ i ≤ l then 0 else s * E (i - 1)

/-- The invariant of the inner loop. -/
structure Sweep (n l m : ℕ) (A : ℕ → ℕ → ℝ) (E0 : ℕ → ℝ) (i : ℕ) (q : Ql) (Z : ℕ → ℕ → ℝ) (D E : ℕ → ℝ) : Prop where
  hz : Holds2 n n Z q.z
  hd : Holds n D q.d
  he : Holds n E q.e
  orth : Orthonormal n Z
  rel : Rel n A Z (during l m i q.g q.c E) (fun j => if j = i then D j - q.p else D j) (i - 1) (bulge l m i q.s E)
  s0 : q.s ≠ 0
  start : i = m → q.c = 1
  low : ∀ j, j < i → E j = E0 j
  high : ∀ j, m < j → E j = E0 j

theorem qlStep_ok {l m i : ℕ} {E0 : ℕ → ℝ} {q : Ql} (hli : l ≤ i) (him : i < m) (hm : m < n) (hE0 : E0 i ≠ 0) (h : Sweep n l m A E0 (i + 1) q Z D E) :
    ∃ q' Z' D' E', qlStep n i q = some q' ∧ Sweep n l m A E0 i q' Z' D' E' := by
  have hEi : E i ≠ 0 := by rw [h.low i (by omega)]; exact hE0
  have hv := h.he.2 i (by omega)
  obtain ⟨s, c, y, r1, r2, r3, r4, r5⟩ := rotation_ok q.g (mul_ne_zero h.s0 hEi)
  obtain ⟨e', w1, w2⟩ := Holds.put h.he (show i + 1 < n by omega) y
  have hx := h.hd.2 (i + 1) (by omega)
  have hy := h.hd.2 i (by omega)
  set r := (D i - (D (i + 1) - q.p)) * s + 2 * c * (q.c * E i) with hr
  obtain ⟨d', v1, v2⟩ := Holds.put h.hd (show i + 1 < n by omega) (D (i + 1) - q.p + s * r)
  obtain ⟨z', t1, t2⟩ := rotate_ok (show i + 1 < n by omega) h.hz s c
  have ho : during l m (i + 1) q.g q.c E i = q.c * E i := by
    simp [during, show i ≠ m by omega, show ¬ i < l by omega]
  have hcF : c * bulge l m (i + 1) q.s E = s * during l m (i + 1) q.g q.c E (i + 1) := by
    unfold bulge during
    by_cases hm1 : i + 1 = m
    · simp [hm1]
    · simp only [hm1, show ¬ (i + 1 ≤ l) by omega, or_self, if_false, if_true, Nat.add_sub_cancel]
      rw [← r2, ← r3]
      ring
  have hrel := rot_rel (i := i) (show Rel n A Z _ _ i _ by have := h.rel; rwa [Nat.add_sub_cancel] at this) (show i + 1 < n by omega) r4 hcF
  refine ⟨⟨z', d', e', c * r - q.c * E i, s, c, s * r⟩, _, _, _, ?_, ⟨t2, v2, w2, rot_orth h.orth (by omega) r4, ?_, r5, by intro; omega, ?_, ?_⟩⟩
  · unfold qlStep
    rw [bind_ok hv, bind_ok r1]
    dsimp only
    rw [bind_ok w1, bind_ok hx, bind_ok hy]
    rw [← hr, bind_ok v1, bind_ok t1]
    rfl
  · simp only [if_true, show i ≠ i + 1 by omega, if_false, ho] at hrel
    rw [← hr] at hrel
    refine hrel.congr ?_ ?_ ?_ (Or.inr rfl)
    · intro j hj
      by_cases e1 : j = i + 1
      · subst e1
        by_cases hm1 : i + 1 = m
        · simp [during, bulge, hm1]
        · simp [during, bulge, hm1, show ¬ (i + 1 ≤ l) by omega, show ¬ (i + 1 < l) by omega, show ¬ (i + 1 + 1 = i) by omega]
          rw [← r2, ← r3]
          linear_combination (-y) * r4
      · by_cases e2 : j = i
        · subst e2
          simp [during, show j ≠ m by omega]
        · by_cases e3 : j + 1 = i
          · by_cases e4 : j < l
            · simp [during, e1, e2, e3, e4]
            · simp [during, e1, e2, e3, e4, show j ≠ m by omega]
          · simp [during, e1, e2, e3]
    · intro j hj
      by_cases e1 : j = i + 1
      · simp [e1]
      · by_cases e2 : j = i
        · simp [e2]
        · simp [e1, e2]
    · unfold bulge during
      by_cases z : i = 0
      · simp [z]
      · by_cases h1 : i ≤ l
        · simp [z, h1, show ¬ (i - 1 = i + 1) by omega, show i - 1 ≠ m by omega, show i - 1 < l by omega]
        · simp [z, h1, show ¬ (i - 1 = i + 1) by omega, show i - 1 ≠ m by omega, show ¬ i - 1 < l by omega, show ¬ i = m by omega, show ¬ (i - 1 = i) by omega]
  · intro j hj
    simp only [show j ≠ i + 1 by omega, if_false]
    exact h.low j (by omega)
  · intro j hj
    simp only [show j ≠ i + 1 by omega, if_false]
    exact h.high j hj

theorem shift_ne (g : ℝ) : g + sign (Real.sqrt (g * g + 1)) g ≠ 0 := by
  have hp : 0 < g * g + 1 := by have := mul_self_nonneg g; linarith
  have := Real.sqrt_pos.mpr hp
  unfold sign
  rw [abs_of_pos this]
  split_ifs with h <;> intro h0 <;> linarith

theorem qlSweep_ok {l m : ℕ} (hlm : l < m) (hm : m < n) (hz : Holds2 n n Z z) (hd : Holds n D d) (he : Holds n E e) (horth : Orthonormal n Z)
    (hrel : Rel n A Z (fun j => if j = m then 0 else if j < l then 0 else E j) D 0 0) (hE : ∀ j, l ≤ j → j < m → E j ≠ 0) :
    ∃ z' d' e' Z' D' E', qlSweep n l m ⟨z, d, e⟩ = some ⟨z', d', e'⟩ ∧ Holds2 n n Z' z' ∧ Holds n D' d' ∧ Holds n E' e' ∧ Orthonormal n Z' ∧
      Rel n A Z' (fun j => if j < l then 0 else E' j) D' 0 0 ∧ E' m = 0 ∧ ∀ j, m < j → E' j = E j := by
  have hl := hE l le_rfl hlm
  have h2 : (2 : ℝ) * E l ≠ 0 := mul_ne_zero two_ne_zero hl
  obtain ⟨q, k1, Z1, D1, E1, k2⟩ := loop_inv (n := m - l) (f := fun t (q : Ql) => qlStep n (m - 1 - t) q)
    (s := Ql.mk z d e (D m - D l + E l / ((D (l + 1) - D l) / (2 * E l) + sign (Real.sqrt ((D (l + 1) - D l) / (2 * E l) * ((D (l + 1) - D l) / (2 * E l)) + 1))
      ((D (l + 1) - D l) / (2 * E l)))) 1 1 0)
    (P := fun t q => ∃ Z D E1, Sweep n l m A E (m - t) q Z D E1)
    ⟨Z, D, E, hz, hd, he, horth, hrel.congr (by
        intro j hj
        by_cases e1 : j = m
        · simp [during, e1]
        · by_cases e2 : j < l
          · simp [during, e1, e2]
          · simp [during, e1, e2]) (by
        intro j hj
        by_cases e1 : j = m
        · simp [e1]
        · simp [e1]) (by simp [bulge]) (Or.inl rfl), one_ne_zero, fun _ => rfl, fun _ _ => rfl, fun _ _ => rfl⟩
    (by
      rintro t q ht ⟨Z, D, E1, h⟩
      have : m - t = (m - 1 - t) + 1 := by omega
      rw [this] at h
      obtain ⟨q', Z', D', E', a1, a2⟩ := qlStep_ok (l := l) (m := m) (by omega) (by omega) hm (hE _ (by omega) (by omega)) h
      refine ⟨q', a1, Z', D', E', ?_⟩
      rw [show m - (t + 1) = m - 1 - t by omega]
      exact a2)
  rw [show m - (m - l) = l by omega] at k2
  have hy := k2.hd.2 l (by omega)
  obtain ⟨d1, v1, v2⟩ := Holds.put k2.hd (show l < n by omega) (D1 l - q.p)
  obtain ⟨e1, w1, w2⟩ := Holds.put k2.he (show l < n by omega) q.g
  obtain ⟨e2, w3, w4⟩ := Holds.put w2 hm 0
  refine ⟨q.z, d1, e2, Z1, _, _, ?_, k2.hz, v2, w4, k2.orth, ?_, by simp, ?_⟩
  · unfold qlSweep
    dsimp only
    rw [bind_ok (hd.2 (l + 1) (by omega)), bind_ok (hd.2 l (by omega)), bind_ok (he.2 l (by omega)), bind_ok (div_ok h2), bind_ok (hd.2 m hm),
      bind_ok (div_ok (shift_ne _)), bind_ok k1, bind_ok hy, bind_ok v1, bind_ok w1, bind_ok w3]
    rfl
  · refine k2.rel.congr ?_ ?_ (by simp [bulge]) (Or.inl (by simp [bulge]))
    · intro j hj
      unfold during
      by_cases e1 : j = m
      · simp [e1]
      · by_cases e2 : j = l
        · simp [e2, show ¬ l = m by omega]
        · by_cases e3 : j < l
          · simp [e1, e2, e3]
          · simp [e1, e2, e3, show ¬ (j + 1 = l) by omega]
    · intro j hj
      by_cases e1 : j = l
      · simp [e1]
      · simp [e1]
  · intro j hj
    simp only [show j ≠ m by omega, show j ≠ l by omega, if_false]
    exact k2.high j hj

theorem split_ok (negl : ℝ → ℝ → Bool) (hd : Holds n D d) (he : Holds n E e) : ∀ fuel l, l + fuel = n - 1 → 1 ≤ n →
    ∃ m, split negl d e fuel l = some m ∧ l ≤ m ∧ m < n ∧ (∀ j, l ≤ j → j < m → negl |E j| (|D j| + |D (j + 1)|) = false) ∧
      (m + 1 < n → negl |E m| (|D m| + |D (m + 1)|) = true) := by
  intro fuel
  induction fuel with
  | zero =>
    intro l hl hn
    exact ⟨l, rfl, le_rfl, by omega, by intro j h1 h2; omega, by intro h; omega⟩
  | succ fuel ih =>
    intro l hl hn
    rw [split, bind_ok (hd.2 l (by omega)), bind_ok (hd.2 (l + 1) (by omega)), bind_ok (he.2 l (by omega))]
    by_cases h : negl |E l| (|D l| + |D (l + 1)|) = true
    · rw [if_pos h]
      exact ⟨l, rfl, le_rfl, by omega, by intro j h1 h2; omega, fun _ => h⟩
    · rw [if_neg h]
      obtain ⟨m, h1, h2, h3, h4, h5⟩ := ih (l + 1) (by omega) hn
      refine ⟨m, h1, by omega, h3, ?_, h5⟩
      intro j hj1 hj2
      by_cases e : j = l
      · rw [e]
        exact Bool.eq_false_iff.mpr h
      · exact h4 j (by omega) hj2

/-- The test for convergence: zero is negligible, and what is negligible is at most `ε` times what it is compared with. -/
structure Test (negl : ℝ → ℝ → Bool) (ε : ℝ) : Prop where
  zero : ∀ x, 0 ≤ x → negl 0 x = true
  small : ∀ v x, negl v x = true → v ≤ ε * x

theorem qlRow_ok {negl : ℝ → ℝ → Bool} {a ε : ℝ} (ht : Test negl ε) (hε : 0 ≤ ε) (hA : ∀ k q, k < n → q < n → |A k q| ≤ a) {l : ℕ} (hl : l < n) :
    ∀ fuel t (z : List (List ℝ)) (d e : List ℝ) Z D E, Holds2 n n Z z → Holds n D d → Holds n E e → E (n - 1) = 0 → Track n A a ε t Z D (fun j => if j < l then 0 else E j) →
    ∃ r, qlRow negl n l fuel ⟨z, d, e⟩ = some r ∧ ∀ s', r = some s' → ∃ Z' D' E', Holds2 n n Z' s'.a ∧ Holds n D' s'.d ∧ Holds n E' s'.e ∧ E' (n - 1) = 0 ∧
      Track n A a ε (t + fuel + 1) Z' D' (fun j => if j < l + 1 then 0 else E' j) := by
  have ha0 : 0 ≤ a := (abs_nonneg _).trans (hA l l hl hl)
  intro fuel
  induction fuel with
  | zero =>
    intro t z d e Z D E hz hd he hE hT
    obtain ⟨m, s1, s2, s3, s4, s5⟩ := split_ok negl hd he (n - 1 - l) l (by omega) (by omega)
    rw [qlRow, bind_ok s1]
    by_cases h : m = l
    · rw [if_pos h]
      refine ⟨_, rfl, ?_⟩
      rintro s' ⟨⟩
      refine ⟨Z, D, E, hz, hd, he, hE, ?_⟩
      subst h
      by_cases hm : m + 1 < n
      · have := hT.drop hA hε (by rw [if_neg (by omega), hE]) hm (by
          rw [if_neg (lt_irrefl _)]
          exact ht.small _ _ (s5 hm))
        refine (this.congr fun j hj => ?_)
        by_cases e1 : j = m
        · simp [e1]
        · have : j < m + 1 ↔ j < m := by omega
          simp [e1, this]
      · refine (hT.congr fun j hj => ?_).mono ha0 hε (Nat.le_succ _)
        by_cases e1 : j = m
        · subst e1
          rw [show j = n - 1 by omega, hE]
          simp
        · have : j < m + 1 ↔ j < m := by omega
          simp [this]
    · rw [if_neg h]
      exact ⟨none, rfl, by rintro s' ⟨⟩⟩
  | succ fuel ih =>
    intro t z d e Z D E hz hd he hE hT
    obtain ⟨m, s1, s2, s3, s4, s5⟩ := split_ok negl hd he (n - 1 - l) l (by omega) (by omega)
    rw [qlRow, bind_ok s1]
    by_cases h : m = l
    · rw [if_pos h]
      refine ⟨_, rfl, ?_⟩
      rintro s' ⟨⟩
      refine ⟨Z, D, E, hz, hd, he, hE, ?_⟩
      subst h
      by_cases hm : m + 1 < n
      · have := hT.drop hA hε (by rw [if_neg (by omega), hE]) hm (by
          rw [if_neg (lt_irrefl _)]
          exact ht.small _ _ (s5 hm))
        refine (this.congr fun j hj => ?_).mono ha0 hε (by omega)
        by_cases e1 : j = m
        · simp [e1]
        · have : j < m + 1 ↔ j < m := by omega
          simp [e1, this]
      · refine (hT.congr fun j hj => ?_).mono ha0 hε (by omega)
        by_cases e1 : j = m
        · subst e1
          rw [show j = n - 1 by omega, hE]
          simp
        · have : j < m + 1 ↔ j < m := by omega
          simp [this]
    · rw [if_neg h]
      dsimp only
      have hT' : Track n A a ε (t + 1) Z D (fun j => if j = m then 0 else if j < l then 0 else E j) := by
        by_cases hm : m + 1 < n
        · exact hT.drop hA hε (by rw [if_neg (by omega), hE]) hm (by
            rw [if_neg (by omega)]
            exact ht.small _ _ (s5 hm))
        · refine (hT.congr fun j hj => ?_).mono ha0 hε (Nat.le_succ _)
          by_cases e1 : j = m
          · subst e1
            rw [show j = n - 1 by omega, hE]
            simp
          · simp [e1]
      obtain ⟨A', g1, g2, g3, g4⟩ := hT'
      obtain ⟨z', d', e', Z', D', E', k1, k2, k3, k4, k5, k6, k7, k8⟩ := qlSweep_ok (l := l) (m := m) (by omega) s3 hz hd he g3 g4 (by
        intro j h1 h2 h0
        have := s4 j h1 h2
        rw [h0, abs_zero, ht.zero _ (by positivity)] at this
        exact absurd this (by decide))
      rw [bind_ok k1]
      have hE' : E' (n - 1) = 0 := by
        by_cases h1 : m = n - 1
        · rw [← h1]
          exact k7
        · rw [k8 (n - 1) (by omega)]
          exact hE
      obtain ⟨r, q1, q2⟩ := ih (t + 1) z' d' e' Z' D' E' k2 k3 k4 hE' ⟨A', g1, g2, k5, k6⟩
      refine ⟨r, q1, fun s' hs' => ?_⟩
      obtain ⟨Z2, D2, E2, y1, y2, y3, y4, y5⟩ := q2 s' hs'
      exact ⟨Z2, D2, E2, y1, y2, y3, y4, by rw [show t + (fuel + 1) + 1 = t + 1 + fuel + 1 by omega]; exact y5⟩

theorem qlRows_ok {negl : ℝ → ℝ → Bool} {a ε : ℝ} (ht : Test negl ε) (hε : 0 ≤ ε) (hA : ∀ k q, k < n → q < n → |A k q| ≤ a) :
    ∀ k l t (z : List (List ℝ)) (d e : List ℝ) Z D E, l + k = n → Holds2 n n Z z → Holds n D d → Holds n E e → E (n - 1) = 0 →
      Track n A a ε t Z D (fun j => if j < l then 0 else E j) →
    ∃ r, qlRows negl n k l ⟨z, d, e⟩ = some r ∧ ∀ s', r = some s' → ∃ Z' D' E', Holds2 n n Z' s'.a ∧ Holds n D' s'.d ∧ Holds n E' s'.e ∧
      Track n A a ε (t + 31 * k) Z' D' (fun _ => 0) := by
  intro k
  induction k with
  | zero =>
    intro l t z d e Z D E hl hz hd he hE hT
    refine ⟨_, rfl, ?_⟩
    rintro s' ⟨⟩
    exact ⟨Z, D, E, hz, hd, he, hT.congr fun j hj => by simp [show j < l by omega]⟩
  | succ k ih =>
    intro l t z d e Z D E hl hz hd he hE hT
    obtain ⟨r, q1, q2⟩ := qlRow_ok ht hε hA (show l < n by omega) 30 t z d e Z D E hz hd he hE hT
    rw [qlRows, bind_ok q1]
    cases r with
    | none => exact ⟨none, rfl, by rintro s' ⟨⟩⟩
    | some s =>
      obtain ⟨Z1, D1, E1, y1, y2, y3, y4, y5⟩ := q2 s rfl
      obtain ⟨r, p1, p2⟩ := ih (l + 1) (t + 30 + 1) s.a s.d s.e Z1 D1 E1 (by omega) y1 y2 y3 y4 y5
      refine ⟨r, p1, fun s' hs' => ?_⟩
      rw [show t + 31 * (k + 1) = t + 30 + 1 + 31 * k by omega]
      exact p2 s' hs'

/-- `tqli` from a tridiagonal decomposition. -/
theorem tqli_ok {negl : ℝ → ℝ → Bool} {a ε : ℝ} (ht : Test negl ε) (hε : 0 ≤ ε) (hn : 1 ≤ n) (hs : ∀ k q, k < n → q < n → A k q = A q k)
    (hA : ∀ k q, k < n → q < n → |A k q| ≤ a) {Z : ℕ → ℕ → ℝ} (hz : Holds2 n n Z z) (hd : Holds n D d) (he : Holds n E e) (horth : Orthonormal n Z)
    (hrel : Rel n A Z (fun j => if j + 1 < n then E (j + 1) else 0) D 0 0) :
    ∃ r, tqli negl n ⟨z, d, e⟩ = some r ∧ ∀ s', r = some s' → ∃ Z' D' E', Holds2 n n Z' s'.a ∧ Holds n D' s'.d ∧ Holds n E' s'.e ∧
      Track n A a ε (31 * n) Z' D' (fun _ => 0) := by
  obtain ⟨e1, h1, h2⟩ := loop_inv (n := n - 1) (s := e) (f := fun i (e : List ℝ) => do
      let v ← e[i + 1]?
      wr e i v)
    (P := fun k e => Holds n (fun j => if j < k then E (j + 1) else E j) e)
    (he.congr fun j _ => by simp)
    (by
      intro i e hi h
      have hv := h.2 (i + 1) (by omega)
      simp only [show ¬ (i + 1 < i) by omega, if_false] at hv
      obtain ⟨e', w1, w2⟩ := Holds.put h (show i < n by omega) (E (i + 1))
      refine ⟨e', by rw [bind_ok hv]; exact w1, w2.congr fun j _ => ?_⟩
      by_cases e1 : j = i
      · simp [e1]
      · have : j < i + 1 ↔ j < i := by omega
        simp [e1, this])
  obtain ⟨e2, w1, w2⟩ := Holds.put h2 (show n - 1 < n by omega) 0
  have hw : wrI e1 ((n : Int) - 1) 0 = some e2 := by
    rw [show (n : Int) - 1 = ((n - 1 : Nat) : Int) by omega, wrI_natCast]
    exact w1
  unfold tqli
  rw [bind_ok h1, bind_ok hw]
  obtain ⟨r, q1, q2⟩ := qlRows_ok ht hε hA n 0 0 z d e2 Z D _ (by omega) hz hd w2 (by simp) ⟨A, fun k q => by
      by_cases h : k < n ∧ q < n
      · exact Or.inl (hs k q h.1 h.2)
      · exact Or.inr h, fun k q _ _ => by simp, horth, hrel.congr (by
      intro j hj
      by_cases e1 : j = n - 1
      · simp [e1, show ¬ (n - 1 + 1 < n) by omega]
      · simp [e1, show j + 1 < n by omega, show j < n - 1 by omega]) (fun _ _ => rfl) rfl (Or.inl rfl)⟩
  refine ⟨r, q1, fun s' hs' => ?_⟩
  have := q2 s' hs'
  rwa [Nat.zero_add] at this

end QM.Pca
