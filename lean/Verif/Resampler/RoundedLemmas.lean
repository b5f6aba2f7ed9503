import Verif.Resampler.Rounded
import Verif.Resampler.Props
import Verif.Common.DoubleSum
import Verif.Counting.Props

namespace QM.Resampler.Rounded

open QM QM.Resampler QM.Double

variable (fl : ℝ → ℝ) {I O : Nat} {f : List ℝ} {x : Nat → ℝ} {s : State ℝ} {N k D : Nat}

/-- The first sample under the filter for output `k`, counted from the start of the prefilled buffer. -/
def first (I O L k : Nat) : Nat := cdiv (k * O - c0 O L % I) I

/-- The phase of output `k`. -/
def phaseOf (I O L k : Nat) : Nat := first I O L k * I + c0 O L % I - k * O

/-- The terms of output `k`, in the order of time. -/
noncomputable def term (I O : Nat) (f : List ℝ) (x : Nat → ℝ) (k j : Nat) : ℝ :=
  xhat (c0 O f.length / I) x (first I O f.length k + j) * tap f (phaseOf I O f.length k + j * I)

/-- How many there are. -/
def terms (I O L k : Nat) : Nat := cdiv (L - phaseOf I O L k) I

theorem Inv.place (h : Inv I O f x s N k D) (hI : 0 < I) : D + s.bufferOrigin = first I O f.length k ∧ s.phase = phaseOf I O f.length k := by
  have hpos := h.pos
  have hp := h.phase_lt
  have hm := Nat.mod_add_div (c0 O f.length) I
  rw [Nat.mul_comm I] at hm
  have hr := Nat.mod_lt (c0 O f.length) hI
  generalize c0 O f.length / I * I = c at *
  have e : D + s.bufferOrigin = first I O f.length k := by
    unfold first
    symm
    generalize c0 O f.length % I = r at *
    generalize c0 O f.length = cc at *
    rcases Nat.eq_zero_or_pos (D + s.bufferOrigin) with h0 | h0
    · rw [h0] at hpos ⊢
      rw [show k * O - r = 0 by omega]
      unfold cdiv
      exact Nat.div_eq_of_lt (by omega)
    · have : I ≤ (D + s.bufferOrigin) * I := Nat.le_mul_of_pos_left _ h0
      exact Counting.cdiv_eq_of hI (by omega) (by omega)
  refine ⟨e, ?_⟩
  unfold phaseOf
  rw [← e]
  omega

theorem Inv.step (h : Inv I O f x s N k D) (hI : 0 < I) (hO : 0 < O) (hk : k < avail I O f.length N) :
    ∃ s', Inv I O f x s' N (k + 1) D ∧ Resampler.reconstructOne s = .ok (s', ∑ j ∈ Finset.range (terms I O f.length k), term I O f x k j) ∧
      reconstructOne fl s = .ok (s', flSum fl (fun j => fl (term I O f x k j)) (terms I O f.length k)) ∧ s'.scale = s.scale := by
  obtain ⟨s', v, h1, h2, h3, -, -, -, -⟩ := h.step hI hO hk
  obtain ⟨pd, e1, hnp, hdrop, hlen, hfil⟩ := h.get hI
  have hg := (h.guard hI hO).2 hk
  rw [← hlen] at hg
  obtain ⟨p1, p2⟩ := Inv.place h hI
  have hn : terms I O f.length k = pd.filter.length := by rw [terms, ← p2, hlen]
  have hread : ∀ i < pd.filter.length, s.buffer[s.bufferOrigin + i]? = some (xhat (c0 O f.length / I) x (first I O f.length k + i)) := by
    intro i hi
    rw [h.content _ (by omega), ← p1, Nat.add_assoc]
  have hfil' : ∀ i < pd.filter.length, pd.filter[i]? = some (tap f (phaseOf I O f.length k + i * I)) := by
    intro i hi
    rw [hfil i hi, p2]
  refine ⟨s', h2, ?_, ?_, h3⟩
  · rw [h1]
    obtain ⟨w, ew, hw⟩ := loop_inv (n := pd.filter.length) (s := (0 : ℝ))
      (f := fun i v => do
          let x ← s.buffer[s.bufferOrigin + i]?
          let f ← pd.filter[i]?
          some (v + x * f))
      (P := fun i v => v = ∑ j ∈ Finset.range i, term I O f x k j)
      (by simp) (by
        intro i v hi hv
        rw [hread i hi, hfil' i hi]
        exact ⟨_, rfl, by rw [Finset.sum_range_succ, ← hv, term]⟩)
    unfold Resampler.reconstructOne at h1
    rw [e1] at h1
    dsimp only at h1
    rw [if_neg (by omega), ew] at h1
    simp only [Except.ok.injEq, Prod.mk.injEq] at h1
    rw [hn, ← hw, h1.2]
  · obtain ⟨w, ew, hw⟩ := loop_inv (n := pd.filter.length) (s := (0 : ℝ))
      (f := fun i v => do
          let x ← s.buffer[s.bufferOrigin + i]?
          let f ← pd.filter[i]?
          some (fl (v + fl (x * f))))
      (P := fun i v => v = flSum fl (fun j => fl (term I O f x k j)) i)
      (by simp [flSum]) (by
        intro i v hi hv
        rw [hread i hi, hfil' i hi]
        exact ⟨_, rfl, by rw [flSum, ← hv, term]⟩)
    have h4 : s' = { s with bufferOrigin := s.bufferOrigin + pd.drop, phase := pd.nextPhase } := by
      unfold Resampler.reconstructOne at h1
      rw [e1] at h1
      dsimp only at h1
      rw [if_neg (by omega)] at h1
      split at h1
      · cases h1
      · simp only [Except.ok.injEq, Prod.mk.injEq] at h1
        exact h1.1.symm
    unfold reconstructOne
    rw [e1]
    dsimp only
    rw [if_neg (by omega), ew]
    dsimp only
    rw [h4, hn, hw]

/-- What a call delivers for output `k` in double precision. -/
noncomputable def rounded (I O : Nat) (f : List ℝ) (scale : ℝ) (x : Nat → ℝ) (k : Nat) : ℝ :=
  fl (scale * flSum fl (fun j => fl (term I O f x k j)) (terms I O f.length k))

/-- The exact value of output `k`. -/
noncomputable def exact (I O : Nat) (f : List ℝ) (scale : ℝ) (x : Nat → ℝ) (k : Nat) : ℝ :=
  scale * ∑ j ∈ Finset.range (terms I O f.length k), term I O f x k j

theorem Inv.outLoop (hI : 0 < I) (hO : 0 < O) (b : Nat) : ∀ {s : State ℝ} {k : Nat}, Inv I O f x s N k D → k ≤ avail I O f.length N →
    ∃ s' n, Resampler.outLoop s b = .ok (s', (List.range' k n).map (exact I O f s.scale x)) ∧
      outLoop fl s b = .ok (s', (List.range' k n).map (rounded fl I O f s.scale x)) := by
  induction b with
  | zero => intro s k h _; exact ⟨s, 0, rfl, rfl⟩
  | succ b ih =>
    intro s k h hk
    obtain ⟨pd, e1, hnp, hdrop, hlen, hfil⟩ := h.get hI
    have hg := h.guard hI hO
    rw [← hlen] at hg
    by_cases hlt : k < avail I O f.length N
    · obtain ⟨s1, i1, r1, r2, q1⟩ := Inv.step fl h hI hO hlt
      obtain ⟨s2, n, r3, r4⟩ := ih i1 hlt
      refine ⟨s2, n + 1, ?_, ?_⟩
      · rw [Resampler.outLoop, e1]
        dsimp only
        rw [if_pos (hg.2 hlt), r1]
        dsimp only
        rw [r3, q1]
        rfl
      · rw [Rounded.outLoop, e1]
        dsimp only
        rw [if_pos (hg.2 hlt), r2]
        dsimp only
        rw [r4, q1]
        rfl
    · refine ⟨s, 0, ?_, ?_⟩
      · rw [Resampler.outLoop, e1]
        dsimp only
        rw [if_neg (fun hh => hlt (hg.1 hh))]
        rfl
      · rw [Rounded.outLoop, e1]
        dsimp only
        rw [if_neg (fun hh => hlt (hg.1 hh))]
        rfl

variable {fl}

theorem Ready.process (hfl : Nearest fl) {g : Nat} {scale : ℝ} (h : Ready I O g f scale x s N k) (hI : 0 < I) (hO : 0 < O)
    (hg : 0 < g) (hL : O ≤ f.length) (src : List ℝ) (hsrc : ∀ i, i < src.length → src[i]? = some (x (N + i)))
    (hS : s.sourceRate < 2 ^ 31) (hlen : src.length * s.targetRate < 2 ^ 53) :
    ∃ s' n, Resampler.process s src = .ok (s', (List.range' k n).map (exact I O f scale x)) ∧
      process fl s src = .ok (s', (List.range' k n).map (rounded fl I O f scale x)) ∧
      Ready I O g f scale x s' (N + src.length) (k + n) := by
  obtain ⟨s', out, h1, h2, h3, h4⟩ := h.process hI hO hg hL src hsrc
  obtain ⟨D, hi⟩ := h.inv
  have hi1 : Inv I O f x { s with buffer := s.buffer ++ src } (N + src.length) k D := by
    refine ⟨hi.table, hi.phase_lt, hi.pos, ?_, ?_⟩
    · have := hi.size; simp only [List.length_append]; omega
    · intro i hil
      simp only [List.length_append] at hil
      by_cases hb : i < s.buffer.length
      · simp only [List.getElem?_append_left hb]; exact hi.content i hb
      · simp only [List.getElem?_append_right (not_lt.1 hb)]
        rw [hsrc _ (by omega)]
        have := hi.size
        unfold xhat
        rw [if_neg (by omega)]
        congr 2; omega
  have hk2 : k ≤ avail I O f.length (N + src.length) := h.le.trans (avail_mono (by omega) _)
  obtain ⟨s2, n, r2, r3⟩ := Inv.outLoop fl hI hO (cdiv (src.length * s.targetRate) s.sourceRate) hi1 hk2
  have hs0 : 0 < s.sourceRate := by rw [h.src]; exact Nat.mul_pos hO hg
  unfold Resampler.process at h1
  dsimp only at h1 r2 r3
  rw [r2] at h1
  dsimp only at h1
  by_cases hor : s2.bufferOrigin > s2.buffer.length
  · rw [if_pos hor] at h1
    cases h1
  · rw [if_neg hor] at h1
    simp only [Except.ok.injEq, Prod.mk.injEq] at h1
    have hn : out.length = n := by rw [← h1.2]; simp
    rw [hn] at h3
    rw [← h.scl]
    rw [← h.scl] at h3
    refine ⟨s', n, ?_, ?_, h3⟩
    · unfold Resampler.process
      dsimp only
      rw [r2]
      dsimp only
      rw [if_neg hor, h1.1]
    · unfold Rounded.process
      dsimp only
      rw [Counting.ceilMulDiv_eq hfl _ _ _ hlen hs0 (by omega), r3]
      dsimp only
      rw [if_neg hor, h1.1]

theorem Ready.feed (hfl : Nearest fl) {g : Nat} {scale : ℝ} (hI : 0 < I) (hO : 0 < O) (hg : 0 < g) (hL : O ≤ f.length)
    (hS : O * g < 2 ^ 31) (blocks : List (List ℝ)) (hb : ∀ b ∈ blocks, b.length * (I * g) < 2 ^ 53) :
    ∀ {s : State ℝ} {N k : Nat}, Ready I O g f scale x s N k →
    (∀ i, i < blocks.flatten.length → blocks.flatten[i]? = some (x (N + i))) →
    ∃ s' outs outsR, Resampler.feed s blocks = .ok (s', outs) ∧ feed fl s blocks = .ok (s', outsR) ∧ outs.map List.length = outsR.map List.length ∧
      outs.flatten = (List.range' k outs.flatten.length).map (exact I O f scale x) ∧
      outsR.flatten = (List.range' k outs.flatten.length).map (rounded fl I O f scale x) := by
  induction blocks with
  | nil => intro s N k h _; exact ⟨s, [], [], rfl, rfl, rfl, rfl, rfl⟩
  | cons b bs ih =>
    intro s N k h hx
    simp only [List.flatten_cons, List.length_append] at hx ⊢
    obtain ⟨s1, n, r1, r2, h1⟩ := Ready.process hfl h hI hO hg hL b (by
      intro i hi
      rw [← hx i (by omega), List.getElem?_append_left hi]) (by rw [h.src]; exact hS) (by rw [h.tgt]; exact hb b (by simp))
    obtain ⟨s2, os, osR, r3, r4, l2, c2, c3⟩ := ih (fun b' hb' => hb b' (by simp [hb'])) h1 (by
      intro i hi
      have := hx (b.length + i) (by omega)
      rw [List.getElem?_append_right (by omega)] at this
      simpa [Nat.add_assoc] using this)
    refine ⟨s2, (List.range' k n).map (exact I O f scale x) :: os, (List.range' k n).map (rounded fl I O f scale x) :: osR, ?_, ?_, ?_, ?_, ?_⟩
    · rw [Resampler.feed, r1]; dsimp only; rw [r3]
    · rw [Rounded.feed, r2]; dsimp only; rw [r4]
    · simp only [List.map_cons, l2, List.length_map, List.length_range']
    · rw [List.flatten_cons, List.length_append, List.length_map, List.length_range', ← List.range'_append_1, List.map_append, ← c2]
    · rw [List.flatten_cons, List.flatten_cons, List.length_append, List.length_map, List.length_range', ← List.range'_append_1, List.map_append, ← c3]

theorem terms_le (L : Nat) (hI : 0 < I) : terms I O L k ≤ cdiv L I ∧ terms I O L k ≤ L := by
  unfold terms
  have h1 := (cdiv_le_iff (k := cdiv L I) (a := L) hI).1 le_rfl
  have h2 : cdiv (L - phaseOf I O L k) I ≤ cdiv L I := (cdiv_le_iff hI).2 (by omega)
  exact ⟨h2, h2.trans (Counting.cdiv_le L I hI)⟩

theorem phaseOf_lt (L : Nat) (hI : 0 < I) : phaseOf I O L k < I := by
  unfold phaseOf first
  have hr := Nat.mod_lt (c0 O L) hI
  generalize c0 O L % I = r at *
  obtain ⟨h1, h2⟩ := Counting.cdiv_spec (k * O - r) I hI
  rcases le_total r (k * O) with h | h
  · omega
  · rw [Nat.sub_eq_zero_of_le h, show cdiv 0 I = 0 from Nat.div_eq_of_lt (by omega)]
    omega

/-- The two values of an output differ by little. -/
theorem rounded_near (hfl : Rounds fl) (hI : 0 < I) (scale A F : ℝ) (hM : Scale (A * F)) (hsM : Scale (|scale| * (A * F))) (hA : ∀ m, |x m| ≤ A)
    (hF : ∀ p, p < I → ∑ i ∈ Finset.range f.length, |tap f (p + i * I)| ≤ F) (hf : f.length ≤ 2 ^ 40) :
    |rounded fl I O f scale x k - exact I O f scale x k| ≤ (5 * cdiv f.length I + 3) * (|scale| * (A * F) / 2 ^ 53) := by
  obtain ⟨t1, t2⟩ := terms_le (O := O) (k := k) f.length hI
  have hA0 : 0 ≤ A := (abs_nonneg _).trans (hA 0)
  have hsum : ∑ j ∈ Finset.range (terms I O f.length k), |term I O f x k j| ≤ A * F := by
    calc _ ≤ ∑ j ∈ Finset.range (terms I O f.length k), A * |tap f (phaseOf I O f.length k + j * I)| := by
          refine Finset.sum_le_sum fun j _ => ?_
          rw [term, abs_mul]
          refine mul_le_mul_of_nonneg_right ?_ (abs_nonneg _)
          unfold xhat
          split
          · simpa using hA0
          · exact hA _
      _ = A * ∑ j ∈ Finset.range (terms I O f.length k), |tap f (phaseOf I O f.length k + j * I)| := by rw [Finset.mul_sum]
      _ ≤ A * F := by
          refine mul_le_mul_of_nonneg_left ?_ hA0
          refine le_trans ?_ (hF _ (phaseOf_lt (O := O) (k := k) f.length hI))
          exact Finset.sum_le_sum_of_subset_of_nonneg (Finset.range_mono t2) (fun _ _ _ => abs_nonneg _)
  have hn : ((terms I O f.length k : ℕ) : ℝ) ≤ 2 ^ 40 := by exact_mod_cast t2.trans hf
  have h1 := flSum_rounded hfl hM (term I O f x k) _ hn hsum
  have h2 : |∑ j ∈ Finset.range (terms I O f.length k), term I O f x k j| ≤ A * F := partial_abs_le _ _ _ le_rfl hsum
  have hs0 := abs_nonneg scale
  unfold rounded exact
  generalize flSum fl (fun j => fl (term I O f x k j)) (terms I O f.length k) = v at *
  generalize ∑ j ∈ Finset.range (terms I O f.length k), term I O f x k j = e at *
  generalize A * F = M at *
  have hw := unit_pos hM
  have h3 : |scale * v - scale * e| ≤ 5 * (terms I O f.length k : ℕ) * (|scale| * M / 2 ^ 53) := by
    rw [← mul_sub, abs_mul]
    calc _ ≤ |scale| * (5 * (terms I O f.length k : ℕ) * (M / 2 ^ 53)) := mul_le_mul_of_nonneg_left h1 hs0
      _ = _ := by ring
  have h4 : |v| ≤ 2 * M := by
    have := abs_le_of_sub _ _ _ _ h1 h2
    have h5 : 5 * (terms I O f.length k : ℝ) * (M / 2 ^ 53) ≤ M := by
      calc _ ≤ 2 ^ 53 * (M / 2 ^ 53) := mul_le_mul_of_nonneg_right (by linarith) hw
        _ = M := by field_simp
    linarith
  have h5 : |scale * v| ≤ 2 * (|scale| * M) := by
    rw [abs_mul]
    calc _ ≤ |scale| * (2 * M) := mul_le_mul_of_nonneg_left h4 hs0
      _ = _ := by ring
  have h6 := rnd hfl hsM (scale * v) 2 (by norm_num) h5
  have h7 := abs_add_le (fl (scale * v) - scale * v) (scale * v - scale * e)
  rw [sub_add_sub_cancel] at h7
  have h8 : (terms I O f.length k : ℝ) ≤ cdiv f.length I := by exact_mod_cast t1
  calc _ ≤ _ := h7
    _ ≤ (2 + 1) * (|scale| * M / 2 ^ 53) + 5 * (terms I O f.length k : ℕ) * (|scale| * M / 2 ^ 53) := add_le_add h6 h3
    _ = (5 * (terms I O f.length k : ℕ) + 3) * (|scale| * M / 2 ^ 53) := by ring
    _ ≤ _ := mul_le_mul_of_nonneg_right (by linarith) (unit_pos hsM)

end QM.Resampler.Rounded
