import Verif.TempoTrackV2.Lemmas

namespace QM.TempoTrackV2

open QM.MathReal

section
variable {K : Type} [Field K] [LinearOrder K] [IsStrictOrderedRing K]

omit [LinearOrder K] [IsStrictOrderedRing K] in
theorem spread_ok {T L : Nat} {q : Nat → Nat} {best : List Nat} {bp : List K} (hT : 0 < T) (hb : Holds T q best) (hl : bp.length = L) (hL : T * 128 ≤ L) :
    ∃ bp', spread T best bp = some bp' ∧ Holds L (fun m => ((q (min (m / 128) (T - 1)) : Nat) : K)) bp' := by
  obtain ⟨⟨last, b1⟩, h1, h2, h3⟩ := loop_inv (n := T * 128) (f := fun k (s : Nat × List K) => do
      let b ← best[k / 128]?
      let bp ← wr s.2 (k / 128 * 128 + k % 128) (b : K)
      pure (k / 128 * 128 + k % 128, bp)) (s := (0, bp))
    (P := fun k s => s.1 = k - 1 ∧ Part L k (fun m => ((q (m / 128) : Nat) : K)) (fun m => bp.getD m 0) s.2)
    ⟨rfl, (holds_of_length hl 0).part _⟩
    (by
      rintro k ⟨l, b⟩ hk ⟨i1, i2⟩
      have hkT : k / 128 < T := Nat.div_lt_of_lt_mul (by omega)
      refine ⟨(k, b.set k ((q (k / 128) : Nat) : K)), ?_, rfl, i2.step (by omega)⟩
      rw [bind_ok (hb.2 _ hkT)]
      dsimp only
      rw [flat_eta, bind_ok (i2.wr (by omega))]
      rfl)
  dsimp only at h2 h3
  subst h2
  have hlen : b1.length = L := h3.1
  obtain ⟨b2, h4, h5⟩ := loop_inv (n := b1.length - (T * 128 - 1)) (f := fun i (b : List K) => do
      let v ← b[T * 128 - 1]?
      wr b (T * 128 - 1 + i) v) (s := b1)
    (P := fun i b => Part L (max (T * 128) (T * 128 - 1 + i)) (fun m => ((q (min (m / 128) (T - 1)) : Nat) : K)) (fun m => bp.getD m 0) b)
    (by
      rw [show max (T * 128) (T * 128 - 1 + 0) = T * 128 by omega]
      refine ⟨h3.1, fun j hj => ?_⟩
      rw [h3.2 j hj]
      by_cases c : j < T * 128
      · rw [if_pos c, if_pos c]
        have : j / 128 < T := Nat.div_lt_of_lt_mul (by omega)
        dsimp only
        rw [show min (j / 128) (T - 1) = j / 128 by omega]
      · rw [if_neg c, if_neg c])
    (by
      intro i b hi hb'
      have hv : b[T * 128 - 1]? = some ((q (T - 1) : Nat) : K) := by
        rw [hb'.2 (T * 128 - 1) (by omega), if_pos (by omega)]
        dsimp only
        rw [show min ((T * 128 - 1) / 128) (T - 1) = T - 1 by omega]
      by_cases h0 : i = 0
      · subst h0
        refine ⟨b, ?_, ?_⟩
        · rw [bind_ok hv]
          have hw : wr b (T * 128 - 1 + 0) ((q (T - 1) : Nat) : K) = some (b.set (T * 128 - 1) ((q (T - 1) : Nat) : K)) :=
            wr_some _ (by rw [hb'.1]; omega)
          rw [hw]
          congr 1
          apply List.ext_getElem?
          intro m
          rw [List.getElem?_set]
          split
          · next e =>
            subst e
            rw [if_pos (by rw [hb'.1]; omega), hv]
          · rfl
        · rw [show max (T * 128) (T * 128 - 1 + (0 + 1)) = max (T * 128) (T * 128 - 1 + 0) by omega]
          exact hb'
      · rw [show max (T * 128) (T * 128 - 1 + i) = T * 128 - 1 + i by omega] at hb'
        rw [show max (T * 128) (T * 128 - 1 + (i + 1)) = T * 128 - 1 + i + 1 by omega]
        have hn : ((q (T - 1) : Nat) : K) = (fun m => ((q (min (m / 128) (T - 1)) : Nat) : K)) (T * 128 - 1 + i) := by
          have : T - 1 ≤ (T * 128 - 1 + i) / 128 := by omega
          dsimp only
          rw [show min ((T * 128 - 1 + i) / 128) (T - 1) = T - 1 by omega]
        refine ⟨_, ?_, hb'.step (by omega)⟩
        rw [bind_ok hv, hn]
        exact hb'.wr (by omega))
  rw [hlen, show max (T * 128) (T * 128 - 1 + (L - (T * 128 - 1))) = L by omega] at h5
  refine ⟨b2, ?_, h5.holds⟩
  unfold spread
  rw [loop_nest T 128 (fun i j (s : Nat × List K) => do
      let b ← best[i]?
      let bp ← wr s.2 (i * 128 + j) (b : K)
      pure (i * 128 + j, bp)), bind_ok h1]
  exact h4

/-- The score of a sequence of periods: the weight of the first, the strength of each in its frame, and the weight of each change. -/
def score (ex : K → K) (n : Nat) (W : Nat → K) (R : Nat → Nat → K) (q : Nat → Nat) (T : Nat) : K :=
  W (q 0) * R 0 (q 0) * ∏ t ∈ Finset.range (T - 1), trans ex n (q (t + 1)) (q t) * R (t + 1) (q (t + 1))

omit [IsStrictOrderedRing K] in
theorem val_score {ex : K → K} {n : Nat} {W : Nat → K} {R : Nat → Nat → K} {c : Nat → K} (q : Nat → Nat) (m : Nat) :
    Viterbi.val (fun i => W i * R 0 i / c 0) (fun t i j v => v * trans ex n j i * R (t + 1) j / c (t + 1)) q m * (∏ t ∈ Finset.range (m + 1), c t)⁻¹⁻¹
      = (∏ t ∈ Finset.range (m + 1), c t * (c t)⁻¹) * score ex n W R q (m + 1) := by
  induction m with
  | zero => simp [Viterbi.val, score, div_eq_mul_inv]; ring
  | succ m ih =>
    rw [inv_inv] at ih ⊢
    rw [Finset.prod_range_succ _ (m + 1), Finset.prod_range_succ _ (m + 1)]
    have e : score ex n W R q (m + 1 + 1) = score ex n W R q (m + 1) * (trans ex n (q (m + 1)) (q m) * R (m + 1) (q (m + 1))) := by
      unfold score
      rw [show m + 1 + 1 - 1 = m + 1 by omega, show m + 1 - 1 = m by omega, Finset.prod_range_succ]
      ring
    rw [e]
    show Viterbi.val _ _ q m * trans ex n (q (m + 1)) (q m) * R (m + 1) (q (m + 1)) / c (m + 1) * _ = _
    rw [div_eq_mul_inv]
    linear_combination (trans ex n (q (m + 1)) (q m) * R (m + 1) (q (m + 1)) * (c (m + 1))⁻¹ * c (m + 1)) * ih

theorem trans_nonneg {ex : K → K} (hex : ∀ x, 0 < ex x) (n i j : Nat) : 0 ≤ trans ex n i j := by
  unfold trans
  split
  · exact (hex _).le
  · exact le_refl _

/-- The decoder: the periods lie in the band, spread over the output vector, and no sequence of periods has a greater score. -/
theorem decode_ok {ex : K → K} (hex : ∀ x, 0 < ex x) {rate : K} {inc : Int} (hinc : inc ≠ 0) {T n L : Nat} {W : Nat → K} {R : Nat → Nat → K}
    {rcfmat : List (List K)} {wv bp tempi : List K} (hT : 2 ≤ T) (hn : 41 ≤ n) (hr : Holds2 T n R rcfmat) (hw : Holds n W wv)
    (hR : ∀ t j, 0 ≤ R t j) (hRp : ∀ t j, t < T → j < n → 0 < R t j) (hW : ∀ j, 0 ≤ W j) (hWp : ∀ j, 20 ≤ j → j < n → 0 < W j)
    (hl : bp.length = L) (hL : T * 128 ≤ L) :
    ∃ (q : Nat → Nat) (bp' : List K), viterbiDecode ex rate inc rcfmat wv bp tempi = some (bp', tempi ++ bp'.map fun b => 60 * rate / (inc : K) / b) ∧
      Holds L (fun m => ((q (min (m / 128) (T - 1)) : Nat) : K)) bp' ∧ (∀ t, t < T → 20 ≤ q t ∧ q t < n - 20) ∧
      ∀ q' : Nat → Nat, (∀ t, t < T → q' t < n) → score ex n W R q' T ≤ score ex n W R q T := by
  obtain ⟨tm, h1, h2⟩ := transitions_ok ex n
  obtain ⟨d, p, φ, ψ, c, h3, h4, h5, h6, h7, h8, h9⟩ := decodePass_ok (by omega) (by omega) h2 hr hw (trans_nonneg hex n) hR hW
  obtain ⟨best, q, h10, h11, h12, h13, h14⟩ := decodePath_ok (by omega) hT h4 h5 (fun i hi => h7 _ i (by omega) hi) (fun t j ht hj => (h9 t j ht hj).1)
  obtain ⟨bp', h15, h16⟩ := spread_ok (K := K) (by omega) h11 hl hL
  -- the band has positive entries
  have hpos : ∀ t, t < T → ∀ j, 20 ≤ j → j < n - 20 → 0 < φ t j := by
    intro t
    induction t with
    | zero =>
      intro ht j h20 hj
      rw [h8 j (by omega)]
      exact div_pos (mul_pos (hWp j h20 (by omega)) (hRp 0 j ht (by omega))) (h6 0)
    | succ t ih =>
      intro ht j h20 hj
      obtain ⟨_, g2, g3⟩ := h9 t j ht (by omega)
      rw [g2]
      refine div_pos (mul_pos (lt_of_lt_of_le ?_ (g3 j (by omega))) (hRp _ _ ht (by omega))) (h6 _)
      refine mul_pos (ih (by omega) j h20 hj) ?_
      unfold trans
      rw [if_pos ⟨⟨h20, hj⟩, h20, hj⟩]
      exact hex _
  have hstep : ∀ t, t + 1 < T → φ (t + 1) (q (t + 1)) = φ t (q t) * trans ex n (q (t + 1)) (q t) * R (t + 1) (q (t + 1)) / c (t + 1) := by
    intro t ht
    obtain ⟨_, g2, _⟩ := h9 t (q (t + 1)) ht (h12 _ ht)
    rw [g2, ← h13 t ht]
  have hposq : ∀ k, k < T → 0 < φ (T - 1 - k) (q (T - 1 - k)) := by
    intro k
    induction k with
    | zero =>
      intro _
      exact lt_of_lt_of_le (hpos (T - 1) (by omega) 20 (Nat.le_refl _) (by omega)) (h14 20 (by omega))
    | succ k ih =>
      intro hk
      have hs := hstep (T - 1 - (k + 1)) (by omega)
      have hp := ih (by omega)
      rw [show T - 1 - (k + 1) + 1 = T - 1 - k by omega] at hs
      rw [hs] at hp
      rcases (h7 (T - 1 - (k + 1)) (q (T - 1 - (k + 1))) (by omega) (h12 _ (by omega))).lt_or_eq with h | h
      · exact h
      · rw [← h] at hp; simp at hp
  have htr : ∀ t, t + 1 < T → trans ex n (q (t + 1)) (q t) ≠ 0 := by
    intro t ht h0
    have hp := hposq (T - 1 - (t + 1)) (by omega)
    rw [show T - 1 - (T - 1 - (t + 1)) = t + 1 by omega, hstep t ht, h0] at hp
    simp at hp
  have hband : ∀ t, t + 1 < T → (20 ≤ q (t + 1) ∧ q (t + 1) < n - 20) ∧ 20 ≤ q t ∧ q t < n - 20 := by
    intro t ht
    have := htr t ht
    unfold trans at this
    by_contra hc
    rw [if_neg hc] at this
    exact this rfl
  have hbandq : ∀ t, t < T → 20 ≤ q t ∧ q t < n - 20 := by
    intro t ht
    by_cases e : t + 1 < T
    · exact (hband t e).2
    · have := (hband (t - 1) (by omega)).1
      rw [show t - 1 + 1 = t by omega] at this
      exact this
  have htempi : loop bp'.length (fun i (tempi : List K) => do
      let v ← bp'[i]?
      if (inc : K) = 0 ∨ v = 0 then none else pure (tempi ++ [60 * rate / inc / v])) tempi = some (tempi ++ bp'.map fun b => 60 * rate / (inc : K) / b) := by
    obtain ⟨r, e1, e2⟩ := loop_inv (n := bp'.length) (f := fun i (tempi : List K) => do
      let v ← bp'[i]?
      if (inc : K) = 0 ∨ v = 0 then none else pure (tempi ++ [60 * rate / inc / v])) (s := tempi)
      (P := fun i r => r = tempi ++ (bp'.take i).map fun b => 60 * rate / (inc : K) / b)
      (by simp)
      (by
        intro i r hi hr
        have hiL : i < L := by rw [← h16.1]; exact hi
        have hv : bp'[i]? = some (((q (min (i / 128) (T - 1)) : Nat) : K)) := h16.2 i hiL
        refine ⟨r ++ [60 * rate / inc / ((q (min (i / 128) (T - 1)) : Nat) : K)], ?_, ?_⟩
        · rw [bind_ok hv, if_neg]
          · rfl
          · rintro (h | h)
            · exact hinc (by exact_mod_cast h)
            · have := hbandq (min (i / 128) (T - 1)) (by omega)
              have h0 : q (min (i / 128) (T - 1)) = 0 := by exact_mod_cast h
              omega
        · rw [hr, List.take_succ, hv]
          simp)
    rw [e1, e2, List.take_length]
  refine ⟨q, bp', ?_, h16, hbandq, fun q' hq' => ?_⟩
  · unfold viterbiDecode
    obtain ⟨r0, g1, g2⟩ := hr.2 0 (by omega)
    rw [hw.1, bind_ok h1]
    dsimp only
    rw [hr.1, if_neg (by omega), bind_ok g1, g2.1, bind_ok h3, bind_ok h10, bind_ok h15, bind_ok htempi]
    rfl
  · have hopt := Viterbi.optimal (N := n) (n := T - 1) (u := fun i => W i * R 0 i / c 0)
      (M := fun t i j v => v * trans ex n j i * R (t + 1) j / c (t + 1)) (phi := φ) (q := q)
      (fun t i j _ x y h => div_le_div_of_nonneg_right (mul_le_mul_of_nonneg_right (mul_le_mul_of_nonneg_right h (trans_nonneg hex n j i)) (hR _ _)) (h6 _).le)
      h8 (fun t i j ht hi hj => by
        obtain ⟨_, g2, g3⟩ := h9 t j (by omega) hj
        rw [g2]
        exact div_le_div_of_nonneg_right (mul_le_mul_of_nonneg_right (g3 i hi) (hR _ _)) (h6 _).le)
      (fun t ht => hstep t (by omega)) (fun t ht => h12 t (by omega)) h14 q' (fun t ht => hq' t (by omega))
    have hone : ∏ t ∈ Finset.range (T - 1 + 1), c t * (c t)⁻¹ = 1 := by
      refine Finset.prod_eq_one fun t _ => mul_inv_cancel₀ (h6 t).ne'
    have hs : ∀ q, score ex n W R q T = Viterbi.val (fun i => W i * R 0 i / c 0) (fun t i j v => v * trans ex n j i * R (t + 1) j / c (t + 1)) q (T - 1) *
        (∏ t ∈ Finset.range (T - 1 + 1), c t)⁻¹⁻¹ := by
      intro q
      rw [val_score, hone, one_mul, show T - 1 + 1 = T by omega]
    rw [hs, hs]
    refine mul_le_mul_of_nonneg_right hopt ?_
    rw [inv_inv]
    exact Finset.prod_nonneg fun t _ => (h6 t).le

end

end QM.TempoTrackV2
