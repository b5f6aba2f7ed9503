import Verif.Filter.TwoPass
import Verif.TempoTrackV2.FilterProps

/-!
# C93: zero-phase filtering with recursive filters
-/

namespace QM.Filter

open Finset QM.Filter.Rounded

theorem stable_of_sum (a : List ℝ) (r : ℝ) (h0 : 0 < r) (h1 : r ≤ 1) (h : ∑ i ∈ range (a.length - 1), |a.getD (i + 1) 0| ≤ r ^ a.length) : Stable a 1 r := by
  intro N y hy k hk
  rw [diffEq_unique [1] a _ _ _ hy (imp_diffEq a N), List.getD_eq_getElem?_getD, List.getElem?_map, List.getElem?_range (by omega), one_mul]
  exact imp_decay a r h0 h1 h k

/-- **C93** A filter is stable if the magnitudes of the coefficients fed back sum to less than one. -/
theorem C93_stable (a : List ℝ) (ρ : ℝ) (hρ : ρ < 1) (h : ∑ i ∈ range (a.length - 1), |a.getD (i + 1) 0| ≤ ρ) : ∃ r, 0 < r ∧ r < 1 ∧ Stable a 1 r := by
  obtain ⟨r, h0, h1, h2⟩ := rate_exists ρ ((sum_nonneg fun _ _ => abs_nonneg _).trans h) hρ a.length
  exact ⟨r, h0, h1, stable_of_sum a r h0 h1.le (h.trans h2)⟩

theorem abs_bound (l : List ℝ) : ∃ P, 0 ≤ P ∧ ∀ v ∈ l, |v| ≤ P := by
  induction l with
  | nil => exact ⟨0, le_rfl, by simp⟩
  | cons x l ih =>
    obtain ⟨P, h0, h⟩ := ih
    refine ⟨max |x| P, le_trans h0 (le_max_right _ _), fun v hv => ?_⟩
    rcases List.mem_cons.1 hv with rfl | hv
    · exact le_max_left _ _
    · exact (h v hv).trans (le_max_right _ _)

theorem getD_cut (l : List ℝ) (N n i : ℕ) (h : i < n) : ((l.drop N).take n).getD i 0 = l.getD (N + i) 0 := by
  rw [List.getD_eq_getElem?_getD, List.getElem?_take, if_pos h, List.getElem?_drop, ← List.getD_eq_getElem?_getD]

theorem stable_D {a : List ℝ} {D r : ℝ} (h : Stable a D r) : 0 ≤ D := by
  have := h.imp_le 0
  rw [pow_zero, mul_one] at this
  exact (abs_nonneg _).trans this

theorem tone_cos (amp w φ : ℝ) (N : ℕ) (k : ℤ) : tone w (amp * Complex.exp ((φ - w * N : ℝ) * Complex.I)) k = amp * Real.cos (w * (k - N) + φ) := by
  unfold tone
  rw [mul_assoc, ← Complex.exp_add, ← add_mul, ← Complex.ofReal_add, Complex.re_ofReal_mul, Complex.exp_ofReal_mul_I_re]
  congr 2
  push_cast
  ring

theorem oddExt_tone (N n k : ℕ) (amp w φ : ℝ) :
    |oddExt N ((List.range n).map (fun (k : Nat) => amp * Real.cos (w * k + φ))) k - amp * Real.cos (w * (((k : ℕ) : ℤ) - N) + φ)| ≤ 4 * |amp| := by
  have hc : ∀ x, |amp * Real.cos x| ≤ |amp| := by
    intro x
    rw [abs_mul]
    exact mul_le_of_le_one_right (abs_nonneg _) (Real.abs_cos_le_one x)
  have hg : ∀ i, |((List.range n).map (fun (k : Nat) => amp * Real.cos (w * k + φ))).getD i 0| ≤ |amp| := by
    intro i
    rw [List.getD_eq_getElem?_getD, List.getElem?_map]
    rcases Nat.lt_or_ge i n with h | h
    · rw [List.getElem?_range h]
      exact hc _
    · rw [List.getElem?_eq_none (by simpa using h)]
      simp
  have ho : |oddExt N ((List.range n).map (fun (k : Nat) => amp * Real.cos (w * k + φ))) k| ≤ 3 * |amp| := by
    have h0 := abs_nonneg amp
    have ht : ∀ i j, |2 * ((List.range n).map (fun (k : Nat) => amp * Real.cos (w * k + φ))).getD i 0 - ((List.range n).map (fun (k : Nat) => amp * Real.cos (w * k + φ))).getD j 0| ≤ 3 * |amp| := by
      intro i j
      refine (abs_sub _ _).trans ?_
      rw [abs_mul, abs_two]
      linarith [hg i, hg j]
    unfold oddExt
    dsimp only
    split
    · split
      · exact ht _ _
      · rw [abs_zero]; linarith
    · split
      · linarith [hg (k - N)]
      · split
        · exact ht _ _
        · rw [abs_zero]; linarith
  refine (abs_sub _ _).trans ?_
  linarith [hc (w * (((k : ℕ) : ℤ) - N) + φ)]

theorem sinusoid_core (b a : List ℝ) (D r s : ℝ) (hst : Stable a D r) (hr : 0 < r) (hrs : r < s) (hs : s < 1) (t : State ℝ) (xs ys : List ℝ) (hi : Inv b a t xs ys) (hd : DiffEq b a xs ys)
    (P : ℝ) (hP : 0 ≤ P) (hxs : ∀ v ∈ xs, |v| ≤ P) (hys : ∀ v ∈ ys, |v| ≤ P) (amp w φ : ℝ) (n : ℕ) :
    ∃ t' dst, filtfilt t ((List.range n).map (fun (k : Nat) => amp * Real.cos (w * k + φ))) = some (t', dst) ∧ dst.length = n ∧
      ∀ i < n, |dst.getD i 0 - ‖freqResponse b a w‖ ^ 2 * (amp * Real.cos (w * i + φ))| ≤ passK b a D r s (3 * (b.length - 1)) * (|amp| + P) * (s ^ i + s ^ (n - 1 - i)) := by
  have hs0 : 0 < s := hr.trans hrs
  have hD := stable_D hst
  rcases Nat.eq_zero_or_pos n with h0 | hpos
  · subst h0
    exact ⟨t, [], by simp [filtfilt], rfl, by simp⟩
  set src := (List.range n).map (fun (k : Nat) => amp * Real.cos (w * k + φ)) with hsrc
  have hlen : src.length = n := by simp [hsrc]
  obtain ⟨t', y1, y2, h1, h2, h3, h4, h5⟩ := filtfilt_spec b a t xs ys hi hd src (by
    intro h
    rw [h] at hlen
    simp at hlen
    omega)
  set N := 3 * (b.length - 1) with hN
  have hy2 : y2.length = n + 2 * N := by rw [h5.1, List.length_reverse, h3, hlen]
  refine ⟨t', _, h1, by simp only [List.length_take, List.length_drop, List.length_reverse]; omega, fun i hi' => ?_⟩
  rw [List.getD_eq_getElem?_getD, List.getElem?_take, if_pos (by omega), List.getElem?_drop, ← List.getD_eq_getElem?_getD]
  set ext := (List.range (src.length + 2 * N)).map (oddExt N src) with hext
  have hel : ext.length = n + 2 * N := by simp [hext, hlen]
  have hget : ∀ k < ext.length, ext.getD k 0 = oddExt N src k := by
    intro k hk
    rw [hext, List.getD_eq_getElem?_getD, List.getElem?_map, List.getElem?_range (by omega)]
    rfl
  have hnorm : ‖(amp : ℂ) * Complex.exp ((φ - w * N : ℝ) * Complex.I)‖ ≤ |amp| := by
    rw [norm_mul, Complex.norm_exp_ofReal_mul_I, mul_one, Complex.norm_real, Real.norm_eq_abs]
  have key := twoPass b a D r s hr (hrs.trans hs) hrs hs hD hst.imp_le xs ys ext y1 y2 N P |amp| w (amp * Complex.exp ((φ - w * N : ℝ) * Complex.I)) hP hnorm hd.1.symm h4 h5 hxs hys
    (fun k hk => by
      rw [hget k hk, tone_cos, hsrc]
      exact oddExt_tone N n k amp w φ)
    (fun k hk hk2 => by
      rw [hget k (by omega), tone_cos, oddExt]
      rw [if_neg (by omega), if_pos (by omega), hsrc, List.getD_eq_getElem?_getD, List.getElem?_map, List.getElem?_range (by omega)]
      show amp * Real.cos (w * ((k - N : ℕ) : ℝ) + φ) = _
      rw [Nat.cast_sub hk]
      push_cast
      rfl)
    (N + i) (by omega)
  rw [tone_cos] at key
  have e1 : w * ((((N + i : ℕ) : ℤ) : ℝ) - N) + φ = w * i + φ := by
    push_cast
    ring
  rw [e1] at key
  refine key.trans (mul_le_mul_of_nonneg_left ?_ (mul_nonneg (passK_nonneg b a D r s N hD hr (hrs.trans hs) hrs) (by positivity)))
  unfold env
  exact add_le_add (pow_le_pow_of_le_one hs0.le hs.le (by omega)) (pow_le_pow_of_le_one hs0.le hs.le (by omega))

/-- **C93** Zero-phase filtering by any stable recursive filter: for one constant of the filter, and any rate `s` slower than its impulse response, a sinusoid
of any amplitude, frequency, phase and length comes out of a new object unshifted, with the squared gain of the filter, up to an error that dies out at the
rate `s` away from both ends of the block. -/
theorem C93_sinusoid (b a : List ℝ) (hord : a.length ≠ 1) (D r s : ℝ) (hst : Stable a D r) (hr : 0 < r) (hrs : r < s) (hs : s < 1) :
    ∃ C : ℝ, ∀ (t : State ℝ) (amp w φ : ℝ) (n : ℕ), new b a = .ok t →
      ∃ t' dst, filtfilt t ((List.range n).map (fun (k : Nat) => amp * Real.cos (w * k + φ))) = some (t', dst) ∧ dst.length = n ∧
        ∀ i < n, |dst.getD i 0 - ‖freqResponse b a w‖ ^ 2 * (amp * Real.cos (w * i + φ))| ≤ C * |amp| * (s ^ i + s ^ (n - 1 - i)) := by
  refine ⟨passK b a D r s (3 * (b.length - 1)), fun t amp w φ n ht => ?_⟩
  have := sinusoid_core b a D r s hst hr hrs hs t [] [] (new_inv b a t ht hord) ⟨rfl, by simp⟩ 0 le_rfl (by simp) (by simp) amp w φ n
  rwa [add_zero] at this

/-- **C93** The same in an object used before: the earlier calls add an amount `P` that does not depend on the new block. -/
theorem C93_sinusoid_after (b a : List ℝ) (hord : a.length ≠ 1) (D r s : ℝ) (hst : Stable a D r) (hr : 0 < r) (hrs : r < s) (hs : s < 1) :
    ∃ C : ℝ, ∀ (t0 t : State ℝ) (calls : List (List ℝ)), new b a = .ok t0 → runFF t0 calls = some t → ∃ P : ℝ, ∀ (amp w φ : ℝ) (n : ℕ),
      ∃ t' dst, filtfilt t ((List.range n).map (fun (k : Nat) => amp * Real.cos (w * k + φ))) = some (t', dst) ∧ dst.length = n ∧
        ∀ i < n, |dst.getD i 0 - ‖freqResponse b a w‖ ^ 2 * (amp * Real.cos (w * i + φ))| ≤ C * (|amp| + P) * (s ^ i + s ^ (n - 1 - i)) := by
  refine ⟨passK b a D r s (3 * (b.length - 1)), fun t0 t calls h ht => ?_⟩
  obtain ⟨t1, xs, ys, e1, e2, e3⟩ := runFF_inv b a calls t0 [] [] (new_inv b a t0 h hord) ⟨rfl, by simp⟩
  obtain rfl : t = t1 := by
    rw [ht] at e1
    exact Option.some.inj e1
  obtain ⟨P, hP, hPle⟩ := abs_bound (xs ++ ys)
  exact ⟨P, fun amp w φ n => sinusoid_core b a D r s hst hr hrs hs t xs ys e2 e3 P hP (fun v hv => hPle v (List.mem_append_left _ hv)) (fun v hv => hPle v (List.mem_append_right _ hv)) amp w φ n⟩

/-- **C93** What earlier calls leave behind (`C12_violation`) dies out from the start of the next block: two objects with different earlier calls give results
that differ by at most `W * s ^ i` at sample `i`, whatever the block. -/
theorem C93_history (b a : List ℝ) (hord : a.length ≠ 1) (D r s : ℝ) (hst : Stable a D r) (hr : 0 < r) (hrs : r < s) (hs : s < 1) (t0 t u : State ℝ)
    (calls calls' : List (List ℝ)) (h : new b a = .ok t0) (ht : runFF t0 calls = some t) (hu : runFF t0 calls' = some u) :
    ∃ W : ℝ, ∀ src : List ℝ, ∃ t' u' x y, filtfilt t src = some (t', x) ∧ filtfilt u src = some (u', y) ∧ x.length = src.length ∧ y.length = src.length ∧
      ∀ i < src.length, |x.getD i 0 - y.getD i 0| ≤ W * s ^ i := by
  have hs0 : 0 < s := hr.trans hrs
  have hD := stable_D hst
  have hn := new_inv b a t0 h hord
  obtain ⟨t1, xs, ys, e1, e2, e3⟩ := runFF_inv b a calls t0 [] [] hn ⟨rfl, by simp⟩
  obtain ⟨u1, xs', ys', f1, f2, f3⟩ := runFF_inv b a calls' t0 [] [] hn ⟨rfl, by simp⟩
  obtain rfl : t = t1 := by
    rw [ht] at e1
    exact Option.some.inj e1
  obtain rfl : u = u1 := by
    rw [hu] at f1
    exact Option.some.inj f1
  obtain ⟨P, hP, hPle⟩ := abs_bound (xs ++ ys ++ (xs' ++ ys'))
  refine ⟨gainK b a D r s * (gainK b a D r s * (2 * P)), fun src => ?_⟩
  by_cases hne : src = []
  · subst hne
    exact ⟨t, u, [], [], by simp [filtfilt], by simp [filtfilt], rfl, rfl, by simp⟩
  obtain ⟨t', y1, y2, h1, h2, h3, h4, h5⟩ := filtfilt_spec b a t xs ys e2 e3 src hne
  obtain ⟨u', z1, z2, k1, k2, k3, k4, k5⟩ := filtfilt_spec b a u xs' ys' f2 f3 src hne
  set N := 3 * (b.length - 1) with hN
  have hy2 : y2.length = src.length + 2 * N := by rw [h5.1, List.length_reverse, h3]
  have hz2 : z2.length = src.length + 2 * N := by rw [k5.1, List.length_reverse, k3]
  refine ⟨t', u', _, _, h1, k1, by simp only [List.length_take, List.length_drop, List.length_reverse]; omega, by simp only [List.length_take, List.length_drop, List.length_reverse]; omega, fun i hi => ?_⟩
  rw [getD_cut _ _ _ _ hi, getD_cut _ _ _ _ hi]
  have key := twoPasts b a D r s hr hrs hs hD hst.imp_le xs ys xs' ys' _ y1 y2 z1 z2 P hP e3.1.symm f3.1.symm h4 h5 k4 k5
    (fun v hv => hPle v (by simp [hv])) (fun v hv => hPle v (by simp [hv])) (fun v hv => hPle v (by simp [hv])) (fun v hv => hPle v (by simp [hv])) (N + i)
    (by simp only [List.length_map, List.length_range]; omega)
  refine key.trans (mul_le_mul_of_nonneg_left (pow_le_pow_of_le_one hs0.le hs.le (by omega)) ?_)
  have := gainK_nonneg b a D r s hD hr hrs
  positivity

/-- `b = 4`, `a = 1 - z / 2` on a silent block of one sample. -/
theorem grow_passes (xs ys ext y1 y2 : List ℝ) (hl : xs.length = ys.length) (he : ext.length = 7) (hy : y1.length = 7) (h1 : DiffEq [4, 0] [1, -(1 / 2)] (xs ++ ext) (ys ++ y1))
    (h2 : DiffEq [4, 0] [1, -(1 / 2)] y1.reverse y2) (V : ℝ) (hV : 0 ≤ V) (h0 : V ≤ zf ys ys.length (-1)) (hext : ∀ k < 7, 0 ≤ ext.getD k 0) :
    (∀ k < 7, V / 2 ^ (k + 1) ≤ y1.getD k 0) ∧ (∀ k < 7, 4 * ext.getD k 0 ≤ y1.getD k 0) ∧ (∀ k < 7, 4 * y1.getD (6 - k) 0 ≤ y2.getD k 0) ∧
      (∀ k < 6, y2.getD k 0 / 2 ≤ y2.getD (k + 1) 0) := by
  have f := sol_of_diffEq _ _ _ _ xs.length 7 h1 (by rw [List.length_append]; omega)
  have g := sol_of_diffEq _ _ _ _ 0 7 h2 (by rw [List.length_reverse]; omega)
  simp only [Sol, List.length_cons, List.length_nil, sum_range_succ, range_zero, sum_empty, List.getD_cons_succ, List.getD_cons_zero] at f g
  have hp : zf (ys ++ y1) xs.length (-1) = zf ys ys.length (-1) := by
    unfold zf
    rw [hl]
    split
    · next hc =>
      rw [List.getD_eq_getElem?_getD, List.getElem?_append_left (by omega), ← List.getD_eq_getElem?_getD]
    · rfl
  have f' : ∀ k < 7, y1.getD k 0 = 4 * ext.getD k 0 + zf (ys ++ y1) xs.length ((k : ℤ) - 1) / 2 := by
    intro k hk
    have := f k hk
    rw [hl, zf_append_nat, ← hl] at this
    simp at this
    rw [← zf_append_nat xs ext k]
    simp
    linarith
  have fs : ∀ k < 6, zf (ys ++ y1) xs.length (((k + 1 : ℕ) : ℤ) - 1) = y1.getD k 0 := by
    intro k _
    rw [show (((k + 1 : ℕ) : ℤ) - 1) = (k : ℤ) by omega, hl, zf_append_nat]
  have g' : ∀ k < 7, y2.getD k 0 = 4 * y1.getD (6 - k) 0 + zf y2 0 ((k : ℤ) - 1) / 2 := by
    intro k hk
    have := g k hk
    rw [zf_nat, Nat.zero_add] at this
    have e := zf_rev y1 7 hy k hk
    simp only [Nat.cast_zero, sub_zero, zero_add] at this
    rw [e] at this
    rw [this]
    push_cast
    ring
  have gs : ∀ k < 6, zf y2 0 (((k + 1 : ℕ) : ℤ) - 1) = y2.getD k 0 := by
    intro k _
    rw [show (((k + 1 : ℕ) : ℤ) - 1) = (k : ℤ) by omega, zf_nat, Nat.zero_add]
  have a1 : ∀ k < 7, V / 2 ^ (k + 1) ≤ y1.getD k 0 := by
    intro k
    induction k with
    | zero =>
      intro hk
      rw [f' 0 hk, show (((0 : ℕ) : ℤ) - 1) = -1 by rfl, hp]
      have := hext 0 hk
      norm_num at *
      linarith
    | succ k ih =>
      intro hk
      rw [f' _ hk, fs k (by omega), pow_succ, ← div_div]
      have := ih (by omega)
      have := hext (k + 1) hk
      linarith
  have a0 : ∀ k < 7, 0 ≤ y1.getD k 0 := fun k hk => le_trans (by positivity) (a1 k hk)
  have a2 : ∀ k < 7, 4 * ext.getD k 0 ≤ y1.getD k 0 := by
    intro k hk
    rcases k with _ | k
    · rw [f' 0 hk, show (((0 : ℕ) : ℤ) - 1) = -1 by rfl, hp]
      linarith
    · rw [f' _ hk, fs k (by omega)]
      have := a0 k (by omega)
      linarith
  have a3 : ∀ k < 7, 0 ≤ y2.getD k 0 := by
    intro k
    induction k with
    | zero =>
      intro hk
      rw [g' 0 hk, zf_past _ _ (by omega)]
      have := a0 6 (by omega)
      linarith
    | succ k ih =>
      intro hk
      rw [g' _ hk, gs k (by omega)]
      have := ih (by omega)
      have := a0 (6 - (k + 1)) (by omega)
      linarith
  refine ⟨a1, a2, fun k hk => ?_, fun k hk => ?_⟩
  · rcases k with _ | k
    · rw [g' 0 hk, zf_past _ _ (by omega)]
      linarith
    · rw [g' _ hk, gs k (by omega)]
      have := a3 k (by omega)
      linarith
  · rw [g' (k + 1) (by omega), gs k hk]
    have := a0 (6 - (k + 1)) (by omega)
    linarith

theorem zf_last (l : List ℝ) (h : l.length = 7) : zf l l.length (-1) = l.getD 6 0 := by
  rw [h]
  rfl

theorem silent_call (t : State ℝ) (xs ys : List ℝ) (hi : Inv [4, 0] [1, -(1 / 2)] t xs ys) (hd : DiffEq [4, 0] [1, -(1 / 2)] xs ys) (V c : ℝ) (hV : 0 ≤ V) (hc : 0 ≤ c)
    (h0 : V ≤ zf ys ys.length (-1)) : ∃ t' x xs' ys', filtfilt t [c] = some (t', [x]) ∧ V / 4 ≤ x ∧ Inv [4, 0] [1, -(1 / 2)] t' xs' ys' ∧
      DiffEq [4, 0] [1, -(1 / 2)] xs' ys' ∧ 2 * V ≤ zf ys' ys'.length (-1) ∧ 2 * c ≤ zf ys' ys'.length (-1) := by
  obtain ⟨t', y1, y2, h1, h2, h3, h4, h5⟩ := filtfilt_spec _ _ t xs ys hi hd [c] (by simp)
  simp only [List.length_cons, List.length_nil, Nat.reduceAdd, Nat.add_one_sub_one, Nat.mul_one, Nat.reduceMul, zero_add] at h1 h3 h4
  have hext : ∀ k < 7, (List.map (oddExt 3 [c]) (List.range 7)).getD k 0 = if k = 3 then c else 0 := by
    intro k hk
    have hm : k = 0 ∨ k = 1 ∨ k = 2 ∨ k = 3 ∨ k = 4 ∨ k = 5 ∨ k = 6 := by omega
    rcases hm with rfl | rfl | rfl | rfl | rfl | rfl | rfl <;> rfl
  obtain ⟨a1, a2, a3, a4⟩ := grow_passes xs ys _ y1 y2 hd.1.symm (by simp) h3 h4 h5 V hV h0 (fun k hk => by
    rw [hext k hk]
    split
    · exact hc
    · exact le_rfl)
  have hy2 : y2.length = 7 := by rw [h5.1, List.length_reverse, h3]
  have hx : (y2.reverse.drop 3).take 1 = [y2.getD 3 0] := by
    apply List.ext_getElem?
    intro i
    rcases i with _ | i
    · rw [List.getElem?_take, if_pos (by omega), List.getElem?_drop, List.getElem?_reverse (by omega), hy2, List.getD_eq_getElem?_getD, List.getElem?_eq_getElem (by omega)]
      rfl
    · rw [List.getElem?_eq_none (by simp), List.getElem?_eq_none (by simp)]
  rw [hx] at h1
  refine ⟨t', _, _, _, h1, ?_, h2, h5, ?_, ?_⟩
  · have e1 := a3 3 (by omega)
    have e2 := a1 3 (by omega)
    norm_num at *
    linarith
  · rw [zf_last _ hy2]
    have e1 := a3 6 (by omega)
    have e2 := a1 0 (by omega)
    norm_num at *
    linarith
  · rw [zf_last _ hy2]
    have e1 := a3 3 (by omega)
    have e2 := a2 3 (by omega)
    rw [hext 3 (by omega), if_pos rfl] at e2
    have e3 := a4 3 (by omega)
    have e4 := a4 4 (by omega)
    have e5 := a4 5 (by omega)
    norm_num at *
    linarith

/-- **C93** What earlier calls leave behind need not die out from call to call: with this stable filter, silent blocks after a single non-zero sample come out
louder and louder, without bound. -/
theorem C93_growth : Stable [1, -(1 / 2)] 1 (9 / 10) ∧ ∀ (t0 : State ℝ), new [4, 0] [1, -(1 / 2)] = .ok t0 → ∀ k : ℕ,
    ∃ t t' x, runFF t0 ([1] :: List.replicate k [0]) = some t ∧ filtfilt t [0] = some (t', [x]) ∧ 2 ^ k / 2 ≤ x := by
  refine ⟨stable_of_sum _ _ (by norm_num) (by norm_num) ?_, fun t0 h k => ?_⟩
  · norm_num [sum_range_succ, abs_of_pos, abs_neg]
  have run : ∀ (k : ℕ) (t : State ℝ) (xs ys : List ℝ) (V : ℝ), Inv [4, 0] [1, -(1 / 2)] t xs ys → DiffEq [4, 0] [1, -(1 / 2)] xs ys → 0 ≤ V → V ≤ zf ys ys.length (-1) →
      ∃ t1 t' x, runFF t (List.replicate k [0]) = some t1 ∧ filtfilt t1 [0] = some (t', [x]) ∧ 2 ^ k * V / 4 ≤ x := by
    intro k
    induction k with
    | zero =>
      intro t xs ys V hi hd hV h0
      obtain ⟨t', x, _, _, e1, e2, -⟩ := silent_call t xs ys hi hd V 0 hV le_rfl h0
      exact ⟨t, t', x, rfl, e1, by simpa using e2⟩
    | succ k ih =>
      intro t xs ys V hi hd hV h0
      obtain ⟨t1, x1, xs', ys', e1, e2, e3, e4, e5, -⟩ := silent_call t xs ys hi hd V 0 hV le_rfl h0
      obtain ⟨t2, t3, x, f1, f2, f3⟩ := ih t1 xs' ys' (2 * V) e3 e4 (by linarith) e5
      refine ⟨t2, t3, x, ?_, f2, ?_⟩
      · rw [List.replicate_succ, runFF, e1]
        exact f1
      · rw [pow_succ]
        linarith
  obtain ⟨t1, x1, xs', ys', e1, e2, e3, e4, -, e5⟩ := silent_call t0 [] [] (new_inv _ _ t0 h (by simp)) ⟨rfl, by simp⟩ 0 1 le_rfl zero_le_one (by simp [zf])
  obtain ⟨t2, t3, x, f1, f2, f3⟩ := run k t1 xs' ys' (2 * 1) e3 e4 (by norm_num) e5
  refine ⟨t2, t3, x, ?_, f2, ?_⟩
  · rw [runFF, e1]
    exact f1
  · linarith

/-! ## Examples -/

/-- A one-pole smoother: its impulse response is `(1/2) ^ (k + 1)`. -/
example : ∃ (t : State ℝ) (r : ℝ), new [1 / 2, 0] [1, -(1 / 2)] = .ok t ∧ 0 < r ∧ r < 1 ∧ Stable [1, -(1 / 2)] 1 r := by
  obtain ⟨r, h⟩ := C93_stable [1, -(1 / 2)] (1 / 2) (by norm_num) (by norm_num [sum_range_succ, abs_of_pos])
  exact ⟨_, r, by rw [new, if_neg (by simp), if_neg (by simp)], h⟩

/-- The filter passes a constant unchanged. -/
example : freqResponse [1 / 2, 0] [1, -(1 / 2)] 0 = 1 := by
  norm_num [freqResponse, sum_range_succ]

end QM.Filter

namespace QM.TempoTrackV2

open Finset QM.Filter QM.Filter.Rounded

theorem aCoef_stable : Stable aCoef 1 (83 / 100) := by
  refine stable_of_sum _ _ (by norm_num) (by norm_num) ?_
  simp only [aCoef, List.length_cons, List.length_nil, sum_range_succ, range_zero, sum_empty, List.getD_cons_succ, List.getD_cons_zero]
  norm_num [abs_of_pos, abs_neg]

/-- **C93** The smoothing of the beat tracker's detection function: periodic fluctuations keep their phase and are scaled by the squared gain of the filter, up
to an error that falls by a tenth with every step away from the ends, with the same constant for all lengths, amplitudes, frequencies and phases. -/
theorem C93_beats_sinusoid : ∃ C : ℝ, ∀ (amp w φ : ℝ) (n : ℕ), ∃ out, filterDf ((List.range n).map (fun (k : Nat) => amp * Real.cos (w * k + φ))) = some out ∧ out.length = n ∧
    ∀ i < n, |out.getD i 0 - ‖freqResponse bCoef aCoef w‖ ^ 2 * (amp * Real.cos (w * i + φ))| ≤ C * |amp| * ((9 / 10) ^ i + (9 / 10) ^ (n - 1 - i)) := by
  refine ⟨passK bCoef aCoef 1 (83 / 100) (9 / 10) 0, fun amp w φ n => ?_⟩
  set src := (List.range n).map (fun (k : Nat) => amp * Real.cos (w * k + φ)) with hsrc
  have hlen : src.length = n := by simp [hsrc]
  obtain ⟨u, v, h1, h2, h3⟩ := C35_filter_df src
  have hv : v.length = n := by rw [h2.1, List.length_reverse, h1.1, hlen]
  refine ⟨v.reverse, h3, by simpa using hv, fun i hi => ?_⟩
  have hnorm : ‖(amp : ℂ) * Complex.exp ((φ - w * (0 : ℕ) : ℝ) * Complex.I)‖ ≤ |amp| := by
    rw [norm_mul, Complex.norm_exp_ofReal_mul_I, mul_one, Complex.norm_real, Real.norm_eq_abs]
  have hget : ∀ k < n, src.getD k 0 = tone w (amp * Complex.exp ((φ - w * (0 : ℕ) : ℝ) * Complex.I)) k := by
    intro k hk
    rw [tone_cos, hsrc, List.getD_eq_getElem?_getD, List.getElem?_map, List.getElem?_range hk]
    simp
  have key := twoPass bCoef aCoef 1 (83 / 100) (9 / 10) (by norm_num) (by norm_num) (by norm_num) (by norm_num) (by norm_num) aCoef_stable.imp_le [] [] src u v 0 0 |amp| w _ le_rfl
    hnorm rfl (by simpa using h1) h2 (by simp) (by simp) (fun k hk => by rw [hget k (by omega), sub_self, abs_zero]; positivity) (fun k _ hk => hget k (by omega)) i (by omega)
  rw [tone_cos, add_zero, hlen] at key
  have e1 : w * (((i : ℤ) : ℝ) - (0 : ℕ)) + φ = w * i + φ := by simp
  rw [e1] at key
  exact key

theorem dcGain : freqResponse bCoef aCoef 0 = 1 := by
  unfold freqResponse
  simp only [aCoef, bCoef, List.length_cons, List.length_nil, sum_range_succ, range_zero, sum_empty, List.getD_cons_succ, List.getD_cons_zero]
  norm_num

/-- **C93** The smoothing keeps the level of the detection function: a constant comes out unchanged away from the ends. -/
theorem C93_beats_level : ∃ C : ℝ, ∀ (c : ℝ) (n : ℕ), ∃ out, filterDf (List.replicate n c) = some out ∧ out.length = n ∧
    ∀ i < n, |out.getD i 0 - c| ≤ C * |c| * ((9 / 10) ^ i + (9 / 10) ^ (n - 1 - i)) := by
  obtain ⟨C, hC⟩ := C93_beats_sinusoid
  refine ⟨C, fun c n => ?_⟩
  obtain ⟨out, h1, h2, h3⟩ := hC c 0 0 n
  have e : (List.range n).map (fun (k : Nat) => c * Real.cos (0 * k + 0)) = List.replicate n c := by
    rw [List.eq_replicate_iff]
    simp
  rw [e] at h1
  refine ⟨out, h1, h2, fun i hi => ?_⟩
  have := h3 i hi
  rw [dcGain] at this
  simpa using this

end QM.TempoTrackV2
