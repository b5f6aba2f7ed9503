import Verif.KeyMode.Lemmas
import Mathlib.Tactic.FieldSimp
import Mathlib.Tactic.Linarith

namespace QM.KeyMode

theorem run_ok {cs ms : Nat} (hcs : 0 < cs) (hms : 0 < ms) {s0 : KM} (h0 : Good cs ms [] [] s0) (hist : List (List ℝ))
    (hh : ∀ f ∈ hist, f.length = 36) :
    ∃ s raws, run s0 hist = some s ∧ Good cs ms hist raws s ∧
      (∀ j, j < hist.length → RawKey (meanChroma cs (hist.take (j + 1))) (raws.getD j 0) ∧ 1 ≤ raws.getD j 0 ∧ raws.getD j 0 ≤ 24) := by
  induction hist using List.reverseRecOn with
  | nil => exact ⟨s0, [], rfl, h0, fun j hj => absurd hj (by simp)⟩
  | append_singleton hist f ih =>
    obtain ⟨s, raws, e1, e2, e3⟩ := ih (fun g hg => hh g (by simp [hg]))
    obtain ⟨s', raw, key, p1, p2, p3, p4, p5, _⟩ := process_ok hcs hms e2 f (hh f (by simp))
    refine ⟨s', raws ++ [raw], ?_, p2, fun j hj => ?_⟩
    · unfold run at *
      rw [List.foldlM_append, bind_ok e1]
      simp [p1]
    · rw [List.length_append, List.length_singleton] at hj
      by_cases he : j = hist.length
      · subst he
        rw [← e2.rlen, getD_append_self, e2.rlen, List.take_of_length_le (by simp)]
        exact ⟨p3, p4, p5⟩
      · rw [getD_append_left _ _ _ _ (by rw [e2.rlen]; omega), List.take_append_of_le_length (by omega)]
        exact e3 j (by omega)

/-! ## C30 -/

/-- Over any history of calls the key returned is in 1..24 and is the lower median of the raw keys of the last `ms` calls, the raw key
of each call being determined by the mean of the last `cs` chroma frames up to that call. -/
theorem C30_history (cs ms : Nat) (hcs : 0 < cs) (hms : 0 < ms) (u : ℝ) (hist : List (List ℝ)) (frame : List ℝ)
    (hh : ∀ f ∈ hist, f.length = 36) (hf : frame.length = 36) :
    ∃ (s0 s s' : KM) (key : Nat) (raws : List Nat), make cs ms u = some s0 ∧ run s0 hist = some s ∧ process s frame = some (s', key) ∧
      1 ≤ key ∧ key ≤ 24 ∧ raws.length = hist.length + 1 ∧
      (∀ j, j ≤ hist.length → RawKey (meanChroma cs ((hist ++ [frame]).take (j + 1))) (raws.getD j 0)) ∧
      IsLowerMedian (raws.drop (hist.length + 1 - ms)) key := by
  obtain ⟨s0, a1, a2⟩ := make_ok cs ms u
  obtain ⟨s, raws, e1, e2, e3⟩ := run_ok hcs hms a2 hist hh
  obtain ⟨s', raw, key, p1, p2, p3, p4, p5, p6, _⟩ := process_ok hcs hms e2 frame hf
  have hall : ∀ j, j ≤ hist.length → RawKey (meanChroma cs ((hist ++ [frame]).take (j + 1))) ((raws ++ [raw]).getD j 0) ∧
      1 ≤ (raws ++ [raw]).getD j 0 ∧ (raws ++ [raw]).getD j 0 ≤ 24 := by
    intro j hj
    by_cases he : j = hist.length
    · subst he
      rw [← e2.rlen, getD_append_self, e2.rlen, List.take_of_length_le (by simp)]
      exact ⟨p3, p4, p5⟩
    · rw [getD_append_left _ _ _ _ (by rw [e2.rlen]; omega), List.take_append_of_le_length (by omega)]
      exact e3 j (by omega)
  have hkey : 1 ≤ key ∧ key ≤ 24 := by
    obtain ⟨l, q1, _, q3⟩ := p6
    have hm : key ∈ (raws ++ [raw]).drop (hist.length + 1 - ms) := q1.subset (List.mem_of_getElem? q3)
    obtain ⟨j, hj, e⟩ := List.getElem_of_mem (List.mem_of_mem_drop hm)
    have := (hall j (by simp [e2.rlen] at hj; omega)).2
    have hg := get_getD (raws ++ [raw]) j 0 hj
    rw [List.getElem?_eq_getElem hj, e, Option.some.injEq] at hg
    rw [← hg] at this
    exact this
  exact ⟨s0, s, s', key, raws ++ [raw], a1, e1, p1, hkey.1, hkey.2, by simp [e2.rlen], fun j hj => (hall j hj).1, p6⟩

/-- The raw key of an averaged chroma is unique, so the history determines the output. -/
theorem C30_raw_unique (x : Nat → ℝ) (k1 k2 : Nat) (h1 : RawKey x k1) (h2 : RawKey x k2) : k1 = k2 := by
  have hu : ∀ (f : Nat → ℝ) b b', IsBest f b → IsBest f b' → b = b' := by
    intro f b b' hb hb'
    rcases Nat.lt_trichotomy b b' with h | h | h
    · exact absurd (hb'.2.2 b h) (not_lt.mpr (hb.2.1 b' hb'.1))
    · exact h
    · exact absurd (hb.2.2 b' h) (not_lt.mpr (hb'.2.1 b hb.1))
  obtain ⟨a, b, a1, a2, rfl⟩ := h1
  obtain ⟨c, d, c1, c2, rfl⟩ := h2
  rw [hu _ _ _ a1 c1, hu _ _ _ a2 c2]

/-- The number of frames averaged is at least 1 exactly when the configured duration is positive. -/
theorem C30_sizes (average fs : ℝ) (frameSize : Nat) (hf : 0 < fs) (hn : 0 < frameSize) : 1 ≤ bufSize average fs frameSize ↔ 0 < average := by
  unfold bufSize
  have hn' : (0 : ℝ) < frameSize := by exact_mod_cast hn
  rw [Int.one_le_ceil_iff, lt_div_iff₀ hn', zero_mul]
  exact mul_pos_iff_of_pos_right hf

theorem loop_first_none {β : Type} (n : Nat) (f : Nat → β → Option β) (s : β) (hn : 0 < n) (h : f 0 s = none) : loop n f s = none := by
  refine loop_none_of_le (m := 1) hn ?_
  simp [loop, h]

/-- A configured duration of zero seconds makes the first call write outside an array. -/
theorem C30_zero_average_violation (s : KM) (frame : List ℝ) (h : s.chroma = []) (hi : s.idx = 0) : process s frame = none := by
  have : average s frame = none := by
    unfold average
    rw [loop_first_none 36 _ _ (by omega)]
    · rfl
    · rw [h, hi]
      cases frame[0]? <;> rfl
  unfold process
  rw [this]
  rfl

theorem C30_zero_median_violation (s : KM) (frame : List ℝ) (h : s.ms = 0) : process s frame = none := by
  have : ∀ key, medianKey s key = none := by
    intro key
    unfold medianKey
    rw [h]
    simp only [Nat.zero_sub, loop, Option.bind_eq_bind, Option.bind_some]
    rfl
  unfold process
  simp [this]

/-! ## C31 -/

/-- Every correlation is between -1 and 1. -/
theorem C31_range (n : Nat) (x y : Nat → ℝ) : -1 ≤ pearson n x y ∧ pearson n x y ≤ 1 := by
  unfold pearson
  have hcs := Finset.sum_mul_sq_le_sq_mul_sq (Finset.range n) (fun i => x i - avg n x) (fun i => y i - avg n y)
  rw [← abs_le]
  generalize hS : (∑ i ∈ Finset.range n, (x i - avg n x) * (y i - avg n y)) = S at *
  generalize hV : (∑ i ∈ Finset.range n, (x i - avg n x) ^ 2) * ∑ i ∈ Finset.range n, (y i - avg n y) ^ 2 = V at *
  rw [abs_div, abs_of_nonneg (Real.sqrt_nonneg V)]
  apply div_le_one_of_le₀ _ (Real.sqrt_nonneg V)
  exact Real.abs_le_sqrt hcs

/-- A constant chroma correlates with nothing. -/
theorem C31_constant (n : Nat) (x y : Nat → ℝ) (c : ℝ) (h : ∀ i, i < n → x i = c) : pearson n x y = 0 := by
  unfold pearson
  have : ∀ i ∈ Finset.range n, x i - avg n x = 0 := by
    intro i hi
    have hn : (0 : ℝ) < n := by
      have := Finset.mem_range.mp hi
      exact_mod_cast (show 0 < n by omega)
    unfold avg
    rw [Finset.sum_congr rfl (fun j hj => h j (Finset.mem_range.mp hj)), h i (Finset.mem_range.mp hi), Finset.sum_const, Finset.card_range,
      nsmul_eq_mul, mul_div_cancel_left₀ _ (ne_of_gt hn), sub_self]
  rw [Finset.sum_congr rfl (fun i hi => by rw [this i hi, zero_mul]), Finset.sum_const_zero, zero_div]

/-- Scaling the chroma by a positive factor and adding a constant changes no correlation. -/
theorem C31_affine (n : Nat) (x y : Nat → ℝ) (a b : ℝ) (ha : 0 < a) : pearson n (fun i => a * x i + b) y = pearson n x y := by
  by_cases hn : n = 0
  · subst hn; simp [pearson]
  have hn' : (n : ℝ) ≠ 0 := by exact_mod_cast hn
  have havg : avg n (fun i => a * x i + b) = a * avg n x + b := by
    unfold avg
    rw [Finset.sum_add_distrib, ← Finset.mul_sum, Finset.sum_const, Finset.card_range, nsmul_eq_mul]
    field_simp
  unfold pearson
  rw [havg]
  have e : ∀ i, a * x i + b - (a * avg n x + b) = a * (x i - avg n x) := fun i => by ring
  simp only [e, mul_assoc, mul_pow, ← Finset.mul_sum]
  rw [Real.sqrt_mul (sq_nonneg a), Real.sqrt_sq (le_of_lt ha), mul_div_mul_left _ _ (ne_of_gt ha)]

/-- Transposing the chroma upwards by `t` bins transposes the correlations by `t` bins. -/
theorem C31_transpose (x : Nat → ℝ) (tab : List Int) (t k : Nat) (ht : t ≤ 36) (hk : k < 36) :
    pearson 36 (fun i => x ((i + (36 - t)) % 36)) (keyProfile tab ((k + t) % 36)) = pearson 36 x (keyProfile tab k) := by
  have hy : ∀ i, keyProfile tab ((k + t) % 36) i = keyProfile tab k ((i + (36 - t)) % 36) := by
    intro i
    unfold keyProfile
    congr 3
    omega
  rw [show keyProfile tab ((k + t) % 36) = fun i => keyProfile tab k ((i + (36 - t)) % 36) from funext hy]
  unfold pearson
  rw [avg_mod, avg_mod]
  congr 1
  · exact sum_mod 36 (36 - t) (fun i => (x i - avg 36 x) * (keyProfile tab k i - avg 36 (keyProfile tab k)))
  · congr 2
    · exact sum_mod 36 (36 - t) (fun i => (x i - avg 36 x) ^ 2)
    · exact sum_mod 36 (36 - t) (fun i => (keyProfile tab k i - avg 36 (keyProfile tab k)) ^ 2)

theorem strengths_loop (c : Nat → ℝ) (xs a : List ℝ) (off : Nat) (hoff : off + 12 ≤ 24) (hx : Holds 36 c xs) (ha : a.length = 24) :
    ∃ a', loop 36 (fun k (a : List ℝ) => do
      let c ← xs[k]?
      let v ← a[(k + 3 * off) / 3]?
      if k % 3 = 0 ∨ c > v then wr a ((k + 3 * off) / 3) c else pure a) a = some a' ∧ a'.length = 24 ∧
      (∀ j : Nat, j < 12 → a'[off + j]? = some (max (max (c (3 * j)) (c (3 * j + 1))) (c (3 * j + 2)))) ∧
      ∀ j : Nat, j < off ∨ off + 12 ≤ j → a'[j]? = a[j]? := by
  obtain ⟨a', e1, e2, e3, e4⟩ := loop_inv (n := 36) (s := a) (f := fun k (a : List ℝ) => do
      let c ← xs[k]?
      let v ← a[(k + 3 * off) / 3]?
      if k % 3 = 0 ∨ c > v then wr a ((k + 3 * off) / 3) c else pure a)
    (P := fun k b => b.length = 24 ∧ (∀ j : Nat, 3 * j < k → b[off + j]? = some (
        if k = 3 * j + 1 then c (3 * j) else if k = 3 * j + 2 then max (c (3 * j)) (c (3 * j + 1))
        else max (max (c (3 * j)) (c (3 * j + 1))) (c (3 * j + 2)))) ∧ ∀ j : Nat, j < off ∨ off + 12 ≤ j → b[j]? = a[j]?)
    ⟨ha, fun j hj => absurd hj (by omega), fun j _ => rfl⟩
    (by
      rintro k b hk ⟨h1, h2, h3⟩
      have hq : (k + 3 * off) / 3 = off + k / 3 := by omega
      simp only [hx.2 k hk, hq, Option.bind_eq_bind, Option.bind_some]
      rw [get_getD b (off + k / 3) 0 (by omega), Option.bind_some]
      by_cases h0 : k % 3 = 0
      · rw [if_pos (Or.inl h0)]
        refine ⟨_, wr_some _ (by omega), by simp [h1], fun j hj => ?_, fun j hj => ?_⟩
        · by_cases he : j = k / 3
          · subst he
            rw [List.getElem?_set_self (by omega), if_pos (by omega)]
            congr 2; omega
          · rw [List.getElem?_set_ne (by omega), h2 j (by omega), if_neg (by omega), if_neg (by omega), if_neg (by omega), if_neg (by omega)]
        · rw [List.getElem?_set_ne (by omega)]; exact h3 j hj
      · have hold := h2 (k / 3) (by omega)
        rw [get_getD b (off + k / 3) 0 (by omega), Option.some.injEq] at hold
        have hset : ∃ b', (if k % 3 = 0 ∨ c k > b.getD (off + k / 3) 0 then wr b (off + k / 3) (c k) else pure b) = some b' ∧
            b' = b.set (off + k / 3) (max (b.getD (off + k / 3) 0) (c k)) := by
          by_cases hc : c k > b.getD (off + k / 3) 0
          · rw [if_pos (Or.inr hc), max_eq_right (le_of_lt hc)]
            exact ⟨_, wr_some _ (by omega), rfl⟩
          · rw [if_neg (by simp only [h0, hc, or_self, not_false_eq_true]), max_eq_left (not_lt.mp hc)]
            refine ⟨b, rfl, ?_⟩
            apply List.ext_getElem?
            intro j
            by_cases he : j = off + k / 3
            · subst he; rw [List.getElem?_set_self (by omega), ← get_getD b _ 0 (by omega)]
            · rw [List.getElem?_set_ne (Ne.symm he)]
        obtain ⟨b', e1, rfl⟩ := hset
        refine ⟨_, e1, by simp [h1], fun j hj => ?_, fun j hj => ?_⟩
        · by_cases he : j = k / 3
          · subst he
            rw [List.getElem?_set_self (by omega), hold]
            by_cases h1 : k % 3 = 1
            · rw [if_pos (by omega), if_neg (by omega), if_pos (by omega)]
              congr 3; omega
            · rw [if_neg (by omega), if_pos (by omega), if_neg (by omega), if_neg (by omega)]
              congr 3; omega
          · rw [List.getElem?_set_ne (by omega), h2 j (by omega), if_neg (by omega), if_neg (by omega), if_neg (by omega), if_neg (by omega)]
        · rw [List.getElem?_set_ne (by omega)]; exact h3 j hj)
  refine ⟨a', e1, e2, fun j hj => ?_, e4⟩
  rw [e3 j (by omega), if_neg (by omega), if_neg (by omega)]

theorem strengths_ok (s : KM) (M m : Nat → ℝ) (h1 : Holds 36 M s.maj) (h2 : Holds 36 m s.min) (h3 : s.strengths.length = 24) :
    ∃ a, getKeyStrengths s = some a ∧ a.length = 24 ∧ ∀ j : Nat, j < 12 →
      a[j]? = some (max (max (M (3 * j)) (M (3 * j + 1))) (M (3 * j + 2))) ∧
      a[12 + j]? = some (max (max (m (3 * j)) (m (3 * j + 1))) (m (3 * j + 2))) := by
  obtain ⟨z, z1, z2⟩ := fill_part (L := 24) (new := fun _ => (0 : ℝ)) (f := fun k (a : List ℝ) => wr a k 0) (holds_of_length h3 0)
    (fun i ys _ _ => rfl)
  obtain ⟨b, b1, b2, b3, b4⟩ := strengths_loop _ s.maj z 0 (by omega) h1 z2.1
  obtain ⟨c, c1, c2, c3, c4⟩ := strengths_loop _ s.min b 12 (by omega) h2 b2
  refine ⟨c, ?_, c2, fun j hj => ⟨?_, c3 j hj⟩⟩
  · unfold getKeyStrengths
    simp only [Nat.mul_zero, Nat.add_zero] at b1
    rw [bind_ok z1, bind_ok b1]
    exact c1
  · rw [c4 j (by omega)]
    have := b3 j hj
    rwa [Nat.zero_add] at this

/-- After any history the key strengths are, for each of the 12 major and 12 minor keys, the greatest of the three correlations (for
three tunings) between the averaged chroma and that key's profile. -/
theorem C31_strengths (cs ms : Nat) (hcs : 0 < cs) (hms : 0 < ms) (u : ℝ) (hist : List (List ℝ)) (frame : List ℝ)
    (hh : ∀ f ∈ hist, f.length = 36) (hf : frame.length = 36) :
    ∃ s0 s s' key a, make cs ms u = some s0 ∧ run s0 hist = some s ∧ process s frame = some (s', key) ∧ getKeyStrengths s' = some a ∧
      a.length = 24 ∧ ∀ j : Nat, j < 12 →
        a[j]? = some (max (max (pearson 36 (meanChroma cs (hist ++ [frame])) (keyProfile majTab (3 * j)))
          (pearson 36 (meanChroma cs (hist ++ [frame])) (keyProfile majTab (3 * j + 1))))
          (pearson 36 (meanChroma cs (hist ++ [frame])) (keyProfile majTab (3 * j + 2)))) ∧
        a[12 + j]? = some (max (max (pearson 36 (meanChroma cs (hist ++ [frame])) (keyProfile minTab (3 * j)))
          (pearson 36 (meanChroma cs (hist ++ [frame])) (keyProfile minTab (3 * j + 1))))
          (pearson 36 (meanChroma cs (hist ++ [frame])) (keyProfile minTab (3 * j + 2)))) := by
  obtain ⟨s0, a1, a2⟩ := make_ok cs ms u
  obtain ⟨s, raws, e1, e2, e3⟩ := run_ok hcs hms a2 hist hh
  obtain ⟨s', raw, key, p1, p2, _, _, _, _, p7, p8⟩ := process_ok hcs hms e2 frame hf
  obtain ⟨a, q1, q2, q3⟩ := strengths_ok s' _ _ p7 p8 p2.strengths
  exact ⟨s0, s, s', key, a, a1, e1, p1, q1, q2, q3⟩

/-! ### Recognising the profiles -/

theorem best_exists (f : Nat → ℝ) : ∃ b, IsBest f b := by
  obtain ⟨b, _, h⟩ := best_of_getMax f ((List.range 36).map f) ⟨by simp, fun j hj => by simp [hj]⟩
  exact ⟨b, h⟩

/-- A constant chroma (for instance silence) is reported as key 13, C minor, although the documentation reserves 0 for "no key". -/
theorem C31_silence_key (x : Nat → ℝ) (c : ℝ) (h : ∀ i, i < 36 → x i = c) : RawKey x 13 := by
  have hz : ∀ y, pearson 36 x y = 0 := fun y => C31_constant 36 x y c h
  have hb : ∀ tab, IsBest (fun k => pearson 36 x (keyProfile tab k)) 0 := fun tab =>
    ⟨by omega, fun k _ => by simp only [hz]; exact le_refl _, fun k hk => absurd hk (by omega)⟩
  exact ⟨0, 0, hb _, hb _, by rw [hz, hz]; simp⟩

/-- 36 times the dot product minus the product of the sums, for two profiles laid over the bins. -/
def cov36 (t1 : List Int) (k1 : Nat) (t2 : List Int) (k2 : Nat) : Int :=
  36 * ((List.range 36).map (fun i => t1.getD ((i + 38 - k1) % 36) 0 * t2.getD ((i + 38 - k2) % 36) 0)).sum -
    ((List.range 36).map (fun i => t1.getD ((i + 38 - k1) % 36) 0)).sum * ((List.range 36).map (fun i => t2.getD ((i + 38 - k2) % 36) 0)).sum

theorem sum_range36 (f : Nat → Int) : ((((List.range 36).map f).sum : Int) : ℝ) = ∑ i ∈ Finset.range 36, (f i : ℝ) := by
  rw [list_sum_holds (L := 36) (f := f) ⟨by simp, fun j hj => by simp [hj]⟩]
  push_cast
  rfl

theorem cov_eq (t1 : List Int) (k1 : Nat) (t2 : List Int) (k2 : Nat) :
    ∑ i ∈ Finset.range 36, (keyProfile t1 k1 i - avg 36 (keyProfile t1 k1)) * (keyProfile t2 k2 i - avg 36 (keyProfile t2 k2)) =
      (cov36 t1 k1 t2 k2 : ℝ) / (36 * 10000 ^ 2) := by
  unfold cov36
  simp only [Int.cast_sub, Int.cast_mul, Int.cast_ofNat, sum_range36]
  have h1 : ∀ (x y : Nat → ℝ), ∑ i ∈ Finset.range 36, (x i - avg 36 x) * (y i - avg 36 y) =
      (36 * ∑ i ∈ Finset.range 36, x i * y i - (∑ i ∈ Finset.range 36, x i) * ∑ i ∈ Finset.range 36, y i) / 36 := by
    intro x y
    have : ∑ i ∈ Finset.range 36, (x i - avg 36 x) * (y i - avg 36 y) =
        ∑ i ∈ Finset.range 36, x i * y i - avg 36 y * (∑ i ∈ Finset.range 36, x i) - avg 36 x * (∑ i ∈ Finset.range 36, y i) +
          36 * (avg 36 x * avg 36 y) := by
      rw [Finset.mul_sum, Finset.mul_sum, ← Finset.sum_sub_distrib, ← Finset.sum_sub_distrib]
      rw [show (36 : ℝ) * (avg 36 x * avg 36 y) = ∑ i ∈ Finset.range 36, avg 36 x * avg 36 y by
        rw [Finset.sum_const, Finset.card_range, nsmul_eq_mul]; norm_num]
      rw [← Finset.sum_add_distrib]
      exact Finset.sum_congr rfl fun i _ => by ring
    rw [this]
    unfold avg
    push_cast
    ring
  rw [h1]
  unfold keyProfile
  have h2 : ∀ x : Nat → ℝ, ∑ i ∈ Finset.range 36, x i / 10000 = (∑ i ∈ Finset.range 36, x i) / 10000 := fun x => by rw [Finset.sum_div]
  have h3 : ∀ x y : Nat → ℝ, ∑ i ∈ Finset.range 36, x i / 10000 * (y i / 10000) = (∑ i ∈ Finset.range 36, x i * y i) / 10000 ^ 2 :=
    fun x y => by rw [Finset.sum_div]; exact Finset.sum_congr rfl fun i _ => by ring
  rw [h2 (fun i => ((t1.getD ((i + 38 - k1) % 36) 0 : Int) : ℝ)), h2 (fun i => ((t2.getD ((i + 38 - k2) % 36) 0 : Int) : ℝ)),
    h3 (fun i => ((t1.getD ((i + 38 - k1) % 36) 0 : Int) : ℝ)) (fun i => ((t2.getD ((i + 38 - k2) % 36) 0 : Int) : ℝ))]
  ring

theorem pearson_profile (t1 : List Int) (k1 : Nat) (t2 : List Int) (k2 : Nat) :
    pearson 36 (keyProfile t1 k1) (keyProfile t2 k2) =
      (cov36 t1 k1 t2 k2 : ℝ) / Real.sqrt ((cov36 t1 k1 t1 k1 : ℝ) * cov36 t2 k2 t2 k2) := by
  unfold pearson
  have e1 := cov_eq t1 k1 t1 k1
  have e2 := cov_eq t2 k2 t2 k2
  simp only [← pow_two] at e1 e2
  rw [cov_eq, e1, e2]
  rw [show (cov36 t1 k1 t1 k1 : ℝ) / (36 * 10000 ^ 2) * ((cov36 t2 k2 t2 k2 : ℝ) / (36 * 10000 ^ 2)) =
    (cov36 t1 k1 t1 k1 : ℝ) * cov36 t2 k2 t2 k2 / (36 * 10000 ^ 2) ^ 2 by ring]
  rw [Real.sqrt_div' _ (by positivity), Real.sqrt_sq (by norm_num)]
  rw [div_div_div_cancel_right₀ (by norm_num)]

theorem table_var : ∀ k, k < 36 → (0 < cov36 majTab k majTab k ∧ cov36 majTab k majTab k = cov36 majTab 0 majTab 0) ∧
    (0 < cov36 minTab k minTab k ∧ cov36 minTab k minTab k = cov36 minTab 0 minTab 0) := by decide +kernel

theorem table_cov : ∀ k, k < 36 → ∀ k', k' < 36 →
    (k' ≠ k → cov36 majTab k majTab k' < cov36 majTab 0 majTab 0 ∧ cov36 minTab k minTab k' < cov36 minTab 0 minTab 0) ∧
    (0 < cov36 majTab k minTab k' → cov36 majTab k minTab k' ^ 2 < cov36 majTab 0 majTab 0 * cov36 minTab 0 minTab 0) := by
  decide +kernel

theorem table_best (tab : List Int) (htab : tab = majTab ∨ tab = minTab) (k : Nat) (hk : k < 36) :
    pearson 36 (keyProfile tab k) (keyProfile tab k) = 1 ∧
    IsBest (fun k' => pearson 36 (keyProfile tab k) (keyProfile tab k')) k := by
  have hv : ∀ k, k < 36 → 0 < cov36 tab k tab k ∧ cov36 tab k tab k = cov36 tab 0 tab 0 := by
    rcases htab with rfl | rfl
    · exact fun k hk => (table_var k hk).1
    · exact fun k hk => (table_var k hk).2
  have hc : ∀ k', k' < 36 → k' ≠ k → cov36 tab k tab k' < cov36 tab 0 tab 0 := by
    rcases htab with rfl | rfl
    · exact fun k' hk' hne => ((table_cov k hk k' hk').1 hne).1
    · exact fun k' hk' hne => ((table_cov k hk k' hk').1 hne).2
  have h0 : (0 : ℝ) < cov36 tab 0 tab 0 := by exact_mod_cast (hv 0 (by omega)).1
  have hp : ∀ k', k' < 36 → pearson 36 (keyProfile tab k) (keyProfile tab k') = (cov36 tab k tab k' : ℝ) / cov36 tab 0 tab 0 := by
    intro k' hk'
    rw [pearson_profile, (hv k hk).2, (hv k' hk').2, Real.sqrt_mul_self (le_of_lt h0)]
  have h1 : pearson 36 (keyProfile tab k) (keyProfile tab k) = 1 := by
    rw [hp k hk, (hv k hk).2, div_self (ne_of_gt h0)]
  have hlt : ∀ k', k' < 36 → k' ≠ k → pearson 36 (keyProfile tab k) (keyProfile tab k') < 1 := by
    intro k' hk' hne
    rw [hp k' hk', div_lt_one h0]
    exact_mod_cast hc k' hk' hne
  refine ⟨h1, hk, fun k' hk' => ?_, fun k' hk' => ?_⟩
  · show _ ≤ pearson 36 (keyProfile tab k) (keyProfile tab k)
    rw [h1]; exact (C31_range _ _ _).2
  · show _ < pearson 36 (keyProfile tab k) (keyProfile tab k)
    rw [h1]; exact hlt k' (by omega) (by omega)

theorem pearson_comm (n : Nat) (x y : Nat → ℝ) : pearson n x y = pearson n y x := by
  unfold pearson
  rw [mul_comm (∑ i ∈ Finset.range n, (x i - avg n x) ^ 2)]
  congr 1
  exact Finset.sum_congr rfl fun i _ => mul_comm _ _

theorem table_cross (k k' : Nat) (hk : k < 36) (hk' : k' < 36) : pearson 36 (keyProfile majTab k) (keyProfile minTab k') < 1 := by
  rw [pearson_profile, (table_var k hk).1.2, (table_var k' hk').2.2]
  have h1 : (0 : ℝ) < cov36 majTab 0 majTab 0 := by exact_mod_cast (table_var 0 (by omega)).1.1
  have h2 : (0 : ℝ) < cov36 minTab 0 minTab 0 := by exact_mod_cast (table_var 0 (by omega)).2.1
  have hs := Real.sqrt_pos.mpr (mul_pos h1 h2)
  rw [div_lt_one hs]
  by_cases hp : 0 < cov36 majTab k minTab k'
  · apply Real.lt_sqrt_of_sq_lt
    exact_mod_cast (table_cov k hk k' hk').2 hp
  · refine lt_of_le_of_lt ?_ hs
    exact_mod_cast not_lt.mp hp

theorem isBest_affine (x : Nat → ℝ) (tab : List Int) (a b : ℝ) (ha : 0 < a) (m : Nat) :
    IsBest (fun k => pearson 36 (fun i => a * x i + b) (keyProfile tab k)) m ↔ IsBest (fun k => pearson 36 x (keyProfile tab k)) m := by
  simp only [C31_affine 36 x _ a b ha]

/-- An averaged chroma with the shape of a key profile, at any of the 36 tunings and at any level, is recognised as that key. -/
theorem C31_recognises (k : Nat) (hk : k < 36) (a b : ℝ) (ha : 0 < a) :
    RawKey (fun i => a * keyProfile majTab k i + b) (k / 3 + 1) ∧ RawKey (fun i => a * keyProfile minTab k i + b) (k / 3 + 13) := by
  constructor
  · obtain ⟨m, hm⟩ := best_exists (fun k' => pearson 36 (fun i => a * keyProfile majTab k i + b) (keyProfile minTab k'))
    refine ⟨k, m, (isBest_affine _ _ a b ha k).mpr (table_best majTab (Or.inl rfl) k hk).2, hm, ?_⟩
    rw [C31_affine _ _ _ _ _ ha, C31_affine _ _ _ _ _ ha, if_pos]
    rw [(table_best majTab (Or.inl rfl) k hk).1]
    exact table_cross k m hk hm.1
  · obtain ⟨m, hm⟩ := best_exists (fun k' => pearson 36 (fun i => a * keyProfile minTab k i + b) (keyProfile majTab k'))
    refine ⟨m, k, hm, (isBest_affine _ _ a b ha k).mpr (table_best minTab (Or.inr rfl) k hk).2, ?_⟩
    rw [C31_affine _ _ _ _ _ ha, C31_affine _ _ _ _ _ ha, if_neg]
    rw [(table_best minTab (Or.inr rfl) k hk).1, not_lt]
    exact (C31_range _ _ _).2

/-- Three calls with the C major profile, a window of two frames and a median over three keys: the hypotheses of the history theorems
are met. -/
example : (∀ f ∈ List.replicate 2 (List.replicate 36 (1 : ℝ)), f.length = 36) ∧ (List.replicate 36 (1 : ℝ)).length = 36 := by
  simp

end QM.KeyMode
