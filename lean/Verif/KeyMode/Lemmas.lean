import Verif.KeyMode.Spec
import Verif.MathReal.Props
import Verif.Common.Sum
import Mathlib.Order.Interval.Finset.Nat
import Mathlib.Algebra.BigOperators.Field
import Mathlib.Algebra.Order.BigOperators.Ring.Finset

namespace QM.KeyMode

/-- Rotating the summation index. -/
theorem sum_mod (n a : Nat) (f : Nat → ℝ) : ∑ i ∈ Finset.range n, f ((i + a) % n) = ∑ i ∈ Finset.range n, f i := by
  have h1 : ∑ i ∈ Finset.Ico a (a + n), f (i % n) = ∑ i ∈ Finset.range n, f i := by
    rw [← Nat.image_Ico_mod a n, Finset.sum_image (Nat.mod_injOn_Ico a n)]
  rw [← h1, Finset.sum_Ico_eq_sum_range, Nat.add_sub_cancel_left]
  exact Finset.sum_congr rfl fun i _ => by rw [Nat.add_comm]

theorem avg_mod (n a : Nat) (f : Nat → ℝ) : avg n (fun i => f ((i + a) % n)) = avg n f := by
  unfold avg; rw [sum_mod]

theorem mean_holds {n : Nat} {f : Nat → ℝ} {xs : List ℝ} (hn : 0 < n) (h : Holds n f xs) : MathReal.mean xs = avg n f := by
  unfold MathReal.mean avg
  rw [if_neg (by rw [h.1]; omega), MathReal.sum_eq, list_sum_holds h, h.1]

theorem loop_sum3 (n : Nat) (f : Nat → ℝ × ℝ × ℝ → Option (ℝ × ℝ × ℝ)) (g1 g2 g3 : Nat → ℝ)
    (hf : ∀ i s, i < n → f i s = some (s.1 + g1 i, s.2.1 + g2 i, s.2.2 + g3 i)) :
    loop n f (0, 0, 0) = some (∑ i ∈ Finset.range n, g1 i, ∑ i ∈ Finset.range n, g2 i, ∑ i ∈ Finset.range n, g3 i) := by
  induction n with
  | zero => simp [loop]
  | succ n ih =>
    rw [loop, ih (fun i acc hi => hf i acc (by omega))]
    simp only [Option.bind_some]
    rw [hf n _ (by omega)]
    simp only [Finset.sum_range_succ]

/-- The correlation function returns Pearson's coefficient with the shifted profile. -/
theorem krumCorr_ok (x y : Nat → ℝ) (data prof : List ℝ) (hd : Holds 36 (fun i => x i - avg 36 x) data)
    (hp : Holds 36 (fun i => y i - avg 36 y) prof) (k : Nat) (hk : k < 36) :
    krumCorr data prof ((k : Int) - 2) 36 = some (pearson 36 x (fun i => y ((i + 38 - k) % 36))) := by
  have hidx : ∀ i : Nat, i < 36 → ((i : Int) - ((k : Int) - 2) + (36 : Nat)).tmod (36 : Nat) = (((i + 38 - k) % 36 : Nat) : Int) := by
    intro i hi
    rw [show (i : Int) - ((k : Int) - 2) + (36 : Nat) = ((i + 38 - k : Nat) : Int) by omega]
    rw [Int.tmod_eq_emod_of_nonneg (by omega)]
    norm_cast
  have hrot : ∀ f : Nat → ℝ, ∑ i ∈ Finset.range 36, f ((i + 38 - k) % 36) = ∑ i ∈ Finset.range 36, f i := by
    intro f
    rw [← sum_mod 36 (38 - k) f]
    exact Finset.sum_congr rfl fun i _ => by rw [show i + 38 - k = i + (38 - k) by omega]
  have havg : avg 36 (fun i => y ((i + 38 - k) % 36)) = avg 36 y := by
    unfold avg; rw [hrot]
  unfold krumCorr
  rw [loop_sum3 36 _ (fun i => (x i - avg 36 x) * (y ((i + 38 - k) % 36) - avg 36 y)) (fun i => (x i - avg 36 x) ^ 2)
    (fun i => (y ((i + 38 - k) % 36) - avg 36 y) ^ 2)
    (by
      intro i s hi
      simp only [hidx i hi, hd.2 i hi, rdI_natCast, hp.2 _ (Nat.mod_lt (i + 38 - k) (show 0 < 36 by omega)), Option.bind_eq_bind,
        Option.bind_some, Option.pure_def]
      congr 3
      · ring
      · ring)]
  simp only [Option.bind_eq_bind, Option.bind_some]
  unfold pearson
  rw [havg]
  split
  · rfl
  · next hc =>
    have h0 := le_antisymm (not_lt.mp hc) (Real.sqrt_nonneg _)
    rw [h0, div_zero]
    rfl

/-- The filling loops for the correlations. -/
theorem corr_ok (x y : Nat → ℝ) (data prof old : List ℝ) (hd : Holds 36 (fun i => x i - avg 36 x) data)
    (hp : Holds 36 (fun i => y i - avg 36 y) prof) (ho : old.length = 36) :
    ∃ c, loop 36 (fun k (a : List ℝ) => do
      let c ← krumCorr data prof ((k : Int) - 2) 36
      wr a k c) old = some c ∧ Holds 36 (fun k => pearson 36 x (fun i => y ((i + 38 - k) % 36))) c := by
  refine fill_part (holds_of_length ho 0) ?_
  intro i ys hi _
  rw [krumCorr_ok x y data prof hd hp i hi]
  rfl

theorem best_of_getMax (f : Nat → ℝ) (xs : List ℝ) (h : Holds 36 f xs) : ∃ b, MathReal.getMax xs = some (b, f b) ∧ IsBest f b := by
  obtain ⟨i, m, e1, e2, e3, e4⟩ := (MathReal.C04_getMax xs).2 (by rintro rfl; have := h.1; simp at this)
  have hi : i < 36 := by rw [← h.1]; exact lt_of_getElem?_some e2
  have hm : m = f i := by rw [h.2 i hi] at e2; exact (Option.some.inj e2).symm
  subst hm
  refine ⟨i, e1, hi, fun k hk => e3 _ (List.mem_of_getElem? (h.2 k hk)), fun k hk => e4 k _ hk (h.2 k (by omega))⟩

theorem rawKey_ok (x : Nat → ℝ) (maj min : List ℝ) (h1 : Holds 36 (fun k => pearson 36 x (keyProfile majTab k)) maj)
    (h2 : Holds 36 (fun k => pearson 36 x (keyProfile minTab k)) min) : ∃ key, rawKey maj min = some key ∧ RawKey x key ∧ 1 ≤ key ∧ key ≤ 24 := by
  obtain ⟨bM, a1, a2⟩ := best_of_getMax _ maj h1
  obtain ⟨bm, b1, b2⟩ := best_of_getMax _ min h2
  refine ⟨if pearson 36 x (keyProfile majTab bM) > pearson 36 x (keyProfile minTab bm) then bM / 3 + 1 else bm / 3 + 13, ?_,
    ⟨bM, bm, a2, b2, rfl⟩, ?_⟩
  · unfold rawKey
    simp only [a1, b1, Option.bind_eq_bind, Option.bind_some, Option.pure_def, Option.some.injEq]
    split
    · rfl
    · omega
  · have := a2.1
    have := b2.1
    split <;> omega

/-- The state after a history `hist` with raw keys `raws`. -/
structure Good (c m : Nat) (hist : List (List ℝ)) (raws : List Nat) (s : KM) : Prop where
  cs : s.cs = c
  ms : s.ms = m
  idx : s.idx = hist.length % c
  cfill : s.cfill = min hist.length c
  mfill : s.mfill = min hist.length m
  clen : s.chroma.length = 36 * c
  chroma : ∀ j : Nat, j < hist.length → hist.length ≤ j + c → ∀ k : Nat, k < 36 →
    s.chroma[j % c * 36 + k]? = some ((hist.getD j []).getD k 0)
  meanlen : s.mean.length = 36
  majNorm : Holds 36 (fun i => keyProfile majTab 2 i - avg 36 (keyProfile majTab 2)) s.majNorm
  minNorm : Holds 36 (fun i => keyProfile minTab 2 i - avg 36 (keyProfile minTab 2)) s.minNorm
  majlen : s.maj.length = 36
  minlen : s.min.length = 36
  medlen : s.med.length = m
  rlen : raws.length = hist.length
  med : ∀ t : Nat, t < hist.length → t < m → s.med[m - 1 - t]? = some (raws.getD (hist.length - 1 - t) 0)
  sorted : s.sorted.length = m
  strengths : s.strengths.length = 24

theorem profile_holds (tab : List Int) (h : tab.length = 36) : Holds 36 (keyProfile tab 2) (profile tab) := by
  refine ⟨by simp [profile, h], fun j hj => ?_⟩
  unfold keyProfile profile
  rw [show (j + 38 - 2) % 36 = j by omega, List.getElem?_map, List.getElem?_eq_getElem (by omega)]
  simp [List.getElem?_eq_getElem (show j < tab.length by omega)]

theorem norm_ok (tab : List Int) (h : tab.length = 36) (u : ℝ) :
    ∃ c, loop 36 (fun i (a : List ℝ) => do
      let v ← (profile tab)[i]?
      wr a i (v - MathReal.mean (profile tab))) (List.replicate 36 u) = some c ∧
      Holds 36 (fun i => keyProfile tab 2 i - avg 36 (keyProfile tab 2)) c := by
  refine fill_part (holds_replicate 36 u) ?_
  intro i ys hi _
  rw [(profile_holds tab h).2 i hi, mean_holds (by omega) (profile_holds tab h)]
  rfl

theorem make_ok (cs ms : Nat) (u : ℝ) : ∃ s, make cs ms u = some s ∧ Good cs ms [] [] s := by
  obtain ⟨c1, a1, a2⟩ := norm_ok majTab (by decide) u
  obtain ⟨c2, b1, b2⟩ := norm_ok minTab (by decide) u
  refine ⟨⟨cs, ms, 0, 0, 0, List.replicate (36 * cs) 0, List.replicate 36 u, c1, c2, List.replicate 36 u, List.replicate 36 u,
    List.replicate ms 0, List.replicate ms 0, List.replicate 24 u⟩, ?_, ?_⟩
  · unfold make
    dsimp only
    rw [bind_ok a1, bind_ok b1]
    rfl
  · exact ⟨rfl, rfl, by simp, by simp, by simp, by simp, fun m hm => absurd hm (by simp), by simp, a2, b2, by simp, by simp, by simp, rfl,
      fun t ht => absurd ht (by simp), by simp, by simp⟩

theorem store_ok (idx cs : Nat) (frame chroma : List ℝ) (hf : frame.length = 36) (hi : idx < cs) (hc : chroma.length = 36 * cs) :
    ∃ c, loop 36 (fun j (c : List ℝ) => do
      let v ← frame[j]?
      wr c (idx * 36 + j) v) chroma = some c ∧ c.length = 36 * cs ∧
      (∀ k : Nat, k < 36 → c[idx * 36 + k]? = some (frame.getD k 0)) ∧
      ∀ b k : Nat, b ≠ idx → k < 36 → c[b * 36 + k]? = chroma[b * 36 + k]? := by
  obtain ⟨c, e1, e2, e3, e4⟩ := loop_inv (n := 36) (s := chroma) (f := fun j (c : List ℝ) => do
      let v ← frame[j]?
      wr c (idx * 36 + j) v)
    (P := fun i c => c.length = 36 * cs ∧ (∀ k : Nat, k < i → c[idx * 36 + k]? = some (frame.getD k 0)) ∧
      ∀ b k : Nat, b ≠ idx → k < 36 → c[b * 36 + k]? = chroma[b * 36 + k]?)
    ⟨hc, fun k hk => absurd hk (by omega), fun b k _ _ => rfl⟩
    (by
      rintro i c hi' ⟨h1, h2, h3⟩
      refine ⟨c.set (idx * 36 + i) (frame.getD i 0), ?_, by simp [h1], fun k hk => ?_, fun b k hb hk => ?_⟩
      · rw [show frame[i]? = some (frame.getD i 0) by simp [List.getElem?_eq_getElem (show i < frame.length by omega)]]
        exact wr_some _ (by omega)
      · by_cases he : k = i
        · subst he; rw [List.getElem?_set_self (by omega)]
        · rw [List.getElem?_set_ne (by omega)]; exact h2 k (by omega)
      · rw [List.getElem?_set_ne (by omega)]; exact h3 b k hb hk)
  exact ⟨c, e1, e2, e3, e4⟩

theorem sum_drop (hist : List (List ℝ)) (a k : Nat) (ha : a ≤ hist.length) :
    ((hist.drop a).map (fun f => f.getD k 0)).sum = ∑ m ∈ Finset.Ico a hist.length, (hist.getD m []).getD k 0 := by
  rw [Finset.sum_Ico_eq_sum_range]
  refine list_sum_holds ⟨by simp, fun j hj => ?_⟩
  rw [List.getElem?_map, List.getElem?_drop, List.getElem?_eq_getElem (by omega)]
  simp [List.getElem?_eq_getElem (show a + j < hist.length by omega)]

/-- The stored blocks add up to the last frames. -/
theorem sum_blocks (cs : Nat) (hcs : 0 < cs) (hist : List (List ℝ)) (chroma : List ℝ) (k : Nat) (hk : k < 36)
    (h : ∀ m : Nat, m < hist.length → hist.length ≤ m + cs → ∀ k : Nat, k < 36 →
      chroma[m % cs * 36 + k]? = some ((hist.getD m []).getD k 0)) :
    loop (min hist.length cs) (fun j (acc : ℝ) => do
      let v ← chroma[k + j * 36]?
      pure (acc + v)) 0 = some ((hist.drop (hist.length - cs)).map (fun f => f.getD k 0)).sum := by
  have hpre : ∀ j, j < min hist.length cs → ∃ m, m < hist.length ∧ hist.length ≤ m + cs ∧ m % cs = j := by
    intro j hj
    by_cases hn : hist.length ≤ cs
    · exact ⟨j, by omega, by omega, Nat.mod_eq_of_lt (by omega)⟩
    · have : j ∈ (Finset.Ico (hist.length - cs) (hist.length - cs + cs)).image (· % cs) := by
        rw [Nat.image_Ico_mod]; exact Finset.mem_range.mpr (by omega)
      obtain ⟨m, hm, e⟩ := Finset.mem_image.mp this
      rw [Finset.mem_Ico] at hm
      exact ⟨m, by omega, by omega, e⟩
  have hval : ∀ m, m < hist.length → hist.length ≤ m + cs → chroma.getD (k + m % cs * 36) 0 = (hist.getD m []).getD k 0 := by
    intro m h1 h2
    have := h m h1 h2 k hk
    rw [Nat.add_comm] at this
    rw [List.getD_eq_getElem?_getD, this]
    rfl
  rw [loop_sum _ _ (fun j => chroma.getD (k + j * 36) 0) 0
    (by
      intro j acc hj
      obtain ⟨m, h1, h2, rfl⟩ := hpre j hj
      have := h m h1 h2 k hk
      rw [Nat.add_comm] at this
      rw [hval m h1 h2, this]
      rfl), zero_add, sum_drop _ _ _ (by omega)]
  congr 1
  by_cases hn : hist.length ≤ cs
  · rw [Nat.min_eq_left hn, show hist.length - cs = 0 by omega, Finset.range_eq_Ico]
    refine Finset.sum_congr rfl fun j hj => ?_
    rw [Finset.mem_Ico] at hj
    have := hval j (by omega) (by omega)
    rwa [Nat.mod_eq_of_lt (by omega)] at this
  · rw [Nat.min_eq_right (by omega)]
    have hI : Finset.Ico (hist.length - cs) hist.length = Finset.Ico (hist.length - cs) (hist.length - cs + cs) := by
      congr 1; omega
    rw [hI, ← Nat.image_Ico_mod (hist.length - cs) cs, Finset.sum_image (Nat.mod_injOn_Ico _ cs)]
    refine Finset.sum_congr rfl fun j hj => ?_
    rw [Finset.mem_Ico] at hj
    exact hval j (by omega) (by omega)

theorem getD_append_left {α : Type} (h : List α) (f d : α) (j : Nat) (hj : j < h.length) : (h ++ [f]).getD j d = h.getD j d := by
  simp [List.getElem?_append_left hj]

theorem getD_append_self {α : Type} (h : List α) (f d : α) : (h ++ [f]).getD h.length d = f := by
  simp

theorem average_ok {cs ms : Nat} (hcs : 0 < cs) {hist : List (List ℝ)} {raws : List Nat} {s : KM} (h : Good cs ms hist raws s)
    (frame : List ℝ) (hf : frame.length = 36) :
    ∃ chroma idx cfill mean, average s frame = some (chroma, idx, cfill, mean) ∧ chroma.length = 36 * cs ∧
      idx = (hist.length + 1) % cs ∧ cfill = min (hist.length + 1) cs ∧
      (∀ j : Nat, j < hist.length + 1 → hist.length + 1 ≤ j + cs → ∀ k : Nat, k < 36 →
        chroma[j % cs * 36 + k]? = some (((hist ++ [frame]).getD j []).getD k 0)) ∧
      Holds 36 (fun k => meanChroma cs (hist ++ [frame]) k - avg 36 (meanChroma cs (hist ++ [frame]))) mean := by
  have hidx : s.idx < cs := by rw [h.idx]; exact Nat.mod_lt _ hcs
  obtain ⟨c, a1, a2, a3, a4⟩ := store_ok s.idx cs frame s.chroma hf hidx h.clen
  have hi' : (if (s.idx : Int) ≥ (s.cs : Int) - 1 then 0 else s.idx + 1) = (hist.length + 1) % cs := by
    rw [h.cs, Nat.add_mod_eq_ite, ← h.idx]
    by_cases h1 : cs = 1
    · subst h1
      have : s.idx = 0 := by omega
      simp [this]
    · rw [Nat.mod_eq_of_lt (show 1 < cs by omega)]
      split <;> split <;> omega
  have hc' : (if s.cfill ≥ s.cs then s.cs else s.cfill + 1) = min (hist.length + 1) cs := by
    rw [h.cs, h.cfill]; split <;> omega
  have hch : ∀ j : Nat, j < hist.length + 1 → hist.length + 1 ≤ j + cs → ∀ k : Nat, k < 36 →
      c[j % cs * 36 + k]? = some (((hist ++ [frame]).getD j []).getD k 0) := by
    intro j h1 h2 k hk
    by_cases he : j = hist.length
    · subst he
      rw [← h.idx, a3 k hk, getD_append_self]
    · rw [getD_append_left _ _ _ _ (by omega), a4 _ k ?_ hk, h.chroma j (by omega) (by omega) k hk]
      rw [h.idx]
      intro hm
      have := Nat.mod_injOn_Ico (hist.length + 1 - cs) cs (show j ∈ _ by simp; omega) (show hist.length ∈ _ by simp; omega) hm
      omega
  have hlen : (hist ++ [frame]).length = hist.length + 1 := by simp
  obtain ⟨m1, b1, b2⟩ := fill_part (L := 36) (new := meanChroma cs (hist ++ [frame])) (holds_of_length h.meanlen 0)
    (f := fun k (m : List ℝ) => do
      let v ← loop (min (hist.length + 1) cs) (fun j (acc : ℝ) => do
        let v ← c[k + j * 36]?
        pure (acc + v)) 0
      wr m k (v / (min (hist.length + 1) cs : Nat)))
    (by
      intro k ys hk _
      have := sum_blocks cs hcs (hist ++ [frame]) c k hk (by rw [hlen]; exact hch)
      rw [hlen] at this
      rw [this]
      unfold meanChroma
      rw [hlen]
      rfl)
  obtain ⟨m2, c1, c2⟩ := fill_part (L := 36) (new := fun k => meanChroma cs (hist ++ [frame]) k - avg 36 (meanChroma cs (hist ++ [frame]))) b2
    (f := fun k (m : List ℝ) => do
      let v ← m[k]?
      wr m k (v - MathReal.mean m1))
    (by
      intro k ys hk hp
      rw [hp.get hk, mean_holds (by omega) b2]
      rfl)
  refine ⟨c, _, _, m2, ?_, a2, rfl, rfl, hch, c2⟩
  unfold average
  rw [bind_ok a1]
  dsimp only
  rw [hi', hc', if_neg (by omega), bind_ok b1, bind_ok c1]
  rfl

theorem medianKey_ok {cs ms : Nat} (hms : 0 < ms) {hist : List (List ℝ)} {raws : List Nat} {s : KM} (h : Good cs ms hist raws s)
    (key : Nat) :
    ∃ mfill med sorted key', medianKey s key = some (mfill, med, sorted, key') ∧ mfill = min (hist.length + 1) ms ∧ med.length = ms ∧
      sorted.length = ms ∧ (∀ t : Nat, t < hist.length + 1 → t < ms → med[ms - 1 - t]? = some ((raws ++ [key]).getD (hist.length - t) 0)) ∧
      IsLowerMedian ((raws ++ [key]).drop (hist.length + 1 - ms)) key' := by
  have hfill : (if s.mfill ≥ s.ms then s.ms else s.mfill + 1) = min (hist.length + 1) ms := by
    rw [h.ms, h.mfill]; split <;> omega
  obtain ⟨m1, a1, a2, a3⟩ := loop_inv (n := ms - 1) (s := s.med) (f := fun t (m : List Nat) => do
      let v ← m[t + 1]?
      wr m t v) (P := fun i m => m.length = ms ∧ ∀ j : Nat, j < ms → m[j]? = if j < i then s.med[j + 1]? else s.med[j]?)
    ⟨h.medlen, fun j hj => by simp⟩
    (by
      rintro i m hi ⟨h1, h2⟩
      have hg : m[i + 1]? = some (s.med.getD (i + 1) 0) := by
        rw [h2 (i + 1) (by omega), if_neg (by omega)]
        simp [List.getElem?_eq_getElem (show i + 1 < s.med.length by rw [h.medlen]; omega)]
      refine ⟨m.set i (s.med.getD (i + 1) 0), by rw [hg]; exact wr_some _ (by omega), by simp [h1], fun j hj => ?_⟩
      by_cases he : j = i
      · subst he
        rw [List.getElem?_set_self (by omega), if_pos (by omega)]
        simp [List.getElem?_eq_getElem (show j + 1 < s.med.length by rw [h.medlen]; omega)]
      · rw [List.getElem?_set_ne (Ne.symm he), h2 j hj]
        by_cases hji : j < i
        · rw [if_pos hji, if_pos (by omega)]
        · rw [if_neg hji, if_neg (by omega)])
  have hmed : ∀ t : Nat, t < hist.length + 1 → t < ms →
      (m1.set (ms - 1) key)[ms - 1 - t]? = some ((raws ++ [key]).getD (hist.length - t) 0) := by
    intro t h1 h2
    by_cases h0 : t = 0
    · subst h0
      rw [Nat.sub_zero, Nat.sub_zero, List.getElem?_set_self (by omega), ← h.rlen, getD_append_self]
    · rw [List.getElem?_set_ne (by omega), a3 _ (by omega), if_pos (by omega), getD_append_left _ _ _ _ (by rw [h.rlen]; omega)]
      have := h.med (t - 1) (by omega) (by omega)
      rw [show ms - 1 - t + 1 = ms - 1 - (t - 1) by omega, this]
      congr 2
      omega
  have hmlen : (m1.set (ms - 1) key).length = ms := by simp [a2]
  obtain ⟨srt, b1, b2⟩ := fill_part (L := ms) (new := fun k => (m1.set (ms - 1) key).getD (ms - 1 - k) 0) (holds_of_length h.sorted 0)
    (f := fun k (o : List Nat) => do
      let v ← rdI (m1.set (ms - 1) key) ((ms : Int) - 1 - (k : Int))
      wr o k v)
    (by
      intro k ys hk _
      rw [show (ms : Int) - 1 - (k : Int) = ((ms - 1 - k : Nat) : Int) by omega, rdI_natCast,
        get_getD _ (ms - 1 - k) 0 (by omega)]
      rfl)
  have htake : srt.take (min (hist.length + 1) ms) = ((raws ++ [key]).drop (hist.length + 1 - ms)).reverse := by
    apply List.ext_getElem?
    intro j
    rw [List.getElem?_take]
    by_cases hj : j < min (hist.length + 1) ms
    · rw [if_pos hj, b2.2 j (by omega), List.getElem?_reverse (by simp [h.rlen]; omega), List.getElem?_drop]
      simp only [List.length_drop, List.length_append, List.length_singleton, h.rlen]
      rw [List.getD_eq_getElem?_getD, hmed j (by omega) (by omega),
        show hist.length + 1 - ms + (hist.length + 1 - (hist.length + 1 - ms) - 1 - j) = hist.length - j by omega]
      simp only [Option.getD_some]
      simp [List.getElem?_eq_getElem (show hist.length - j < (raws ++ [key]).length by simp [h.rlen])]
    · rw [if_neg hj, List.getElem?_eq_none (by simp [h.rlen]; omega)]
  have hsl : ((srt.take (min (hist.length + 1) ms)).mergeSort (fun a b => decide (a ≤ b))).length = min (hist.length + 1) ms := by
    rw [List.length_mergeSort, List.length_take, b2.1]; omega
  have hmid : (if (min (hist.length + 1) ms + 1) / 2 ≤ 0 then 1 else (min (hist.length + 1) ms + 1) / 2) = (min (hist.length + 1) ms + 1) / 2 := by
    rw [if_neg (by omega)]
  obtain ⟨key', hkey⟩ : ∃ v, ((srt.take (min (hist.length + 1) ms)).mergeSort (fun a b => decide (a ≤ b)))[
      (min (hist.length + 1) ms + 1) / 2 - 1]? = some v := ⟨_, List.getElem?_eq_getElem (by omega)⟩
  refine ⟨_, m1.set (ms - 1) key, (srt.take (min (hist.length + 1) ms)).mergeSort (fun a b => decide (a ≤ b)) ++
    srt.drop (min (hist.length + 1) ms), key', ?_, rfl, hmlen, by rw [List.length_append, hsl, List.length_drop, b2.1]; omega, hmed, ?_⟩
  · unfold medianKey
    dsimp only
    have hw : wrI m1 ((ms : Int) - 1) key = some (m1.set (ms - 1) key) := by
      rw [show (ms : Int) - 1 = ((ms - 1 : Nat) : Int) by omega, wrI_natCast]; exact wr_some _ (by omega)
    rw [hfill, h.ms, bind_ok a1, bind_ok hw, bind_ok b1]
    rw [hmid, List.getElem?_append_left (by omega), hkey]
    rfl
  · refine ⟨(srt.take (min (hist.length + 1) ms)).mergeSort (fun a b => decide (a ≤ b)), ?_, ?_, ?_⟩
    · refine (List.mergeSort_perm _ _).trans ?_
      rw [htake]
      exact List.reverse_perm _
    · have := List.pairwise_mergeSort (le := fun a b : Nat => decide (a ≤ b)) (by intro a b c; simp; omega) (by intro a b; simp; omega)
        (srt.take (min (hist.length + 1) ms))
      simpa using this
    · rw [← hkey]
      congr 2
      simp [h.rlen]
      omega

theorem keyProfile_shift (tab : List Int) (k i : Nat) (hk : k < 36) : keyProfile tab 2 ((i + 38 - k) % 36) = keyProfile tab k i := by
  unfold keyProfile
  congr 3
  omega

theorem process_ok {cs ms : Nat} (hcs : 0 < cs) (hms : 0 < ms) {hist : List (List ℝ)} {raws : List Nat} {s : KM}
    (h : Good cs ms hist raws s) (frame : List ℝ) (hf : frame.length = 36) :
    ∃ s' raw key, process s frame = some (s', key) ∧ Good cs ms (hist ++ [frame]) (raws ++ [raw]) s' ∧
      RawKey (meanChroma cs (hist ++ [frame])) raw ∧ 1 ≤ raw ∧ raw ≤ 24 ∧
      IsLowerMedian ((raws ++ [raw]).drop (hist.length + 1 - ms)) key ∧
      Holds 36 (fun k => pearson 36 (meanChroma cs (hist ++ [frame])) (keyProfile majTab k)) s'.maj ∧
      Holds 36 (fun k => pearson 36 (meanChroma cs (hist ++ [frame])) (keyProfile minTab k)) s'.min := by
  obtain ⟨chroma, idx, cfill, mean, a1, a2, a3, a4, a5, a6⟩ := average_ok hcs h frame hf
  obtain ⟨maj, b1, b2⟩ := corr_ok _ _ mean s.majNorm s.maj a6 h.majNorm h.majlen
  obtain ⟨min', c1, c2⟩ := corr_ok _ _ mean s.minNorm s.min a6 h.minNorm h.minlen
  replace b2 := b2.congr (g := fun k => pearson 36 (meanChroma cs (hist ++ [frame])) (keyProfile majTab k))
    (fun k hk => congrArg _ (funext fun i => keyProfile_shift majTab k i hk))
  replace c2 := c2.congr (g := fun k => pearson 36 (meanChroma cs (hist ++ [frame])) (keyProfile minTab k))
    (fun k hk => congrArg _ (funext fun i => keyProfile_shift minTab k i hk))
  obtain ⟨raw, d1, d2, d3, d4⟩ := rawKey_ok _ maj min' b2 c2
  obtain ⟨mfill, med, sorted, key, e1, e2, e3, e4, e5, e6⟩ := medianKey_ok hms h raw
  refine ⟨⟨s.cs, s.ms, idx, cfill, mfill, chroma, mean, s.majNorm, s.minNorm, maj, min', med, sorted, s.strengths⟩, raw, key, ?_, ?_, d2,
    d3, d4, e6, b2, c2⟩
  · unfold process
    rw [bind_ok a1]
    dsimp only
    rw [bind_ok b1, bind_ok c1, bind_ok d1, bind_ok e1]
    rfl
  · exact ⟨h.cs, h.ms, by simpa using a3, by simpa using a4, by simpa using e2, a2, by simpa using a5, a6.1, h.majNorm, h.minNorm, b2.1,
      c2.1, e3, by simp [h.rlen], fun t h1 h2 => by
        have := e5 t (by simpa using h1) h2
        simpa using this, e4, h.strengths⟩

end QM.KeyMode
