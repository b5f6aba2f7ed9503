import Verif.KeyMode.RobustProps

/-! Transposition of chroma frames and keys, and lemmas about it. -/

namespace QM.KeyMode

/-- A chroma frame transposed upwards by `t` semitones, which are three bins each. -/
noncomputable def transpose (t : Nat) (f : List ℝ) : List ℝ := (List.range 36).map fun i => f.getD ((i + (36 - 3 * t)) % 36) 0

/-- A key transposed upwards by `t` semitones: major keys are 1 to 12, minor keys 13 to 24, and after B comes C. -/
def shiftKey (t key : Nat) : Nat := if key ≤ 12 then (key - 1 + t) % 12 + 1 else (key - 13 + t) % 12 + 13

/-- Bin `a` of the profile of one mode correlates best among all bins of both modes. -/
def Top (x : Nat → ℝ) (tab : List Int) (a : Nat) : Prop :=
  a < 36 ∧ ∀ tab', tab' = majTab ∨ tab' = minTab → ∀ k, k < 36 → pearson 36 x (keyProfile tab' k) ≤ pearson 36 x (keyProfile tab a)

/-- Two keys of the same mode do not share the first place. -/
def Clear (x : Nat → ℝ) : Prop := ∀ tab, tab = majTab ∨ tab = minTab → ∀ a b, Top x tab a → Top x tab b → a / 3 = b / 3

theorem transpose_length (t : Nat) (f : List ℝ) : (transpose t f).length = 36 := by simp [transpose]

theorem pearson_congr (x x' y : Nat → ℝ) (h : ∀ i, i < 36 → x i = x' i) : pearson 36 x y = pearson 36 x' y := by
  have ea : avg 36 x = avg 36 x' := by
    unfold avg
    rw [Finset.sum_congr rfl fun i hi => h i (Finset.mem_range.mp hi)]
  unfold pearson
  rw [ea]
  congr 1
  · exact Finset.sum_congr rfl fun i hi => by rw [h i (Finset.mem_range.mp hi)]
  · congr 2
    exact Finset.sum_congr rfl fun i hi => by rw [h i (Finset.mem_range.mp hi)]

theorem mean_transpose (cs t : Nat) (hist : List (List ℝ)) (k : Nat) (hk : k < 36) :
    meanChroma cs (hist.map (transpose t)) k = meanChroma cs hist ((k + (36 - 3 * t)) % 36) := by
  unfold meanChroma
  rw [List.length_map, ← List.map_drop, List.map_map]
  congr 3
  funext f
  simp [transpose, hk]

/-- The correlations of the transposed history. -/
theorem pearson_transpose (cs t : Nat) (ht : t ≤ 12) (hist : List (List ℝ)) (tab : List Int) (k : Nat) (hk : k < 36) :
    pearson 36 (meanChroma cs (hist.map (transpose t))) (keyProfile tab ((k + 3 * t) % 36)) = pearson 36 (meanChroma cs hist) (keyProfile tab k) := by
  rw [← C31_transpose (meanChroma cs hist) tab (3 * t) k (by omega) hk]
  exact pearson_congr _ _ _ fun i hi => mean_transpose cs t hist i hi

theorem pearson_transpose_back (cs t : Nat) (ht : t ≤ 12) (hist : List (List ℝ)) (tab : List Int) (k : Nat) (hk : k < 36) :
    pearson 36 (meanChroma cs (hist.map (transpose t))) (keyProfile tab k) =
      pearson 36 (meanChroma cs hist) (keyProfile tab ((k + (36 - 3 * t)) % 36)) := by
  rw [← pearson_transpose cs t ht hist tab _ (Nat.mod_lt _ (by omega)), show ((k + (36 - 3 * t)) % 36 + 3 * t) % 36 = k by omega]

theorem best_transpose (cs t : Nat) (ht : t ≤ 12) (hist : List (List ℝ)) (tab : List Int) (b b' : Nat)
    (hb : IsBest (fun k => pearson 36 (meanChroma cs hist) (keyProfile tab k)) b)
    (hb' : IsBest (fun k => pearson 36 (meanChroma cs (hist.map (transpose t))) (keyProfile tab k)) b') :
    (∀ k, k < 36 → pearson 36 (meanChroma cs hist) (keyProfile tab k) ≤
      pearson 36 (meanChroma cs hist) (keyProfile tab ((b' + (36 - 3 * t)) % 36))) ∧
    pearson 36 (meanChroma cs (hist.map (transpose t))) (keyProfile tab b') = pearson 36 (meanChroma cs hist) (keyProfile tab b) := by
  have e := pearson_transpose_back cs t ht hist tab b' hb'.1
  have hmax : ∀ k, k < 36 → pearson 36 (meanChroma cs hist) (keyProfile tab k) ≤
      pearson 36 (meanChroma cs hist) (keyProfile tab ((b' + (36 - 3 * t)) % 36)) := fun k hk => by
    rw [← e, ← pearson_transpose cs t ht hist tab k hk]
    exact hb'.2.1 _ (Nat.mod_lt _ (by omega))
  refine ⟨hmax, ?_⟩
  rw [e]
  exact le_antisymm (hb.2.1 _ (Nat.mod_lt _ (by omega))) (hmax b hb.1)

/-- The raw key of the transposed history. -/
theorem raw_transpose (cs t : Nat) (ht : t ≤ 12) (hist : List (List ℝ)) (hc : Clear (meanChroma cs hist)) (key : Nat)
    (h : RawKey (meanChroma cs hist) key) : RawKey (meanChroma cs (hist.map (transpose t))) (shiftKey t key) := by
  obtain ⟨bM, bm, h1, h2, rfl⟩ := h
  obtain ⟨cM, hM⟩ := best_exists (fun k => pearson 36 (meanChroma cs (hist.map (transpose t))) (keyProfile majTab k))
  obtain ⟨cm, hm⟩ := best_exists (fun k => pearson 36 (meanChroma cs (hist.map (transpose t))) (keyProfile minTab k))
  obtain ⟨a1, a2⟩ := best_transpose cs t ht hist majTab bM cM h1 hM
  obtain ⟨b1, b2⟩ := best_transpose cs t ht hist minTab bm cm h2 hm
  refine ⟨cM, cm, hM, hm, ?_⟩
  rw [a2, b2]
  have l1 := h1.1
  have l2 := h2.1
  have l3 := hM.1
  have l4 := hm.1
  unfold shiftKey
  split_ifs with c d d
  · have q1 : ∀ k, k < 36 → pearson 36 (meanChroma cs hist) (keyProfile minTab k) ≤ pearson 36 (meanChroma cs hist) (keyProfile majTab bM) :=
      fun k hk => (h2.2.1 k hk).trans c.le
    have := hc majTab (Or.inl rfl) bM ((cM + (36 - 3 * t)) % 36)
      ⟨l1, by rintro _ (rfl | rfl) k hk; exacts [h1.2.1 k hk, q1 k hk]⟩
      ⟨Nat.mod_lt _ (by omega), by rintro _ (rfl | rfl) k hk; exacts [a1 k hk, (q1 k hk).trans (a1 bM l1)]⟩
    omega
  · omega
  · omega
  · have q1 : ∀ k, k < 36 → pearson 36 (meanChroma cs hist) (keyProfile majTab k) ≤ pearson 36 (meanChroma cs hist) (keyProfile minTab bm) :=
      fun k hk => (h1.2.1 k hk).trans (not_lt.mp c)
    have := hc minTab (Or.inr rfl) bm ((cm + (36 - 3 * t)) % 36)
      ⟨l2, by rintro _ (rfl | rfl) k hk; exacts [q1 k hk, h2.2.1 k hk]⟩
      ⟨Nat.mod_lt _ (by omega), by rintro _ (rfl | rfl) k hk; exacts [(q1 k hk).trans (b1 bm l2), b1 k hk]⟩
    omega

/-- A chroma close to the profile of a key is clear. -/
theorem clear_of_close (tab : List Int) (htab : tab = majTab ∨ tab = minTab) (k : Nat) (hk : k < 36) (x : Nat → ℝ)
    (hx : 39 / 40 < pearson 36 x (keyProfile tab k)) : Clear x := by
  have far : ∀ tab', tab' = majTab ∨ tab' = minTab → ∀ a, a < 36 → ¬ (tab' = tab ∧ a = k) →
      pearson 36 x (keyProfile tab' a) < pearson 36 x (keyProfile tab k) := by
    intro tab' htab' a ha hne
    refine closer x _ _ (dev_pos tab htab k hk) (dev_pos tab' htab' a ha) ?_ hx
    by_cases he : tab' = tab
    · subst he
      exact apart_same tab' htab k a hk ha fun e => hne ⟨rfl, e⟩
    · rcases htab with rfl | rfl <;> rcases htab' with rfl | rfl
      · exact absurd rfl he
      · exact apart_cross k a hk ha
      · rw [pearson_comm]; exact apart_cross a k ha hk
      · exact absurd rfl he
  intro tab' htab' a b ha hb
  have : ∀ c, Top x tab' c → tab' = tab ∧ c = k := fun c hc => by
    by_contra hn
    exact absurd (hc.2 tab htab k hk) (not_le.mpr (far tab' htab' c hc.1 hn))
  rw [(this a ha).2, (this b hb).2]

/-- The lower median follows every map that keeps the order of the values. -/
theorem median_map (l : List Nat) (f : Nat → Nat) (m m' : Nat) (hf : ∀ a ∈ l, ∀ b ∈ l, a ≤ b → f a ≤ f b) (h : IsLowerMedian l m)
    (h' : IsLowerMedian (l.map f) m') : m' = f m := by
  obtain ⟨s, p, o, g⟩ := h
  obtain ⟨s', p', o', g'⟩ := h'
  have ho : (s.map f).Pairwise (· ≤ ·) := by
    rw [List.pairwise_map]
    exact o.imp_of_mem fun {a b} ha hb hab => hf a (p.mem_iff.mp ha) b (p.mem_iff.mp hb) hab
  have : s' = s.map f := (p'.trans (p.map f).symm).eq_of_pairwise (fun a b _ _ h1 h2 => le_antisymm h1 h2) o' ho
  subst this
  rw [List.length_map, List.getElem?_map, g] at g'
  exact (Option.some.inj g').symm

end QM.KeyMode
