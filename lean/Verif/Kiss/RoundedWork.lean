import Verif.Kiss.RoundedBfly
import Mathlib.Algebra.BigOperators.Field

/-!
# The whole transform in floating point
-/

namespace QM.Kiss

open Complex QM.DFT QM.Double

section

variable {fl : ℝ → ℝ} (hfl : Rounds fl) {M : ℝ} (hM : Scale M)

include hfl hM in
/-- The accumulation loop of the generic butterfly. -/
theorem genericInnerF_ok {st : Plan} {N fs off k n : Nat} {b scratch : List ℂ} (hp : PlanNear st N)
    (hk : fs * k < N) (hn : n < scratch.length) (hn2 : n ≤ 2147483647) (hb : off + k < b.length)
    (hs : ∑ q ∈ Finset.range (n + 1), ‖get scratch q‖ ≤ M) (h0 : b[off + k]? = some (get scratch 0)) :
    ∃ b' t, loop n (genericInnerF fl st fs off k scratch) (b, 0) = some (b', t) ∧ b'.length = b.length ∧
      (∃ v, b'[off + k]? = some v ∧
        NearC M (82 * n) v (∑ q' ∈ Finset.range (n + 1), get scratch q' * root st.inverse N ^ (fs * q' * k))) ∧
      (∀ i, i ≠ off + k → b'[i]? = b[i]?) := by
  have hw := root_pow_self st.inverse (n := N) (by omega)
  have hle : ∀ j, j ≤ n → ∑ q ∈ Finset.range (j + 1), ‖get scratch q‖ ≤ M := fun j hj =>
    (Finset.sum_le_sum_of_subset_of_nonneg (Finset.range_mono (by omega)) fun _ _ _ => norm_nonneg _).trans hs
  have hnorm : ∀ j, ‖∑ q' ∈ Finset.range (j + 1), get scratch q' * root st.inverse N ^ (fs * q' * k)‖ ≤
      ∑ q ∈ Finset.range (j + 1), ‖get scratch q‖ := by
    intro j
    refine (norm_sum_le _ _).trans (Finset.sum_le_sum fun q _ => ?_)
    rw [norm_mul, norm_root_pow, mul_one]
  obtain ⟨s', h1, h2⟩ := loop_inv n (genericInnerF fl st fs off k scratch) (b, 0)
    (fun j s => s.2 = (j * (fs * k)) % N ∧ s.1.length = b.length ∧
      (∃ v, s.1[off + k]? = some v ∧
        NearC M (82 * j) v (∑ q' ∈ Finset.range (j + 1), get scratch q' * root st.inverse N ^ (fs * q' * k))) ∧
      (∀ i, i ≠ off + k → s.1[i]? = b[i]?))
    ⟨by simp, rfl, ⟨get scratch 0, h0, by simpa using nearC_refl M (get scratch 0)⟩, fun _ _ => rfl⟩
    (by
      rintro j ⟨b1, t⟩ hj ⟨ht, hl, ⟨v, hv, hnear⟩, ho⟩
      dsimp only at ht hl hv ho
      have htN : (j * (fs * k) + fs * k) % N < N := Nat.mod_lt _ (by omega)
      have hss := twidx_step hk ht
      obtain ⟨tw, k1, n1⟩ := hp.tw _ htN
      have hj1 := hle (j + 1) (by omega)
      rw [Finset.sum_range_succ] at hj1
      have hnn : ∀ m, 0 ≤ ∑ q ∈ Finset.range m, ‖get scratch q‖ := fun m => Finset.sum_nonneg fun _ _ => norm_nonneg _
      have := hnn (j + 1)
      obtain ⟨a1, a2⟩ := cmul_near hfl hM n1 (norm_root_pow _ _ _) (f := get scratch (j + 1)) (by linarith)
      have hjn : (j : ℝ) ≤ 2147483647 := by
        have : (j : ℝ) ≤ ((2147483647 : ℕ) : ℝ) := Nat.cast_le.mpr (by omega)
        simpa using this
      have hadd := cadd_near hfl hM hnear a1
        (by rw [a2]; have := hnorm j; have := hM.pos; linarith) (by norm_num; linarith)
      refine ⟨(b1.set (off + k) (cadd fl v (cmul fl (get scratch (j + 1)) tw)), (j * (fs * k) + fs * k) % N), ?_, ?_, ?_, ?_, ?_⟩
      · simp only [genericInnerF, hp.nfft]
        rw [hss]
        simp only [get_eq (show j + 1 < scratch.length by omega), k1, hv, Option.bind_eq_bind, Option.bind_some]
        rw [wr_some _ (by omega)]
        rfl
      · simp only; congr 1; ring
      · simp [hl]
      · refine ⟨_, set_hit (by omega), ?_⟩
        rw [Finset.sum_range_succ _ (j + 1)]
        rw [pow_mod_of hw] at hadd
        rw [show fs * (j + 1) * k = j * (fs * k) + fs * k by ring]
        exact nearC_mono hM hadd (by push_cast; linarith)
      · intro i hi
        simp only
        rw [set_miss (by omega)]; exact ho i hi)
  obtain ⟨b', t⟩ := s'
  exact ⟨b', t, h1, h2.2⟩

include hfl hM in
theorem genericF_ok {st : Plan} {N fs m p off u : Nat} {b : List ℂ} (hp : PlanNear st N) (hN : N = fs * (p * m))
    (hp1 : 1 ≤ p) (hp2 : p ≤ 2147483647) (hu : u < m) (hN0 : N ≠ 0) (hb : off + p * m ≤ b.length)
    (hs : ∑ q ∈ Finset.range p, ‖get b (off + u + q * m)‖ ≤ M) :
    ∃ b', genericBodyF fl st fs m p off u b = some b' ∧ CombineF M (root st.inverse N) fs m p off u b b' := by
  have hfs : fs ≠ 0 := by rintro rfl; simp at hN; exact hN0 hN
  have hk : ∀ q, q < p → u + q * m < p * m := by
    intro q hq
    have : (q + 1) * m ≤ p * m := Nat.mul_le_mul_right m hq
    rw [Nat.add_mul] at this; omega
  have hne : ∀ q q', q ≠ q' → u + q * m ≠ u + q' * m := by
    intro q q' h he
    exact h (Nat.eq_of_mul_eq_mul_right (by omega : 0 < m) (by omega))
  have hm : (List.range p).mapM (fun q1 => b[off + u + q1 * m]?) =
      some ((List.range p).map (fun q1 => get b (off + u + q1 * m))) := by
    apply mapM_some'
    intro q hq
    rw [List.mem_range] at hq
    exact get_eq (by have := hk q hq; omega)
  have hsl : ((List.range p).map (fun q1 => get b (off + u + q1 * m))).length = p := by simp
  have hsg : ∀ q, q < p → get ((List.range p).map (fun q1 => get b (off + u + q1 * m))) q =
      get b (off + u + q * m) := by
    intro q hq
    exact get_of_some (by simp [hq])
  unfold genericBodyF
  rw [hm]
  simp only [Option.bind_eq_bind, Option.bind_some]
  generalize hscr : (List.range p).map (fun q1 => get b (off + u + q1 * m)) = scratch at *
  have hs' : ∑ q ∈ Finset.range (p - 1 + 1), ‖get scratch q‖ ≤ M := by
    rw [show p - 1 + 1 = p by omega]
    refine le_trans (le_of_eq (Finset.sum_congr rfl fun q hq => ?_)) hs
    rw [hsg q (Finset.mem_range.mp hq)]
  have hw := unit_pos hM
  obtain ⟨b', h1, h2, h3, h4⟩ := loop_inv (n := p) (s := b)
    (f := fun q1 b => (scratch[0]?).bind fun s0 => (wr b (off + (u + q1 * m)) s0).bind fun b =>
      (loop (p - 1) (genericInnerF fl st fs off (u + q1 * m) scratch) (b, 0)).bind fun r => pure r.1)
    (P := fun j b' => b'.length = b.length ∧
      (∀ q, q < j → ∃ v, b'[off + u + q * m]? = some v ∧
        ‖v - ∑ q' ∈ Finset.range p, get b (off + u + q' * m) * root st.inverse N ^ (fs * q' * (u + q * m))‖ ≤
          250 * p * (M / 2 ^ 53)) ∧
      (∀ i, (∀ q, q < j → i ≠ off + u + q * m) → b'[i]? = b[i]?))
    ⟨rfl, fun q hq => absurd hq (by omega), fun i _ => rfl⟩
    (by
      rintro j b1 hj ⟨hl, hv, ho⟩
      have hkj := hk j hj
      have h0 : scratch[0]? = some (get scratch 0) := get_eq (by omega)
      obtain ⟨b2, t, hi1, hi2, ⟨v, hi3, hi3'⟩, hi4⟩ := genericInnerF_ok hfl hM (st := st) (N := N) (fs := fs) (off := off)
        (k := u + j * m)
        (n := p - 1) (b := b1.set (off + (u + j * m)) (get scratch 0)) (scratch := scratch) hp
        (by rw [hN]; exact Nat.mul_lt_mul_of_pos_left hkj (Nat.pos_of_ne_zero hfs)) (by omega) (by omega) (by simp; omega)
        hs' (by rw [set_hit (by omega)])
      refine ⟨b2, ?_, by simp [hi2, hl], ?_, ?_⟩
      · rw [h0]
        simp only [Option.bind_some]
        rw [wr_some _ (by omega)]
        simp only [Option.bind_some]
        rw [hi1]
        rfl
      · intro q hq
        by_cases hqj : q = j
        · subst hqj
          refine ⟨v, by rw [show off + u + q * m = off + (u + q * m) by omega]; exact hi3, ?_⟩
          have := norm_of_near hi3'
          rw [show p - 1 + 1 = p by omega] at this
          have he : ∑ q' ∈ Finset.range p, get scratch q' * root st.inverse N ^ (fs * q' * (u + q * m)) =
              ∑ q' ∈ Finset.range p, get b (off + u + q' * m) * root st.inverse N ^ (fs * q' * (u + q * m)) :=
            Finset.sum_congr rfl fun q' hq' => by rw [hsg q' (Finset.mem_range.mp hq')]
          rw [he] at this
          refine this.trans (mul_le_mul_of_nonneg_right ?_ hw)
          have : ((p - 1 : ℕ) : ℝ) ≤ p := Nat.cast_le.mpr (by omega)
          have hp0 : (0 : ℝ) ≤ p := Nat.cast_nonneg p
          linarith
        · have := hne q j hqj
          rw [hi4 _ (by omega), set_miss (by omega)]
          exact hv q (by omega)
      · intro i hi
        have h5 := hi j (by omega)
        rw [hi4 _ (by omega), set_miss (by omega)]
        exact ho i (fun q hq => hi q (by omega)))
  exact ⟨b', h1, h2, h3, h4⟩

/-- A loop of butterflies. -/
theorem bflyLoopF_ok {w : ℂ} {fs m p off : Nat} {b : List ℂ} (body : Nat → List ℂ → Option (List ℂ))
    (hb : off + p * m ≤ b.length) (hs : ∀ u, u < m → ∑ q ∈ Finset.range p, ‖get b (off + u + q * m)‖ ≤ M)
    (hbody : ∀ u b, u < m → off + p * m ≤ b.length → ∑ q ∈ Finset.range p, ‖get b (off + u + q * m)‖ ≤ M →
      ∃ b', body u b = some b' ∧ CombineF M w fs m p off u b b') :
    ∃ b', loop m body b = some b' ∧ b'.length = b.length ∧
      (∀ u q, u < m → q < p → ∃ v, b'[off + u + q * m]? = some v ∧
        ‖v - ∑ q' ∈ Finset.range p, get b (off + u + q' * m) * w ^ (fs * q' * (u + q * m))‖ ≤ 250 * p * (M / 2 ^ 53)) ∧
      (∀ i, i < off ∨ off + p * m ≤ i → b'[i]? = b[i]?) := by
  have hdis : ∀ u u' q q', u < m → u' < m → u ≠ u' → off + u + q * m ≠ off + u' + q' * m := by
    intro u u' q q' hu hu' hne he
    have h1 : (u + q * m) % m = (u' + q' * m) % m := by congr 1; omega
    rw [Nat.add_mul_mod_self_right, Nat.add_mul_mod_self_right, Nat.mod_eq_of_lt hu, Nat.mod_eq_of_lt hu'] at h1
    exact hne h1
  obtain ⟨b', h1, h2, h3, h4⟩ := loop_inv (n := m) (s := b) (f := body)
    (P := fun j b' => b'.length = b.length ∧
      (∀ u q, u < j → q < p → ∃ v, b'[off + u + q * m]? = some v ∧
        ‖v - ∑ q' ∈ Finset.range p, get b (off + u + q' * m) * w ^ (fs * q' * (u + q * m))‖ ≤ 250 * p * (M / 2 ^ 53)) ∧
      (∀ i, (∀ u q, u < j → q < p → i ≠ off + u + q * m) → b'[i]? = b[i]?))
    ⟨rfl, fun u q hq => absurd hq (by omega), fun i _ => rfl⟩
    (by
      rintro j b1 hj ⟨hl, hv, ho⟩
      have hsame : ∀ q', q' < p → get b1 (off + j + q' * m) = get b (off + j + q' * m) := by
        intro q' hq'
        have := ho (off + j + q' * m) (fun u q hu _ => hdis j u q' q hj (by omega) (by omega))
        simp only [get, List.getD, this]
      obtain ⟨b2, g1, g2, g3, g4⟩ := hbody j b1 hj (by omega) (by
        refine le_trans (le_of_eq (Finset.sum_congr rfl fun q hq => ?_)) (hs j hj)
        rw [hsame q (Finset.mem_range.mp hq)])
      refine ⟨b2, g1, by omega, ?_, ?_⟩
      · intro u q hu hq
        by_cases huj : u = j
        · subst huj
          obtain ⟨v, hv1, hv2⟩ := g3 q hq
          refine ⟨v, hv1, ?_⟩
          have he : ∑ q' ∈ Finset.range p, get b1 (off + u + q' * m) * w ^ (fs * q' * (u + q * m)) =
              ∑ q' ∈ Finset.range p, get b (off + u + q' * m) * w ^ (fs * q' * (u + q * m)) :=
            Finset.sum_congr rfl fun q' hq' => by rw [hsame q' (Finset.mem_range.mp hq')]
          rwa [he] at hv2
        · rw [g4 _ (fun q' _ => hdis u j q q' (by omega) hj huj)]
          exact hv u q (by omega) hq
      · intro i hi
        rw [g4 i (fun q hq => hi j q (by omega) hq)]
        exact ho i (fun u q hu hq => hi u q (by omega) hq))
  refine ⟨b', h1, h2, h3, fun i hi => h4 i (fun u q hu hq he => ?_)⟩
  have : (q + 1) * m ≤ p * m := Nat.mul_le_mul_right m hq
  rw [Nat.add_mul] at this
  omega

include hfl hM in
/-- All radices. -/
theorem butterflyF_ok {st : Plan} {N fs m p off : Nat} {b : List ℂ} (hp : PlanNear st N) (hN : N = fs * (p * m))
    (hp1 : 1 ≤ p) (hp2 : p ≤ 2147483647) (hm1 : 1 ≤ m) (hN0 : N ≠ 0) (hb : off + p * m ≤ b.length)
    (hs : ∀ u, u < m → ∑ q ∈ Finset.range p, ‖get b (off + u + q * m)‖ ≤ M) :
    ∃ b', butterflyF fl st fs m p off b = some b' ∧ b'.length = b.length ∧
      (∀ u q, u < m → q < p → ∃ v, b'[off + u + q * m]? = some v ∧
        ‖v - ∑ q' ∈ Finset.range p, get b (off + u + q' * m) * root st.inverse N ^ (fs * q' * (u + q * m))‖ ≤
          250 * p * (M / 2 ^ 53)) ∧
      (∀ i, i < off ∨ off + p * m ≤ i → b'[i]? = b[i]?) := by
  have hm0 : m ≠ 0 := by omega
  unfold butterflyF
  split
  · unfold doLoop; rw [if_neg hm0]
    exact bflyLoopF_ok _ hb hs fun u b hu hb hs => bfly2F_ok hfl hM hp hN hu hN0 hb hs
  · unfold doLoop; rw [if_neg hm0]
    exact bflyLoopF_ok _ hb hs fun u b hu hb hs => bfly3F_ok hfl hM hp hN hu hN0 hb hs
  · unfold doLoop; rw [if_neg hm0]
    exact bflyLoopF_ok _ hb hs fun u b hu hb hs => bfly4F_ok hfl hM hp hN hu hN0 hb hs
  · exact bflyLoopF_ok _ hb hs fun u b hu hb hs => bfly5F_ok hfl hM hp hN hu hN0 hb hs
  · exact bflyLoopF_ok _ hb hs fun u b hu hb hs => genericF_ok hfl hM hp hN hp1 hp2 hu hN0 hb hs

end

/-- The smallest normal number: what a value of size 0 counts for in the scale of the errors. -/
noncomputable def kappa : ℝ := 1 / 2 ^ 1022

theorem kappa_pos : 0 < kappa := by unfold kappa; positivity

theorem scale_two {S : ℝ} (h1 : kappa ≤ S) (h2 : S ≤ 2 ^ 1000) : Scale (2 * S) := by
  have hp := kappa_pos
  refine ⟨by linarith, ?_, ?_⟩
  · rw [le_div_iff₀ (by norm_num), show (1 : ℝ) / 2 ^ 1075 * 2 ^ 53 = 1 / 2 ^ 1022 by
      rw [show 1075 = 1022 + 53 from rfl, pow_add]; field_simp]
    change kappa ≤ 2 * S
    linarith
  · rw [show (2 : ℝ) ^ 1023 = 2 ^ 23 * 2 ^ 1000 by rw [← pow_add]]
    generalize (2 : ℝ) ^ 1000 = e at *
    norm_num
    linarith

theorem sum_splitR (p m : Nat) (g : Nat → ℝ) :
    ∑ j ∈ Finset.range (p * m), g j = ∑ q ∈ Finset.range p, ∑ j ∈ Finset.range m, g (j * p + q) := by
  induction m with
  | zero => simp
  | succ m ih =>
    rw [Nat.mul_succ, Finset.sum_range_add, ih]
    simp only [Finset.sum_range_succ, Finset.sum_add_distrib]
    congr 1
    refine Finset.sum_congr rfl fun q _ => ?_
    rw [Nat.mul_comm]

/-- The size of the inputs of a partial transform. -/
noncomputable def size (fin : List ℂ) (n stride foff : Nat) : ℝ :=
  ∑ j ∈ Finset.range n, (‖get fin (foff + j * stride)‖ + kappa)

theorem size_nonneg (fin : List ℂ) (n stride foff : Nat) : 0 ≤ size fin n stride foff :=
  Finset.sum_nonneg fun _ _ => add_nonneg (norm_nonneg _) kappa_pos.le

theorem kappa_le_size (fin : List ℂ) {n : Nat} (hn : 1 ≤ n) (stride foff : Nat) : kappa ≤ size fin n stride foff := by
  have h := Finset.single_le_sum (s := Finset.range n) (f := fun j => ‖get fin (foff + j * stride)‖ + kappa)
    (fun _ _ => add_nonneg (norm_nonneg _) kappa_pos.le) (Finset.mem_range.mpr hn)
  have : 0 ≤ ‖get fin (foff + 0 * stride)‖ := norm_nonneg _
  unfold size
  linarith

theorem size_split (fin : List ℂ) (p m fs inStride foff : Nat) :
    size fin (p * m) (fs * inStride) foff =
      ∑ q ∈ Finset.range p, size fin m (fs * p * inStride) (foff + q * (fs * inStride)) := by
  unfold size
  rw [sum_splitR]
  refine Finset.sum_congr rfl fun q _ => Finset.sum_congr rfl fun j _ => ?_
  rw [show foff + (j * p + q) * (fs * inStride) = foff + q * (fs * inStride) + j * (fs * p * inStride) by ring]

/-- The sum of the radices. -/
def radices (fac : List (Nat × Nat)) : Nat := (fac.map (·.1)).sum

/-- `kf_work` computes a strided transform up to rounding, and touches nothing else. -/
theorem workF_ok {fl : ℝ → ℝ} (hfl : Rounds fl) {st : Plan} {N inStride : Nat} {fin : List ℂ} (hp : PlanNear st N)
    (hN0 : N ≠ 0) :
    ∀ (fac : List (Nat × Nat)) (n fs foff off : Nat) (b : List ℂ), Chain n fac → n ≤ 2147483647 →
      500 * radices fac ≤ 2 ^ 45 → N = fs * n → off + n ≤ b.length →
      (∀ j, j < n → foff + j * (fs * inStride) < fin.length) → size fin n (fs * inStride) foff ≤ 2 ^ 1000 →
      ∃ b', workF fl st fin inStride fac fs foff off b = some b' ∧ b'.length = b.length ∧
        (∀ k, k < n → ∃ v, b'[off + k]? = some v ∧ ‖v - ∑ j ∈ Finset.range n,
          get fin (foff + j * (fs * inStride)) * root st.inverse N ^ (fs * j * k)‖ ≤
            500 * radices fac * (size fin n (fs * inStride) foff / 2 ^ 53)) ∧
        (∀ i, i < off ∨ off + n ≤ i → b'[i]? = b[i]?) := by
  intro fac
  induction fac with
  | nil => intro n fs foff off b h; exact h.elim
  | cons pm rest ih =>
    obtain ⟨p, m⟩ := pm
    intro n fs foff off b hc hn31 hrad hN hb hfin hsize
    obtain ⟨hpm, hp1, hm1, hrest⟩ := hc
    subst hpm
    have hp2 : p ≤ 2147483647 := le_trans (Nat.le_mul_of_pos_right p hm1) hn31
    have hm2 : m ≤ 2147483647 := le_trans (Nat.le_mul_of_pos_left m hp1) hn31
    have hradc : radices ((p, m) :: rest) = p + radices rest := by simp [radices]
    rw [hradc] at hrad
    have hw := root_pow_self st.inverse (n := N) hN0
    have hsq : ∀ q, q < p → size fin m (fs * p * inStride) (foff + q * (fs * inStride)) ≤
        size fin (p * m) (fs * inStride) foff := by
      intro q hq
      rw [size_split]
      exact Finset.single_le_sum (f := fun q => size fin m (fs * p * inStride) (foff + q * (fs * inStride)))
        (fun q _ => size_nonneg _ _ _ _) (Finset.mem_range.mpr hq)
    -- the p transforms of length m
    have hsub : ∃ b1, (if m = 1 then
          doLoop p (fun q b => do
            let v ← fin[foff + q * (fs * inStride)]?
            wr b (off + q) v) b
        else if m = 0 then none
        else doLoop p (fun q b => workF fl st fin inStride rest (fs * p) (foff + q * (fs * inStride)) (off + q * m) b) b) =
          some b1 ∧ b1.length = b.length ∧
        (∀ q k, q < p → k < m → ∃ v, b1[off + k + q * m]? = some v ∧ ‖v - ∑ j ∈ Finset.range m,
          get fin (foff + q * (fs * inStride) + j * (fs * p * inStride)) * root st.inverse N ^ (fs * p * j * k)‖ ≤
            500 * radices rest * (size fin m (fs * p * inStride) (foff + q * (fs * inStride)) / 2 ^ 53)) ∧
        (∀ i, i < off ∨ off + p * m ≤ i → b1[i]? = b[i]?) := by
      by_cases hm : m = 1
      · subst hm
        rw [if_pos rfl]
        unfold doLoop
        rw [if_neg (by omega)]
        obtain ⟨b', h1, h2, h3, h4⟩ := loop_inv (n := p) (s := b)
          (f := fun q b => do
            let v ← fin[foff + q * (fs * inStride)]?
            wr b (off + q) v)
          (P := fun q b' => b'.length = b.length ∧
            (∀ q', q' < q → b'[off + q']? = some (get fin (foff + q' * (fs * inStride)))) ∧
            (∀ i, i < off ∨ off + q ≤ i → b'[i]? = b[i]?))
          ⟨rfl, fun q hq => absurd hq (by omega), fun i _ => rfl⟩
          (by
            rintro q b1 hq ⟨hl, hv, ho⟩
            have e := get_eq (hfin q (by omega))
            refine ⟨b1.set (off + q) (get fin (foff + q * (fs * inStride))), ?_, by simp [hl], ?_, ?_⟩
            · simp only [e, Option.bind_eq_bind, Option.bind_some]
              rw [wr_some _ (by omega)]
            · intro q' hq'
              by_cases h : q' = q
              · subst h; rw [set_hit (by omega)]
              · rw [set_miss (by omega)]; exact hv q' (by omega)
            · intro i hi
              rw [set_miss (by omega)]; exact ho i (by omega))
        refine ⟨b', h1, h2, ?_, fun i hi => h4 i (by omega)⟩
        intro q k hq hk
        have : k = 0 := by omega
        subst this
        refine ⟨_, by rw [show off + 0 + q * 1 = off + q by omega]; exact h3 q hq, ?_⟩
        have h0 : ‖get fin (foff + q * (fs * inStride)) - ∑ j ∈ Finset.range 1,
          get fin (foff + q * (fs * inStride) + j * (fs * p * inStride)) * root st.inverse N ^ (fs * p * j * 0)‖ = 0 := by simp
        rw [h0]
        exact mul_nonneg (mul_nonneg (by norm_num) (Nat.cast_nonneg _)) (div_nonneg (size_nonneg _ _ _ _) (by norm_num))
      · rw [if_neg hm, if_neg (by omega)]
        rw [if_neg hm] at hrest
        unfold doLoop
        rw [if_neg (by omega)]
        obtain ⟨b', h1, h2, h3, h4⟩ := loop_inv (n := p) (s := b)
          (f := fun q b => workF fl st fin inStride rest (fs * p) (foff + q * (fs * inStride)) (off + q * m) b)
          (P := fun q b' => b'.length = b.length ∧
            (∀ q' k, q' < q → k < m → ∃ v, b'[off + k + q' * m]? = some v ∧ ‖v - ∑ j ∈ Finset.range m,
              get fin (foff + q' * (fs * inStride) + j * (fs * p * inStride)) * root st.inverse N ^ (fs * p * j * k)‖ ≤
              500 * radices rest * (size fin m (fs * p * inStride) (foff + q' * (fs * inStride)) / 2 ^ 53)) ∧
            (∀ i, i < off ∨ off + q * m ≤ i → b'[i]? = b[i]?))
          ⟨rfl, fun q k hq => absurd hq (by omega), fun i _ => rfl⟩
          (by
            rintro q b1 hq ⟨hl, hv, ho⟩
            have hqm : (q + 1) * m ≤ p * m := Nat.mul_le_mul_right m hq
            have hqm' : (q + 1) * m = q * m + m := by ring
            obtain ⟨b2, g1, g2, g3, g4⟩ := ih m (fs * p) (foff + q * (fs * inStride)) (off + q * m) b1 hrest hm2
              (by omega) (by rw [hN]; ring) (by omega)
              (by
                intro j hj
                have h5 : j * p + q < p * m := by
                  have : (j + 1) * p ≤ m * p := Nat.mul_le_mul_right p hj
                  rw [Nat.add_mul] at this
                  rw [Nat.mul_comm p m]; omega
                have := hfin (j * p + q) h5
                have e : foff + q * (fs * inStride) + j * (fs * p * inStride) =
                  foff + (j * p + q) * (fs * inStride) := by ring
                rw [e]; exact this) ((hsq q hq).trans hsize)
            refine ⟨b2, g1, by omega, ?_, ?_⟩
            · intro q' k hq' hk
              by_cases h : q' = q
              · subst h
                rw [show off + k + q' * m = off + q' * m + k by omega]
                exact g3 k hk
              · have h5 : (q' + 1) * m ≤ q * m := Nat.mul_le_mul_right m (by omega)
                have h6 : (q' + 1) * m = q' * m + m := by ring
                rw [g4 _ (by omega)]
                exact hv q' k (by omega) hk
            · intro i hi
              rw [g4 i (by omega)]
              exact ho i (by omega))
        refine ⟨b', h1, h2, h3, h4⟩
    obtain ⟨b1, e1, e2, e3, e4⟩ := hsub
    generalize hS : size fin (p * m) (fs * inStride) foff = S at *
    have hkS : kappa ≤ S := by rw [← hS]; exact kappa_le_size _ (Nat.mul_pos hp1 hm1) _ _
    have hS0 : 0 ≤ S := kappa_pos.le.trans hkS
    have hradR : (500 : ℝ) * radices rest ≤ 2 ^ 45 := by
      have : 500 * radices rest ≤ 2 ^ 45 := by omega
      exact_mod_cast this
    -- sizes of the partial results
    have hX : ∀ q k, ‖∑ j ∈ Finset.range m, get fin (foff + q * (fs * inStride) + j * (fs * p * inStride)) *
        root st.inverse N ^ (fs * p * j * k)‖ ≤ size fin m (fs * p * inStride) (foff + q * (fs * inStride)) := by
      intro q k
      refine (norm_sum_le _ _).trans (Finset.sum_le_sum fun j _ => ?_)
      rw [norm_mul, norm_root_pow, mul_one]
      have := kappa_pos
      linarith
    have hsum : ∀ u, u < m → ∑ q ∈ Finset.range p, ‖get b1 (off + u + q * m)‖ ≤ 2 * S := by
      intro u hu
      rw [← hS, size_split, Finset.mul_sum]
      refine Finset.sum_le_sum fun q hq => ?_
      obtain ⟨v, hv1, hv2⟩ := e3 q u (Finset.mem_range.mp hq) hu
      rw [get_of_some hv1]
      have h1 := hX q u
      have h2 := norm_sub_norm_le v (∑ j ∈ Finset.range m, get fin (foff + q * (fs * inStride) + j * (fs * p * inStride)) *
        root st.inverse N ^ (fs * p * j * u))
      have h3 := size_nonneg fin m (fs * p * inStride) (foff + q * (fs * inStride))
      have h4 : 500 * radices rest * (size fin m (fs * p * inStride) (foff + q * (fs * inStride)) / 2 ^ 53) ≤
          size fin m (fs * p * inStride) (foff + q * (fs * inStride)) := by
        refine (mul_le_mul_of_nonneg_right hradR (div_nonneg h3 (by norm_num))).trans ?_
        rw [mul_div_assoc', div_le_iff₀ (by norm_num)]
        norm_num
        linarith
      linarith
    obtain ⟨b2, f1, f2, f3, f4⟩ := butterflyF_ok hfl (scale_two hkS hsize) (b := b1) (off := off) hp hN hp1 hp2 hm1 hN0
      (by omega) hsum
    refine ⟨b2, ?_, by omega, ?_, fun i hi => by rw [f4 i hi, e4 i hi]⟩
    · unfold workF
      simp only [Option.bind_eq_bind]
      simp only [Option.bind_eq_bind] at e1
      by_cases hm : m = 1
      · rw [if_pos hm] at e1 ⊢
        rw [e1]; exact f1
      · have hm0 : m ≠ 0 := by omega
        rw [if_neg hm, if_neg hm0] at e1 ⊢
        rw [e1]; exact f1
    · intro k hk
      have hkm : k % m < m := Nat.mod_lt _ (by omega)
      have hkp : k / m < p := by rw [Nat.div_lt_iff_lt_mul (by omega)]; exact hk
      have hkk : k % m + k / m * m = k := by have := Nat.mod_add_div k m; rw [Nat.mul_comm] at this; exact this
      obtain ⟨v, hv1, hv2⟩ := f3 (k % m) (k / m) hkm hkp
      rw [Nat.add_assoc, hkk] at hv1
      rw [hkk] at hv2
      refine ⟨v, hv1, ?_⟩
      -- the exact transform as a sum over the parts
      have hexact : ∑ j ∈ Finset.range (p * m), get fin (foff + j * (fs * inStride)) * root st.inverse N ^ (fs * j * k) =
          ∑ q ∈ Finset.range p, (∑ j ∈ Finset.range m, get fin (foff + q * (fs * inStride) + j * (fs * p * inStride)) *
            root st.inverse N ^ (fs * p * j * (k % m))) * root st.inverse N ^ (fs * q * k) := by
        rw [sum_split]
        refine Finset.sum_congr rfl fun q hq => ?_
        rw [Finset.sum_mul]
        refine Finset.sum_congr rfl fun j _ => ?_
        have e : foff + q * (fs * inStride) + j * (fs * p * inStride) = foff + (j * p + q) * (fs * inStride) := by ring
        rw [e, mul_assoc (get fin (foff + (j * p + q) * (fs * inStride))), ← pow_add]
        congr 1
        rw [← pow_mod_of hw, ← pow_mod_of hw (fs * p * j * (k % m) + fs * q * k)]
        congr 1
        have h1 : fs * (j * p + q) * k = fs * p * j * (k % m) + fs * q * k + N * (j * (k / m)) := by
          rw [hN]
          conv_lhs => rw [← hkk]
          conv_rhs => rw [← hkk]
          rw [Nat.add_mul_mod_self_right, Nat.mod_mod, Nat.add_mul_div_right _ _ (by omega : 0 < m),
            Nat.div_eq_of_lt hkm, Nat.zero_add]
          ring
        rw [h1, Nat.add_mul_mod_self_left]
      rw [hexact, hradc]
      have hdiff : ‖∑ q ∈ Finset.range p, get b1 (off + k % m + q * m) * root st.inverse N ^ (fs * q * k) -
          ∑ q ∈ Finset.range p, (∑ j ∈ Finset.range m, get fin (foff + q * (fs * inStride) + j * (fs * p * inStride)) *
            root st.inverse N ^ (fs * p * j * (k % m))) * root st.inverse N ^ (fs * q * k)‖ ≤
          500 * radices rest * (S / 2 ^ 53) := by
        rw [← Finset.sum_sub_distrib]
        have : 500 * radices rest * (S / 2 ^ 53) = ∑ q ∈ Finset.range p, 500 * radices rest *
            (size fin m (fs * p * inStride) (foff + q * (fs * inStride)) / 2 ^ 53) := by
          rw [← Finset.mul_sum, ← Finset.sum_div, ← size_split, hS]
        rw [this]
        refine (norm_sum_le _ _).trans (Finset.sum_le_sum fun q hq => ?_)
        obtain ⟨v', hv1', hv2'⟩ := e3 q (k % m) (Finset.mem_range.mp hq) hkm
        rw [get_of_some hv1', ← sub_mul, norm_mul, norm_root_pow, mul_one]
        exact hv2'
      have htri := norm_sub_le_norm_sub_add_norm_sub v
        (∑ q ∈ Finset.range p, get b1 (off + k % m + q * m) * root st.inverse N ^ (fs * q * k))
        (∑ q ∈ Finset.range p, (∑ j ∈ Finset.range m, get fin (foff + q * (fs * inStride) + j * (fs * p * inStride)) *
            root st.inverse N ^ (fs * p * j * (k % m))) * root st.inverse N ^ (fs * q * k))
      push_cast
      calc _ ≤ _ := htri
        _ ≤ 250 * p * (2 * S / 2 ^ 53) + 500 * radices rest * (S / 2 ^ 53) := add_le_add hv2 hdiff
        _ = 500 * (p + radices rest) * (S / 2 ^ 53) := by ring

end QM.Kiss
