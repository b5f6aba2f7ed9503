import Verif.Kiss.Bfly

namespace QM.Kiss

open Complex QM.DFT

theorem mapM_some' {α β : Type} (l : List α) (f : α → Option β) (g : α → β) (h : ∀ x ∈ l, f x = some (g x)) :
    l.mapM f = some (l.map g) := by
  induction l with
  | nil => rfl
  | cons a l ih =>
    rw [List.mapM_cons, h a (by simp), ih (fun x hx => h x (by simp [hx]))]
    rfl

theorem pow_mod_of {w : ℂ} {N : Nat} (hw : w ^ N = 1) (a : Nat) : w ^ (a % N) = w ^ a := by
  conv_rhs => rw [← Nat.mod_add_div a N, pow_add, pow_mul, hw, one_pow, mul_one]

theorem twidx_step {N c t a : Nat} (hc : c < N) (ht : t = a % N) :
    (if t + c ≥ N then t + c - N else t + c) = (a + c) % N := by
  have htN : t < N := by rw [ht]; exact Nat.mod_lt _ (by omega)
  rw [Nat.add_mod, ← ht, Nat.mod_eq_of_lt hc]
  split_ifs with h
  · rw [Nat.mod_eq_sub_mod h, Nat.mod_eq_of_lt (by omega)]
  · rw [Nat.mod_eq_of_lt (by omega)]

/-- The accumulation loop of the generic butterfly. -/
theorem genericInner_ok {st : Plan} {N fs off k n : Nat} {b scratch : List ℂ} (hp : PlanOk st N)
    (hk : fs * k < N) (hn : n < scratch.length) (hb : off + k < b.length)
    (h0 : b[off + k]? = some (get scratch 0)) :
    ∃ b' t, loop n (genericInner st fs off k scratch) (b, 0) = some (b', t) ∧ b'.length = b.length ∧
      b'[off + k]? = some (∑ q' ∈ Finset.range (n + 1), get scratch q' * root st.inverse N ^ (fs * q' * k)) ∧
      (∀ i, i ≠ off + k → b'[i]? = b[i]?) := by
  have hw := root_pow_self st.inverse (n := N) (by omega)
  obtain ⟨s', h1, h2⟩ := loop_inv n (genericInner st fs off k scratch) (b, 0)
    (fun j s => s.2 = (j * (fs * k)) % N ∧ s.1.length = b.length ∧
      s.1[off + k]? = some (∑ q' ∈ Finset.range (j + 1), get scratch q' * root st.inverse N ^ (fs * q' * k)) ∧
      (∀ i, i ≠ off + k → s.1[i]? = b[i]?))
    ⟨by simp, rfl, by simp [h0], fun _ _ => rfl⟩
    (by
      rintro j ⟨b1, t⟩ hj ⟨ht, hl, hv, ho⟩
      dsimp only at ht hl hv ho
      have htN : (j * (fs * k) + fs * k) % N < N := Nat.mod_lt _ (by omega)
      have hs := twidx_step hk ht
      refine ⟨(b1.set (off + k) ((∑ q' ∈ Finset.range (j + 1), get scratch q' * root st.inverse N ^ (fs * q' * k)) +
        get scratch (j + 1) * root st.inverse N ^ ((j * (fs * k) + fs * k) % N)),
        (j * (fs * k) + fs * k) % N), ?_, ?_, ?_, ?_, ?_⟩
      · simp only [genericInner, hp.nfft]
        rw [hs]
        simp only [get_eq (show j + 1 < scratch.length by omega), hp.tw _ htN, hv, Option.bind_eq_bind, Option.bind_some]
        rw [wr_some _ (by omega)]
        rfl
      · simp only; congr 1; ring
      · simp [hl]
      · simp only
        rw [set_hit (by omega), Finset.sum_range_succ _ (j + 1), pow_mod_of hw]
        congr 4; ring
      · intro i hi
        simp only
        rw [set_miss (by omega)]; exact ho i hi)
  obtain ⟨b', t⟩ := s'
  exact ⟨b', t, h1, h2.2⟩

theorem generic_ok {st : Plan} {N fs m p off u : Nat} {b : List ℂ} (hp : PlanOk st N) (hN : N = fs * (p * m))
    (hp1 : 1 ≤ p) (hu : u < m) (hN0 : N ≠ 0) (hb : off + p * m ≤ b.length) :
    ∃ b', genericBody st fs m p off u b = some b' ∧ Combine (root st.inverse N) fs m p off u b b' := by
  have hfs : fs ≠ 0 := by rintro rfl; simp at hN; exact hN0 hN
  have hk : ∀ q, q < p → u + q * m < p * m := by
    intro q hq
    have : (q + 1) * m ≤ p * m := Nat.mul_le_mul_right m hq
    rw [Nat.add_mul] at this; omega
  have hne : ∀ q q', q ≠ q' → u + q * m ≠ u + q' * m := by
    intro q q' h he
    exact h (Nat.eq_of_mul_eq_mul_right (by omega : 0 < m) (by omega))
  have hm : (List.range p).mapM (fun q1 => b[off + u + q1 * m]?) =
      some ((List.range p).map (fun q1 => get b (off + u + q1 * m))) := by
    apply mapM_some'
    intro q hq
    rw [List.mem_range] at hq
    exact get_eq (by have := hk q hq; omega)
  have hsl : ((List.range p).map (fun q1 => get b (off + u + q1 * m))).length = p := by simp
  have hsg : ∀ q, q < p → get ((List.range p).map (fun q1 => get b (off + u + q1 * m))) q =
      get b (off + u + q * m) := by
    intro q hq
    exact get_of_some (by simp [hq])
  unfold genericBody
  rw [hm]
  simp only [Option.bind_eq_bind, Option.bind_some]
  generalize hscr : (List.range p).map (fun q1 => get b (off + u + q1 * m)) = scratch at *
  obtain ⟨b', h1, h2, h3, h4⟩ := loop_inv (n := p) (s := b)
    (f := fun q1 b => (scratch[0]?).bind fun s0 => (wr b (off + (u + q1 * m)) s0).bind fun b =>
      (loop (p - 1) (genericInner st fs off (u + q1 * m) scratch) (b, 0)).bind fun r => pure r.1)
    (P := fun j b' => b'.length = b.length ∧
      (∀ q, q < j → b'[off + u + q * m]? =
        some (∑ q' ∈ Finset.range p, get b (off + u + q' * m) * root st.inverse N ^ (fs * q' * (u + q * m)))) ∧
      (∀ i, (∀ q, q < j → i ≠ off + u + q * m) → b'[i]? = b[i]?))
    ⟨rfl, fun q hq => absurd hq (by omega), fun i _ => rfl⟩
    (by
      rintro j b1 hj ⟨hl, hv, ho⟩
      have hkj := hk j hj
      have h0 : scratch[0]? = some (get scratch 0) := get_eq (by omega)
      obtain ⟨b2, t, hi1, hi2, hi3, hi4⟩ := genericInner_ok (st := st) (N := N) (fs := fs) (off := off) (k := u + j * m)
        (n := p - 1) (b := b1.set (off + (u + j * m)) (get scratch 0)) (scratch := scratch) hp
        (by rw [hN]; exact Nat.mul_lt_mul_of_pos_left hkj (Nat.pos_of_ne_zero hfs)) (by omega) (by simp; omega)
        (by rw [set_hit (by omega)])
      refine ⟨b2, ?_, by simp [hi2, hl], ?_, ?_⟩
      · rw [h0]
        simp only [Option.bind_some]
        rw [wr_some _ (by omega)]
        simp only [Option.bind_some]
        rw [hi1]
        rfl
      · intro q hq
        by_cases hqj : q = j
        · subst hqj
          rw [show off + u + q * m = off + (u + q * m) by omega, hi3, show p - 1 + 1 = p by omega]
          congr 1
          refine Finset.sum_congr rfl fun q' hq' => ?_
          rw [hsg q' (Finset.mem_range.mp hq')]
        · have := hne q j hqj
          rw [hi4 _ (by omega), set_miss (by omega)]
          exact hv q (by omega)
      · intro i hi
        have h5 := hi j (by omega)
        rw [hi4 _ (by omega), set_miss (by omega)]
        exact ho i (fun q hq => hi q (by omega)))
  exact ⟨b', h1, h2, h3, h4⟩

/-- A loop of butterflies. -/
theorem bflyLoop_ok {w : ℂ} {fs m p off : Nat} {b : List ℂ} (body : Nat → List ℂ → Option (List ℂ))
    (hb : off + p * m ≤ b.length)
    (hbody : ∀ u b, u < m → off + p * m ≤ b.length → ∃ b', body u b = some b' ∧ Combine w fs m p off u b b') :
    ∃ b', loop m body b = some b' ∧ b'.length = b.length ∧
      (∀ u q, u < m → q < p → b'[off + u + q * m]? =
        some (∑ q' ∈ Finset.range p, get b (off + u + q' * m) * w ^ (fs * q' * (u + q * m)))) ∧
      (∀ i, i < off ∨ off + p * m ≤ i → b'[i]? = b[i]?) := by
  have hdis : ∀ u u' q q', u < m → u' < m → u ≠ u' → off + u + q * m ≠ off + u' + q' * m := by
    intro u u' q q' hu hu' hne he
    have h1 : (u + q * m) % m = (u' + q' * m) % m := by congr 1; omega
    rw [Nat.add_mul_mod_self_right, Nat.add_mul_mod_self_right, Nat.mod_eq_of_lt hu, Nat.mod_eq_of_lt hu'] at h1
    exact hne h1
  obtain ⟨b', h1, h2, h3, h4⟩ := loop_inv (n := m) (s := b) (f := body)
    (P := fun j b' => b'.length = b.length ∧
      (∀ u q, u < j → q < p → b'[off + u + q * m]? =
        some (∑ q' ∈ Finset.range p, get b (off + u + q' * m) * w ^ (fs * q' * (u + q * m)))) ∧
      (∀ i, (∀ u q, u < j → q < p → i ≠ off + u + q * m) → b'[i]? = b[i]?))
    ⟨rfl, fun u q hq => absurd hq (by omega), fun i _ => rfl⟩
    (by
      rintro j b1 hj ⟨hl, hv, ho⟩
      obtain ⟨b2, g1, g2, g3, g4⟩ := hbody j b1 hj (by omega)
      have hsame : ∀ q', q' < p → get b1 (off + j + q' * m) = get b (off + j + q' * m) := by
        intro q' hq'
        have := ho (off + j + q' * m) (fun u q hu _ => hdis j u q' q hj (by omega) (by omega))
        simp only [get, List.getD, this]
      refine ⟨b2, g1, by omega, ?_, ?_⟩
      · intro u q hu hq
        by_cases huj : u = j
        · subst huj
          rw [g3 q hq]
          congr 1
          refine Finset.sum_congr rfl fun q' hq' => ?_
          rw [hsame q' (Finset.mem_range.mp hq')]
        · rw [g4 _ (fun q' _ => hdis u j q q' (by omega) hj huj)]
          exact hv u q (by omega) hq
      · intro i hi
        rw [g4 i (fun q hq => hi j q (by omega) hq)]
        exact ho i (fun u q hu hq => hi u q (by omega) hq))
  refine ⟨b', h1, h2, h3, fun i hi => h4 i (fun u q hu hq he => ?_)⟩
  have : (q + 1) * m ≤ p * m := Nat.mul_le_mul_right m hq
  rw [Nat.add_mul] at this
  omega

/-- All radices. -/
theorem butterfly_ok {st : Plan} {N fs m p off : Nat} {b : List ℂ} (hp : PlanOk st N) (hN : N = fs * (p * m))
    (hp1 : 1 ≤ p) (hm1 : 1 ≤ m) (hN0 : N ≠ 0) (hb : off + p * m ≤ b.length) :
    ∃ b', butterfly st fs m p off b = some b' ∧ b'.length = b.length ∧
      (∀ u q, u < m → q < p → b'[off + u + q * m]? =
        some (∑ q' ∈ Finset.range p, get b (off + u + q' * m) * root st.inverse N ^ (fs * q' * (u + q * m)))) ∧
      (∀ i, i < off ∨ off + p * m ≤ i → b'[i]? = b[i]?) := by
  have hm0 : m ≠ 0 := by omega
  unfold butterfly
  split
  · unfold doLoop; rw [if_neg hm0]
    exact bflyLoop_ok _ hb fun u b hu hb => bfly2_ok hp hN hu hN0 hb
  · unfold doLoop; rw [if_neg hm0]
    exact bflyLoop_ok _ hb fun u b hu hb => bfly3_ok hp hN hu hN0 hb
  · unfold doLoop; rw [if_neg hm0]
    exact bflyLoop_ok _ hb fun u b hu hb => bfly4_ok hp hN hu hN0 hb
  · exact bflyLoop_ok _ hb fun u b hu hb => bfly5_ok hp hN hu hN0 hb
  · exact bflyLoop_ok _ hb fun u b hu hb => generic_ok hp hN hp1 hu hN0 hb

theorem sum_split (p m : Nat) (g : Nat → ℂ) :
    ∑ j ∈ Finset.range (p * m), g j = ∑ q ∈ Finset.range p, ∑ j ∈ Finset.range m, g (j * p + q) := by
  induction m with
  | zero => simp
  | succ m ih =>
    rw [Nat.mul_succ, Finset.sum_range_add, ih]
    simp only [Finset.sum_range_succ, Finset.sum_add_distrib]
    congr 1
    refine Finset.sum_congr rfl fun q _ => ?_
    rw [Nat.mul_comm]

/-- `kf_work` computes a strided transform into its part of the output, and touches nothing else. -/
theorem work_ok {st : Plan} {N inStride : Nat} {fin : List ℂ} (hp : PlanOk st N) (hN0 : N ≠ 0) :
    ∀ (fac : List (Nat × Nat)) (n fs foff off : Nat) (b : List ℂ), Chain n fac → N = fs * n → off + n ≤ b.length →
      (∀ j, j < n → foff + j * (fs * inStride) < fin.length) →
      ∃ b', work st fin inStride fac fs foff off b = some b' ∧ b'.length = b.length ∧
        (∀ k, k < n → b'[off + k]? = some (∑ j ∈ Finset.range n,
          get fin (foff + j * (fs * inStride)) * root st.inverse N ^ (fs * j * k))) ∧
        (∀ i, i < off ∨ off + n ≤ i → b'[i]? = b[i]?) := by
  intro fac
  induction fac with
  | nil => intro n fs foff off b h; exact h.elim
  | cons pm rest ih =>
    obtain ⟨p, m⟩ := pm
    intro n fs foff off b hc hN hb hfin
    obtain ⟨hpm, hp1, hm1, hrest⟩ := hc
    subst hpm
    have hw := root_pow_self st.inverse (n := N) hN0
    have hqk : ∀ q k, q < p → k < m → q * m + k < p * m := by
      intro q k hq hk
      have : (q + 1) * m ≤ p * m := Nat.mul_le_mul_right m hq
      rw [Nat.add_mul] at this; omega
    -- the p transforms of length m
    have hsub : ∃ b1, (if m = 1 then
          doLoop p (fun q b => do
            let v ← fin[foff + q * (fs * inStride)]?
            wr b (off + q) v) b
        else if m = 0 then none
        else doLoop p (fun q b => work st fin inStride rest (fs * p) (foff + q * (fs * inStride)) (off + q * m) b) b) =
          some b1 ∧ b1.length = b.length ∧
        (∀ q k, q < p → k < m → b1[off + k + q * m]? = some (∑ j ∈ Finset.range m,
          get fin (foff + q * (fs * inStride) + j * (fs * p * inStride)) * root st.inverse N ^ (fs * p * j * k))) ∧
        (∀ i, i < off ∨ off + p * m ≤ i → b1[i]? = b[i]?) := by
      by_cases hm : m = 1
      · subst hm
        rw [if_pos rfl]
        unfold doLoop
        rw [if_neg (by omega)]
        obtain ⟨b', h1, h2, h3, h4⟩ := loop_inv (n := p) (s := b)
          (f := fun q b => do
            let v ← fin[foff + q * (fs * inStride)]?
            wr b (off + q) v)
          (P := fun q b' => b'.length = b.length ∧
            (∀ q', q' < q → b'[off + q']? = some (get fin (foff + q' * (fs * inStride)))) ∧
            (∀ i, i < off ∨ off + q ≤ i → b'[i]? = b[i]?))
          ⟨rfl, fun q hq => absurd hq (by omega), fun i _ => rfl⟩
          (by
            rintro q b1 hq ⟨hl, hv, ho⟩
            have e := get_eq (hfin q (by omega))
            refine ⟨b1.set (off + q) (get fin (foff + q * (fs * inStride))), ?_, by simp [hl], ?_, ?_⟩
            · simp only [e, Option.bind_eq_bind, Option.bind_some]
              rw [wr_some _ (by omega)]
            · intro q' hq'
              by_cases h : q' = q
              · subst h; rw [set_hit (by omega)]
              · rw [set_miss (by omega)]; exact hv q' (by omega)
            · intro i hi
              rw [set_miss (by omega)]; exact ho i (by omega))
        refine ⟨b', h1, h2, ?_, fun i hi => h4 i (by omega)⟩
        intro q k hq hk
        have : k = 0 := by omega
        subst this
        rw [show off + 0 + q * 1 = off + q by omega, h3 q hq]
        simp
      · rw [if_neg hm, if_neg (by omega)]
        rw [if_neg hm] at hrest
        unfold doLoop
        rw [if_neg (by omega)]
        obtain ⟨b', h1, h2, h3, h4⟩ := loop_inv (n := p) (s := b)
          (f := fun q b => work st fin inStride rest (fs * p) (foff + q * (fs * inStride)) (off + q * m) b)
          (P := fun q b' => b'.length = b.length ∧
            (∀ q' k, q' < q → k < m → b'[off + k + q' * m]? = some (∑ j ∈ Finset.range m,
              get fin (foff + q' * (fs * inStride) + j * (fs * p * inStride)) * root st.inverse N ^ (fs * p * j * k))) ∧
            (∀ i, i < off ∨ off + q * m ≤ i → b'[i]? = b[i]?))
          ⟨rfl, fun q k hq => absurd hq (by omega), fun i _ => rfl⟩
          (by
            rintro q b1 hq ⟨hl, hv, ho⟩
            have hqm : (q + 1) * m ≤ p * m := Nat.mul_le_mul_right m hq
            have hqm' : (q + 1) * m = q * m + m := by ring
            obtain ⟨b2, g1, g2, g3, g4⟩ := ih m (fs * p) (foff + q * (fs * inStride)) (off + q * m) b1 hrest
              (by rw [hN]; ring) (by omega)
              (by
                intro j hj
                have h5 : j * p + q < p * m := by
                  have : (j + 1) * p ≤ m * p := Nat.mul_le_mul_right p hj
                  rw [Nat.add_mul] at this
                  rw [Nat.mul_comm p m]; omega
                have := hfin (j * p + q) h5
                have e : foff + q * (fs * inStride) + j * (fs * p * inStride) =
                  foff + (j * p + q) * (fs * inStride) := by ring
                rw [e]; exact this)
            refine ⟨b2, g1, by omega, ?_, ?_⟩
            · intro q' k hq' hk
              by_cases h : q' = q
              · subst h
                rw [show off + k + q' * m = off + q' * m + k by omega, g3 k hk]
              · have h5 : (q' + 1) * m ≤ q * m := Nat.mul_le_mul_right m (by omega)
                have h6 : (q' + 1) * m = q' * m + m := by ring
                rw [g4 _ (by omega)]
                exact hv q' k (by omega) hk
            · intro i hi
              rw [g4 i (by omega)]
              exact ho i (by omega))
        refine ⟨b', h1, h2, h3, h4⟩
    obtain ⟨b1, e1, e2, e3, e4⟩ := hsub
    obtain ⟨b2, f1, f2, f3, f4⟩ := butterfly_ok (b := b1) (off := off) hp hN hp1 hm1 hN0 (by omega)
    refine ⟨b2, ?_, by omega, ?_, fun i hi => by rw [f4 i hi, e4 i hi]⟩
    · unfold work
      simp only [Option.bind_eq_bind]
      simp only [Option.bind_eq_bind] at e1
      by_cases hm : m = 1
      · rw [if_pos hm] at e1 ⊢
        rw [e1]; exact f1
      · have hm0 : m ≠ 0 := by omega
        rw [if_neg hm, if_neg hm0] at e1 ⊢
        rw [e1]; exact f1
    · intro k hk
      have hkm : k % m < m := Nat.mod_lt _ (by omega)
      have hkp : k / m < p := by rw [Nat.div_lt_iff_lt_mul (by omega)]; exact hk
      have hkk : k % m + k / m * m = k := by have := Nat.mod_add_div k m; rw [Nat.mul_comm] at this; exact this
      have := f3 (k % m) (k / m) hkm hkp
      rw [Nat.add_assoc, hkk] at this
      rw [this, sum_split]
      congr 1
      refine Finset.sum_congr rfl fun q hq => ?_
      rw [Finset.mem_range] at hq
      rw [get_of_some (e3 q (k % m) hq hkm), Finset.sum_mul]
      refine Finset.sum_congr rfl fun j _ => ?_
      have e : foff + q * (fs * inStride) + j * (fs * p * inStride) = foff + (j * p + q) * (fs * inStride) := by ring
      rw [e, mul_assoc]
      congr 1
      have h7 : fs * (j * p + q) * k = fs * p * j * (k % m) + fs * q * k + N * (j * (k / m)) := by
        rw [hN]
        conv_lhs => rw [← hkk]
        conv_rhs => rw [← hkk]
        simp only [Nat.add_mul_mod_self_right, Nat.mod_mod]
        have : (k % m + k / m * m) / m = k / m := by rw [hkk]
        rw [this]
        ring
      rw [h7, pow_add, pow_mul _ N, hw, one_pow, mul_one, pow_add]

end QM.Kiss
