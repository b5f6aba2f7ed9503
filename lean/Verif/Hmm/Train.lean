import Verif.Hmm.Props
import Verif.Common.Flat

/-! Closed forms of the re-estimation step. -/

namespace QM.Hmm

variable {N T L : Nat} {p0 sg u yy yy2 : List ℝ} {a mu cov x gamma : List (List ℝ)} {xi : List (List (List ℝ))}
  {G Xx Mu : Nat → Nat → ℝ} {Xi : Nat → Nat → Nat → ℝ}

theorem colSum_ok (hg : Holds2 T N G gamma) {n i : Nat} (hn : n ≤ T) (hi : i < N) :
    colSum gamma n i = some (∑ t ∈ Finset.range n, G t i) := by
  unfold colSum
  rw [loop_sum n _ (fun t => G t i) 0 (by
    intro t acc ht
    rw [bind_ok (hg.rd (by omega) hi)]
    rfl), zero_add]

/-- New transition probabilities. -/
noncomputable def newA (T : Nat) (G : Nat → Nat → ℝ) (Xi : Nat → Nat → Nat → ℝ) (i j : Nat) : ℝ :=
  if ∑ t ∈ Finset.range (T - 1), G t i = 0 then 0 else (∑ t ∈ Finset.range (T - 1), Xi t i j) / ∑ t ∈ Finset.range (T - 1), G t i

theorem reestA_ok (hg : Holds2 T N G gamma) (hx : ∀ t : Nat, t + 1 < T → ∃ m, xi[t]? = some m ∧ Holds2 N N (Xi t) m)
    (ha : ∃ f, Holds2 N N f a) (hs : sg.length = N) :
    ∃ sg' a', reestA N T a xi gamma sg = some (sg', a') ∧ Holds N (fun i => ∑ t ∈ Finset.range (T - 1), G t i) sg' ∧ Holds2 N N (newA T G Xi) a' := by
  obtain ⟨sg', h1, h2⟩ := fill_part (L := N) (new := fun i => ∑ t ∈ Finset.range (T - 1), G t i) (holds_of_length hs 0) (f := fun i (sg : List ℝ) => do
      let s ← colSum gamma (T - 1) i
      wr sg i s)
    (by
      intro i ys hi _
      rw [bind_ok (colSum_ok hg (by omega) hi)])
  obtain ⟨f, ha⟩ := ha
  obtain ⟨a', h3, h4⟩ := ha.fillAll (newA T G Xi) (fun i j (a : List (List ℝ)) => do
      let sg ← sg'[i]?
      if sg = 0 then wr2 a i j 0 else
        let s ← loop (T - 1) (fun t (s : ℝ) => do
          let m ← xi[t]?
          let v ← rd2 m i j
          pure (s + v)) 0
        wr2 a i j (s / sg))
    (by
      intro i j M hi hj hM
      rw [bind_ok (h2.2 i hi)]
      unfold newA
      by_cases h0 : ∑ t ∈ Finset.range (T - 1), G t i = 0
      · rw [if_pos h0, if_pos h0]
      · rw [if_neg h0, if_neg h0, bind_ok (loop_sum (T - 1) _ (fun t => Xi t i j) 0 (by
          intro t acc ht
          obtain ⟨m, hm, hm2⟩ := hx t (by omega)
          rw [bind_ok hm, bind_ok (hm2.rd hi hj)]
          rfl)), zero_add])
  refine ⟨sg', a', ?_, h2, h4⟩
  unfold reestA
  rw [bind_ok h1, bind_ok h3]
  rfl

/-- New means. -/
noncomputable def newMu (T : Nat) (G Xx : Nat → Nat → ℝ) (j d : Nat) : Option ℝ :=
  if ∑ t ∈ Finset.range T, G t j = 0 then none else some ((∑ t ∈ Finset.range T, G t j * Xx t d) / ∑ t ∈ Finset.range T, G t j)

theorem holds2_map {β γ : Type} {n m : Nat} {f : Nat → Nat → β} {M : List (List β)} (h : Holds2 n m f M) (F : β → γ) :
    Holds2 n m (fun i j => F (f i j)) (M.map (·.map F)) := by
  refine ⟨by simp [h.1], fun i hi => ?_⟩
  obtain ⟨r, h1, h2⟩ := h.2 i hi
  refine ⟨r.map F, by simp [h1], by simp [h2.1], fun j hj => ?_⟩
  simp [h2.2 j hj]

theorem reestMu_ok (hg : Holds2 T N G gamma) (hx : Holds2 T L Xx x) (hm : Holds2 N L Mu mu)
    (hs : Holds N (fun i => ∑ t ∈ Finset.range T, G t i) sg) :
    ∃ mu', reestMu N T L mu x gamma sg = some mu' ∧ Holds2 N L (newMu T G Xx) mu' := by
  unfold reestMu
  refine (holds2_map hm some).fillAll (newMu T G Xx) _ ?_
  intro j d M hj hd hM
  rw [bind_ok (loop_sum T _ (fun t => G t j * Xx t d) 0 (by
    intro t acc ht
    rw [bind_ok (hg.rd ht hj), bind_ok (hx.rd ht hd)]
    rfl)), zero_add, bind_ok (hs.2 j hj)]
  rfl

/-- Scatter of the data around the mean of state `j`, weighted with the posteriors. -/
noncomputable def covTerm (T : Nat) (G Xx Mu : Nat → Nat → ℝ) (j d e : Nat) : ℝ :=
  ∑ t ∈ Finset.range T, (Xx t d - Mu j d) * (G t j * (Xx t e - Mu j e))

/-- New covariance. -/
noncomputable def newCov (N T : Nat) (G Xx Mu : Nat → Nat → ℝ) (d e : Nat) : ℝ := (∑ j ∈ Finset.range N, covTerm T G Xx Mu j d e) / (T : ℝ)

theorem dgemm_ok {g h : Nat → Nat → ℝ} (h1 : Holds (L * T) (fun k => g (k / T) (k % T)) yy) (h2 : Holds (L * T) (fun k => h (k / T) (k % T)) yy2)
    (hu : u.length = L * L) :
    ∃ u', dgemm T L yy yy2 u = some u' ∧ Holds (L * L) (fun k => ∑ t ∈ Finset.range T, g (k % L) t * h (k / L) t) u' := by
  unfold dgemm
  rw [loop_nest L L (fun e d (u : List ℝ) => do
    let v ← dgemmAt T yy yy2 d e
    wr u (e * L + d) v)]
  refine fill_part (holds_of_length hu 0) ?_
  intro k ys hk _
  have hL : 0 < L := by
    rcases Nat.eq_zero_or_pos L with h | h
    · subst h; simp at hk
    · exact h
  have hd : k % L < L := Nat.mod_lt _ hL
  have he : k / L < L := Nat.div_lt_of_lt_mul hk
  have : dgemmAt T yy yy2 (k % L) (k / L) = some (∑ t ∈ Finset.range T, g (k % L) t * h (k / L) t) := by
    unfold dgemmAt
    rw [loop_sum T _ (fun t => g (k % L) t * h (k / L) t) 0 (by
      intro t acc ht
      rw [bind_ok (h1.flat hd ht), bind_ok (h2.flat he ht)]
      rfl), zero_add]
  rw [bind_ok this, flat_eta]

theorem reestCov_ok (hT : 0 < T) (hg : Holds2 T N G gamma) (hx : Holds2 T L Xx x) (hm : Holds2 N L Mu mu) (hc : ∃ f, Holds2 L L f cov)
    (hu : u.length = L * L) (hy : yy.length = L * T) (hy2 : yy2.length = L * T) :
    ∃ cov', reestCov N T L mu cov x gamma u yy yy2 = some cov' ∧ Holds2 L L (newCov N T G Xx Mu) cov' := by
  obtain ⟨f, hc⟩ := hc
  obtain ⟨c1, h1, h2⟩ := hc.fillAll (fun _ _ => 0) (fun d e (cov : List (List ℝ)) => wr2 cov d e 0) (fun _ _ _ _ _ _ => rfl)
  obtain ⟨⟨c2, u2, yy', yy2'⟩, h3, h4, h5, h6, h7⟩ := loop_inv (n := N) (f := fun j (st : List (List ℝ) × List ℝ × List ℝ × List ℝ) => do
    let (yy, yy2) ← loop L (fun d (p : List ℝ × List ℝ) => loop T (fun t (p : List ℝ × List ℝ) => do
      let xx ← rd2 x t d
      let m ← rd2 mu j d
      let g ← rd2 gamma t j
      let y ← wr p.1 (d * T + t) (xx - m)
      let y2 ← wr p.2 (d * T + t) (g * (xx - m))
      pure (y, y2)) p) (st.2.2.1, st.2.2.2)
    let u ← dgemm T L yy yy2 st.2.1
    let cov ← loop L (fun e (cov : List (List ℝ)) => loop L (fun d (cov : List (List ℝ)) => do
      let c ← rd2 cov d e
      let v ← u[e * L + d]?
      wr2 cov d e (c + v)) cov) st.1
    pure (cov, u, yy, yy2)) (s := (c1, u, yy, yy2))
    (P := fun j st => Holds2 L L (fun d e => ∑ j ∈ Finset.range j, covTerm T G Xx Mu j d e) st.1 ∧ st.2.1.length = L * L ∧
      st.2.2.1.length = L * T ∧ st.2.2.2.length = L * T)
    ⟨h2.congr fun _ _ _ _ => by simp, hu, hy, hy2⟩
    (by
      rintro j ⟨c, u, y, y2⟩ hj ⟨i1, i2, i3, i4⟩
      dsimp only at i1 i2 i3 i4
      obtain ⟨⟨y', y2'⟩, e1, e2, e3⟩ := loop_inv (n := L * T) (f := fun k (p : List ℝ × List ℝ) => do
          let xx ← rd2 x (k % T) (k / T)
          let m ← rd2 mu j (k / T)
          let g ← rd2 gamma (k % T) j
          let y ← wr p.1 (k / T * T + k % T) (xx - m)
          let y2 ← wr p.2 (k / T * T + k % T) (g * (xx - m))
          pure (y, y2)) (s := (y, y2))
        (P := fun k p => Part (L * T) k (fun k => Xx (k % T) (k / T) - Mu j (k / T)) (fun k => y.getD k 0) p.1 ∧
          Part (L * T) k (fun k => G (k % T) j * (Xx (k % T) (k / T) - Mu j (k / T))) (fun k => y2.getD k 0) p.2)
        ⟨(holds_of_length i3 0).part _, (holds_of_length i4 0).part _⟩
        (by
          rintro k ⟨p1, p2⟩ hk ⟨q1, q2⟩
          dsimp only at q1 q2
          have hm' : k % T < T := Nat.mod_lt _ hT
          have hd : k / T < L := Nat.div_lt_of_lt_mul (by rw [Nat.mul_comm]; exact hk)
          refine ⟨(p1.set k (Xx (k % T) (k / T) - Mu j (k / T)), p2.set k (G (k % T) j * (Xx (k % T) (k / T) - Mu j (k / T)))), ?_, q1.step hk, q2.step hk⟩
          rw [bind_ok (hx.rd hm' hd), bind_ok (hm.rd hj hd), bind_ok (hg.rd hm' hj), flat_eta, bind_ok (q1.wr hk), bind_ok (q2.wr hk)]
          rfl)
      obtain ⟨u', e4, e5⟩ := dgemm_ok (g := fun d t => Xx t d - Mu j d) (h := fun d t => G t j * (Xx t d - Mu j d)) e2.holds e3.holds i2
      -- the matrix is visited column by column
      obtain ⟨c', e6, e7⟩ := loop_inv (n := L) (f := fun e (cov : List (List ℝ)) => loop L (fun d (cov : List (List ℝ)) => do
          let c ← rd2 cov d e
          let v ← u'[e * L + d]?
          wr2 cov d e (c + v)) cov) (s := c)
        (P := fun e c' => Holds2 L L (fun d' e' => if e' < e then (∑ j ∈ Finset.range (j + 1), covTerm T G Xx Mu j d' e') else
          ∑ j ∈ Finset.range j, covTerm T G Xx Mu j d' e') c')
        (i1.congr fun _ _ _ _ => by simp)
        (by
          intro e c0 he hP
          obtain ⟨c', w1, w2⟩ := loop_inv (n := L) (f := fun d (cov : List (List ℝ)) => do
              let c ← rd2 cov d e
              let v ← u'[e * L + d]?
              wr2 cov d e (c + v)) (s := c0)
            (P := fun d c' => Holds2 L L (fun d' e' => if e' < e ∨ (e' = e ∧ d' < d) then (∑ j ∈ Finset.range (j + 1), covTerm T G Xx Mu j d' e') else
              ∑ j ∈ Finset.range j, covTerm T G Xx Mu j d' e') c')
            (hP.congr fun _ _ _ _ => by simp)
            (by
              intro d c1 hd hP1
              obtain ⟨c2, v1, v2⟩ := hP1.wr hd he (∑ j ∈ Finset.range (j + 1), covTerm T G Xx Mu j d e)
              refine ⟨c2, ?_, v2.congr fun d' e' _ _ => ?_⟩
              · rw [bind_ok (hP1.rd hd he), bind_ok ((e5.2 _ (flat_lt he hd))), if_neg (by omega), ← v1, Finset.sum_range_succ]
                simp only [flat_div hd, flat_mod hd]
                rfl
              · by_cases q : d' = d ∧ e' = e
                · rw [if_pos q, if_pos (by omega), q.1, q.2]
                · rw [if_neg q]
                  by_cases q2 : e' < e ∨ (e' = e ∧ d' < d)
                  · rw [if_pos q2, if_pos (by omega)]
                  · rw [if_neg q2, if_neg (by omega)])
          refine ⟨c', w1, w2.congr fun d' e' hd' _ => ?_⟩
          by_cases q2 : e' < e + 1
          · rw [if_pos q2, if_pos (by omega)]
          · rw [if_neg q2, if_neg (by omega)])
      refine ⟨(c', u', y', y2'), ?_, e7.congr fun d e hd he => by rw [if_pos he], e5.1, e2.1, e3.1⟩
      have e1' : loop L (fun d (p : List ℝ × List ℝ) => loop T (fun t (p : List ℝ × List ℝ) => do
          let xx ← rd2 x t d
          let m ← rd2 mu j d
          let g ← rd2 gamma t j
          let y ← wr p.1 (d * T + t) (xx - m)
          let y2 ← wr p.2 (d * T + t) (g * (xx - m))
          pure (y, y2)) p) (y, y2) = some (y', y2') := (loop_nest L T (fun d t (p : List ℝ × List ℝ) => do
          let xx ← rd2 x t d
          let m ← rd2 mu j d
          let g ← rd2 gamma t j
          let y ← wr p.1 (d * T + t) (xx - m)
          let y2 ← wr p.2 (d * T + t) (g * (xx - m))
          pure (y, y2)) (y, y2)).trans e1
      dsimp only
      rw [bind_ok e1']
      dsimp only
      rw [bind_ok e4, bind_ok e6]
      rfl)
  dsimp only at h4
  obtain ⟨c3, h8, h9⟩ := h4.fillAll (newCov N T G Xx Mu) (fun d e (cov : List (List ℝ)) => do
      let c ← rd2 cov d e
      if T = 0 then none else wr2 cov d e (c / (T : ℝ)))
    (by
      intro d e M hd he hM
      rw [bind_ok (hM.rd hd he), if_neg (by omega), if_neg (by omega)]
      rfl)
  refine ⟨c3, ?_, h9⟩
  unfold reestCov
  rw [bind_ok h1, bind_ok h3]
  exact h8

theorem baumWelch_ok (hT : 0 < T) (hp : p0.length = N) (ha : ∃ f, Holds2 N N f a) (hm : Holds2 N L Mu mu) (hc : ∃ f, Holds2 L L f cov)
    (hx : Holds2 T L Xx x) (hxi : ∀ t : Nat, t + 1 < T → ∃ m, xi[t]? = some m ∧ Holds2 N N (Xi t) m) (hg : Holds2 T N G gamma)
    (hs : sg.length = N) (hu : u.length = L * L) (hy : yy.length = L * T) (hy2 : yy2.length = L * T) :
    ∃ p' a' mu' cov', baumWelch N T L p0 a mu cov x xi gamma sg u yy yy2 = some (p', a', mu', cov') ∧ Holds N (G 0) p' ∧
      Holds2 N N (newA T G Xi) a' ∧ Holds2 N L (newMu T G Xx) mu' ∧ Holds2 L L (newCov N T G Xx Mu) cov' := by
  obtain ⟨sg1, a', h1, h2, h3⟩ := reestA_ok hg hxi ha hs
  obtain ⟨sg2, h4, h5⟩ := fill_part (L := N) (new := fun i => ∑ t ∈ Finset.range T, G t i) h2 (f := fun i (sg : List ℝ) => do
      let s ← sg[i]?
      let g ← if T = 0 then none else rd2 gamma (T - 1) i
      wr sg i (s + g))
    (by
      intro i ys hi hP
      rw [bind_ok (hP.get hi), if_neg (by omega), bind_ok (hg.rd (by omega) hi)]
      have := Finset.sum_range_succ (fun t => G t i) (T - 1)
      rw [show T - 1 + 1 = T by omega] at this
      rw [this])
  obtain ⟨p', h6, h7⟩ := fill_part (L := N) (new := G 0) (holds_of_length hp 0) (f := fun i (p : List ℝ) => do
      let g ← rd2 gamma 0 i
      wr p i g)
    (by
      intro i ys hi _
      rw [bind_ok (hg.rd hT hi)])
  obtain ⟨cov', h8, h9⟩ := reestCov_ok hT hg hx hm hc hu hy hy2
  obtain ⟨mu', h10, h11⟩ := reestMu_ok hg hx hm h5
  refine ⟨p', a', mu', cov', ?_, h7, h3, h11, h9⟩
  unfold baumWelch
  rw [bind_ok h1]
  dsimp only
  rw [bind_ok h4, bind_ok h6, bind_ok h8, bind_ok h10]
  rfl

end QM.Hmm
