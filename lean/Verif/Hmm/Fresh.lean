import Verif.Common.Agree
import Verif.Hmm.InitProps

/-! # The functions of `hmm/hmm.c` on different contents of fresh memory -/

namespace QM.Hmm

theorem below {i j : Nat} (h : j < i + 1) : j < i ∨ j = i := Nat.lt_succ_iff_lt_or_eq.1 h

theorem below2 {i j a b : Nat} (h : a < i ∨ (a = i ∧ b < j + 1)) : (a < i ∨ (a = i ∧ b < j)) ∨ (a = i ∧ b = j) := by omega

variable {N T L : Nat}

theorem quad_fresh {x mu y z y' z' : List ℝ} {icov : List (List ℝ)} (hy : y.length = L) (hy' : y'.length = L) (hz : z.length = L) (hz' : z'.length = L) :
    quad x L mu icov y z = quad x L mu icov y' z' := by
  unfold quad
  apply Same.eq
  refine Same.step (Agree.fill hy hy' ?_) fun y => Same.step (Agree.fill hz hz' ?_) fun z => Same.of_eq rfl
  · exact fun i xs ys hi h => Same.step rfl fun a => Same.step rfl fun b => h.wr i _ fun _ _ => below
  · exact fun i xs ys hi h => Same.step rfl fun a => Same.step rfl fun b => h.wr i _ fun _ _ => below

theorem loggauss_fresh {x mu y z y' z' : List ℝ} {icov : List (List ℝ)} {det : ℝ} (hy : y.length = L) (hy' : y'.length = L) (hz : z.length = L)
    (hz' : z'.length = L) : loggauss x L mu icov det y z = loggauss x L mu icov det y' z' := by
  unfold loggauss
  rw [quad_fresh hy hy' hz hz']

theorem globalMean_fresh {x : List (List ℝ)} {gm gm' : List ℝ} (h : gm.length = L) (h' : gm'.length = L) :
    globalMean T L x gm = globalMean T L x gm' := by
  unfold globalMean
  refine Agree.fill h h' fun i xs ys hi h => Same.step rfl fun s => ?_
  split
  · trivial
  · exact h.wr i _ fun _ _ => below

theorem globalCov_fresh {x cov cov' : List (List ℝ)} {gm : List ℝ} (h : Agree2 L L (fun _ _ => False) cov cov') :
    globalCov T L x gm cov = globalCov T L x gm cov' := by
  unfold globalCov
  refine (Same.mono (Same.loop (fun d => Agree2 L L (fun a _ => a < d)) (h.mono fun _ _ _ _ h => absurd h (Nat.not_lt_zero _)) fun d M M' hd hM => ?_)
    fun _ _ h => h.eq fun _ _ hi _ => hi).eq
  refine Same.bindM (Same.loop (fun e => Agree2 L L (fun a b => a < d ∨ (a = d ∧ b < e))) (hM.mono fun a b _ _ h => by omega)
    fun e M M' he h => h.wr d e 0 fun a b _ _ => below2) fun M M' h => Same.step rfl fun m => Same.step rfl fun s => ?_
  split
  · trivial
  · exact h.wr d d _ fun a b ha hb h => by omega

theorem startMeans_fresh {rm : Nat → Nat → ℝ} {gm : List ℝ} {cov mu mu' : List (List ℝ)} (h : Agree2 N L (fun _ _ => False) mu mu') :
    startMeans N L rm gm cov mu = startMeans N L rm gm cov mu' :=
  Agree2.fill h fun i j M M' hi hj h => Same.step rfl fun g => Same.step rfl fun c => h.wr i j _ fun a b _ _ => below2

theorem initProbs_fresh {r0 : Nat → ℝ} {r : Nat → Nat → ℝ} {p0 p0' : List ℝ} {a a' : List (List ℝ)} (hp : p0.length = N) (hp' : p0'.length = N)
    (ha : Agree2 N N (fun _ _ => False) a a') : initProbs N r0 r p0 a = initProbs N r0 r p0' a' := by
  unfold initProbs
  refine (Same.bindM (R := Eq) (Same.mono (Same.loop (fun i (s s' : (List ℝ × List (List ℝ)) × ℝ) =>
    Agree N (· < i) s.1.1 s'.1.1 ∧ Agree2 N N (fun a _ => a < i) s.1.2 s'.1.2 ∧ s.2 = s'.2)
    (a := ((p0, a), (0 : ℝ))) (b := ((p0', a'), (0 : ℝ)))
    ⟨⟨hp, hp', fun i hi => absurd hi (Nat.not_lt_zero i)⟩, ha.mono fun _ _ _ _ h => absurd h (Nat.not_lt_zero _), rfl⟩ ?_) ?_) ?_).eq
  · rintro i ⟨⟨p, a⟩, s⟩ ⟨⟨p', a'⟩, s'⟩ hi ⟨h1, h2, h3⟩
    dsimp only at h1 h2 h3 ⊢
    subst h3
    refine Same.bindM (h1.wr i _ fun _ _ => below) fun p p' hp => ?_
    refine Same.bindM (Same.loop (fun j (t t' : List (List ℝ) × ℝ) => Agree2 N N (fun a b => a < i ∨ (a = i ∧ b < j)) t.1 t'.1 ∧ t.2 = t'.2)
      ⟨h2.mono fun a b _ _ h => by omega, rfl⟩ ?_) ?_
    · rintro j ⟨t, u⟩ ⟨t', u'⟩ hj ⟨h1, h2⟩
      dsimp only at h1 h2 ⊢
      subst h2
      exact Same.bindM (h1.wr i j _ fun a b _ _ => below2) fun t t' h => ⟨h, rfl⟩
    · rintro ⟨t, u⟩ ⟨t', u'⟩ ⟨h1, h2⟩
      dsimp only at h1 h2 ⊢
      subst h2
      refine Same.bindM (Same.loop (fun j => Agree2 N N (fun a b => a < i + 1)) (h1.mono fun a b _ hb h => by omega) ?_) fun a a' h => ⟨hp, h, rfl⟩
      intro j t t' hj h
      exact Same.step (h.rd fun _ _ => Nat.lt_succ_self i) fun v => h.wr i j _ fun a b _ _ h => Or.inl h
  · rintro ⟨⟨p, a⟩, s⟩ ⟨⟨p', a'⟩, s'⟩ ⟨h1, h2, h3⟩
    dsimp only at h1 h2 h3
    rw [h1.eq fun _ h => h, h2.eq fun _ _ h _ => h, h3]
  · rintro s s' rfl
    exact Same.of_eq rfl

theorem hmmInit_fresh {x : List (List ℝ)} {rm : Nat → Nat → ℝ} {r0 : Nat → ℝ} {r : Nat → Nat → ℝ} {p0 p0' gm gm' : List ℝ} {a a' mu mu' cov cov' : List (List ℝ)}
    (hp : p0.length = N) (hp' : p0'.length = N) (ha : Agree2 N N (fun _ _ => False) a a') (hm : Agree2 N L (fun _ _ => False) mu mu')
    (hc : Agree2 L L (fun _ _ => False) cov cov') (hg : gm.length = L) (hg' : gm'.length = L) :
    hmmInit N T L x rm r0 r p0 a mu cov gm = hmmInit N T L x rm r0 r p0' a' mu' cov' gm' := by
  unfold hmmInit
  exact (Same.step (globalMean_fresh hg hg') fun _ => Same.step (globalCov_fresh hc) fun _ => Same.step (startMeans_fresh hm) fun _ =>
    Same.step (initProbs_fresh hp hp' ha) fun _ => Same.of_eq rfl).eq

theorem observations_fresh {x mu icov b b' : List (List ℝ)} {det : ℝ} {gy gz gy' gz' : List ℝ} (hb : Agree2 T N (fun _ _ => False) b b')
    (hy : gy.length = L) (hy' : gy'.length = L) (hz : gz.length = L) (hz' : gz'.length = L) :
    observations N T L x mu icov det b gy gz = observations N T L x mu icov det b' gy' gz' := by
  unfold observations
  have : ∀ xt m, loggauss xt L m icov det gy gz = loggauss xt L m icov det gy' gz' := fun _ _ => loggauss_fresh hy hy' hz hz'
  simp only [this]
  exact Agree2.fill hb fun i j M M' hi hj h => Same.step rfl fun _ => Same.step rfl fun _ => Same.step rfl fun _ => h.wr i j _ fun a b _ _ => below2

theorem logObservations_fresh {x mu icov b b' : List (List ℝ)} {det : ℝ} {gy gz gy' gz' : List ℝ} (hb : Agree2 T N (fun _ _ => False) b b')
    (hy : gy.length = L) (hy' : gy'.length = L) (hz : gz.length = L) (hz' : gz'.length = L) :
    logObservations N T L x mu icov det b gy gz = logObservations N T L x mu icov det b' gy' gz' := by
  unfold logObservations
  have : ∀ xt m, loggauss xt L m icov det gy gz = loggauss xt L m icov det gy' gz' := fun _ _ => loggauss_fresh hy hy' hz hz'
  simp only [this]
  exact Agree2.fill hb fun i j M M' hi hj h => Same.step rfl fun _ => Same.step rfl fun _ => Same.step rfl fun _ => h.wr i j _ fun a b _ _ => below2

/-- Row `t` of `alpha` from rows that agree before it. -/
theorem scaled_fresh {t T' : Nat} {val : Nat → List (List ℝ) → Option ℝ} {al al' : List (List ℝ)} {c c' : List ℝ}
    (hv : ∀ j M M', Agree2 T' N (fun a _ => a < t) M M' → val j M = val j M')
    (ha : Agree2 T' N (fun a _ => a < t) al al') (hc : Agree T' (· < t) c c') :
    Same (fun s s' : List (List ℝ) × List ℝ × ℝ => Agree2 T' N (fun a _ => a < t + 1) s.1 s'.1 ∧ Agree T' (· < t + 1) s.2.1 s'.2.1 ∧ s.2.2 = s'.2.2)
      (scaled N t val al c) (scaled N t val al' c') := by
  unfold scaled
  refine Same.bindM (Same.loop (fun j (s s' : List (List ℝ) × ℝ) => Agree2 T' N (fun a b => a < t ∨ (a = t ∧ b < j)) s.1 s'.1 ∧ s.2 = s'.2)
    ⟨ha.mono fun a b _ _ h => by omega, rfl⟩ ?_) ?_
  · rintro j ⟨M, s⟩ ⟨M', s'⟩ hj ⟨h1, h2⟩
    dsimp only at h1 h2 ⊢
    subst h2
    exact Same.step (hv j _ _ (h1.mono fun a b _ _ h => Or.inl h)) fun v => Same.bindM (h1.wr t j v fun a b _ _ => below2) fun M M' h => ⟨h, rfl⟩
  · rintro ⟨M, s⟩ ⟨M', s'⟩ ⟨h1, h2⟩
    dsimp only at h1 h2 ⊢
    subst h2
    by_cases hs : s = 0
    · rw [if_pos hs, if_pos hs]; trivial
    · rw [if_neg hs, if_neg hs]
      refine Same.bindM (hc.wr t _ fun _ _ => below) fun c c' hc => ?_
      refine Same.bindM (Same.loop (fun j => Agree2 T' N (fun a b => a < t + 1)) (h1.mono fun a b _ hb h => by omega) ?_) fun a a' h => ⟨h, hc, rfl⟩
      intro j M M' hj h
      exact Same.step (h.rd fun _ _ => Nat.lt_succ_self t) fun v => h.wr t j _ fun a b _ _ h => Or.inl h

theorem next_fresh {t T' : Nat} {a b M M' : List (List ℝ)} (ht : 0 < t) (h : Agree2 T' N (fun a _ => a < t) M M') (j : Nat) :
    next N t a b j M = next N t a b j M' := by
  unfold next
  have : ∀ i, rd2 M (t - 1) i = rd2 M' (t - 1) i := fun i => h.rd fun _ _ => by omega
  simp only [this]

/-- The forward pass over `T` rows of arrays of `T'` rows. -/
theorem forward_fresh {T' : Nat} {p0 : List ℝ} {a b al al' : List (List ℝ)} {c c' : List ℝ} (hT : 0 < T) (ha : Agree2 T' N (fun _ _ => False) al al')
    (hc : c.length = T') (hc' : c'.length = T') :
    Same (fun s s' : List (List ℝ) × List ℝ × ℝ => Agree2 T' N (fun a _ => a < T) s.1 s'.1 ∧ Agree T' (· < T) s.2.1 s'.2.1 ∧ s.2.2 = s'.2.2)
      (forward rlog N T p0 a b al c) (forward rlog N T p0 a b al' c') := by
  unfold forward
  refine Same.bindM (scaled_fresh (fun _ _ _ _ => rfl) (ha.mono fun _ _ _ _ h => absurd h (Nat.not_lt_zero _)) ⟨hc, hc', fun i hi => absurd hi (Nat.not_lt_zero i)⟩) ?_
  rintro ⟨M, c, c0⟩ ⟨M', c', c0'⟩ ⟨h1, h2, h3⟩
  dsimp only at h1 h2 h3 ⊢
  subst h3
  refine Same.step rfl fun l => ?_
  obtain ⟨T, rfl⟩ : ∃ k, T = k + 1 := ⟨T - 1, by omega⟩
  refine Same.loop (fun k (s s' : List (List ℝ) × List ℝ × ℝ) => Agree2 T' N (fun a _ => a < k + 1) s.1 s'.1 ∧ Agree T' (· < k + 1) s.2.1 s'.2.1 ∧ s.2.2 = s'.2.2)
    ⟨h1, h2, rfl⟩ ?_
  rintro k ⟨M, c, u⟩ ⟨M', c', u'⟩ hk ⟨h1, h2, h3⟩
  dsimp only at h1 h2 h3 ⊢
  subst h3
  refine Same.bindM (scaled_fresh (fun j M M' h => next_fresh (Nat.succ_pos k) h j) h1 h2) ?_
  rintro ⟨M, c, ct⟩ ⟨M', c', ct'⟩ ⟨h1, h2, h3⟩
  dsimp only at h1 h2 h3 ⊢
  subst h3
  exact Same.step rfl fun l => ⟨h1, h2, rfl⟩

theorem backward_fresh {a b be be' : List (List ℝ)} {c : List ℝ} (hT : 0 < T) (h : Agree2 T N (fun _ _ => False) be be') :
    backward N T a b c be = backward N T a b c be' := by
  unfold backward
  apply Same.eq
  refine Same.bindM (Same.loop (fun i => Agree2 T N (fun a b => a = T - 1 ∧ b < i)) (h.mono fun a b _ _ h => by omega)
    fun i M M' hi h => h.wr (T - 1) i 1 fun a b _ _ h => by omega) fun M M' h => ?_
  refine Same.mono (Same.loop (fun k => Agree2 T N (fun a _ => T - 1 - k ≤ a)) (h.mono fun a b _ _ h => by omega) fun k M M' hk h => ?_)
    fun _ _ h => h.eq fun a _ _ _ => by omega
  refine Same.bindM (Same.loop (fun i => Agree2 T N (fun a _ => T - 1 - k ≤ a)) h fun i M M' hi h => Same.step (h.rd fun _ _ => le_refl _) fun v =>
    Same.step rfl fun x => h.wr (T - 1 - k) i _ fun a b _ _ h => Or.inl h) fun M M' h => ?_
  split
  · rename_i ht
    exact h.mono fun a b _ _ _ => by omega
  · refine Same.mono (Same.loop (fun i => Agree2 T N (fun a b => T - 1 - k ≤ a ∨ (a = T - 1 - k - 1 ∧ b < i))) (h.mono fun a b _ _ h => by omega) fun i M M' hi h => ?_)
      fun _ _ h => h.mono fun a b _ hb h => by omega
    have hr : ∀ j, rd2 M (T - 1 - k) j = rd2 M' (T - 1 - k) j := fun j => h.rd fun _ _ => Or.inl (le_refl _)
    simp only [hr]
    exact Same.step rfl fun s => h.wr (T - 1 - k - 1) i s fun a b _ _ h => by omega

theorem posterior_fresh {al be ga ga' : List (List ℝ)} (h : Agree2 T N (fun _ _ => False) ga ga') : posterior N T al be ga = posterior N T al be ga' := by
  unfold posterior
  apply Same.eq
  refine Same.mono (Same.loop (fun t => Agree2 T N (fun a _ => a < t)) (h.mono fun a b _ _ h => absurd h (Nat.not_lt_zero _)) fun t M M' ht h => ?_)
    fun _ _ h => h.eq fun a _ h _ => h
  refine Same.bindM (Same.loop (fun i (s s' : List (List ℝ) × ℝ) => Agree2 T N (fun a b => a < t ∨ (a = t ∧ b < i)) s.1 s'.1 ∧ s.2 = s'.2)
    (a := (M, (0 : ℝ))) (b := (M', (0 : ℝ))) ⟨h.mono fun a b _ _ h => by omega, rfl⟩ ?_) ?_
  · rintro i ⟨M, s⟩ ⟨M', s'⟩ hi ⟨h1, h2⟩
    dsimp only at h1 h2 ⊢
    subst h2
    exact Same.step rfl fun x => Same.step rfl fun y => Same.bindM (h1.wr t i _ fun a b _ _ => below2) fun M M' h => ⟨h, rfl⟩
  · rintro ⟨M, s⟩ ⟨M', s'⟩ ⟨h1, h2⟩
    dsimp only at h1 h2 ⊢
    subst h2
    refine Same.loop (fun i => Agree2 T N (fun a _ => a < t + 1)) (h1.mono fun a b _ _ h => by omega) fun i M M' hi h => ?_
    refine Same.step (h.rd fun _ _ => Nat.lt_succ_self t) fun v => ?_
    split
    · trivial
    · exact h.wr t i _ fun a b _ _ h => Or.inl h

/-- Lists of `T` matrices, the first `k` of which agree. -/
def AgreeXi (T N k : Nat) (xi xi' : List (List (List ℝ))) : Prop :=
  xi.length = T ∧ xi'.length = T ∧ ∀ t : Nat, t < T → ∃ m m', xi[t]? = some m ∧ xi'[t]? = some m' ∧ Agree2 N N (fun _ _ => t < k) m m'

theorem AgreeXi.get {k t : Nat} {xi xi' : List (List (List ℝ))} (h : AgreeXi T N k xi xi') (ht : t < k) : xi[t]? = xi'[t]? := by
  by_cases hn : t < T
  · obtain ⟨m, m', h1, h2, h3⟩ := h.2.2 t hn
    rw [h1, h2, h3.eq fun _ _ _ _ => ht]
  · rw [List.getElem?_eq_none (by rw [h.1]; omega), List.getElem?_eq_none (by rw [h.2.1]; omega)]

theorem AgreeXi.wr {k : Nat} {xi xi' : List (List (List ℝ))} (h : AgreeXi T N k xi xi') {m m' : List (List ℝ)} (hm : Agree2 N N (fun _ _ => True) m m') :
    Same (AgreeXi T N (k + 1)) (QM.wr xi k m) (QM.wr xi' k m') := by
  by_cases hk : k < T
  · rw [wr_some _ (by rw [h.1]; exact hk), wr_some _ (by rw [h.2.1]; exact hk)]
    refine ⟨by simp [h.1], by simp [h.2.1], fun t ht => ?_⟩
    by_cases e : k = t
    · subst e
      exact ⟨m, m', List.getElem?_set_self (by rw [h.1]; exact hk), List.getElem?_set_self (by rw [h.2.1]; exact hk), hm.mono fun _ _ _ _ _ => trivial⟩
    · obtain ⟨s, s', h1, h2, h3⟩ := h.2.2 t ht
      exact ⟨s, s', by rw [List.getElem?_set_ne e]; exact h1, by rw [List.getElem?_set_ne e]; exact h2, h3.mono fun _ _ _ _ h => by omega⟩
  · rw [wr_none _ (by rw [h.1]; omega), wr_none _ (by rw [h.2.1]; omega)]
    trivial

theorem transitions_fresh {a b al be : List (List ℝ)} {xi xi' : List (List (List ℝ))} (h : AgreeXi T N 0 xi xi') :
    Same (AgreeXi T N (T - 1)) (transitions N T a b al be xi) (transitions N T a b al be xi') := by
  unfold transitions
  refine Same.loop (fun t => AgreeXi T N t) h fun t xi xi' ht h => ?_
  have hrow : Same (Agree2 N N (fun _ _ => False)) xi[t]? xi'[t]? := by
    obtain ⟨m, m', h1, h2, h3⟩ := h.2.2 t (by omega)
    rw [h1, h2]; exact h3.none
  refine Same.bindM hrow fun m m' hm => ?_
  refine Same.bindM (Same.loop (fun i (s s' : List (List ℝ) × ℝ) => Agree2 N N (fun a _ => a < i) s.1 s'.1 ∧ s.2 = s'.2)
    (a := (m, (0 : ℝ))) (b := (m', (0 : ℝ))) ⟨hm.mono fun a b _ _ h => absurd h (Nat.not_lt_zero _), rfl⟩ ?_) ?_
  · rintro i ⟨M, s⟩ ⟨M', s'⟩ hi ⟨h1, h2⟩
    dsimp only at h1 h2
    subst h2
    refine Same.mono (Same.loop (fun j (s s' : List (List ℝ) × ℝ) => Agree2 N N (fun a b => a < i ∨ (a = i ∧ b < j)) s.1 s'.1 ∧ s.2 = s'.2)
      (a := (M, s)) (b := (M', s)) ⟨h1.mono fun a b _ _ h => by omega, rfl⟩ ?_) fun s s' h => ⟨h.1.mono fun a b _ hb h => by omega, h.2⟩
    rintro j ⟨M, s⟩ ⟨M', s'⟩ hj ⟨h1, h2⟩
    dsimp only at h1 h2 ⊢
    subst h2
    exact Same.step rfl fun _ => Same.step rfl fun _ => Same.step rfl fun _ => Same.step rfl fun _ =>
      Same.bindM (h1.wr i j _ fun a b _ _ => below2) fun M M' h => ⟨h, rfl⟩
  · rintro ⟨M, s⟩ ⟨M', s'⟩ ⟨h1, h2⟩
    dsimp only at h1 h2 ⊢
    subst h2
    rw [h1.eq fun a _ h _ => h]
    have hM' : Agree2 N N (fun _ _ => True) M' M' := ⟨h1.2.1, h1.2.1, fun i hi => by
      obtain ⟨r, r', _, h3, h4⟩ := h1.2.2 i hi
      exact ⟨r', r', h3, h3, Agree.refl h4.2.1⟩⟩
    refine Same.bindM (Same.loop (fun i => Agree2 N N (fun _ _ => True)) hM' fun i M M' hi h =>
      Same.loop (fun j => Agree2 N N (fun _ _ => True)) h fun j M M' hj h => Same.step (h.rd fun _ _ => trivial) fun v => ?_) fun M M' h2 => h.wr h2
    split
    · trivial
    · exact h.wr i j _ fun a b _ _ h => Or.inl h

theorem forwardBackwards_fresh {p0 : List ℝ} {a b al al' be be' ga ga' : List (List ℝ)} {xi xi' : List (List (List ℝ))} {c c' : List ℝ} (hT : 0 < T)
    (hx : AgreeXi T N 0 xi xi') (hg : Agree2 T N (fun _ _ => False) ga ga') (ha : Agree2 T N (fun _ _ => False) al al')
    (hb : Agree2 T N (fun _ _ => False) be be') (hc : c.length = T) (hc' : c'.length = T) :
    Same (fun s s' : List (List (List ℝ)) × List (List ℝ) × ℝ => AgreeXi T N (T - 1) s.1 s'.1 ∧ s.2 = s'.2)
      (forwardBackwards rlog N T p0 a b xi ga al be c) (forwardBackwards rlog N T p0 a b xi' ga' al' be' c') := by
  unfold forwardBackwards
  refine Same.bindM (forward_fresh hT ha hc hc') ?_
  rintro ⟨M, c, l⟩ ⟨M', c', l'⟩ ⟨h1, h2, h3⟩
  dsimp only at h1 h2 h3 ⊢
  obtain rfl := h1.eq fun a _ h _ => h
  obtain rfl := h2.eq fun a h => h
  subst h3
  exact Same.step (backward_fresh hT hb) fun be => Same.step (posterior_fresh hg) fun ga => Same.bindM (transitions_fresh hx) fun xi xi' h => ⟨h, rfl⟩

theorem reestA_fresh {a ga : List (List ℝ)} {xi xi' : List (List (List ℝ))} {sg sg' : List ℝ} (hx : AgreeXi T N (T - 1) xi xi') (hs : sg.length = N)
    (hs' : sg'.length = N) : reestA N T a xi ga sg = reestA N T a xi' ga sg' := by
  unfold reestA
  apply Same.eq
  refine Same.step (Agree.fill hs hs' ?_) fun sg => ?_
  · exact fun i xs ys hi h => Same.step rfl fun s => h.wr i s fun _ _ => below
  · have key : ∀ i j, loop (T - 1) (fun t (s : ℝ) => do
          let m ← xi[t]?
          let v ← rd2 m i j
          pure (s + v)) 0 = loop (T - 1) (fun t (s : ℝ) => do
          let m ← xi'[t]?
          let v ← rd2 m i j
          pure (s + v)) 0 := fun i j =>
      (Same.loop (fun _ => Eq) rfl fun t s s' ht e => by
        subst e
        exact Same.step (hx.get ht) fun m => Same.of_eq rfl).eq
    simp only [key]
    exact Same.of_eq rfl

theorem dgemm_fresh {yy yy2 u u' : List ℝ} (hu : u.length = L * L) (hu' : u'.length = L * L) :
    dgemm T L yy yy2 u = dgemm T L yy yy2 u' := by
  unfold dgemm
  apply Same.eq
  refine Same.mono (Same.loop (fun e => Agree (L * L) (· < e * L)) ⟨hu, hu', fun i hi => absurd hi (by simp)⟩ fun e u u' he h => ?_)
    fun _ _ h => h.eq fun a h => h
  refine Same.mono (Same.loop (fun d => Agree (L * L) (· < e * L + d)) h fun d u u' hd h => Same.step rfl fun v => h.wr (e * L + d) v fun _ _ h => ?_)
    fun _ _ h => h.mono fun i _ hi => ?_
  · exact below h
  · rw [Nat.succ_mul] at hi; exact hi

theorem reestCov_fresh {mu cov x ga : List (List ℝ)} {u u' yy yy' yy2 yy2' : List ℝ} (hu : u.length = L * L) (hu' : u'.length = L * L)
    (hy : yy.length = L * T) (hy' : yy'.length = L * T) (h2 : yy2.length = L * T) (h2' : yy2'.length = L * T) :
    reestCov N T L mu cov x ga u yy yy2 = reestCov N T L mu cov x ga u' yy' yy2' := by
  unfold reestCov
  apply Same.eq
  refine Same.step rfl fun cov => ?_
  refine Same.bindM (R := fun s s' => s.1 = s'.1) (Same.mono (Same.loop (fun _ (s s' : List (List ℝ) × List ℝ × List ℝ × List ℝ) =>
    s.1 = s'.1 ∧ Agree (L * L) (fun _ => False) s.2.1 s'.2.1 ∧ Agree (L * T) (fun _ => False) s.2.2.1 s'.2.2.1 ∧ Agree (L * T) (fun _ => False) s.2.2.2 s'.2.2.2)
    (a := (cov, u, yy, yy2)) (b := (cov, u', yy', yy2')) ⟨rfl, Agree.of hu hu', Agree.of hy hy', Agree.of h2 h2'⟩ ?_) fun _ _ h => h.1) ?_
  · rintro j ⟨cov, u, yy, yy2⟩ ⟨cov', u', yy', yy2'⟩ hj ⟨h1, h2, h3, h4⟩
    dsimp only at h1 h2 h3 h4 ⊢
    subst h1
    refine Same.bindM (R := fun p p' => Agree (L * T) (fun i => i < L * T) p.1 p'.1 ∧ Agree (L * T) (fun i => i < L * T) p.2 p'.2)
      (Same.loop (fun d (p p' : List ℝ × List ℝ) => Agree (L * T) (· < d * T) p.1 p'.1 ∧ Agree (L * T) (· < d * T) p.2 p'.2)
      (a := (yy, yy2)) (b := (yy', yy2')) ⟨h3.mono fun i _ hi => absurd hi (by simp), h4.mono fun i _ hi => absurd hi (by simp)⟩ ?_) ?_
    · rintro d ⟨y, y2⟩ ⟨y', y2'⟩ hd ⟨h1, h2⟩
      dsimp only at h1 h2
      refine Same.mono (Same.loop (fun t (p p' : List ℝ × List ℝ) => Agree (L * T) (· < d * T + t) p.1 p'.1 ∧ Agree (L * T) (· < d * T + t) p.2 p'.2)
        (a := (y, y2)) (b := (y', y2')) ⟨h1, h2⟩ ?_) fun p p' h => by rw [Nat.succ_mul]; exact h
      rintro t ⟨y, y2⟩ ⟨y', y2'⟩ ht ⟨h1, h2⟩
      dsimp only at h1 h2 ⊢
      exact Same.step rfl fun _ => Same.step rfl fun _ => Same.step rfl fun _ => Same.bindM (h1.wr _ _ fun _ _ h => below h) fun y y' h =>
        Same.bindM (h2.wr _ _ fun _ _ h => below h) fun y2 y2' h' => ⟨h, h'⟩
    · rintro ⟨y, y2⟩ ⟨y', y2'⟩ ⟨e1, e2⟩
      dsimp only at e1 e2 ⊢
      obtain rfl := e1.eq fun _ h => h
      obtain rfl := e2.eq fun _ h => h
      refine Same.bindM (R := fun u u' => u = u' ∧ Agree (L * L) (fun _ => False) u u') ?_ ?_
      · have := dgemm_fresh (T := T) (yy := y) (yy2 := y2) h2.1 h2.2.1
        rw [this]
        refine Same.mono (Same.loop (fun _ u v => u = v ∧ Agree (L * L) (fun _ => False) u v) ⟨rfl, Agree.of h2.2.1 h2.2.1⟩ fun e u v he h =>
          Same.loop (fun _ u v => u = v ∧ Agree (L * L) (fun _ => False) u v) h fun d u v hd h => ?_) fun _ _ h => h
        obtain ⟨rfl, h⟩ := h
        refine Same.step rfl fun v => ?_
        by_cases hb : e * L + d < u.length
        · rw [wr_some _ hb]; exact ⟨rfl, (h.set _ v).none⟩
        · rw [wr_none _ (by omega)]; trivial
      · rintro u _ ⟨rfl, hu⟩
        exact Same.step rfl fun cov => ⟨rfl, hu, e1.none, e2.none⟩
  · rintro ⟨cov, _, _, _⟩ ⟨cov', _, _, _⟩ h
    dsimp only at h
    subst h
    exact Same.of_eq rfl

theorem baumWelch_fresh {p0 : List ℝ} {a mu cov x ga : List (List ℝ)} {xi xi' : List (List (List ℝ))} {sg sg' u u' yy yy' yy2 yy2' : List ℝ}
    (hx : AgreeXi T N (T - 1) xi xi') (hs : sg.length = N) (hs' : sg'.length = N) (hu : u.length = L * L) (hu' : u'.length = L * L)
    (hy : yy.length = L * T) (hy' : yy'.length = L * T) (h2 : yy2.length = L * T) (h2' : yy2'.length = L * T) :
    baumWelch N T L p0 a mu cov x xi ga sg u yy yy2 = baumWelch N T L p0 a mu cov x xi' ga sg' u' yy' yy2' := by
  unfold baumWelch
  rw [reestA_fresh hx hs hs', reestCov_fresh hu hu' hy hy' h2 h2']

theorem xi_fresh {w w' : Work} (h : WorkSizes N T L w) (h' : WorkSizes N T L w') : AgreeXi T N 0 w.xi w'.xi :=
  ⟨h.h_xi, h'.h_xi, fun t ht => by
    obtain ⟨m, _, h1, h2⟩ := h.h_xi2 t ht
    obtain ⟨m', _, h3, h4⟩ := h'.h_xi2 t ht
    exact ⟨m, m', h1, h3, (Agree2.of h2 h4).mono fun _ _ _ _ h => absurd h (Nat.not_lt_zero _)⟩⟩

theorem fresh2 {β : Type} {n m : Nat} {M M' : List (List β)} (h : ∃ f, Holds2 n m f M) (h' : ∃ f, Holds2 n m f M') : Agree2 n m (fun _ _ => False) M M' :=
  Agree2.of h.choose_spec h'.choose_spec

theorem trainLoop_fresh {inv : List (List ℝ) → List (List ℝ) × ℝ} {x : List (List ℝ)} {work work' : Nat → Work} (hT : 0 < T)
    (h : ∀ i, WorkSizes N T L (work i)) (h' : ∀ i, WorkSizes N T L (work' i)) (fuel iter : Nat) (l l1 l2 : ℝ) (m : Params) :
    trainLoop inv N T L x work fuel iter l l1 l2 m = trainLoop inv N T L x work' fuel iter l l1 l2 m := by
  induction fuel generalizing iter l l1 l2 m with
  | zero => rfl
  | succ fuel ih =>
    unfold trainLoop
    split
    · rfl
    · have w := h (iter + 1)
      have w' := h' (iter + 1)
      apply Same.eq
      refine Same.step (observations_fresh (fresh2 w.h_b w'.h_b) w.h_gy w'.h_gy w.h_gz w'.h_gz) fun b => ?_
      refine Same.bindM (forwardBackwards_fresh hT (xi_fresh w w') (fresh2 w.h_gamma w'.h_gamma) (fresh2 w.h_alpha w'.h_alpha) (fresh2 w.h_beta w'.h_beta)
        w.h_c.choose_spec.1 w'.h_c.choose_spec.1) ?_
      rintro ⟨xi, ga, ll⟩ ⟨xi', ga', ll'⟩ ⟨h1, h2⟩
      dsimp only at h1 h2 ⊢
      cases h2
      refine Same.bindM (forward_fresh (T := 1) (by omega) (fresh2 w.h_alpha w'.h_alpha) w.h_c.choose_spec.1 w'.h_c.choose_spec.1) ?_
      rintro ⟨_, _, l0⟩ ⟨_, _, l0'⟩ ⟨_, _, h3⟩
      dsimp only at h3 ⊢
      subst h3
      refine Same.step (baumWelch_fresh h1 w.h_sg w'.h_sg w.h_u w'.h_u w.h_yy w'.h_yy w.h_yy2 w'.h_yy2) ?_
      rintro ⟨p0, a, mu, cov⟩
      exact Same.step rfl fun mu => Same.of_eq (ih _ _ _ _ _)

theorem hmmTrain_fresh {inv : List (List ℝ) → List (List ℝ) × ℝ} {x : List (List ℝ)} {work work' : Nat → Work} (hT : 0 < T)
    (h : ∀ i, WorkSizes N T L (work i)) (h' : ∀ i, WorkSizes N T L (work' i)) (l l1 l2 l' l1' l2' : ℝ) (m : Params) :
    hmmTrain inv N T L x work l l1 l2 m = hmmTrain inv N T L x work' l' l1' l2' m := by
  rw [C33_uninitialised inv N T L x work l l1 l2 l' l1' l2']
  exact trainLoop_fresh hT h h' 50 0 l' l1' l2' m

theorem viterbiPass_fresh {p0 : List ℝ} {a logb : List (List ℝ)} {phi phi' : List (List (WithBot ℝ))} {psi psi' : List (List Nat)} (hT : 0 < T)
    (h : Agree2 T N (fun _ _ => False) phi phi') (hs : Agree2 T N (fun _ _ => False) psi psi') :
    viterbiPass blog N T p0 a logb phi psi = viterbiPass blog N T p0 a logb phi' psi' := by
  unfold viterbiPass
  apply Same.eq
  refine Same.bindM (Same.loop (fun i (s s' : List (List (WithBot ℝ)) × List (List Nat)) =>
    Agree2 T N (fun a b => a = 0 ∧ b < i) s.1 s'.1 ∧ Agree2 T N (fun a b => a = 0 ∧ b < i) s.2 s'.2)
    (a := (phi, psi)) (b := (phi', psi')) ⟨h.mono fun a b _ _ h => by omega, hs.mono fun a b _ _ h => by omega⟩ ?_) ?_
  · rintro i ⟨f, s⟩ ⟨f', s'⟩ hi ⟨h1, h2⟩
    dsimp only at h1 h2 ⊢
    exact Same.step rfl fun p => Same.step rfl fun l => Same.bindM (h1.wr 0 i _ fun a b _ _ h => by omega) fun f f' hf =>
      Same.bindM (h2.wr 0 i 0 fun a b _ _ h => by omega) fun s s' hs => ⟨hf, hs⟩
  · rintro ⟨f, s⟩ ⟨f', s'⟩ ⟨h1, h2⟩
    dsimp only at h1 h2
    refine Same.mono (Same.loop (fun k (s s' : List (List (WithBot ℝ)) × List (List Nat)) =>
      Agree2 T N (fun a _ => a < k + 1) s.1 s'.1 ∧ Agree2 T N (fun a _ => a < k + 1) s.2 s'.2)
      (a := (f, s)) (b := (f', s')) ⟨h1.mono fun a b _ _ h => by omega, h2.mono fun a b _ _ h => by omega⟩ ?_)
      fun s s' h => Prod.ext (h.1.eq fun a _ _ _ => by omega) (h.2.eq fun a _ _ _ => by omega)
    rintro k ⟨f, s⟩ ⟨f', s'⟩ hk ⟨h1, h2⟩
    dsimp only at h1 h2
    refine Same.mono (Same.loop (fun j (s s' : List (List (WithBot ℝ)) × List (List Nat)) =>
      Agree2 T N (fun a b => a < k + 1 ∨ (a = k + 1 ∧ b < j)) s.1 s'.1 ∧ Agree2 T N (fun a b => a < k + 1 ∨ (a = k + 1 ∧ b < j)) s.2 s'.2)
      (a := (f, s)) (b := (f', s')) ⟨h1.mono fun a b _ _ h => by omega, h2.mono fun a b _ _ h => by omega⟩ ?_)
      fun s s' h => ⟨h.1.mono fun a b _ _ _ => by omega, h.2.mono fun a b _ _ _ => by omega⟩
    rintro j ⟨f, s⟩ ⟨f', s'⟩ hj ⟨h1, h2⟩
    dsimp only at h1 h2 ⊢
    refine Same.bindM (h2.wr (k + 1) j 0 fun a b _ _ => below2) fun s s' h2 => ?_
    refine Same.bindM (Same.loop (fun i (r r' : (List (List (WithBot ℝ)) × List (List Nat)) × (WithBot ℝ × Bool)) =>
      Agree2 T N (fun a b => a < k + 1 ∨ (a = k + 1 ∧ (b < j ∨ (b = j ∧ 0 < i)))) r.1.1 r'.1.1 ∧
      Agree2 T N (fun a b => a < k + 1 ∨ (a = k + 1 ∧ b < j + 1)) r.1.2 r'.1.2 ∧ r.2 = r'.2 ∧ r.2.2 = decide (0 < i))
      (a := ((f, s), (((-1000000 : ℝ) : WithBot ℝ), false))) (b := ((f', s'), (((-1000000 : ℝ) : WithBot ℝ), false)))
      ⟨h1.mono fun a b _ _ h => by omega, h2, rfl, rfl⟩ ?_) ?_
    · rintro i ⟨⟨f, s⟩, r⟩ ⟨⟨f', s'⟩, r'⟩ hi ⟨h1, h2, h3, h4⟩
      dsimp only at h1 h2 h3 h4 ⊢
      subst h3
      refine Same.step (h1.rd fun _ _ => Or.inl (Nat.lt_succ_self k)) fun p => Same.step rfl fun q => ?_
      split
      · refine Same.step rfl fun l => Same.bindM (h1.wr (k + 1) j _ fun a b _ _ h => by omega) fun f f' hf =>
          Same.bindM (h2.wr (k + 1) j i fun a b _ _ h => Or.inl h) fun s s' hs => ⟨hf, hs, rfl, by simp⟩
      · rename_i hn
        have hi0 : 0 < i := by
          by_contra h0
          exact hn (Or.inr (by rw [h4]; simpa using h0))
        exact ⟨h1.mono fun a b _ _ h => by omega, h2, rfl, by rw [h4]; simp [hi0]⟩
    · rintro ⟨⟨f, s⟩, r⟩ ⟨⟨f', s'⟩, r'⟩ ⟨h1, h2, h3, h4⟩
      dsimp only at h1 h2 ⊢
      exact ⟨h1.mono fun a b _ _ h => by omega, h2.mono fun a b _ _ h => by omega⟩

theorem viterbiPath_fresh {phi : List (List (WithBot ℝ))} {psi : List (List Nat)} {q q' : List Nat} (h : q.length = T) (h' : q'.length = T) :
    Same (Agree T (fun _ => True)) (viterbiPath N T phi psi q) (viterbiPath N T phi psi q') := by
  unfold viterbiPath
  split
  · trivial
  · refine Same.step rfl fun m => Same.bindM ((Agree.of h h').wr (Q := (· = T - 1)) (T - 1) 0 fun _ _ h => Or.inr h) fun q q' hq => ?_
    refine Same.bindM (Same.loop (fun _ (s s' : WithBot ℝ × List Nat) => s.1 = s'.1 ∧ Agree T (· = T - 1) s.2 s'.2)
      (a := (m, q)) (b := (m, q')) ⟨rfl, hq⟩ ?_) ?_
    · rintro k ⟨m, q⟩ ⟨m', q'⟩ hk ⟨h1, h2⟩
      dsimp only at h1 h2 ⊢
      subst h1
      refine Same.step rfl fun p => ?_
      split
      · exact Same.bindM (h2.wr (Q := (· = T - 1)) (T - 1) (k + 1) fun _ _ h => Or.inr h) fun q q' h => ⟨rfl, h⟩
      · exact ⟨rfl, h2⟩
    · rintro ⟨m, q⟩ ⟨m', q'⟩ ⟨h1, h2⟩
      dsimp only at h1 h2 ⊢
      refine Same.mono (Same.loop (fun k => Agree T (fun i => T - 1 - k ≤ i)) (h2.mono fun i _ hi => by omega) fun k q q' hk h => ?_)
        fun _ _ h => h.mono fun i _ _ => by omega
      refine Same.step (h.get fun _ => by omega) fun s => Same.step rfl fun p => h.wr (T - 2 - k) p fun i _ hi => by omega

theorem viterbiDecode_fresh {inv : List (List ℝ) → List (List ℝ) × ℝ} {x : List (List ℝ)} {m : Params} {w w' : VWork} {q q' : List Nat} (hT : 0 < T)
    (h : VSizes N T L w) (h' : VSizes N T L w') (hq : q.length = T) (hq' : q'.length = T) :
    Same (Agree T (fun _ => True)) (viterbiDecode inv N T L x m w q) (viterbiDecode inv N T L x m w' q') := by
  unfold viterbiDecode viterbi
  exact Same.step (logObservations_fresh (fresh2 h.logb h'.logb) h.gy h'.gy h.gz h'.gz) fun b =>
    Same.step (viterbiPass_fresh hT (fresh2 h.phi h'.phi) (fresh2 h.psi h'.psi)) fun s => viterbiPath_fresh hq hq'

end QM.Hmm
