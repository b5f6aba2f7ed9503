import Verif.Hmm.Fresh
import Verif.Segment.PipelineProps

/-! # The functions of `dsp/segmentation` on different contents of fresh memory -/

namespace QM.Segment

open Hmm (below below2 fresh2)

variable {T L N k : Nat}

theorem createHistograms_fresh {x : List Int} {m hlen : Nat} {h h' : List ℝ} (hh : h.length = x.length * m) (hh' : h'.length = x.length * m) :
    createHistograms x m hlen h = createHistograms x m hlen h' := by
  unfold createHistograms
  exact (Same.step (Agree.fill hh hh' fun i xs ys hi h => h.wr i 0 fun _ _ => below) fun h => Same.of_eq rfl).eq

theorem schedule_fresh {b b' : List ℝ} (h : b.length = 20) (h' : b'.length = 20) : schedule b = schedule b' := by
  obtain ⟨c, h1, h2⟩ := schedule_ok h
  obtain ⟨c', h3, h4⟩ := schedule_ok h'
  rw [h1, h3]
  exact congrArg some (List.ext_getElem? fun i => by
    by_cases hi : i < 20
    · rw [h2.2 i hi, h4.2 i hi]
    · rw [List.getElem?_eq_none (by rw [h2.1]; omega), List.getElem?_eq_none (by rw [h4.1]; omega)])

theorem rect_fresh {β : Type} {n m : Nat} {M M' : List (List β)} (h : Rect n m M) (h' : Rect n m M') : Agree2 n m (fun _ _ => False) M M' :=
  ⟨h.1, h'.1, fun i hi => by
    refine ⟨M[i]'(by rw [h.1]; exact hi), M'[i]'(by rw [h'.1]; exact hi), List.getElem?_eq_getElem _, List.getElem?_eq_getElem _, Agree.of ?_ ?_⟩
    · exact h.2 _ (List.getElem_mem _)
    · exact h'.2 _ (List.getElem_mem _)⟩

section melt
variable {K : Type} (A : Arith K)

theorem initCluster_fresh {m : Nat} {rnd : Nat → Int} {row row' : List K} (h : Agree m (fun _ => False) row row') :
    Same (Agree m (fun _ => True)) (initCluster A m rnd row) (initCluster A m rnd row') := by
  unfold initCluster
  refine Same.bindM (Same.loop (fun j (s s' : List K × K) => Agree m (· < j) s.1 s'.1 ∧ s.2 = s'.2) (a := (row, A.ofInt 0)) (b := (row', A.ofInt 0))
    ⟨h.mono fun i _ hi => absurd hi (Nat.not_lt_zero i), rfl⟩ ?_) ?_
  · rintro j ⟨r, s⟩ ⟨r', s'⟩ hj ⟨h1, h2⟩
    dsimp only at h1 h2 ⊢
    subst h2
    exact Same.bindM (h1.wr j _ fun _ _ => below) fun r r' h => ⟨h, rfl⟩
  · rintro ⟨r, s⟩ ⟨r', s'⟩ ⟨h1, h2⟩
    dsimp only at h1 h2 ⊢
    subst h2
    exact Same.loop (fun _ => Agree m (fun _ => True)) (h1.mono fun i hi _ => hi) fun j r r' hj h =>
      Same.step (h.get fun _ => trivial) fun v => h.wr j _ fun _ _ h => Or.inl h

theorem assignRow_fresh {h : List K} {m n limit : Nat} {beta : K} {cl : List (List K)} {c : List Int} {i : Nat} {row row' : List K} {nc nc' : List Int}
    (h1 : Agree k (fun _ => False) row row') (h2 : Agree k (fun _ => False) nc nc') :
    Same (fun s s' : List K × List Int => Agree k (fun _ => True) s.1 s'.1 ∧ Agree k (fun _ => True) s.2 s'.2)
      (assignRow A h m n k limit beta cl c i row nc) (assignRow A h m n k limit beta cl c i row' nc') := by
  unfold assignRow
  refine Same.bindM (Same.loop (fun j (s s' : List K × List Int × K) => Agree k (· < j) s.1 s'.1 ∧ Agree k (· < j) s.2.1 s'.2.1 ∧ s.2.2 = s'.2.2)
    (a := (row, nc, A.ofInt 0)) (b := (row', nc', A.ofInt 0))
    ⟨h1.mono fun i _ hi => absurd hi (Nat.not_lt_zero i), h2.mono fun i _ hi => absurd hi (Nat.not_lt_zero i), rfl⟩ ?_) ?_
  · rintro j ⟨r, s, t⟩ ⟨r', s', t'⟩ hj ⟨h1, h2, h3⟩
    dsimp only at h1 h2 h3 ⊢
    subst h3
    exact Same.step rfl fun _ => Same.step rfl fun _ => Same.bindM (h1.wr j _ fun _ _ => below) fun r r' hr => Same.step rfl fun _ =>
      Same.bindM (h2.wr j _ fun _ _ => below) fun s s' hs => ⟨hr, hs, rfl⟩
  · rintro ⟨r, s, t⟩ ⟨r', s', t'⟩ ⟨h1, h2, h3⟩
    dsimp only at h1 h2 h3 ⊢
    subst h3
    refine Same.bindM (Same.loop (fun _ => Agree k (fun _ => True)) (h1.mono fun i hi _ => hi) fun j r r' hj h =>
      Same.step (h.get fun _ => trivial) fun v => Same.step (h2.get fun h => h) fun w => h.wr j _ fun _ _ h => Or.inl h) fun r r' hr => ⟨hr, h2.mono fun i hi _ => hi⟩

/-- The clusters and the assignments are the same; the other arrays have the same sizes. -/
def MeltSame (n k : Nat) (s s' : Melt K) : Prop :=
  s.cl = s'.cl ∧ s.c = s'.c ∧ Agree2 n k (fun _ _ => False) s.nc s'.nc ∧ Agree2 n k (fun _ _ => False) s.lp s'.lp ∧ Agree n (fun _ => False) s.oldc s'.oldc

theorem meltStep_fresh {h : List K} {m n limit : Nat} {beta : K} {s s' : Melt K} (hs : MeltSame n k s s') :
    Same (fun r r' : Melt K × Bool => MeltSame n k r.1 r'.1 ∧ r.2 = r'.2) (meltStep A h m n k limit beta s) (meltStep A h m n k limit beta s') := by
  obtain ⟨cl, nc, lp, oldc, c⟩ := s
  obtain ⟨cl', nc', lp', oldc', c'⟩ := s'
  obtain ⟨h1, h2, h3, h4, h5⟩ := hs
  dsimp only at h1 h2 h3 h4 h5
  subst h1 h2
  unfold meltStep
  refine Same.bindM (Same.loop (fun i (u u' : List (List K) × List (List Int) × List Int) =>
    Agree2 n k (fun a _ => a < i) u.1 u'.1 ∧ Agree2 n k (fun _ _ => False) u.2.1 u'.2.1 ∧ Agree n (· < i) u.2.2 u'.2.2)
    (a := (lp, nc, oldc)) (b := (lp', nc', oldc'))
    ⟨h4.mono fun a _ _ _ h => absurd h (Nat.not_lt_zero a), h3, h5.mono fun i _ hi => absurd hi (Nat.not_lt_zero i)⟩ ?_) ?_
  · rintro i ⟨lp, nc, oldc⟩ ⟨lp', nc', oldc'⟩ hi ⟨h1, h2, h3⟩
    dsimp only at h1 h2 h3 ⊢
    refine Same.step rfl fun l => Same.bindM (h3.wr i l fun _ _ => below) fun oldc oldc' ho => ?_
    refine Same.bindM (h1.row i) fun row row' hr => Same.bindM (h2.row i) fun r2 r2' hr2 => ?_
    refine Same.bindM (assignRow_fresh A hr.none hr2) fun r r' hq => ?_
    refine Same.bindM (h1.wrRow (Q2 := fun a _ => a < i + 1) i hq.1 fun a b _ _ h => ?_) fun lp lp' hlp => Same.bindM (h2.wrRow i hq.2 fun a b _ _ h => h.elim)
      fun nc nc' hnc => ⟨hlp, hnc, ho⟩
    by_cases e : a = i
    · rw [if_pos e]; trivial
    · rw [if_neg e]; omega
  · rintro ⟨lp, nc, oldc⟩ ⟨lp', nc', oldc'⟩ ⟨h1, h2, h3⟩
    dsimp only at h1 h2 h3 ⊢
    obtain rfl : lp = lp' := h1.eq fun a _ h _ => h
    obtain rfl : oldc = oldc' := h3.eq fun a h => h
    refine Same.step rfl fun c => ?_
    split
    · exact ⟨⟨rfl, rfl, h2, h1.none, h3.none⟩, rfl⟩
    · exact Same.step rfl fun cl => ⟨⟨rfl, rfl, h2, h1.none, h3.none⟩, rfl⟩

theorem meltAt_fresh {h : List K} {m n limit : Nat} {beta : K} (maxiter : Nat) {s s' : Melt K} (hs : MeltSame n k s s') :
    Same (fun r r' : Melt K × Nat => MeltSame n k r.1 r'.1 ∧ r.2 = r'.2) (meltAt A h m n k limit beta maxiter s) (meltAt A h m n k limit beta maxiter s') := by
  induction maxiter generalizing s s' with
  | zero => exact ⟨hs, rfl⟩
  | succ maxiter ih =>
    unfold meltAt
    refine Same.bindM (meltStep_fresh A hs) ?_
    rintro ⟨r, f⟩ ⟨r', f'⟩ ⟨h1, h2⟩
    dsimp only at h1 h2 ⊢
    subst h2
    split
    · exact ⟨h1, rfl⟩
    · exact Same.bindM (ih h1) fun q q' h => ⟨h.1, by rw [h.2]⟩

theorem clusterMelt_fresh {h : List K} {m n t : Nat} {Bsched : List K} {l : Int} {rnd : Nat → Nat → Int} {s s' : Melt K}
    (hcl : Agree2 k m (fun _ _ => False) s.cl s'.cl) (hc : s.c = s'.c) (hnc : Agree2 n k (fun _ _ => False) s.nc s'.nc)
    (hlp : Agree2 n k (fun _ _ => False) s.lp s'.lp) (ho : Agree n (fun _ => False) s.oldc s'.oldc) :
    clusterMelt A h m n Bsched t k l rnd s = clusterMelt A h m n Bsched t k l rnd s' := by
  obtain ⟨cl, nc, lp, oldc, c⟩ := s
  obtain ⟨cl', nc', lp', oldc', c'⟩ := s'
  dsimp only at hcl hc hnc hlp ho
  subst hc
  unfold clusterMelt
  apply Same.eq
  refine Same.bindM (R := Eq) (Same.mono (Same.loop (fun i => Agree2 k m (fun a _ => a < i)) (hcl.mono fun a _ _ _ h => absurd h (Nat.not_lt_zero a)) fun i M M' hi h => ?_)
    fun _ _ h => h.eq fun a _ h _ => h) ?_
  · refine Same.bindM (h.row i) fun row row' hr => Same.bindM (initCluster_fresh A hr.none) fun r r' hr => h.wrRow i hr fun a b _ _ h => ?_
    by_cases e : a = i
    · rw [if_pos e]; trivial
    · rw [if_neg e]; omega
  · rintro cl _ rfl
    refine Same.step rfl fun c => ?_
    refine Same.bindM (Same.loop (fun _ (r r' : Melt K × Nat) => MeltSame n k r.1 r'.1 ∧ r.2 = r'.2) (a := (⟨cl, nc, lp, oldc, c⟩, 0)) (b := (⟨cl, nc', lp', oldc', c⟩, 0))
      ⟨⟨rfl, rfl, hnc, hlp, ho⟩, rfl⟩ ?_) ?_
    · rintro a ⟨r, i⟩ ⟨r', i'⟩ ha ⟨h1, h2⟩
      dsimp only at h1 h2 ⊢
      subst h2
      exact Same.step rfl fun beta => Same.bindM (meltAt_fresh A _ h1) fun q q' h => ⟨h.1, by rw [h.2]⟩
    · rintro ⟨r, i⟩ ⟨r', i'⟩ ⟨h1, h2⟩
      dsimp only at h2 ⊢
      subst h2
      exact congrArg (·, i) h1.2.1

end melt

variable {inv : List (List ℝ) → List (List ℝ) × ℝ} {pca : List (List ℝ) → Nat → Nat → Option (List (List ℝ))} {rnd : Rand} {hlen : Nat} {limit : Int}

theorem clusterSegment_fresh {x : List (List ℝ)} {w w' : CWork} {q q' : List Nat} (hT : 0 < T) (h : CSizes T L N k w) (h' : CSizes T L N k w')
    (hq : q.length = T) (hq' : q'.length = T) :
    clusterSegment inv rnd q x T L N hlen k limit w = clusterSegment inv rnd q' x T L N hlen k limit w' := by
  unfold clusterSegment
  apply Same.eq
  refine Same.step rfl fun x => Same.step (Hmm.hmmInit_fresh h.p0 h'.p0 (fresh2 h.a h'.a) (fresh2 h.mu h'.mu) (fresh2 h.cov h'.cov) h.gm h'.gm) fun m =>
    Same.step (Hmm.hmmTrain_fresh hT h.train h'.train _ _ _ _ _ _ m) fun m => ?_
  refine Same.bindM (Hmm.viterbiDecode_fresh hT h.vit h'.vit hq hq') fun q q' hqq => ?_
  obtain rfl := hqq.eq fun _ _ => trivial
  have hl := hqq.1
  refine Same.step (createHistograms_fresh (by simpa [hl] using h.h) (by simpa [hl] using h'.h)) fun hs => Same.step (schedule_fresh h.bsched h'.bsched) fun b =>
    Same.step (clusterMelt_fresh realArith (rect_fresh h.cl h'.cl) rfl (rect_fresh h.nc h'.nc) (rect_fresh h.lp h'.lp) (Agree.of h.oldc h'.oldc)) fun r => Same.of_eq rfl

theorem copyFeatures_fresh {f arr arr' : List (List ℝ)} {wd m : Nat} (h : Agree2 f.length m (fun _ _ => False) arr arr') :
    Same (Agree2 f.length m (fun _ b => b < wd)) (copyFeatures f wd arr) (copyFeatures f wd arr') := by
  unfold copyFeatures
  refine Same.mono (Same.loop (fun i => Agree2 f.length m (fun a b => a < i ∧ b < wd)) (h.mono fun a b _ _ h => by omega) fun i M M' hi h => ?_)
    fun _ _ h => h.mono fun a b ha _ hb => ⟨ha, hb⟩
  refine Same.mono (Same.loop (fun j => Agree2 f.length m (fun a b => (a < i ∧ b < wd) ∨ (a = i ∧ b < j))) (h.mono fun a b _ _ h => by omega) fun j M M' hj h => ?_)
    fun _ _ h => h.mono fun a b _ _ h => by omega
  exact Same.step rfl fun v => h.wr i j v fun a b _ _ h => by omega

theorem narrow_fresh {M M' : List (List ℝ)} {n m wd : Nat} (h : Agree2 n m (fun _ b => b < wd) M M') : narrow wd M = narrow wd M' := by
  refine List.ext_getElem? fun i => ?_
  unfold narrow
  rw [List.getElem?_map, List.getElem?_map]
  by_cases hi : i < n
  · obtain ⟨r, r', h1, h2, h3⟩ := h.2.2 i hi
    rw [h1, h2, Option.map_some, Option.map_some]
    congr 1
    refine List.ext_getElem? fun j => ?_
    rw [List.getElem?_take, List.getElem?_take]
    split
    · rename_i hj
      exact h3.get fun _ => hj
    · rfl
  · rw [List.getElem?_eq_none (by rw [h.1]; omega), List.getElem?_eq_none (by rw [h.2.1]; omega)]

theorem cq2chroma_fresh {cq cq' ch ch' : List ℝ} {m ncoeff bins : Nat} (h : Agree m (· < ncoeff) cq cq') (hc : Agree bins (fun _ => False) ch ch') :
    Same (Agree bins (fun _ => True)) (cq2chroma cq ncoeff bins ch) (cq2chroma cq' ncoeff bins ch') := by
  unfold cq2chroma
  refine Same.bindM (Same.loop (fun b => Agree bins (· < b)) (hc.mono fun i _ hi => absurd hi (Nat.not_lt_zero i)) fun b M M' hb h => h.wr b 0 fun _ _ => below)
    fun ch ch' hc => ?_
  refine Same.loop (fun _ => Agree bins (fun _ => True)) (hc.mono fun i hi _ => hi) fun oct ch ch' ho hc =>
    Same.loop (fun _ => Agree bins (fun _ => True)) hc fun b ch ch' hb hc => Same.step (hc.get fun _ => trivial) fun c => Same.step (h.get fun _ => ?_) fun v =>
      hc.wr b _ fun _ _ h => Or.inl h
  have h1 : (oct + 1) * bins ≤ ncoeff / bins * bins := Nat.mul_le_mul_right _ ho
  have h2 := Nat.div_mul_le_self ncoeff bins
  have h3 : (oct + 1) * bins = oct * bins + bins := Nat.succ_mul _ _
  omega

theorem chromaAll_fresh {x x' ch ch' : List (List ℝ)} {m ncoeff bins : Nat} (h : Agree2 T m (fun _ b => b < ncoeff) x x')
    (hc : Agree2 T bins (fun _ _ => False) ch ch') : chromaAll T ncoeff bins x ch = chromaAll T ncoeff bins x' ch' := by
  unfold chromaAll
  apply Same.eq
  refine Same.mono (Same.loop (fun t => Agree2 T bins (fun a _ => a < t)) (hc.mono fun a _ _ _ h => absurd h (Nat.not_lt_zero a)) fun t M M' ht hM => ?_)
    fun _ _ h => h.eq fun a _ h _ => h
  refine Same.bindM (h.row t) fun r r' hr => Same.bindM (hM.row t) fun row row' hrow => Same.bindM (cq2chroma_fresh hr hrow.none) fun c c' hc =>
    hM.wrRow t hc fun a b _ _ h => ?_
  by_cases e : a = t
  · rw [if_pos e]; trivial
  · rw [if_neg e]; omega

theorem mpeg7_fresh {x x' : List (List ℝ)} {ncoeff : Nat} (h : Agree2 T (ncoeff + 1) (fun _ b => b < ncoeff) x x') : mpeg7 x T ncoeff = mpeg7 x' T ncoeff := by
  unfold mpeg7 toDecibels normaliseRows sumSquares
  apply Same.eq
  refine Same.bindM (Same.loop (fun _ => Agree2 T (ncoeff + 1) (fun _ b => b < ncoeff)) h fun i M M' hi h =>
    Same.loop (fun _ => Agree2 T (ncoeff + 1) (fun _ b => b < ncoeff)) h fun j M M' hj h => Same.step (h.rd fun _ _ => hj) fun v => Same.step rfl fun l =>
      h.wr i j _ fun a b _ _ h => Or.inl h) fun x x' h => ?_
  refine Same.bindM (Same.loop (fun i (s s' : List (List ℝ) × ℝ) => Agree2 T (ncoeff + 1) (fun a b => b < ncoeff ∨ a < i) s.1 s'.1 ∧ s.2 = s'.2)
    (a := (x, (0 : ℝ))) (b := (x', (0 : ℝ))) ⟨h.mono fun a b _ _ h => by omega, rfl⟩ ?_) ?_
  · rintro i ⟨M, s⟩ ⟨M', s'⟩ hi ⟨h1, h2⟩
    dsimp only at h1 h2 ⊢
    subst h2
    refine Same.bindM (R := Eq) (Same.loop (fun _ => Eq) rfl fun j s s' hj e => by
      subst e
      exact Same.step (h1.rd fun _ _ => Or.inl hj) fun v => rfl) ?_
    rintro ss _ rfl
    refine Same.bindM (Same.loop (fun _ => Agree2 T (ncoeff + 1) (fun a b => b < ncoeff ∨ a < i)) h1 fun j M M' hj h =>
      Same.step (h.rd fun _ _ => Or.inl hj) fun v => Same.step rfl fun l => h.wr i j _ fun a b _ _ h => Or.inl h) fun M M' h => ?_
    exact Same.bindM (h.wr i ncoeff _ fun a b _ _ h => by omega) fun M M' h => ⟨h, rfl⟩
  · rintro ⟨M, s⟩ ⟨M', s'⟩ ⟨h1, h2⟩
    dsimp only at h2
    subst h2
    obtain rfl : M = M' := h1.eq fun a b ha _ => Or.inr ha
    exact Same.of_eq rfl

end QM.Segment
