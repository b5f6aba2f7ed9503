import Verif.DownBeat.Model
import Verif.Common.Sum
import Verif.MathReal.Props
import Mathlib.Tactic.Ring
import Mathlib.Tactic.Linarith
import Mathlib.Algebra.BigOperators.Field
import Mathlib.Algebra.Order.BigOperators.Ring.Finset
import Mathlib.Analysis.SpecialFunctions.Log.NegMulLog

/-! # C39: downbeats -/

namespace QM.DownBeat

open QM.MathReal Finset

/-! ## Specification -/

section spec
variable {K : Type} [Field K] [LinearOrder K] [FloorRing K]

/-- The positions, from 1 on, of the beats with index congruent to `b` that have a spectral change into them. -/
def positions (count ts b : Nat) : Finset Nat := (range (count + 1)).filter (fun n => n ≠ 0 ∧ n % ts = b)

/-- The mean of the spectral change into the beats with index congruent to `b`; `sd` holds the changes into beat 1, beat 2, …; zero if
there is no such beat. -/
def meanChange (sd : List K) (ts b : Nat) : K :=
  (∑ n ∈ positions sd.length ts b, sd.getD (n - 1) 0) / ((positions sd.length ts b).card : K)

/-- The windowed samples of beat `i`, followed by zeros up to the size of the frame. -/
def beatFrame (p : Finder K) (audio : List K) (start len : Nat) : List K :=
  (List.range p.frameSize).map (fun j => if j < len then audio.getD (start + j) 0 * p.hann j len else 0)

/-- Where beat `i` starts, in samples of the decimated audio. -/
def startOf (p : Finder K) (b : K) : Nat := ⌊b * (p.increment : K) / (p.factor : K)⌋.toNat

/-- Where a beat ends: at the start of the next one, or at the last sample. -/
def stopOf (p : Finder K) (audioLength : Nat) (b b' : K) : Nat := max (startOf p b) (min (startOf p b') (audioLength - 1))

/-- The spectrum of beat `i`. -/
def spectrumOf (p : Finder K) (audio beats : List K) (i : Nat) : Option (List K) :=
  let b := beats.getD i 0
  adaptiveThreshold (p.mag (beatFrame p audio (startOf p b) (stopOf p audio.length b (beats.getD (i + 1) 0) - startOf p b)))

/-- A term of the Jensen-Shannon divergence. -/
def jsTerm (lg : K → K) (o n : K) : K := 1 / 2 * (o * lg o) + 1 / 2 * (n * lg n) - (1 / 2 * o + 1 / 2 * n) * lg (1 / 2 * o + 1 / 2 * n)

/-- The first values of a spectrum, each raised by `eps`, divided by their sum. -/
def normalised (eps : K) (size : Nat) (xs : List K) (i : Nat) : K :=
  (xs.getD i 0 + eps) / ∑ j ∈ range size, (xs.getD j 0 + eps)

/-- The Jensen-Shannon divergence of the first quarter, at most 512 values, of two spectra. -/
def divergence (lg : K → K) (eps : K) (o n : List K) : K :=
  ∑ i ∈ range (min 512 (o.length / 4)), jsTerm lg (normalised eps (min 512 (o.length / 4)) o i) (normalised eps (min 512 (o.length / 4)) n i)

end spec

variable {K : Type} [Field K] [LinearOrder K] [FloorRing K] [IsStrictOrderedRing K]

/-! ## One beat -/

omit [LinearOrder K] [FloorRing K] [IsStrictOrderedRing K] in
theorem fillFrame_ok (p : Finder K) (audio frame : List K) (start len : Nat) (h : len = 0 ∨ start + len ≤ audio.length)
    (hf : frame.length = p.frameSize) : fillFrame p audio start len frame = some (beatFrame p audio start len) := by
  obtain ⟨f1, h1, h2, h3⟩ := loop_inv (min len p.frameSize) (fun j frame => do
      let v ← audio[start + j]?
      wr frame j (v * p.hann j len)) frame
    (fun m f => f.length = p.frameSize ∧ ∀ j, j < m → f[j]? = some (audio.getD (start + j) 0 * p.hann j len))
    ⟨hf, fun j hj => absurd hj (by omega)⟩ (by
      intro i f hi ⟨q1, q2⟩
      refine ⟨f.set i (audio.getD (start + i) 0 * p.hann i len), ?_, by simpa using q1, ?_⟩
      · rw [bind_ok (get_getD audio (start + i) 0 (by omega)), wr_some _ (by omega)]
      · intro j hj
        by_cases hji : j = i
        · subst hji; rw [List.getElem?_set_self (by omega)]
        · rw [List.getElem?_set_ne (by omega)]; exact q2 j (by omega))
  obtain ⟨f2, g1, g2, g3⟩ := loop_inv (p.frameSize - len) (fun j frame => wr frame (len + j) (0 : K)) f1
    (fun m f => f.length = p.frameSize ∧ ∀ j, j < p.frameSize → (j < len → f[j]? = some (audio.getD (start + j) 0 * p.hann j len)) ∧
      (len ≤ j → j < len + m → f[j]? = some 0))
    ⟨h2, fun j hj => ⟨fun hl => h3 j (by omega), fun h5 h6 => absurd h6 (by omega)⟩⟩ (by
      intro i f hi ⟨q1, q2⟩
      refine ⟨f.set (len + i) 0, wr_some _ (by omega), by simpa using q1, ?_⟩
      intro j hj
      obtain ⟨q3, q4⟩ := q2 j hj
      refine ⟨fun hl => ?_, fun h5 h6 => ?_⟩
      · rw [List.getElem?_set_ne (by omega)]; exact q3 hl
      · by_cases hji : len + i = j
        · subst hji; rw [List.getElem?_set_self (by omega)]
        · rw [List.getElem?_set_ne hji]; exact q4 h5 (by omega))
  unfold fillFrame
  rw [bind_ok h1, g1]
  congr 1
  unfold beatFrame
  apply List.ext_getElem?
  intro j
  by_cases hj : j < p.frameSize
  · obtain ⟨q3, q4⟩ := g3 j hj
    rw [List.getElem?_map, List.getElem?_range hj]
    by_cases hl : j < len
    · rw [q3 hl]; simp [hl]
    · rw [q4 (by omega) (by omega)]; simp [hl]
  · rw [List.getElem?_eq_none (by omega), List.getElem?_eq_none (by simp; omega)]

theorem toSize_nonneg {x : K} (h : 0 ≤ x) : toSize x = some ⌊x⌋.toNat := by
  unfold toSize; rw [if_neg (not_lt.mpr h)]

theorem extent_ok (p : Finder K) (n : Nat) {b b' : K} (hb : 0 ≤ b) (hb' : 0 ≤ b') :
    extent p n b b' = some (startOf p b, stopOf p n b b' - startOf p b) := by
  have h1 : 0 ≤ b * (p.increment : K) / (p.factor : K) := div_nonneg (mul_nonneg hb (Nat.cast_nonneg _)) (Nat.cast_nonneg _)
  have h2 : 0 ≤ b' * (p.increment : K) / (p.factor : K) := div_nonneg (mul_nonneg hb' (Nat.cast_nonneg _)) (Nat.cast_nonneg _)
  unfold extent
  rw [bind_ok (toSize_nonneg h1), bind_ok (toSize_nonneg h2)]
  dsimp only
  unfold stopOf startOf
  generalize ⌊b * (p.increment : K) / (p.factor : K)⌋.toNat = s
  generalize ⌊b' * (p.increment : K) / (p.factor : K)⌋.toNat = e
  rw [if_neg (by split_ifs <;> omega)]
  show some _ = some _
  congr 2
  split_ifs <;> omega

theorem extent_inside (p : Finder K) {n : Nat} (hn : 0 < n) (b b' : K) :
    stopOf p n b b' - startOf p b = 0 ∨ startOf p b + (stopOf p n b b' - startOf p b) ≤ n := by
  unfold stopOf
  omega

/-! ## Spectral difference -/

omit [FloorRing K] [IsStrictOrderedRing K] in
theorem measureSpecDiff_ok (p : Finder K) (o n : List K) (hl : n.length = o.length)
    (ho : ∀ i, i < min 512 (o.length / 4) → normalised p.eps (min 512 (o.length / 4)) o i ≠ 0)
    (hn : ∀ i, i < min 512 (o.length / 4) → normalised p.eps (min 512 (o.length / 4)) n i ≠ 0) :
    measureSpecDiff p o n = some (divergence p.lg p.eps o n) := by
  have hsize : (if 512 > o.length / 4 then o.length / 4 else 512) = min 512 (o.length / 4) := by split_ifs <;> omega
  unfold measureSpecDiff divergence
  rw [hsize]
  set size := min 512 (o.length / 4) with hs
  have hle : size ≤ o.length := by omega
  obtain ⟨s, h1, ⟨h2, h3⟩, ⟨h4, h5⟩, h6, h7⟩ := loop_inv size (fun i (s : List K × List K × K × K) => do
      let n ← s.1[i]?
      let o ← s.2.1[i]?
      let ns ← wr s.1 i (n + p.eps)
      let os ← wr s.2.1 i (o + p.eps)
      pure (ns, os, s.2.2.1 + (n + p.eps), s.2.2.2 + (o + p.eps))) (n, o, 0, 0)
    (fun i s => Part o.length i (fun j => n.getD j 0 + p.eps) (fun j => n.getD j 0) s.1 ∧
      Part o.length i (fun j => o.getD j 0 + p.eps) (fun j => o.getD j 0) s.2.1 ∧
      s.2.2.1 = ∑ j ∈ range i, (n.getD j 0 + p.eps) ∧ s.2.2.2 = ∑ j ∈ range i, (o.getD j 0 + p.eps))
    ⟨(holds_of_length hl 0).part _, (holds_of_length rfl 0).part _, by simp, by simp⟩ (by
      rintro i ⟨ns, os, a, c⟩ hi ⟨q1, q2, q3, q4⟩
      dsimp only at q1 q2 q3 q4
      refine ⟨(ns.set i (n.getD i 0 + p.eps), os.set i (o.getD i 0 + p.eps), a + (n.getD i 0 + p.eps), c + (o.getD i 0 + p.eps)), ?_,
        q1.step (by omega), q2.step (by omega), ?_, ?_⟩
      · dsimp only
        rw [bind_ok (q1.get (by omega)), bind_ok (q2.get (by omega)), bind_ok (q1.wr (by omega)), bind_ok (q2.wr (by omega))]
        rfl
      · dsimp only; rw [sum_range_succ, q3]
      · dsimp only; rw [sum_range_succ, q4])
  rw [bind_ok h1]
  rw [loop_sum size _ (fun i => jsTerm p.lg (normalised p.eps size o i) (normalised p.eps size n i)) 0, zero_add]
  intro i acc hi
  dsimp only
  rw [bind_ok (h3 i (by omega)), bind_ok (h5 i (by omega)), if_pos hi, if_pos hi, h6, h7]
  have e1 : (n.getD i 0 + p.eps) / ∑ j ∈ range size, (n.getD j 0 + p.eps) = normalised p.eps size n i := rfl
  have e2 : (o.getD i 0 + p.eps) / ∑ j ∈ range size, (o.getD j 0 + p.eps) = normalised p.eps size o i := rfl
  rw [e1, e2, if_neg (hn i hi), if_neg (ho i hi)]
  show some _ = some _
  congr 1
  unfold jsTerm
  ring

omit [FloorRing K] in
theorem normalised_pos {eps : K} (heps : 0 < eps) {size : Nat} {xs : List K} (hx : ∀ x ∈ xs, 0 ≤ x) {i : Nat} (hi : i < size) :
    0 < normalised eps size xs i := by
  have h : ∀ j, 0 < xs.getD j 0 + eps := by
    intro j
    have : 0 ≤ xs.getD j 0 := by
      rw [List.getD_eq_getElem?_getD]
      cases hj : xs[j]? with
      | none => exact le_refl 0
      | some v => exact hx v (List.mem_of_getElem? hj)
    linarith
  unfold normalised
  exact div_pos (h i) (sum_pos (fun j _ => h j) ⟨i, mem_range.mpr hi⟩)

omit [FloorRing K] in
theorem normalised_sum {eps : K} (heps : 0 < eps) {size : Nat} {xs : List K} (hx : ∀ x ∈ xs, 0 ≤ x) (hs : 0 < size) :
    ∑ i ∈ range size, normalised eps size xs i = 1 := by
  have h := normalised_pos heps hx (i := 0) hs
  unfold normalised at h ⊢
  rw [← sum_div]
  refine div_self (fun h0 => ?_)
  rw [h0, div_zero] at h
  exact lt_irrefl 0 h

/-! ## Candidates -/

omit [LinearOrder K] [FloorRing K] [IsStrictOrderedRing K] in
theorem positions_step (ts b m : Nat) (hb : b < ts) : ∀ n, (n < b + (m + 1) * ts ∧ n ≠ 0 ∧ n % ts = b) ↔
    (n < b + m * ts ∧ n ≠ 0 ∧ n % ts = b) ∨ (n = b + m * ts ∧ n ≠ 0) := by
  intro n
  constructor
  · rintro ⟨h1, h2, h3⟩
    by_cases h : n < b + m * ts
    · exact Or.inl ⟨h, h2, h3⟩
    · refine Or.inr ⟨?_, h2⟩
      have hd := Nat.div_add_mod n ts
      rw [h3] at hd
      have e : (m + 1) * ts = m * ts + ts := by ring
      have hq1 : n / ts < m + 1 := by
        by_contra hc
        have := Nat.mul_le_mul_left ts (not_lt.mp hc)
        rw [Nat.mul_comm ts (m + 1)] at this
        omega
      have hq2 : m ≤ n / ts := by
        by_contra hc
        have := Nat.mul_le_mul_left ts (Nat.succ_le_of_lt (not_le.mp hc))
        have e2 : ts * (n / ts).succ = ts * (n / ts) + ts := by rw [Nat.mul_succ]
        rw [Nat.mul_comm ts m] at this
        omega
      have : n / ts = m := by omega
      rw [this, Nat.mul_comm] at hd
      omega
  · have e : (m + 1) * ts = m * ts + ts := by ring
    rintro (⟨h1, h2, h3⟩ | ⟨h1, h2⟩)
    · exact ⟨by omega, h2, h3⟩
    · refine ⟨by omega, h2, ?_⟩
      rw [h1, Nat.add_mul_mod_self_right, Nat.mod_eq_of_lt hb]

/-- The inner loop: the sum over the positions, and their number. -/
theorem gather_ok (ts : Nat) (sd : List K) (b : Nat) (hb : b < ts) (cand : List K) (hc : cand.length = ts) (h0 : cand[b]? = some 0) :
    loop ((sd.length + 1 - b + ts - 1) / ts) (fun m (s : List K × Nat) =>
      if b + m * ts = 0 then some s
      else do
        let v ← sd[b + m * ts - 1]?
        let c ← s.1[b]?
        let cand ← wr s.1 b (c + v / (ts : K))
        pure (cand, s.2 + 1)) (cand, 0) =
    some (cand.set b ((∑ n ∈ positions sd.length ts b, sd.getD (n - 1) 0) / (ts : K)), (positions sd.length ts b).card) := by
  set M := (sd.length + 1 - b + ts - 1) / ts with hM
  have hts : 0 < ts := by omega
  have hM1 : ∀ m, m < M → b + m * ts < sd.length + 1 := by
    intro m hm
    have := (Nat.le_div_iff_mul_le hts).mp (Nat.succ_le_of_lt hm)
    have e : m.succ * ts = m * ts + ts := Nat.succ_mul m ts
    omega
  have hM2 : sd.length + 1 ≤ b + M * ts := by
    have h1 := Nat.lt_mul_div_succ (sd.length + 1 - b + ts - 1) hts
    rw [← hM] at h1
    have e : ts * (M + 1) = M * ts + ts := by ring
    omega
  obtain ⟨s, h1, h2, h3⟩ := loop_inv M (fun m (s : List K × Nat) =>
      if b + m * ts = 0 then some s
      else do
        let v ← sd[b + m * ts - 1]?
        let c ← s.1[b]?
        let cand ← wr s.1 b (c + v / (ts : K))
        pure (cand, s.2 + 1)) (cand, 0)
    (fun m s => s.1 = cand.set b ((∑ n ∈ (range (b + m * ts)).filter (fun n => n ≠ 0 ∧ n % ts = b), sd.getD (n - 1) 0) / (ts : K)) ∧
      s.2 = ((range (b + m * ts)).filter (fun n => n ≠ 0 ∧ n % ts = b)).card)
    (by
      have he : (range (b + 0 * ts)).filter (fun n => n ≠ 0 ∧ n % ts = b) = ∅ := by
        apply filter_eq_empty_iff.mpr
        rintro n hn ⟨_, h⟩
        have := mem_range.mp hn
        have := Nat.mod_le n ts
        omega
      rw [he]
      refine ⟨?_, by simp⟩
      simp only [sum_empty, zero_div]
      apply List.ext_getElem?
      intro j
      by_cases hj : b = j
      · subst hj; rw [List.getElem?_set_self (by omega)]; exact h0
      · rw [List.getElem?_set_ne hj]) (by
      rintro m ⟨c, k⟩ hm ⟨q1, q2⟩
      dsimp only at q1 q2
      subst q1 q2
      have hstep := positions_step ts b m hb
      by_cases hz : b + m * ts = 0
      · refine ⟨_, by rw [if_pos hz], ?_⟩
        have he : (range (b + (m + 1) * ts)).filter (fun n => n ≠ 0 ∧ n % ts = b) = (range (b + m * ts)).filter (fun n => n ≠ 0 ∧ n % ts = b) := by
          ext n
          simp only [mem_filter, mem_range]
          rw [hstep n]
          constructor
          · rintro (h | h)
            · exact h
            · omega
          · exact Or.inl
        rw [he]
        exact ⟨rfl, rfl⟩
      · have he : (range (b + (m + 1) * ts)).filter (fun n => n ≠ 0 ∧ n % ts = b) =
            insert (b + m * ts) ((range (b + m * ts)).filter (fun n => n ≠ 0 ∧ n % ts = b)) := by
          ext n
          simp only [mem_filter, mem_range, mem_insert]
          rw [hstep n]
          constructor
          · rintro (h | h)
            · exact Or.inr h
            · exact Or.inl h.1
          · rintro (h | h)
            · exact Or.inr ⟨h, by omega⟩
            · exact Or.inl h
        have hnot : b + m * ts ∉ (range (b + m * ts)).filter (fun n => n ≠ 0 ∧ n % ts = b) := by
          simp
        rw [he, sum_insert hnot, card_insert_of_notMem hnot]
        have hlt := hM1 m hm
        refine ⟨(cand.set b ((sd.getD (b + m * ts - 1) 0 + ∑ n ∈ (range (b + m * ts)).filter (fun n => n ≠ 0 ∧ n % ts = b), sd.getD (n - 1) 0) / (ts : K)),
          ((range (b + m * ts)).filter (fun n => n ≠ 0 ∧ n % ts = b)).card + 1), ?_, rfl, rfl⟩
        · rw [if_neg hz, bind_ok (get_getD sd (b + m * ts - 1) 0 (by omega))]
          dsimp only
          rw [bind_ok (List.getElem?_set_self (by omega)), bind_ok (wr_some _ (by rw [List.length_set]; omega)), List.set_set]
          show some (_, _) = some (_, _)
          congr 3
          ring)
  have he : (range (b + M * ts)).filter (fun n => n ≠ 0 ∧ n % ts = b) = positions sd.length ts b := by
    unfold positions
    ext n
    simp only [mem_filter, mem_range]
    constructor
    · rintro ⟨a1, a2, a3⟩
      refine ⟨?_, a2, a3⟩
      have hd := Nat.div_add_mod n ts
      rw [a3] at hd
      have hq : n / ts < M := by
        by_contra hc
        have := Nat.mul_le_mul_left ts (not_lt.mp hc)
        rw [Nat.mul_comm ts M] at this
        omega
      have := hM1 _ hq
      rw [Nat.mul_comm] at this
      omega
    · rintro ⟨a1, a2, a3⟩
      exact ⟨by omega, a2, a3⟩
  rw [he] at h2 h3
  rw [h1]
  congr 1
  exact Prod.ext h2 h3

theorem candidates_ok (ts : Nat) (sd : List K) :
    ∃ cand, candidates ts sd = some cand ∧ Holds ts (fun b => meanChange sd ts b / (ts : K)) cand := by
    obtain ⟨cand, h1, h2⟩ := loop_inv ts (fun beat cand => do
      let s ← loop ((sd.length + 1 - beat + ts - 1) / ts) (fun m (s : List K × Nat) =>
        if beat + m * ts = 0 then some s
        else do
          let v ← sd[beat + m * ts - 1]?
          let c ← s.1[beat]?
          let cand ← wr s.1 beat (c + v / (ts : K))
          pure (cand, s.2 + 1)) (cand, 0)
      if s.2 > 0 then do
        let c ← s.1[beat]?
        wr s.1 beat (c / (s.2 : K))
      else some s.1) (List.replicate ts 0)
      (fun i c => Part ts i (fun b => meanChange sd ts b / (ts : K)) (fun _ => 0) c)
      ((holds_replicate ts (0 : K)).part _) (by
        intro i c hi hp
        refine ⟨_, ?_, hp.step hi⟩
        rw [bind_ok (gather_ok ts sd i hi c hp.1 (hp.get hi))]
        dsimp only
        have hset : i < (c.set i ((∑ n ∈ positions sd.length ts i, sd.getD (n - 1) 0) / (ts : K))).length := by rw [List.length_set, hp.1]; exact hi
        by_cases hk : (positions sd.length ts i).card > 0
        · rw [if_pos hk, bind_ok (List.getElem?_set_self (by rw [hp.1]; exact hi)), wr_some _ hset, List.set_set]
          congr 2
          unfold meanChange
          rw [div_right_comm]
        · rw [if_neg hk]
          have : positions sd.length ts i = ∅ := by
            rw [← card_eq_zero]; omega
          congr 2
          unfold meanChange
          rw [this]
          simp)
    unfold candidates
    exact ⟨cand, h1, h2.holds⟩

/-! ## The function -/

theorem spectrumOf_ok (p : Finder K) (audio beats : List K) (i : Nat) (hmag : ∀ f, (p.mag f).length = p.frameSize / 2) :
    ∃ s, spectrumOf p audio beats i = some s ∧ s.length = p.frameSize / 2 ∧ ∀ x ∈ s, 0 ≤ x := by
  unfold spectrumOf
  dsimp only
  obtain ⟨out, h1, h2, _⟩ := C07_adaptiveThreshold (p.mag (beatFrame p audio (startOf p (beats.getD i 0))
    (stopOf p audio.length (beats.getD i 0) (beats.getD (i + 1) 0) - startOf p (beats.getD i 0))))
  exact ⟨out, h1, h2.trans (hmag _), (C07_adaptiveThreshold_bounds _ _ h1).1⟩

/-- The values are the divergences of the spectra of successive beats. -/
def AreChanges (p : Finder K) (audio beats sd : List K) : Prop :=
  ∀ k, k < sd.length → ∃ o n, spectrumOf p audio beats k = some o ∧ spectrumOf p audio beats (k + 1) = some n ∧
    sd[k]? = some (divergence p.lg p.eps o n)

theorem beats_ok (p : Finder K) (frame audio beats : List K) (ha : audio ≠ []) (hb : ∀ b ∈ beats, 0 ≤ b)
    (hf : frame.length = p.frameSize) (hmag : ∀ f, (p.mag f).length = p.frameSize / 2) (heps : 0 < p.eps) :
    ∃ s, loop (beats.length - 1) (beatStep p audio beats) (frame, List.replicate (p.frameSize / 2) 0, []) = some s ∧
      s.2.2.length = beats.length - 2 ∧ AreChanges p audio beats s.2.2 := by
  obtain ⟨s, h1, h2, h3, h4, h5⟩ := loop_inv (beats.length - 1) (beatStep p audio beats)
    (frame, List.replicate (p.frameSize / 2) 0, [])
    (fun i s => s.1.length = p.frameSize ∧ (0 < i → spectrumOf p audio beats (i - 1) = some s.2.1) ∧ s.2.2.length = i - 1 ∧
      AreChanges p audio beats s.2.2)
    ⟨hf, fun h => absurd h (by omega), rfl, fun k hk => absurd hk (by simp)⟩ (by
      rintro i ⟨fr, old, sd⟩ hi ⟨q1, q2, q3, q4⟩
      dsimp only at q1 q2 q3 q4
      have e1 := get_getD beats i 0 (by omega)
      have e2 := get_getD beats (i + 1) 0 (by omega)
      have hn : 0 < audio.length := List.length_pos_of_ne_nil ha
      have hin := extent_inside p hn (beats.getD i 0) (beats.getD (i + 1) 0)
      obtain ⟨spec, hs1, hs2, hs3⟩ := spectrumOf_ok p audio beats i hmag
      have hs1' : adaptiveThreshold (p.mag (beatFrame p audio (startOf p (beats.getD i 0))
        (stopOf p audio.length (beats.getD i 0) (beats.getD (i + 1) 0) - startOf p (beats.getD i 0)))) = some spec := hs1
      have hstep : beatStep p audio beats i (fr, old, sd) = (if i > 0 then do
          let d ← measureSpecDiff p old spec
          pure (beatFrame p audio (startOf p (beats.getD i 0))
            (stopOf p audio.length (beats.getD i 0) (beats.getD (i + 1) 0) - startOf p (beats.getD i 0)), spec, sd ++ [d])
        else pure (beatFrame p audio (startOf p (beats.getD i 0))
            (stopOf p audio.length (beats.getD i 0) (beats.getD (i + 1) 0) - startOf p (beats.getD i 0)), spec, sd)) := by
        unfold beatStep
        rw [bind_ok e1, bind_ok e2, bind_ok (extent_ok p audio.length (hb _ (List.mem_of_getElem? e1)) (hb _ (List.mem_of_getElem? e2)))]
        dsimp only
        rw [bind_ok (fillFrame_ok p audio fr _ _ hin q1), bind_ok hs1']
      have hfl : ∀ a b, (beatFrame p audio a b).length = p.frameSize := fun a b => by simp [beatFrame]
      by_cases hi0 : i > 0
      · obtain ⟨o, ho1, ho2, ho3⟩ := spectrumOf_ok p audio beats (i - 1) hmag
        have : o = old := by rw [q2 hi0] at ho1; exact (Option.some.inj ho1).symm
        subst this
        refine ⟨(beatFrame p audio (startOf p (beats.getD i 0))
          (stopOf p audio.length (beats.getD i 0) (beats.getD (i + 1) 0) - startOf p (beats.getD i 0)), spec,
          sd ++ [divergence p.lg p.eps o spec]), ?_, hfl _ _, fun _ => hs1, by simp; omega, ?_⟩
        rotate_left
        · intro k hk
          rw [List.length_append, List.length_singleton] at hk
          dsimp only
          by_cases hlt : k < sd.length
          · rw [List.getElem?_append_left hlt]
            exact q4 k hlt
          · have hk' : k = sd.length := by omega
            subst hk'
            rw [List.getElem?_append_right (le_refl _), Nat.sub_self]
            refine ⟨o, spec, by rw [q3]; exact ho1, ?_, rfl⟩
            rw [q3, show i - 1 + 1 = i by omega]
            exact hs1
        · rw [hstep, if_pos hi0, bind_ok (measureSpecDiff_ok p o spec (hs2.trans ho2.symm)
            (fun j hj => (normalised_pos heps ho3 hj).ne') (fun j hj => (normalised_pos heps hs3 hj).ne'))]
          rfl
      · refine ⟨(beatFrame p audio (startOf p (beats.getD i 0))
          (stopOf p audio.length (beats.getD i 0) (beats.getD (i + 1) 0) - startOf p (beats.getD i 0)), spec, sd), by rw [hstep, if_neg hi0]; rfl, hfl _ _, fun _ => hs1, by dsimp only; omega, q4⟩)
  exact ⟨s, h1, by omega, h5⟩

omit [Field K] [LinearOrder K] [FloorRing K] [IsStrictOrderedRing K] in
theorem mem_spread {n ts d : Nat} (hd : d < ts) (k : Nat) : k ∈ spread n ts d ↔ k < n ∧ k % ts = d := by
  unfold spread
  have hts : 0 < ts := by omega
  rw [List.mem_map]
  constructor
  · rintro ⟨m, hm, rfl⟩
    rw [List.mem_range] at hm
    have := (Nat.le_div_iff_mul_le hts).mp (Nat.succ_le_of_lt hm)
    have e : m.succ * ts = m * ts + ts := Nat.succ_mul m ts
    refine ⟨by omega, ?_⟩
    rw [Nat.add_mul_mod_self_right, Nat.mod_eq_of_lt hd]
  · rintro ⟨h1, h2⟩
    have hdm := Nat.div_add_mod k ts
    rw [h2] at hdm
    refine ⟨k / ts, ?_, by rw [Nat.mul_comm]; omega⟩
    rw [List.mem_range]
    refine Nat.lt_of_succ_le ((Nat.le_div_iff_mul_le hts).mpr ?_)
    have e : (k / ts).succ * ts = ts * (k / ts) + ts := by rw [Nat.succ_mul, Nat.mul_comm]
    omega

omit [Field K] [LinearOrder K] [FloorRing K] [IsStrictOrderedRing K] in
theorem spread_sorted (n d : Nat) {ts : Nat} (h : 0 < ts) : (spread n ts d).Pairwise (· < ·) := by
  unfold spread
  refine List.Pairwise.map _ (R := (· < ·)) (fun a b hab => ?_) List.pairwise_lt_range
  have := Nat.mul_lt_mul_of_pos_right hab h
  omega

/-- **C39** For audio of any length, any beats at positions that are not negative, any size of frame and any number of beats per bar, 4
if 0 is given: the audio is read only where it has samples (otherwise the result would be `none`), the spectral changes are the
divergences of the spectra of successive beats, and the downbeats are, in ascending order, exactly the beats with index congruent to some
`d` modulo the length of the bar, where `d` is the first with the greatest mean change into its beats.

Full statement: and there is one spectral change for each beat less one. There is one for each beat less two (`C39_beatSD_count`). -/
theorem C39_downbeats_partial (p : Finder K) (frame audio beats : List K) (ha : audio ≠ []) (hb : ∀ b ∈ beats, 0 ≤ b)
    (hf : frame.length = p.frameSize) (hmag : ∀ f, (p.mag f).length = p.frameSize / 2) (heps : 0 < p.eps) (hbpb : 0 ≤ p.bpb) :
    ∃ db sd, findDownBeats p frame audio beats = some (db, sd) ∧ AreChanges p audio beats sd ∧ sd.length = beats.length - 2 ∧
      ∃ ts d : Nat, (ts : Int) = (if p.bpb = 0 then 4 else p.bpb) ∧ d < ts ∧ db.Pairwise (· < ·) ∧
        (∀ n, n ∈ db ↔ n < beats.length ∧ n % ts = d) ∧
        (∀ e, e < ts → meanChange sd ts e ≤ meanChange sd ts d) ∧ ∀ e, e < d → meanChange sd ts e < meanChange sd ts d := by
  obtain ⟨s, h1, h2, h3⟩ := beats_ok p frame audio beats ha hb hf hmag heps
  obtain ⟨ts, hts⟩ : ∃ ts : Nat, (ts : Int) = (if p.bpb = 0 then 4 else p.bpb) :=
    ⟨(if p.bpb = 0 then 4 else p.bpb).toNat, Int.toNat_of_nonneg (by split_ifs <;> omega)⟩
  have hpos : 0 < ts := by
    have : (0 : Int) < ts := by rw [hts]; split_ifs <;> omega
    omega
  obtain ⟨cand, c1, c2⟩ := candidates_ok ts s.2.2
  have hne : cand ≠ [] := by
    intro h
    have := c2.1
    rw [h] at this
    simp at this
    omega
  obtain ⟨d, m, g1, g2, g3, g4⟩ := (C04_getMax cand).2 hne
  have hd : d < ts := by have := lt_of_getElem?_some g2; rw [c2.1] at this; exact this
  have hm : m = meanChange s.2.2 ts d / (ts : K) := by
    have := c2.2 d hd
    rw [g2] at this
    exact Option.some.inj this
  have hK : (0 : K) < (ts : K) := by exact_mod_cast hpos
  refine ⟨spread beats.length ts d, s.2.2, ?_, h3, h2, ts, d, hts, hd, spread_sorted _ _ hpos, mem_spread hd, ?_, ?_⟩
  · unfold findDownBeats
    rw [if_neg (by simpa using ha), bind_ok h1]
    dsimp only
    rw [← hts, if_neg (by omega), Int.toNat_natCast, bind_ok c1, bind_ok g1]
    rfl
  · intro e he
    have := g3 _ (List.mem_of_getElem? (c2.2 e he))
    rw [hm] at this
    exact (div_le_div_iff_of_pos_right hK).mp this
  · intro e he
    have := g4 e _ he (c2.2 e (by omega))
    rw [hm] at this
    exact (div_lt_div_iff_of_pos_right hK).mp this

/-- **C39** Without audio no downbeats are reported, and no spectral changes. -/
theorem C39_no_audio (p : Finder K) (frame beats : List K) : findDownBeats p frame [] beats = some ([], []) := rfl

/-- **C39** What is documented about the number of spectral changes, one for each beat less one, does not hold, whatever the audio: with
two beats there is none. -/
theorem C39_beatSD_count (p : Finder K) (frame audio : List K) (b b' : K) (hb : 0 ≤ b) (hb' : 0 ≤ b')
    (hf : frame.length = p.frameSize) (hmag : ∀ f, (p.mag f).length = p.frameSize / 2) (heps : 0 < p.eps) (hbpb : 0 ≤ p.bpb) :
    ∃ db, findDownBeats p frame audio [b, b'] = some (db, []) := by
  by_cases ha : audio = []
  · subst ha; exact ⟨[], rfl⟩
  · obtain ⟨db, sd, h, _, hl, _⟩ := C39_downbeats_partial p frame audio [b, b'] ha (by simp [hb, hb']) hf hmag heps hbpb
    have : sd = [] := by simpa using hl
    subst this
    exact ⟨db, h⟩

/-! A concrete case: six beats, three beats per bar, frames of 16 samples, the "spectrum" being the first half of the frame. The change
is greatest into beat 2. -/

def demo : Finder ℚ where
  bpb := 3
  factor := 1
  increment := 2
  frameSize := 16
  hann := fun _ _ => 1
  mag := fun f => (List.range 8).map (fun i => f.getD i 0)
  eps := 1 / 1000
  lg := fun x => x - 1

def demoAudio : List ℚ := [9, 1, 9, 1, 1, 9, 1, 9, 1, 9, 1, 9, 1]

example : ∃ db sd, findDownBeats demo (List.replicate 16 0) demoAudio [0, 1, 2, 3, 4, 5] = some (db, sd) ∧ sd.length = 4 := by
  obtain ⟨db, sd, h, _, hl, _⟩ := C39_downbeats_partial demo (List.replicate 16 0) demoAudio [0, 1, 2, 3, 4, 5]
    (by simp [demoAudio]) (by intro b hb; fin_cases hb <;> norm_num) rfl (fun f => by simp [demo]) (by norm_num [demo]) (by decide)
  exact ⟨db, sd, h, hl⟩

example : (findDownBeats demo (List.replicate 16 0) demoAudio [0, 1, 2, 3, 4, 5]).map (·.1) = some [2, 5] := by decide +kernel

/-! ## C57: the divergence over the reals -/

section real

theorem jsTerm_nonneg {o n : ℝ} (ho : 0 < o) (hn : 0 < n) : 0 ≤ jsTerm Real.log o n := by
  have h := Real.convexOn_mul_log.2 (Set.mem_Ici.mpr ho.le) (Set.mem_Ici.mpr hn.le) (show (0 : ℝ) ≤ 1 / 2 by norm_num)
    (show (0 : ℝ) ≤ 1 / 2 by norm_num) (by norm_num)
  simp only [smul_eq_mul] at h
  unfold jsTerm
  linarith

theorem jsTerm_le {o n : ℝ} (ho : 0 < o) (hn : 0 < n) : jsTerm Real.log o n ≤ Real.log 2 * (1 / 2 * o + 1 / 2 * n) := by
  have h1 : Real.log o ≤ Real.log 2 + Real.log (1 / 2 * o + 1 / 2 * n) := by
    rw [← Real.log_mul (by norm_num) (by positivity)]
    exact Real.log_le_log ho (by linarith)
  have h2 : Real.log n ≤ Real.log 2 + Real.log (1 / 2 * o + 1 / 2 * n) := by
    rw [← Real.log_mul (by norm_num) (by positivity)]
    exact Real.log_le_log hn (by linarith)
  have h3 := mul_le_mul_of_nonneg_left h1 ho.le
  have h4 := mul_le_mul_of_nonneg_left h2 hn.le
  unfold jsTerm
  nlinarith

theorem jsTerm_eq_zero {o n : ℝ} (ho : 0 < o) (hn : 0 < n) (h : jsTerm Real.log o n = 0) : o = n := by
  by_contra hne
  have h1 := Real.strictConvexOn_mul_log.2 (Set.mem_Ici.mpr ho.le) (Set.mem_Ici.mpr hn.le) hne (show (0 : ℝ) < 1 / 2 by norm_num)
    (show (0 : ℝ) < 1 / 2 by norm_num) (by norm_num)
  simp only [smul_eq_mul] at h1
  unfold jsTerm at h
  linarith

/-- **C57** The spectral difference of any two spectra of the same size with no negative value, with the logarithm and any positive
`eps`, is between 0 and the logarithm of 2. -/
theorem C57_range (p : Finder ℝ) (hlg : p.lg = Real.log) (heps : 0 < p.eps) (o n : List ℝ) (hl : n.length = o.length)
    (ho : ∀ x ∈ o, 0 ≤ x) (hn : ∀ x ∈ n, 0 ≤ x) : ∃ d, measureSpecDiff p o n = some d ∧ 0 ≤ d ∧ d ≤ Real.log 2 := by
  refine ⟨_, measureSpecDiff_ok p o n hl (fun j hj => (normalised_pos heps ho hj).ne') (fun j hj => (normalised_pos heps hn hj).ne'), ?_, ?_⟩
  · unfold divergence
    rw [hlg]
    exact sum_nonneg (fun i hi => jsTerm_nonneg (normalised_pos heps ho (mem_range.mp hi)) (normalised_pos heps hn (mem_range.mp hi)))
  · unfold divergence
    rw [hlg]
    set size := min 512 (o.length / 4)
    by_cases hs : 0 < size
    · refine (sum_le_sum (fun i hi => jsTerm_le (normalised_pos heps ho (mem_range.mp hi)) (normalised_pos heps hn (mem_range.mp hi)))).trans ?_
      rw [← mul_sum, sum_add_distrib, ← mul_sum, ← mul_sum, normalised_sum heps ho hs, normalised_sum heps hn hs]
      norm_num
    · rw [show size = 0 by omega]
      simpa using Real.log_nonneg (by norm_num : (1 : ℝ) ≤ 2)

/-- **C57** It is zero exactly if the parts compared, once normalised, are the same; in particular for equal spectra. -/
theorem C57_zero (p : Finder ℝ) (hlg : p.lg = Real.log) (heps : 0 < p.eps) (o n : List ℝ) (hl : n.length = o.length)
    (ho : ∀ x ∈ o, 0 ≤ x) (hn : ∀ x ∈ n, 0 ≤ x) :
    measureSpecDiff p o n = some 0 ↔ ∀ i, i < min 512 (o.length / 4) →
      normalised p.eps (min 512 (o.length / 4)) o i = normalised p.eps (min 512 (o.length / 4)) n i := by
  rw [measureSpecDiff_ok p o n hl (fun j hj => (normalised_pos heps ho hj).ne') (fun j hj => (normalised_pos heps hn hj).ne')]
  unfold divergence
  rw [hlg]
  constructor
  · intro h i hi
    have h0 := (sum_eq_zero_iff_of_nonneg (fun i hi => jsTerm_nonneg (normalised_pos heps ho (mem_range.mp hi))
      (normalised_pos heps hn (mem_range.mp hi)))).mp (Option.some.inj h) i (mem_range.mpr hi)
    exact jsTerm_eq_zero (normalised_pos heps ho hi) (normalised_pos heps hn hi) h0
  · intro h
    congr 1
    refine sum_eq_zero (fun i hi => ?_)
    rw [h i (mem_range.mp hi)]
    unfold jsTerm
    ring_nf

/-- **C57** It is the same with the two spectra exchanged. -/
theorem C57_symmetric (p : Finder ℝ) (heps : 0 < p.eps) (o n : List ℝ) (hl : n.length = o.length)
    (ho : ∀ x ∈ o, 0 ≤ x) (hn : ∀ x ∈ n, 0 ≤ x) : measureSpecDiff p o n = measureSpecDiff p n o := by
  rw [measureSpecDiff_ok p o n hl (fun j hj => (normalised_pos heps ho hj).ne') (fun j hj => (normalised_pos heps hn hj).ne'),
    measureSpecDiff_ok p n o hl.symm (fun j hj => (normalised_pos heps hn hj).ne') (fun j hj => (normalised_pos heps ho hj).ne')]
  unfold divergence
  rw [hl]
  congr 1
  refine sum_congr rfl (fun i _ => ?_)
  unfold jsTerm
  ring_nf

/-- Two different spectra, so that the difference is positive and at most log 2. -/
noncomputable example : ∃ d, measureSpecDiff (K := ℝ) ⟨4, 1, 1, 16, fun _ _ => 1, id, 1 / 1000, Real.log⟩ [1, 0, 0, 0, 0, 0, 0, 0] [0, 1, 0, 0, 0, 0, 0, 0] =
    some d ∧ 0 ≤ d ∧ d ≤ Real.log 2 :=
  C57_range _ rfl (by norm_num) _ _ rfl (by intro x hx; fin_cases hx <;> norm_num)
    (by intro x hx; fin_cases hx <;> norm_num)

end real

end QM.DownBeat
