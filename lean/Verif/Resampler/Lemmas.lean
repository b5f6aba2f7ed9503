import Verif.Resampler.Spec
import Verif.MathInt.Props
import Verif.MathReal.Props
import Mathlib.Algebra.BigOperators.Intervals
import Mathlib.Tactic.LinearCombination
import Mathlib.Tactic.Ring
import Mathlib.Tactic.Linarith

namespace QM.Resampler

variable {R : Type} [CommRing R]

theorem cdiv_le_iff {a b k : Nat} (hb : 0 < b) : cdiv a b ≤ k ↔ a ≤ k * b := by
  unfold cdiv
  rw [← Nat.lt_succ_iff, Nat.div_lt_iff_lt_mul hb, Nat.succ_mul]; omega

theorem lt_cdiv_iff {a b k : Nat} (hb : 0 < b) : k < cdiv a b ↔ k * b < a := by
  rw [← not_le, cdiv_le_iff hb, not_le]

theorem cdiv_mul_right {a b g : Nat} (hb : 0 < b) (hg : 0 < g) :
    cdiv (a * g) (b * g) = cdiv a b := by
  apply eq_of_forall_ge_iff
  intro c
  rw [cdiv_le_iff (Nat.mul_pos hb hg), cdiv_le_iff hb, ← Nat.mul_assoc]
  exact Nat.mul_le_mul_right_iff hg

theorem wrapUp_spec (I : Nat) (hI : 0 < I) (x : Int) :
    0 ≤ wrapUp I x ∧ wrapUp I x % I = x % I := by
  induction h : (-x).toNat using Nat.strong_induction_on generalizing x with
  | _ n ih =>
    rw [wrapUp]
    split_ifs with hc
    · have := ih (-(x + I)).toNat (by omega) (x + I) rfl
      refine ⟨this.1, ?_⟩
      rw [this.2]; simp
    · refine ⟨by omega, rfl⟩

/-- The phase-table entry: the fields as closed forms. -/
theorem mkPhase_spec (I O : Nat) (hI : 0 < I) (f : List R) (p : Nat) (_hp : p < I) :
    ∃ pd, mkPhase I O f p = some pd ∧ pd.nextPhase < I ∧
      p + pd.drop * I = O + pd.nextPhase ∧
      pd.filter.length = cdiv (f.length - p) I ∧
      ∀ i, i < pd.filter.length → pd.filter[i]? = some (tap f (p + i * I)) := by
  have hm : ∀ i ∈ List.range (cdiv (f.length - p) I), f[i * I + p]? = some (tap f (p + i * I)) := by
    intro i hi
    rw [List.mem_range, lt_cdiv_iff hI] at hi
    have hlt : i * I + p < f.length := by omega
    have : (0 : Int) ≤ (p : Int) + i * I := by positivity
    have h2 : ((p : Int) + i * I).toNat = i * I + p := by
      have : ((p : Int) + i * I) = ((i * I + p : Nat) : Int) := by push_cast; ring
      rw [this, Int.toNat_natCast]
    rw [tap, if_pos this, h2, List.getElem?_eq_getElem hlt]
    simp [List.getD_eq_getElem?_getD, List.getElem?_eq_getElem hlt]
  have hmm := QM.MathReal.mapM_some _ _ _ hm
  refine ⟨⟨((wrapUp I ((p : Int) - O)).tmod I).toNat,
    (List.range (cdiv (f.length - p) I)).map (fun i : Nat => tap f (p + i * I)), cdiv (O - p) I⟩,
    by unfold mkPhase; simp only [Option.bind_eq_bind, hmm, Option.bind_some], ?_⟩
  obtain ⟨hw0, hw⟩ := wrapUp_spec I hI ((p : Int) - O)
  have htm : (wrapUp I ((p : Int) - O)).tmod I = ((p : Int) - O) % I := by
    rw [Int.tmod_eq_emod_of_nonneg hw0, hw]
  simp only [htm, List.length_map, List.length_range]
  have hIi : (0 : Int) < I := by exact_mod_cast hI
  have h1 := Int.emod_nonneg ((p : Int) - O) hIi.ne'
  have h2 := Int.emod_lt_of_pos ((p : Int) - O) hIi
  refine ⟨by omega, ?_, trivial, ?_⟩
  · have h3 := Int.mul_ediv_add_emod ((p : Int) - O) I
    set q := ((p : Int) - O) / I
    set r := ((p : Int) - O) % I
    -- drop = -q
    have hq : (cdiv (O - p) I : Int) = if p < O then -q else 0 := by
      split_ifs with hpo
      · have hqneg : q < 0 := by
          by_contra hge
          have : 0 ≤ (I : Int) * q := by apply mul_nonneg <;> omega
          omega
        have : cdiv (O - p) I = (-q).toNat := by
          apply eq_of_forall_ge_iff
          intro c
          rw [cdiv_le_iff hI]
          constructor
          · intro hle
            by_contra hlt
            have hlt' : (c : Int) + 1 ≤ -q := by omega
            have := mul_le_mul_of_nonneg_left hlt' hIi.le
            have h4 : (O : Int) - p ≤ c * I := by
              have : ((O - p : Nat) : Int) ≤ ((c * I : Nat) : Int) := by exact_mod_cast hle
              push_cast [Nat.cast_sub hpo.le] at this; exact this
            nlinarith
          · intro hle
            have hle' : -q ≤ (c : Int) := by omega
            have := mul_le_mul_of_nonneg_left hle' hIi.le
            have h4 : ((O - p : Nat) : Int) ≤ ((c * I : Nat) : Int) := by
              push_cast [Nat.cast_sub hpo.le]; nlinarith
            exact_mod_cast h4
        rw [this]; omega
      · have : O - p = 0 := by omega
        rw [this]
        have : cdiv 0 I = 0 := by unfold cdiv; apply Nat.div_eq_of_lt; omega
        rw [this]; rfl
    have hr : (r.toNat : Int) = r := Int.toNat_of_nonneg h1
    have goal : (p : Int) + cdiv (O - p) I * I = O + r.toNat := by
      rw [hq, hr]
      split_ifs with hpo
      · linear_combination -h3
      · have hq0 : q = 0 := by
          apply Int.ediv_eq_zero_of_lt <;> omega
        rw [hq0] at h3; linear_combination -h3
    exact_mod_cast goal
  · intro i hi
    simp [hi]

/-- Prefilled input: `fill` zeros and then the input stream. -/
def xhat (fill : Nat) (x : Nat → R) (B : Nat) : R := if B < fill then 0 else x (B - fill)

/-- The virtual position of the first input sample. -/
def c0 (O : Nat) (L : Nat) : Nat := L / 2 + cdiv (L - L / 2) O * O

theorem c0_ge (O L : Nat) (hO : 0 < O) : L ≤ c0 O L := by
  have := (cdiv_le_iff (a := L - L/2) hO).1 le_rfl
  unfold c0; omega

/-- Number of output samples computable from `N` input samples. -/
def avail (I O L N : Nat) : Nat := (c0 O L + N * I - L) / O + 1

/-- Invariant of the object after `k` outputs with `N` inputs consumed; `D` samples of the prefilled
input have been discarded from the buffer. -/
structure Inv (I O : Nat) (f : List R) (x : Nat → R) (s : State R) (N k D : Nat) : Prop where
  table : (List.range I).mapM (mkPhase I O f) = some s.phaseData
  phase_lt : s.phase < I
  pos : (D + s.bufferOrigin) * I + c0 O f.length = k * O + s.phase + (c0 O f.length / I) * I
  size : D + s.buffer.length = c0 O f.length / I + N
  content : ∀ i, i < s.buffer.length → s.buffer[i]? = some (xhat (c0 O f.length / I) x (D + i))

theorem sum_ext_zero (F : Nat → R) (a b : Nat) (ha : ∀ B, a ≤ B → F B = 0) (hb : ∀ B, b ≤ B → F B = 0) :
    ∑ B ∈ Finset.range a, F B = ∑ B ∈ Finset.range b, F B := by
  rcases le_total a b with h | h
  · apply Finset.sum_subset (Finset.range_mono h)
    intro B _ hB; exact ha B (by simpa using hB)
  · symm
    apply Finset.sum_subset (Finset.range_mono h)
    intro B _ hB; exact hb B (by simpa using hB)

theorem tap_ge (f : List R) (t : Int) (h : (f.length : Int) ≤ t) : tap f t = 0 := by
  unfold tap
  rw [if_pos (by omega), List.getD_eq_getElem?_getD, List.getElem?_eq_none (by omega)]; rfl

theorem tap_neg (f : List R) (t : Int) (h : t < 0) : tap f t = 0 := by
  unfold tap; rw [if_neg (by omega)]

theorem table_get (I O : Nat) (hI : 0 < I) (f : List R) (tb : List (Phase R))
    (h : (List.range I).mapM (mkPhase I O f) = some tb) (p : Nat) (hp : p < I) :
    ∃ pd, tb[p]? = some pd ∧ mkPhase I O f p = some pd := by
  have hm : ∀ i ∈ List.range I, mkPhase I O f i = some ((mkPhase I O f i).getD ⟨0, [], 0⟩) := by
    intro i hi
    obtain ⟨pd, e, _⟩ := mkPhase_spec I O hI f i (List.mem_range.1 hi)
    rw [e]; rfl
  have := QM.MathReal.mapM_some _ _ _ hm
  rw [this] at h
  obtain ⟨pd, e, _⟩ := mkPhase_spec I O hI f p hp
  refine ⟨pd, ?_, e⟩
  rw [← Option.some.inj h]
  simp [hp, e]

variable {I O : Nat} {f : List R} {x : Nat → R} {s : State R} {N k D : Nat}

theorem Inv.get (h : Inv I O f x s N k D) (hI : 0 < I) :
    ∃ pd, s.phaseData[s.phase]? = some pd ∧ pd.nextPhase < I ∧
      s.phase + pd.drop * I = O + pd.nextPhase ∧
      pd.filter.length = cdiv (f.length - s.phase) I ∧
      ∀ i, i < pd.filter.length → pd.filter[i]? = some (tap f (s.phase + i * I)) := by
  obtain ⟨pd, e1, e2⟩ := table_get I O hI f _ h.table s.phase h.phase_lt
  obtain ⟨pd', e3, r⟩ := mkPhase_spec I O hI f s.phase h.phase_lt
  rw [e2] at e3; cases e3
  exact ⟨pd, e1, r⟩

theorem lt_avail_iff (hO : 0 < O) (L : Nat) :
    k < avail I O L N ↔ k * O + L ≤ c0 O L + N * I := by
  unfold avail
  have := c0_ge O L hO
  rw [Nat.lt_succ_iff, Nat.le_div_iff_mul_le hO]; omega

/-- The loop guard says exactly that the next output is computable. -/
theorem Inv.guard (h : Inv I O f x s N k D) (hI : 0 < I) (hO : 0 < O) :
    (s.buffer.length ≥ cdiv (f.length - s.phase) I + s.bufferOrigin) ↔ k < avail I O f.length N := by
  rw [lt_avail_iff hO]
  have hp := h.phase_lt
  have hpos := h.pos
  have hsz := h.size
  by_cases hg : s.bufferOrigin ≤ s.buffer.length
  · obtain ⟨d, hd⟩ := Nat.exists_eq_add_of_le hg
    have h1 : cdiv (f.length - s.phase) I + s.bufferOrigin ≤ s.buffer.length ↔
        cdiv (f.length - s.phase) I ≤ d := by omega
    rw [ge_iff_le, h1, cdiv_le_iff hI]
    have h2 : (D + s.bufferOrigin) * I + d * I = (c0 O f.length / I) * I + N * I := by
      rw [← Nat.add_mul, ← Nat.add_mul]; congr 1; omega
    omega
  · constructor
    · intro hh; omega
    · intro hh
      exfalso
      obtain ⟨d, hd⟩ := Nat.exists_eq_add_of_lt (not_le.1 hg)
      have h2 : (D + s.bufferOrigin) * I = (c0 O f.length / I) * I + N * I + d * I + I := by
        have : D + s.bufferOrigin = c0 O f.length / I + N + d + 1 := by omega
        rw [this]; ring
      omega

theorem Inv.step (h : Inv I O f x s N k D) (hI : 0 < I) (hO : 0 < O)
    (hk : k < avail I O f.length N) :
    ∃ s' v, reconstructOne s = .ok (s', v) ∧ Inv I O f x s' N (k + 1) D ∧
      s'.scale = s.scale ∧ s'.sourceRate = s.sourceRate ∧ s'.targetRate = s.targetRate ∧
      s'.latency = s.latency ∧
      ∀ c, c * v = streamAt I O f c (cdiv (f.length - f.length / 2) O) x k := by
  obtain ⟨pd, e1, hnp, hdrop, hlen, hfil⟩ := h.get hI
  have hg := (h.guard hI hO).2 hk
  rw [← hlen] at hg
  set p := s.phase with hpdef
  have hpos := h.pos
  have hsz := h.size
  obtain ⟨v, ev, hv⟩ := loop_inv (n := pd.filter.length) (s := (0 : R))
    (f := fun i v => do
          let x ← s.buffer[s.bufferOrigin + i]?
          let f ← pd.filter[i]?
          some (v + x * f))
    (P := fun i v => v = ∑ j ∈ Finset.range i,
      xhat (c0 O f.length / I) x (D + s.bufferOrigin + j) * tap f (p + j * I))
    (by simp) (by
      intro i v hi hv
      refine ⟨v + xhat (c0 O f.length / I) x (D + s.bufferOrigin + i) * tap f (p + i * I), ?_, ?_⟩
      · rw [h.content _ (by omega), hfil i hi]
        simp [Nat.add_assoc]
      · rw [Finset.sum_range_succ, ← hv])
  refine ⟨{ s with bufferOrigin := s.bufferOrigin + pd.drop, phase := pd.nextPhase }, v, ?_, ?_,
    rfl, rfl, rfl, rfl, ?_⟩
  · unfold reconstructOne
    rw [← hpdef, e1]
    dsimp only
    rw [if_neg (by omega), ev]
  · refine ⟨h.table, hnp, ?_, hsz, h.content⟩
    dsimp only
    have : (D + (s.bufferOrigin + pd.drop)) * I = (D + s.bufferOrigin) * I + pd.drop * I := by ring
    rw [this, Nat.succ_mul]
    omega
  · intro c
    unfold streamAt outAt
    congr 1
    rw [hv]
    set G := D + s.bufferOrigin
    set fill := c0 O f.length / I
    let F : Nat → R := fun B => xhat fill x B * tap f ((p : Int) + ((B : Int) - G) * I)
    have hposZ : (G : Int) * I + c0 O f.length = k * O + p + fill * I := by exact_mod_cast hpos
    have hlow : ∀ B, B < G → F B = 0 := by
      intro B hB
      have hp := h.phase_lt
      have h1 : ((B : Int) - G) ≤ -1 := by omega
      have h2 : ((B : Int) - G) * I ≤ -1 * I := mul_le_mul_of_nonneg_right h1 (by omega)
      show _ * tap f _ = 0
      rw [tap_neg f _ (by omega), mul_zero]
    have hhigh : ∀ B, G + pd.filter.length ≤ B → F B = 0 := by
      intro B hB
      have h0 := (cdiv_le_iff (a := f.length - p) hI).1 hlen.ge
      have h1 : (pd.filter.length : Int) ≤ (B : Int) - G := by omega
      have h2 := mul_le_mul_of_nonneg_right h1 (by omega : (0 : Int) ≤ I)
      have h3 : ((f.length - p : Nat) : Int) ≤ pd.filter.length * I := by exact_mod_cast h0
      show _ * tap f _ = 0
      rw [tap_ge f _ (by omega), mul_zero]
    have e1 : ∑ j ∈ Finset.range pd.filter.length, xhat fill x (G + j) * tap f (p + j * I) =
        ∑ B ∈ Finset.range (G + pd.filter.length), F B := by
      rw [Finset.sum_range_add, Finset.sum_eq_zero (s := Finset.range G)
        (fun B hB => hlow B (Finset.mem_range.1 hB)), zero_add]
      apply Finset.sum_congr rfl
      intro j _
      show _ = _ * _
      congr 2
      push_cast; ring
    rw [e1, sum_ext_zero F _ (fill + (k * O + f.length)) hhigh, Finset.sum_range_add,
      Finset.sum_eq_zero (s := Finset.range fill), zero_add]
    · apply Finset.sum_congr rfl
      intro m _
      show xhat fill x (fill + m) * _ = _
      have hx : xhat fill x (fill + m) = x m := by simp [xhat]
      rw [hx]
      congr 2
      have hc : (c0 O f.length : Int) = (f.length / 2 : Nat) + cdiv (f.length - f.length / 2) O * O := by
        unfold c0; push_cast; rfl
      push_cast at hc ⊢
      linear_combination hc - hposZ
    · intro B hB
      have := Finset.mem_range.1 hB
      show xhat fill x B * _ = 0
      simp [xhat, this]
    · intro B hB
      show _ * tap f _ = 0
      rw [tap_ge f _ ?_, mul_zero]
      obtain ⟨d, rfl⟩ := Nat.exists_eq_add_of_le hB
      have hI1 : (1 : Int) ≤ I := by omega
      have hnn : (0 : Int) ≤ (k * O + f.length + d : Nat) := by omega
      have h1 := mul_le_mul_of_nonneg_left hI1 hnn
      push_cast at h1 ⊢
      have h2 : (0 : Int) ≤ d := by omega
      have h3 : (0 : Int) ≤ c0 O f.length := by omega
      linarith

theorem Inv.outLoop (hI : 0 < I) (hO : 0 < O) (b : Nat) :
    ∀ {s : State R} {k : Nat}, Inv I O f x s N k D → k ≤ avail I O f.length N →
    ∃ s' out, outLoop s b = .ok (s', out) ∧
      out.length = min b (avail I O f.length N - k) ∧ Inv I O f x s' N (k + out.length) D ∧
      s'.scale = s.scale ∧ s'.sourceRate = s.sourceRate ∧ s'.targetRate = s.targetRate ∧
      s'.latency = s.latency ∧
      (∀ i, i < out.length → out[i]? =
        some (streamAt I O f s.scale (cdiv (f.length - f.length / 2) O) x (k + i))) := by
  induction b with
  | zero => intro s k h _; exact ⟨s, [], rfl, by simp, by simpa using h, rfl, rfl, rfl, rfl, by simp⟩
  | succ b ih =>
    intro s k h hk
    obtain ⟨pd, e1, hnp, hdrop, hlen, hfil⟩ := h.get hI
    have hg := h.guard hI hO
    rw [← hlen] at hg
    by_cases hlt : k < avail I O f.length N
    · obtain ⟨s1, v, r1, i1, q1, q2, q3, q4, hv⟩ := h.step hI hO hlt
      obtain ⟨s2, out, r2, l2, i2, q5, q6, q7, q8, hc⟩ := ih i1 hlt
      refine ⟨s2, s1.scale * v :: out, ?_, ?_, ?_, by rw [q5, q1], by rw [q6, q2], by rw [q7, q3],
        by rw [q8, q4], ?_⟩
      · rw [Resampler.outLoop, e1]
        dsimp only
        rw [if_pos (hg.2 hlt), r1]
        dsimp only
        rw [r2]
      · simp only [List.length_cons]; omega
      · have : k + (s1.scale * v :: out).length = k + 1 + out.length := by simp; omega
        rw [this]; exact i2
      · intro i hi
        cases i with
        | zero => simp [hv, q1]
        | succ i =>
          simp only [List.length_cons] at hi
          rw [List.getElem?_cons_succ, hc i (by omega), q1]
          congr 2; omega
    · refine ⟨s, [], ?_, by simp; omega, by simpa using h, rfl, rfl, rfl, rfl, by simp⟩
      rw [Resampler.outLoop, e1]
      dsimp only
      rw [if_neg (fun hh => hlt (hg.1 hh))]

theorem avail_mono {N M : Nat} (h : N ≤ M) (L : Nat) : avail I O L N ≤ avail I O L M := by
  unfold avail
  apply Nat.succ_le_succ
  apply Nat.div_le_div_right
  have := Nat.mul_le_mul_right I h
  omega

/-- Between two calls: the buffer starts at its origin. -/
structure Ready (I O g : Nat) (f : List R) (scale : R) (x : Nat → R) (s : State R) (N k : Nat) :
    Prop where
  inv : ∃ D, Inv I O f x s N k D
  origin : s.bufferOrigin = 0
  le : k ≤ avail I O f.length N
  src : s.sourceRate = O * g
  tgt : s.targetRate = I * g
  lat : s.latency = cdiv (f.length - f.length / 2) O
  scl : s.scale = scale

theorem Ready.process {g : Nat} {scale : R} (h : Ready I O g f scale x s N k) (hI : 0 < I) (hO : 0 < O)
    (hg : 0 < g) (hL : O ≤ f.length) (src : List R)
    (hsrc : ∀ i, i < src.length → src[i]? = some (x (N + i))) :
    ∃ s' out, process s src = .ok (s', out) ∧
      out.length = min (cdiv (src.length * I) O) (avail I O f.length (N + src.length) - k) ∧
      Ready I O g f scale x s' (N + src.length) (k + out.length) ∧
      (∀ i, i < out.length → out[i]? =
        some (streamAt I O f scale (cdiv (f.length - f.length / 2) O) x (k + i))) := by
  obtain ⟨D, hi⟩ := h.inv
  have hi1 : Inv I O f x { s with buffer := s.buffer ++ src } (N + src.length) k D := by
    refine ⟨hi.table, hi.phase_lt, hi.pos, ?_, ?_⟩
    · have := hi.size; simp only [List.length_append]; omega
    · intro i hil
      simp only [List.length_append] at hil
      by_cases hb : i < s.buffer.length
      · simp only [List.getElem?_append_left hb]; exact hi.content i hb
      · simp only [List.getElem?_append_right (not_lt.1 hb)]
        rw [hsrc _ (by omega)]
        have := hi.size
        unfold xhat
        rw [if_neg (by omega)]
        congr 2; omega
  have hk2 : k ≤ avail I O f.length (N + src.length) := h.le.trans (avail_mono (by omega) _)
  obtain ⟨s2, out, r2, l2, i2, q1, q2, q3, q4, hc⟩ :=
    hi1.outLoop hI hO (cdiv (src.length * I) O) hk2
  dsimp only at q1 q2 q3 q4 hc
  have hmax : cdiv (src.length * s.targetRate) s.sourceRate = cdiv (src.length * I) O := by
    rw [h.src, h.tgt, ← Nat.mul_assoc, cdiv_mul_right hO hg]
  have hor : s2.bufferOrigin ≤ s2.buffer.length := by
    have hpos := i2.pos
    have hsz := i2.size
    have hp := i2.phase_lt
    have hkO : (k + out.length) * O ≤ c0 O f.length + (N + src.length) * I := by
      rcases Nat.eq_zero_or_pos (k + out.length) with h0 | h0
      · rw [h0]; omega
      · have hlt : k + out.length - 1 < avail I O f.length (N + src.length) := by omega
        rw [lt_avail_iff hO] at hlt
        have : (k + out.length) * O = (k + out.length - 1) * O + O := by
          conv_lhs => rw [← Nat.sub_add_cancel h0]
          rw [Nat.add_mul, Nat.one_mul]
        omega
    by_contra hgt
    obtain ⟨d, hd⟩ := Nat.exists_eq_add_of_lt (not_le.1 hgt)
    have h2 : (D + s2.bufferOrigin) * I =
        (c0 O f.length / I) * I + (N + src.length) * I + d * I + I := by
      have : D + s2.bufferOrigin = c0 O f.length / I + (N + src.length) + d + 1 := by omega
      rw [this]; ring
    omega
  refine ⟨{ s2 with buffer := s2.buffer.drop s2.bufferOrigin, bufferOrigin := 0 }, out, ?_, l2, ?_, ?_⟩
  · unfold Resampler.process
    dsimp only
    rw [hmax, r2]
    dsimp only
    rw [if_neg (by omega)]
  · refine ⟨⟨D + s2.bufferOrigin, ⟨i2.table, i2.phase_lt, i2.pos, ?_, ?_⟩⟩, rfl, by omega,
      by dsimp only; rw [q2, h.src], by dsimp only; rw [q3, h.tgt], by dsimp only; rw [q4, h.lat],
      by dsimp only; rw [q1, h.scl]⟩
    · have := i2.size; simp only [List.length_drop]; omega
    · intro i hil
      simp only [List.length_drop] at hil
      simp only [List.getElem?_drop]
      rw [i2.content _ (by omega)]
      congr 2; omega
  · intro i hil
    rw [hc i hil, h.scl]

theorem new_spec (S T : Nat) (hS : 0 < S) (hT : 0 < T) (f : List R) (scale : R) (x : Nat → R) :
    ∃ s, new S T f scale = some s ∧
      Ready (T / Nat.gcd S T) (S / Nat.gcd S T) (Nat.gcd S T) f scale x s 0 0 := by
  have hg : 0 < Nat.gcd S T := Nat.gcd_pos_of_pos_left _ hS
  have hI : 0 < T / Nat.gcd S T := Nat.div_pos (Nat.le_of_dvd hT (Nat.gcd_dvd_right _ _)) hg
  have hO : 0 < S / Nat.gcd S T := Nat.div_pos (Nat.le_of_dvd hS (Nat.gcd_dvd_left _ _)) hg
  have hgcd : QM.MathInt.gcd (min S T) (max S T) = some (Nat.gcd S T) := by
    rw [QM.MathInt.C02_gcd_correct _ _ (by omega)]
    rcases le_total S T with h | h
    · rw [min_eq_left h, max_eq_right h]
    · rw [min_eq_right h, max_eq_left h, Nat.gcd_comm]
  set g := Nat.gcd S T
  set I := T / g
  set O := S / g
  have hm : ∀ i ∈ List.range I, mkPhase I O f i = some ((mkPhase I O f i).getD ⟨0, [], 0⟩) := by
    intro i hi
    obtain ⟨pd, e, _⟩ := mkPhase_spec I O hI f i (List.mem_range.1 hi)
    rw [e]; rfl
  obtain ⟨tb, htab⟩ : ∃ tb, (List.range I).mapM (mkPhase I O f) = some tb :=
    ⟨_, QM.MathReal.mapM_some _ _ _ hm⟩
  refine ⟨⟨S, T, scale, cdiv (f.length - f.length / 2) O, tb, c0 O f.length % I,
    List.replicate (c0 O f.length / I) 0, 0⟩, ?_, ?_⟩
  · unfold new
    simp only [Option.bind_eq_bind, hgcd, Option.bind_some]
    rw [if_neg (by omega)]
    simp only [show T / g = I from rfl, show S / g = O from rfl, htab, Option.bind_some]
    rw [if_neg (by omega)]
    rfl
  · refine ⟨⟨0, htab, Nat.mod_lt _ hI, ?_, by simp, ?_⟩, rfl, Nat.zero_le _, ?_, ?_, rfl, rfl⟩
    · have := Nat.mod_add_div (c0 O f.length) I
      dsimp only
      rw [Nat.mul_comm (c0 O f.length / I)]; omega
    · intro i hi
      simp only [List.length_replicate] at hi
      simp [List.getElem?_replicate, hi, xhat]
    · exact (Nat.div_mul_cancel (Nat.gcd_dvd_left S T)).symm
    · exact (Nat.div_mul_cancel (Nat.gcd_dvd_right S T)).symm

end QM.Resampler
