import Verif.DetectionFunction.Model
import Verif.PhaseVocoder.Props
import Verif.Window.Props
import Verif.Common.Part

namespace QM.DetectionFunction

open QM.MathReal QM.PhaseVocoder

noncomputable def magHist (c : Config) (zs : List (Nat → ℂ)) (k : Nat) : ℝ :=
  match c.ty with
  | .specDiff => mag c k zs
  | .complexSD => mag c k zs
  | .broadband => mag c k zs * mag c k zs
  | _ => 0

noncomputable def phaseHist (c : Config) (zs : List (Nat → ℂ)) (k : Nat) : ℝ :=
  match c.ty with
  | .phaseDev => phase k zs
  | .complexSD => phase k zs
  | _ => 0

structure Ok (c : Config) (zs : List (Nat → ℂ)) (d : DF) : Prop where
  cfg : d.c = c
  half : d.half = c.frame / 2 + 1
  relax : d.relaxCoeff = c.relax
  floor : d.floorCoeff = c.floorVal
  pv : ∃ prev, PhaseVocoder.Ok c.frame c.step d.pv prev
  mlen : d.magnitude.length = c.frame / 2 + 1
  tlen : d.theta.length = c.frame / 2 + 1
  ulen : d.unwrapped.length = c.frame / 2 + 1
  win : Holds c.frame (Window.shape .hanning c.frame) d.window
  wlen : d.windowed.length = c.frame
  mh : Holds (c.frame / 2 + 1) (magHist c zs) d.magHistory
  ph : Holds (c.frame / 2 + 1) (phaseHist c zs) d.phaseHistory
  po : Holds (c.frame / 2 + 1) (phaseHist c zs.tail) d.phaseHistoryOld
  pk : Holds (c.frame / 2 + 1) (fun k => if c.whiten then peak c k zs else 0) d.magPeaks

theorem magHist_nil (c : Config) (k : Nat) : magHist c [] k = 0 := by
  unfold magHist; split <;> simp [mag]

theorem phaseHist_nil (c : Config) (k : Nat) : phaseHist c [] k = 0 := by
  unfold phaseHist; split <;> simp [phase]

theorem make_ok (c : Config) (h0 : c.frame % 2 = 0) (h1 : 2 ≤ c.frame) (h2 : c.frame ≤ 2147483647) (u : ℂ) (v : ℝ) :
    ∃ d, make c u v = some d ∧ Ok c [] d := by
  obtain ⟨pv, a1, a2⟩ := PhaseVocoder.make_ok h0 h1 h2 c.step u v
  obtain ⟨w, b1, b2, b3⟩ := Window.encache_ok .hanning c.frame
  refine ⟨_, by unfold make; simp only [a1, b1, Option.bind_eq_bind, Option.bind_some]; rfl, ?_⟩
  exact ⟨rfl, rfl, rfl, rfl, ⟨_, a2⟩, by simp, by simp, by simp, ⟨b2, b3⟩, by simp,
    (holds_replicate _ _).congr fun j _ => (magHist_nil c j).symm,
    (holds_replicate _ _).congr fun j _ => (phaseHist_nil c j).symm,
    (holds_replicate _ _).congr fun j _ => (phaseHist_nil c j).symm,
    (holds_replicate _ _).congr fun j _ => by simp [peak]⟩

theorem clamp (m f : ℝ) : f ≤ (if m < f then f else m) ∧ m ≤ (if m < f then f else m) := by
  by_cases h : m < f
  · rw [if_pos h]; exact ⟨le_refl _, le_of_lt h⟩
  · rw [if_neg h]; exact ⟨not_lt.mp h, le_refl _⟩

theorem peak_ge (c : Config) (k : Nat) (z : Nat → ℂ) (zs : List (Nat → ℂ)) : c.floorVal ≤ peak c k (z :: zs) := by
  rw [peak]; exact (clamp _ _).1

theorem relax_nonneg (c : Config) : 0 ≤ c.relax := by
  unfold Config.relax; split
  · norm_num
  · exact not_lt.mp ‹_›

theorem norm_le_peak (c : Config) (k : Nat) (z : Nat → ℂ) (zs : List (Nat → ℂ)) : ‖z k‖ ≤ peak c k (z :: zs) := by
  have h : ‖z k‖ ≤ (if ‖z k‖ < peak c k zs then ‖z k‖ + (peak c k zs - ‖z k‖) * c.relax else ‖z k‖) := by
    split
    · have := mul_nonneg (sub_nonneg.mpr (le_of_lt ‹‖z k‖ < peak c k zs›)) (relax_nonneg c)
      linarith
    · exact le_refl _
  rw [peak]; exact le_trans h (clamp _ _).2

theorem whiten_ok {c : Config} {relax floor : ℝ} {peaks mags : List ℝ} {L : Nat} (z : Nat → ℂ) (zs : List (Nat → ℂ))
    (hr : relax = c.relax) (hf : floor = c.floorVal)
    (hp : Holds L (fun k => peak c k zs) peaks) (hm : Holds L (fun k => ‖z k‖) mags) (h0 : 0 < c.floorVal) :
    ∃ peaks' mags', loop L (whitenBody relax floor) (peaks, mags) = some (peaks', mags') ∧
      Holds L (fun k => peak c k (z :: zs)) peaks' ∧ Holds L (fun k => ‖z k‖ / peak c k (z :: zs)) mags' := by
  subst hr hf
  obtain ⟨⟨p, m⟩, a1, a2, a3⟩ := loop_inv (n := L) (s := (peaks, mags)) (f := whitenBody c.relax c.floorVal)
    (P := fun i s => Part L i (fun k => peak c k (z :: zs)) (fun k => peak c k zs) s.1 ∧
      Part L i (fun k => ‖z k‖ / peak c k (z :: zs)) (fun k => ‖z k‖) s.2)
    ⟨hp.part _, hm.part _⟩
    (by
      rintro i ⟨p, m⟩ hi ⟨h1, h2⟩
      have hne : peak c i (z :: zs) ≠ 0 := by have := peak_ge c i z zs; linarith
      have hw1 := h1.wr hi
      have hw2 := h2.wr hi
      refine ⟨(p.set i (peak c i (z :: zs)), m.set i (‖z i‖ / peak c i (z :: zs))), ?_, h1.step hi, h2.step hi⟩
      unfold whitenBody
      simp only [h1.get hi, h2.get hi, Option.bind_eq_bind, Option.bind_some]
      simp only [peak] at hw1 hw2 hne ⊢
      rw [hw1]
      simp only [Option.bind_some]
      rw [if_neg hne, hw2]
      rfl)
  exact ⟨p, m, a1, a2.holds, a3.holds⟩

theorem hfc_ok {L : Nat} {f : Nat → ℝ} {src : List ℝ} (h : Holds L f src) :
    hfc L src = some (∑ k ∈ Finset.range L, (k + 1) * f k) := by
  obtain ⟨v, a1, a2⟩ := loop_inv (n := L) (s := (0 : ℝ)) (f := fun i val => do
      let s ← src[i]?
      pure (val + s * (i + 1))) (P := fun i v => v = ∑ k ∈ Finset.range i, (k + 1) * f k) (by simp)
    (by
      rintro i v hi rfl
      refine ⟨_, by simp only [h.2 i hi, Option.bind_eq_bind, Option.bind_some]; rfl, ?_⟩
      rw [Finset.sum_range_succ, mul_comm (f i)])
  unfold hfc
  rw [← a2]; exact a1

theorem specDiff_ok {L : Nat} {f g : Nat → ℝ} {src hist : List ℝ} (h : Holds L f src) (hh : Holds L g hist) :
    ∃ hist', loop L (specDiffBody src) (hist, 0) = some (hist', ∑ k ∈ Finset.range L, Real.sqrt |f k ^ 2 - g k ^ 2|) ∧
      Holds L f hist' := by
  obtain ⟨⟨p, v⟩, a1, a2, a3⟩ := loop_inv (n := L) (s := (hist, (0 : ℝ))) (f := specDiffBody src)
    (P := fun i s => Part L i f g s.1 ∧ s.2 = ∑ k ∈ Finset.range i, Real.sqrt |f k ^ 2 - g k ^ 2|) ⟨hh.part _, by simp⟩
    (by
      rintro i ⟨p, v⟩ hi ⟨h1, h2⟩
      dsimp only at h1 h2
      subst h2
      refine ⟨_, by unfold specDiffBody; simp only [h1.get hi, h.2 i hi, h1.wr hi, Option.bind_eq_bind, Option.bind_some]; rfl,
        h1.step hi, ?_⟩
      rw [Finset.sum_range_succ, pow_two, pow_two])
  dsimp only at a3
  exact ⟨p, by rw [a1, a3], a2.holds⟩

theorem phaseDev_ok {L : Nat} {f g o : Nat → ℝ} {src hist old : List ℝ} (h : Holds L f src) (hh : Holds L g hist) (ho : Holds L o old) :
    ∃ hist' old', loop L (phaseDevBody src) (hist, old, 0) =
        some (hist', old', ∑ k ∈ Finset.range L, |princarg (f k - 2 * g k + o k)|) ∧ Holds L f hist' ∧ Holds L g old' := by
  obtain ⟨⟨p, q, v⟩, a1, a2, a3, a4⟩ := loop_inv (n := L) (s := (hist, old, (0 : ℝ))) (f := phaseDevBody src)
    (P := fun i s => Part L i f g s.1 ∧ Part L i g o s.2.1 ∧
      s.2.2 = ∑ k ∈ Finset.range i, |princarg (f k - 2 * g k + o k)|) ⟨hh.part _, ho.part _, by simp⟩
    (by
      rintro i ⟨p, q, v⟩ hi ⟨h1, h2, h3⟩
      dsimp only at h1 h2 h3
      subst h3
      refine ⟨_, by
        unfold phaseDevBody
        simp only [h1.get hi, h.2 i hi, h2.get hi, h1.wr hi, h2.wr hi, Option.bind_eq_bind, Option.bind_some]; rfl,
        h1.step hi, h2.step hi, ?_⟩
      rw [Finset.sum_range_succ])
  dsimp only at a4
  exact ⟨p, q, by rw [a1, a4], a2.holds, a3.holds⟩

theorem complexSD_ok {L : Nat} {f g o m mo : Nat → ℝ} {srcM src hist old mh : List ℝ} (hm : Holds L m srcM) (h : Holds L f src)
    (hh : Holds L g hist) (ho : Holds L o old) (hmo : Holds L mo mh) :
    ∃ hist' old' mh', loop L (complexSDBody srcM src) (hist, old, mh, 0) =
        some (hist', old', mh', ∑ k ∈ Finset.range L,
          ‖(mo k : ℂ) - m k * Complex.exp (princarg (f k - 2 * g k + o k) * Complex.I)‖) ∧
      Holds L f hist' ∧ Holds L g old' ∧ Holds L m mh' := by
  obtain ⟨⟨p, q, r, v⟩, a1, a2, a3, a5, a4⟩ := loop_inv (n := L) (s := (hist, old, mh, (0 : ℝ))) (f := complexSDBody srcM src)
    (P := fun i s => Part L i f g s.1 ∧ Part L i g o s.2.1 ∧ Part L i m mo s.2.2.1 ∧
      s.2.2.2 = ∑ k ∈ Finset.range i, ‖(mo k : ℂ) - m k * Complex.exp (princarg (f k - 2 * g k + o k) * Complex.I)‖)
    ⟨hh.part _, ho.part _, hmo.part _, by simp⟩
    (by
      rintro i ⟨p, q, r, v⟩ hi ⟨h1, h2, h4, h3⟩
      dsimp only at h1 h2 h3 h4
      subst h3
      refine ⟨_, by
        unfold complexSDBody
        simp only [h1.get hi, h.2 i hi, h2.get hi, h4.get hi, hm.2 i hi, h1.wr hi, h2.wr hi, h4.wr hi, Option.bind_eq_bind,
          Option.bind_some]; rfl,
        h1.step hi, h2.step hi, h4.step hi, ?_⟩
      rw [Finset.sum_range_succ]
      dsimp only
      rw [mul_comm Complex.I, Complex.norm_eq_sqrt_sq_add_sq, pow_two, pow_two])
  dsimp only at a4
  exact ⟨p, q, r, by rw [a1, a4], a2.holds, a3.holds, a5.holds⟩

open Classical in
theorem broadband_ok {L : Nat} {f g : Nat → ℝ} {rise : ℝ} {src hist : List ℝ} (h : Holds L f src) (hh : Holds L (fun k => g k * g k) hist) :
    ∃ hist', loop L (broadbandBody rise src) (hist, 0) = some (hist', (((Finset.range L).filter
        (fun k => g k ≠ 0 ∧ f k ≠ 0 ∧ rise < 10 * Real.logb 10 (f k ^ 2 / g k ^ 2))).card : ℝ)) ∧
      Holds L (fun k => f k * f k) hist' := by
  obtain ⟨⟨p, v⟩, a1, a2, a3⟩ := loop_inv (n := L) (s := (hist, (0 : ℝ))) (f := broadbandBody rise src)
    (P := fun i s => Part L i (fun k => f k * f k) (fun k => g k * g k) s.1 ∧ s.2 = (((Finset.range i).filter
        (fun k => g k ≠ 0 ∧ f k ≠ 0 ∧ rise < 10 * Real.logb 10 (f k ^ 2 / g k ^ 2))).card : ℝ)) ⟨hh.part _, by simp⟩
    (by
      rintro i ⟨p, v⟩ hi ⟨h1, h2⟩
      dsimp only at h1 h2
      subst h2
      have hw := h1.wr hi
      refine ⟨_, by unfold broadbandBody; simp only [h1.get hi, h.2 i hi, hw, Option.bind_eq_bind, Option.bind_some]; rfl,
        h1.step hi, ?_⟩
      rw [Finset.range_add_one, Finset.filter_insert]
      dsimp only
      have e1 : g i * g i > 0 ↔ g i ≠ 0 := by
        constructor
        · rintro h e; rw [e] at h; simp at h
        · exact fun h => mul_self_pos.mpr h
      by_cases hg : g i ≠ 0
      · rw [if_pos (e1.mpr hg)]
        have e2 : (f i * f i / (g i * g i) ≠ 0 ∧ 10 * Real.logb 10 (f i * f i / (g i * g i)) > rise) ↔
            (g i ≠ 0 ∧ f i ≠ 0 ∧ rise < 10 * Real.logb 10 (f i ^ 2 / g i ^ 2)) := by
          rw [← pow_two, ← pow_two, gt_iff_lt]
          constructor
          · rintro ⟨a, b⟩
            exact ⟨hg, fun e => a (by simp [e]), b⟩
          · rintro ⟨_, a, b⟩
            exact ⟨div_ne_zero (pow_ne_zero _ a) (pow_ne_zero _ hg), b⟩
        by_cases hc : g i ≠ 0 ∧ f i ≠ 0 ∧ rise < 10 * Real.logb 10 (f i ^ 2 / g i ^ 2)
        · rw [if_pos (e2.mpr hc), if_pos hc, Finset.card_insert_of_notMem (by simp)]; push_cast; rfl
        · rw [if_neg (fun h => hc (e2.mp h)), if_neg hc]
      · rw [if_neg (fun h => hg (e1.mp h)), if_neg (fun h => hg h.1)])
  dsimp only at a3
  exact ⟨p, by rw [a1, a3], a2.holds⟩

theorem isDev_princarg (k : Nat) (h : List (Nat → ℂ)) :
    IsDev k h (princarg (phase k h - 2 * phase k h.tail + phase k h.tail.tail)) := by
  obtain ⟨h1, h2, j, hj⟩ := C03_princarg_partial (phase k h - 2 * phase k h.tail + phase k h.tail.tail)
  exact ⟨h1, h2, j, hj⟩

/-- The state just before `runDF`. -/
theorem run_ok {c : Config} {zs : List (Nat → ℂ)} {z : Nat → ℂ} {d : DF}
    (cfg : d.c = c) (half : d.half = c.frame / 2 + 1) (relax : d.relaxCoeff = c.relax) (floor : d.floorCoeff = c.floorVal)
    (pv : ∃ prev, PhaseVocoder.Ok c.frame c.step d.pv prev)
    (hm : Holds (c.frame / 2 + 1) (fun k => mag c k (z :: zs)) d.magnitude)
    (ht : Holds (c.frame / 2 + 1) (fun k => phase k (z :: zs)) d.theta)
    (ulen : d.unwrapped.length = c.frame / 2 + 1)
    (win : Holds c.frame (Window.shape .hanning c.frame) d.window) (wlen : d.windowed.length = c.frame)
    (mh : Holds (c.frame / 2 + 1) (magHist c zs) d.magHistory)
    (ph : Holds (c.frame / 2 + 1) (phaseHist c zs) d.phaseHistory)
    (po : Holds (c.frame / 2 + 1) (phaseHist c zs.tail) d.phaseHistoryOld)
    (pk : Holds (c.frame / 2 + 1) (fun k => if c.whiten then peak c k (z :: zs) else 0) d.magPeaks) :
    ∃ d' v, runDF d = some (d', v) ∧ IsValue c (z :: zs) v ∧ Ok c (z :: zs) d' ∧ d'.magnitude = d.magnitude := by
  unfold runDF
  rw [cfg]
  cases hty : c.ty
  · rw [half, hfc_ok hm]
    refine ⟨_, _, rfl, by unfold IsValue; rw [hty], ?_, rfl⟩
    refine ⟨by first | exact cfg | rfl, by first | exact half | rfl, relax, floor, pv, hm.1, ht.1, ulen, win, wlen, mh.congr ?_, ph.congr ?_, po.congr ?_, pk⟩ <;>
      intro j _ <;> simp only [magHist, phaseHist, hty]
  · have : ∀ zs, magHist c zs = fun k => mag c k zs := fun zs => by funext k; simp only [magHist, hty]
    rw [this] at mh
    obtain ⟨hist', a1, a2⟩ := specDiff_ok hm mh
    simp only [half, a1]
    refine ⟨_, _, rfl, by unfold IsValue; rw [hty]; rfl, ?_, rfl⟩
    refine ⟨by first | exact cfg | rfl, by first | exact half | rfl, relax, floor, pv, hm.1, ht.1, ulen, win, wlen, a2.congr ?_, ph.congr ?_, po.congr ?_, pk⟩ <;>
      intro j _ <;> simp only [magHist, phaseHist, hty]
  · have : ∀ zs, phaseHist c zs = fun k => phase k zs := fun zs => by funext k; simp only [phaseHist, hty]
    rw [this] at ph po
    obtain ⟨hist', old', a1, a2, a3⟩ := phaseDev_ok ht ph po
    simp only [half, a1]
    refine ⟨_, _, rfl, by unfold IsValue; rw [hty]; exact ⟨_, fun k _ => isDev_princarg k (z :: zs), rfl⟩, ?_, rfl⟩
    refine ⟨by first | exact cfg | rfl, by first | exact half | rfl, relax, floor, pv, hm.1, ht.1, ulen, win, wlen, mh.congr ?_, a2.congr ?_, a3.congr ?_, pk⟩ <;>
      intro j _ <;> simp only [magHist, phaseHist, hty, List.tail_cons]
  · have t1 : ∀ zs, phaseHist c zs = fun k => phase k zs := fun zs => by funext k; simp only [phaseHist, hty]
    have t2 : ∀ zs, magHist c zs = fun k => mag c k zs := fun zs => by funext k; simp only [magHist, hty]
    rw [t1] at ph po
    rw [t2] at mh
    obtain ⟨hist', old', mh', a1, a2, a3, a4⟩ := complexSD_ok hm ht ph po mh
    simp only [half, a1]
    refine ⟨_, _, rfl, by unfold IsValue; rw [hty]; exact ⟨_, fun k _ => isDev_princarg k (z :: zs), rfl⟩, ?_, rfl⟩
    refine ⟨by first | exact cfg | rfl, by first | exact half | rfl, relax, floor, pv, hm.1, ht.1, ulen, win, wlen, a4.congr ?_, a2.congr ?_, a3.congr ?_, pk⟩ <;>
      intro j _ <;> simp only [magHist, phaseHist, hty, List.tail_cons]
  · have : ∀ zs, magHist c zs = fun k => mag c k zs * mag c k zs := fun zs => by funext k; simp only [magHist, hty]
    rw [this] at mh
    obtain ⟨hist', a1, a2⟩ := broadband_ok (rise := c.dbRise) hm mh
    simp only [half, a1]
    refine ⟨_, _, rfl, by unfold IsValue; rw [hty]; simp only [Nat.cast_inj]; congr 1; ext k; classical exact Finset.mem_filter.trans (Iff.trans Iff.rfl (@Finset.mem_filter _ (fun k => Rose c k (z :: zs)) _ _ _).symm), ?_, rfl⟩
    refine ⟨by first | exact cfg | rfl, by first | exact half | rfl, relax, floor, pv, hm.1, ht.1, ulen, win, wlen, a2.congr ?_, ph.congr ?_, po.congr ?_, pk⟩ <;>
      intro j _ <;> simp only [magHist, phaseHist, hty]

/-- Whitening can not divide by zero. -/
def Safe (c : Config) : Prop := c.whiten = true → 0 < c.floorVal

theorem finish_ok {c : Config} {zs : List (Nat → ℂ)} {z : Nat → ℂ} {d : DF} (hs : Safe c) (hd : Ok c zs d)
    (hm : Holds (c.frame / 2 + 1) (fun k => ‖z k‖) d.magnitude)
    (ht : Holds (c.frame / 2 + 1) (fun k => (z k).arg) d.theta) :
    ∃ d' v, finish d = some (d', v) ∧ IsValue c (z :: zs) v ∧ Ok c (z :: zs) d' ∧
      Holds (c.frame / 2 + 1) (fun k => mag c k (z :: zs)) d'.magnitude := by
  unfold finish
  rw [hd.cfg]
  by_cases hw : c.whiten = true
  · rw [if_pos hw]
    obtain ⟨p, m, a1, a2, a3⟩ := whiten_ok z zs hd.relax hd.floor (hd.pk.congr fun j _ => by simp [hw]) hm (hs hw)
    obtain ⟨d', v, b1, b2, b3, b4⟩ := run_ok (c := c) (zs := zs) (z := z) (d := { d with magPeaks := p, magnitude := m })
      hd.cfg hd.half hd.relax hd.floor hd.pv
      (a3.congr fun j _ => by simp only [mag, if_pos hw]) ht hd.ulen hd.win hd.wlen hd.mh hd.ph hd.po
      (a2.congr fun j _ => by simp only [if_pos hw])
    refine ⟨d', v, ?_, b2, b3, ?_⟩
    · unfold whiten
      simp only [hd.half, a1, Option.bind_eq_bind, Option.bind_some]
      simp only [hd.half] at b1
      exact b1
    · rw [b4]; exact a3.congr fun j _ => by simp only [mag, if_pos hw]
  · rw [if_neg hw]
    obtain ⟨d', v, b1, b2, b3, b4⟩ := run_ok (c := c) (zs := zs) (z := z) (d := d)
      hd.cfg hd.half hd.relax hd.floor hd.pv
      (hm.congr fun j _ => by simp only [mag, if_neg hw]) ht hd.ulen hd.win hd.wlen hd.mh hd.ph hd.po
      (hd.pk.congr fun j _ => by simp only [if_neg hw])
    exact ⟨d', v, b1, b2, b3, by rw [b4]; exact hm.congr fun j _ => by simp only [mag, if_neg hw]⟩

/-- The spectrum given in split form. -/
noncomputable def ofSplit (reals imags : List ℝ) (k : Nat) : ℂ := ⟨reals.getD k 0, imags.getD k 0⟩

/-- The spectrum of a windowed, half-rotated frame. -/
noncomputable def ofFrame (n : Nat) (samples : List ℝ) (k : Nat) : ℂ :=
  (-1) ^ k * DFT.dft false n (fun j => ((Window.shape .hanning n j * samples.getD j 0 : ℝ) : ℂ)) k

theorem freq_ok {c : Config} {zs : List (Nat → ℂ)} {d : DF} (h1 : 2 ≤ c.frame) (hs : Safe c) (hd : Ok c zs d) (reals imags : List ℝ)
    (hr : c.frame / 2 + 1 ≤ reals.length) (hi : c.frame / 2 + 1 ≤ imags.length) :
    ∃ d' v, processFreq d reals imags = some (d', v) ∧ IsValue c (ofSplit reals imags :: zs) v ∧ Ok c (ofSplit reals imags :: zs) d' ∧
      Holds (c.frame / 2 + 1) (fun k => mag c k (ofSplit reals imags :: zs)) d'.magnitude := by
  obtain ⟨prev, hp⟩ := hd.pv
  obtain ⟨pv', m', t', u', e1, e2, e3, e4, e5, _, e7⟩ := PhaseVocoder.freq_ok h1 hp reals imags d.magnitude d.theta d.unwrapped hr hi
    (by rw [hd.mlen]) (by rw [hd.tlen]) (by rw [hd.ulen])
  unfold processFreq
  simp only [e1, Option.bind_eq_bind, Option.bind_some]
  refine finish_ok (c := c) (zs := zs) hs ?_ ?_ ?_
  · exact ⟨hd.cfg, hd.half, hd.relax, hd.floor, ⟨_, e7⟩, by rw [e2, hd.mlen], by rw [e3, hd.tlen], by rw [e4, hd.ulen], hd.win,
      hd.wlen, hd.mh, hd.ph, hd.po, hd.pk⟩
  · exact ⟨by rw [e2, hd.mlen], fun j hj => (e5 j (by omega)).1⟩
  · exact ⟨by rw [e3, hd.tlen], fun j hj => (e5 j (by omega)).2.1⟩

theorem time_ok {c : Config} {zs : List (Nat → ℂ)} {d : DF} (h0 : c.frame % 2 = 0) (h1 : 2 ≤ c.frame) (h2 : c.frame ≤ 2147483647)
    (hs : Safe c) (hd : Ok c zs d) (samples : List ℝ) (hl : c.frame ≤ samples.length) :
    ∃ d' v, processTime d samples = some (d', v) ∧ IsValue c (ofFrame c.frame samples :: zs) v ∧
      Ok c (ofFrame c.frame samples :: zs) d' ∧
      Holds (c.frame / 2 + 1) (fun k => mag c k (ofFrame c.frame samples :: zs)) d'.magnitude := by
  obtain ⟨prev, hp⟩ := hd.pv
  obtain ⟨w, w1, w2, w3, _⟩ := Window.C50_cut c.frame d.window samples d.windowed (by rw [hd.win.1]) hl (by rw [hd.wlen])
  obtain ⟨pv', m', t', u', e1, e2, e3, e4, e5, _, e7⟩ := PhaseVocoder.time_ok h0 h1 h2 hp w d.magnitude d.theta d.unwrapped
    (by rw [w2, hd.wlen]) (by rw [hd.mlen]) (by rw [hd.tlen]) (by rw [hd.ulen])
  have hz : ∀ k, PhaseVocoder.spectrum c.frame w k = ofFrame c.frame samples k := by
    intro k
    unfold PhaseVocoder.spectrum ofFrame
    rw [DFT.dft_eq, DFT.dft_eq]
    congr 1
    apply Finset.sum_congr rfl
    intro j hj
    have hj' : j < c.frame := Finset.mem_range.mp hj
    obtain ⟨s, x, q1, q2, q3⟩ := w3 j hj'
    rw [hd.win.2 j hj'] at q2
    cases q2
    congr 2
    rw [List.getD_eq_getElem?_getD, q3, List.getD_eq_getElem?_getD, q1]
    simp [mul_comm]
  unfold processTime
  simp only [hd.cfg, w1, e1, Option.bind_eq_bind, Option.bind_some]
  refine finish_ok (c := c) (zs := zs) hs ?_ ?_ ?_
  · exact ⟨by first | exact hd.cfg | rfl, hd.half, hd.relax, hd.floor, ⟨_, e7⟩, by rw [e2, hd.mlen], by rw [e3, hd.tlen], by rw [e4, hd.ulen], hd.win,
      by rw [w2, hd.wlen], hd.mh, hd.ph, hd.po, hd.pk⟩
  · exact ⟨by rw [e2, hd.mlen], fun j hj => by rw [(e5 j (by omega)).1, hz]⟩
  · exact ⟨by rw [e3, hd.tlen], fun j hj => by rw [(e5 j (by omega)).2.1, hz]⟩

end QM.DetectionFunction
