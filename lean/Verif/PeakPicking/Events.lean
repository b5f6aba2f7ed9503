import Verif.PeakPicking.Props
import Verif.Filter.NoFeedback
import Mathlib.Data.List.GetD

/-! # C102: separate events in a detection function: specification and lemmas -/

namespace QM.PeakPicking

open Finset

/-! ## Specification -/

/-- The autocorrelation of the coefficients of the smoothing filter. -/
def auto (b : List ℝ) (d : Nat) : ℝ := ∑ k ∈ range b.length, b.getD k 0 * b.getD (k + d) 0

/-- The smoothing filter spreads an event into a single hump: its autocorrelation falls all the way to zero. -/
def Hump (b : List ℝ) : Prop := ∀ d, d < b.length → auto b (d + 1) < auto b d

/-- A level with events on it: at frame `i` the detection function is higher than the level by `e i`. -/
def withEvents (base : ℝ) (e : Nat → ℝ) (len : Nat) : List ℝ := (List.range len).map (fun i => base + e i)

/-- Frame `t` is within `L` frames of an event. -/
def Near (e : Nat → ℝ) (L t : Nat) : Prop := ∃ p, e p ≠ 0 ∧ p ≤ t + L ∧ t ≤ p + L

/-- The frames the threshold of frame `i` is taken from. -/
def window (pre post len i : Nat) : Finset Nat := Ico (i - pre) (min len (i + post + 1))

/-- Events that are well apart: positive, more than `L` from the ends of the block, so far from each other that the smoothed events do not
meet, and less than half of every threshold window within reach of an event. -/
structure Separate (e : Nat → ℝ) (len L pre post : Nat) : Prop where
  nonneg : ∀ i, 0 ≤ e i
  inside : ∀ i, e i ≠ 0 → L < i ∧ i + L + 1 < len
  apart : ∀ i j, e i ≠ 0 → e j ≠ 0 → i < j → i + L + max L 2 < j
  quiet : ∀ i, i < len → ∀ s : Finset Nat, (∀ t ∈ s, t ∈ window pre post len i ∧ Near e L t) → 2 * s.card < (window pre post len i).card

/-- An event of height `x`, relative to the norm of the block, is reported: after smoothing it is higher than `delta`, and the parabola
fitted to the five values around it is sharper than `qa` or higher than `qc`. -/
def Reported (b : List ℝ) (delta qa qc x : ℝ) : Prop :=
  delta < x * auto b 0 ∧
    (x * (2 * auto b 2 - auto b 1 - auto b 0) / 7 < -qa ∨ qc < x * (17 * auto b 0 + 24 * auto b 1 - 6 * auto b 2) / 35 - delta)

/-- Earlier calls of `process`. -/
noncomputable def runs (p : PP) : List (List ℝ) → Option PP
  | [] => some p
  | src :: rest => do
    let r ← process p src src.length []
    runs r.1 rest

/-! ## Lemmas -/

theorem auto_far (b : List ℝ) {d : Nat} (h : b.length ≤ d) : auto b d = 0 := by
  refine sum_eq_zero (fun k _ => ?_)
  rw [List.getD_eq_default _ _ (show b.length ≤ k + d by omega), mul_zero]

theorem auto_antitone {b : List ℝ} (h : Hump b) {d : Nat} : ∀ n, auto b (d + n) ≤ auto b d
  | 0 => le_rfl
  | n + 1 => by
    refine le_trans ?_ (auto_antitone h n)
    by_cases hd : d + n < b.length
    · exact (h _ hd).le
    · rw [show d + (n + 1) = d + n + 1 by omega, auto_far b (by omega), auto_far b (by omega)]

theorem auto_nonneg {b : List ℝ} (h : Hump b) (d : Nat) : 0 ≤ auto b d := by
  have := auto_antitone h (d := d) b.length
  rwa [auto_far b (by omega)] at this

/-- Smoothing of a function that has at most one value other than zero within reach. -/
theorem kernel_one (b : List ℝ) (x : Int → ℝ) (i p : Nat) (h : ∀ t : Int, (i : Int) - t < b.length → t - i < b.length → t ≠ p → x t = 0) :
    ∑ j ∈ range b.length, ∑ k ∈ range b.length, b.getD j 0 * b.getD k 0 * x ((i : Int) + j - k) = x p * auto b (if i ≤ p then p - i else i - p) := by
  by_cases hip : i ≤ p
  · rw [if_pos hip, sum_comm]
    unfold auto
    rw [mul_sum]
    refine sum_congr rfl (fun k hk => ?_)
    rw [mem_range] at hk
    by_cases hr : k + (p - i) < b.length
    · rw [sum_eq_single (k + (p - i))]
      · rw [show (i : Int) + (k + (p - i) : Nat) - k = p by omega]
        ring
      · intro j hj hne
        rw [mem_range] at hj
        rw [h _ (by omega) (by omega) (by omega), mul_zero]
      · intro hc
        exact absurd (mem_range.mpr hr) hc
    · rw [List.getD_eq_default _ _ (show b.length ≤ k + (p - i) by omega), mul_zero, mul_zero]
      refine sum_eq_zero (fun j hj => ?_)
      rw [mem_range] at hj
      rw [h _ (by omega) (by omega) (by omega), mul_zero]
  · rw [if_neg hip]
    unfold auto
    rw [mul_sum]
    refine sum_congr rfl (fun j hj => ?_)
    rw [mem_range] at hj
    by_cases hr : j + (i - p) < b.length
    · rw [sum_eq_single (j + (i - p))]
      · rw [show (i : Int) + j - (j + (i - p) : Nat) = p by omega]
        ring
      · intro k hk hne
        rw [mem_range] at hk
        rw [h _ (by omega) (by omega) (by omega), mul_zero]
      · intro hc
        exact absurd (mem_range.mpr hr) hc
    · rw [List.getD_eq_default _ _ (show b.length ≤ j + (i - p) by omega), mul_zero, mul_zero]
      refine sum_eq_zero (fun k hk => ?_)
      rw [mem_range] at hk
      rw [h _ (by omega) (by omega) (by omega), mul_zero]

/-- A list without negative values, more than half of which are zero, has the median zero. -/
theorem median_zero {l : List ℝ} {m : ℝ} (hm : DFProcess.IsMedian l m) (h0 : ∀ x ∈ l, 0 ≤ x) (hz : l.length < 2 * l.countP (fun x => x = 0)) : m = 0 := by
  obtain ⟨s, h1, h2, h3, h4⟩ := hm
  have hc : s.countP (fun x => x = 0) = l.countP (fun x => x = 0) := h1.countP_eq _
  have hlen := h1.length_eq
  have hs0 : ∀ x ∈ s, 0 ≤ x := fun x hx => h0 x (h1.mem_iff.mp hx)
  have key : ∀ i v, s[i]? = some v → i < l.countP (fun x => x = 0) → v = 0 := by
    intro i v hv hi
    by_contra hne
    have hil := lt_of_getElem?_some hv
    have hsplit : s.countP (fun x => x = 0) = (s.take i).countP (fun x => x = 0) + (s.drop i).countP (fun x => x = 0) := by
      rw [← List.countP_append, List.take_append_drop]
    have hd : (s.drop i).countP (fun x => x = 0) = 0 := by
      rw [List.countP_eq_zero]
      intro x hx
      obtain ⟨j, hj, rfl⟩ := List.getElem_of_mem hx
      rw [List.getElem_drop]
      have hvi : v = s[i] := by rw [List.getElem?_eq_getElem hil] at hv; exact (Option.some.inj hv).symm
      have hpos : 0 < s[i] := lt_of_le_of_ne (hs0 _ (List.getElem_mem hil)) (by rw [← hvi]; exact Ne.symm hne)
      rw [List.length_drop] at hj
      have hle : s[i] ≤ s[i + j] := by
        rcases Nat.eq_zero_or_pos j with rfl | hj0
        · exact le_rfl
        · exact List.pairwise_iff_getElem.mp h2 i (i + j) hil (by omega) (by omega)
      simp
      linarith
    have ht : (s.take i).countP (fun x => x = 0) ≤ i := by
      refine List.countP_le_length.trans ?_
      rw [List.length_take]
      omega
    omega
  rcases Nat.mod_two_eq_zero_or_one l.length with he | ho
  · obtain ⟨a, b, e1, e2, rfl⟩ := h4 he
    rw [key _ a e1 (by omega), key _ b e2 (by omega)]
    norm_num
  · exact key _ m (h3 ho) (by omega)

/-- The best parabola through five values. -/
theorem bestFit_iff (v : List ℝ) (i : Nat) (f g h : ℝ) : BestFit v i f g h ↔
    f = (-3 * v.getD (i - 2) 0 + 12 * v.getD (i - 1) 0 + 17 * v.getD i 0 + 12 * v.getD (i + 1) 0 - 3 * v.getD (i + 2) 0) / 35 ∧
    g = (-2 * v.getD (i - 2) 0 - v.getD (i - 1) 0 + v.getD (i + 1) 0 + 2 * v.getD (i + 2) 0) / 10 ∧
    h = (2 * v.getD (i - 2) 0 - v.getD (i - 1) 0 - 2 * v.getD i 0 - v.getD (i + 1) 0 + 2 * v.getD (i + 2) 0) / 14 := by
  unfold BestFit error5
  generalize v.getD (i - 2) 0 = y1
  generalize v.getD (i - 1) 0 = y2
  generalize v.getD i 0 = y3
  generalize v.getD (i + 1) 0 = y4
  generalize v.getD (i + 2) 0 = y5
  set F := (-3 * y1 + 12 * y2 + 17 * y3 + 12 * y4 - 3 * y5) / 35 with hF
  set G := (-2 * y1 - y2 + y4 + 2 * y5) / 10 with hG
  set H := (2 * y1 - y2 - 2 * y3 - y4 + 2 * y5) / 14 with hH
  have key : ∀ f g h : ℝ, (f - 2 * g + 4 * h - y1) ^ 2 + (f - g + h - y2) ^ 2 + (f - y3) ^ 2 + (f + g + h - y4) ^ 2 + (f + 2 * g + 4 * h - y5) ^ 2 =
      ((F - 2 * G + 4 * H - y1) ^ 2 + (F - G + H - y2) ^ 2 + (F - y3) ^ 2 + (F + G + H - y4) ^ 2 + (F + 2 * G + 4 * H - y5) ^ 2) +
      (((f - F) - 2 * (g - G) + 4 * (h - H)) ^ 2 + ((f - F) - (g - G) + (h - H)) ^ 2 + (f - F) ^ 2 + ((f - F) + (g - G) + (h - H)) ^ 2 +
        ((f - F) + 2 * (g - G) + 4 * (h - H)) ^ 2) := by
    intro f g h
    rw [hF, hG, hH]
    ring
  constructor
  · intro hb
    have h1 := hb F G H
    rw [key f g h] at h1
    have s1 := sq_nonneg ((f - F) - 2 * (g - G) + 4 * (h - H))
    have s2 := sq_nonneg ((f - F) - (g - G) + (h - H))
    have s3 := sq_nonneg (f - F)
    have s4 := sq_nonneg ((f - F) + (g - G) + (h - H))
    have s5 := sq_nonneg ((f - F) + 2 * (g - G) + 4 * (h - H))
    have z2 : (f - F) - (g - G) + (h - H) = 0 := pow_eq_zero_iff two_ne_zero |>.mp (by linarith)
    have z3 : f - F = 0 := pow_eq_zero_iff two_ne_zero |>.mp (by linarith)
    have z4 : (f - F) + (g - G) + (h - H) = 0 := pow_eq_zero_iff two_ne_zero |>.mp (by linarith)
    exact ⟨by linarith, by linarith, by linarith⟩
  · rintro ⟨rfl, rfl, rfl⟩ f' g' h'
    rw [key f' g' h']
    nlinarith [sq_nonneg ((f' - F) - 2 * (g' - G) + 4 * (h' - H)), sq_nonneg ((f' - F) - (g' - G) + (h' - H)), sq_nonneg (f' - F),
      sq_nonneg ((f' - F) + (g' - G) + (h' - H)), sq_nonneg ((f' - F) + 2 * (g' - G) + 4 * (h' - H))]

/-! ### Calls on a picker in any state -/

/-- What stays true of a picker from call to call. -/
structure PPOk (len pre post alpha : Nat) (delta qa qc : ℝ) (b a : List ℝ) (p : PP) : Prop where
  hlen : p.dfp.len = len
  hpre : p.dfp.pre = pre
  hpost : p.dfp.post = post
  halpha : p.dfp.alpha = alpha
  hisPos : p.dfp.isPos = false
  hdelta : p.dfp.delta = delta
  hqa : p.a = qa
  hqc : p.c = qc
  hfiltSrc : p.dfp.filtSrc.length = len
  hwork : p.work.length = len
  hfilter : ∃ xs ys, Filter.Inv b a p.dfp.filter xs ys ∧ Filter.DiffEq b a xs ys

section
variable {len pre post alpha : Nat} {delta qa qb qc : ℝ} {b a : List ℝ}

theorem make_okp {u : ℝ} {p : PP} (ha : Filter.NoFeedback a) (hm : make len pre post alpha delta qa qb qc b a u = some p) : PPOk len pre post alpha delta qa qc b a p := by
  unfold make DFProcess.make at hm
  cases hf : Filter.new b a with
  | error e => rw [hf] at hm; cases hm
  | ok f =>
    rw [hf] at hm
    simp only [Option.bind_eq_bind, Option.bind_some, Option.pure_def, Option.some.injEq] at hm
    subst hm
    exact ⟨rfl, rfl, rfl, rfl, rfl, rfl, rfl, rfl, by simp, by simp, [], [], Filter.new_inv b a f hf ha.1, rfl, by simp⟩

theorem dcNormalize_ok {src fs : List ℝ} (hs : src.length = len) (h0 : 0 < len) (hf : fs.length = len) (ha : 0 < alpha) (hnz : ∃ x ∈ src, x ≠ 0) :
    ∃ lo norm, lo ∈ src ∧ (∀ x ∈ src, lo ≤ x) ∧ MathReal.getAlphaNorm src alpha = some norm ∧ 0 < norm ∧
      DFProcess.removeDCNormalize len alpha src fs = some (src.map (fun x => (x - lo) / norm)) := by
  have hne : src ≠ [] := by rintro rfl; simp at hs; omega
  obtain ⟨m1, _, m3⟩ := (MathReal.C04_getFrameMinMax src).2 hne
  obtain ⟨norm, n1, n2⟩ := DFProcess.alphaNorm_pos src alpha ha hnz
  refine ⟨_, norm, m1, fun x hx => (m3 x hx).1, n1, n2, ?_⟩
  unfold DFProcess.removeDCNormalize
  rw [if_neg (by omega), List.take_of_length_le (by omega)]
  simp only [n1, Option.bind_eq_bind, Option.bind_some]
  rw [if_neg (ne_of_gt n2)]
  generalize (MathReal.getFrameMinMax src).1 = lo
  obtain ⟨xs, l1, l2, l3, _⟩ := fill_ok len (fun i dst => do
      let v ← src[i]?
      wr dst i ((v - lo) / norm)) (fun i => (src.getD i 0 - lo) / norm) fs (by omega)
    (by
      intro i b hi hb _ _
      simp only [List.getElem?_eq_getElem (show i < src.length by omega), Option.bind_eq_bind, Option.bind_some]
      rw [wr_some _ (by rw [hb]; omega)]
      simp [List.getD_eq_getElem?_getD, List.getElem?_eq_getElem (show i < src.length by omega)])
  refine l1.trans (congrArg some ?_)
  apply List.ext_getElem?
  intro i
  by_cases hi : i < len
  · rw [l3 i hi]
    simp [List.getElem?_eq_getElem (show i < src.length by omega)]
  · rw [List.getElem?_eq_none (by rw [l2]; omega), List.getElem?_eq_none (by simp; omega)]

theorem process_any {p : PP} (h : PPOk len pre post alpha delta qa qc b a p) (ha : Filter.NoFeedback a) (hal : 0 < alpha) (h4 : 4 ≤ len)
    (hw : post + pre < len ∨ post = 0) {src : List ℝ} (hs : src.length = len) (hnz : ∃ x ∈ src, x ≠ 0) (onsets : List Nat) :
    ∃ p' v l lo norm, process p src len onsets = some (p', v, onsets ++ l) ∧ PPOk len pre post alpha delta qa qc b a p' ∧ v.length = len ∧
      lo ∈ src ∧ (∀ x ∈ src, lo ≤ x) ∧ MathReal.getAlphaNorm src alpha = some norm ∧ 0 < norm ∧
      (∃ filt : List ℝ, filt.length = len ∧ (∀ i, i < len → filt[i]? = some (∑ j ∈ range b.length, ∑ k ∈ range b.length,
          b.getD j 0 * b.getD k 0 * Filter.around (src.map (fun x => (x - lo) / norm)) ((i : Int) + j - k))) ∧
        ∀ i : Nat, i < len → ∃ x m, filt[i]? = some x ∧ DFProcess.IsMedian (DFProcess.around pre post filt i) m ∧ v[i]? = some (x - m - delta)) ∧
      l.Pairwise (· < ·) ∧ ∀ i, i ∈ l ↔ IsOnset qa qc v i := by
  obtain ⟨lo, norm, q1, q2, q3, q4, q5⟩ := dcNormalize_ok hs (by omega) h.hfiltSrc hal hnz
  obtain ⟨xs, ys, r1, r2⟩ := h.hfilter
  obtain ⟨f', filt, xs', ys', k1, k2, k3, k4, k5⟩ := Filter.noFeedback_kernel ha r1 r2 (src.map (fun x => (x - lo) / norm))
  rw [List.length_map, hs] at k4 k5
  obtain ⟨v, t1, t2, t3⟩ := DFProcess.C56_threshold_partial pre post len delta false filt p.work k4 (by omega) h.hwork.ge hw
  have hd : DFProcess.process p.dfp src p.work = some ({ p.dfp with filtSrc := src.map (fun x => (x - lo) / norm), filter := f' }, v) := by
    unfold DFProcess.process
    rw [if_neg (by rw [h.hlen]; omega), h.hlen, h.halpha, q5]
    simp only [Option.bind_eq_bind, Option.bind_some]
    rw [List.take_of_length_le (by simp; omega), k1]
    simp only [Option.bind_some]
    rw [h.hpre, h.hpost, h.hdelta, h.hisPos, t1, h.hlen, h.halpha]
    rfl
  obtain ⟨l, e1, e2, e3⟩ := C29_process p src len onsets _ v h4 hs (t2.trans h.hwork) hd
  rw [h.hqa, h.hqc] at e3
  refine ⟨_, v, l, lo, norm, e1, ⟨h.hlen, h.hpre, h.hpost, h.halpha, h.hisPos, h.hdelta, h.hqa, h.hqc, by simpa using hs, t2.trans h.hwork, xs', ys', k2, k3⟩, t2.trans h.hwork,
    q1, q2, q3, q4, ⟨filt, k4, k5, by simpa using t3⟩, e2, e3⟩

theorem runs_ok (ha : Filter.NoFeedback a) (hal : 0 < alpha) (h4 : 4 ≤ len) (hw : post + pre < len ∨ post = 0) :
    ∀ (calls : List (List ℝ)) {p p' : PP}, PPOk len pre post alpha delta qa qc b a p → (∀ c ∈ calls, c.length = len) → runs p calls = some p' →
      PPOk len pre post alpha delta qa qc b a p'
  | [], p, p', h, _, hr => by
    cases hr
    exact h
  | src :: rest, p, p', h, hc, hr => by
    have hs := hc src (by simp)
    by_cases hnz : ∃ x ∈ src, x ≠ 0
    · obtain ⟨p1, v, l, lo, norm, e1, e2, _⟩ := process_any h ha hal h4 hw hs hnz []
      rw [runs, hs, e1] at hr
      exact runs_ok ha hal h4 hw rest e2 (fun c hc' => hc c (by simp [hc'])) hr
    · push Not at hnz
      have := DFProcess.C56_silence_violation p.dfp src p.work (by rw [h.hlen, hs]) (by rw [h.hlen]; omega) (by rw [h.halpha]; exact hal) hnz
      rw [runs, process, if_neg (by omega), this] at hr
      cases hr

end

/-! ### The smoothed events -/

section
variable {len pre post : Nat} {e : Nat → ℝ} {b : List ℝ} {norm : ℝ}

theorem Separate.zero_of_outside {L : Nat} (h : Separate e len L pre post) {i : Nat} (hi : i ≤ L ∨ len ≤ i + L + 1) : e i = 0 := by
  by_contra hne
  have := h.inside i hne
  omega

/-- The block around its ends: zeros are reflected as zeros. -/
theorem around_events {L : Nat} (h : Separate e len L pre post) {t : Int} (h0 : -(L : Int) ≤ t) (h1 : t < len + L) :
    Filter.around ((List.range len).map (fun i => e i / norm)) t = if 0 ≤ t then e t.toNat / norm else 0 := by
  have hg : ∀ k, k < len → ((List.range len).map (fun i => e i / norm)).getD k 0 = e k / norm := by
    intro k hk
    rw [List.getD_eq_getElem?_getD, List.getElem?_map, List.getElem?_range hk]
    rfl
  have z : ∀ k, (k ≤ L ∨ len ≤ k + L + 1) → e k / norm = 0 := fun k hk => by rw [h.zero_of_outside hk, zero_div]
  unfold Filter.around
  dsimp only
  simp only [List.length_map, List.length_range]
  by_cases c1 : t < 0
  · rw [if_pos c1, if_neg (show ¬ (0 : Int) ≤ t by omega)]
    by_cases c2 : -t < len
    · rw [if_pos c2, hg 0 (by omega), hg _ (by omega), z 0 (by omega), z _ (by omega)]
      ring
    · rw [if_neg c2]
  · rw [if_neg c1, if_pos (show (0 : Int) ≤ t by omega)]
    by_cases c2 : t < len
    · rw [if_pos c2, hg _ (by omega)]
    · rw [if_neg c2, z t.toNat (by omega)]
      by_cases c3 : t - len + 1 < len
      · rw [if_pos c3, hg _ (by omega), hg _ (by omega), z (len - 1) (by omega), z _ (by omega)]
        ring
      · rw [if_neg c3]

/-- The smoothed block. -/
noncomputable def smooth (b : List ℝ) (e : Nat → ℝ) (norm : ℝ) (len i : Nat) : ℝ :=
  ∑ j ∈ range b.length, ∑ k ∈ range b.length, b.getD j 0 * b.getD k 0 * Filter.around ((List.range len).map (fun i => e i / norm)) ((i : Int) + j - k)

theorem smooth_one (hb : 1 ≤ b.length) (h : Separate e len (b.length - 1) pre post) {i p : Nat} (hi : i < len)
    (hp : ∀ q, e q ≠ 0 → q ≤ i + (b.length - 1) → i ≤ q + (b.length - 1) → q = p) :
    smooth b e norm len i = e p / norm * auto b (if i ≤ p then p - i else i - p) := by
  have hx : smooth b e norm len i = ∑ j ∈ range b.length, ∑ k ∈ range b.length, b.getD j 0 * b.getD k 0 *
      (fun t : Int => if 0 ≤ t then e t.toNat / norm else 0) ((i : Int) + j - k) := by
    refine sum_congr rfl (fun j hj => sum_congr rfl (fun k hk => ?_))
    rw [mem_range] at hj hk
    rw [around_events h (by omega) (by omega)]
  rw [hx]
  refine (kernel_one b (fun t : Int => if 0 ≤ t then e t.toNat / norm else 0) i p ?_).trans ?_
  · intro t h1 h2 h3
    split_ifs with h0
    · have : e t.toNat = 0 := by
        by_contra hne
        exact h3 (by have := hp t.toNat hne (by omega) (by omega); omega)
      rw [this, zero_div]
    · rfl
  · rw [if_pos (by omega), Int.toNat_natCast]

theorem Separate.unique {L : Nat} (h : Separate e len L pre post) {i p q : Nat} (hp : e p ≠ 0) (hq : e q ≠ 0) (hp1 : p ≤ i + L) (hp2 : i ≤ p + L) (hq1 : q ≤ i + max L 2)
    (hq2 : i ≤ q + max L 2) : q = p := by
  by_contra hne
  rcases lt_or_gt_of_ne hne with hlt | hlt
  · have := h.apart q p hq hp hlt
    omega
  · have := h.apart p q hp hq hlt
    omega

theorem smooth_near (hb : 1 ≤ b.length) (h : Separate e len (b.length - 1) pre post) {i p : Nat} (hi : i < len) (hp : e p ≠ 0) (hp1 : p ≤ i + (b.length - 1))
    (hp2 : i ≤ p + (b.length - 1)) : smooth b e norm len i = e p / norm * auto b (if i ≤ p then p - i else i - p) :=
  smooth_one hb h hi (fun _ hq h1 h2 => h.unique hp hq hp1 hp2 (by omega) (by omega))

theorem smooth_far (hb : 1 ≤ b.length) (h : Separate e len (b.length - 1) pre post) {i : Nat} (hi : i < len) (hn : ¬ Near e (b.length - 1) i) : smooth b e norm len i = 0 := by
  rw [smooth_one hb h hi (p := i) (fun q hq h1 h2 => absurd ⟨q, hq, h1, h2⟩ hn)]
  have : e i = 0 := by
    by_contra hne
    exact hn ⟨i, hne, by omega, by omega⟩
  rw [this, zero_div, zero_mul]

theorem smooth_nonneg (hb : 1 ≤ b.length) (hh : Hump b) (hn : 0 < norm) (h : Separate e len (b.length - 1) pre post) {i : Nat} (hi : i < len) : 0 ≤ smooth b e norm len i := by
  by_cases hc : Near e (b.length - 1) i
  · obtain ⟨p, hp, h1, h2⟩ := hc
    rw [smooth_near hb h hi hp h1 h2]
    exact mul_nonneg (div_nonneg (h.nonneg p) hn.le) (auto_nonneg hh _)
  · rw [smooth_far hb h hi hc]

/-- Up to two frames from an event. -/
theorem smooth_at (hb : 1 ≤ b.length) (h : Separate e len (b.length - 1) pre post) {i p d : Nat} (hi : i < len) (hp : e p ≠ 0) (hd : d ≤ 2) (hid : i = p + d ∨ i + d = p) :
    smooth b e norm len i = e p / norm * auto b d := by
  by_cases hdl : d ≤ b.length - 1
  · rw [smooth_near hb h hi hp (by omega) (by omega)]
    congr 2
    split_ifs <;> omega
  · rw [smooth_far hb h hi, auto_far b (by omega), mul_zero]
    rintro ⟨q, hq, h1, h2⟩
    have : p = q := h.unique hq hp h1 h2 (by omega) (by omega)
    omega

theorem around_list (filt : List ℝ) (hf : filt.length = len) {i : Nat} (hi : i < len) :
    DFProcess.around pre post filt i = (List.range' (i - pre) (min len (i + post + 1) - (i - pre))).map (fun t => filt.getD t 0) := by
  unfold DFProcess.around
  apply List.ext_getElem?
  intro j
  rw [List.getElem?_take, List.getElem?_drop, List.getElem?_map]
  by_cases hj : j < min len (i + post + 1) - (i - pre)
  · rw [if_pos (by omega), List.getElem?_range' hj, Option.map_some, one_mul, List.getD_eq_getElem?_getD, List.getElem?_eq_getElem (show i - pre + j < filt.length by omega)]
    rfl
  · rw [List.getElem?_eq_none (l := List.range' _ _) (by simpa using hj), Option.map_none]
    split_ifs with h
    · exact List.getElem?_eq_none (by omega)
    · rfl

theorem median_events (hb : 1 ≤ b.length) (hh : Hump b) (hn : 0 < norm) (h : Separate e len (b.length - 1) pre post) {filt : List ℝ} (hf : filt.length = len)
    (hv : ∀ i, i < len → filt[i]? = some (smooth b e norm len i)) {i : Nat} (hi : i < len) {m : ℝ} (hm : DFProcess.IsMedian (DFProcess.around pre post filt i) m) : m = 0 := by
  have hg : ∀ t, t < len → filt.getD t 0 = smooth b e norm len t := fun t ht => by rw [List.getD_eq_getElem?_getD, hv t ht]; rfl
  set w := min len (i + post + 1) - (i - pre) with hw
  refine median_zero hm ?_ ?_
  · intro x hx
    rw [around_list filt hf hi, List.mem_map] at hx
    obtain ⟨t, ht, rfl⟩ := hx
    rw [List.mem_range'_1] at ht
    rw [hg t (by omega)]
    exact smooth_nonneg hb hh hn h (by omega)
  · rw [around_list filt hf hi, List.length_map, List.length_range', List.countP_map]
    have hq := h.quiet i hi ((List.range' (i - pre) w).filter (fun t => ¬ filt.getD t 0 = 0)).toFinset (by
      intro t ht
      rw [List.mem_toFinset, List.mem_filter, List.mem_range'_1, decide_eq_true_eq] at ht
      obtain ⟨t1, t2⟩ := ht
      refine ⟨by unfold window; rw [mem_Ico]; omega, ?_⟩
      by_contra hc
      exact t2 (by rw [hg t (by omega)]; exact smooth_far hb h (by omega) hc))
    rw [List.toFinset_card_of_nodup ((List.nodup_range').filter _)] at hq
    unfold window at hq
    rw [Nat.card_Ico, ← List.countP_eq_length_filter, ← hw] at hq
    have hsum := List.length_eq_countP_add_countP (fun t => decide (filt.getD t 0 = 0)) (l := List.range' (i - pre) w)
    rw [List.length_range'] at hsum
    simp only [decide_eq_true_eq] at hsum
    have hc : List.countP ((fun x : ℝ => decide (x = 0)) ∘ fun t => filt.getD t 0) (List.range' (i - pre) w) = List.countP (fun t => decide (filt.getD t 0 = 0)) (List.range' (i - pre) w) := rfl
    rw [hc]
    omega

/-- Where the onsets are. -/
theorem onset_iff (hb : 2 ≤ b.length) (hh : Hump b) (hn : 0 < norm) (h : Separate e len (b.length - 1) pre post) {delta qa qc : ℝ} {v : List ℝ} (hl : v.length = len)
    (hv : ∀ i, i < len → v.getD i 0 = smooth b e norm len i - delta) (i : Nat) :
    IsOnset qa qc v i ↔ i < len ∧ e i ≠ 0 ∧ Reported b delta qa qc (e i / norm) := by
  have hb1 : 1 ≤ b.length := by omega
  have fit : ∀ p, e p ≠ 0 → ((∃ f g k, BestFit v p f g k ∧ (k < -qa ∨ qc < f)) ↔
      (e p / norm * (2 * auto b 2 - auto b 1 - auto b 0) / 7 < -qa ∨ qc < e p / norm * (17 * auto b 0 + 24 * auto b 1 - 6 * auto b 2) / 35 - delta)) := by
    intro p hp
    have hin := h.inside p hp
    have e1 : v.getD (p - 2) 0 = e p / norm * auto b 2 - delta := by rw [hv _ (by omega), smooth_at hb1 h (by omega) hp le_rfl (by omega)]
    have e2 : v.getD (p - 1) 0 = e p / norm * auto b 1 - delta := by rw [hv _ (by omega), smooth_at hb1 h (d := 1) (by omega) hp (by omega) (by omega)]
    have e3 : v.getD p 0 = e p / norm * auto b 0 - delta := by rw [hv _ (by omega), smooth_at hb1 h (d := 0) (by omega) hp (by omega) (by omega)]
    have e4 : v.getD (p + 1) 0 = e p / norm * auto b 1 - delta := by rw [hv _ (by omega), smooth_at hb1 h (d := 1) (by omega) hp (by omega) (by omega)]
    have e5 : v.getD (p + 2) 0 = e p / norm * auto b 2 - delta := by rw [hv _ (by omega), smooth_at hb1 h (d := 2) (by omega) hp (by omega) (by omega)]
    simp only [bestFit_iff, e1, e2, e3, e4, e5]
    generalize e p / norm = E
    constructor
    · rintro ⟨f, g, k, ⟨rfl, rfl, rfl⟩, hc⟩
      refine hc.imp (fun hc => lt_of_eq_of_lt ?_ hc) (fun hc => lt_of_lt_of_eq hc ?_)
      · ring
      · ring
    · intro hc
      refine ⟨_, _, _, ⟨rfl, rfl, rfl⟩, hc.imp (fun hc => lt_of_eq_of_lt ?_ hc) (fun hc => lt_of_lt_of_eq hc ?_)⟩
      · ring
      · ring
  unfold IsOnset
  rw [hl]
  constructor
  · rintro ⟨a1, a2, a3, a4, a5, a6⟩
    rw [hv _ (by omega), hv _ (by omega)] at a3 a4
    rw [hv _ (by omega)] at a5
    have hnear : Near e (b.length - 1) i := by
      by_contra hc
      rw [smooth_far hb1 h (i := i) (by omega) hc] at a3
      have := smooth_nonneg hb1 hh hn h (i := i - 1) (by omega)
      linarith
    obtain ⟨p, hp, p1, p2⟩ := hnear
    have hE : 0 < e p / norm := div_pos (lt_of_le_of_ne (h.nonneg p) (Ne.symm hp)) hn
    have hin := h.inside p hp
    have hip : i = p := by
      by_contra hne
      rw [smooth_near hb1 h (i := i) (by omega) hp p1 p2] at a3 a4
      rcases lt_or_gt_of_ne hne with hlt | hlt
      · rw [smooth_near hb1 h (i := i + 1) (by omega) hp (by omega) (by omega), if_pos (by omega), if_pos (by omega)] at a4
        have := auto_antitone hh (d := p - (i + 1)) 1
        rw [show p - (i + 1) + 1 = p - i by omega] at this
        have := mul_le_mul_of_nonneg_left this hE.le
        linarith
      · rw [smooth_near hb1 h (i := i - 1) (by omega) hp (by omega) (by omega), if_neg (show ¬ i ≤ p by omega)] at a3
        have : (if i - 1 ≤ p then p - (i - 1) else i - 1 - p) = i - 1 - p := by split_ifs <;> omega
        rw [this] at a3
        have := auto_antitone hh (d := i - 1 - p) 1
        rw [show i - 1 - p + 1 = i - p by omega] at this
        have := mul_le_mul_of_nonneg_left this hE.le
        linarith
    subst hip
    refine ⟨by omega, hp, ?_, (fit i hp).mp a6⟩
    rw [smooth_at hb1 h (d := 0) (by omega) hp (by omega) (by omega)] at a5
    linarith
  · rintro ⟨_, hp, r1, r2⟩
    have hin := h.inside i hp
    have hE : 0 < e i / norm := div_pos (lt_of_le_of_ne (h.nonneg i) (Ne.symm hp)) hn
    have h01 := mul_lt_mul_of_pos_left (hh 0 (by omega)) hE
    refine ⟨by omega, by omega, ?_, ?_, ?_, (fit i hp).mpr r2⟩
    · rw [hv _ (by omega), hv _ (by omega), smooth_at hb1 h (i := i - 1) (d := 1) (by omega) hp (by omega) (by omega), smooth_at hb1 h (i := i) (d := 0) (by omega) hp (by omega) (by omega)]
      linarith
    · rw [hv _ (by omega), hv _ (by omega), smooth_at hb1 h (i := i + 1) (d := 1) (by omega) hp (by omega) (by omega), smooth_at hb1 h (i := i) (d := 0) (by omega) hp (by omega) (by omega)]
      linarith
    · rw [hv _ (by omega), smooth_at hb1 h (i := i) (d := 0) (by omega) hp (by omega) (by omega)]
      linarith

end

end QM.PeakPicking
