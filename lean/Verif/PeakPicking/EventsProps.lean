import Verif.PeakPicking.Events
import Verif.MathReal.LpProps

/-!
# Theorems about events in a detection function (property C102)
-/

namespace QM.PeakPicking

open Finset

variable {len pre post alpha : Nat} {delta qa qb qc u : ℝ} {b a : List ℝ} {p p0 : PP} {e : Nat → ℝ} {base : ℝ}

/-- **C102** Separate events on any level: for a picker whose smoothing filter has no feedback and a kernel that falls away from its middle, after any
earlier calls, the frames reported are exactly the frames of the events that are high enough for their block, in order, each once. -/
theorem C102_events (ha : Filter.NoFeedback a) (hh : Hump b) (hb : 2 ≤ b.length) (hal : 0 < alpha) (h4 : 4 ≤ len) (hw : post + pre < len ∨ post = 0)
    (hm : make len pre post alpha delta qa qb qc b a u = some p0) {calls : List (List ℝ)} (hc : ∀ c ∈ calls, c.length = len)
    (hr : runs p0 calls = some p) (hs : Separate e len (b.length - 1) pre post) (hnz : ∃ i, i < len ∧ base + e i ≠ 0) (onsets : List Nat) :
    ∃ norm p' v, MathReal.getAlphaNorm (withEvents base e len) alpha = some norm ∧ 0 < norm ∧
      process p (withEvents base e len) len onsets = some (p', v, onsets ++ (List.range len).filter
        (fun i => @decide (e i ≠ 0 ∧ Reported b delta qa qc (e i / norm)) (Classical.dec _))) := by
  have hok := runs_ok ha hal h4 hw calls (make_okp ha hm) hc hr
  obtain ⟨p', v, l, lo, norm, e1, _, e3, e4, e5, e6, e7, ⟨filt, f1, f2, f3⟩, e9, e10⟩ := process_any (src := withEvents base e len) hok ha hal h4 hw (by simp [withEvents])
    (by
      obtain ⟨i, hi, hx⟩ := hnz
      exact ⟨_, List.mem_map.mpr ⟨i, List.mem_range.mpr hi, rfl⟩, hx⟩) onsets
  have hlo : lo = base := by
    refine le_antisymm (e5 _ (List.mem_map.mpr ⟨0, List.mem_range.mpr (by omega), ?_⟩)) ?_
    · rw [hs.zero_of_outside (by omega), add_zero]
    · obtain ⟨i, _, rfl⟩ := List.mem_map.mp e4
      linarith [hs.nonneg i]
  have hmap : (withEvents base e len).map (fun x => (x - lo) / norm) = (List.range len).map (fun i => e i / norm) := by
    unfold withEvents
    rw [List.map_map]
    refine List.map_congr_left (fun i _ => ?_)
    rw [Function.comp_apply, hlo, add_sub_cancel_left]
  rw [hmap] at f2
  have hv : ∀ i, i < len → v.getD i 0 = smooth b e norm len i - delta := by
    intro i hi
    obtain ⟨x, m, x1, x2, x3⟩ := f3 i hi
    have hm0 := median_events (by omega) hh e7 hs f1 f2 hi x2
    have hx : x = smooth b e norm len i := Option.some_inj.mp (x1.symm.trans (f2 i hi))
    rw [List.getD_eq_getElem?_getD, x3, hm0, hx, sub_zero]
    rfl
  refine ⟨norm, p', v, e6, e7, ?_⟩
  rw [e1]
  congr 4
  refine List.Perm.eq_of_pairwise' e9 (List.pairwise_lt_range.filter _) ?_
  rw [List.perm_ext_iff_of_nodup (e9.imp (fun h => ne_of_lt h)) (List.nodup_range.filter _)]
  intro i
  rw [e10, onset_iff hb hh e7 hs e3 hv i, List.mem_filter, List.mem_range, @decide_eq_true_eq _ (Classical.dec _)]

/-- Events that are further apart than the smoothing and threshold windows reach are separate. -/
theorem separate_of_spaced {L : Nat} (h0 : ∀ i, 0 ≤ e i) (hL : 1 ≤ L) (hwide : 2 * (2 * L + 1) < pre + post + 1)
    (hin : ∀ i, e i ≠ 0 → L + pre + post ≤ i ∧ i + L + pre + post < len)
    (hfar : ∀ i j, e i ≠ 0 → e j ≠ 0 → i < j → i + 2 * L + pre + post < j) : Separate e len L pre post := by
  refine ⟨h0, fun i hi => ?_, fun i j hi hj hij => ?_, fun i hi s hs => ?_⟩
  · have := hin i hi
    omega
  · have := hfar i j hi hj hij
    omega
  · unfold window at hs ⊢
    rw [Nat.card_Ico]
    rcases s.eq_empty_or_nonempty with rfl | ⟨t, ht⟩
    · rw [card_empty]
      omega
    · obtain ⟨t1, q, hq, t2, t3⟩ := hs t ht
      rw [mem_Ico] at t1
      have hqin := hin q hq
      have hsub : s ⊆ Icc (q - L) (q + L) := by
        intro r hr
        obtain ⟨r1, q', hq', r2, r3⟩ := hs r hr
        rw [mem_Ico] at r1
        have : q' = q := by
          by_contra hne
          rcases lt_or_gt_of_ne hne with hlt | hlt
          · have := hfar q' q hq' hq hlt
            omega
          · have := hfar q q' hq hq' hlt
            omega
        subst this
        rw [mem_Icc]
        omega
      have := card_le_card hsub
      rw [Nat.card_Icc] at this
      omega

/-- **C102** Events further apart than the windows reach, on a level of zero: all that are higher than a bound that does not depend on the block
are reported, and nothing else is. -/
theorem C102_spaced_partial (ha : Filter.NoFeedback a) (hh : Hump b) (hb : 2 ≤ b.length) (hal : 0 < alpha) (h4 : 4 ≤ len) (hw : post + pre < len ∨ post = 0)
    (hm : make len pre post alpha delta qa qb qc b a u = some p0) {calls : List (List ℝ)} (hc : ∀ c ∈ calls, c.length = len)
    (hr : runs p0 calls = some p) {top : ℝ} (h0 : ∀ i, e i ≠ 0 → 0 < e i ∧ e i ≤ top) (hwide : 2 * (2 * (b.length - 1) + 1) < pre + post + 1)
    (hin : ∀ i, e i ≠ 0 → b.length - 1 + pre + post ≤ i ∧ i + (b.length - 1) + pre + post < len)
    (hfar : ∀ i j, e i ≠ 0 → e j ≠ 0 → i < j → i + 2 * (b.length - 1) + pre + post < j) (hsome : ∃ i, e i ≠ 0)
    (hhigh : ∀ i, e i ≠ 0 → delta * top < e i * auto b 0 ∧ qa * top < e i * (auto b 0 + auto b 1 - 2 * auto b 2) / 7) (hdelta : 0 ≤ delta) (hqa : 0 ≤ qa)
    (onsets : List Nat) :
    ∃ p' v l, process p (withEvents 0 e len) len onsets = some (p', v, onsets ++ l) ∧ l.Pairwise (· < ·) ∧ ∀ i, i ∈ l ↔ e i ≠ 0 := by
  obtain ⟨i0, hi0⟩ := hsome
  have hn0 : ∀ i, 0 ≤ e i := fun i => by
    by_cases hi : e i = 0
    · exact hi.ge
    · exact (h0 i hi).1.le
  obtain ⟨norm, p', v, e1, e2, e3⟩ := C102_events (base := 0) ha hh hb hal h4 hw hm hc hr (separate_of_spaced hn0 (by omega) hwide hin hfar)
    ⟨i0, by have := hin i0 hi0; omega, by rwa [zero_add]⟩ onsets
  refine ⟨p', v, _, e3, List.pairwise_lt_range.filter _, fun i => ?_⟩
  rw [List.mem_filter, List.mem_range, @decide_eq_true_eq _ (Classical.dec _)]
  refine ⟨fun h => h.2.1, fun h => ⟨by have := hin i h; omega, h, ?_⟩⟩
  have htop : 0 < top := (h0 i h).1.trans_le (h0 i h).2
  obtain ⟨r, r1, _, r3⟩ := MathReal.C54_getAlphaNorm_bounds (withEvents 0 e len) alpha (by omega) (by unfold withEvents; simp; omega) 0 top le_rfl (by
    intro x hx
    obtain ⟨k, _, rfl⟩ := List.mem_map.mp hx
    rw [zero_add, abs_of_nonneg (hn0 k)]
    refine ⟨hn0 k, ?_⟩
    by_cases hk : e k = 0
    · rw [hk]; exact htop.le
    · exact (h0 k hk).2)
  have : r = norm := Option.some_inj.mp (r1.symm.trans e1)
  subst this
  obtain ⟨q1, q2⟩ := hhigh i h
  refine ⟨?_, Or.inl ?_⟩
  · rw [div_mul_eq_mul_div, lt_div_iff₀ e2]
    exact lt_of_le_of_lt (mul_le_mul_of_nonneg_left r3 hdelta) q1
  · have h1 : qa * r < e i * (auto b 0 + auto b 1 - 2 * auto b 2) / 7 := lt_of_le_of_lt (mul_le_mul_of_nonneg_left r3 hqa) q2
    have h2 : qa < e i * (auto b 0 + auto b 1 - 2 * auto b 2) / 7 / r := by rwa [lt_div_iff₀ e2]
    have h3 : e i / r * (2 * auto b 2 - auto b 1 - auto b 0) / 7 = -(e i * (auto b 0 + auto b 1 - 2 * auto b 2) / 7 / r) := by ring
    rw [h3]
    linarith

/-- The level is not taken out before the norm: on a level that is high enough, no event is reported at all, however separate the events
are. -/
theorem C102_level_violation (ha : Filter.NoFeedback a) (hh : Hump b) (hb : 2 ≤ b.length) (hal : 0 < alpha) (h4 : 4 ≤ len) (hw : post + pre < len ∨ post = 0)
    (hm : make len pre post alpha delta qa qb qc b a u = some p0) {calls : List (List ℝ)} (hc : ∀ c ∈ calls, c.length = len)
    (hr : runs p0 calls = some p) (hs : Separate e len (b.length - 1) pre post) (hdelta : 0 < delta) {top : ℝ} (htop : ∀ i, e i ≤ top) (hbase : 0 < base)
    (hhigh : top * auto b 0 ≤ delta * base) (onsets : List Nat) :
    ∃ p' v, process p (withEvents base e len) len onsets = some (p', v, onsets) := by
  obtain ⟨norm, p', v, e1, e2, e3⟩ := C102_events (base := base) ha hh hb hal h4 hw hm hc hr hs ⟨0, by omega, by linarith [hs.nonneg 0]⟩ onsets
  refine ⟨p', v, ?_⟩
  rw [e3, List.filter_eq_nil_iff.mpr, List.append_nil]
  intro i _ hi
  rw [@decide_eq_true_eq _ (Classical.dec _)] at hi
  obtain ⟨r, r1, r2, _⟩ := MathReal.C54_getAlphaNorm_bounds (withEvents base e len) alpha (by omega) (by unfold withEvents; simp; omega) base (base + top) hbase.le (by
    intro x hx
    obtain ⟨k, _, rfl⟩ := List.mem_map.mp hx
    rw [abs_of_nonneg (by linarith [hs.nonneg k])]
    exact ⟨by linarith [hs.nonneg k], by linarith [htop k]⟩)
  have : r = norm := Option.some_inj.mp (r1.symm.trans e1)
  subst this
  have h1 := hi.2.1
  rw [div_mul_eq_mul_div, lt_div_iff₀ e2] at h1
  have h2 := mul_le_mul_of_nonneg_right (htop i) (auto_nonneg hh 0)
  have h3 := mul_le_mul_of_nonneg_left r2 hdelta.le
  linarith

/-! A picker that smooths with `1/4, 1/2, 1/4` and blocks of 40 frames with one event: found on a level of zero, not found on a level of 100. -/

theorem hump_example : Hump [1 / 4, 1 / 2, 1 / 4] := by
  intro d hd
  simp only [List.length_cons, List.length_nil] at hd
  interval_cases d <;> norm_num [auto, sum_range_succ]

theorem noFeedback_example : Filter.NoFeedback ([1, 0, 0] : List ℝ) := by
  refine ⟨by simp, fun i => ?_⟩
  match i with
  | 0 => rfl
  | 1 => rfl
  | i + 2 => simp

theorem make_example : ∃ p, make 40 8 8 1 (1 / 8) (1 / 20) 0 1 [1 / 4, 1 / 2, 1 / 4] [1, 0, 0] 0 = some p := by
  refine ⟨_, rfl⟩

theorem single_example : ∀ i, (if i = 20 then (1 : ℝ) else 0) ≠ 0 ↔ i = 20 := by
  intro i
  split_ifs with h <;> simp [h]

example : ∃ p0, make 40 8 8 1 (1 / 8) (1 / 20) 0 1 [1 / 4, 1 / 2, 1 / 4] [1, 0, 0] 0 = some p0 ∧
    (∃ p v l, process p0 (withEvents 0 (fun i => if i = 20 then 1 else 0) 40) 40 [] = some (p, v, l) ∧ ∀ i, i ∈ l ↔ i = 20) ∧
    ∃ p v, process p0 (withEvents 100 (fun i => if i = 20 then 1 else 0) 40) 40 [] = some (p, v, []) := by
  obtain ⟨p0, hp0⟩ := make_example
  have hin : ∀ i, (if i = 20 then (1 : ℝ) else 0) ≠ 0 → 3 - 1 + 8 + 8 ≤ i ∧ i + (3 - 1) + 8 + 8 < 40 := by
    intro i hi
    rw [single_example] at hi
    omega
  have hfar : ∀ i j, (if i = 20 then (1 : ℝ) else 0) ≠ 0 → (if j = 20 then (1 : ℝ) else 0) ≠ 0 → i < j → i + 2 * (3 - 1) + 8 + 8 < j := by
    intro i j hi hj hij
    rw [single_example] at hi hj
    omega
  refine ⟨p0, hp0, ?_, ?_⟩
  · obtain ⟨p, v, l, h1, _, h3⟩ := C102_spaced_partial (p := p0) (calls := []) (top := 1) (e := fun i => if i = 20 then 1 else 0) noFeedback_example hump_example
      (by simp) (by norm_num) (by norm_num) (by norm_num) hp0 (by simp) rfl
      (by
        intro i hi
        have := (single_example i).mp hi
        simp [this])
      (by simp) hin hfar ⟨20, by simp⟩
      (by
        intro i hi
        have := (single_example i).mp hi
        norm_num [this, auto, sum_range_succ])
      (by norm_num) (by norm_num) []
    exact ⟨p, v, l, h1, fun i => (h3 i).trans (single_example i)⟩
  · exact C102_level_violation (p := p0) (calls := []) (top := 1) (e := fun i => if i = 20 then 1 else 0) noFeedback_example hump_example
      (by simp) (by norm_num) (by norm_num) (by norm_num) hp0 (by simp) rfl
      (separate_of_spaced (fun i => by split_ifs <;> norm_num) (by simp) (by simp) hin hfar) (by norm_num)
      (fun i => by split_ifs <;> norm_num) (by norm_num) (by norm_num [auto, sum_range_succ]) []

end QM.PeakPicking
