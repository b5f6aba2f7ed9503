import Verif.DFProcess.Model
import Verif.MathReal.Props
import Verif.MathReal.LpProps
import Verif.Filter.Props
import Verif.Common.Part
import Verif.Common.Fill

namespace QM.DFProcess

open QM.MathReal

/-! ## Specification -/

section
variable {α : Type} [Field α] [LinearOrder α] [IsStrictOrderedRing α]

/-- `m` is the median of the non-empty list `l`: the middle element of its ascending rearrangement, or the mean of the middle two. -/
def IsMedian (l : List α) (m : α) : Prop :=
  ∃ s : List α, s.Perm l ∧ s.Pairwise (· ≤ ·) ∧
    (l.length % 2 = 1 → s[l.length / 2]? = some m) ∧
    (l.length % 2 = 0 → ∃ a b, s[l.length / 2 - 1]? = some a ∧ s[l.length / 2]? = some b ∧ m = (a + b) / 2)

/-- The values from `pre` places before to `post` places after place `i`, as far as they exist. -/
def around (pre post : Nat) (src : List α) (i : Nat) : List α := (src.drop (i - pre)).take (i + post + 1 - (i - pre))

theorem median_ok (l : List α) (h : l ≠ []) : ∃ m, median l = some m ∧ IsMedian l m := by
  have hp := List.mergeSort_perm l (fun a b : α => decide (a ≤ b))
  have hs : (l.mergeSort (fun a b : α => decide (a ≤ b))).Pairwise (· ≤ ·) := by
    have := List.pairwise_mergeSort (le := fun a b : α => decide (a ≤ b))
      (by intro a b c; simp; exact le_trans) (by intro a b; simp; exact le_total a b) l
    simpa using this
  obtain ⟨_, h1, h2⟩ := C04_median l _ hp hs
  have hpos : 0 < l.length := List.length_pos_iff.mpr h
  by_cases ho : l.length % 2 = 1
  · obtain ⟨hl, e⟩ := h1 ho
    exact ⟨_, e, _, hp, hs, fun _ => List.getElem?_eq_getElem hl, fun he => by omega⟩
  · obtain ⟨hl, e⟩ := h2 (by omega) h
    refine ⟨_, e, _, hp, hs, fun h => absurd h ho, fun _ => ?_⟩
    exact ⟨_, _, List.getElem?_eq_getElem (by omega), List.getElem?_eq_getElem hl, by rw [add_comm]⟩

/-! ## The loops -/

theorem copyWin_ok (src y : List α) (start cnt : Nat) (h1 : start + cnt ≤ src.length) (h2 : cnt ≤ y.length) :
    ∃ y', copyWin src y start cnt = some y' ∧ y'.length = y.length ∧ y'.take cnt = (src.drop start).take cnt := by
  obtain ⟨y', a1, a2, a3⟩ := loop_inv (n := cnt) (s := y) (f := fun l y => do
      let v ← src[start + l]?
      wr y l v) (P := fun i y' => y'.length = y.length ∧ ∀ j : Nat, j < i → y'[j]? = src[start + j]?)
    ⟨rfl, fun j hj => absurd hj (Nat.not_lt_zero j)⟩
    (by
      rintro i y' hi ⟨h3, h4⟩
      refine ⟨y'.set i src[start + i], by
        simp only [List.getElem?_eq_getElem (show start + i < src.length by omega), Option.bind_eq_bind, Option.bind_some]
        exact wr_some _ (by omega), by simp [h3], fun j hj => ?_⟩
      by_cases he : j = i
      · subst he; rw [List.getElem?_set_self (by omega), List.getElem?_eq_getElem (show start + j < src.length by omega)]
      · rw [List.getElem?_set_ne (Ne.symm he)]; exact h4 j (by omega))
  refine ⟨y', a1, a2, ?_⟩
  apply List.ext_getElem?
  intro j
  rw [List.getElem?_take, List.getElem?_take]
  split
  · rw [a3 j ‹_›, List.getElem?_drop]
  · rfl

theorem copyWin_none (src y : List α) (start cnt : Nat) (h1 : src.length < start + cnt) (h0 : 0 < cnt) :
    copyWin src y start cnt = none := by
  unfold copyWin
  refine loop_none_of_le (m := cnt) le_rfl ?_
  obtain ⟨c, rfl⟩ := Nat.exists_eq_succ_of_ne_zero (Nat.pos_iff_ne_zero.mp h0)
  rw [loop]
  cases loop c (fun l y => do
    let v ← src[start + l]?
    wr y l v) y with
  | none => rfl
  | some t => simp [List.getElem?_eq_none (show src.length ≤ start + c by omega)]

/-- The state with the medians of the first `i` places stored. -/
structure Good (pre post len : Nat) (src : List α) (i : Nat) (s : Nat × List α × List (Option α)) : Prop where
  idx : s.1 = i
  ylen : s.2.1.length = post + pre + 1
  slen : s.2.2.length = len
  med : ∀ j : Nat, j < i → ∃ m, s.2.2[j]? = some (some m) ∧ IsMedian (around pre post src j) m

theorem medStep_ok {pre post len : Nat} {src : List α} {i start cnt : Nat} {s : Nat × List α × List (Option α)} (hs : src.length = len)
    (hi : i < len) (h : Good pre post len src i s) (hc : 0 < cnt) (h1 : start + cnt ≤ len) (h2 : cnt ≤ post + pre + 1)
    (hw : (src.drop start).take cnt = around pre post src i) :
    ∃ s', medStep src start cnt s = some s' ∧ Good pre post len src (i + 1) s' := by
  obtain ⟨y', a1, a2, a3⟩ := copyWin_ok src s.2.1 start cnt (by omega) (by rw [h.ylen]; exact h2)
  have hne : around pre post src i ≠ [] := by
    rw [← hw]
    intro he
    have := congrArg List.length he
    simp at this
    omega
  obtain ⟨m, b1, b2⟩ := median_ok _ hne
  refine ⟨(s.1 + 1, y', s.2.2.set s.1 (some m)), ?_, ⟨by rw [h.idx], by rw [a2, h.ylen], by simp [h.slen], fun j hj => ?_⟩⟩
  · unfold medStep
    simp only [a1, a3, hw, b1, Option.bind_eq_bind, Option.bind_some]
    rw [wr_some _ (by rw [h.slen, h.idx]; exact hi)]
    rfl
  · by_cases he : j = i
    · subst he
      exact ⟨m, by rw [h.idx, List.getElem?_set_self (by rw [h.slen]; exact hi)], b2⟩
    · dsimp only
      rw [h.idx, List.getElem?_set_ne (Ne.symm he)]
      exact h.med j (by omega)

theorem drop_take_around (src : List α) (pre post i start cnt : Nat) (h1 : start = i - pre)
    (h2 : cnt = i + post + 1 - (i - pre) ∨ (src.length ≤ start + cnt ∧ src.length ≤ i + post + 1)) :
    (src.drop start).take cnt = around pre post src i := by
  unfold around
  subst h1
  rcases h2 with rfl | ⟨h3, h4⟩
  · rfl
  · rw [List.take_of_length_le (by simp; omega), List.take_of_length_le (by simp; omega)]

theorem medians_ok (pre post len : Nat) (src : List α) (hs : src.length = len) (h0 : 0 < len) (h : post + pre < len ∨ post = 0) :
    ∃ s, medians pre post len src = some s ∧ Good pre post len src len s := by
  obtain ⟨s1, a1, a2⟩ := loop_inv (n := pre) (s := (0, List.replicate (post + pre + 1) (0 : α), List.replicate len (none : Option α)))
    (f := fun i (s : Nat × List α × List (Option α)) => if s.1 ≥ len then some s else medStep src 0 (i + post + 1) s)
    (P := fun i s => Good pre post len src (min i len) s)
    ⟨by simp, by simp, by simp, fun j hj => absurd hj (by omega)⟩
    (by
      intro i s hi hg
      by_cases hlen : len ≤ i
      · refine ⟨s, by rw [if_pos (by rw [hg.idx]; omega)], ?_⟩
        rw [show min (i + 1) len = min i len by omega]; exact hg
      · rw [if_neg (by rw [hg.idx]; omega)]
        rw [show min i len = i by omega] at hg
        rw [show min (i + 1) len = i + 1 by omega]
        exact medStep_ok hs (by omega) hg (by omega) (by omega) (by omega)
          (drop_take_around _ _ _ _ _ _ (by omega) (Or.inl (by omega))))
  obtain ⟨s2, b1, b2⟩ := loop_inv (n := len - (post + pre)) (s := s1)
    (f := fun i (s : Nat × List α × List (Option α)) => if s.1 ≥ len then some s else medStep src i (post + pre + 1) s)
    (P := fun i s => Good pre post len src (min pre len + i) s) a2
    (by
      intro i s hi hg
      rw [if_neg (by rw [hg.idx]; omega)]
      refine medStep_ok (i := min pre len + i) hs (by omega) hg (by omega) (by omega) (by omega)
        (drop_take_around _ _ _ _ _ _ (by omega) (Or.inl (by omega))))
  obtain ⟨s3, c1, c2⟩ := loop_inv (n := len - max (len - post) 1) (s := s2)
    (f := fun t (s : Nat × List α × List (Option α)) =>
      if s.1 ≥ len then some s
      else
        let k := max (max (len - post) 1 + t - pre) 1
        medStep src k (len - k) s)
    (P := fun i s => Good pre post len src (len - post + i) s)
    (by rw [show len - post + 0 = min pre len + (len - (post + pre)) by omega]; exact b2)
    (by
      intro i s hi hg
      rw [if_neg (by rw [hg.idx]; omega)]
      have hk : max (max (len - post) 1 + i - pre) 1 = len - post + i - pre := by omega
      dsimp only
      rw [hk]
      refine medStep_ok (i := len - post + i) hs (by omega) hg (by omega) (by omega) (by omega)
        (drop_take_around _ _ _ _ _ _ (by omega) (Or.inr (by omega))))
  refine ⟨s3, ?_, ?_⟩
  · unfold medians
    simp only [Option.bind_eq_bind]
    rw [a1, Option.bind_some, b1, Option.bind_some]
    exact c1
  · rw [show len - post + (len - max (len - post) 1) = len by omega] at c2
    exact c2

/-! ## C56 -/

/-- The adaptive threshold: when the block is longer than the window reaches (or the window reaches only backwards), every output is the
input minus the median of its surroundings minus the offset, and with the positive option negative results become 0. -/
theorem C56_threshold_partial (pre post len : Nat) (delta : α) (isPos : Bool) (src dst : List α) (hs : src.length = len) (h0 : 0 < len)
    (hd : len ≤ dst.length) (h : post + pre < len ∨ post = 0) :
    ∃ dst', medianFilter pre post len delta isPos src dst = some dst' ∧ dst'.length = dst.length ∧
      ∀ i : Nat, i < len → ∃ v m, src[i]? = some v ∧ IsMedian (around pre post src i) m ∧
        dst'[i]? = some (if isPos then max (v - m - delta) 0 else v - m - delta) := by
  obtain ⟨s, e1, e2⟩ := medians_ok pre post len src hs h0 h
  obtain ⟨d', a1, a2, a3⟩ := loop_inv (n := len) (s := dst) (f := fun i dst => do
      let v ← src[i]?
      let m ← s.2.2[i]?
      let m ← m
      let val := v - m - delta
      if isPos then (if val > 0 then wr dst i val else wr dst i 0)
      else wr dst i val)
    (P := fun i d => d.length = dst.length ∧ ∀ j : Nat, j < i → ∃ v m, src[j]? = some v ∧ IsMedian (around pre post src j) m ∧
        d[j]? = some (if isPos then max (v - m - delta) 0 else v - m - delta))
    ⟨rfl, fun j hj => absurd hj (Nat.not_lt_zero j)⟩
    (by
      rintro i d hi ⟨h1, h2⟩
      obtain ⟨m, m1, m2⟩ := e2.med i hi
      have hv := List.getElem?_eq_getElem (show i < src.length by omega)
      refine ⟨d.set i (if isPos then max (src[i] - m - delta) 0 else src[i] - m - delta), ?_, by simp [h1], fun j hj => ?_⟩
      · simp only [hv, m1, Option.bind_eq_bind, Option.bind_some]
        cases isPos
        · simp only [Bool.false_eq_true, if_false]
          exact wr_some _ (by omega)
        · simp only [if_true]
          by_cases hc : src[i] - m - delta > 0
          · rw [if_pos hc, max_eq_left (le_of_lt hc)]; exact wr_some _ (by omega)
          · rw [if_neg hc, max_eq_right (not_lt.mp hc)]; exact wr_some _ (by omega)
      · by_cases he : j = i
        · subst he
          exact ⟨_, m, hv, m2, by rw [List.getElem?_set_self (by omega)]⟩
        · rw [List.getElem?_set_ne (Ne.symm he)]; exact h2 j (by omega))
  refine ⟨d', ?_, a2, a3⟩
  unfold medianFilter
  simp only [e1, Option.bind_eq_bind, Option.bind_some]
  exact a1

example : medianFilter 1 1 3 (0 : ℚ) false [5, 1, 3] [0, 0, 0] = some [2, -2, 1] := by
  norm_num [medianFilter, medians, medStep, copyWin, loop, wr, median, List.mergeSort, List.MergeSort.Internal.splitInTwo, List.merge,
    List.replicate, List.cons_ne_nil]

/-- The guarantee fails for short blocks. A window reaching both ways further than the block is long reads past the end of the block. -/
theorem C56_short_block_violation (pre post len : Nat) (delta : α) (isPos : Bool) (src dst : List α) (hs : src.length ≤ len)
    (h0 : 0 < len) (h1 : 0 < pre) (h2 : 0 < post) (h : len < post + pre) : medianFilter pre post len delta isPos src dst = none := by
  have hl : loop pre (fun i (s : Nat × List α × List (Option α)) => if s.1 ≥ len then some s else medStep src 0 (i + post + 1) s)
      (0, List.replicate (post + pre + 1) (0 : α), List.replicate len (none : Option α)) = none := by
    -- the iteration that copies past the end
    let i := len - post
    have hidx : ∀ m, m ≤ i → ∀ s, loop m (fun i (s : Nat × List α × List (Option α)) =>
        if s.1 ≥ len then some s else medStep src 0 (i + post + 1) s)
        (0, List.replicate (post + pre + 1) (0 : α), List.replicate len (none : Option α)) = some s → s.1 ≤ m := by
      intro m
      induction m with
      | zero => intro _ s hs; simp only [loop, Option.some.injEq] at hs; rw [← hs]
      | succ m ih =>
        intro hm s hs'
        rw [loop] at hs'
        cases hl : loop m (fun i (s : Nat × List α × List (Option α)) =>
            if s.1 ≥ len then some s else medStep src 0 (i + post + 1) s)
            (0, List.replicate (post + pre + 1) (0 : α), List.replicate len (none : Option α)) with
        | none => rw [hl] at hs'; cases hs'
        | some t =>
          have ht := ih (by omega) t hl
          rw [hl] at hs'
          simp only [Option.bind_some] at hs'
          split at hs'
          · cases hs'; omega
          · unfold medStep at hs'
            simp only [Option.bind_eq_bind, Option.bind_eq_some_iff, Option.pure_def, Option.some.injEq] at hs'
            obtain ⟨_, _, _, _, _, _, rfl⟩ := hs'
            dsimp only
            omega
    refine loop_none_of_le (m := i + 1) (by omega) ?_
    rw [loop]
    cases hl : loop i (fun i (s : Nat × List α × List (Option α)) =>
        if s.1 ≥ len then some s else medStep src 0 (i + post + 1) s)
        (0, List.replicate (post + pre + 1) (0 : α), List.replicate len (none : Option α)) with
    | none => rfl
    | some t =>
      have ht := hidx i le_rfl t hl
      simp only [Option.bind_some]
      rw [if_neg (by omega)]
      unfold medStep
      rw [copyWin_none _ _ _ _ (by omega) (by omega)]
      rfl
  unfold medianFilter medians
  simp only [hl, Option.bind_eq_bind, Option.bind_none]

/-- A window reaching only forwards, and over the whole block: the last median is never computed and uninitialised memory is read. -/
theorem C56_forward_window_violation : medianFilter 0 2 2 (0 : ℚ) false [5, 1] [0, 0] = none := by
  norm_num [medianFilter, medians, medStep, copyWin, loop, wr, median, List.mergeSort, List.MergeSort.Internal.splitInTwo, List.merge,
    List.replicate, List.cons_ne_nil]

/-- A window exactly as long as the block: at place 1 the first value is left out of the median. -/
theorem C56_exact_window_violation :
    medianFilter 1 2 3 (0 : ℚ) false [5, 1, 2] [0, 0, 0] = some [3, -1 / 2, 1 / 2] ∧ IsMedian (around 1 2 [5, 1, (2 : ℚ)] 1) 2 := by
  refine ⟨?_, [1, 2, 5], by decide, by decide, fun _ => by decide, fun h => absurd h (by decide)⟩
  norm_num [medianFilter, medians, medStep, copyWin, loop, wr, median, List.mergeSort, List.MergeSort.Internal.splitInTwo, List.merge,
    List.replicate, List.cons_ne_nil]

end

theorem alphaNorm_pos (src : List ℝ) (alpha : Nat) (ha : 0 < alpha) (hnz : ∃ x ∈ src, x ≠ 0) :
    ∃ norm, getAlphaNorm src alpha = some norm ∧ 0 < norm := by
  obtain ⟨x, hx, hx0⟩ := hnz
  have hl : 0 < src.length := List.length_pos_of_mem hx
  unfold getAlphaNorm
  rw [if_neg (by omega)]
  refine ⟨_, rfl, ?_⟩
  apply Real.rpow_pos_of_pos
  apply div_pos _ (by exact_mod_cast hl)
  rw [foldl_add_map (fun x => |x| ^ (alpha : ℝ)), zero_add]
  have hnn : ∀ y ∈ src.map (fun x => |x| ^ (alpha : ℝ)), 0 ≤ y := by
    intro y hy
    obtain ⟨z, _, rfl⟩ := List.mem_map.mp hy
    exact Real.rpow_nonneg (abs_nonneg z) _
  refine lt_of_lt_of_le (Real.rpow_pos_of_pos (abs_pos.mpr hx0) (alpha : ℝ)) ?_
  exact List.single_le_sum hnn _ (List.mem_map.mpr ⟨x, hx, rfl⟩)

/-- A first call of `DFProcess::process` with a filter of order at least 1 on a block that is not all zero: the output is the thresholded
version of the zero-phase filtered version of the block shifted to minimum 0 and scaled by its alpha norm. -/
theorem C56_process_partial (len pre post alpha : Nat) (isPos : Bool) (delta : ℝ) (b a : List ℝ) (u : ℝ) (d : DFP) (src dst : List ℝ)
    (hm : make len pre post alpha isPos delta b a u = some d) (hord : a.length ≠ 1) (ha : 0 < alpha) (h0 : 0 < len)
    (hs : src.length = len) (hnz : ∃ x ∈ src, x ≠ 0) (hd : len ≤ dst.length) (h : post + pre < len ∨ post = 0) :
    ∃ d' dst' lo norm fs f' filt, process d src dst = some (d', dst') ∧
      lo ∈ src ∧ (∀ x ∈ src, lo ≤ x) ∧ getAlphaNorm src alpha = some norm ∧ 0 < norm ∧
      fs = src.map (fun x => (x - lo) / norm) ∧ Filter.filtfilt d.filter fs = some (f', filt) ∧ filt.length = len ∧
      dst'.length = dst.length ∧
      ∀ i : Nat, i < len → ∃ v m, filt[i]? = some v ∧ IsMedian (around pre post filt i) m ∧
        dst'[i]? = some (if isPos then max (v - m - delta) 0 else v - m - delta) := by
  unfold make at hm
  cases hf : Filter.new b a with
  | error e => rw [hf] at hm; cases hm
  | ok f =>
    rw [hf] at hm
    simp only [Option.some.injEq] at hm
    subst hm
    have hne : src ≠ [] := by rintro rfl; simp at hs; omega
    obtain ⟨m1, _, m3⟩ := (C04_getFrameMinMax src).2 hne
    obtain ⟨norm, n1, n2⟩ := alphaNorm_pos src alpha ha hnz
    let lo := (getFrameMinMax src).1
    have hdc : removeDCNormalize len alpha src (List.replicate len u) = some (src.map (fun x => (x - lo) / norm)) := by
      unfold removeDCNormalize
      rw [if_neg (by omega), List.take_of_length_le (by omega)]
      simp only [n1, Option.bind_eq_bind, Option.bind_some]
      rw [if_neg (ne_of_gt n2)]
      obtain ⟨xs, l1, l2, l3, _⟩ := fill_ok len (fun i dst => do
          let v ← src[i]?
          wr dst i ((v - lo) / norm)) (fun i => (src.getD i 0 - lo) / norm) (List.replicate len u) (by simp)
        (by
          intro i b hi hb _ _
          simp only [List.getElem?_eq_getElem (show i < src.length by omega), Option.bind_eq_bind, Option.bind_some]
          rw [wr_some _ (by rw [hb]; simpa using hi)]
          simp [List.getD_eq_getElem?_getD, List.getElem?_eq_getElem (show i < src.length by omega)])
      refine l1.trans (congrArg some ?_)
      apply List.ext_getElem?
      intro i
      by_cases hi : i < len
      · rw [l3 i hi]
        simp [List.getElem?_eq_getElem (show i < src.length by omega)]
      · rw [List.getElem?_eq_none (by rw [l2]; simp; omega), List.getElem?_eq_none (by simp; omega)]
    obtain ⟨f', filt, y1, y2, q1, _, _, q2, _⟩ := Filter.C12_first_call_partial b a f hf hord (src.map (fun x => (x - lo) / norm))
      (by simpa using hne)
    rw [List.length_map, hs] at q2
    obtain ⟨dst', t1, t2, t3⟩ := C56_threshold_partial pre post len delta isPos filt dst q2 h0 hd h
    refine ⟨⟨len, pre, post, alpha, isPos, delta, src.map (fun x => (x - lo) / norm), f'⟩, dst', lo, norm, src.map (fun x => (x - lo) / norm), f', filt, ?_, m1, fun x hx => (m3 x hx).1, n1, n2, rfl, q1, q2, t2, t3⟩
    unfold process
    rw [if_neg (by dsimp only; omega)]
    simp only [hdc, Option.bind_eq_bind, Option.bind_some]
    rw [List.take_of_length_le (by simp; omega)]
    simp only [q1, t1, Option.bind_some]
    rfl

/-- A silent block has alpha norm 0 and the normalisation divides zero by zero. -/
theorem C56_silence_violation (d : DFP) (src dst : List ℝ) (hs : src.length = d.len) (h0 : 0 < d.len) (ha : 0 < d.alpha)
    (hz : ∀ x ∈ src, x = 0) : process d src dst = none := by
  have hn : getAlphaNorm src d.alpha = some 0 := by
    unfold getAlphaNorm
    rw [if_neg (by omega), foldl_add_map (fun x => |x| ^ (d.alpha : ℝ)), zero_add]
    rw [List.sum_eq_zero, zero_div, Real.zero_rpow]
    · simp; omega
    · intro y hy
      obtain ⟨x, hx, rfl⟩ := List.mem_map.mp hy
      rw [hz x hx, abs_zero, Real.zero_rpow]
      simp; omega
  unfold process removeDCNormalize
  rw [if_neg (by omega), if_neg (by omega), List.take_of_length_le (by omega)]
  simp [hn]

end QM.DFProcess
