import Verif.MathReal.Model
import Mathlib.Algebra.Order.Floor.Semiring
import Mathlib.Algebra.BigOperators.Intervals
import Mathlib.Data.List.Sort
import Mathlib.Tactic.Linarith
import Mathlib.Tactic.FieldSimp
import Mathlib.Tactic.Ring
import Mathlib.Tactic.NormNum
import Mathlib.Tactic.Positivity

/-!
# C03-C07: floating-point helpers of `MathUtilities` (exact arithmetic)
-/

namespace QM.MathReal

section field
variable {α : Type*} [Field α] [LinearOrder α] [IsStrictOrderedRing α]

/-! ## C03: mod and princarg -/

/-- C03. For `y > 0`, `mod x y` lies in `[0, y)` and differs from `x` by a multiple of `y`. -/
theorem C03_mod_range [FloorRing α] (x y : α) (hy : 0 < y) :
    0 ≤ mod x y ∧ mod x y < y ∧ ∃ k : ℤ, x = mod x y + y * k := by
  unfold mod
  have h1 := Int.floor_le (x / y)
  have h2 := Int.lt_floor_add_one (x / y)
  rw [le_div_iff₀ hy] at h1
  rw [div_lt_iff₀ hy] at h2
  refine ⟨by linarith [mul_comm y ((⌊x / y⌋ : ℤ) : α)], by
    have := mul_comm y ((⌊x / y⌋ : ℤ) : α); linarith [add_mul ((⌊x / y⌋ : ℤ) : α) 1 y], ⌊x / y⌋, by ring⟩

example : (0 : ℚ) < 3 ∧ mod (-7 : ℚ) 3 = 2 := by
  refine ⟨by norm_num, ?_⟩
  have : ⌊(-7 : ℚ) / 3⌋ = -3 := by rw [Int.floor_eq_iff]; norm_num
  simp only [mod, this]; norm_num

/-- Negative modulus: `mod x y` lies in `(y, 0]` for `y < 0`. -/
theorem mod_neg_range [FloorRing α] (x y : α) (hy : y < 0) :
    y < mod x y ∧ mod x y ≤ 0 ∧ ∃ k : ℤ, x = mod x y + y * k := by
  unfold mod
  have h1 := Int.floor_le (x / y)
  have h2 := Int.lt_floor_add_one (x / y)
  rw [le_div_iff_of_neg hy] at h1
  rw [div_lt_iff_of_neg hy] at h2
  refine ⟨by linarith [mul_comm y ((⌊x / y⌋ : ℤ) : α), add_mul ((⌊x / y⌋ : ℤ) : α) 1 y], by
    linarith [mul_comm y ((⌊x / y⌋ : ℤ) : α)], ⌊x / y⌋, by ring⟩

/-- `round x` is an integer nearest to `x` (ties away from zero). -/
theorem round_nearest [FloorRing α] (x : α) :
    |x - round x| ≤ 1 / 2 ∧ (|x - round x| = 1 / 2 → |x| ≤ |(round x : α)|) := by
  unfold round
  by_cases h : x < 0
  · rw [if_pos h]
    have h1 := Int.floor_le (-x + 1/2)
    have h2 := Int.lt_floor_add_one (-x + 1/2)
    have h3 : (0:ℤ) ≤ ⌊-x + 1/2⌋ := Int.floor_nonneg.mpr (by linarith)
    have h4 : (0:α) ≤ ((⌊-x + 1/2⌋ : ℤ) : α) := by exact_mod_cast h3
    push_cast
    refine ⟨by rw [abs_le]; constructor <;> linarith, fun he => ?_⟩
    rw [abs_of_neg h, abs_neg, abs_of_nonneg h4]
    rcases abs_cases (x - -((⌊-x + 1/2⌋ : ℤ) : α)) with ⟨ha, _⟩ | ⟨ha, _⟩ <;> linarith
  · rw [if_neg h]
    rw [not_lt] at h
    have h1 := Int.floor_le (x + 1/2)
    have h2 := Int.lt_floor_add_one (x + 1/2)
    have h3 : (0:ℤ) ≤ ⌊x + 1/2⌋ := Int.floor_nonneg.mpr (by linarith)
    have h4 : (0:α) ≤ ((⌊x + 1/2⌋ : ℤ) : α) := by exact_mod_cast h3
    refine ⟨by rw [abs_le]; constructor <;> linarith, fun he => ?_⟩
    rw [abs_of_nonneg h, abs_of_nonneg h4]
    rcases abs_cases (x - ((⌊x + 1/2⌋ : ℤ) : α)) with ⟨ha, _⟩ | ⟨ha, _⟩ <;> linarith

end field

/-- C03 (what holds). `princarg a` differs from `a` by a multiple of `2π` and lies in `(-π, π]`: the
closed end is the upper one. Partial: the header promises `[-π, π)`, see `C03_princarg_violation`. -/
theorem C03_princarg_partial (a : ℝ) :
    -Real.pi < princarg a ∧ princarg a ≤ Real.pi ∧ ∃ k : ℤ, a = princarg a + 2 * Real.pi * k := by
  have hpi := Real.pi_pos
  obtain ⟨h1, h2, k, hk⟩ := mod_neg_range (a + Real.pi) (-2 * Real.pi) (by linarith)
  unfold princarg
  refine ⟨by linarith, by linarith, -k - 1, ?_⟩
  push_cast
  linarith

/-- C03 fails as documented: `princarg(π) = π`, which is not in `[-π, π)`. -/
theorem C03_princarg_violation : princarg Real.pi = Real.pi ∧
    ¬ (∀ a, -Real.pi ≤ princarg a ∧ princarg a < Real.pi) := by
  have h : princarg Real.pi = Real.pi := by
    unfold princarg mod
    have hpi := Real.pi_pos
    have : (Real.pi + Real.pi) / (-2 * Real.pi) = ((-1 : ℤ) : ℝ) := by
      push_cast; field_simp; ring
    rw [this, Int.floor_intCast]; push_cast; ring
  refine ⟨h, fun hall => ?_⟩
  have := (hall Real.pi).2
  rw [h] at this
  exact lt_irrefl _ this

/-- `princarg` is the only value of `(-π, π]` congruent to its argument. -/
theorem princarg_unique (a b : ℝ) (h1 : -Real.pi < b) (h2 : b ≤ Real.pi)
    (hk : ∃ k : ℤ, a = b + 2 * Real.pi * k) : princarg a = b := by
  obtain ⟨h3, h4, j, hj⟩ := C03_princarg_partial a
  obtain ⟨k, hk⟩ := hk
  have hpi := Real.pi_pos
  have : princarg a - b = 2 * Real.pi * ((k - j : ℤ) : ℝ) := by push_cast; linarith
  have hz : k - j = 0 := by
    by_contra hne
    rcases lt_or_gt_of_ne hne with h | h
    · have : ((k - j : ℤ) : ℝ) ≤ -1 := by exact_mod_cast (by omega : k - j ≤ -1)
      nlinarith
    · have : (1:ℝ) ≤ ((k - j : ℤ) : ℝ) := by exact_mod_cast (by omega : 1 ≤ k - j)
      nlinarith
  rw [hz] at this
  simp at this
  linarith

section field
variable {α : Type*} [Field α] [LinearOrder α] [IsStrictOrderedRing α]

/-! ## C04: order and summary statistics -/

theorem sum_eq (src : List α) : sum src = src.sum := by
  unfold sum; rw [List.sum_eq_foldl]

/-- C04. The median is the middle element (mean of the two middle elements) of *the* ascending
rearrangement `s` of the data; 0 for an empty block. -/
theorem C04_median (src s : List α) (hperm : s.Perm src) (hsort : s.Pairwise (· ≤ ·)) :
    (src = [] → median src = some 0) ∧
    (src.length % 2 = 1 → ∃ h : src.length / 2 < s.length, median src = some s[src.length / 2]) ∧
    (src.length % 2 = 0 → src ≠ [] → ∃ (h : src.length / 2 < s.length),
      median src = some ((s[src.length / 2] + s[src.length / 2 - 1]) / 2)) := by
  have hlen : s.length = src.length := hperm.length_eq
  have hm : src.mergeSort (fun a b => decide (a ≤ b)) = s := by
    apply List.Perm.eq_of_pairwise' (r := (· ≤ ·)) _ hsort ((List.mergeSort_perm _ _).trans hperm.symm)
    have := List.pairwise_mergeSort (le := fun a b : α => decide (a ≤ b))
      (by intro a b c; simp; exact le_trans) (by intro a b; simp; exact le_total a b) src
    simpa using this
  refine ⟨?_, ?_, ?_⟩
  · rintro rfl; simp [median]
  · intro h
    have hlt : src.length / 2 < s.length := by omega
    refine ⟨hlt, ?_⟩
    unfold median
    rw [if_neg (by omega), hm]
    simp [h, hlt]
  · intro h hne
    have hpos : 0 < src.length := List.length_pos_iff.mpr hne
    have hlt : src.length / 2 < s.length := by omega
    have hlt' : src.length / 2 - 1 < s.length := by omega
    refine ⟨hlt, ?_⟩
    unfold median
    rw [if_neg (by omega), hm]
    simp [h, List.getElem?_eq_getElem hlt, List.getElem?_eq_getElem hlt']

example : ([1, 2, 3, 5] : List ℚ).Perm [3, 1, 5, 2] ∧ ([1, 2, 3, 5] : List ℚ).Pairwise (· ≤ ·) := by
  decide

/-- C04. `mean` of a block is sum over count; 0 for an empty block. -/
theorem C04_mean (src : List α) :
    (src = [] → mean src = 0) ∧ (src ≠ [] → mean src * src.length = src.sum) := by
  constructor
  · rintro rfl; simp [mean]
  · intro h
    have : src.length ≠ 0 := by simpa using h
    unfold mean
    rw [if_neg this, sum_eq, div_mul_cancel₀]
    exact_mod_cast this

theorem sumRange_eq (src : List α) (start count : Nat) (h : start + count ≤ src.length) :
    sumRange src start count = some (((src.drop start).take count).sum) := by
  induction count with
  | zero => simp [sumRange]
  | succ k ih =>
    have hlt : start + k < src.length := by omega
    rw [sumRange, ih (by omega), List.getElem?_eq_getElem hlt]
    simp only [Option.bind_eq_bind, Option.bind_some, Option.some.injEq]
    rw [List.take_add_one, List.sum_append, List.getElem?_drop, List.getElem?_eq_getElem hlt]
    simp

/-- C04. The sub-range mean reads exactly the elements `start .. start+count-1` and averages them;
asking for elements outside the vector is an out-of-bounds read. -/
theorem C04_meanRange (src : List α) (start count : Nat) (hc : 0 < count) :
    (start + count ≤ src.length →
      meanRange src start count = some (((src.drop start).take count).sum / count)) ∧
    (src.length < start + count → meanRange src start count = none) := by
  unfold meanRange
  rw [if_neg (by omega)]
  constructor
  · intro h; rw [sumRange_eq src start count h]; rfl
  · intro h
    rw [Option.map_eq_none_iff]
    obtain ⟨k, rfl⟩ : ∃ k, count = k + 1 := ⟨count - 1, by omega⟩
    rw [sumRange, List.getElem?_eq_none (by omega)]
    cases sumRange src start k <;> rfl

/-- The loop of `getMax` keeps (first index of the running maximum, running maximum). -/
theorem getMaxLoop_spec (pre rest : List α) (index : Nat) (mx : α)
    (h1 : pre[index]? = some mx) (h2 : ∀ x ∈ pre, x ≤ mx)
    (h3 : ∀ j x, j < index → pre[j]? = some x → x < mx) :
    ∃ i m, getMaxLoop rest pre.length index mx = (i, m) ∧ (pre ++ rest)[i]? = some m ∧
      (∀ x ∈ pre ++ rest, x ≤ m) ∧ (∀ j x, j < i → (pre ++ rest)[j]? = some x → x < m) := by
  induction rest generalizing pre index mx with
  | nil => exact ⟨index, mx, rfl, by simpa using h1, by simpa using h2, by simpa using h3⟩
  | cons t rest ih =>
    have hidx : index < pre.length := by
      by_contra hc
      rw [List.getElem?_eq_none (by omega)] at h1; cases h1
    have happ : pre ++ t :: rest = (pre ++ [t]) ++ rest := by simp
    rw [getMaxLoop]
    by_cases ht : t > mx
    · rw [if_pos ht]
      have := ih (pre ++ [t]) pre.length t (by simp) (by
        intro x hx
        rcases List.mem_append.mp hx with h | h
        · exact le_trans (h2 x h) (le_of_lt ht)
        · simp at h; rw [h]) (by
        intro j x hj hx
        rw [List.getElem?_append_left hj] at hx
        exact lt_of_le_of_lt (h2 x (List.mem_of_getElem? hx)) ht)
      rw [happ]
      simpa using this
    · rw [if_neg ht]
      rw [gt_iff_lt, not_lt] at ht
      have := ih (pre ++ [t]) index mx (by rw [List.getElem?_append_left hidx]; exact h1) (by
        intro x hx
        rcases List.mem_append.mp hx with h | h
        · exact h2 x h
        · simp at h; rw [h]; exact ht) (by
        intro j x hj hx
        rw [List.getElem?_append_left (by omega)] at hx
        exact h3 j x hj hx)
      rw [happ]
      simpa using this

/-- C04. `getMax` returns the maximum and the first index at which it occurs; on an empty block it
reads memory it does not own. -/
theorem C04_getMax (data : List α) :
    (data = [] → getMax data = none) ∧
    (data ≠ [] → ∃ i m, getMax data = some (i, m) ∧ data[i]? = some m ∧ (∀ x ∈ data, x ≤ m) ∧
      ∀ j x, j < i → data[j]? = some x → x < m) := by
  constructor
  · rintro rfl; rfl
  · intro h
    cases data with
    | nil => exact absurd rfl h
    | cons d0 rest =>
      have h0 : getMaxLoop (d0 :: rest) 0 0 d0 = getMaxLoop rest 1 0 d0 := by
        rw [getMaxLoop, if_neg (by simp)]
      have := getMaxLoop_spec [d0] rest 0 d0 (by simp) (by simp) (by simp)
      simp only [List.length_cons, List.length_nil, zero_add, List.singleton_append] at this
      obtain ⟨i, m, he, hr⟩ := this
      exact ⟨i, m, by rw [getMax, h0, he], hr⟩

example : getMax ([3, 7, 7, 1] : List ℚ) = some (1, 7) := by decide

/-- C04. `getFrameMinMax` returns the least and the greatest element (0 and 0 for an empty block). -/
theorem C04_getFrameMinMax (data : List α) :
    (data = [] → getFrameMinMax data = (0, 0)) ∧
    (data ≠ [] → (getFrameMinMax data).1 ∈ data ∧ (getFrameMinMax data).2 ∈ data ∧
      ∀ x ∈ data, (getFrameMinMax data).1 ≤ x ∧ x ≤ (getFrameMinMax data).2) := by
  constructor
  · rintro rfl; rfl
  · intro h
    cases data with
    | nil => exact absurd rfl h
    | cons d0 rest =>
      have key : ∀ (l : List α) (S : List α) (mn mx : α), mn ∈ S → mx ∈ S →
          (∀ x ∈ S, mn ≤ x ∧ x ≤ mx) →
          let r := l.foldl (fun (mm : α × α) temp =>
            ((if temp < mm.1 then temp else mm.1), (if temp > mm.2 then temp else mm.2))) (mn, mx)
          r.1 ∈ S ++ l ∧ r.2 ∈ S ++ l ∧ ∀ x ∈ S ++ l, r.1 ≤ x ∧ x ≤ r.2 := by
        intro l
        induction l with
        | nil => intro S mn mx h1 h2 h3; simpa using ⟨h1, h2, h3⟩
        | cons t l ih =>
          intro S mn mx h1 h2 h3
          have := ih (S ++ [t]) (if t < mn then t else mn) (if t > mx then t else mx)
            (by split <;> simp [h1]) (by split <;> simp [h2]) (by
              intro x hx
              rcases List.mem_append.mp hx with hx | hx
              · have := h3 x hx
                constructor
                · split
                  · next h => exact le_trans (le_of_lt h) this.1
                  · exact this.1
                · split
                  · next h => exact le_trans this.2 (le_of_lt h)
                  · exact this.2
              · simp at hx; subst hx
                constructor
                · split
                  · exact le_refl _
                  · next h => exact not_lt.mp h
                · split
                  · exact le_refl _
                  · next h => exact not_lt.mp h)
          simpa using this
      have := key rest [d0] d0 d0 (by simp) (by simp) (by simp)
      simpa [getFrameMinMax] using this

/-! ## C05: circShift -/

theorem circInner_spec (d : List α) (n : Nat) (h : n < d.length) :
    ∃ d', circInner d n = some d' ∧ d'.length = d.length ∧
      ∀ j (hj : j < d.length), d'[j]? = if 1 ≤ j ∧ j ≤ n then d[j-1]? else d[j]? := by
  induction n generalizing d with
  | zero => exact ⟨d, rfl, rfl, by intro j hj; rw [if_neg (by omega)]⟩
  | succ n ih =>
    rw [circInner, List.getElem?_eq_getElem (by omega : n < d.length)]
    simp only [Option.bind_eq_bind, Option.bind_some, h, if_true]
    obtain ⟨d', h1, h2, h3⟩ := ih (d.set (n+1) d[n]) (by simp; omega)
    refine ⟨d', h1, by simpa using h2, ?_⟩
    intro j hj
    rw [h3 j (by simpa using hj)]
    rw [List.getElem?_set, List.getElem?_set]
    by_cases hj1 : j = n + 1
    · subst hj1
      rw [if_neg (by omega), if_pos (by omega)]
      simp [h]
    · by_cases hj2 : 1 ≤ j ∧ j ≤ n
      · rw [if_pos hj2, if_neg (by omega), if_pos (by omega)]
      · rw [if_neg hj2, if_neg (by omega), if_neg (by omega)]

theorem circStep_spec (d : List α) (h : 0 < d.length) :
    ∃ d', circStep d = some d' ∧ d'.length = d.length ∧
      ∀ i, i < d.length → d'[(i + 1) % d.length]? = d[i]? := by
  obtain ⟨d', h1, h2, h3⟩ := circInner_spec d (d.length - 1) (by omega)
  refine ⟨d'.set 0 d[d.length - 1], ?_, by simpa using h2, ?_⟩
  · unfold circStep
    rw [List.getElem?_eq_getElem (by omega : d.length - 1 < d.length), h1]; rfl
  · intro i hi
    rw [List.getElem?_set]
    by_cases hl : i + 1 = d.length
    · rw [hl, Nat.mod_self]
      have : i = d.length - 1 := by omega
      subst this
      simp [h2, h]
    · rw [Nat.mod_eq_of_lt (by omega), if_neg (by omega), h3 (i+1) (by omega), if_pos (by omega)]
      rfl

theorem circLoop_spec (n : Nat) (d : List α) (h : 0 < d.length) :
    ∃ d', circLoop d n = some d' ∧ d'.length = d.length ∧
      ∀ i, i < d.length → d'[(i + n) % d.length]? = d[i]? := by
  induction n generalizing d with
  | zero => exact ⟨d, rfl, rfl, fun i hi => by rw [Nat.add_zero, Nat.mod_eq_of_lt hi]⟩
  | succ n ih =>
    obtain ⟨d1, h1, h2, h3⟩ := circStep_spec d h
    obtain ⟨d2, h4, h5, h6⟩ := ih d1 (by omega)
    refine ⟨d2, by rw [circLoop, h1]; exact h4, by omega, ?_⟩
    intro i hi
    have := h6 ((i + 1) % d.length) (by rw [h2]; exact Nat.mod_lt _ h)
    rw [h2, h3 i hi] at this
    rw [← this, Nat.mod_add_mod]
    congr 2; omega

/-- C05. For a non-empty block and any non-negative shift, the block is rotated right: the element at
position `i` moves to `(i + shift) mod length`. -/
theorem C05_circShift_rotates (d : List α) (hd : d ≠ []) (s : Nat) :
    ∃ d', circShift d s = some d' ∧ d'.length = d.length ∧
      ∀ i, i < d.length → d'[(i + s) % d.length]? = d[i]? := by
  have hpos : 0 < d.length := List.length_pos_iff.mpr hd
  unfold circShift
  rw [if_neg (by omega)]
  have : ((s : Int).tmod (d.length : Int)).toNat = s % d.length := by
    rw [← Int.ofNat_tmod, Int.toNat_natCast]
  rw [this]
  obtain ⟨d', h1, h2, h3⟩ := circLoop_spec (s % d.length) d hpos
  refine ⟨d', h1, h2, ?_⟩
  intro i hi
  rw [← h3 i hi, Nat.add_mod_mod]

/-- C05. A negative shift does not move anything (the code does not rotate left). -/
theorem C05_circShift_negative (d : List α) (hd : d ≠ []) (s : Int) (hs : s < 0) :
    circShift d s = some d := by
  have hpos : 0 < d.length := List.length_pos_iff.mpr hd
  unfold circShift
  rw [if_neg (by omega)]
  have : (s.tmod (d.length : Int)).toNat = 0 := by
    have h1 : s = -((-s).toNat : Int) := by omega
    rw [h1, Int.neg_tmod, ← Int.ofNat_tmod]
    omega
  rw [this]; rfl

/-- C05. An empty block is a division by zero. -/
theorem C05_circShift_empty (s : Int) : circShift ([] : List α) s = none := rfl

example : circShift ([10, 20, 30, 40] : List ℚ) 5 = some [40, 10, 20, 30] := by decide

/-! ## C06: normalise -/

theorem sum_map_div (l : List α) (s : α) : (l.map (· / s)).sum = l.sum / s := by
  induction l with
  | nil => simp
  | cons a l ih => simp only [List.map_cons, List.sum_cons, ih]; ring

theorem foldl_maxAbs (l : List α) (m : α) :
    m ≤ l.foldl (fun mx x => if |x| > mx then |x| else mx) m ∧
    (∀ x ∈ l, |x| ≤ l.foldl (fun mx x => if |x| > mx then |x| else mx) m) ∧
    (l.foldl (fun mx x => if |x| > mx then |x| else mx) m = m ∨
      ∃ x ∈ l, l.foldl (fun mx x => if |x| > mx then |x| else mx) m = |x|) := by
  induction l generalizing m with
  | nil => simp
  | cons a l ih =>
    simp only [List.foldl_cons]
    obtain ⟨h1, h2, h3⟩ := ih (if |a| > m then |a| else m)
    have hm : m ≤ if |a| > m then |a| else m := by
      split
      · next h => exact le_of_lt h
      · exact le_refl _
    have ha : |a| ≤ if |a| > m then |a| else m := by
      split
      · exact le_refl _
      · next h => exact not_lt.mp h
    refine ⟨le_trans hm h1, ?_, ?_⟩
    · intro x hx
      rcases List.mem_cons.mp hx with rfl | hx
      · exact le_trans ha h1
      · exact h2 x hx
    · rcases h3 with h3 | ⟨x, hx, h3⟩
      · by_cases hgt : |a| > m
        · right; exact ⟨a, by simp, by rw [h3, if_pos hgt]⟩
        · left; rw [h3, if_neg hgt]
      · right; exact ⟨x, by simp [hx], h3⟩

theorem maxAbs_spec (l : List α) :
    0 ≤ maxAbs l ∧ (∀ x ∈ l, |x| ≤ maxAbs l) ∧ (maxAbs l = 0 ∨ ∃ x ∈ l, maxAbs l = |x|) :=
  foldl_maxAbs l 0

/-- C06. Unit-sum normalisation of a block with non-zero sum: sums to one, and every element keeps
its ratio to the original sum; a block with zero sum is untouched. -/
theorem C06_unitSum (data : List α) :
    (data.sum ≠ 0 → (normaliseVec data .unitSum).sum = 1 ∧
      normaliseVec data .unitSum = data.map (· / data.sum)) ∧
    (data.sum = 0 → normaliseVec data .unitSum = data) := by
  unfold normaliseVec
  rw [sum_eq]
  constructor
  · intro h; simp only [ne_eq, h, not_false_eq_true, if_true, and_true]
    rw [sum_map_div, div_self h]
  · intro h; simp [h]

/-- C06. Unit-max normalisation: if some element is non-zero, all magnitudes become `≤ 1`, one is
exactly 1, and the block is scaled by one positive constant; an all-zero block is untouched. -/
theorem C06_unitMax (data : List α) :
    ((∃ x ∈ data, x ≠ 0) → (∀ y ∈ normaliseVec data .unitMax, |y| ≤ 1) ∧
      (∃ y ∈ normaliseVec data .unitMax, |y| = 1) ∧
      ∃ c : α, 0 < c ∧ normaliseVec data .unitMax = data.map (· / c)) ∧
    ((∀ x ∈ data, x = 0) → normaliseVec data .unitMax = data) := by
  obtain ⟨h0, h1, h2⟩ := maxAbs_spec data
  constructor
  · rintro ⟨x, hx, hne⟩
    have hpos : 0 < maxAbs data := lt_of_lt_of_le (abs_pos.mpr hne) (h1 x hx)
    have hm : normaliseVec data .unitMax = data.map (· / maxAbs data) := by
      unfold normaliseVec; simp [ne_of_gt hpos]
    rw [hm]
    refine ⟨?_, ?_, maxAbs data, hpos, rfl⟩
    · intro y hy
      obtain ⟨z, hz, rfl⟩ := List.mem_map.mp hy
      rw [abs_div, abs_of_pos hpos, div_le_one hpos]
      exact h1 z hz
    · rcases h2 with h2 | ⟨z, hz, h2⟩
      · exact absurd h2 (ne_of_gt hpos)
      · refine ⟨z / maxAbs data, List.mem_map.mpr ⟨z, hz, rfl⟩, ?_⟩
        rw [abs_div, abs_of_pos hpos, ← h2, div_self (ne_of_gt hpos)]
  · intro h
    have : maxAbs data = 0 := by
      rcases h2 with h2 | ⟨z, hz, h2⟩
      · exact h2
      · rw [h2, h z hz, abs_zero]
    unfold normaliseVec; simp [this]

example : (∃ x ∈ ([0, -4, 2] : List ℚ), x ≠ 0) ∧ normaliseVec ([0, -4, 2] : List ℚ) .unitMax
    = [0, -1, 1/2] := by
  refine ⟨⟨-4, by simp, by norm_num⟩, ?_⟩
  norm_num [normaliseVec, maxAbs]

/-- C06. `NormaliseNone` changes nothing, and the array overload does on the first `length` elements
exactly what the vector overload does, leaving the memory behind them alone. -/
theorem C06_overloads (mem : List α) (length : Nat) (h : length ≤ mem.length) (t : NormaliseType) :
    normaliseArr mem length t = normaliseVec (mem.take length) t ++ mem.drop length ∧
    normaliseVec mem .none = mem := by
  refine ⟨?_, rfl⟩
  cases t with
  | none => simp [normaliseArr, normaliseVec]
  | unitSum =>
    by_cases hs : sum (mem.take length) = 0 <;> simp [normaliseArr, normaliseVec, hs]
  | unitMax =>
    by_cases hs : maxAbs (mem.take length) = 0 <;> simp [normaliseArr, normaliseVec, hs]

/-! ## C07: adaptiveThreshold -/

theorem mapM_some {β γ : Type*} (l : List β) (f : β → Option γ) (g : β → γ)
    (h : ∀ x ∈ l, f x = some (g x)) : l.mapM f = some (l.map g) := by
  induction l with
  | nil => rfl
  | cons a l ih =>
    rw [List.mapM_cons, h a (by simp), ih (fun x hx => h x (by simp [hx]))]; rfl

/-- The local mean of C07: elements with index in `[i-8, i+7]`, cut off at the ends. -/
def localMean (data : List α) (i : Nat) : α :=
  let w := (data.drop (i - 8)).take (i + 7 + 1 - (i - 8))
  w.sum / w.length

/-- C07. `adaptiveThreshold` never reads outside the vector, keeps the length, and element `i` becomes
`max 0 (x i - local mean)`. -/
theorem C07_adaptiveThreshold (data : List α) :
    ∃ out, adaptiveThreshold data = some out ∧ out.length = data.length ∧
      ∀ i (h : i < data.length), out[i]? = some (max 0 (data[i] - localMean data i)) := by
  let g : Nat → α := fun i => if h : i < data.length then max 0 (data[i] - localMean data i) else 0
  refine ⟨(List.range data.length).map g, ?_, by simp, ?_⟩
  · unfold adaptiveThreshold
    apply mapM_some
    intro i hi
    have hi' : i < data.length := by simpa using hi
    have h1 := (C04_meanRange data (i - 8) (min (data.length - 1) (i + 7) - (i - 8) + 1)
      (by omega)).1 (by omega)
    simp only [h1, Option.bind_eq_bind, Option.bind_some, List.getElem?_eq_getElem hi',
      Option.some.injEq, g, hi', dif_pos]
    have hw : (data.drop (i - 8)).take (min (data.length - 1) (i + 7) - (i - 8) + 1) =
        (data.drop (i - 8)).take (i + 7 + 1 - (i - 8)) := by
      rw [List.take_eq_take_iff, List.length_drop]; omega
    have hl : (((data.drop (i - 8)).take (i + 7 + 1 - (i - 8))).length : α) =
        ((min (data.length - 1) (i + 7) - (i - 8) + 1 : Nat) : α) := by
      rw [List.length_take, List.length_drop]; congr 1; omega
    unfold localMean
    simp only
    rw [hw, hl]
    rw [max_def]
    split
    · next h => rw [if_neg (not_le.mpr h)]
    · next h => rw [if_pos (not_lt.mp h)]
  · intro i h
    simp [g, h]

/-- C07. Every output is non-negative, and no output exceeds a non-negative input value. -/
theorem C07_adaptiveThreshold_bounds (data out : List α) (h : adaptiveThreshold data = some out) :
    (∀ y ∈ out, 0 ≤ y) ∧
    ((∀ x ∈ data, 0 ≤ x) → ∀ (i : Nat) (x y : α), data[i]? = some x → out[i]? = some y → y ≤ x) := by
  obtain ⟨o, h1, h2, h3⟩ := C07_adaptiveThreshold data
  rw [h1] at h
  cases h
  constructor
  · intro y hy
    obtain ⟨i, hi, rfl⟩ := List.mem_iff_getElem.mp hy
    have := h3 i (by omega)
    rw [List.getElem?_eq_getElem hi] at this
    rw [Option.some.inj this]
    exact le_max_left _ _
  · intro hnn i x y hx hy
    have hi : i < data.length := by
      by_contra hc
      rw [List.getElem?_eq_none (by omega)] at hx; cases hx
    rw [h3 i hi] at hy
    rw [List.getElem?_eq_getElem hi] at hx
    cases hx; cases hy
    have hm : 0 ≤ localMean data i := by
      unfold localMean
      apply div_nonneg
      · apply List.sum_nonneg
        intro z hz
        exact hnn z (List.mem_of_mem_drop (List.mem_of_mem_take hz))
      · exact_mod_cast Nat.zero_le _
    apply max_le
    · exact hnn _ (List.getElem_mem hi)
    · linarith

example : adaptiveThreshold ([0, 4, 0, 0] : List ℚ) = some [0, 3, 0, 0] := by
  norm_num [adaptiveThreshold, meanRange, sumRange, List.range, List.range.loop]

end field
end QM.MathReal
