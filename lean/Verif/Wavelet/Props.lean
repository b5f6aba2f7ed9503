import Verif.Wavelet.Model
import Mathlib.Algebra.BigOperators.Group.Finset.Basic
import Mathlib.Algebra.BigOperators.Ring.Finset
import Mathlib.Algebra.Order.Field.Rat
import Mathlib.Algebra.Order.Ring.Abs
import Mathlib.Algebra.Order.Field.Basic
import Mathlib.Algebra.BigOperators.Intervals
import Mathlib.Algebra.BigOperators.Field
import Mathlib.Algebra.Ring.Parity
import Mathlib.Tactic.Ring
import Mathlib.Tactic.Linarith
import Mathlib.Tactic.NormNum
import Mathlib.Tactic.FieldSimp
import Mathlib.Data.Int.Star

/-! # C53: wavelet filters -/

namespace QM.Wavelet

open Finset

/-! ## Specification -/

/-- The families whose filters are meant to be orthogonal: all but the biorthogonal. -/
def Orthogonal (t : WType) : Bool := match t with
  | .Biorthogonal_1_3 | .Biorthogonal_1_5 | .Biorthogonal_2_2 | .Biorthogonal_2_4 | .Biorthogonal_2_6 | .Biorthogonal_2_8 | .Biorthogonal_3_1
  | .Biorthogonal_3_3 | .Biorthogonal_3_5 | .Biorthogonal_3_7 | .Biorthogonal_3_9 | .Biorthogonal_4_4 | .Biorthogonal_5_5 | .Biorthogonal_6_8 => false
  | _ => true

/-- The sum of the products of `a` with `b` moved by `s` places; outside its length a filter is zero. -/
def corr (a b : List ℚ) (s : Nat) : ℚ := ∑ k ∈ range a.length, a.getD k 0 * b.getD (k + s) 0

/-! ## Checking the table -/

theorem mem_all (t : WType) : t ∈ WType.all := by cases t <;> decide +kernel

theorem forall_types {P : WType → Bool} (h : WType.all.all P = true) (t : WType) : P t = true := List.all_eq_true.mp h t (mem_all t)

theorem lengths_table : WType.all.all (fun t => flength t = (low t).length ∧ flength t = (high t).length ∧ flength t % 2 = 0 ∧ 2 ≤ flength t) = true := by
  decide +kernel

/-- Alternating signs, beginning with minus. -/
def altNeg : Bool → List Int → List Int
  | _, [] => []
  | s, x :: xs => (if s then -x else x) :: altNeg (!s) xs

theorem mirror_table : WType.all.all (fun t => !(Orthogonal t) || (high t == altNeg true (low t).reverse)) = true := by decide +kernel

theorem gain_table : WType.all.all (fun t => ((low t).sum * (low t).sum - 2 * 10 ^ 28).natAbs ≤ 2 * 10 ^ 15 ∧ (high t).sum.natAbs ≤ 3 * 10 ^ 8) = true := by
  decide +kernel

/-- The products of the low-pass filter with itself, moved by `s` places. -/
def auto (xs : List Int) (s : Nat) : Int := (List.zipWith (· * ·) xs (xs.drop s)).sum

theorem auto_table : WType.all.all (fun t => !(Orthogonal t) || (List.range ((low t).length / 2)).all (fun m =>
    (auto (low t) (2 * m) - if m = 0 then 10 ^ 28 else 0).natAbs ≤ if t = .Daubechies_40 then 2 * 10 ^ 23 else 2 * 10 ^ 22)) = true := by decide +kernel

/-! ## From the table to the filters -/

theorem foldl_snoc {β γ : Type} (f : β → γ) (xs : List β) (acc : List γ) : xs.foldl (fun v c => v ++ [f c]) acc = acc ++ xs.map f := by
  induction xs generalizing acc with
  | nil => simp
  | cons x xs ih => rw [List.foldl_cons, ih]; simp

theorem create_eq (t : WType) (l0 h0 : List ℚ) : createDecompositionFilters t l0 h0 =
    some ((low t).map (fun c : Int => (c : ℚ) / 10 ^ 14), (high t).map (fun c : Int => (c : ℚ) / 10 ^ 14)) := by
  have h := forall_types lengths_table t
  simp only [decide_eq_true_eq] at h
  unfold createDecompositionFilters
  simp only [foldl_snoc, List.nil_append, List.length_map]
  rw [if_pos ⟨h.1, h.2.1⟩]

/-- **C53** For every type and whatever the vectors held: no assertion fails, and the two filters have the same, even, length. -/
theorem C53_lengths (t : WType) (l0 h0 : List ℚ) : ∃ l h, createDecompositionFilters t l0 h0 = some (l, h) ∧ l.length = h.length ∧ 2 ∣ l.length ∧ 2 ≤ l.length := by
  have h := forall_types lengths_table t
  simp only [decide_eq_true_eq] at h
  refine ⟨_, _, create_eq t l0 h0, ?_, ?_, ?_⟩ <;> simp only [List.length_map] <;> omega

theorem altNeg_get (s : Bool) (xs : List Int) (i : Nat) : (altNeg s xs)[i]? = xs[i]?.map (fun x => if (i % 2 == 0) = s then -x else x) := by
  induction xs generalizing s i with
  | nil => simp [altNeg]
  | cons x xs ih =>
    cases i with
    | zero => cases s <;> simp [altNeg]
    | succ i =>
      unfold altNeg
      rw [List.getElem?_cons_succ, List.getElem?_cons_succ, ih]
      congr 1
      funext y
      rcases Nat.mod_two_eq_zero_or_one i with h | h
      · have h2 : (i + 1) % 2 = 1 := by omega
        cases s <;> simp [h, h2]
      · have h2 : (i + 1) % 2 = 0 := by omega
        cases s <;> simp [h, h2]

/-- **C53** For the orthogonal families the high-pass filter is the low-pass filter reversed, with alternating signs. -/
theorem C53_mirror (t : WType) (ht : Orthogonal t = true) (l0 h0 l h : List ℚ) (hc : createDecompositionFilters t l0 h0 = some (l, h)) (i : Nat) (hi : i < l.length) :
    h[i]? = (l[l.length - 1 - i]?).map (fun x => -(-1) ^ i * x) := by
  rw [create_eq] at hc
  obtain ⟨rfl, rfl⟩ : (low t).map (fun c : Int => (c : ℚ) / 10 ^ 14) = l ∧ (high t).map (fun c : Int => (c : ℚ) / 10 ^ 14) = h := by simpa using hc
  have hm := forall_types mirror_table t
  rw [ht] at hm
  have hm : high t = altNeg true (low t).reverse := by simpa using hm
  rw [List.length_map] at hi ⊢
  rw [List.getElem?_map, hm, altNeg_get, List.getElem?_reverse hi, List.getElem?_map]
  rw [Option.map_map, Option.map_map]
  congr 1
  funext x
  rcases Nat.even_or_odd i with h | h
  · simp only [Function.comp, Nat.even_iff.mp h, h.neg_one_pow]; push_cast; simp; ring
  · simp only [Function.comp, Nat.odd_iff.mp h, h.neg_one_pow]; simp

theorem getD_out {xs : List ℚ} {k : Nat} (h : xs.length ≤ k) : xs.getD k 0 = 0 := by
  rw [List.getD_eq_getElem?_getD, List.getElem?_eq_none h]; rfl

/-- The cross-correlation of a filter with its mirror vanishes at even shifts. -/
theorem cross_zero {l h : List ℚ} (hl : l.length = h.length) (h2 : 2 ∣ l.length)
    (hm : ∀ i, i < l.length → h.getD i 0 = -(-1) ^ i * l.getD (l.length - 1 - i) 0) (m : Nat) : corr l h (2 * m) = 0 ∧ corr h l (2 * m) = 0 := by
  obtain ⟨n, hn⟩ := h2
  have key : ∀ f : Nat → ℚ, ∀ L, 2 ∣ L → (∀ k, k < L → f (L - 1 - k) = -f k) → ∑ k ∈ range L, f k = 0 := by
    intro f L _ hf
    have h1 : ∑ k ∈ range L, f k = ∑ k ∈ range L, f (L - 1 - k) := (sum_range_reflect f L).symm
    rw [sum_congr rfl (fun k hk => hf k (mem_range.mp hk)), sum_neg_distrib] at h1
    linarith
  have restrict : ∀ a b : List ℚ, a.length = b.length → corr a b (2 * m) = ∑ k ∈ range (a.length - 2 * m), a.getD k 0 * b.getD (k + 2 * m) 0 := by
    intro a b hab
    unfold corr
    symm
    refine sum_subset (fun k hk => ?_) (fun k _ hk => ?_)
    · simp only [mem_range] at hk ⊢; omega
    · rw [mem_range] at hk
      rw [getD_out (xs := b) (by omega), mul_zero]
  have sgn : ∀ a b : Nat, (a + b) % 2 = 1 → ((-1 : ℚ)) ^ a = -(-1) ^ b := by
    intro a b hab
    rcases Nat.even_or_odd a with h | h
    · have : Odd b := Nat.odd_iff.mpr (by have := Nat.even_iff.mp h; omega)
      rw [h.neg_one_pow, this.neg_one_pow]; norm_num
    · have : Even b := Nat.even_iff.mpr (by have := Nat.odd_iff.mp h; omega)
      rw [h.neg_one_pow, this.neg_one_pow]
  constructor
  · rw [restrict l h hl]
    apply key _ _ (by omega)
    intro k hk
    rw [hm (l.length - 2 * m - 1 - k + 2 * m) (by omega), hm (k + 2 * m) (by omega),
      show l.length - 1 - (l.length - 2 * m - 1 - k + 2 * m) = k by omega, show l.length - 1 - (k + 2 * m) = l.length - 2 * m - 1 - k by omega,
      sgn (l.length - 2 * m - 1 - k + 2 * m) (k + 2 * m) (by omega)]
    ring
  · rw [restrict h l hl.symm, ← hl]
    apply key _ _ (by omega)
    intro k hk
    rw [hm (l.length - 2 * m - 1 - k) (by omega), hm k (by omega),
      show l.length - 1 - (l.length - 2 * m - 1 - k) = k + 2 * m by omega, show l.length - 1 - k = l.length - 2 * m - 1 - k + 2 * m by omega,
      sgn (l.length - 2 * m - 1 - k) k (by omega)]
    ring

/-- **C53** For the orthogonal families the two filters are orthogonal to one another, exactly, at every even shift in either direction. -/
theorem C53_cross_orthogonal (t : WType) (ht : Orthogonal t = true) (l0 h0 l h : List ℚ) (hc : createDecompositionFilters t l0 h0 = some (l, h)) (m : Nat) :
    corr l h (2 * m) = 0 ∧ corr h l (2 * m) = 0 := by
  obtain ⟨l', h', e, g1, g2, _⟩ := C53_lengths t l0 h0
  rw [e] at hc
  obtain ⟨rfl, rfl⟩ : l' = l ∧ h' = h := by simpa using hc
  refine cross_zero g1 g2 (fun i hi => ?_) m
  have hm := C53_mirror t ht l0 h0 l' h' e i hi
  rw [List.getD_eq_getElem?_getD, List.getD_eq_getElem?_getD, hm, List.getElem?_eq_getElem (by omega)]
  rfl

theorem sum_scale (xs : List Int) : (xs.map (fun c : Int => (c : ℚ) / 10 ^ 14)).sum = (xs.sum : ℚ) / 10 ^ 14 := by
  induction xs with
  | nil => simp
  | cons x xs ih => rw [List.map_cons, List.sum_cons, ih, List.sum_cons]; push_cast; ring

theorem abs_le_of_natAbs {x : Int} {n : Nat} (h : x.natAbs ≤ n) : |(x : ℚ)| ≤ n := by
  have : |x| ≤ (n : Int) := by rw [Int.abs_eq_natAbs]; exact_mod_cast h
  exact_mod_cast this

/-- **C53** For every type the low-pass filter has gain √2 at frequency zero and the high-pass filter has none, up to the precision of the table. -/
theorem C53_gain (t : WType) (l0 h0 l h : List ℚ) (hc : createDecompositionFilters t l0 h0 = some (l, h)) :
    |l.sum ^ 2 - 2| ≤ 2 / 10 ^ 13 ∧ |h.sum| ≤ 3 / 10 ^ 6 := by
  rw [create_eq] at hc
  obtain ⟨rfl, rfl⟩ : (low t).map (fun c : Int => (c : ℚ) / 10 ^ 14) = l ∧ (high t).map (fun c : Int => (c : ℚ) / 10 ^ 14) = h := by simpa using hc
  have hg := forall_types gain_table t
  simp only [decide_eq_true_eq] at hg
  have h1 := abs_le_of_natAbs hg.1
  have h2 := abs_le_of_natAbs hg.2
  rw [sum_scale, sum_scale]
  constructor
  · rw [show ((low t).sum / 10 ^ 14 : ℚ) ^ 2 - 2 = (((low t).sum * (low t).sum - 2 * 10 ^ 28 : Int) : ℚ) / 10 ^ 28 by push_cast; ring, abs_div, abs_of_pos (show (0 : ℚ) < 10 ^ 28 by norm_num)]
    rw [div_le_iff₀ (by norm_num)]
    refine h1.trans ?_
    norm_num
  · rw [abs_div, abs_of_pos (show (0 : ℚ) < 10 ^ 14 by norm_num), div_le_iff₀ (by norm_num)]
    refine h2.trans ?_
    norm_num

theorem zip_corr (xs : List Int) (s : Nat) : corr (xs.map (fun c : Int => (c : ℚ) / 10 ^ 14)) (xs.map (fun c : Int => (c : ℚ) / 10 ^ 14)) s = (auto xs s : ℚ) / 10 ^ 28 := by
  have gen : ∀ (a b : List Int), ∑ k ∈ range a.length, (a.map (fun c : Int => (c : ℚ) / 10 ^ 14)).getD k 0 * (b.map (fun c : Int => (c : ℚ) / 10 ^ 14)).getD k 0 =
      (((List.zipWith (· * ·) a b : List Int).sum : Int) : ℚ) / 10 ^ 28 := by
    intro a
    induction a with
    | nil => intro b; simp
    | cons x xs ih =>
      intro b
      cases b with
      | nil => simp
      | cons y ys =>
        rw [List.length_cons, sum_range_succ']
        simp only [List.map_cons, List.getD_cons_succ, List.getD_cons_zero, List.zipWith_cons_cons, List.sum_cons]
        rw [ih ys]
        push_cast
        ring
  unfold corr auto
  rw [← gen xs (xs.drop s), List.length_map]
  refine sum_congr rfl fun k _ => ?_
  congr 1
  simp only [List.getD_eq_getElem?_getD, List.getElem?_map, List.getElem?_drop, Nat.add_comm]

/-- **C53** For the orthogonal families the low-pass filter has unit energy and is orthogonal to itself at every even shift, up to the precision of the table
(six figures; five for the longest Daubechies filter). -/
theorem C53_orthonormal (t : WType) (ht : Orthogonal t = true) (l0 h0 l h : List ℚ) (hc : createDecompositionFilters t l0 h0 = some (l, h)) (m : Nat) :
    |corr l l (2 * m) - if m = 0 then 1 else 0| ≤ if t = .Daubechies_40 then 2 / 10 ^ 5 else 2 / 10 ^ 6 := by
  rw [create_eq] at hc
  obtain ⟨rfl, rfl⟩ : (low t).map (fun c : Int => (c : ℚ) / 10 ^ 14) = l ∧ (high t).map (fun c : Int => (c : ℚ) / 10 ^ 14) = h := by simpa using hc
  by_cases hm : m < (low t).length / 2
  · have hg := forall_types auto_table t
    rw [ht, Bool.not_true, Bool.false_or, List.all_eq_true] at hg
    have hg := hg m (List.mem_range.mpr hm)
    rw [decide_eq_true_eq] at hg
    have h1 := abs_le_of_natAbs hg
    rw [zip_corr, show (auto (low t) (2 * m) : ℚ) / 10 ^ 28 - (if m = 0 then 1 else 0) = ((auto (low t) (2 * m) - if m = 0 then 10 ^ 28 else 0 : Int) : ℚ) / 10 ^ 28 by
      split_ifs <;> push_cast <;> ring, abs_div, abs_of_pos (show (0 : ℚ) < 10 ^ 28 by norm_num), div_le_iff₀ (by norm_num)]
    refine h1.trans ?_
    split_ifs <;> norm_num
  · have h2 := forall_types lengths_table t
    simp only [decide_eq_true_eq] at h2
    have hz : corr ((low t).map (fun c : Int => (c : ℚ) / 10 ^ 14)) ((low t).map (fun c : Int => (c : ℚ) / 10 ^ 14)) (2 * m) = 0 := by
      unfold corr
      refine sum_eq_zero fun k _ => ?_
      rw [getD_out (k := k + 2 * m) (by rw [List.length_map]; omega), mul_zero]
    rw [hz, if_neg (by omega)]
    split_ifs <;> norm_num

/-- **C53** The names tell the types apart, and none is that of an unknown type. -/
theorem C53_names (t u : WType) : (name t = name u → t = u) ∧ name t ≠ "(unknown)" := by
  have h1 : WType.all.all (fun t => WType.all.all (fun u => !(decide (name t = name u)) || decide (t = u))) = true := by decide +kernel
  have h2 : WType.all.all (fun t => decide (name t ≠ "(unknown)")) = true := by decide +kernel
  have h1 := forall_types (P := fun u => !(decide (name t = name u)) || decide (t = u)) (forall_types h1 t) u
  have h2 := forall_types h2 t
  refine ⟨fun h => ?_, by simpa using h2⟩
  simpa [h] using h1

example : createDecompositionFilters .Haar [7] [] = some ([70710678118655 / 10 ^ 14, 70710678118655 / 10 ^ 14], [-70710678118655 / 10 ^ 14, 70710678118655 / 10 ^ 14]) := by
  rw [create_eq]; norm_num [low, high]

end QM.Wavelet
