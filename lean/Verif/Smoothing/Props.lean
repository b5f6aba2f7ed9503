import Verif.Smoothing.Lemmas

/-!
# C137: small changes of a curve change its smoothed and thresholded versions little
-/

namespace QM.Smoothing

variable {α : Type} [Field α] [LinearOrder α] [IsStrictOrderedRing α]

open QM.MathReal (adaptiveThreshold C07_adaptiveThreshold localMean)
open QM.MedianFilter (IsSortOf sampleAt centred C09_filter)

/-- The curves have the same length and differ by at most `ε` everywhere. -/
def Near (ε : α) (x y : List α) : Prop := List.Forall₂ (fun a b => |a - b| ≤ ε) x y

/-- C137. If two curves differ by at most `ε` everywhere, `adaptiveThreshold` gives curves that differ by at most
`2ε` everywhere. -/
theorem C137_threshold (ε : α) (h0 : 0 ≤ ε) (x y : List α) (h : Near ε x y) :
    ∃ u v, adaptiveThreshold x = some u ∧ adaptiveThreshold y = some v ∧ u.length = x.length ∧ Near (2 * ε) u v := by
  obtain ⟨u, hu, lu, pu⟩ := C07_adaptiveThreshold x
  obtain ⟨v, hv, lv, pv⟩ := C07_adaptiveThreshold y
  have hl : x.length = y.length := h.length_eq
  refine ⟨u, v, hu, hv, lu, List.forall₂_iff_get.mpr ⟨by omega, fun i h1 h2 => ?_⟩⟩
  have a := pu i (by omega)
  have b := pv i (by omega)
  rw [List.getElem?_eq_getElem h1] at a
  rw [List.getElem?_eq_getElem h2] at b
  simp only [List.get_eq_getElem]
  rw [Option.some.inj a, Option.some.inj b]
  refine (max_near _ _).trans ?_
  have c := (List.forall₂_iff_get.mp h).2 i (by omega) (by omega)
  have d := localMean_near ε h0 x y h i
  simp only [List.get_eq_getElem] at c
  rw [abs_le] at c d ⊢
  constructor <;> linarith [c.1, c.2, d.1, d.2]

/-- C137. A constant added to the whole curve does not change what `adaptiveThreshold` gives. -/
theorem C137_threshold_offset (c : α) (x : List α) : adaptiveThreshold (x.map (· + c)) = adaptiveThreshold x := by
  obtain ⟨u, hu, lu, pu⟩ := C07_adaptiveThreshold x
  obtain ⟨v, hv, lv, pv⟩ := C07_adaptiveThreshold (x.map (· + c))
  rw [hu, hv]
  congr 1
  rw [List.length_map] at lv
  refine List.ext_getElem (by omega) fun i h1 h2 => ?_
  have a := pu i (by omega)
  have b := pv i (by simp; omega)
  rw [List.getElem?_eq_getElem h2] at a
  rw [List.getElem?_eq_getElem h1] at b
  rw [Option.some.inj a, Option.some.inj b]
  congr 1
  have hm : localMean (x.map (· + c)) i = localMean x i + c := by
    unfold localMean
    simp only [← List.map_drop, ← List.map_take, List.length_map]
    set w := (x.drop (i - 8)).take (i + 7 + 1 - (i - 8)) with hw
    have hp : 0 < w.length := by rw [hw]; simp; omega
    have hp' : (w.length : α) ≠ 0 := by exact_mod_cast hp.ne'
    have hs : (w.map (· + c)).sum = w.sum + w.length * c := by
      clear_value w
      clear hp hp' hw
      induction w with
      | nil => simp
      | cons a w ih => rw [List.map_cons, List.sum_cons, ih, List.sum_cons, List.length_cons]; push_cast; ring
    rw [hs, add_div, mul_div_cancel_left₀ _ hp']
  rw [hm, List.getElem_map]
  ring

theorem centred_near (size : Nat) (ε : α) (h0 : 0 ≤ ε) (x y : List α) (h : Near ε x y) (i : Nat) :
    List.Forall₂ (fun a b => |a - b| ≤ ε) (centred size (x.map some) i) (centred size (y.map some) i) := by
  have key : ∀ j : Int, |sampleAt (x.map some) j - sampleAt (y.map some) j| ≤ ε := by
    intro j
    unfold sampleAt
    split
    · simpa using h0
    · have hl : x.length = y.length := h.length_eq
      by_cases hj : j.toNat < x.length
      · have c := (List.forall₂_iff_get.mp h).2 j.toNat hj (hl ▸ hj)
        simpa [hj, hl ▸ hj] using c
      · have hj2 : ¬ j.toNat < y.length := hl ▸ hj
        rw [List.getElem?_eq_none (by simpa using hj), List.getElem?_eq_none (by simpa using hj2)]
        simpa using h0
  unfold centred
  rw [List.forall₂_map_left_iff, List.forall₂_map_right_iff]
  exact List.forall₂_same.mpr fun k _ => key _

/-- C137. If two curves differ by at most `ε` everywhere, `MedianFilter::filter` of any size gives curves that
differ by at most `ε` everywhere. -/
theorem C137_median (size : Nat) (hsz : 1 ≤ size) (ε : α) (h0 : 0 ≤ ε) (x y : List α) (h : Near ε x y) :
    ∃ u v, QM.MedianFilter.filter size (x.map some) = some u ∧ QM.MedianFilter.filter size (y.map some) = some v ∧
      u.length = x.length ∧ Near ε u v := by
  obtain ⟨u, hu, lu, pu⟩ := C09_filter size hsz (x.map some)
  obtain ⟨v, hv, lv, pv⟩ := C09_filter size hsz (y.map some)
  rw [List.length_map] at lu lv pu pv
  have hl : x.length = y.length := h.length_eq
  refine ⟨u, v, hu, hv, lu, List.forall₂_iff_get.mpr ⟨by omega, fun i h1 h2 => ?_⟩⟩
  have srt : ∀ w : List α, IsSortOf (w.mergeSort (fun a b => decide (a ≤ b))) w := by
    intro w
    refine ⟨List.mergeSort_perm _ _, ?_⟩
    have := List.pairwise_mergeSort (le := fun a b : α => decide (a ≤ b))
      (fun a b c h1 h2 => by simp at *; exact h1.trans h2) (fun a b => by simpa using le_total a b) w
    simpa using this
  obtain ⟨a1, a2⟩ := pu i (by omega) _ (srt _)
  obtain ⟨b1, b2⟩ := pv i (by omega) _ (srt _)
  rw [List.getElem?_eq_getElem h1, List.getElem?_eq_getElem a2] at a1
  rw [List.getElem?_eq_getElem h2, List.getElem?_eq_getElem b2] at b1
  simp only [List.get_eq_getElem]
  rw [Option.some.inj a1, Option.some.inj b1]
  have hn := centred_near size ε h0 x y h i
  have c1 := order_shift ε _ _ _ _ (hn.imp fun a b hab => by linarith [(abs_le.mp hab).2]) (srt _) (srt _) _ a2 b2
  have hn2 : List.Forall₂ (fun b a => b ≤ a + ε) (centred size (y.map some) i) (centred size (x.map some) i) :=
    List.Forall₂.flip (hn.imp fun a b hab => by
      show b ≤ a + ε
      linarith [(abs_le.mp hab).1])
  have c2 := order_shift ε _ _ _ _ hn2 (srt _) (srt _) _ b2 a2
  rw [abs_le]
  constructor <;> linarith

/-- C137. Median filtering keeps the order of curves: a curve that is nowhere above another one stays so. -/
theorem C137_median_monotone (size : Nat) (hsz : 1 ≤ size) (x y : List α) (h : List.Forall₂ (· ≤ ·) x y) :
    ∃ u v, QM.MedianFilter.filter size (x.map some) = some u ∧ QM.MedianFilter.filter size (y.map some) = some v ∧
      List.Forall₂ (· ≤ ·) u v := by
  obtain ⟨u, hu, lu, pu⟩ := C09_filter size hsz (x.map some)
  obtain ⟨v, hv, lv, pv⟩ := C09_filter size hsz (y.map some)
  rw [List.length_map] at lu lv pu pv
  have hl : x.length = y.length := h.length_eq
  refine ⟨u, v, hu, hv, List.forall₂_iff_get.mpr ⟨by omega, fun i h1 h2 => ?_⟩⟩
  have srt : ∀ w : List α, IsSortOf (w.mergeSort (fun a b => decide (a ≤ b))) w := by
    intro w
    refine ⟨List.mergeSort_perm _ _, ?_⟩
    have := List.pairwise_mergeSort (le := fun a b : α => decide (a ≤ b))
      (fun a b c h1 h2 => by simp at *; exact h1.trans h2) (fun a b => by simpa using le_total a b) w
    simpa using this
  obtain ⟨a1, a2⟩ := pu i (by omega) _ (srt _)
  obtain ⟨b1, b2⟩ := pv i (by omega) _ (srt _)
  rw [List.getElem?_eq_getElem h1, List.getElem?_eq_getElem a2] at a1
  rw [List.getElem?_eq_getElem h2, List.getElem?_eq_getElem b2] at b1
  simp only [List.get_eq_getElem]
  rw [Option.some.inj a1, Option.some.inj b1]
  have key : ∀ j : Int, sampleAt (x.map some) j ≤ sampleAt (y.map some) j + 0 := by
    intro j
    rw [add_zero]
    unfold sampleAt
    split
    · exact le_refl _
    · by_cases hj : j.toNat < x.length
      · have c := (List.forall₂_iff_get.mp h).2 j.toNat hj (hl ▸ hj)
        simpa [hj, hl ▸ hj] using c
      · have hj2 : ¬ j.toNat < y.length := hl ▸ hj
        rw [List.getElem?_eq_none (by simpa using hj), List.getElem?_eq_none (by simpa using hj2)]
  have hn : List.Forall₂ (fun a b => a ≤ b + 0) (centred size (x.map some) i) (centred size (y.map some) i) := by
    unfold centred
    rw [List.forall₂_map_left_iff, List.forall₂_map_right_iff]
    exact List.forall₂_same.mpr fun k _ => key _
  have c1 := order_shift 0 _ _ _ _ hn (srt _) (srt _) _ a2 b2
  simpa using c1

theorem recent_push (x acc : List α) :
    (x.map fun a => QM.MedianFilter.Op.push (some a)).foldl (fun (acc : List α) op => match op with
      | .push v => acc ++ [v.getD 0]
      | .reset => []) acc = acc ++ x := by
  induction x generalizing acc with
  | nil => simp
  | cons a x ih =>
    rw [List.map_cons, List.foldl_cons]
    refine (ih _).trans ?_
    simp

/-- C137. Two filter objects of the same size and percentile that have been fed curves differing by at most `ε`
everywhere report values that differ by at most `ε`. -/
theorem C137_object [FloorRing α] (size : Nat) (hsz : 1 ≤ size) (p : α) (ε : α) (h0 : 0 ≤ ε) (x y : List α)
    (h : Near ε x y) :
    ∃ s t a b, QM.MedianFilter.run (QM.MedianFilter.mk size p) (x.map fun a => .push (some a)) = some s ∧
      QM.MedianFilter.run (QM.MedianFilter.mk size p) (y.map fun a => .push (some a)) = some t ∧
      QM.MedianFilter.get s = some a ∧ QM.MedianFilter.get t = some b ∧ |a - b| ≤ ε := by
  have srt : ∀ w : List α, IsSortOf (w.mergeSort (fun a b => decide (a ≤ b))) w := by
    intro w
    refine ⟨List.mergeSort_perm _ _, ?_⟩
    have := List.pairwise_mergeSort (le := fun a b : α => decide (a ≤ b))
      (fun a b c h1 h2 => by simp at *; exact h1.trans h2) (fun a b => by simpa using le_total a b) w
    simpa using this
  have hr : ∀ z : List α, QM.MedianFilter.recent (z.map fun a => .push (some a)) = z := fun z =>
    (recent_push z []).trans (by simp)
  obtain ⟨s, s1, ⟨s2, s3⟩, -⟩ := QM.MedianFilter.C08_get size hsz p p (x.map fun a => .push (some a)) _ (srt _)
  obtain ⟨t, t1, ⟨t2, t3⟩, -⟩ := QM.MedianFilter.C08_get size hsz p p (y.map fun a => .push (some a)) _ (srt _)
  have hn : List.Forall₂ (fun a b => |a - b| ≤ ε)
      (QM.MedianFilter.window size (QM.MedianFilter.recent (x.map fun a => .push (some a))))
      (QM.MedianFilter.window size (QM.MedianFilter.recent (y.map fun a => .push (some a)))) := by
    rw [hr, hr]
    unfold QM.MedianFilter.window
    have hl : x.length = y.length := h.length_eq
    rw [← hl]
    refine List.forall₂_drop _ (List.rel_append (List.forall₂_same.mpr fun a _ => ?_) h)
    simpa using h0
  refine ⟨s, t, _, _, s1, t1, s3, t3, ?_⟩
  have c1 := order_shift ε _ _ _ _ (hn.imp fun a b hab => by linarith [(abs_le.mp hab).2]) (srt _) (srt _) _ s2 t2
  have hn2 := List.Forall₂.flip (hn.imp (S := fun a b => b ≤ a + ε) fun a b hab => by linarith [(abs_le.mp hab).1])
  have c2 := order_shift ε _ _ _ _ hn2 (srt _) (srt _) _ t2 s2
  rw [abs_le]
  constructor <;> linarith

/-- A spike moved a little meets the hypotheses. -/
example : Near (1 / 10 : ℚ) [0, 5, 0, 1] [1 / 10, 5, 0, 19 / 20] := by
  unfold Near
  refine .cons ?_ (.cons ?_ (.cons ?_ (.cons ?_ .nil))) <;> norm_num [abs_le]

end QM.Smoothing
