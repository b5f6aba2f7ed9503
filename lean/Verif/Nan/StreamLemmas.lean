import Verif.Nan.FilterLemmas
import Verif.Nan.Model

/-! Which outputs are NaN, and what a NaN leaves behind. -/

namespace QM.Nan

open QM.Filter (State offmax)
open Finset

theorem hist_nan (l : List Num) (i : Nat) : hist l i = .nan ↔ i < l.length ∧ l[l.length - 1 - i]? = some .nan := by
  unfold hist
  rw [List.getD_eq_getElem?_getD]
  by_cases h : i < l.length
  · rw [List.getElem?_reverse h]
    have : l.length - 1 - i < l.length := by omega
    rw [List.getElem?_eq_getElem this]
    simp [h]
  · rw [List.getElem?_eq_none (by simp; omega)]
    simp [h, Num.zero_eq]

/-- Outputs that are NaN, for a filter without recursive part of `len` coefficients. -/
def FirRel (len : Nat) (xs ys : List Num) : Prop :=
  ys.length = xs.length ∧ ∀ n, n < xs.length → (ys[n]? = some .nan ↔ ∃ m, m ≤ n ∧ n < m + len ∧ xs[m]? = some .nan)

/-- Outputs that are NaN, for a recursive filter. -/
def IirRel (xs ys : List Num) : Prop :=
  ys.length = xs.length ∧ ∀ n, n < xs.length → (ys[n]? = some .nan ↔ ∃ m, m ≤ n ∧ xs[m]? = some .nan)

theorem firRel_snoc (b : List ℝ) (xs ys : List Num) (x : Num) (h : FirRel b.length xs ys) :
    FirRel b.length (xs ++ [x]) (ys ++ [nextOut b [] xs ys x]) := by
  obtain ⟨h1, h2⟩ := h
  refine ⟨by simp [h1], fun n hn => ?_⟩
  rw [List.length_append, List.length_singleton] at hn
  by_cases hlt : n < xs.length
  · rw [List.getElem?_append_left (by omega), h2 n hlt]
    refine exists_congr fun m => and_congr_right fun hm => and_congr_right fun _ => ?_
    rw [List.getElem?_append_left (by omega)]
  · have hn' : n = ys.length := by omega
    rw [hn', List.getElem?_append_right le_rfl, Nat.sub_self]
    simp only [List.getElem?_cons_zero, Option.some.injEq]
    rw [next_fir]
    constructor
    · rintro ⟨i, hi, e⟩
      rw [hist_nan] at e
      rw [List.length_append, List.length_singleton] at e
      refine ⟨xs.length - i, by omega, by omega, ?_⟩
      rw [← e.2]
      congr 1
    · rintro ⟨m, hm, hm2, e⟩
      refine ⟨xs.length - m, by omega, ?_⟩
      rw [hist_nan, List.length_append, List.length_singleton]
      refine ⟨by omega, ?_⟩
      rw [← e]
      congr 1; omega

theorem mem_ok {l : List Num} (h : ∀ m : Nat, l[m]? ≠ some Num.nan) : ∀ v ∈ l, v ≠ .nan := by
  rintro v hv rfl
  obtain ⟨i, hi⟩ := List.mem_iff_getElem?.mp hv
  exact h i hi

theorem iirRel_snoc (b a : List ℝ) (ha : 2 ≤ a.length) (hb : 1 ≤ b.length) (xs ys : List Num) (x : Num) (h : IirRel xs ys) :
    IirRel (xs ++ [x]) (ys ++ [nextOut b a xs ys x]) := by
  obtain ⟨h1, h2⟩ := h
  refine ⟨by simp [h1], fun n hn => ?_⟩
  rw [List.length_append, List.length_singleton] at hn
  by_cases hlt : n < xs.length
  · rw [List.getElem?_append_left (by omega), h2 n hlt]
    refine exists_congr fun m => and_congr_right fun hm => ?_
    rw [List.getElem?_append_left (by omega)]
  · have hn' : n = ys.length := by omega
    rw [hn', List.getElem?_append_right le_rfl, Nat.sub_self]
    simp only [List.getElem?_cons_zero, Option.some.injEq]
    constructor
    · intro e
      by_contra hno
      rw [not_exists] at hno
      have hx : x ≠ .nan := fun hx => hno xs.length ⟨by omega, by simp [hx]⟩
      have hxs : ∀ m : Nat, xs[m]? ≠ some Num.nan := by
        intro m hm
        have hml : m < xs.length := (List.getElem?_eq_some_iff.mp hm).1
        exact hno m ⟨by omega, by rw [List.getElem?_append_left hml, hm]⟩
      have hys : ∀ m : Nat, ys[m]? ≠ some Num.nan := by
        intro m hm
        have hml : m < ys.length := (List.getElem?_eq_some_iff.mp hm).1
        obtain ⟨m', _, h3⟩ := (h2 m (by omega)).mp hm
        exact hxs m' h3
      exact next_ok b a xs ys x hx (mem_ok hxs) (mem_ok hys) e
    · rintro ⟨m, hm, e⟩
      apply next_iir b a ha hb
      by_cases hme : m = xs.length
      · right
        rw [hme] at e
        simpa using e
      · left
        rw [hist_nan]
        rw [List.getElem?_append_left (by omega)] at e
        refine ⟨by omega, (h2 _ (by omega)).mpr ⟨m, by omega, e⟩⟩

theorem firRel_outs (b : List ℝ) (blk xs ys : List Num) (h : FirRel b.length xs ys) : FirRel b.length (xs ++ blk) (ys ++ outs b [] xs ys blk) := by
  induction blk generalizing xs ys with
  | nil => simpa [outs] using h
  | cons x blk ih =>
    have := ih _ _ (firRel_snoc b xs ys x h)
    simpa [outs] using this

theorem iirRel_outs (b a : List ℝ) (ha : 2 ≤ a.length) (hb : 1 ≤ b.length) (blk xs ys : List Num) (h : IirRel xs ys) :
    IirRel (xs ++ blk) (ys ++ outs b a xs ys blk) := by
  induction blk generalizing xs ys with
  | nil => simpa [outs] using h
  | cons x blk ih =>
    have := ih _ _ (iirRel_snoc b a ha hb xs ys x h)
    simpa [outs] using this

/-! ## `FiltFilt` -/

/-- A recursive filter of order one or more with NaN in its memory. -/
def Poisoned (b a : List ℝ) (s : State Num) : Prop := ∃ xs ys, Inv b a s xs ys ∧ hist ys 0 = .nan

theorem loop_length {n : Nat} {f : Nat → List Num → Option (List Num)} {s : List Num}
    (h : ∀ i ys, i < n → ys.length = s.length → ∃ zs, f i ys = some zs ∧ zs.length = s.length) :
    ∃ zs, loop n f s = some zs ∧ zs.length = s.length := by
  obtain ⟨zs, h1, h2⟩ := loop_inv n f s (fun _ ys => ys.length = s.length) rfl (by
    intro i ys hi hl
    obtain ⟨zs, e1, e2⟩ := h i ys hi hl
    exact ⟨zs, e1, e2⟩)
  exact ⟨zs, h1, h2⟩

theorem extend_spec (nFact : Nat) (src : List Num) (hs : 0 < src.length) :
    ∃ ext, extend nFact src = some ext ∧ ext.length = src.length + 2 * nFact ∧ ∀ i, i < src.length → ext[i + nFact]? = src[i]? := by
  have hz : (List.replicate (src.length + 2 * nFact) (0 : Num)).length = src.length + 2 * nFact := by simp
  obtain ⟨e1, h1, l1⟩ := loop_length (n := nFact) (s := List.replicate (src.length + 2 * nFact) (0 : Num)) (f := fun index sc => do
      let i := nFact - index
      if i < src.length then
        let v ← src[i]?
        wr sc index (.val 2 * src[0] - v)
      else some sc) (by
    intro i ys hi hl
    dsimp only
    by_cases h : nFact - i < src.length
    · rw [if_pos h, List.getElem?_eq_getElem h]
      exact ⟨_, wr_some _ (by rw [hl, hz]; omega), by simp [hl]⟩
    · rw [if_neg h]
      exact ⟨ys, rfl, hl⟩)
  rw [hz] at l1
  have hN : src.length - 1 < src.length := by omega
  obtain ⟨e2, h2, l2⟩ := loop_length (n := nFact) (s := e1) (f := fun i sc => do
      if i + 1 < src.length then
        let v ← src[(src.length - 2) - i]?
        wr sc ((src.length + 2 * nFact - nFact) + i) (.val 2 * src[src.length - 1] - v)
      else some sc) (by
    intro i ys hi hl
    by_cases h : i + 1 < src.length
    · have h' : src.length - 2 - i < src.length := by omega
      rw [if_pos h, List.getElem?_eq_getElem h']
      exact ⟨_, wr_some _ (by rw [hl, l1]; omega), by simp [hl]⟩
    · rw [if_neg h]
      exact ⟨ys, rfl, hl⟩)
  rw [l1] at l2
  obtain ⟨e3, h3, l3, v3⟩ := loop_inv src.length (fun i sc => do
      let v ← src[i]?
      wr sc (i + nFact) v) e2 (fun k ys => ys.length = src.length + 2 * nFact ∧ ∀ i, i < k → ys[i + nFact]? = src[i]?) ⟨l2, by simp⟩ (by
    rintro i ys hi ⟨hl, hv⟩
    rw [List.getElem?_eq_getElem hi]
    refine ⟨_, wr_some _ (by omega), by simp [hl], fun j hj => ?_⟩
    by_cases he : j = i
    · subst he
      rw [List.getElem?_set_self (by omega), List.getElem?_eq_getElem hi]
    · rw [List.getElem?_set_ne (by omega)]
      exact hv j (by omega))
  refine ⟨e3, ?_, l3, v3⟩
  unfold extend
  dsimp only
  rw [List.getElem?_eq_getElem hs, List.getElem?_eq_getElem hN]
  rw [bind_ok (a := src[0]) rfl, bind_ok (a := src[src.length - 1]) rfl, bind_ok h1, bind_ok h2]
  exact h3

theorem filter_inv {b a : List ℝ} {s s' : State Num} {blk out : List Num} (h : ∃ xs ys, Inv b a s xs ys) (e : filter s blk = some (s', out)) :
    out.length = blk.length ∧ ∃ xs ys, Inv b a s' xs ys := by
  obtain ⟨xs, ys, hi⟩ := h
  obtain ⟨s1, e1, e2⟩ := filter_spec b a blk s xs ys hi
  rw [e, Option.some.injEq, Prod.mk.injEq] at e1
  obtain ⟨rfl, rfl⟩ := e1
  exact ⟨outs_length _ _ _ _ _, _, _, e2⟩

theorem filtfilt_inv {b a : List ℝ} {s s' : State Num} {src out : List Num} (h : ∃ xs ys, Inv b a s xs ys) (e : filtfilt s src = some (s', out)) :
    ∃ xs ys, Inv b a s' xs ys := by
  unfold filtfilt at e
  by_cases hs : src.length = 0
  · rw [if_pos hs, Option.some.injEq, Prod.mk.injEq] at e
    rw [← e.1]; exact h
  · rw [if_neg hs] at e
    obtain ⟨ext, e1, _, _⟩ := extend_spec (3 * (s.sz - 1)) src (by omega)
    rw [bind_ok e1] at e
    obtain ⟨xs, ys, hi⟩ := h
    obtain ⟨s1, f1, f2⟩ := filter_spec b a ext s xs ys hi
    rw [bind_ok f1] at e
    dsimp only at e
    obtain ⟨s2, g1, g2⟩ := filter_spec b a (outs b a xs ys ext).reverse (resetFilter s1) [] [] (reset_inv b a s1 _ _ f2)
    rw [bind_ok g1] at e
    simp only [Option.some.injEq, Prod.mk.injEq] at e
    rw [← e.1]
    exact ⟨_, _, g2⟩

theorem hist_replicate {n : Nat} (h : 0 < n) (l : List Num) : hist (l ++ List.replicate n .nan) 0 = .nan := by
  rw [hist_nan, List.length_append, List.length_replicate]
  refine ⟨by omega, ?_⟩
  rw [List.getElem?_append_right (by omega), List.getElem?_replicate, if_pos (by omega)]

/-- A NaN in the memory or anywhere in the block spoils the whole block and stays in the memory. -/
theorem filtfilt_bad {b a : List ℝ} (ha : 2 ≤ a.length) {s : State Num} {src : List Num} (hs : 0 < src.length)
    (h : Poisoned b a s ∨ ((∃ xs ys, Inv b a s xs ys) ∧ .nan ∈ src)) :
    ∃ s', filtfilt s src = some (s', List.replicate src.length .nan) ∧ Poisoned b a s' := by
  obtain ⟨ext, e1, e2, e3⟩ := extend_spec (3 * (s.sz - 1)) src hs
  have hlast : ∃ xs ys s1, filter s ext = some (s1, outs b a xs ys ext) ∧ (∃ xs ys, Inv b a s1 xs ys) ∧ 1 ≤ b.length ∧
      (outs b a xs ys ext).getLast? = some .nan := by
    have hne : ext ≠ [] := by rw [← List.length_pos_iff]; omega
    rcases h with ⟨xs, ys, hi, hn⟩ | ⟨⟨xs, ys, hi⟩, hn⟩
    · obtain ⟨s1, f1, f2⟩ := filter_spec b a ext s xs ys hi
      refine ⟨xs, ys, s1, f1, ⟨_, _, f2⟩, hi.hpos, ?_⟩
      rw [outs_poisoned b a ha hi.hpos ext xs ys hn, List.getLast?_replicate, if_neg (by omega)]
    · obtain ⟨s1, f1, f2⟩ := filter_spec b a ext s xs ys hi
      refine ⟨xs, ys, s1, f1, ⟨_, _, f2⟩, hi.hpos, ?_⟩
      have hin : Num.nan ∈ ext := by
        obtain ⟨i, hi⟩ := List.mem_iff_getElem?.mp hn
        have hl : i < src.length := (List.getElem?_eq_some_iff.mp hi).1
        exact List.mem_of_getElem? ((e3 i hl).trans hi)
      obtain ⟨p, q, rfl⟩ := List.append_of_mem hin
      have key : ∀ (p xs ys : List Num), (outs b a xs ys (p ++ .nan :: q)).getLast? = some .nan := by
        intro p
        induction p with
        | nil =>
          intro xs ys
          rw [List.nil_append, outs, next_iir b a ha hi.hpos xs ys .nan (Or.inr rfl), outs_poisoned b a ha hi.hpos q _ _ (by simp),
            ← List.replicate_succ, List.getLast?_replicate, if_neg (by omega)]
        | cons x p ih =>
          intro xs ys
          rw [List.cons_append, outs, List.getLast?_cons, ih]
          rfl
      exact key p xs ys
  obtain ⟨xs, ys, s1, f1, ⟨xs1, ys1, hi1⟩, hb, hl⟩ := hlast
  have hr := reset_inv b a s1 xs1 ys1 hi1
  obtain ⟨s2, g1, g2⟩ := filter_spec b a (outs b a xs ys ext).reverse (resetFilter s1) [] [] hr
  have hout : outs b a [] [] (outs b a xs ys ext).reverse = List.replicate ext.length .nan := by
    have hne : outs b a xs ys ext ≠ [] := by
      rw [← List.length_pos_iff, outs_length]; omega
    obtain ⟨r, hr⟩ : ∃ r, (outs b a xs ys ext).reverse = .nan :: r := by
      cases e : (outs b a xs ys ext).reverse with
      | nil => exact absurd (List.reverse_eq_nil_iff.mp e) hne
      | cons v r =>
        rw [← List.head?_reverse, e] at hl
        simp only [List.head?_cons, Option.some.injEq] at hl
        exact ⟨r, by rw [hl]⟩
    have hlen : (outs b a xs ys ext).reverse.length = ext.length := by simp [outs_length]
    rw [hr] at hlen ⊢
    rw [outs, next_iir b a ha hb [] [] .nan (Or.inr rfl), outs_poisoned b a ha hb r _ _ (hist_snoc_zero [] _), ← hlen, List.length_cons, List.replicate_succ]
  rw [hout] at g1 g2
  refine ⟨s2, ?_, _, _, g2, ?_⟩
  · unfold filtfilt
    rw [if_neg (by omega), bind_ok e1, bind_ok f1]
    dsimp only
    rw [bind_ok g1]
    dsimp only
    rw [List.reverse_replicate, List.drop_replicate, List.take_replicate, e2]
    congr 3
    omega
  · exact hist_replicate (by omega) []

end QM.Nan
