import Verif.PolyFit.Model
import Mathlib.Algebra.BigOperators.Group.Finset.Basic
import Mathlib.Algebra.BigOperators.Ring.Finset
import Mathlib.Algebra.Order.Field.Basic
import Mathlib.Tactic.FieldSimp
import Mathlib.Tactic.Linarith
import Mathlib.Tactic.Ring

/-! Gauss-Jordan elimination solves the system, and fails only if it is singular. -/

namespace QM.PolyFit

theorem iter_inv {S : Type} (n : Nat) (f : Nat → S → S) (s : S) (P : Nat → S → Prop) (h0 : P 0 s)
    (h : ∀ i s, i < n → P i s → P (i + 1) (f i s)) : P n (iter n f s) := by
  induction n with
  | zero => exact h0
  | succ n ih => exact h n _ (by omega) (ih fun i s hi hp => h i s (by omega) hp)

theorem loop_none_at {S : Type} (n i : Nat) (f : Nat → S → Option S) (s : S) (hi : i < n) (h : ∀ s, f i s = none) :
    loop n f s = none := by
  refine loop_none_of_le (m := i + 1) (by omega) ?_
  rw [loop]
  cases hl : loop i f s with
  | none => rfl
  | some t => exact h t

variable {K : Type} [Field K] [LinearOrder K] [IsStrictOrderedRing K]

/-- `x` solves `M x = w`. -/
def Sol (n : Nat) (M : Nat → Nat → K) (w x : Nat → K) : Prop := ∀ r, r < n → ∑ c ∈ Finset.range n, M r c * x c = w r

/-- The matrix `M` has a non-zero vector in its kernel. -/
def Singular (n : Nat) (M : Nat → Nat → K) : Prop := ∃ x : Nat → K, (∃ k, k < n ∧ x k ≠ 0) ∧ Sol n M (fun _ => 0) x

theorem Sol.congr {n : Nat} {M M' : Nat → Nat → K} {w w' x : Nat → K} (h : Sol n M w x)
    (hM : ∀ r c, r < n → c < n → M r c = M' r c) (hw : ∀ r, r < n → w r = w' r) : Sol n M' w' x := by
  intro r hr
  rw [← hw r hr, ← h r hr]
  exact Finset.sum_congr rfl fun c hc => by rw [hM r c hr (Finset.mem_range.mp hc)]

theorem sol_congr {n : Nat} {M M' : Nat → Nat → K} {w w' : Nat → K}
    (hM : ∀ r c, r < n → c < n → M r c = M' r c) (hw : ∀ r, r < n → w r = w' r) (x : Nat → K) : Sol n M w x ↔ Sol n M' w' x :=
  ⟨fun h => h.congr hM hw, fun h => h.congr (fun r c hr hc => (hM r c hr hc).symm) fun r hr => (hw r hr).symm⟩

def sw (i j r : Nat) : Nat := if r = i then j else if r = j then i else r

theorem sw_sw (i j r : Nat) : sw i j (sw i j r) = r := by
  unfold sw; split <;> split <;> (try split) <;> omega

theorem sw_lt {n i j r : Nat} (hi : i < n) (hj : j < n) (hr : r < n) : sw i j r < n := by
  unfold sw; split
  · exact hj
  · split
    · exact hi
    · exact hr

theorem swapRows_ok (n : Nat) (b : Nat → Nat → K) (w : Nat → K) (ir ic : Nat) :
    (∀ r c, c < n → (swapRows n b w ir ic).1 r c = b (sw ir ic r) c) ∧ ∀ r, (swapRows n b w ir ic).2 r = w (sw ir ic r) := by
  unfold swapRows
  by_cases h : ir ≠ ic
  · rw [if_pos h]
    constructor
    · intro r c hc
      have := iter_inv n (fun m b => upd2 (upd2 b ir m (b ic m)) ic m (b ir m)) b
        (fun i s => ∀ r c, s r c = if c < i then b (sw ir ic r) c else b r c) (by simp)
        (by
          intro i s hi hs r c
          simp only [upd2, hs]
          have e1 : sw ir ic ir = ic := by simp [sw]
          have e2 : sw ir ic ic = ir := by simp only [sw]; split <;> simp_all
          by_cases h1 : r = ic ∧ c = i
          · obtain ⟨rfl, rfl⟩ := h1
            simp [e2]
          · rw [if_neg h1]
            by_cases h2 : r = ir ∧ c = i
            · obtain ⟨rfl, rfl⟩ := h2
              simp [e1]
            · rw [if_neg h2]
              by_cases h3 : c = i
              · subst h3
                simp only [lt_irrefl, if_false, Nat.lt_succ_self, if_true, and_true] at h1 h2 ⊢
                rw [show sw ir ic r = r by simp [sw, h1, h2]]
              · have e : (c < i + 1) ↔ (c < i) := by omega
                simp only [e])
      dsimp only
      rw [this, if_pos hc]
    · intro r
      simp only [upd, sw]
      by_cases h1 : r = ic
      · subst h1; simp [Ne.symm h]
      · by_cases h2 : r = ir
        · subst h2; simp [h1]
        · simp [h1, h2]
  · rw [if_neg h]
    push Not at h
    subst h
    have : ∀ r, sw ir ir r = r := fun r => by simp only [sw]; split <;> simp_all
    exact ⟨fun r c _ => by rw [this], fun r => by rw [this]⟩

theorem divRow_ok (n : Nat) (b : Nat → Nat → K) (w : Nat → K) (ic : Nat) :
    (∀ r c, c < n → c ≠ ic → (divRow n b w ic).1 r c = if r = ic then b ic c / b ic ic else b r c) ∧
    (∀ r, r ≠ ic → (divRow n b w ic).1 r ic = b r ic) ∧
    ∀ r, (divRow n b w ic).2 r = if r = ic then w ic / b ic ic else w r := by
  unfold divRow
  have := iter_inv n (fun m b' => upd2 b' ic m (b' ic m / b ic ic)) (upd2 b ic ic 1)
    (fun i s => ∀ r c, s r c = if r = ic ∧ c < i then upd2 b ic ic 1 ic c / b ic ic else upd2 b ic ic 1 r c) (by simp)
    (by
      intro i s hi hs r c
      rw [upd2]
      by_cases h1 : r = ic ∧ c = i
      · obtain ⟨rfl, rfl⟩ := h1
        simp [hs]
      · rw [if_neg h1, hs]
        by_cases h3 : r = ic
        · subst h3
          have e : (c < i + 1) ↔ (c < i) := by omega
          simp only [e]
        · simp [h3])
  dsimp only
  refine ⟨fun r c hc hne => ?_, fun r hr => ?_, fun r => rfl⟩
  · rw [this]
    by_cases h : r = ic
    · subst h; simp [hc, upd2, hne]
    · simp [h, upd2]
  · rw [this]; simp [hr, upd2]

theorem reduce_ok (n : Nat) (b : Nat → Nat → K) (w : Nat → K) (ic : Nat) :
    (∀ r c, r < n → c < n → c ≠ ic → (reduce n b w ic).1 r c = if r = ic then b ic c else b r c - b ic c * b r ic) ∧
    ∀ r, r < n → (reduce n b w ic).2 r = if r = ic then w ic else w r - w ic * b r ic := by
  unfold reduce
  have inner : ∀ (b : Nat → Nat → K) (r : Nat) (t : K), r ≠ ic → ∀ r' c, 
      (iter n (fun m b => upd2 b r m (b r m - b ic m * t)) (upd2 b r ic 0)) r' c =
        if r' = r ∧ c < n then upd2 b r ic 0 r c - b ic c * t else upd2 b r ic 0 r' c := by
    intro b r t hr
    refine iter_inv n (fun m b => upd2 b r m (b r m - b ic m * t)) (upd2 b r ic 0)
      (fun i s => ∀ r' c, s r' c = if r' = r ∧ c < i then upd2 b r ic 0 r c - b ic c * t else upd2 b r ic 0 r' c) (by simp) ?_
    intro i s hi hs r' c
    rw [upd2]
    by_cases h1 : r' = r ∧ c = i
    · obtain ⟨rfl, rfl⟩ := h1
      rw [hs, hs]
      simp [upd2, Ne.symm hr]
    · rw [if_neg h1, hs]
      by_cases h3 : r' = r
      · subst h3
        have e : (c < i + 1) ↔ (c < i) := by omega
        simp only [e]
      · simp [h3]
  have := iter_inv n (fun r (s : (Nat → Nat → K) × (Nat → K)) =>
      if r ≠ ic then
        let t := s.1 r ic
        (iter n (fun m b => upd2 b r m (b r m - b ic m * t)) (upd2 s.1 r ic 0), upd s.2 r (s.2 r - s.2 ic * t))
      else s) (b, w)
    (fun i s => (∀ r, i ≤ r ∨ r = ic → (∀ c, s.1 r c = b r c) ∧ s.2 r = w r) ∧
      ∀ r, r < i → r ≠ ic → (∀ c, c < n → c ≠ ic → s.1 r c = b r c - b ic c * b r ic) ∧ s.2 r = w r - w ic * b r ic)
    ⟨fun r _ => ⟨fun _ => rfl, rfl⟩, fun r hr => absurd hr (Nat.not_lt_zero r)⟩
    (by
      rintro i ⟨b1, w1⟩ hi ⟨h1, h2⟩
      dsimp only at h1 h2 ⊢
      by_cases hic : i = ic
      · rw [if_neg (by simpa using hic)]
        refine ⟨fun r hr => h1 r (by omega), fun r hr hne => h2 r (by omega) hne⟩
      · rw [if_pos hic]
        dsimp only
        constructor
        · intro r hr
          have hri : r ≠ i := by omega
          refine ⟨fun c => ?_, ?_⟩
          · rw [inner _ _ _ hic, if_neg (by simp [hri])]
            simp only [upd2, hri, false_and, if_false]
            exact (h1 r (by omega)).1 c
          · simp only [upd, hri, if_false]
            exact (h1 r (by omega)).2
        · intro r hr hne
          by_cases hri : r = i
          · subst hri
            refine ⟨fun c hc hcic => ?_, ?_⟩
            · rw [inner _ _ _ hic, if_pos ⟨rfl, hc⟩]
              simp only [upd2, hcic, and_false, if_false]
              rw [(h1 r (by omega)).1 c, (h1 r (by omega)).1 ic, (h1 ic (Or.inr rfl)).1 c]
            · simp only [upd, if_true]
              rw [(h1 r (by omega)).2, (h1 ic (Or.inr rfl)).2, (h1 r (by omega)).1 ic]
          · refine ⟨fun c hc hcic => ?_, ?_⟩
            · rw [inner _ _ _ hic, if_neg (by simp [hri])]
              simp only [upd2, hri, false_and, if_false]
              exact (h2 r (by omega) hne).1 c hc hcic
            · simp only [upd, hri, if_false]
              exact (h2 r (by omega) hne).2)
  obtain ⟨h1, h2⟩ := this
  constructor
  · intro r c hr hc hne
    by_cases h : r = ic
    · subst h; rw [if_pos rfl]; exact (h1 r (Or.inr rfl)).1 c
    · rw [if_neg h]; exact (h2 r hr h).1 c hc hne
  · intro r hr
    by_cases h : r = ic
    · subst h; rw [if_pos rfl]; exact (h1 r (Or.inr rfl)).2
    · rw [if_neg h]; exact (h2 r hr h).2

/-- The system that the program has reached: pivoted columns stand for unit vectors. -/
def eff (st : Nat → Int) (b : Nat → Nat → K) (r c : Nat) : K := if st c = 0 then (if r = c then 1 else 0) else b r c

/-- One elimination step on a system. -/
def elim (M : Nat → Nat → K) (ir ic r c : Nat) : K :=
  if r = ic then M ir c / M ir ic else M (sw ir ic r) c - M ir c / M ir ic * M (sw ir ic r) ic

def elimW (M : Nat → Nat → K) (w : Nat → K) (ir ic r : Nat) : K :=
  if r = ic then w ir / M ir ic else w (sw ir ic r) - w ir / M ir ic * M (sw ir ic r) ic

theorem elim_sol {n : Nat} (M : Nat → Nat → K) (w x : Nat → K) {ir ic : Nat} (hr : ir < n) (hc : ic < n) (hp : M ir ic ≠ 0) :
    Sol n M w x ↔ Sol n (elim M ir ic) (elimW M w ir ic) x := by
  have hrow : ∀ r, ∑ c ∈ Finset.range n, elim M ir ic r c * x c =
      if r = ic then (∑ c ∈ Finset.range n, M ir c * x c) / M ir ic
      else ∑ c ∈ Finset.range n, M (sw ir ic r) c * x c - (∑ c ∈ Finset.range n, M ir c * x c) / M ir ic * M (sw ir ic r) ic := by
    intro r
    by_cases h : r = ic
    · simp only [elim, if_pos h]
      rw [div_eq_mul_inv, Finset.sum_mul]
      exact Finset.sum_congr rfl fun c _ => by rw [div_eq_mul_inv]; ring
    · simp only [elim, if_neg h]
      rw [div_eq_mul_inv, mul_assoc, Finset.sum_mul, ← Finset.sum_sub_distrib]
      exact Finset.sum_congr rfl fun c _ => by rw [div_eq_mul_inv]; ring
  have e2 : sw ir ic ic = ir := by
    simp only [sw]; split
    · simp_all
    · simp
  constructor
  · intro h r hr'
    rw [hrow r, elimW]
    by_cases he : r = ic
    · rw [if_pos he, if_pos he, h ir hr]
    · rw [if_neg he, if_neg he, h ir hr, h _ (sw_lt hr hc hr')]
  · intro h
    have h1 : ∑ c ∈ Finset.range n, M ir c * x c = w ir := by
      have := h ic hc
      rw [hrow, elimW, if_pos rfl, if_pos rfl] at this
      exact (div_left_inj' hp).mp this
    intro r hr'
    by_cases he : sw ir ic r = ic
    · have : r = ir := by rw [← sw_sw ir ic r, he, e2]
      rw [this, h1]
    · have := h (sw ir ic r) (sw_lt hr hc hr')
      rw [hrow, elimW, if_neg he, if_neg he, sw_sw, h1] at this
      linarith

/-- What the body of the main loop does with a fresh pivot. -/
theorem step_fresh {n : Nat} (b : Nat → Nat → K) (w : Nat → K) (st : Nat → Int) {ir ic : Nat} (hr : ir < n) (hc : ic < n)
    (sr : st ir ≠ 0) (sc : st ic = -1) (hp : b ir ic ≠ 0) :
    (∀ r c, r < n → c < n → eff (upd st ic (st ic + 1)) (reduce n (divRow n (swapRows n b w ir ic).1 (swapRows n b w ir ic).2 ic).1
        (divRow n (swapRows n b w ir ic).1 (swapRows n b w ir ic).2 ic).2 ic).1 r c = elim (eff st b) ir ic r c) ∧
    (∀ r, r < n → (reduce n (divRow n (swapRows n b w ir ic).1 (swapRows n b w ir ic).2 ic).1
        (divRow n (swapRows n b w ir ic).1 (swapRows n b w ir ic).2 ic).2 ic).2 r = elimW (eff st b) w ir ic r) ∧
    (swapRows n b w ir ic).1 ic ic = b ir ic := by
  obtain ⟨a1, a2⟩ := swapRows_ok n b w ir ic
  obtain ⟨d1, d2, d3⟩ := divRow_ok n (swapRows n b w ir ic).1 (swapRows n b w ir ic).2 ic
  obtain ⟨r1, r2⟩ := reduce_ok n (divRow n (swapRows n b w ir ic).1 (swapRows n b w ir ic).2 ic).1
    (divRow n (swapRows n b w ir ic).1 (swapRows n b w ir ic).2 ic).2 ic
  have e2 : sw ir ic ic = ir := by
    simp only [sw]; split
    · simp_all
    · simp
  have hpc : ∀ r, eff st b r ic = b r ic := fun r => by simp [eff, sc]
  refine ⟨fun r c hr' hc' => ?_, fun r hr' => ?_, by rw [a1 _ _ hc, e2]⟩
  · by_cases hcc : c = ic
    · subst hcc
      simp only [eff, elim, upd, sc, if_true]
      by_cases h : r = c
      · subst h; simp [div_self hp]
      · simp [h, div_self hp]
    · by_cases hs : st c = 0
      · have hrc : ir ≠ c := fun h => sr (by rw [h]; exact hs)
        have h0 : eff st b ir c = 0 := by simp [eff, hs, hrc]
        simp only [elim, h0, zero_div, zero_mul, sub_zero]
        have : upd st ic (st ic + 1) c = 0 := by simp [upd, hcc, hs]
        simp only [eff, this, hs, if_true]
        by_cases h : r = ic
        · subst h
          simp [Ne.symm hcc]
        · simp only [if_neg h]
          congr 1
          simp only [sw, if_neg h, eq_iff_iff]
          by_cases h' : r = ir
          · subst h'; simp [hrc, Ne.symm hcc]
          · simp [h']
      · have h1 : upd st ic (st ic + 1) c ≠ 0 := by simp [upd, hcc, hs]
        rw [eff, if_neg h1, r1 r c hr' hc' hcc, elim]
        have hcol : ∀ r, eff st b r c = b r c := fun r => by simp [eff, hs]
        simp only [hcol, hpc]
        by_cases h : r = ic
        · subst h
          rw [if_pos rfl, if_pos rfl, d1 _ _ hc' hcc, if_pos rfl, a1 _ _ hc', a1 _ _ hc, e2]
        · rw [if_neg h, if_neg h, d1 _ _ hc' hcc, if_neg h, d1 _ _ hc' hcc, if_pos rfl, d2 r h, a1 _ _ hc', a1 _ _ hc', a1 _ _ hc,
            a1 _ _ hc, e2]
  · rw [r2 r hr', elimW, hpc, hpc]
    by_cases h : r = ic
    · rw [if_pos h, if_pos h, d3, if_pos rfl, a2, a1 _ _ hc, e2]
    · rw [if_neg h, if_neg h, d3, if_neg h, d3, if_pos rfl, d2 r h, a2, a2, a1 _ _ hc, a1 _ _ hc, e2]

theorem search_none {n : Nat} (st : Nat → Int) (b : Nat → Nat → K) (s : Nat × Nat × K) {k : Nat} (hk : k < n) (h : st k > 0) :
    search n st b s = none := by
  unfold search
  refine loop_none_at n k _ _ hk fun s => ?_
  rw [if_pos (by omega)]
  refine loop_none_at n k _ _ hk fun s => ?_
  rw [if_pos h]

theorem search_ok {n : Nat} (st : Nat → Int) (b : Nat → Nat → K) (r0 c0 : Nat) (h : ∀ k, k < n → st k ≤ 0) :
    ∃ r c g, search n st b (r0, c0, 0) = some (r, c, g) ∧
      ((r = r0 ∧ c = c0 ∧ ∀ j k, j < n → k < n → st j ≠ 0 → st k < 0 → b j k = 0) ∨
        (r < n ∧ c < n ∧ st r ≠ 0 ∧ st c < 0 ∧ b r c ≠ 0)) := by
  let Q : Nat × Nat × K → Prop := fun s => (s.1 = r0 ∧ s.2.1 = c0 ∧ s.2.2 = 0) ∨
    (s.1 < n ∧ s.2.1 < n ∧ st s.1 ≠ 0 ∧ st s.2.1 < 0 ∧ b s.1 s.2.1 ≠ 0 ∧ 0 < s.2.2)
  have hq0 : ∀ s, Q s → 0 ≤ s.2.2 := by
    rintro s (⟨_, _, h⟩ | ⟨_, _, _, _, _, h⟩)
    · rw [h]
    · exact le_of_lt h
  obtain ⟨⟨r, c, g⟩, a1, a2, a3⟩ := loop_inv (n := n) (s := (r0, c0, (0 : K))) (f := fun j (s : Nat × Nat × K) =>
    if st j ≠ 0 then
      loop n (fun k (s : Nat × Nat × K) =>
        if st k > 0 then none
        else if st k < 0 ∧ |b j k| > s.2.2 then some (j, k, |b j k|)
        else some s) s
    else some s)
    (P := fun i s => Q s ∧ ∀ j k, j < i → k < n → st j ≠ 0 → st k < 0 → |b j k| ≤ s.2.2)
    ⟨Or.inl ⟨rfl, rfl, rfl⟩, fun j k hj => absurd hj (Nat.not_lt_zero j)⟩
    (by
      rintro j s hj ⟨h1, h2⟩
      by_cases hs : st j ≠ 0
      · rw [if_pos hs]
        obtain ⟨s', b1, b2, b3, b4⟩ := loop_inv (n := n) (s := s) (f := fun k (s : Nat × Nat × K) =>
          if st k > 0 then none
          else if st k < 0 ∧ |b j k| > s.2.2 then some (j, k, |b j k|)
          else some s)
          (P := fun i s' => Q s' ∧ s.2.2 ≤ s'.2.2 ∧ ∀ k, k < i → st k < 0 → |b j k| ≤ s'.2.2)
          ⟨h1, le_refl _, fun k hk => absurd hk (Nat.not_lt_zero k)⟩
          (by
            rintro k t hk ⟨g1, g2, g3⟩
            rw [if_neg (not_lt.mpr (h k hk))]
            by_cases hc : st k < 0 ∧ |b j k| > t.2.2
            · rw [if_pos hc]
              have hpos : 0 < |b j k| := lt_of_le_of_lt (hq0 t g1) hc.2
              refine ⟨_, rfl, Or.inr ⟨hj, hk, hs, hc.1, abs_pos.mp hpos, hpos⟩, le_trans g2 (le_of_lt hc.2), fun k' hk' hst => ?_⟩
              by_cases he : k' = k
              · subst he; exact le_refl _
              · exact le_trans (g3 k' (by omega) hst) (le_of_lt hc.2)
            · rw [if_neg hc]
              refine ⟨_, rfl, g1, g2, fun k' hk' hst => ?_⟩
              by_cases he : k' = k
              · subst he; exact not_lt.mp fun hlt => hc ⟨hst, hlt⟩
              · exact g3 k' (by omega) hst)
        refine ⟨s', b1, b2, fun j' k hj' hk hsj hsk => ?_⟩
        by_cases he : j' = j
        · subst he; exact b4 k hk hsk
        · exact le_trans (h2 j' k (by omega) hk hsj hsk) b3
      · rw [if_neg hs]
        refine ⟨s, rfl, h1, fun j' k hj' hk hsj hsk => ?_⟩
        by_cases he : j' = j
        · subst he; exact absurd hsj hs
        · exact h2 j' k (by omega) hk hsj hsk)
  refine ⟨r, c, g, a1, ?_⟩
  rcases a2 with ⟨h1, h2, h3⟩ | ⟨h1, h2, h3, h4, h5, _⟩
  · left
    refine ⟨h1, h2, fun j k hj hk hsj hsk => ?_⟩
    have := a3 j k hj hk hsj hsk
    dsimp only at h3 this
    rw [h3] at this
    exact abs_nonpos_iff.mp this
  · exact Or.inr ⟨h1, h2, h3, h4, h5⟩

structure Inv (n : Nat) (A : Nat → Nat → K) (y : Nat → K) (i : Nat) (s : GJ K) : Prop where
  st : ∀ k, k < n → s.st k = -1 ∨ s.st k = 0
  card : ((Finset.range n).filter (fun k => s.st k = 0)).card = i
  sol : ∀ x, Sol n A y x ↔ Sol n (eff s.st s.b) s.w x
  hom : ∀ x, Sol n A (fun _ => 0) x ↔ Sol n (eff s.st s.b) (fun _ => 0) x
  nan : s.nan = false
  first : i = 0 → s.b = A
  last : 0 < i → s.icol < n ∧ s.st s.icol = 0

/-- No pivot among unpivoted rows and columns: there is a kernel vector. -/
theorem singular_of_zero {n i : Nat} {A : Nat → Nat → K} {y : Nat → K} {s : GJ K} (h : Inv n A y i s) (hi : i < n)
    (hz : ∀ j k, j < n → k < n → s.st j ≠ 0 → s.st k < 0 → s.b j k = 0) : Singular n A := by
  have : ∃ k, k < n ∧ s.st k ≠ 0 := by
    by_contra hc
    push Not at hc
    have : (Finset.range n).filter (fun k => s.st k = 0) = Finset.range n :=
      Finset.filter_true_of_mem fun k hk => hc k (Finset.mem_range.mp hk)
    have hcard := h.card
    rw [this, Finset.card_range] at hcard
    omega
  obtain ⟨k, hk, hks⟩ := this
  have hk1 : s.st k = -1 := by rcases h.st k hk with h | h
                               · exact h
                               · exact absurd h hks
  refine ⟨fun c => if c = k then 1 else if s.st c = 0 then -s.b c k else 0, ⟨k, hk, by simp⟩, (h.hom _).mpr ?_⟩
  intro r hr
  have hsum : ∀ c ∈ Finset.range n, eff s.st s.b r c * (if c = k then 1 else if s.st c = 0 then -s.b c k else 0) =
      (if c = k then s.b r k else 0) + (if c = r then (if s.st r = 0 then -s.b r k else 0) else 0) := by
    intro c _
    by_cases h1 : c = k
    · subst h1
      by_cases h2 : c = r
      · subst h2; simp [eff, hk1]
      · simp [eff, hk1, h2]
    · by_cases h3 : s.st c = 0
      · by_cases h2 : c = r
        · subst h2; simp [eff, h3, h1]
        · simp [eff, h3, h1, h2, Ne.symm h2]
      · by_cases h2 : c = r
        · subst h2; simp [h3, h1]
        · simp [h3, h1, h2]
  rw [Finset.sum_congr rfl hsum, Finset.sum_add_distrib, Finset.sum_ite_eq', Finset.sum_ite_eq', if_pos (Finset.mem_range.mpr hk),
    if_pos (Finset.mem_range.mpr hr)]
  by_cases h4 : s.st r = 0
  · simp [h4]
  · rw [if_neg h4, hz r k hr hk h4 (by omega), add_zero]

theorem step_ok {n i : Nat} {A : Nat → Nat → K} {y : Nat → K} {s : GJ K} (h : Inv n A y i s) (hi : i < n) (hA : A 0 0 ≠ 0) :
    ∃ s', step n s = some s' ∧ (Inv n A y (i + 1) s' ∨ ((∃ k, k < n ∧ s'.st k > 0) ∧ Singular n A)) := by
  obtain ⟨ir, ic, g, e1, e2⟩ := search_ok s.st s.b s.irow s.icol fun k hk => by rcases h.st k hk with h | h <;> omega
  refine ⟨_, by unfold step; rw [e1]; rfl, ?_⟩
  rcases e2 with ⟨rfl, rfl, hz⟩ | ⟨h1, h2, h3, h4, h5⟩
  · right
    by_cases h0 : 0 < i
    · obtain ⟨l1, l2⟩ := h.last h0
      exact ⟨⟨s.icol, l1, by simp [upd, l2]⟩, singular_of_zero h hi hz⟩
    · exfalso
      apply hA
      have hi0 : i = 0 := by omega
      rw [← h.first hi0]
      have hst : ∀ k, k < n → s.st k = -1 := by
        intro k hk
        rcases h.st k hk with h' | h'
        · exact h'
        · have hc := h.card
          rw [hi0, Finset.card_eq_zero] at hc
          have : k ∈ (Finset.range n).filter (fun k => s.st k = 0) := Finset.mem_filter.mpr ⟨Finset.mem_range.mpr hk, h'⟩
          rw [hc] at this
          simp at this
      have := hst 0 (by omega)
      exact hz 0 0 (by omega) (by omega) (by omega) (by omega)
  · left
    have sc : s.st ic = -1 := by rcases h.st ic h2 with h' | h' <;> omega
    obtain ⟨t1, t2, t3⟩ := step_fresh s.b s.w s.st h1 h2 h3 sc h5
    have hp : eff s.st s.b ir ic ≠ 0 := by simpa [eff, sc] using h5
    refine ⟨?_, ?_, ?_, ?_, ?_, ?_, ?_⟩
    · intro k hk
      simp only [upd]
      split
      · right; omega
      · exact h.st k hk
    · have : (Finset.range n).filter (fun k => upd s.st ic (s.st ic + 1) k = 0) =
          insert ic ((Finset.range n).filter (fun k => s.st k = 0)) := by
        ext k
        rw [Finset.mem_filter, Finset.mem_insert, Finset.mem_filter, Finset.mem_range]
        simp only [upd]
        by_cases hk : k = ic
        · subst hk; simp [h2, sc]
        · rw [if_neg hk]; simp only [hk, false_or]
      dsimp only
      rw [this, Finset.card_insert_of_notMem (by simp [sc]), h.card]
    · intro x
      rw [h.sol x, elim_sol _ _ _ h1 h2 hp]
      exact (sol_congr t1 t2 x).symm
    · intro x
      rw [h.hom x, elim_sol _ _ _ h1 h2 hp]
      exact (sol_congr t1 (fun r _ => by simp [elimW]) x).symm
    · simp only [h.nan, t3, Bool.false_or, decide_eq_false_iff_not]; exact h5
    · intro hh; omega
    · intro _
      exact ⟨h2, by simp [upd, sc]⟩

theorem gaussJordan2_ok {n : Nat} (A : Nat → Nat → K) (y : Nat → K) (hA : A 0 0 ≠ 0) (m : Nat) (hm : m ≤ n) :
    (∃ s, loop m (fun _ s => step n s) (⟨A, y, fun _ => -1, 0, 0, false⟩ : GJ K) = some s ∧ Inv n A y m s) ∨
    ((∀ s, loop m (fun _ s => step n s) (⟨A, y, fun _ => -1, 0, 0, false⟩ : GJ K) = some s → ∃ k, k < n ∧ s.st k > 0) ∧ Singular n A) := by
  induction m with
  | zero =>
    left
    refine ⟨_, rfl, ⟨fun k _ => Or.inl rfl, by simp, fun x => ?_, fun x => ?_, rfl, fun _ => rfl, fun h => absurd h (lt_irrefl _)⟩⟩
    · exact sol_congr (fun r c _ _ => by simp [eff]) (fun _ _ => rfl) x
    · exact sol_congr (fun r c _ _ => by simp [eff]) (fun _ _ => rfl) x
  | succ m ih =>
    rcases ih (by omega) with ⟨s, e1, e2⟩ | ⟨h1, h2⟩
    · obtain ⟨s', f1, f2⟩ := step_ok e2 (by omega) hA
      have e : loop (m + 1) (fun _ s => step n s) (⟨A, y, fun _ => -1, 0, 0, false⟩ : GJ K) = some s' := by
        rw [loop, e1]; exact f1
      rcases f2 with f2 | ⟨f2, f3⟩
      · exact Or.inl ⟨s', e, f2⟩
      · right
        refine ⟨fun t ht => ?_, f3⟩
        rw [e] at ht; cases ht; exact f2
    · right
      refine ⟨fun t ht => ?_, h2⟩
      rw [loop] at ht
      cases hl : loop m (fun _ s => step n s) (⟨A, y, fun _ => -1, 0, 0, false⟩ : GJ K) with
      | none => rw [hl] at ht; cases ht
      | some s =>
        rw [hl] at ht
        obtain ⟨k, hk, hs⟩ := h1 s hl
        have ht' : step n s = some t := ht
        unfold step at ht'
        rw [search_none _ _ _ hk hs] at ht'
        cases ht'

/-- Gauss-Jordan elimination: success gives the unique solution, computed without division by zero; failure means singularity. -/
theorem gaussJordan_ok {n : Nat} (A : Nat → Nat → K) (y : Nat → K) (hA : A 0 0 ≠ 0) :
    (∃ s, gaussJordan n A y = some s ∧ s.nan = false ∧ (∀ x, Sol n A y x ↔ ∀ k, k < n → x k = s.w k) ∧ ¬ Singular n A) ∨
      (gaussJordan n A y = none ∧ Singular n A) := by
  unfold gaussJordan gaussJordan2
  rcases gaussJordan2_ok A y hA n le_rfl with ⟨s, e1, e2⟩ | ⟨h1, h2⟩
  · left
    have hst : ∀ k, k < n → s.st k = 0 := by
      have : (Finset.range n).filter (fun k => s.st k = 0) = Finset.range n :=
        Finset.eq_of_subset_of_card_le (Finset.filter_subset _ _) (by rw [e2.card, Finset.card_range])
      intro k hk
      have hm := Finset.mem_range.mpr hk
      rw [← this] at hm
      exact (Finset.mem_filter.mp hm).2
    have hid : ∀ w x : Nat → K, Sol n (eff s.st s.b) w x ↔ ∀ k, k < n → x k = w k := by
      intro w x
      have hr : ∀ r, r < n → ∑ c ∈ Finset.range n, eff s.st s.b r c * x c = x r := by
        intro r hr
        rw [Finset.sum_eq_single r]
        · simp [eff, hst r hr]
        · intro c hc hne
          simp [eff, hst c (Finset.mem_range.mp hc), Ne.symm hne]
        · intro h; exact absurd (Finset.mem_range.mpr hr) h
      exact ⟨fun h k hk => by rw [← h k hk, hr k hk], fun h r hr' => by rw [hr r hr', h r hr']⟩
    refine ⟨s, ?_, e2.nan, fun x => by rw [e2.sol x, hid], ?_⟩
    · rw [e1]
      simp only [Option.bind_eq_bind, Option.bind_some]
      rw [if_pos hst]
    · rintro ⟨x, ⟨k, hk, hne⟩, hx⟩
      rw [e2.hom x, hid] at hx
      exact hne (hx k hk)
  · right
    refine ⟨?_, h2⟩
    cases hl : loop n (fun _ s => step n s) (⟨A, y, fun _ => -1, 0, 0, false⟩ : GJ K) with
    | none => rfl
    | some s =>
      obtain ⟨k, hk, hs⟩ := h1 s hl
      simp only [Option.bind_eq_bind, Option.bind_some]
      rw [if_neg]
      intro h
      have := h k hk
      omega

end QM.PolyFit
