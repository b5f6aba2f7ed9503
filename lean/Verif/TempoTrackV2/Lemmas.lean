import Verif.TempoTrackV2.Model
import Verif.Common.Viterbi
import Verif.Common.Flat
import Verif.Common.Sum
import Verif.MathReal.Props
import Verif.Hmm.Lemmas
import Mathlib.Algebra.BigOperators.Field
import Mathlib.Algebra.Order.BigOperators.Ring.Finset

namespace QM.TempoTrackV2

open QM.MathReal

section
variable {K : Type} [Field K] [LinearOrder K] [IsStrictOrderedRing K]

theorem eps_pos : (0 : K) < eps := by unfold eps; positivity

/-- What the two maximum searches return. -/
def MaxOf (xs : List (Option K)) (m : K) (ind : Nat) : Prop :=
  ((m = 0 ∧ ind = 0) ∨ (0 < m ∧ xs[ind]? = some (some m))) ∧ (∀ v, some v ∈ xs → v ≤ m) ∧
    ∀ i v, i < ind → xs[i]? = some (some v) → v < m

omit [IsStrictOrderedRing K] in
theorem val_snoc (xs : List (Option K)) (x : Option K) : getMaxVal (xs ++ [x]) = valStep (getMaxVal xs) x := by
  rw [getMaxVal, List.foldl_append]; rfl

omit [IsStrictOrderedRing K] in
theorem max_state (xs : List (Option K)) : xs.foldl indStep (0, 0, 0) = (getMaxVal xs, getMaxInd xs, xs.length) := by
  induction xs using List.reverseRecOn with
  | nil => rfl
  | append_singleton xs x ih =>
    have h : getMaxInd (xs ++ [x]) = (indStep (getMaxVal xs, getMaxInd xs, xs.length) x).2.1 := by
      rw [getMaxInd, List.foldl_append, ih]; rfl
    rw [List.foldl_append, ih, h, val_snoc]
    cases x with
    | none => simp [indStep, valStep]
    | some v =>
      by_cases hv : getMaxVal xs < v
      · simp [indStep, valStep, hv]
      · simp [indStep, valStep, hv]

omit [IsStrictOrderedRing K] in
theorem ind_snoc (xs : List (Option K)) (x : Option K) : getMaxInd (xs ++ [x]) = (indStep (getMaxVal xs, getMaxInd xs, xs.length) x).2.1 := by
  rw [getMaxInd, List.foldl_append, max_state]; rfl

omit [IsStrictOrderedRing K] in
theorem maxOf (xs : List (Option K)) : MaxOf xs (getMaxVal xs) (getMaxInd xs) := by
  induction xs using List.reverseRecOn with
  | nil => exact ⟨Or.inl ⟨rfl, rfl⟩, by simp, by simp⟩
  | append_singleton xs x ih =>
    obtain ⟨i1, i2, i3⟩ := ih
    have hnn : 0 ≤ getMaxVal xs := by
      rcases i1 with ⟨e, _⟩ | ⟨e, _⟩
      · exact e.ge
      · exact e.le
    have keep : ((getMaxVal xs = 0 ∧ getMaxInd xs = 0) ∨ (0 < getMaxVal xs ∧ (xs ++ [x])[getMaxInd xs]? = some (some (getMaxVal xs)))) := by
      rcases i1 with e | ⟨e1, e2⟩
      · exact Or.inl e
      · refine Or.inr ⟨e1, ?_⟩
        rw [List.getElem?_append_left (lt_of_getElem?_some e2)]
        exact e2
    have hind : getMaxInd xs ≤ xs.length := by
      rcases i1 with ⟨_, e⟩ | ⟨_, e⟩
      · omega
      · exact (lt_of_getElem?_some e).le
    cases x with
    | none =>
      rw [ind_snoc, val_snoc]
      refine ⟨keep, fun v hv => i2 v (by simpa using hv), fun i v hi hv => ?_⟩
      dsimp only [indStep] at hi
      rw [List.getElem?_append_left (by omega)] at hv
      exact i3 i v hi hv
    | some y =>
      by_cases hy : getMaxVal xs < y
      · rw [ind_snoc, val_snoc]
        simp only [indStep, valStep, hy, if_true]
        refine ⟨Or.inr ⟨lt_of_le_of_lt hnn hy, by simp⟩, fun v hv => ?_, fun i v hi hv => ?_⟩
        · rcases List.mem_append.mp hv with hv | hv
          · exact le_trans (i2 v hv) hy.le
          · rw [List.mem_singleton, Option.some.injEq] at hv
            exact hv.le
        · rw [List.getElem?_append_left hi] at hv
          exact lt_of_le_of_lt (i2 v (List.mem_of_getElem? hv)) hy
      · rw [ind_snoc, val_snoc]
        simp only [indStep, valStep, hy, if_false]
        refine ⟨keep, fun v hv => ?_, fun i v hi hv => ?_⟩
        · rcases List.mem_append.mp hv with hv | hv
          · exact i2 v hv
          · rw [List.mem_singleton, Option.some.injEq] at hv
            rw [hv]; exact not_lt.mp hy
        · rw [List.getElem?_append_left (by omega)] at hv
          exact i3 i v hi hv

omit [IsStrictOrderedRing K] in
/-- For numbers that are not negative the searches return the first maximum. -/
theorem max_holds {Q : Nat} {f : Nat → K} {tmp : List K} (h : Holds Q f tmp) (hQ : 0 < Q) (hf : ∀ i, i < Q → 0 ≤ f i) :
    getMaxInd (tmp.map some) < Q ∧ getMaxVal (tmp.map some) = f (getMaxInd (tmp.map some)) ∧
      (∀ i, i < Q → f i ≤ f (getMaxInd (tmp.map some))) ∧ ∀ i, i < getMaxInd (tmp.map some) → f i < f (getMaxInd (tmp.map some)) := by
  obtain ⟨h1, h2, h3⟩ := maxOf (tmp.map some)
  have hm : ∀ i, i < Q → f i ≤ getMaxVal (tmp.map some) := fun i hi =>
    h2 _ (List.mem_map_of_mem (List.mem_of_getElem? (h.2 i hi)))
  have hget : ∀ i v, (tmp.map some)[i]? = some (some v) → i < Q ∧ f i = v := by
    intro i v hv
    have hi : i < Q := by
      have := lt_of_getElem?_some hv
      rw [List.length_map, h.1] at this
      exact this
    rw [List.getElem?_map, h.2 i hi] at hv
    exact ⟨hi, by simpa using hv⟩
  have key : getMaxInd (tmp.map some) < Q ∧ getMaxVal (tmp.map some) = f (getMaxInd (tmp.map some)) := by
    rcases h1 with ⟨e1, e2⟩ | ⟨_, e2⟩
    · rw [e1, e2]
      exact ⟨hQ, le_antisymm (hf 0 hQ) (e1 ▸ hm 0 hQ)⟩
    · obtain ⟨a1, a2⟩ := hget _ _ e2
      exact ⟨a1, a2.symm⟩
  refine ⟨key.1, key.2, fun i hi => key.2 ▸ hm i hi, fun i hi => key.2 ▸ h3 i (f i) hi ?_⟩
  rw [List.getElem?_map, h.2 i (by omega)]
  rfl

/-- Weight of the transition between periods `i` and `j`. -/
def trans (ex : K → K) (n i j : Nat) : K :=
  if (20 ≤ i ∧ i < n - 20) ∧ 20 ≤ j ∧ j < n - 20 then ex ((-1) * ((j : K) - (i : K)) ^ 2 / (2 * 8 ^ 2)) else 0

omit [LinearOrder K] [IsStrictOrderedRing K] in
theorem transitions_ok (ex : K → K) (n : Nat) : ∃ m, transitions ex n = some m ∧ Holds2 n n (trans ex n) m := by
  have h0 : Holds2 n n (fun _ _ => (0 : K)) (List.replicate n (List.replicate n 0)) := by
    refine ⟨by simp, fun i hi => ⟨List.replicate n 0, by simp [hi], holds_replicate n 0⟩⟩
  obtain ⟨m, h1, h2⟩ := loop_inv (n := n - 20 - 20) (f := fun i (m : List (List K)) =>
    loop (n - 20 - 20) (fun j m =>
      wr2 m (20 + i) (20 + j) (ex ((-1) * (((20 + j : Nat) : K) - ((20 + i : Nat) : K)) ^ 2 / (2 * 8 ^ 2)))) m)
    (s := List.replicate n (List.replicate n 0)) (P := fun k m => Holds2 n n (fun i j => if i < 20 + k then trans ex n i j else 0) m)
    (h0.congr fun i j _ _ => by
      unfold trans
      split
      · rw [if_neg (by omega)]
      · rfl)
    (by
      intro k m hk hm
      obtain ⟨m', e1, e2⟩ := loop_inv (n := n - 20 - 20) (f := fun j (m : List (List K)) =>
          wr2 m (20 + k) (20 + j) (ex ((-1) * (((20 + j : Nat) : K) - ((20 + k : Nat) : K)) ^ 2 / (2 * 8 ^ 2)))) (s := m)
        (P := fun l m => Holds2 n n (fun i j => if i < 20 + k ∨ (i = 20 + k ∧ j < 20 + l) then trans ex n i j else 0) m)
        (hm.congr fun i j _ _ => by
          by_cases c : i < 20 + k
          · rw [if_pos c, if_pos (Or.inl c)]
          · rw [if_neg c]
            by_cases c2 : i = 20 + k ∧ j < 20 + 0
            · rw [if_pos (Or.inr c2)]
              unfold trans
              rw [if_neg (by omega)]
            · rw [if_neg (by omega)])
        (by
          intro l m hl hm
          obtain ⟨m', w1, w2⟩ := hm.wr (i := 20 + k) (j := 20 + l) (by omega) (by omega) (ex ((-1) * (((20 + l : Nat) : K) - ((20 + k : Nat) : K)) ^ 2 / (2 * 8 ^ 2)))
          refine ⟨m', w1, w2.congr fun i j _ _ => ?_⟩
          by_cases c : i = 20 + k ∧ j = 20 + l
          · rw [if_pos c, if_pos (by omega), c.1, c.2]
            unfold trans
            rw [if_pos (by omega)]
          · rw [if_neg c]
            by_cases c2 : i < 20 + k ∨ (i = 20 + k ∧ j < 20 + l)
            · rw [if_pos c2, if_pos (by omega)]
            · rw [if_neg c2, if_neg (by omega)])
      refine ⟨m', e1, e2.congr fun i j _ _ => ?_⟩
      by_cases c : i < 20 + (k + 1)
      · rw [if_pos c]
        by_cases c2 : i < 20 + k ∨ (i = 20 + k ∧ j < 20 + (n - 20 - 20))
        · rw [if_pos c2]
        · rw [if_neg c2]
          unfold trans
          rw [if_neg (by omega)]
      · rw [if_neg c, if_neg (by omega)])
  refine ⟨m, h1, h2.congr fun i j _ _ => ?_⟩
  by_cases c : i < 20 + (n - 20 - 20)
  · rw [if_pos c]
  · rw [if_neg c]
    unfold trans
    rw [if_neg (by omega)]

theorem normaliseCol_ok {T Q t : Nat} {φ : Nat → Nat → K} {delta : List (List K)} (h : Holds2 T Q φ delta) (ht : t < T)
    (hs : ∀ i, i < Q → 0 ≤ φ t i) :
    ∃ delta' c, normaliseCol Q t delta = some delta' ∧ 0 < c ∧ Holds2 T Q (fun t' j => if t' = t then φ t j / c else φ t' j) delta' := by
  have h1 := loop_sum Q (fun i (sum : K) => do
    let v ← rd2 delta t i
    pure (sum + v)) (φ t) 0 (fun i s hi => by rw [bind_ok (h.rd ht hi)]; rfl)
  rw [zero_add] at h1
  have hpos : 0 < ∑ i ∈ Finset.range Q, φ t i + (eps : K) :=
    add_pos_of_nonneg_of_pos (Finset.sum_nonneg fun i hi => hs i (Finset.mem_range.mp hi)) eps_pos
  obtain ⟨d', h2, h3⟩ := loop_inv (n := Q) (f := fun i (d : List (List K)) => do
      let v ← rd2 d t i
      wr2 d t i (v / (∑ i ∈ Finset.range Q, φ t i + eps))) (s := delta)
    (P := fun k d => Holds2 T Q (fun t' j => if t' = t ∧ j < k then φ t j / (∑ i ∈ Finset.range Q, φ t i + eps) else φ t' j) d)
    (h.congr fun _ _ _ _ => by simp)
    (by
      intro k d hk hd
      have e := hd.rd ht hk
      rw [if_neg (by omega)] at e
      obtain ⟨d', w1, w2⟩ := hd.wr ht hk (φ t k / (∑ i ∈ Finset.range Q, φ t i + eps))
      refine ⟨d', ?_, w2.congr fun t' j _ _ => ?_⟩
      · rw [bind_ok e]; exact w1
      · by_cases c : t' = t ∧ j = k
        · rw [if_pos c, if_pos (by omega), c.2]
        · rw [if_neg c]
          by_cases c2 : t' = t ∧ j < k
          · rw [if_pos c2, if_pos (by omega)]
          · rw [if_neg c2, if_neg (by omega)])
  refine ⟨d', _, ?_, hpos, h3.congr fun t' j _ hj => ?_⟩
  · unfold normaliseCol
    rw [bind_ok h1, if_neg hpos.ne']
    exact h2
  · by_cases c : t' = t
    · rw [if_pos ⟨c, hj⟩, if_pos c]
    · rw [if_neg (fun h => c h.1), if_neg c]

/-- Column `t + 1` of the table is computed from column `t`. -/
def Col (Q : Nat) (A R : Nat → Nat → K) (c : Nat → K) (φ : Nat → Nat → K) (ψ : Nat → Nat → Nat) (t j : Nat) : Prop :=
  ψ (t + 1) j < Q ∧ φ (t + 1) j = φ t (ψ (t + 1) j) * A j (ψ (t + 1) j) * R (t + 1) j / c (t + 1) ∧
    (∀ i, i < Q → φ t i * A j i ≤ φ t (ψ (t + 1) j) * A j (ψ (t + 1) j))

omit [IsStrictOrderedRing K] in
theorem Col.congr {Q : Nat} {A R : Nat → Nat → K} {c c' : Nat → K} {φ φ' : Nat → Nat → K} {ψ ψ' : Nat → Nat → Nat} {t j : Nat} (h : Col Q A R c φ ψ t j)
    (h1 : ψ' (t + 1) j = ψ (t + 1) j) (h2 : φ' (t + 1) j = φ (t + 1) j) (h3 : ∀ i, i < Q → φ' t i = φ t i) (h4 : c' (t + 1) = c (t + 1)) : Col Q A R c' φ' ψ' t j := by
  obtain ⟨a1, a2, a3⟩ := h
  unfold Col
  rw [h1, h2, h3 _ a1, h4]
  exact ⟨a1, a2, fun i hi => by rw [h3 i hi]; exact a3 i hi⟩

/-- The unnormalised column. -/
theorem column_ok {T Q k : Nat} {A R φ : Nat → Nat → K} {ψ : Nat → Nat → Nat} {tmat rcfmat delta : List (List K)} {psi : List (List Nat)}
    (hQ : 0 < Q) (hk : k + 1 < T) (ha : Holds2 Q Q A tmat) (hr : Holds2 T Q R rcfmat) (hd : Holds2 T Q φ delta) (hp : Holds2 T Q ψ psi)
    (hA : ∀ i j, 0 ≤ A i j) (hφ : ∀ i, i < Q → 0 ≤ φ k i) :
    ∃ (s : List K × List (List K) × List (List Nat)) (b : Nat → Nat), loop Q (fun j (s : List K × List (List K) × List (List Nat)) => do
      let tmp ← loop Q (fun i tmp => do
        let d ← rd2 s.2.1 k i
        let a ← rd2 tmat j i
        wr tmp i (d * a)) s.1
      let delta ← wr2 s.2.1 (k + 1) j (getMaxVal (tmp.map some))
      let psi ← wr2 s.2.2 (k + 1) j (getMaxInd (tmp.map some))
      let d ← rd2 delta (k + 1) j
      let r ← rd2 rcfmat (k + 1) j
      let delta ← wr2 delta (k + 1) j (d * r)
      pure (tmp, delta, psi)) (List.replicate Q 0, delta, psi) = some s ∧
      (∀ j, j < Q → b j < Q ∧ ∀ i, i < Q → φ k i * A j i ≤ φ k (b j) * A j (b j)) ∧
      Holds2 T Q (fun t' j => if t' = k + 1 then φ k (b j) * A j (b j) * R (k + 1) j else φ t' j) s.2.1 ∧
      Holds2 T Q (fun t' j => if t' = k + 1 then b j else ψ t' j) s.2.2 := by
  obtain ⟨s, h1, ⟨h2, b, h3, h4, h5⟩⟩ := loop_inv (n := Q) (f := fun j (s : List K × List (List K) × List (List Nat)) => do
      let tmp ← loop Q (fun i tmp => do
        let d ← rd2 s.2.1 k i
        let a ← rd2 tmat j i
        wr tmp i (d * a)) s.1
      let delta ← wr2 s.2.1 (k + 1) j (getMaxVal (tmp.map some))
      let psi ← wr2 s.2.2 (k + 1) j (getMaxInd (tmp.map some))
      let d ← rd2 delta (k + 1) j
      let r ← rd2 rcfmat (k + 1) j
      let delta ← wr2 delta (k + 1) j (d * r)
      pure (tmp, delta, psi)) (s := (List.replicate Q 0, delta, psi))
    (P := fun l s => s.1.length = Q ∧ ∃ b : Nat → Nat, (∀ j, j < l → b j < Q ∧ ∀ i, i < Q → φ k i * A j i ≤ φ k (b j) * A j (b j)) ∧
      Holds2 T Q (fun t' j => if t' = k + 1 ∧ j < l then φ k (b j) * A j (b j) * R (k + 1) j else φ t' j) s.2.1 ∧
      Holds2 T Q (fun t' j => if t' = k + 1 ∧ j < l then b j else ψ t' j) s.2.2)
    ⟨by simp, fun _ => 0, fun j hj => absurd hj (Nat.not_lt_zero j), hd.congr fun _ _ _ _ => by simp, hp.congr fun _ _ _ _ => by simp⟩
    (by
      rintro l ⟨tmp, d, p⟩ hl ⟨i1, b, i2, i3, i4⟩
      dsimp only at i1 i3 i4
      obtain ⟨tmp', e1, e2⟩ := fill_part (L := Q) (new := fun i => φ k i * A l i) (holds_of_length i1 0) (f := fun i tmp => do
        let d ← rd2 d k i
        let a ← rd2 tmat l i
        wr tmp i (d * a)) (fun i ys hi hys => by
          have e := i3.rd (i := k) (j := i) (by omega) hi
          rw [if_neg (by omega)] at e
          rw [bind_ok e, bind_ok (ha.rd hl hi)])
      obtain ⟨m1, m2, m3, _⟩ := max_holds e2 hQ (fun i hi => mul_nonneg (hφ i hi) (hA l i))
      obtain ⟨d1, w1, w2⟩ := i3.wr hk hl (getMaxVal (tmp'.map some))
      obtain ⟨p1, w3, w4⟩ := i4.wr hk hl (getMaxInd (tmp'.map some))
      have w5 := w2.rd hk hl
      rw [if_pos ⟨rfl, rfl⟩, m2] at w5
      obtain ⟨d2, w6, w7⟩ := w2.wr hk hl (φ k (getMaxInd (tmp'.map some)) * A l (getMaxInd (tmp'.map some)) * R (k + 1) l)
      refine ⟨(tmp', d2, p1), ?_, e2.1, fun j => if j = l then getMaxInd (tmp'.map some) else b j, fun j hj => ?_, w7.congr fun t' j _ _ => ?_, w4.congr fun t' j _ _ => ?_⟩
      · dsimp only
        rw [bind_ok e1, bind_ok w1, bind_ok w3, bind_ok w5, bind_ok (hr.rd hk hl), bind_ok w6]
        rfl
      · by_cases c : j = l
        · subst c
          simp only [if_true]
          exact ⟨m1, m3⟩
        · simp only [c, if_false]
          exact i2 j (by omega)
      · by_cases c : t' = k + 1 ∧ j = l
        · rw [if_pos c, if_pos (by omega)]
          simp only [c.2, if_true]
        · rw [if_neg c, if_neg c]
          by_cases c2 : t' = k + 1 ∧ j < l
          · rw [if_pos c2, if_pos (by omega)]
            dsimp only
            rw [if_neg (by omega)]
          · rw [if_neg c2, if_neg (by omega)]
      · by_cases c : t' = k + 1 ∧ j = l
        · rw [if_pos c, if_pos (by omega)]
          simp only [c.2, if_true]
        · rw [if_neg c]
          by_cases c2 : t' = k + 1 ∧ j < l
          · rw [if_pos c2, if_pos (by omega)]
            dsimp only
            rw [if_neg (by omega)]
          · rw [if_neg c2, if_neg (by omega)])
  refine ⟨s, b, h1, h3, h4.congr fun t' j _ hj => ?_, h5.congr fun t' j _ hj => ?_⟩
  · by_cases c : t' = k + 1
    · rw [if_pos c, if_pos ⟨c, hj⟩]
    · rw [if_neg c, if_neg (fun h => c h.1)]
  · by_cases c : t' = k + 1
    · rw [if_pos c, if_pos ⟨c, hj⟩]
    · rw [if_neg c, if_neg (fun h => c h.1)]

theorem holds2_zero {β γ : Type} {T Q : Nat} {R : Nat → Nat → β} {m : List (List β)} (h : Holds2 T Q R m) (z : γ) :
    Holds2 T Q (fun _ _ => z) (m.map fun r => r.map fun _ => z) := by
  refine ⟨by simp [h.1], fun i hi => ?_⟩
  obtain ⟨r, h1, h2⟩ := h.2 i hi
  refine ⟨r.map fun _ => z, by simp [h1], by simp [h2.1], fun j hj => ?_⟩
  rw [List.getElem?_map, h2.2 j hj]
  rfl

theorem decodePass_ok {T Q : Nat} {A R : Nat → Nat → K} {W : Nat → K} {tmat rcfmat : List (List K)} {wv : List K}
    (hQ : 0 < Q) (hT : 0 < T) (ha : Holds2 Q Q A tmat) (hr : Holds2 T Q R rcfmat) (hw : Holds Q W wv)
    (hA : ∀ i j, 0 ≤ A i j) (hR : ∀ t j, 0 ≤ R t j) (hW : ∀ j, 0 ≤ W j) :
    ∃ delta psi φ ψ, ∃ c : Nat → K, decodePass tmat rcfmat wv T Q = some (delta, psi) ∧ Holds2 T Q φ delta ∧ Holds2 T Q ψ psi ∧ (∀ t, 0 < c t) ∧
      (∀ t i, t < T → i < Q → 0 ≤ φ t i) ∧ (∀ i, i < Q → φ 0 i = W i * R 0 i / c 0) ∧ ∀ t j, t + 1 < T → j < Q → Col Q A R c φ ψ t j := by
  obtain ⟨d0, h1, h2⟩ := loop_inv (n := Q) (f := fun j (delta : List (List K)) => do
      let w ← wv[j]?
      let r ← rd2 rcfmat 0 j
      wr2 delta 0 j (w * r)) (s := rcfmat.map fun r => r.map fun _ => 0)
    (P := fun k d => Holds2 T Q (fun t j => if t = 0 ∧ j < k then W j * R 0 j else 0) d)
    ((holds2_zero hr 0).congr fun _ _ _ _ => by simp)
    (by
      intro k d hk hd
      obtain ⟨d', w1, w2⟩ := hd.wr hT hk (W k * R 0 k)
      refine ⟨d', ?_, w2.congr fun t j _ _ => ?_⟩
      · rw [bind_ok (hw.2 k hk), bind_ok (hr.rd hT hk)]; exact w1
      · by_cases c : t = 0 ∧ j = k
        · rw [if_pos c, if_pos (by omega), c.2]
        · rw [if_neg c]
          by_cases c2 : t = 0 ∧ j < k
          · rw [if_pos c2, if_pos (by omega)]
          · rw [if_neg c2, if_neg (by omega)])
  obtain ⟨d1, c0, h3, h4, h5⟩ := normaliseCol_ok h2 hT (fun i hi => by rw [if_pos ⟨rfl, hi⟩]; exact mul_nonneg (hW i) (hR 0 i))
  obtain ⟨⟨d', p'⟩, h6, φ, ψ, c, h7, h8, h9, h10, h11, h12⟩ := loop_inv (n := T - 1) (f := fun k (st : List (List K) × List (List Nat)) => do
    let s ← loop Q (fun j (s : List K × List (List K) × List (List Nat)) => do
      let tmp ← loop Q (fun i tmp => do
        let d ← rd2 s.2.1 k i
        let a ← rd2 tmat j i
        wr tmp i (d * a)) s.1
      let delta ← wr2 s.2.1 (k + 1) j (getMaxVal (tmp.map some))
      let psi ← wr2 s.2.2 (k + 1) j (getMaxInd (tmp.map some))
      let d ← rd2 delta (k + 1) j
      let r ← rd2 rcfmat (k + 1) j
      let delta ← wr2 delta (k + 1) j (d * r)
      pure (tmp, delta, psi)) (List.replicate Q 0, st.1, st.2)
    let delta ← normaliseCol Q (k + 1) s.2.1
    pure (delta, s.2.2)) (s := (d1, rcfmat.map fun r => r.map fun _ => 0))
    (P := fun k st => ∃ (φ : Nat → Nat → K) (ψ : Nat → Nat → Nat) (c : Nat → K), Holds2 T Q φ st.1 ∧ Holds2 T Q ψ st.2 ∧ (∀ t, 0 < c t) ∧
      (∀ t i, t ≤ k → i < Q → 0 ≤ φ t i) ∧ (∀ i, i < Q → φ 0 i = W i * R 0 i / c 0) ∧ ∀ t j, t < k → j < Q → Col Q A R c φ ψ t j)
    ⟨_, _, fun _ => c0, h5, holds2_zero hr 0, fun _ => h4, fun t i ht hi => by
        obtain rfl : t = 0 := by omega
        simp only [if_true, true_and, hi]
        exact div_nonneg (mul_nonneg (hW i) (hR 0 i)) h4.le,
      fun i hi => by simp [hi], fun t j ht => absurd ht (Nat.not_lt_zero t)⟩
    (by
      rintro k ⟨d, p⟩ hk ⟨φ, ψ, c, i1, i2, i3, i4, i5, i6⟩
      dsimp only at i1 i2
      obtain ⟨s, b, e1, e2, e3, e4⟩ := column_ok hQ (show k + 1 < T by omega) ha hr i1 i2 hA (fun i hi => i4 k i (Nat.le_refl _) hi)
      obtain ⟨d'', c', e5, e6, e7⟩ := normaliseCol_ok e3 (show k + 1 < T by omega) (fun i hi => by
        rw [if_pos rfl]
        exact mul_nonneg (mul_nonneg (i4 k _ (Nat.le_refl _) (e2 i hi).1) (hA _ _)) (hR _ _))
      refine ⟨(d'', s.2.2), ?_, _, _, fun t => if t = k + 1 then c' else c t, e7, e4, fun t => ?_, fun t i ht hi => ?_, fun i hi => ?_, fun t j ht hj => ?_⟩
      · dsimp only
        rw [bind_ok e1, bind_ok e5]
        rfl
      · dsimp only
        split
        · exact e6
        · exact i3 t
      · by_cases e : t = k + 1
        · subst e
          simp only [if_true]
          exact div_nonneg (mul_nonneg (mul_nonneg (i4 k _ (Nat.le_refl _) (e2 i hi).1) (hA _ _)) (hR _ _)) e6.le
        · simp only [e, if_false]
          exact i4 t i (by omega) hi
      · dsimp only
        rw [if_neg (by omega), if_neg (by omega), if_neg (by omega)]
        exact i5 i hi
      · by_cases e : t = k
        · subst e
          refine ⟨?_, ?_, ?_⟩
          · simp only [if_true]; exact (e2 j hj).1
          · simp only [if_true, Nat.ne_of_lt (Nat.lt_succ_self t), if_false]
          · simp only [if_true, Nat.ne_of_lt (Nat.lt_succ_self t), if_false]
            exact (e2 j hj).2
        · refine (i6 t j (by omega) hj).congr ?_ ?_ ?_ ?_
          · rw [if_neg (by omega)]
          · rw [if_neg (by omega), if_neg (by omega)]
          · intro i _; rw [if_neg (by omega), if_neg (by omega)]
          · rw [if_neg (by omega)])
  refine ⟨d', p', φ, ψ, c, ?_, h7, h8, h9, fun t i ht hi => h10 t i (by omega) hi, h11, fun t j ht hj => h12 t j (by omega) hj⟩
  unfold decodePass
  rw [bind_ok h1, bind_ok h3]
  exact h6

theorem decodePath_ok {T Q : Nat} {φ : Nat → Nat → K} {ψ : Nat → Nat → Nat} {delta : List (List K)} {psi : List (List Nat)} (hQ : 0 < Q) (hT : 2 ≤ T)
    (hd : Holds2 T Q φ delta) (hp : Holds2 T Q ψ psi) (hφ : ∀ i, i < Q → 0 ≤ φ (T - 1) i) (hψ : ∀ t j, t + 1 < T → j < Q → ψ (t + 1) j < Q) :
    ∃ best q, decodePath T Q delta psi = some best ∧ Holds T q best ∧ (∀ t, t < T → q t < Q) ∧ (∀ t, t + 1 < T → q t = ψ (t + 1) (q (t + 1))) ∧
      ∀ j, j < Q → φ (T - 1) j ≤ φ (T - 1) (q (T - 1)) := by
  have hT1 : T - 1 < T := by omega
  obtain ⟨tmp, h1, h2⟩ := fill_part (L := Q) (new := φ (T - 1)) (holds_replicate Q (0 : K)) (f := fun i tmp => do
    let d ← rd2 delta (T - 1) i
    wr tmp i d) (fun i ys hi _ => by rw [bind_ok (hd.rd hT1 hi)])
  obtain ⟨m1, m2, m3, _⟩ := max_holds h2 hQ hφ
  obtain ⟨w1, w2⟩ := Hmm.Holds.wr' (holds_replicate T 0) hT1 (getMaxInd (tmp.map some))
  obtain ⟨b1, h3, q, h4, h5, h6, h7⟩ := loop_inv (n := T - 2) (f := fun k best => do
      let b ← best[T - 2 - k + 1]?
      let p ← rd2 psi (T - 2 - k + 1) b
      wr best (T - 2 - k) p) (s := (List.replicate T 0).set (T - 1) (getMaxInd (tmp.map some)))
    (P := fun k best => ∃ q : Nat → Nat, Holds T q best ∧ q (T - 1) = getMaxInd (tmp.map some) ∧ (∀ t, t < T → T - 1 - k ≤ t → q t < Q) ∧
      ∀ t, t + 1 < T → T - 1 - k ≤ t → q t = ψ (t + 1) (q (t + 1)))
    ⟨_, w2, by simp, fun t ht h => by rw [if_pos (by omega)]; exact m1, fun t ht h => by omega⟩
    (by
      rintro k best hk ⟨q, i1, i2, i3, i4⟩
      have e : T - 2 - k + 1 = T - 1 - k := by omega
      have hlt : q (T - 1 - k) < Q := i3 _ (by omega) (Nat.le_refl _)
      obtain ⟨v1, v2⟩ := Hmm.Holds.wr' i1 (i := T - 2 - k) (by omega) (ψ (T - 1 - k) (q (T - 1 - k)))
      refine ⟨_, ?_, _, v2, ?_, fun t ht h => ?_, fun t ht h => ?_⟩
      · rw [e, bind_ok (i1.2 _ (by omega)), bind_ok (hp.rd (by omega) hlt)]
        exact v1
      · rw [if_neg (by omega)]; exact i2
      · by_cases c : t = T - 2 - k
        · rw [if_pos c, ← e]
          exact hψ _ _ (by omega) (by rw [e]; exact hlt)
        · rw [if_neg c]; exact i3 t ht (by omega)
      · rw [if_neg (show t + 1 ≠ T - 2 - k by omega)]
        by_cases c : t = T - 2 - k
        · rw [if_pos c, show t + 1 = T - 1 - k by omega]
        · rw [if_neg c]; exact i4 t ht (by omega))
  obtain ⟨v1, v2⟩ := Hmm.Holds.wr' h4 (i := 0) (by omega) (ψ 1 (q 1))
  have hlt : q 1 < Q := h6 1 (by omega) (by omega)
  refine ⟨_, _, ?_, v2, fun t ht => ?_, fun t ht => ?_, fun j hj => ?_⟩
  · unfold decodePath
    rw [bind_ok h1, bind_ok w1, bind_ok h3, bind_ok (h4.2 1 (by omega)), bind_ok (hp.rd (by omega) hlt)]
    exact v1
  · by_cases c : t = 0
    · rw [if_pos c]; exact hψ 0 _ (by omega) hlt
    · rw [if_neg c]; exact h6 t ht (by omega)
  · rw [if_neg (show t + 1 ≠ 0 by omega)]
    by_cases c : t = 0
    · rw [if_pos c, c]
    · rw [if_neg c]; exact h7 t ht (by omega)
  · rw [if_neg (show T - 1 ≠ 0 by omega), h5]
    exact m3 j hj

end

end QM.TempoTrackV2
