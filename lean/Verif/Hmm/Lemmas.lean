import Verif.Hmm.Model
import Verif.Hmm.Paths
import Mathlib.Algebra.BigOperators.Field
import Mathlib.Tactic.FieldSimp

namespace QM.Hmm

theorem Holds.wr' {β : Type} {L : Nat} {g : Nat → β} {xs : List β} (h : Holds L g xs) {i : Nat} (hi : i < L) (v : β) :
    wr xs i v = some (xs.set i v) ∧ Holds L (fun j => if j = i then v else g j) (xs.set i v) := by
  refine ⟨wr_some v (by rw [h.1]; exact hi), by simp [h.1], fun j hj => ?_⟩
  by_cases e : j = i
  · subst e; rw [List.getElem?_set_self (by rw [h.1]; exact hi)]; simp
  · rw [List.getElem?_set_ne (Ne.symm e), h.2 j hj]; simp [e]

section

variable {K : Type} [Field K] [LinearOrder K] {N T t : Nat} {f : Nat → Nat → K} {g v : Nat → K} {alpha beta a b : List (List K)} {c : List K}
  {val : Nat → List (List K) → Option K}

/-- A row is filled and summed. -/
theorem fillSum_ok {β : Type} [AddCommMonoid β] {T N t : Nat} {f : Nat → Nat → β} {al : List (List β)} (h : Holds2 T N f al) (ht : t < T)
    (v : Nat → β) (val : Nat → List (List β) → Option β)
    (hv : ∀ j al', j < N → Holds2 T N (fun t' j' => if t' = t ∧ j' < j then v j' else f t' j') al' → val j al' = some (v j)) :
    ∃ al', loop N (fun j (st : List (List β) × β) => do
        let v ← val j st.1
        let al ← wr2 st.1 t j v
        pure (al, st.2 + v)) (al, 0) = some (al', ∑ j ∈ Finset.range N, v j) ∧
      Holds2 T N (fun t' j' => if t' = t then v j' else f t' j') al' := by
  obtain ⟨⟨al', s⟩, h1, h2, h3⟩ := loop_inv (n := N) (f := fun j (st : List (List β) × β) => do
        let v ← val j st.1
        let al ← wr2 st.1 t j v
        pure (al, st.2 + v)) (s := (al, 0))
    (P := fun j st => Holds2 T N (fun t' j' => if t' = t ∧ j' < j then v j' else f t' j') st.1 ∧ st.2 = ∑ k ∈ Finset.range j, v k)
    ⟨h.congr fun _ _ _ _ => by simp, by simp⟩
    (by
      rintro j ⟨al', s⟩ hj ⟨hP, hs⟩
      obtain ⟨al2, e1, e2⟩ := hP.wr ht hj (v j)
      refine ⟨(al2, s + v j), ?_, e2.congr fun t' j' _ _ => ?_, ?_⟩
      · dsimp only
        rw [bind_ok (hv j al' hj hP), bind_ok e1]
        rfl
      · by_cases e : t' = t
        · by_cases e2 : j' = j
          · subst e2; simp [e]
          · simp only [e, e2, true_and, and_false, if_false]
            by_cases e3 : j' < j
            · rw [if_pos e3, if_pos (by omega)]
            · rw [if_neg e3, if_neg (by omega)]
        · simp [e]
      · simp only at hs ⊢
        rw [hs, Finset.sum_range_succ])
  simp only at h3
  subst h3
  refine ⟨al', h1, h2.congr fun t' j' _ hj' => ?_⟩
  by_cases e : t' = t <;> simp [e, hj']

theorem scaled_ok (h : Holds2 T N f alpha) (hc : Holds T g c) (ht : t < T)
    (hv : ∀ j al', j < N → Holds2 T N (fun t' j' => if t' = t ∧ j' < j then v j' else f t' j') al' → val j al' = some (v j))
    (hs : ∑ j ∈ Finset.range N, v j ≠ 0) :
    ∃ al' c', scaled N t val alpha c = some (al', c', 1 / ∑ j ∈ Finset.range N, v j) ∧
      Holds2 T N (fun t' j' => if t' = t then v j' * (1 / ∑ j ∈ Finset.range N, v j) else f t' j') al' ∧
      Holds T (fun t' => if t' = t then 1 / ∑ j ∈ Finset.range N, v j else g t') c' := by
  obtain ⟨al1, h1, h2⟩ := fillSum_ok h ht v val hv
  obtain ⟨h3, h4⟩ := Holds.wr' hc ht (1 / ∑ j ∈ Finset.range N, v j)
  obtain ⟨al2, h5, h6⟩ := h2.fillRow ht N (Nat.le_refl _) (fun j => v j * (1 / ∑ j ∈ Finset.range N, v j)) (fun j (al : List (List K)) => do
      let v' ← rd2 al t j
      wr2 al t j (v' * (1 / ∑ j ∈ Finset.range N, v j)))
    (by
      intro j M hj hM
      rw [bind_ok (hM.rd ht hj)]
      simp)
  refine ⟨al2, _, ?_, h6.congr fun t' j' _ hj' => ?_, h4⟩
  · unfold scaled
    rw [bind_ok h1]
    dsimp only
    rw [if_neg hs, bind_ok h3, bind_ok h5]
    rfl
  · by_cases e : t' = t <;> simp [e, hj']

theorem scaled_none (h : Holds2 T N f alpha) (ht : t < T)
    (hv : ∀ j al', j < N → Holds2 T N (fun t' j' => if t' = t ∧ j' < j then v j' else f t' j') al' → val j al' = some (v j))
    (hs : ∑ j ∈ Finset.range N, v j = 0) : scaled N t val alpha c = none := by
  obtain ⟨al1, h1, h2⟩ := fillSum_ok h ht v val hv
  unfold scaled
  rw [bind_ok h1]
  dsimp only
  rw [if_pos hs]

variable {p0 : List K} {P : Nat → K} {A B : Nat → Nat → K}

/-- First weights. -/
def U (P : Nat → K) (B : Nat → Nat → K) (i : Nat) : K := P i * B 0 i

/-- Step weights. -/
def W (A B : Nat → Nat → K) (t i j : Nat) : K := A i j * B (t + 1) j

/-- Forward quantities of the model. -/
def F (N : Nat) (P : Nat → K) (A B : Nat → Nat → K) : Nat → Nat → K := fwd N (U P B) (W A B)

/-- Their sums. -/
def S (N : Nat) (P : Nat → K) (A B : Nat → Nat → K) (t : Nat) : K := ∑ j ∈ Finset.range N, F N P A B t j

/-- The sum before. -/
def Sp (N : Nat) (P : Nat → K) (A B : Nat → Nat → K) : Nat → K
  | 0 => 1
  | t + 1 => S N P A B t

theorem first_ok (hp : Holds N P p0) (hb : Holds2 T N B b) (hT : 0 < T) {j : Nat} (hj : j < N) (al : List (List K)) :
    first p0 b j al = some (F N P A B 0 j) := by
  unfold first
  rw [bind_ok (hp.2 j hj), bind_ok (hb.rd hT hj)]
  rfl

theorem next_ok (ha : Holds2 N N A a) (hb : Holds2 T N B b) (ht : t + 1 < T) {j : Nat} (hj : j < N)
    (h : ∀ i, i < N → rd2 alpha t i = some (F N P A B t i / S N P A B t)) :
    next N (t + 1) a b j alpha = some (F N P A B (t + 1) j / S N P A B t) := by
  unfold next
  rw [bind_ok (loop_sum N _ (fun i => F N P A B t i / S N P A B t * A i j) 0 (by
    intro i acc hi
    rw [Nat.add_sub_cancel, bind_ok (h i hi), bind_ok (ha.rd hi hj)]
    rfl)), bind_ok (hb.rd ht hj), zero_add]
  show some _ = some _
  congr 1
  rw [show F N P A B (t + 1) j = ∑ i ∈ Finset.range N, F N P A B t i * W A B t i j from rfl, Finset.sum_mul, Finset.sum_div]
  exact Finset.sum_congr rfl fun i _ => by unfold W; ring

end

section

variable {N T : Nat} {f : Nat → Nat → ℝ} {g : Nat → ℝ} {alpha beta a b gamma : List (List ℝ)} {c p0 : List ℝ}
  {P : Nat → ℝ} {A B : Nat → Nat → ℝ}

/-- The forward pass when no sum is zero: row `t` of `alpha` is the forward row divided by its sum, `c[t]` is the ratio of successive sums,
and the log-likelihood is the logarithm of the last sum. -/
theorem forward_prefix {m : Nat} (hm : m < T) (hp : Holds N P p0) (ha : Holds2 N N A a) (hb : Holds2 T N B b) (hal : Holds2 T N f alpha) (hc : Holds T g c)
    (hS : ∀ t, t ≤ m → 0 < S N P A B t) :
    ∃ al' c', forward rlog N (m + 1) p0 a b alpha c = some (al', c', Real.log (S N P A B m)) ∧
      Holds2 T N (fun t i => if t ≤ m then F N P A B t i / S N P A B t else f t i) al' ∧
      Holds T (fun t => if t ≤ m then Sp N P A B t / S N P A B t else g t) c' := by
  have hT : 0 < T := by omega
  obtain ⟨al0, c0, h1, h2, h3⟩ := scaled_ok (t := 0) (v := F N P A B 0) (val := first p0 b) hal hc hT
    (fun j al' hj _ => first_ok hp hb hT hj al') (ne_of_gt (hS 0 (Nat.zero_le _)))
  have hl : rlog (1 / ∑ j ∈ Finset.range N, F N P A B 0 j) = some (-Real.log (S N P A B 0)) := by
    show rlog (1 / S N P A B 0) = _
    unfold rlog
    rw [if_pos (one_div_pos.mpr (hS 0 (Nat.zero_le _))), one_div, Real.log_inv]
  obtain ⟨⟨al', c', l⟩, h4, h5, h6, h7⟩ := loop_inv (n := m) (f := fun k (st : List (List ℝ) × List ℝ × ℝ) => do
      let (al, c, ct) ← scaled N (k + 1) (next N (k + 1) a b) st.1 st.2.1
      let l ← rlog ct
      pure (al, c, st.2.2 - l)) (s := (al0, c0, - -Real.log (S N P A B 0)))
    (P := fun k st => Holds2 T N (fun t i => if t ≤ k then F N P A B t i / S N P A B t else f t i) st.1 ∧
      Holds T (fun t => if t ≤ k then Sp N P A B t / S N P A B t else g t) st.2.1 ∧ st.2.2 = Real.log (S N P A B k))
    ⟨h2.congr fun t i _ _ => by
        by_cases e : t = 0
        · subst e; simp only [if_pos, Nat.le_refl, mul_one_div]; rfl
        · rw [if_neg e, if_neg (by omega)],
      h3.congr fun t _ => by
        by_cases e : t = 0
        · subst e; simp only [if_pos, Nat.le_refl]; rfl
        · rw [if_neg e, if_neg (by omega)],
      by simp⟩
    (by
      rintro k ⟨al, c, l⟩ hk ⟨i1, i2, i3⟩
      dsimp only at i1 i2 i3
      have hk1 : k + 1 < T := by omega
      have hsum : ∑ j ∈ Finset.range N, F N P A B (k + 1) j / S N P A B k = S N P A B (k + 1) / S N P A B k := by
        rw [← Finset.sum_div]; rfl
      have h0 := hS k (by omega)
      have h1 := hS (k + 1) (by omega)
      obtain ⟨al2, c2, e1, e2, e3⟩ := scaled_ok (t := k + 1) (v := fun j => F N P A B (k + 1) j / S N P A B k) (val := next N (k + 1) a b) i1 i2 hk1
        (by
          intro j al' hj hal'
          refine next_ok ha hb hk1 hj fun i hi => ?_
          rw [hal'.rd (by omega) hi, if_neg (by omega), if_pos (Nat.le_refl k)])
        (by rw [hsum]; exact ne_of_gt (div_pos h1 h0))
      rw [hsum] at e1 e2 e3
      have hd : 1 / (S N P A B (k + 1) / S N P A B k) = S N P A B k / S N P A B (k + 1) := one_div_div _ _
      rw [hd] at e1 e2 e3
      refine ⟨(al2, c2, Real.log (S N P A B (k + 1))), ?_, e2.congr fun t i _ _ => ?_, e3.congr fun t _ => ?_, rfl⟩
      · dsimp only
        rw [bind_ok e1]
        dsimp only
        have : rlog (S N P A B k / S N P A B (k + 1)) = some (Real.log (S N P A B k) - Real.log (S N P A B (k + 1))) := by
          unfold rlog
          rw [if_pos (div_pos h0 h1), Real.log_div (ne_of_gt h0) (ne_of_gt h1)]
        rw [bind_ok this, i3, sub_sub_cancel]
        rfl
      · by_cases e : t = k + 1
        · subst e
          rw [if_pos rfl, if_pos (Nat.le_refl _), div_mul_div_cancel₀ (ne_of_gt h0)]
        · rw [if_neg e]
          by_cases e2 : t ≤ k
          · rw [if_pos e2, if_pos (by omega)]
          · rw [if_neg e2, if_neg (by omega)]
      · by_cases e : t = k + 1
        · subst e; rw [if_pos rfl, if_pos (Nat.le_refl _)]; rfl
        · rw [if_neg e]
          by_cases e2 : t ≤ k
          · rw [if_pos e2, if_pos (by omega)]
          · rw [if_neg e2, if_neg (by omega)])
  dsimp only at h5 h6 h7
  subst h7
  refine ⟨al', c', ?_, h5, h6⟩
  unfold forward
  rw [bind_ok h1]
  dsimp only
  rw [bind_ok hl]
  exact h4

theorem forward_ok (hp : Holds N P p0) (ha : Holds2 N N A a) (hb : Holds2 T N B b) (hal : Holds2 T N f alpha) (hc : Holds T g c) (hT : 0 < T)
    (hS : ∀ t, t < T → 0 < S N P A B t) :
    ∃ al' c', forward rlog N T p0 a b alpha c = some (al', c', Real.log (S N P A B (T - 1))) ∧
      Holds2 T N (fun t i => F N P A B t i / S N P A B t) al' ∧ Holds T (fun t => Sp N P A B t / S N P A B t) c' := by
  obtain ⟨al', c', h1, h2, h3⟩ := forward_prefix (m := T - 1) (by omega) hp ha hb hal hc (fun t ht => hS t (by omega))
  rw [show T - 1 + 1 = T by omega] at h1
  exact ⟨al', c', h1, h2.congr fun t i ht _ => by rw [if_pos (by omega)], h3.congr fun t ht => by rw [if_pos (by omega)]⟩

/-- If a sum is zero the forward pass divides by it. -/
theorem forward_none (hp : Holds N P p0) (ha : Holds2 N N A a) (hb : Holds2 T N B b) (hal : Holds2 T N f alpha) (hc : Holds T g c)
    {m : Nat} (hm : m < T) (hS : ∀ t, t < m → 0 < S N P A B t) (h0 : S N P A B m = 0) : forward rlog N T p0 a b alpha c = none := by
  cases m with
  | zero =>
    unfold forward
    rw [scaled_none (t := 0) (v := F N P A B 0) (val := first p0 b) hal hm (fun j al' hj _ => first_ok hp hb hm hj al') h0]
    rfl
  | succ m =>
    obtain ⟨al', c', h1, h2, h3⟩ := forward_prefix (m := m) (by omega) hp ha hb hal hc (fun t ht => hS t (by omega))
    unfold forward at h1 ⊢
    obtain ⟨x, hx, h1⟩ := Option.bind_eq_some_iff.mp h1
    obtain ⟨l, hl, h1⟩ := Option.bind_eq_some_iff.mp h1
    rw [bind_ok hx]
    dsimp only
    rw [bind_ok hl]
    refine loop_none_of_le (m := m + 1) (by omega) ?_
    rw [Nat.add_sub_cancel] at h1
    rw [loop, h1, Option.bind_some]
    dsimp only
    rw [scaled_none (t := m + 1) (v := fun j => F N P A B (m + 1) j / S N P A B m) (val := next N (m + 1) a b) h2 hm
      (by
        intro j al' hj hal'
        refine next_ok ha hb hm hj fun i hi => ?_
        rw [hal'.rd (by omega) hi, if_neg (by omega), if_pos (Nat.le_refl m)])
      (by rw [← Finset.sum_div]; exact (congrArg (· / _) h0).trans (zero_div _))]
    rfl

/-- Backward quantities of the model. -/
noncomputable def Bk (N T : Nat) (A B : Nat → Nat → ℝ) (t i : Nat) : ℝ := bwd N (W A B) (T - 1 - t) t i

theorem backward_ok (ha : Holds2 N N A a) (hb : Holds2 T N B b) (hbe : Holds2 T N f beta) (hc : Holds T (fun t => Sp N P A B t / S N P A B t) c)
    (hT : 0 < T) (hS : ∀ t, t < T → 0 < S N P A B t) :
    ∃ be', backward N T a b c beta = some be' ∧ Holds2 T N (fun t i => Bk N T A B t i * (Sp N P A B t / S N P A B (T - 1))) be' := by
  obtain ⟨b0, h1, h2⟩ := hbe.fillRow (i := T - 1) (by omega) N (Nat.le_refl _) (fun _ => 1) (fun i (be : List (List ℝ)) => wr2 be (T - 1) i 1)
    (fun j M _ _ => rfl)
  -- after `k` rounds the rows from `T - k` on are final, and row `T - 1 - k` is computed but not scaled by its own `c`
  obtain ⟨be', h3, h4⟩ := loop_inv (n := T) (f := fun k (be : List (List ℝ)) => do
      let t := T - 1 - k
      let be ← loop N (fun i (be : List (List ℝ)) => do
        let v ← rd2 be t i
        let x ← c[t]?
        wr2 be t i (v * x)) be
      if t = 0 then pure be else
        loop N (fun i (be : List (List ℝ)) => do
          let s ← loop N (fun j (s : ℝ) => do
            let x ← rd2 a i j
            let y ← rd2 b t j
            let z ← rd2 be t j
            pure (s + x * y * z)) 0
          wr2 be (t - 1) i s) be) (s := b0)
    (P := fun k be => ∃ junk, Holds2 T N (fun t i => if T - k ≤ t then Bk N T A B t i * (Sp N P A B t / S N P A B (T - 1)) else
      if t + 1 + k = T then Bk N T A B t i * (S N P A B t / S N P A B (T - 1)) else junk t i) be)
    ⟨f, h2.congr fun t i ht hi => by
      have hn := ne_of_gt (hS (T - 1) (by omega))
      by_cases e : t = T - 1
      · subst e
        rw [if_pos ⟨rfl, hi⟩, if_neg (by omega), if_pos (by omega), div_self hn]
        unfold Bk
        rw [Nat.sub_self]
        simp [bwd]
      · rw [if_neg (by omega), if_neg (by omega), if_neg (by omega)]⟩
    (by
      rintro k be hk ⟨junk, hP⟩
      have ht : T - 1 - k < T := by omega
      have htk : T - 1 - k + 1 + k = T := by omega
      generalize hte : T - 1 - k = t at ht htk
      have hs0 := ne_of_gt (hS t ht)
      obtain ⟨b1, e1, e2⟩ := hP.fillRow (i := t) ht N (Nat.le_refl _) (fun i => Bk N T A B t i * (Sp N P A B t / S N P A B (T - 1)))
        (fun i (be : List (List ℝ)) => do
          let v ← rd2 be t i
          let x ← c[t]?
          wr2 be t i (v * x))
        (by
          intro i M hi hM
          rw [bind_ok (hM.rd ht hi), bind_ok (hc.2 t ht), if_neg (by omega), if_neg (by omega), if_pos htk]
          congr 1
          field_simp)
      by_cases h0 : t = 0
      · refine ⟨b1, ?_, junk, e2.congr fun t' i ht' hi => ?_⟩
        · dsimp only
          rw [bind_ok e1, if_pos h0]
          rfl
        · by_cases c1 : t' = t
          · rw [if_pos ⟨c1, hi⟩, if_pos (by omega), c1]
          · rw [if_neg (by omega), if_pos (by omega), if_pos (by omega)]
      · obtain ⟨b2, e3, e4⟩ := e2.fillRow (i := t - 1) (by omega) N (Nat.le_refl _)
          (fun i => Bk N T A B (t - 1) i * (S N P A B (t - 1) / S N P A B (T - 1)))
          (fun i (be : List (List ℝ)) => do
            let s ← loop N (fun j (s : ℝ) => do
              let x ← rd2 a i j
              let y ← rd2 b t j
              let z ← rd2 be t j
              pure (s + x * y * z)) 0
            wr2 be (t - 1) i s)
          (by
            intro i M hi hM
            rw [bind_ok (loop_sum N _ (fun j => A i j * B t j * (Bk N T A B t j * (Sp N P A B t / S N P A B (T - 1)))) 0 (by
              intro j acc hj
              rw [bind_ok (ha.rd hi hj), bind_ok (hb.rd ht hj), bind_ok (hM.rd ht hj), if_neg (by omega), if_pos ⟨rfl, hj⟩]
              rfl)), zero_add]
            congr 1
            have hsp : Sp N P A B t = S N P A B (t - 1) := by
              obtain ⟨u, rfl⟩ : ∃ u, t = u + 1 := ⟨t - 1, by omega⟩
              rfl
            unfold Bk
            rw [show T - 1 - (t - 1) = (T - 1 - t) + 1 by omega, bwd, show t - 1 + 1 = t by omega, hsp, Finset.sum_mul]
            refine Finset.sum_congr rfl fun j _ => ?_
            unfold W
            rw [show t - 1 + 1 = t by omega]
            ring)
        refine ⟨b2, ?_, junk, e4.congr fun t' i ht' hi => ?_⟩
        · dsimp only
          rw [bind_ok e1, if_neg h0]
          exact e3
        · by_cases c1 : t' = t - 1
          · rw [if_pos ⟨c1, hi⟩, if_neg (by omega), if_pos (by omega), c1]
          · rw [if_neg (by omega)]
            by_cases c2 : t' = t
            · rw [if_pos ⟨c2, hi⟩, if_pos (by omega), c2]
            · rw [if_neg (by omega)]
              by_cases c3 : T - k ≤ t'
              · rw [if_pos c3, if_pos (by omega)]
              · rw [if_neg c3, if_neg (by omega), if_neg (by omega), if_neg (by omega)])
  obtain ⟨junk, h5⟩ := h4
  refine ⟨be', ?_, h5.congr fun t i ht hi => by rw [if_pos (by omega)]⟩
  unfold backward
  rw [bind_ok h1]
  exact h3

/-- Total weight: at every time the same. -/
theorem total (hT : 0 < T) (t : Nat) (ht : t < T) : ∑ i ∈ Finset.range N, F N P A B t i * Bk N T A B t i = S N P A B (T - 1) := by
  have := pairing N (U P B) (W A B) (T - 1 - t) t
  rw [show t + (T - 1 - t) = T - 1 by omega] at this
  exact this.symm

theorem posterior_ok (hal : Holds2 T N (fun t i => F N P A B t i / S N P A B t) alpha)
    (hbe : Holds2 T N (fun t i => Bk N T A B t i * (Sp N P A B t / S N P A B (T - 1))) beta) (hga : Holds2 T N f gamma)
    (hT : 0 < T) (hS : ∀ t, t < T → 0 < S N P A B t) :
    ∃ ga', posterior N T alpha beta gamma = some ga' ∧ Holds2 T N (fun t i => F N P A B t i * Bk N T A B t i / S N P A B (T - 1)) ga' := by
  unfold posterior
  refine hga.fill (fun t i => F N P A B t i * Bk N T A B t i / S N P A B (T - 1)) _ ?_
  intro t M ht hM
  have hl := ne_of_gt (hS (T - 1) (by omega))
  have hst := ne_of_gt (hS t ht)
  have hsp : Sp N P A B t ≠ 0 := by
    cases t with
    | zero => exact one_ne_zero
    | succ u => exact ne_of_gt (hS u (by omega))
  obtain ⟨m1, e1, e2⟩ := fillSum_ok hM ht (fun i => (F N P A B t i / S N P A B t) * (Bk N T A B t i * (Sp N P A B t / S N P A B (T - 1))))
    (fun i _ => do
      let x ← rd2 alpha t i
      let y ← rd2 beta t i
      pure (x * y))
    (by
      intro j al' hj _
      rw [bind_ok (hal.rd ht hj), bind_ok (hbe.rd ht hj)]
      rfl)
  have hsum : ∑ i ∈ Finset.range N, (F N P A B t i / S N P A B t) * (Bk N T A B t i * (Sp N P A B t / S N P A B (T - 1)))
      = Sp N P A B t / S N P A B t := by
    rw [Finset.sum_congr rfl (fun i _ => show _ = (F N P A B t i * Bk N T A B t i) * (Sp N P A B t / (S N P A B t * S N P A B (T - 1))) by
      field_simp), ← Finset.sum_mul, total hT t ht]
    field_simp
  rw [hsum] at e1
  obtain ⟨m2, e3, e4⟩ := e2.fillRow ht N (Nat.le_refl _) (fun i => F N P A B t i * Bk N T A B t i / S N P A B (T - 1)) (fun i (ga : List (List ℝ)) => do
      let v ← rd2 ga t i
      if Sp N P A B t / S N P A B t = 0 then none else wr2 ga t i (v / (Sp N P A B t / S N P A B t)))
    (by
      intro j M hj hM
      rw [bind_ok (hM.rd ht hj), if_neg (div_ne_zero hsp hst), if_neg (by omega), if_pos rfl]
      congr 1
      field_simp)
  refine ⟨m2, ?_, e4.congr fun t' j' _ hj' => ?_⟩
  · have : loop N (fun i (st : List (List ℝ) × ℝ) => do
        let x ← rd2 alpha t i
        let y ← rd2 beta t i
        let ga ← wr2 st.1 t i (x * y)
        pure (ga, st.2 + x * y)) (M, 0) = some (m1, Sp N P A B t / S N P A B t) := by
      rw [← e1]
      congr 1
      funext i st
      cases rd2 alpha t i <;> simp
      cases rd2 beta t i <;> simp
    rw [bind_ok this]
    exact e3
  · by_cases e : t' = t <;> simp [e, hj']

/-- Sum of a double loop. -/
theorem fillSum2_ok {n : Nat} {f : Nat → Nat → ℝ} {m : List (List ℝ)} (h : Holds2 n n f m) (v : Nat → Nat → ℝ)
    (body : Nat → Nat → List (List ℝ) × ℝ → Option (List (List ℝ) × ℝ))
    (hb : ∀ i j st, i < n → j < n → body i j st = (do let m ← wr2 st.1 i j (v i j); pure (m, st.2 + v i j))) :
    ∃ m', loop n (fun i st => loop n (body i) st) (m, 0) = some (m', ∑ i ∈ Finset.range n, ∑ j ∈ Finset.range n, v i j) ∧ Holds2 n n v m' := by
  obtain ⟨⟨m', s⟩, h1, h2, h3⟩ := loop_inv (n := n) (f := fun i st => loop n (body i) st) (s := (m, (0 : ℝ)))
    (P := fun i st => Holds2 n n (fun i' j' => if i' < i then v i' j' else f i' j') st.1 ∧ st.2 = ∑ i ∈ Finset.range i, ∑ j ∈ Finset.range n, v i j)
    ⟨h.congr fun _ _ _ _ => by simp, by simp⟩
    (by
      rintro i ⟨m1, s1⟩ hi ⟨hP, hs⟩
      dsimp only at hP hs
      obtain ⟨⟨m2, s2⟩, e1, e2, e3⟩ := loop_inv (n := n) (f := body i) (s := (m1, s1))
        (P := fun j st => Holds2 n n (fun i' j' => if i' < i ∨ (i' = i ∧ j' < j) then v i' j' else f i' j') st.1 ∧ st.2 = s1 + ∑ j ∈ Finset.range j, v i j)
        ⟨hP.congr fun _ _ _ _ => by simp, by simp⟩
        (by
          rintro j ⟨m3, s3⟩ hj ⟨hP3, hs3⟩
          dsimp only at hP3 hs3
          obtain ⟨m4, w1, w2⟩ := hP3.wr hi hj (v i j)
          refine ⟨(m4, s3 + v i j), ?_, w2.congr fun i' j' _ _ => ?_, ?_⟩
          · rw [hb i j _ hi hj]
            dsimp only
            rw [bind_ok w1]
            rfl
          · by_cases c : i' = i ∧ j' = j
            · rw [if_pos c, if_pos (by omega), c.1, c.2]
            · rw [if_neg c]
              by_cases c2 : i' < i ∨ (i' = i ∧ j' < j)
              · rw [if_pos c2, if_pos (by omega)]
              · rw [if_neg c2, if_neg (by omega)]
          · dsimp only
            rw [hs3, Finset.sum_range_succ, add_assoc])
      refine ⟨(m2, s2), e1, e2.congr fun i' j' _ hj' => ?_, ?_⟩
      · by_cases c : i' < i + 1
        · rw [if_pos c, if_pos (by omega)]
        · rw [if_neg c, if_neg (by omega)]
      · dsimp only at e3 ⊢
        rw [e3, hs, Finset.sum_range_succ])
  dsimp only at h3
  subst h3
  exact ⟨m', h1, h2.congr fun i' j' hi' _ => by rw [if_pos hi']⟩

/-- Posterior of a transition in terms of the recursions. -/
noncomputable def X (N T : Nat) (P : Nat → ℝ) (A B : Nat → Nat → ℝ) (t i j : Nat) : ℝ :=
  F N P A B t i * A i j * B (t + 1) j * Bk N T A B (t + 1) j

theorem X_sum_right (t i : Nat) (ht : t + 1 < T) : ∑ j ∈ Finset.range N, X N T P A B t i j = F N P A B t i * Bk N T A B t i := by
  unfold X Bk
  rw [show T - 1 - t = (T - 1 - (t + 1)) + 1 by omega, bwd, Finset.mul_sum]
  exact Finset.sum_congr rfl fun j _ => by unfold W; ring

theorem X_sum_left (t j : Nat) : ∑ i ∈ Finset.range N, X N T P A B t i j = F N P A B (t + 1) j * Bk N T A B (t + 1) j := by
  unfold X
  rw [show F N P A B (t + 1) j = ∑ i ∈ Finset.range N, F N P A B t i * W A B t i j from rfl, Finset.sum_mul]
  exact Finset.sum_congr rfl fun i _ => by unfold W; ring

theorem transitions_ok {xi : List (List (List ℝ))} (ha : Holds2 N N A a) (hb : Holds2 T N B b)
    (hal : Holds2 T N (fun t i => F N P A B t i / S N P A B t) alpha)
    (hbe : Holds2 T N (fun t i => Bk N T A B t i * (Sp N P A B t / S N P A B (T - 1))) beta)
    (hx : xi.length = T) (hx2 : ∀ t : Nat, t < T → ∃ m f, xi[t]? = some m ∧ Holds2 N N f m)
    (hT : 0 < T) (hS : ∀ t, t < T → 0 < S N P A B t) :
    ∃ xi', transitions N T a b alpha beta xi = some xi' ∧ xi'.length = T ∧ ∀ t : Nat, t + 1 < T → ∃ m, xi'[t]? = some m ∧
      Holds2 N N (fun i j => X N T P A B t i j / S N P A B (T - 1)) m := by
  obtain ⟨xi', h1, h2, h3, h4⟩ := loop_inv (n := T - 1) (f := fun t (xi : List (List (List ℝ))) => do
    let x0 ← xi[t]?
    let (x1, tot) ← loop N (fun i (st : List (List ℝ) × ℝ) => loop N (fun j (st : List (List ℝ) × ℝ) => do
      let p ← rd2 alpha t i
      let q ← rd2 a i j
      let r ← rd2 b (t + 1) j
      let s ← rd2 beta (t + 1) j
      let m ← wr2 st.1 i j (p * q * r * s)
      pure (m, st.2 + p * q * r * s)) st) (x0, 0)
    let x2 ← loop N (fun i (m : List (List ℝ)) => loop N (fun j (m : List (List ℝ)) => do
      let v ← rd2 m i j
      if tot = 0 then none else wr2 m i j (v / tot)) m) x1
    wr xi t x2) (s := xi)
    (P := fun k xi' => xi'.length = T ∧ (∀ t : Nat, t < k → ∃ m, xi'[t]? = some m ∧ Holds2 N N (fun i j => X N T P A B t i j / S N P A B (T - 1)) m) ∧
      ∀ t : Nat, k ≤ t → xi'[t]? = xi[t]?)
    ⟨hx, fun t ht => absurd ht (Nat.not_lt_zero t), fun _ _ => rfl⟩
    (by
      rintro t xi1 ht ⟨i1, i2, i3⟩
      obtain ⟨m0, f0, hm0, hf0⟩ := hx2 t (by omega)
      have hl := ne_of_gt (hS (T - 1) (by omega))
      have hst := ne_of_gt (hS t (by omega))
      obtain ⟨m1, e1, e2⟩ := fillSum2_ok hf0 (fun i j => X N T P A B t i j * (1 / S N P A B (T - 1))) (fun i j (st : List (List ℝ) × ℝ) => do
          let p ← rd2 alpha t i
          let q ← rd2 a i j
          let r ← rd2 b (t + 1) j
          let s ← rd2 beta (t + 1) j
          let m ← wr2 st.1 i j (p * q * r * s)
          pure (m, st.2 + p * q * r * s))
        (by
          intro i j st hi hj
          rw [bind_ok (hal.rd (by omega) hi), bind_ok (ha.rd hi hj), bind_ok (hb.rd (by omega) hj), bind_ok (hbe.rd (by omega) hj)]
          have : F N P A B t i / S N P A B t * A i j * B (t + 1) j * (Bk N T A B (t + 1) j * (Sp N P A B (t + 1) / S N P A B (T - 1)))
              = X N T P A B t i j * (1 / S N P A B (T - 1)) := by
            unfold X
            rw [show Sp N P A B (t + 1) = S N P A B t from rfl]
            field_simp
          rw [this])
      have hsum : ∑ i ∈ Finset.range N, ∑ j ∈ Finset.range N, X N T P A B t i j * (1 / S N P A B (T - 1)) = 1 := by
        rw [Finset.sum_congr rfl (fun i _ => by rw [← Finset.sum_mul, X_sum_right t i (by omega)]), ← Finset.sum_mul, total hT t (by omega)]
        field_simp
      rw [hsum] at e1
      obtain ⟨m2, e3, e4⟩ := e2.fillAll (fun i j => X N T P A B t i j / S N P A B (T - 1)) (fun i j (m : List (List ℝ)) => do
          let v ← rd2 m i j
          if (1 : ℝ) = 0 then none else wr2 m i j (v / 1))
        (by
          intro i j M hi hj hM
          rw [bind_ok (hM.rd hi hj), if_neg one_ne_zero, if_neg (by omega), div_one, mul_one_div])
      refine ⟨xi1.set t m2, ?_, by simp [i1], fun t' ht' => ?_, fun t' ht' => ?_⟩
      · rw [bind_ok ((i3 t (Nat.le_refl _)).trans hm0), bind_ok e1]
        dsimp only
        rw [bind_ok e3]
        exact wr_some _ (by omega)
      · by_cases c : t' = t
        · subst c; exact ⟨m2, List.getElem?_set_self (by omega), e4⟩
        · obtain ⟨m, hm, hm2⟩ := i2 t' (by omega)
          exact ⟨m, by rw [List.getElem?_set_ne (by omega)]; exact hm, hm2⟩
      · rw [List.getElem?_set_ne (by omega)]; exact i3 t' (by omega))
  exact ⟨xi', h1, h2, fun t ht => h3 t (by omega)⟩

end

end QM.Hmm
