import Verif.Hmm.TrainProps
import Verif.Common.Viterbi
import Mathlib.Algebra.Order.Monoid.Unbundled.WithTop
import Mathlib.Algebra.Order.Ring.Defs

namespace QM.Hmm

section

variable {K : Type} [Field K] [LinearOrder K] {N T : Nat} {lg : K → WithBot K} {p0 : List K} {a logb : List (List K)}
  {phi : List (List (WithBot K))} {psi : List (List Nat)} {P : Nat → K} {A LB : Nat → Nat → K}

/-- The table entry for state `j` after time `t` is the greatest extension of the entries at time `t`, and the back pointer is the first
state it is reached from. -/
def Good (lg : K → WithBot K) (N : Nat) (A LB : Nat → Nat → K) (φ : Nat → Nat → WithBot K) (ψ : Nat → Nat → Nat) (t j : Nat) : Prop :=
  ψ (t + 1) j < N ∧ φ (t + 1) j = φ t (ψ (t + 1) j) + lg (A (ψ (t + 1) j) j) + ((LB (t + 1) j : K) : WithBot K) ∧
    (∀ i, i < N → φ t i + lg (A i j) ≤ φ t (ψ (t + 1) j) + lg (A (ψ (t + 1) j) j)) ∧
    ∀ i, i < ψ (t + 1) j → φ t i + lg (A i j) < φ t (ψ (t + 1) j) + lg (A (ψ (t + 1) j) j)

theorem Good.congr {φ φ' : Nat → Nat → WithBot K} {ψ ψ' : Nat → Nat → Nat} {t j : Nat} (h : Good lg N A LB φ ψ t j)
    (h1 : ψ' (t + 1) j = ψ (t + 1) j) (h2 : φ' (t + 1) j = φ (t + 1) j) (h3 : ∀ i, i < N → φ' t i = φ t i) : Good lg N A LB φ' ψ' t j := by
  obtain ⟨a1, a2, a3, a4⟩ := h
  unfold Good
  rw [h1, h2, h3 _ a1]
  exact ⟨a1, a2, fun i hi => by rw [h3 i hi]; exact a3 i hi, fun i hi => by rw [h3 i (by omega)]; exact a4 i hi⟩

/-- One entry of the table. -/
theorem entry_ok {φ : Nat → Nat → WithBot K} {ψ : Nat → Nat → Nat} (hN : 0 < N) (ha : Holds2 N N A a) (hl : Holds2 T N LB logb) (hphi : Holds2 T N φ phi)
    (hpsi : Holds2 T N ψ psi) {k j : Nat} (hk : k + 1 < T) (hj : j < N) :
    ∃ (r : (List (List (WithBot K)) × List (List Nat)) × (WithBot K × Bool)) (s : Nat), (do
      let psi ← wr2 psi (k + 1) j 0
      loop N (fun i (r : (List (List (WithBot K)) × List (List Nat)) × (WithBot K × Bool)) => do
        let p ← rd2 r.1.1 k i
        let q ← rd2 a i j
        if p + lg q > r.2.1 ∨ r.2.2 = false then do
          let l ← rd2 logb (k + 1) j
          let phi ← wr2 r.1.1 (k + 1) j (p + lg q + (l : WithBot K))
          let psi ← wr2 r.1.2 (k + 1) j i
          pure ((phi, psi), (p + lg q, true))
        else pure r) ((phi, psi), (((-1000000 : K) : WithBot K), false))) = some r ∧ s < N ∧
      Holds2 T N (fun t' j' => if t' = k + 1 ∧ j' = j then φ k s + lg (A s j) + ((LB (k + 1) j : K) : WithBot K) else φ t' j') r.1.1 ∧
      Holds2 T N (fun t' j' => if t' = k + 1 ∧ j' = j then s else ψ t' j') r.1.2 ∧
      (∀ i, i < N → φ k i + lg (A i j) ≤ φ k s + lg (A s j)) ∧ ∀ i, i < s → φ k i + lg (A i j) < φ k s + lg (A s j) := by
  obtain ⟨ps0, h1, h2⟩ := hpsi.wr hk hj 0
  obtain ⟨r, h3, s, h4, h5, h6, h7, h8⟩ := loop_inv (n := N) (f := fun i (r : (List (List (WithBot K)) × List (List Nat)) × (WithBot K × Bool)) => do
        let p ← rd2 r.1.1 k i
        let q ← rd2 a i j
        if p + lg q > r.2.1 ∨ r.2.2 = false then do
          let l ← rd2 logb (k + 1) j
          let phi ← wr2 r.1.1 (k + 1) j (p + lg q + (l : WithBot K))
          let psi ← wr2 r.1.2 (k + 1) j i
          pure ((phi, psi), (p + lg q, true))
        else pure r) (s := ((phi, ps0), (((-1000000 : K) : WithBot K), false)))
    (P := fun i r => ∃ s, Holds2 T N (fun t' j' => if (t' = k + 1 ∧ j' = j) ∧ 0 < i then φ k s + lg (A s j) + ((LB (k + 1) j : K) : WithBot K) else φ t' j') r.1.1 ∧
      Holds2 T N (fun t' j' => if t' = k + 1 ∧ j' = j then s else ψ t' j') r.1.2 ∧ (i = 0 → r.2.2 = false) ∧
      (0 < i → r.2.2 = true ∧ s < i ∧ r.2.1 = φ k s + lg (A s j)) ∧
      ((∀ i', i' < i → φ k i' + lg (A i' j) ≤ φ k s + lg (A s j)) ∧ (0 < i → ∀ i', i' < s → φ k i' + lg (A i' j) < φ k s + lg (A s j))))
    ⟨0, hphi.congr fun _ _ _ _ => by simp, h2, fun _ => rfl, fun h => absurd h (Nat.lt_irrefl 0), fun i hi => absurd hi (Nat.not_lt_zero i), fun h => absurd h (Nat.lt_irrefl 0)⟩
    (by
      rintro i ⟨⟨ph, ps⟩, mx, hv⟩ hi ⟨s, i1, i2, i3, i4, i5, i6⟩
      dsimp only at i1 i2 i3 i4 i5 i6
      have hrd : rd2 ph k i = some (φ k i) := by rw [i1.rd (by omega) hi, if_neg (by omega)]
      by_cases hc : φ k i + lg (A i j) > mx ∨ hv = false
      · obtain ⟨ph', w1, w2⟩ := i1.wr hk hj (φ k i + lg (A i j) + ((LB (k + 1) j : K) : WithBot K))
        obtain ⟨ps', w3, w4⟩ := i2.wr hk hj i
        refine ⟨((ph', ps'), (φ k i + lg (A i j), true)), ?_, i, w2.congr fun t' j' _ _ => ?_, w4.congr fun t' j' _ _ => ?_,
          fun h => by omega, fun _ => ⟨rfl, by omega, rfl⟩, fun i' hi' => ?_, fun _ i' hi' => ?_⟩
        · dsimp only
          rw [bind_ok hrd, bind_ok (ha.rd hi hj), if_pos hc, bind_ok (hl.rd hk hj), bind_ok w1, bind_ok w3]
          rfl
        · by_cases c : t' = k + 1 ∧ j' = j
          · rw [if_pos c, if_pos ⟨c, by omega⟩]
          · rw [if_neg c, if_neg (fun h => c h.1), if_neg (fun h => c h.1)]
        · by_cases c : t' = k + 1 ∧ j' = j
          · rw [if_pos c, if_pos c]
          · rw [if_neg c, if_neg c, if_neg c]
        · by_cases e : i' = i
          · subst e; exact le_refl _
          · rcases hc with hc | hc
            · rcases Nat.eq_zero_or_pos i with h0 | h0
              · omega
              · exact le_trans (i5 i' (by omega)) (by rw [← (i4 h0).2.2]; exact hc.le)
            · rcases Nat.eq_zero_or_pos i with h0 | h0
              · omega
              · rw [(i4 h0).1] at hc; cases hc
        · rcases Nat.eq_zero_or_pos i with h0 | h0
          · omega
          · rcases hc with hc | hc
            · exact lt_of_le_of_lt (i5 i' hi') (by rw [← (i4 h0).2.2]; exact hc)
            · rw [(i4 h0).1] at hc; cases hc
      · have hi0 : 0 < i := by
          rcases Nat.eq_zero_or_pos i with h0 | h0
          · exact absurd (Or.inr (i3 h0)) hc
          · exact h0
        obtain ⟨b1, b2, b3⟩ := i4 hi0
        refine ⟨((ph, ps), (mx, hv)), ?_, s, i1.congr fun t' j' _ _ => ?_, i2, fun h => by omega, fun _ => ⟨b1, by omega, b3⟩, fun i' hi' => ?_, fun _ => i6 hi0⟩
        · dsimp only
          rw [bind_ok hrd, bind_ok (ha.rd hi hj), if_neg hc]
          rfl
        · by_cases c : t' = k + 1 ∧ j' = j
          · rw [if_pos ⟨c, hi0⟩, if_pos ⟨c, by omega⟩]
          · rw [if_neg (fun h => c h.1), if_neg (fun h => c h.1)]
        · by_cases e : i' = i
          · subst e
            rw [← b3]
            exact not_lt.mp (fun h => hc (Or.inl h))
          · exact i5 i' (by omega))
  obtain ⟨b1, b2, b3⟩ := h7 hN
  refine ⟨r, s, ?_, b2, h4.congr fun t' j' _ _ => ?_, h5, h8.1, h8.2 hN⟩
  · rw [bind_ok h1]; exact h3
  · by_cases c : t' = k + 1 ∧ j' = j
    · rw [if_pos ⟨c, hN⟩, if_pos c]
    · rw [if_neg (fun h => c h.1), if_neg c]

theorem pass_ok (hN : 0 < N) (hT : 0 < T) (hp : Holds N P p0) (ha : Holds2 N N A a) (hl : Holds2 T N LB logb) (hphi : ∃ f, Holds2 T N f phi)
    (hpsi : ∃ f, Holds2 T N f psi) :
    ∃ phi' psi' φ ψ, viterbiPass lg N T p0 a logb phi psi = some (phi', psi') ∧ Holds2 T N φ phi' ∧ Holds2 T N ψ psi' ∧
      (∀ i, i < N → φ 0 i = lg (P i) + ((LB 0 i : K) : WithBot K)) ∧ ∀ t j, t + 1 < T → j < N → Good lg N A LB φ ψ t j := by
  obtain ⟨f1, hphi⟩ := hphi
  obtain ⟨f2, hpsi⟩ := hpsi
  obtain ⟨⟨ph0, ps0⟩, h1, h2, h3⟩ := loop_inv (n := N) (f := fun i (st : List (List (WithBot K)) × List (List Nat)) => do
      let p ← p0[i]?
      let l ← rd2 logb 0 i
      let phi ← wr2 st.1 0 i (lg p + (l : WithBot K))
      let psi ← wr2 st.2 0 i 0
      pure (phi, psi)) (s := (phi, psi))
    (P := fun i st => Holds2 T N (fun t' i' => if t' = 0 ∧ i' < i then lg (P i') + ((LB 0 i' : K) : WithBot K) else f1 t' i') st.1 ∧ ∃ f, Holds2 T N f st.2)
    ⟨hphi.congr fun _ _ _ _ => by simp, f2, hpsi⟩
    (by
      rintro i ⟨ph, ps⟩ hi ⟨i1, f, i2⟩
      dsimp only at i1 i2
      obtain ⟨ph', w1, w2⟩ := i1.wr hT hi (lg (P i) + ((LB 0 i : K) : WithBot K))
      obtain ⟨ps', w3, w4⟩ := i2.wr hT hi 0
      refine ⟨(ph', ps'), ?_, w2.congr fun t' i' _ _ => ?_, _, w4⟩
      · rw [bind_ok (hp.2 i hi), bind_ok (hl.rd hT hi), bind_ok w1, bind_ok w3]
        rfl
      · by_cases c : t' = 0 ∧ i' = i
        · rw [if_pos c, if_pos (by omega), c.2]
        · rw [if_neg c]
          by_cases c2 : t' = 0 ∧ i' < i
          · rw [if_pos c2, if_pos (by omega)]
          · rw [if_neg c2, if_neg (by omega)])
  obtain ⟨f3, h3⟩ := h3
  obtain ⟨⟨ph', ps'⟩, h4, φ, ψ, h5, h6, h7, h8⟩ := loop_inv (n := T - 1) (f := fun k (st : List (List (WithBot K)) × List (List Nat)) =>
      loop N (fun j (st : List (List (WithBot K)) × List (List Nat)) => do
        let psi ← wr2 st.2 (k + 1) j 0
        let r ← loop N (fun i (r : (List (List (WithBot K)) × List (List Nat)) × (WithBot K × Bool)) => do
          let p ← rd2 r.1.1 k i
          let q ← rd2 a i j
          if p + lg q > r.2.1 ∨ r.2.2 = false then do
            let l ← rd2 logb (k + 1) j
            let phi ← wr2 r.1.1 (k + 1) j (p + lg q + (l : WithBot K))
            let psi ← wr2 r.1.2 (k + 1) j i
            pure ((phi, psi), (p + lg q, true))
          else pure r) ((st.1, psi), (((-1000000 : K) : WithBot K), false))
        pure r.1) st) (s := (ph0, ps0))
    (P := fun k st => ∃ φ ψ, Holds2 T N φ st.1 ∧ Holds2 T N ψ st.2 ∧ (∀ i, i < N → φ 0 i = lg (P i) + ((LB 0 i : K) : WithBot K)) ∧
      ∀ t j, t < k → j < N → Good lg N A LB φ ψ t j)
    ⟨_, _, h2, h3, fun i hi => by simp [hi], fun t j ht => absurd ht (Nat.not_lt_zero t)⟩
    (by
      rintro k st hk ⟨φ, ψ, i1, i2, i3, i4⟩
      obtain ⟨st', e1, φ', ψ', e2, e3, e4, e5, e6⟩ := loop_inv (n := N) (f := fun j (st : List (List (WithBot K)) × List (List Nat)) => do
        let psi ← wr2 st.2 (k + 1) j 0
        let r ← loop N (fun i (r : (List (List (WithBot K)) × List (List Nat)) × (WithBot K × Bool)) => do
          let p ← rd2 r.1.1 k i
          let q ← rd2 a i j
          if p + lg q > r.2.1 ∨ r.2.2 = false then do
            let l ← rd2 logb (k + 1) j
            let phi ← wr2 r.1.1 (k + 1) j (p + lg q + (l : WithBot K))
            let psi ← wr2 r.1.2 (k + 1) j i
            pure ((phi, psi), (p + lg q, true))
          else pure r) ((st.1, psi), (((-1000000 : K) : WithBot K), false))
        pure r.1) (s := st)
        (P := fun j st => ∃ φ ψ, Holds2 T N φ st.1 ∧ Holds2 T N ψ st.2 ∧ (∀ i, i < N → φ 0 i = lg (P i) + ((LB 0 i : K) : WithBot K)) ∧
          (∀ t j, t < k → j < N → Good lg N A LB φ ψ t j) ∧ ∀ j', j' < j → Good lg N A LB φ ψ k j')
        ⟨φ, ψ, i1, i2, i3, i4, fun j hj => absurd hj (Nat.not_lt_zero j)⟩
        (by
          rintro j ⟨ph, ps⟩ hj ⟨φ, ψ, j1, j2, j3, j4, j5⟩
          dsimp only at j1 j2
          obtain ⟨r, s, w1, w2, w3, w4, w5, w6⟩ := entry_ok (lg := lg) hN ha hl j1 j2 (k := k) (by omega) hj
          refine ⟨r.1, ?_, _, _, w3, w4, fun i hi => ?_, fun t j' ht hj' => ?_, fun j' hj' => ?_⟩
          · obtain ⟨x, hx, w1⟩ := Option.bind_eq_some_iff.mp w1
            dsimp only
            rw [bind_ok hx, bind_ok w1]
            rfl
          · rw [if_neg (by omega)]; exact j3 i hi
          · refine (j4 t j' ht hj').congr ?_ ?_ ?_
            · rw [if_neg (by omega)]
            · rw [if_neg (by omega)]
            · intro i _; rw [if_neg (by omega)]
          · by_cases e : j' = j
            · subst e
              unfold Good
              simp only [and_self, if_true, Nat.ne_of_lt (Nat.lt_succ_self k), false_and, if_false]
              exact ⟨w2, trivial, w5, w6⟩
            · refine (j5 j' (by omega)).congr ?_ ?_ ?_
              · rw [if_neg (by omega)]
              · rw [if_neg (by omega)]
              · intro i _; rw [if_neg (by omega)])
      refine ⟨st', e1, φ', ψ', e2, e3, e4, fun t j ht hj => ?_⟩
      by_cases e : t = k
      · subst e; exact e6 j hj
      · exact e5 t j (by omega) hj)
  refine ⟨ph', ps', φ, ψ, ?_, h5, h6, h7, fun t j ht hj => h8 t j (by omega) hj⟩
  unfold viterbiPass
  rw [bind_ok h1]
  exact h4

theorem path_ok {φ : Nat → Nat → WithBot K} {ψ : Nat → Nat → Nat} {q : List Nat} (hN : 0 < N) (hT : 0 < T) (hphi : Holds2 T N φ phi)
    (hpsi : Holds2 T N ψ psi) (hψ : ∀ t j, t + 1 < T → j < N → ψ (t + 1) j < N) (hq : q.length = T) :
    ∃ q' Q, viterbiPath N T phi psi q = some q' ∧ Holds T Q q' ∧ (∀ t, t < T → Q t < N) ∧ (∀ t, t + 1 < T → Q t = ψ (t + 1) (Q (t + 1))) ∧
      (∀ j, j < N → φ (T - 1) j ≤ φ (T - 1) (Q (T - 1))) ∧ ∀ j, j < Q (T - 1) → φ (T - 1) j < φ (T - 1) (Q (T - 1)) := by
  have hT1 : T - 1 < T := by omega
  obtain ⟨⟨m, q1⟩, h1, s, h2, h3, h4, h5, h6⟩ := loop_inv (n := N - 1) (f := fun k (st : WithBot K × List Nat) => do
      let p ← rd2 phi (T - 1) (k + 1)
      if p > st.1 then do
        let q ← wr st.2 (T - 1) (k + 1)
        pure (p, q)
      else pure st) (s := (φ (T - 1) 0, q.set (T - 1) 0))
    (P := fun k st => ∃ s, s ≤ k ∧ st.1 = φ (T - 1) s ∧ st.2 = q.set (T - 1) s ∧ (∀ j, j ≤ k → φ (T - 1) j ≤ φ (T - 1) s) ∧
      ∀ j, j < s → φ (T - 1) j < φ (T - 1) s)
    ⟨0, Nat.le_refl _, rfl, rfl, fun j hj => (Nat.le_zero.mp hj) ▸ le_refl _, fun j hj => absurd hj (Nat.not_lt_zero j)⟩
    (by
      rintro k ⟨m, q1⟩ hk ⟨s, i1, i2, i3, i4, i5⟩
      dsimp only at i2 i3
      subst i2 i3
      by_cases hc : φ (T - 1) (k + 1) > φ (T - 1) s
      · refine ⟨(φ (T - 1) (k + 1), q.set (T - 1) (k + 1)), ?_, k + 1, by omega, rfl, rfl, fun j hj => ?_, fun j hj => lt_of_le_of_lt (i4 j (by omega)) hc⟩
        · dsimp only
          rw [bind_ok (hphi.rd hT1 (by omega)), if_pos hc, bind_ok (wr_some _ (by simp; omega)), List.set_set]
          rfl
        · by_cases e : j = k + 1
          · subst e; exact le_refl _
          · exact le_trans (i4 j (by omega)) hc.le
      · refine ⟨(φ (T - 1) s, q.set (T - 1) s), ?_, s, by omega, rfl, rfl, fun j hj => ?_, i5⟩
        · dsimp only
          rw [bind_ok (hphi.rd hT1 (by omega)), if_neg hc]
          rfl
        · by_cases e : j = k + 1
          · subst e; exact not_lt.mp hc
          · exact i4 j (by omega))
  dsimp only at h3 h4
  subst h4
  obtain ⟨q', h7, Q, h8, h9, h10, h11⟩ := loop_inv (n := T - 1) (f := fun k (q : List Nat) => do
      let s ← q[T - 2 - k + 1]?
      let p ← rd2 psi (T - 2 - k + 1) s
      wr q (T - 2 - k) p) (s := q.set (T - 1) s)
    (P := fun k q' => ∃ Q, Holds T Q q' ∧ Q (T - 1) = s ∧ (∀ t, t < T → T - 1 - k ≤ t → Q t < N) ∧
      ∀ t, t + 1 < T → T - 1 - k ≤ t → Q t = ψ (t + 1) (Q (t + 1)))
    ⟨fun j => if j = T - 1 then s else q.getD j 0, (Holds.wr' (holds_of_length hq 0) hT1 s).2, by simp, fun t ht h => by dsimp only; rw [if_pos (by omega)]; omega,
      fun t ht h => by omega⟩
    (by
      rintro k q1 hk ⟨Q, i1, i2, i3, i4⟩
      have e : T - 2 - k + 1 = T - 1 - k := by omega
      have hlt : Q (T - 1 - k) < N := i3 _ (by omega) (Nat.le_refl _)
      obtain ⟨w1, w2⟩ := Holds.wr' i1 (i := T - 2 - k) (by omega) (ψ (T - 1 - k) (Q (T - 1 - k)))
      refine ⟨_, ?_, _, w2, ?_, fun t ht h => ?_, fun t ht h => ?_⟩
      · rw [e, bind_ok (i1.2 _ (by omega)), bind_ok (hpsi.rd (by omega) hlt)]
        exact w1
      · rw [if_neg (by omega)]; exact i2
      · by_cases c : t = T - 2 - k
        · rw [if_pos c, ← e]
          exact hψ _ _ (by omega) (by rw [e]; exact hlt)
        · rw [if_neg c]; exact i3 t ht (by omega)
      · rw [if_neg (show t + 1 ≠ T - 2 - k by omega)]
        by_cases c : t = T - 2 - k
        · rw [if_pos c, show t + 1 = T - 1 - k by omega]
        · rw [if_neg c]; exact i4 t ht (by omega))
  refine ⟨q', Q, ?_, h8, fun t ht => h10 t ht (by omega), fun t ht => h11 t ht (by omega), fun j hj => by rw [h9]; exact h5 j (by omega), fun j hj => by rw [h9] at hj ⊢; exact h6 j hj⟩
  unfold viterbiPath
  rw [if_neg (by omega), bind_ok (hphi.rd hT1 hN), bind_ok (wr_some _ (by omega)), bind_ok h1]
  exact h7

end

section

variable {N T : Nat} {p0 : List ℝ} {a logb : List (List ℝ)} {phi : List (List (WithBot ℝ))} {psi : List (List Nat)} {q : List Nat}
  {P : Nat → ℝ} {A LB : Nat → Nat → ℝ}

/-- Exponential, zero at minus infinity. -/
noncomputable def bexp : WithBot ℝ → ℝ
  | ⊥ => 0
  | (x : ℝ) => Real.exp x

theorem bexp_mono : Monotone bexp := by
  intro x y h
  cases x with
  | bot =>
    cases y with
    | bot => exact le_refl _
    | coe y => exact (Real.exp_pos y).le
  | coe x =>
    cases y with
    | bot => simp at h
    | coe y => exact Real.exp_le_exp.mpr (WithBot.coe_le_coe.mp h)

theorem bexp_add (x y : WithBot ℝ) : bexp (x + y) = bexp x * bexp y := by
  cases x with
  | bot => simp [bexp]
  | coe x =>
    cases y with
    | bot => simp [bexp]
    | coe y => exact Real.exp_add x y

theorem bexp_blog {x : ℝ} (h : 0 ≤ x) : bexp (blog x) = x := by
  unfold blog
  by_cases h0 : x = 0
  · rw [if_pos h0, h0]; rfl
  · rw [if_neg h0]
    exact Real.exp_log (lt_of_le_of_ne h (Ne.symm h0))

/-- The step of the recursion. -/
noncomputable def vstep (A LB : Nat → Nat → ℝ) (t i j : Nat) (v : WithBot ℝ) : WithBot ℝ := v + blog (A i j) + ((LB (t + 1) j : ℝ) : WithBot ℝ)

theorem vstep_mono (t i j : Nat) : Monotone (vstep A LB t i j) := fun _ _ h => add_le_add_left (add_le_add_left h _) _

theorem bexp_val (hP : ∀ i, i < N → 0 ≤ P i) (hA : ∀ i j, i < N → j < N → 0 ≤ A i j) (Q : Nat → Nat) (n : Nat) (hQ : ∀ t, t ≤ n → Q t < N) :
    bexp (Viterbi.val (fun i => blog (P i) + ((LB 0 i : ℝ) : WithBot ℝ)) (vstep A LB) Q n)
      = P (Q 0) * (∏ t ∈ Finset.range n, A (Q t) (Q (t + 1))) * ∏ t ∈ Finset.range (n + 1), Real.exp (LB t (Q t)) := by
  induction n with
  | zero =>
    show bexp (blog (P (Q 0)) + _) = _
    rw [bexp_add, bexp_blog (hP _ (hQ 0 (Nat.le_refl _)))]
    simp [bexp]
  | succ n ih =>
    show bexp (_ + blog (A (Q n) (Q (n + 1))) + ((LB (n + 1) (Q (n + 1)) : ℝ) : WithBot ℝ)) = _
    rw [bexp_add, bexp_add, ih (fun t ht => hQ t (by omega)), bexp_blog (hA _ _ (hQ _ (by omega)) (hQ _ (Nat.le_refl _))), Finset.prod_range_succ (fun t => A (Q t) (Q (t + 1))),
      Finset.prod_range_succ (fun t => Real.exp (LB t (Q t))) (n + 1)]
    simp only [bexp]
    ring

theorem at'_of (Q : Nat → Nat) (hQ : ∀ t, t < T → Q t < N) {t : Nat} (ht : t < T) : at' (fun s : Fin T => (⟨Q s.1, hQ s.1 s.2⟩ : Fin N)) t = Q t := by
  unfold at'
  rw [dif_pos ht]

/-- C34. For every model without negative probabilities, at least one state and at least one observation: `viterbi_decode` writes a
sequence of `T` states below `N` such that no state sequence has a greater joint probability with the observations. -/
theorem C34_optimal (hN : 0 < N) (hT : 0 < T) (hp : Holds N P p0) (ha : Holds2 N N A a) (hl : Holds2 T N LB logb) (hphi : ∃ f, Holds2 T N f phi)
    (hpsi : ∃ f, Holds2 T N f psi) (hq : q.length = T) (hP : ∀ i, i < N → 0 ≤ P i) (hA : ∀ i j, i < N → j < N → 0 ≤ A i j) :
    ∃ (q' : List Nat) (best : Fin T → Fin N), viterbi blog N T p0 a logb phi psi q = some q' ∧ q'.length = T ∧
      (∀ t : Fin T, q'[t.1]? = some (best t).1) ∧
      ∀ other : Fin T → Fin N, pathProb P A (fun t i => Real.exp (LB t i)) other ≤ pathProb P A (fun t i => Real.exp (LB t i)) best := by
  obtain ⟨phi', psi', φ, ψ, h1, h2, h3, h4, h5⟩ := pass_ok (lg := blog) hN hT hp ha hl hphi hpsi
  obtain ⟨q', Q, h6, h7, h8, h9, h10, _⟩ := path_ok hN hT h2 h3 (fun t j ht hj => (h5 t j ht hj).1) hq
  refine ⟨q', fun s => ⟨Q s.1, h8 s.1 s.2⟩, ?_, h7.1, fun t => h7.2 t.1 t.2, fun other => ?_⟩
  · unfold viterbi
    rw [bind_ok h1]
    exact h6
  · have hval : ∀ (Q : Nat → Nat) (hQ : ∀ t, t < T → Q t < N), bexp (Viterbi.val (fun i => blog (P i) + ((LB 0 i : ℝ) : WithBot ℝ)) (vstep A LB) Q (T - 1))
        = pathProb P A (fun t i => Real.exp (LB t i)) (fun s : Fin T => (⟨Q s.1, hQ s.1 s.2⟩ : Fin N)) := by
      intro Q hQ
      rw [bexp_val hP hA Q (T - 1) (fun t ht => hQ t (by omega)), show T - 1 + 1 = T by omega]
      unfold pathProb
      rw [at'_of Q hQ hT]
      congr 1
      · congr 1
        refine Finset.prod_congr rfl fun t ht => ?_
        have := Finset.mem_range.mp ht
        rw [at'_of Q hQ (by omega), at'_of Q hQ (by omega)]
      · exact Finset.prod_congr rfl fun t ht => by rw [at'_of Q hQ (Finset.mem_range.mp ht)]
    have ho : other = fun s : Fin T => (⟨at' other s.1, at'_lt s.2⟩ : Fin N) := by
      funext s
      apply Fin.ext
      simp [at', s.2]
    rw [← hval Q h8, ho, ← hval (at' other) (fun t ht => at'_lt ht)]
    refine bexp_mono (Viterbi.optimal (N := N) (phi := φ) (fun t i j _ => vstep_mono t i j) h4 (fun t i j ht hi hj => ?_) (fun t ht => ?_)
      (fun t ht => h8 t (by omega)) h10 (at' other) (fun t ht => at'_lt (by omega)))
    · obtain ⟨_, g2, g3, _⟩ := h5 t j (by omega) hj
      rw [g2]
      exact add_le_add_left (g3 i hi) _
    · obtain ⟨_, g2, _, _⟩ := h5 t (Q (t + 1)) (by omega) (h8 _ (by omega))
      rw [g2, ← h9 t (by omega)]
      rfl

/-- Without states or without observations the decoder leaves its arrays. -/
theorem C34_empty (h : N = 0 ∨ T = 0) (hphi : phi.length = T) (hphi0 : ∀ r ∈ phi, r.length = N) :
    viterbi blog N T p0 a logb phi psi q = none := by
  have key : ∀ (ph : List (List (WithBot ℝ))) (ps : List (List Nat)), ph.length = T → (∀ r ∈ ph, r.length = N) → viterbiPath N T ph ps q = none := by
    intro ph ps hl hr
    unfold viterbiPath
    rcases Nat.eq_zero_or_pos T with h0 | h0
    · rw [if_pos h0]
    · rw [if_neg (by omega)]
      have hN : N = 0 := by omega
      have : rd2 ph (T - 1) 0 = none := by
        unfold rd2
        rw [List.getElem?_eq_getElem (show T - 1 < ph.length by omega)]
        show ph[T - 1][0]? = none
        rw [List.getElem?_eq_none]
        rw [hr _ (List.getElem_mem _)]
        omega
      rw [this]
      rfl
  unfold viterbi
  cases hp : viterbiPass blog N T p0 a logb phi psi with
  | none => rfl
  | some r =>
    obtain ⟨ph, ps⟩ := r
    show viterbiPath N T ph ps q = none
    rcases h with h | h
    · subst h
      have : ∀ k (s : List (List (WithBot ℝ)) × List (List Nat)), loop k (fun _ s => some s) s = some s := by
        intro k s
        induction k with
        | zero => rfl
        | succ k ih => rw [loop, ih]; rfl
      have h2 : viterbiPass blog 0 T p0 a logb phi psi = some (phi, psi) := this (T - 1) (phi, psi)
      rw [hp, Option.some.injEq, Prod.mk.injEq] at h2
      obtain ⟨rfl, rfl⟩ := h2
      exact key ph ps hphi hphi0
    · unfold viterbiPath
      rw [if_pos h]

/-- Two states and three observations: the sequence found is the best one. -/
example : viterbi (fun x : ℚ => (x : WithBot ℚ)) 2 3 [-1, -2] [[-1, -2], [-3, -1]] [[-1, 0], [-5, -1], [-5, -1]] [[0, 0], [0, 0], [0, 0]] [[7, 7], [7, 7], [7, 7]] [9, 9, 9]
    = some [1, 1, 1] := by decide +kernel

end

end QM.Hmm
