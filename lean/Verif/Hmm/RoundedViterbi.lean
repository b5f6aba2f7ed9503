import Verif.Hmm.ViterbiProps

/-!
# `viterbi_decode` with an arbitrary addition

The model of the recursion with the addition of the machine in the place of the exact one; the track back has no arithmetic.
-/

namespace QM.Hmm

section

variable {K : Type} [Field K] [LinearOrder K] {N T : Nat} {add : WithBot K → WithBot K → WithBot K} {lg : K → WithBot K} {p0 : List K}
  {a logb : List (List K)} {phi : List (List (WithBot K))} {psi : List (List Nat)} {P : Nat → K} {A LB : Nat → Nat → K}

/-- The recursion of `viterbi_decode`, hmm/hmm.c:492-517, with `add` for every addition: `phi` and `psi`. `lg` is `log`, which is minus
infinity at 0; minus infinity is `⊥`. The sum the code compares and the one it stores in `max` are the same. -/
def viterbiPassD (add : WithBot K → WithBot K → WithBot K) (lg : K → WithBot K) (N T : Nat) (p0 : List K) (a : List (List K)) (logb : List (List K))
    (phi : List (List (WithBot K))) (psi : List (List Nat)) : Option (List (List (WithBot K)) × List (List Nat)) := do
  let s ← loop N (fun i (st : List (List (WithBot K)) × List (List Nat)) => do
    let p ← p0[i]?
    let l ← rd2 logb 0 i
    let phi ← wr2 st.1 0 i (add (lg p) (l : WithBot K))
    let psi ← wr2 st.2 0 i 0
    pure (phi, psi)) (phi, psi)
  loop (T - 1) (fun k (st : List (List (WithBot K)) × List (List Nat)) =>
    loop N (fun j (st : List (List (WithBot K)) × List (List Nat)) => do
      let psi ← wr2 st.2 (k + 1) j 0
      let r ← loop N (fun i (r : (List (List (WithBot K)) × List (List Nat)) × (WithBot K × Bool)) => do
        let p ← rd2 r.1.1 k i
        let q ← rd2 a i j
        if add p (lg q) > r.2.1 ∨ r.2.2 = false then do
          let l ← rd2 logb (k + 1) j
          let phi ← wr2 r.1.1 (k + 1) j (add (add p (lg q)) (l : WithBot K))
          let psi ← wr2 r.1.2 (k + 1) j i
          pure ((phi, psi), (add p (lg q), true))
        else pure r) ((st.1, psi), (((-1000000 : K) : WithBot K), false))
      pure r.1) st) s

/-- `viterbi_decode`, hmm/hmm.c:454-553, from the observation log-probabilities `logb` on, with `add` for every addition. -/
def viterbiD (add : WithBot K → WithBot K → WithBot K) (lg : K → WithBot K) (N T : Nat) (p0 : List K) (a logb : List (List K))
    (phi : List (List (WithBot K))) (psi : List (List Nat)) (q : List Nat) : Option (List Nat) := do
  let (phi, psi) ← viterbiPassD add lg N T p0 a logb phi psi
  viterbiPath N T phi psi q

/-- The table entry for state `j` after time `t` is the greatest extension of the entries at time `t`, and the back pointer is the first
state it is reached from. -/
def GoodD (add : WithBot K → WithBot K → WithBot K) (lg : K → WithBot K) (N : Nat) (A LB : Nat → Nat → K) (φ : Nat → Nat → WithBot K) (ψ : Nat → Nat → Nat) (t j : Nat) : Prop :=
  ψ (t + 1) j < N ∧ φ (t + 1) j = add (add (φ t (ψ (t + 1) j)) (lg (A (ψ (t + 1) j) j))) ((LB (t + 1) j : K) : WithBot K) ∧
    (∀ i, i < N → add (φ t i) (lg (A i j)) ≤ add (φ t (ψ (t + 1) j)) (lg (A (ψ (t + 1) j) j))) ∧
    ∀ i, i < ψ (t + 1) j → add (φ t i) (lg (A i j)) < add (φ t (ψ (t + 1) j)) (lg (A (ψ (t + 1) j) j))

omit [Field K] in
theorem GoodD.congr {φ φ' : Nat → Nat → WithBot K} {ψ ψ' : Nat → Nat → Nat} {t j : Nat} (h : GoodD add lg N A LB φ ψ t j)
    (h1 : ψ' (t + 1) j = ψ (t + 1) j) (h2 : φ' (t + 1) j = φ (t + 1) j) (h3 : ∀ i, i < N → φ' t i = φ t i) : GoodD add lg N A LB φ' ψ' t j := by
  obtain ⟨a1, a2, a3, a4⟩ := h
  unfold GoodD
  rw [h1, h2, h3 _ a1]
  exact ⟨a1, a2, fun i hi => by rw [h3 i hi]; exact a3 i hi, fun i hi => by rw [h3 i (by omega)]; exact a4 i hi⟩

/-- One entry of the table. -/
theorem entry_okD {φ : Nat → Nat → WithBot K} {ψ : Nat → Nat → Nat} (hN : 0 < N) (ha : Holds2 N N A a) (hl : Holds2 T N LB logb) (hphi : Holds2 T N φ phi)
    (hpsi : Holds2 T N ψ psi) {k j : Nat} (hk : k + 1 < T) (hj : j < N) :
    ∃ (r : (List (List (WithBot K)) × List (List Nat)) × (WithBot K × Bool)) (s : Nat), (do
      let psi ← wr2 psi (k + 1) j 0
      loop N (fun i (r : (List (List (WithBot K)) × List (List Nat)) × (WithBot K × Bool)) => do
        let p ← rd2 r.1.1 k i
        let q ← rd2 a i j
        if add p (lg q) > r.2.1 ∨ r.2.2 = false then do
          let l ← rd2 logb (k + 1) j
          let phi ← wr2 r.1.1 (k + 1) j (add (add p (lg q)) (l : WithBot K))
          let psi ← wr2 r.1.2 (k + 1) j i
          pure ((phi, psi), (add p (lg q), true))
        else pure r) ((phi, psi), (((-1000000 : K) : WithBot K), false))) = some r ∧ s < N ∧
      Holds2 T N (fun t' j' => if t' = k + 1 ∧ j' = j then add (add (φ k s) (lg (A s j))) ((LB (k + 1) j : K) : WithBot K) else φ t' j') r.1.1 ∧
      Holds2 T N (fun t' j' => if t' = k + 1 ∧ j' = j then s else ψ t' j') r.1.2 ∧
      (∀ i, i < N → add (φ k i) (lg (A i j)) ≤ add (φ k s) (lg (A s j))) ∧ ∀ i, i < s → add (φ k i) (lg (A i j)) < add (φ k s) (lg (A s j)) := by
  obtain ⟨ps0, h1, h2⟩ := hpsi.wr hk hj 0
  obtain ⟨r, h3, s, h4, h5, h6, h7, h8⟩ := loop_inv (n := N) (f := fun i (r : (List (List (WithBot K)) × List (List Nat)) × (WithBot K × Bool)) => do
        let p ← rd2 r.1.1 k i
        let q ← rd2 a i j
        if add p (lg q) > r.2.1 ∨ r.2.2 = false then do
          let l ← rd2 logb (k + 1) j
          let phi ← wr2 r.1.1 (k + 1) j (add (add p (lg q)) (l : WithBot K))
          let psi ← wr2 r.1.2 (k + 1) j i
          pure ((phi, psi), (add p (lg q), true))
        else pure r) (s := ((phi, ps0), (((-1000000 : K) : WithBot K), false)))
    (P := fun i r => ∃ s, Holds2 T N (fun t' j' => if (t' = k + 1 ∧ j' = j) ∧ 0 < i then add (add (φ k s) (lg (A s j))) ((LB (k + 1) j : K) : WithBot K) else φ t' j') r.1.1 ∧
      Holds2 T N (fun t' j' => if t' = k + 1 ∧ j' = j then s else ψ t' j') r.1.2 ∧ (i = 0 → r.2.2 = false) ∧
      (0 < i → r.2.2 = true ∧ s < i ∧ r.2.1 = add (φ k s) (lg (A s j))) ∧
      ((∀ i', i' < i → add (φ k i') (lg (A i' j)) ≤ add (φ k s) (lg (A s j))) ∧ (0 < i → ∀ i', i' < s → add (φ k i') (lg (A i' j)) < add (φ k s) (lg (A s j)))))
    ⟨0, hphi.congr fun _ _ _ _ => by simp, h2, fun _ => rfl, fun h => absurd h (Nat.lt_irrefl 0), fun i hi => absurd hi (Nat.not_lt_zero i), fun h => absurd h (Nat.lt_irrefl 0)⟩
    (by
      rintro i ⟨⟨ph, ps⟩, mx, hv⟩ hi ⟨s, i1, i2, i3, i4, i5, i6⟩
      dsimp only at i1 i2 i3 i4 i5 i6
      have hrd : rd2 ph k i = some (φ k i) := by rw [i1.rd (by omega) hi, if_neg (by omega)]
      by_cases hc : add (φ k i) (lg (A i j)) > mx ∨ hv = false
      · obtain ⟨ph', w1, w2⟩ := i1.wr hk hj (add (add (φ k i) (lg (A i j))) ((LB (k + 1) j : K) : WithBot K))
        obtain ⟨ps', w3, w4⟩ := i2.wr hk hj i
        refine ⟨((ph', ps'), (add (φ k i) (lg (A i j)), true)), ?_, i, w2.congr fun t' j' _ _ => ?_, w4.congr fun t' j' _ _ => ?_,
          fun h => by omega, fun _ => ⟨rfl, by omega, rfl⟩, fun i' hi' => ?_, fun _ i' hi' => ?_⟩
        · dsimp only
          rw [bind_ok hrd, bind_ok (ha.rd hi hj), if_pos hc, bind_ok (hl.rd hk hj), bind_ok w1, bind_ok w3]
          rfl
        · by_cases c : t' = k + 1 ∧ j' = j
          · rw [if_pos c, if_pos ⟨c, by omega⟩]
          · rw [if_neg c, if_neg (fun h => c h.1), if_neg (fun h => c h.1)]
        · by_cases c : t' = k + 1 ∧ j' = j
          · rw [if_pos c, if_pos c]
          · rw [if_neg c, if_neg c, if_neg c]
        · by_cases e : i' = i
          · subst e; exact le_refl _
          · rcases hc with hc | hc
            · rcases Nat.eq_zero_or_pos i with h0 | h0
              · omega
              · exact le_trans (i5 i' (by omega)) (by rw [← (i4 h0).2.2]; exact hc.le)
            · rcases Nat.eq_zero_or_pos i with h0 | h0
              · omega
              · rw [(i4 h0).1] at hc; cases hc
        · rcases Nat.eq_zero_or_pos i with h0 | h0
          · omega
          · rcases hc with hc | hc
            · exact lt_of_le_of_lt (i5 i' hi') (by rw [← (i4 h0).2.2]; exact hc)
            · rw [(i4 h0).1] at hc; cases hc
      · have hi0 : 0 < i := by
          rcases Nat.eq_zero_or_pos i with h0 | h0
          · exact absurd (Or.inr (i3 h0)) hc
          · exact h0
        obtain ⟨b1, b2, b3⟩ := i4 hi0
        refine ⟨((ph, ps), (mx, hv)), ?_, s, i1.congr fun t' j' _ _ => ?_, i2, fun h => by omega, fun _ => ⟨b1, by omega, b3⟩, fun i' hi' => ?_, fun _ => i6 hi0⟩
        · dsimp only
          rw [bind_ok hrd, bind_ok (ha.rd hi hj), if_neg hc]
          rfl
        · by_cases c : t' = k + 1 ∧ j' = j
          · rw [if_pos ⟨c, hi0⟩, if_pos ⟨c, by omega⟩]
          · rw [if_neg (fun h => c h.1), if_neg (fun h => c h.1)]
        · by_cases e : i' = i
          · subst e
            rw [← b3]
            exact not_lt.mp (fun h => hc (Or.inl h))
          · exact i5 i' (by omega))
  obtain ⟨b1, b2, b3⟩ := h7 hN
  refine ⟨r, s, ?_, b2, h4.congr fun t' j' _ _ => ?_, h5, h8.1, h8.2 hN⟩
  · rw [bind_ok h1]; exact h3
  · by_cases c : t' = k + 1 ∧ j' = j
    · rw [if_pos ⟨c, hN⟩, if_pos c]
    · rw [if_neg (fun h => c h.1), if_neg c]

theorem pass_okD (hN : 0 < N) (hT : 0 < T) (hp : Holds N P p0) (ha : Holds2 N N A a) (hl : Holds2 T N LB logb) (hphi : ∃ f, Holds2 T N f phi)
    (hpsi : ∃ f, Holds2 T N f psi) :
    ∃ phi' psi' φ ψ, viterbiPassD add lg N T p0 a logb phi psi = some (phi', psi') ∧ Holds2 T N φ phi' ∧ Holds2 T N ψ psi' ∧
      (∀ i, i < N → φ 0 i = add (lg (P i)) ((LB 0 i : K) : WithBot K)) ∧ ∀ t j, t + 1 < T → j < N → GoodD add lg N A LB φ ψ t j := by
  obtain ⟨f1, hphi⟩ := hphi
  obtain ⟨f2, hpsi⟩ := hpsi
  obtain ⟨⟨ph0, ps0⟩, h1, h2, h3⟩ := loop_inv (n := N) (f := fun i (st : List (List (WithBot K)) × List (List Nat)) => do
      let p ← p0[i]?
      let l ← rd2 logb 0 i
      let phi ← wr2 st.1 0 i (add (lg p) (l : WithBot K))
      let psi ← wr2 st.2 0 i 0
      pure (phi, psi)) (s := (phi, psi))
    (P := fun i st => Holds2 T N (fun t' i' => if t' = 0 ∧ i' < i then add (lg (P i')) ((LB 0 i' : K) : WithBot K) else f1 t' i') st.1 ∧ ∃ f, Holds2 T N f st.2)
    ⟨hphi.congr fun _ _ _ _ => by simp, f2, hpsi⟩
    (by
      rintro i ⟨ph, ps⟩ hi ⟨i1, f, i2⟩
      dsimp only at i1 i2
      obtain ⟨ph', w1, w2⟩ := i1.wr hT hi (add (lg (P i)) ((LB 0 i : K) : WithBot K))
      obtain ⟨ps', w3, w4⟩ := i2.wr hT hi 0
      refine ⟨(ph', ps'), ?_, w2.congr fun t' i' _ _ => ?_, _, w4⟩
      · rw [bind_ok (hp.2 i hi), bind_ok (hl.rd hT hi), bind_ok w1, bind_ok w3]
        rfl
      · by_cases c : t' = 0 ∧ i' = i
        · rw [if_pos c, if_pos (by omega), c.2]
        · rw [if_neg c]
          by_cases c2 : t' = 0 ∧ i' < i
          · rw [if_pos c2, if_pos (by omega)]
          · rw [if_neg c2, if_neg (by omega)])
  obtain ⟨f3, h3⟩ := h3
  obtain ⟨⟨ph', ps'⟩, h4, φ, ψ, h5, h6, h7, h8⟩ := loop_inv (n := T - 1) (f := fun k (st : List (List (WithBot K)) × List (List Nat)) =>
      loop N (fun j (st : List (List (WithBot K)) × List (List Nat)) => do
        let psi ← wr2 st.2 (k + 1) j 0
        let r ← loop N (fun i (r : (List (List (WithBot K)) × List (List Nat)) × (WithBot K × Bool)) => do
          let p ← rd2 r.1.1 k i
          let q ← rd2 a i j
          if add p (lg q) > r.2.1 ∨ r.2.2 = false then do
            let l ← rd2 logb (k + 1) j
            let phi ← wr2 r.1.1 (k + 1) j (add (add p (lg q)) (l : WithBot K))
            let psi ← wr2 r.1.2 (k + 1) j i
            pure ((phi, psi), (add p (lg q), true))
          else pure r) ((st.1, psi), (((-1000000 : K) : WithBot K), false))
        pure r.1) st) (s := (ph0, ps0))
    (P := fun k st => ∃ φ ψ, Holds2 T N φ st.1 ∧ Holds2 T N ψ st.2 ∧ (∀ i, i < N → φ 0 i = add (lg (P i)) ((LB 0 i : K) : WithBot K)) ∧
      ∀ t j, t < k → j < N → GoodD add lg N A LB φ ψ t j)
    ⟨_, _, h2, h3, fun i hi => by simp [hi], fun t j ht => absurd ht (Nat.not_lt_zero t)⟩
    (by
      rintro k st hk ⟨φ, ψ, i1, i2, i3, i4⟩
      obtain ⟨st', e1, φ', ψ', e2, e3, e4, e5, e6⟩ := loop_inv (n := N) (f := fun j (st : List (List (WithBot K)) × List (List Nat)) => do
        let psi ← wr2 st.2 (k + 1) j 0
        let r ← loop N (fun i (r : (List (List (WithBot K)) × List (List Nat)) × (WithBot K × Bool)) => do
          let p ← rd2 r.1.1 k i
          let q ← rd2 a i j
          if add p (lg q) > r.2.1 ∨ r.2.2 = false then do
            let l ← rd2 logb (k + 1) j
            let phi ← wr2 r.1.1 (k + 1) j (add (add p (lg q)) (l : WithBot K))
            let psi ← wr2 r.1.2 (k + 1) j i
            pure ((phi, psi), (add p (lg q), true))
          else pure r) ((st.1, psi), (((-1000000 : K) : WithBot K), false))
        pure r.1) (s := st)
        (P := fun j st => ∃ φ ψ, Holds2 T N φ st.1 ∧ Holds2 T N ψ st.2 ∧ (∀ i, i < N → φ 0 i = add (lg (P i)) ((LB 0 i : K) : WithBot K)) ∧
          (∀ t j, t < k → j < N → GoodD add lg N A LB φ ψ t j) ∧ ∀ j', j' < j → GoodD add lg N A LB φ ψ k j')
        ⟨φ, ψ, i1, i2, i3, i4, fun j hj => absurd hj (Nat.not_lt_zero j)⟩
        (by
          rintro j ⟨ph, ps⟩ hj ⟨φ, ψ, j1, j2, j3, j4, j5⟩
          dsimp only at j1 j2
          obtain ⟨r, s, w1, w2, w3, w4, w5, w6⟩ := entry_okD (lg := lg) hN ha hl j1 j2 (k := k) (by omega) hj
          refine ⟨r.1, ?_, _, _, w3, w4, fun i hi => ?_, fun t j' ht hj' => ?_, fun j' hj' => ?_⟩
          · obtain ⟨x, hx, w1⟩ := Option.bind_eq_some_iff.mp w1
            dsimp only
            rw [bind_ok hx, bind_ok w1]
            rfl
          · rw [if_neg (by omega)]; exact j3 i hi
          · refine (j4 t j' ht hj').congr ?_ ?_ ?_
            · rw [if_neg (by omega)]
            · rw [if_neg (by omega)]
            · intro i _; rw [if_neg (by omega)]
          · by_cases e : j' = j
            · subst e
              unfold GoodD
              simp only [and_self, if_true, Nat.ne_of_lt (Nat.lt_succ_self k), false_and, if_false]
              exact ⟨w2, trivial, w5, w6⟩
            · refine (j5 j' (by omega)).congr ?_ ?_ ?_
              · rw [if_neg (by omega)]
              · rw [if_neg (by omega)]
              · intro i _; rw [if_neg (by omega)])
      refine ⟨st', e1, φ', ψ', e2, e3, e4, fun t j ht hj => ?_⟩
      by_cases e : t = k
      · subst e; exact e6 j hj
      · exact e5 t j (by omega) hj)
  refine ⟨ph', ps', φ, ψ, ?_, h5, h6, h7, fun t j ht hj => h8 t j (by omega) hj⟩
  unfold viterbiPassD
  rw [bind_ok h1]
  exact h4

end

end QM.Hmm
