import Verif.Pca.Eigen
import Verif.Pca.House

/-! `tred2` computes the Householder reduction. -/

namespace QM.Pca

open Finset

theorem Holds.put {β : Type} {L : Nat} {f : Nat → β} {xs : List β} (h : Holds L f xs) {i : Nat} (hi : i < L) (v : β) :
    ∃ ys, wr xs i v = some ys ∧ Holds L (fun j => if j = i then v else f j) ys := by
  refine ⟨xs.set i v, wr_some v (by rw [h.1]; exact hi), by simp [h.1], fun j hj => ?_⟩
  by_cases e : j = i
  · subst e
    rw [List.getElem?_set_self (by rw [h.1]; exact hj)]
    simp
  · rw [List.getElem?_set_ne (Ne.symm e), h.2 j hj]
    simp [e]

theorem div_ok {x y : ℝ} (h : y ≠ 0) : div? x y = some (x / y) := if_neg h

variable {n i : ℕ} {B M : ℕ → ℕ → ℝ} {a : List (List ℝ)} {E D : ℕ → ℝ} {e d : List ℝ}

theorem rowScale_ok (hi : i < n) (ha : Holds2 n n M a) (hM : ∀ k, k < i → M i k = B i k) : Pca.rowScale i a = some (rowAbs B i) := by
  unfold Pca.rowScale
  rw [loop_sum i _ (fun k => |B i k|) 0 (by
    intro k acc hk
    rw [bind_ok (ha.rd hi (by omega)), hM k hk]
    rfl), zero_add]
  rfl

theorem houseScale_ok (hi : i < n) (ha : Holds2 n n M a) (hM : ∀ k, k < i → M i k = B i k) (hs : rowAbs B i ≠ 0) :
    ∃ a', houseScale i (rowAbs B i) a = some (a', h0 B i) ∧ Holds2 n n (fun r c => if r = i ∧ c < i then hx B i c else M r c) a' := by
  unfold houseScale
  obtain ⟨⟨a', h⟩, h1, h2, h3⟩ := loop_inv (n := i) (s := (a, (0 : ℝ))) (f := fun k (s : List (List ℝ) × ℝ) => do
      let v ← rd2 s.1 i k
      let w ← div? v (rowAbs B i)
      let a ← wr2 s.1 i k w
      pure (a, s.2 + w * w))
    (P := fun k s => Holds2 n n (fun r c => if r = i ∧ c < k then hx B i c else M r c) s.1 ∧ s.2 = ∑ t ∈ range k, hx B i t * hx B i t)
    ⟨ha.congr fun r c _ _ => by simp, by simp⟩
    (by
      rintro k ⟨b, s⟩ hk ⟨hb, hs'⟩
      have hr := hb.rd hi (show k < n by omega)
      simp only [lt_irrefl, and_false, if_false] at hr
      obtain ⟨b', e1, e2⟩ := hb.wr hi (show k < n by omega) (hx B i k)
      refine ⟨(b', s + hx B i k * hx B i k), ?_, e2.congr fun r c _ _ => ?_, ?_⟩
      · rw [bind_ok hr, hM k hk, bind_ok (div_ok hs)]
        show (do
          let a ← wr2 b i k (hx B i k)
          pure (a, s + hx B i k * hx B i k) : Option (List (List ℝ) × ℝ)) = _
        rw [bind_ok e1]
        rfl
      · by_cases h1 : r = i
        · by_cases h2 : c = k
          · simp [h1, h2]
          · have : c < k + 1 ↔ c < k := by omega
            simp [h1, h2, this]
        · simp [h1]
      · dsimp only at hs' ⊢
        rw [hs', sum_range_succ])
  dsimp only at h2 h3
  rw [h3] at h1
  exact ⟨a', h1, h2⟩

theorem houseDot_ok (hi : i < n) {u : ℕ → ℝ} (ha : Holds2 n n M a) (hM : ∀ r c, c ≤ r → r < i → M r c = B r c) (hu : ∀ k, k < i → M i k = u k)
    (hs : ∀ r c, r < i → c < i → B r c = B c r) {j : ℕ} (hj : j < i) : houseDot i j a = some (∑ k ∈ range i, B j k * u k) := by
  unfold houseDot
  rw [bind_ok (loop_sum (j + 1) _ (fun k => B j k * u k) 0 (by
    intro k acc hk
    rw [bind_ok (ha.rd (show j < n by omega) (show k < n by omega)), bind_ok (ha.rd hi (show k < n by omega)), hM j k (by omega) hj, hu k (by omega)]
    rfl)), zero_add]
  rw [loop_sum (i - 1 - j) _ (fun t => B j (j + 1 + t) * u (j + 1 + t)) _ (by
    intro t acc ht
    rw [bind_ok (ha.rd (show j + 1 + t < n by omega) (show j < n by omega)), bind_ok (ha.rd hi (show j + 1 + t < n by omega)), hM _ j (by omega) (by omega),
      hu _ (by omega), hs _ j (by omega) hj]
    rfl)]
  have := Finset.sum_range_add (fun k => B j k * u k) (j + 1) (i - 1 - j)
  rw [show j + 1 + (i - 1 - j) = i by omega] at this
  rw [this]

theorem houseP_ok (hi : i < n) (hact : Active B i) (ha : Holds2 n n M a) (he : Holds n E e) (hM : ∀ r c, c ≤ r → r < i → M r c = B r c)
    (hu' : ∀ k, k < i → M i k = hu B i k) (hs : ∀ r c, r < i → c < i → B r c = B c r) :
    ∃ a' e', houseP i (hH B i) a e = some (a', e', ∑ j ∈ range i, hp B i j * hu B i j) ∧
      Holds2 n n (fun r c => if c = i ∧ r < i then hu B i r / hH B i else M r c) a' ∧ Holds n (fun r => if r < i then hp B i r else E r) e' := by
  have hne := (hH_pos hact).ne'
  unfold houseP
  obtain ⟨⟨a', e', f⟩, h1, h2, h3, h4⟩ := loop_inv (n := i) (s := (a, e, (0 : ℝ))) (f := fun j (s : List (List ℝ) × List ℝ × ℝ) => do
      let x ← rd2 s.1 i j
      let y ← div? x (hH B i)
      let a ← wr2 s.1 j i y
      let g ← houseDot i j a
      let y ← div? g (hH B i)
      let e ← wr s.2.1 j y
      pure (a, e, s.2.2 + y * x))
    (P := fun k s => Holds2 n n (fun r c => if c = i ∧ r < k then hu B i r / hH B i else M r c) s.1 ∧ Holds n (fun r => if r < k then hp B i r else E r) s.2.1 ∧
      s.2.2 = ∑ j ∈ range k, hp B i j * hu B i j)
    ⟨ha.congr fun r c _ _ => by simp, he.congr fun r _ => by simp, by simp⟩
    (by
      rintro j ⟨b, e, f⟩ hj ⟨hb, he, hf⟩
      dsimp only at hb he hf
      have hr := hb.rd hi (show j < n by omega)
      simp only [show ¬ (j = i ∧ i < j) by omega, if_false] at hr
      rw [hu' j hj] at hr
      obtain ⟨b', e1, e2⟩ := hb.wr (show j < n by omega) hi (hu B i j / hH B i)
      have hdot := houseDot_ok (B := B) (u := hu B i) hi e2 (by
        intro r c hc hr
        simp only [show ¬ (r = j ∧ c = i) by omega, show ¬ (c = i ∧ r < j) by omega, if_false]
        exact hM r c hc hr) (by
        intro k hk
        simp only [show ¬ (i = j ∧ k = i) by omega, show ¬ (k = i ∧ i < j) by omega, if_false]
        exact hu' k hk) hs hj
      obtain ⟨e', w1, w2⟩ := Holds.put he (show j < n by omega) (hp B i j)
      refine ⟨(b', e', f + hp B i j * hu B i j), ?_, e2.congr ?_, w2.congr ?_, ?_⟩
      · dsimp only
        rw [bind_ok hr, bind_ok (div_ok hne), bind_ok e1, bind_ok hdot, bind_ok (div_ok hne)]
        show (do
          let e ← wr e j (hp B i j)
          pure (b', e, f + hp B i j * hu B i j) : Option (List (List ℝ) × List ℝ × ℝ)) = _
        rw [bind_ok w1]
        rfl
      · intro r c _ _
        by_cases h1 : c = i
        · by_cases h2 : r = j
          · simp [h1, h2]
          · have : r < j + 1 ↔ r < j := by omega
            simp [h1, h2, this]
        · simp [h1]
      · intro r _
        by_cases h2 : r = j
        · simp [h2]
        · have : r < j + 1 ↔ r < j := by omega
          simp [h2, this]
      · dsimp only
        rw [hf, sum_range_succ])
  dsimp only at h2 h3 h4
  rw [h4] at h1
  exact ⟨a', e', h1, h2, h3⟩

theorem houseUpdate_ok (hi : i < n) (hact : Active B i) (ha : Holds2 n n M a) (he : Holds n E e) (hM : ∀ r c, c ≤ r → r < i → M r c = B r c)
    (hu' : ∀ k, k < i → M i k = hu B i k) (hE : ∀ k, k < i → E k = hp B i k) :
    ∃ a' e', houseUpdate i (hK B i) a e = some (a', e') ∧
      Holds2 n n (fun r c => if r < i ∧ c ≤ r then next B i r c else M r c) a' ∧ Holds n (fun r => if r < i then hq B i r else E r) e' := by
  unfold houseUpdate
  obtain ⟨⟨a', e'⟩, h1, h2, h3⟩ := loop_inv (n := i) (s := (a, e)) (f := fun j (s : List (List ℝ) × List ℝ) => do
      let f ← rd2 s.1 i j
      let v ← s.2[j]?
      let e ← wr s.2 j (v - hK B i * f)
      let a ← loop (j + 1) (fun k (a : List (List ℝ)) => do
        let y ← e[k]?
        let x ← rd2 a i k
        let v' ← rd2 a j k
        wr2 a j k (v' - (f * y + (v - hK B i * f) * x))) s.1
      pure (a, e))
    (P := fun k s => Holds2 n n (fun r c => if r < k ∧ c ≤ r then next B i r c else M r c) s.1 ∧ Holds n (fun r => if r < k then hq B i r else E r) s.2)
    ⟨ha.congr fun r c _ _ => by simp, he.congr fun r _ => by simp⟩
    (by
      rintro j ⟨b, e⟩ hj ⟨hb, he⟩
      dsimp only at hb he
      have hr := hb.rd hi (show j < n by omega)
      simp only [show ¬ (i < j ∧ j ≤ i) by omega, if_false] at hr
      rw [hu' j hj] at hr
      have hv := he.2 j (by omega)
      simp only [lt_irrefl, if_false] at hv
      rw [hE j hj] at hv
      obtain ⟨e', w1, w2⟩ := Holds.put he (show j < n by omega) (hq B i j)
      have w3 : Holds n (fun r => if r < j + 1 then hq B i r else E r) e' := w2.congr fun r _ => by
        by_cases h2 : r = j
        · simp [h2]
        · have : r < j + 1 ↔ r < j := by omega
          simp [h2, this]
      obtain ⟨b', k1, k2⟩ := hb.fillRow (show j < n by omega) (j + 1) (by omega) (next B i j) (fun k (a : List (List ℝ)) => do
        let y ← e'[k]?
        let x ← rd2 a i k
        let v' ← rd2 a j k
        wr2 a j k (v' - (hu B i j * y + hq B i j * x))) (by
          intro k M' hk hM'
          have a1 := w3.2 k (by omega)
          simp only [hk, if_true] at a1
          have a2 := hM'.rd hi (show k < n by omega)
          simp only [show ¬ (i = j ∧ k < k) by omega, show ¬ (i < j ∧ k ≤ i) by omega, if_false] at a2
          rw [hu' k (by omega)] at a2
          have a3 := hM'.rd (show j < n by omega) (show k < n by omega)
          simp only [lt_irrefl, and_false, false_and, if_false] at a3
          rw [hM j k (by omega) hj] at a3
          rw [bind_ok a1, bind_ok a2, bind_ok a3]
          congr 1
          unfold next
          rw [if_pos hact])
      refine ⟨(b', e'), ?_, k2.congr ?_, w3⟩
      · dsimp only
        rw [bind_ok hr, bind_ok hv]
        show (do
          let e ← wr e j (hq B i j)
          let a ← loop (j + 1) (fun k (a : List (List ℝ)) => do
            let y ← e[k]?
            let x ← rd2 a i k
            let v' ← rd2 a j k
            wr2 a j k (v' - (hu B i j * y + hq B i j * x))) b
          pure (a, e) : Option (List (List ℝ) × List ℝ)) = _
        rw [bind_ok w1, bind_ok k1]
        rfl
      · intro r c _ _
        by_cases h1 : r = j
        · subst h1
          by_cases h2 : c ≤ r
          · simp [h2, show c < r + 1 by omega]
          · simp [h2, show ¬ c < r + 1 by omega]
        · have : r < j + 1 ↔ r < j := by omega
          simp [h1, this])
  exact ⟨a', e', h1, h2, h3⟩

theorem house_ok (hi : i < n) (hact : Active B i) (ha : Holds2 n n M a) (he : Holds n E e) (hM : ∀ r c, c ≤ r → r ≤ i → M r c = B r c)
    (hs : ∀ r c, r < i → c < i → B r c = B c r) :
    ∃ a' e' E', house i (rowAbs B i) a e = some (a', e', hH B i) ∧
      Holds2 n n (fun r c => if r < i ∧ c ≤ r then next B i r c else if c = i ∧ r < i then hu B i r / hH B i else if r = i ∧ c < i then hu B i c else M r c) a' ∧
      Holds n E' e' ∧ E' i = rowAbs B i * hg B i ∧ ∀ r, i < r → E' r = E r := by
  have h1i := hact.1
  obtain ⟨a1, s1, s2⟩ := houseScale_ok hi ha (fun k hk => hM i k (by omega) le_rfl) hact.2
  have hf := s2.rd hi (show i - 1 < n by omega)
  simp only [show i = i ∧ i - 1 < i by omega, if_true, and_self] at hf
  obtain ⟨e1, w1, w2⟩ := Holds.put he hi (rowAbs B i * hg B i)
  obtain ⟨a2, t1, t2⟩ := s2.wr hi (show i - 1 < n by omega) (hx B i (i - 1) - hg B i)
  have t3 : Holds2 n n (fun r c => if r = i ∧ c < i then hu B i c else M r c) a2 := t2.congr fun r c _ _ => by
    by_cases h1 : r = i
    · by_cases h2 : c = i - 1
      · simp [h1, h2, hu, show i - 1 < i by omega]
      · simp [h1, h2, hu]
    · simp [h1]
  obtain ⟨a3, e3, p1, p2, p3⟩ := houseP_ok (B := B) hi hact t3 w2 (by
    intro r c hc hr
    simp only [show r ≠ i by omega, false_and, if_false]
    exact hM r c hc hr.le) (by
    intro k hk
    simp [hk]) hs
  obtain ⟨a4, e4, q1, q2, q3⟩ := houseUpdate_ok (B := B) hi hact p2 p3 (by
    intro r c hc hr
    simp only [show ¬ (c = i ∧ r < i) by omega, show r ≠ i by omega, false_and, if_false]
    exact hM r c hc hr.le) (by
    intro k hk
    simp [hk, show k ≠ i by omega]) (by
    intro k hk
    simp [hk])
  refine ⟨a4, e4, _, ?_, q2, q3, by simp, fun r hr => by simp [show ¬ r < i by omega, show r ≠ i by omega]⟩
  unfold house
  rw [bind_ok s1]
  dsimp only
  rw [bind_ok hf]
  show (do
    let e ← wr e i (rowAbs B i * hg B i)
    let a ← wr2 a1 i (i - 1) (hx B i (i - 1) - hg B i)
    let p ← houseP i (hH B i) a e
    let hh ← div? p.2.2 (hH B i + hH B i)
    let r ← houseUpdate i hh p.1 p.2.1
    pure (r.1, r.2, hH B i) : Option (List (List ℝ) × List ℝ × ℝ)) = _
  have hne : hH B i + hH B i ≠ 0 := by have := hH_pos hact; linarith
  rw [bind_ok w1, bind_ok t1, bind_ok p1]
  dsimp only
  rw [bind_ok (div_ok hne)]
  show (do
    let r ← houseUpdate i (hK B i) a3 e3
    pure (r.1, r.2, hH B i) : Option (List (List ℝ) × List ℝ × ℝ)) = _
  rw [bind_ok q1]
  rfl

open Classical in
/-- What one turn of the first loop leaves. -/
theorem tredRow_ok (h1 : 1 ≤ i) (hi : i < n) (ha : Holds2 n n M a) (he : Holds n E e) (hd : Holds n D d) (hM : ∀ r c, c ≤ r → r ≤ i → M r c = B r c)
    (hs : ∀ r c, r < i → c < i → B r c = B c r) :
    ∃ a' d' e' M' E', tredRow i ⟨a, d, e⟩ = some ⟨a', d', e'⟩ ∧ Holds2 n n M' a' ∧ Holds n E' e' ∧
      Holds n (fun r => if r = i then (if Active B i then hH B i else 0) else D r) d' ∧
      (∀ r c, c ≤ r → r < i → M' r c = next B i r c) ∧ (∀ r c, i < r ∨ i < c → M' r c = M r c) ∧ M' i i = B i i ∧
      (Active B i → ∀ c, c < i → M' i c = hu B i c ∧ M' c i = hu B i c / hH B i) ∧
      E' i = side B i ∧ ∀ r, i < r → E' r = E r := by
  have keep : ¬ Active B i → ∃ a' d' e' M' E', keepRow i ⟨a, d, e⟩ = some ⟨a', d', e'⟩ ∧ Holds2 n n M' a' ∧ Holds n E' e' ∧
      Holds n (fun r => if r = i then (if Active B i then hH B i else 0) else D r) d' ∧
      (∀ r c, c ≤ r → r < i → M' r c = next B i r c) ∧ (∀ r c, i < r ∨ i < c → M' r c = M r c) ∧ M' i i = B i i ∧
      (Active B i → ∀ c, c < i → M' i c = hu B i c ∧ M' c i = hu B i c / hH B i) ∧
      E' i = side B i ∧ ∀ r, i < r → E' r = E r := by
    intro hn
    have hr := ha.rd hi (show i - 1 < n by omega)
    rw [hM i (i - 1) (by omega) le_rfl] at hr
    obtain ⟨e1, w1, w2⟩ := Holds.put he hi (B i (i - 1))
    obtain ⟨d1, v1, v2⟩ := Holds.put hd hi 0
    refine ⟨a, d1, e1, M, _, ?_, ha, w2, v2.congr fun r _ => by simp [hn], ?_, fun _ _ _ => rfl, hM i i le_rfl le_rfl, fun h => absurd h hn, ?_, ?_⟩
    · unfold keepRow
      dsimp only
      rw [bind_ok hr, bind_ok w1, bind_ok v1]
      rfl
    · intro r c hc hr
      unfold next
      rw [if_neg hn]
      exact hM r c hc hr.le
    · simp [side, hn]
    · intro r hr
      simp [show r ≠ i by omega]
  unfold tredRow
  by_cases h : 1 < i
  · rw [if_pos h]
    dsimp only
    rw [bind_ok (rowScale_ok hi ha fun k hk => hM i k (by omega) le_rfl)]
    by_cases hz : rowAbs B i = 0
    · rw [if_pos hz]
      exact keep fun ha => ha.2 hz
    · rw [if_neg hz]
      have hact : Active B i := ⟨h, hz⟩
      obtain ⟨a1, e1, E', g1, g2, g3, g4, g5⟩ := house_ok hi hact ha he hM hs
      obtain ⟨d1, v1, v2⟩ := Holds.put hd hi (hH B i)
      refine ⟨a1, d1, e1, _, E', ?_, g2, g3, v2.congr fun r _ => by simp [hact], ?_, ?_, ?_, ?_, ?_, g5⟩
      · unfold reflectRow
        dsimp only
        rw [bind_ok g1]
        dsimp only
        rw [bind_ok v1]
        rfl
      · intro r c hc hr
        simp [hc, hr]
      · intro r c hrc
        simp only [show ¬ (r < i ∧ c ≤ r) by omega, show ¬ (c = i ∧ r < i) by omega, show ¬ (r = i ∧ c < i) by omega, if_false]
      · simp only [lt_irrefl, false_and, and_false, if_false]
        exact hM i i le_rfl le_rfl
      · intro _ c hc
        simp [hc, show ¬ c = i by omega, show ¬ i ≤ c by omega]
      · rw [g4]
        simp [side, hact]
  · rw [if_neg h]
    exact keep fun ha => h ha.1

/-! ## The two loops -/

open Classical in
/-- What the first loop leaves of row `r`. -/
def Done (A : ℕ → ℕ → ℝ) (n : ℕ) (M : ℕ → ℕ → ℝ) (r : ℕ) : Prop :=
  M r r = diag A n r ∧ (Active (at' A n r) r → ∀ c, c < r → M r c = hu (at' A n r) r c ∧ M c r = hu (at' A n r) r c / hH (at' A n r) r)

open Classical in
/-- What the first loop leaves in `d`. -/
noncomputable def mark (A : ℕ → ℕ → ℝ) (n r : ℕ) : ℝ := if Active (at' A n r) r then hH (at' A n r) r else 0

theorem tredRows_ok {A : ℕ → ℕ → ℝ} (hn : 1 ≤ n) (ha : Holds2 n n A a) (he : Holds n E e) (hd : Holds n D d) (hs : ∀ r c, r < n → c < n → A r c = A c r) :
    ∃ a' d' e' M' D' E', loop (n - 1) (fun t (s : Eig) => tredRow (n - 1 - t) s) ⟨a, d, e⟩ = some ⟨a', d', e'⟩ ∧ Holds2 n n M' a' ∧ Holds n D' d' ∧ Holds n E' e' ∧
      M' 0 0 = diag A n 0 ∧ ∀ r, 1 ≤ r → r < n → Done A n M' r ∧ D' r = mark A n r ∧ E' r = off A n r := by
  obtain ⟨⟨a', d', e'⟩, h1, M', D', E', h2, h3, h4, h5, h6⟩ := loop_inv (n := n - 1) (s := Eig.mk a d e) (f := fun t (s : Eig) => tredRow (n - 1 - t) s)
    (P := fun t s => ∃ M D E, Holds2 n n M s.a ∧ Holds n D s.d ∧ Holds n E s.e ∧ (∀ r c, c ≤ r → r ≤ n - 1 - t → M r c = stage A n t r c) ∧
      ∀ r, n - 1 - t < r → r < n → Done A n M r ∧ D r = mark A n r ∧ E r = off A n r)
    ⟨A, D, E, ha, hd, he, fun _ _ _ _ => rfl, fun r h1 h2 => by omega⟩
    (by
      rintro t ⟨a, d, e⟩ ht ⟨M, D, E, g1, g2, g3, g4, g5⟩
      dsimp only at g1 g2 g3
      have hat : at' A n (n - 1 - t) = stage A n t := by
        unfold at'
        rw [show n - 1 - (n - 1 - t) = t by omega]
      obtain ⟨a', d', e', M', E', k1, k2, k3, k4, k5, k6, k7, k8, k9, k10⟩ := tredRow_ok (B := stage A n t) (i := n - 1 - t) (by omega) (by omega) g1 g3 g2 g4
        (fun r c hr hc => at_symm n hs t (by omega) r c (by omega) (by omega))
      refine ⟨⟨a', d', e'⟩, k1, M', _, E', k2, k4, k3, ?_, ?_⟩
      · intro r c hc hr
        rw [stage]
        exact k5 r c hc (by omega)
      · intro r hr hrn
        by_cases h : r = n - 1 - t
        · subst h
          refine ⟨⟨?_, ?_⟩, ?_, ?_⟩
          · rw [k7, diag, hat]
          · rw [hat]
            exact k8
          · rw [if_pos rfl, mark, hat]
          · rw [k9, off, hat]
        · obtain ⟨⟨q1, q2⟩, q3, q4⟩ := g5 r (by omega) hrn
          refine ⟨⟨?_, fun hact c hc => ?_⟩, ?_, ?_⟩
          · rw [k6 r r (by omega), q1]
          · rw [k6 r c (by omega), k6 c r (by omega)]
            exact q2 hact c hc
          · rw [if_neg h, q3]
          · rw [k10 r (by omega), q4])
  refine ⟨a', d', e', M', D', E', h1, h2, h3, h4, ?_, fun r hr hrn => h6 r (by omega) hrn⟩
  rw [h5 0 0 le_rfl (by omega)]
  unfold diag at'
  rw [show n - 1 - 0 = n - 1 by omega]

theorem backApply_ok (hi : i < n) {u w : ℕ → ℝ} (ha : Holds2 n n M a) (hu : ∀ k, k < i → M i k = u k) (hw : ∀ k, k < i → M k i = w k) :
    ∃ a', backApply i a = some a' ∧
      Holds2 n n (fun r c => if r < i ∧ c < i then M r c - (∑ k ∈ range i, u k * M k c) * w r else M r c) a' := by
  unfold backApply
  obtain ⟨a', h1, h2⟩ := loop_inv (n := i) (s := a) (f := fun j (a : List (List ℝ)) => do
      let g ← loop i (fun k (g : ℝ) => do
        let x ← rd2 a i k
        let y ← rd2 a k j
        pure (g + x * y)) 0
      loop i (fun k (a : List (List ℝ)) => do
        let x ← rd2 a k j
        let y ← rd2 a k i
        wr2 a k j (x - g * y)) a)
    (P := fun j a => Holds2 n n (fun r c => if r < i ∧ c < j then M r c - (∑ k ∈ range i, u k * M k c) * w r else M r c) a)
    (ha.congr fun r c _ _ => by simp)
    (by
      intro j b hj hb
      have hg : loop i (fun k (g : ℝ) => do
        let x ← rd2 b i k
        let y ← rd2 b k j
        pure (g + x * y)) 0 = some (∑ k ∈ range i, u k * M k j) := by
        rw [loop_sum i _ (fun k => u k * M k j) 0 (by
          intro k acc hk
          have b1 := hb.rd hi (show k < n by omega)
          simp only [lt_irrefl, false_and, if_false] at b1
          have b2 := hb.rd (show k < n by omega) (show j < n by omega)
          simp only [lt_irrefl, and_false, if_false] at b2
          rw [bind_ok b1, bind_ok b2, hu k hk]
          rfl), zero_add]
      rw [bind_ok hg]
      obtain ⟨b', l1, l2⟩ := loop_inv (n := i) (s := b) (f := fun k (a : List (List ℝ)) => do
          let x ← rd2 a k j
          let y ← rd2 a k i
          wr2 a k j (x - (∑ k ∈ range i, u k * M k j) * y))
        (P := fun k a => Holds2 n n (fun r c => if r < i ∧ c < j then M r c - (∑ k ∈ range i, u k * M k c) * w r else if r < k ∧ c = j then
          M r c - (∑ k ∈ range i, u k * M k c) * w r else M r c) a)
        (hb.congr fun r c _ _ => by simp)
        (by
          intro k b hk hb
          have b1 := hb.rd (show k < n by omega) (show j < n by omega)
          simp only [lt_irrefl, false_and, and_false, if_false] at b1
          have b2 := hb.rd (show k < n by omega) hi
          simp only [show ¬ (k < i ∧ i < j) by omega, show ¬ (k < k ∧ i = j) by omega, if_false] at b2
          rw [hw k hk] at b2
          obtain ⟨b', e1, e2⟩ := hb.wr (show k < n by omega) (show j < n by omega) (M k j - (∑ k ∈ range i, u k * M k j) * w k)
          refine ⟨b', ?_, e2.congr ?_⟩
          · rw [bind_ok b1, bind_ok b2]
            exact e1
          · intro r c _ _
            by_cases h1 : r = k
            · by_cases h2 : c = j
              · subst h1 h2
                simp
              · simp [h2]
            · have : r < k + 1 ↔ r < k := by omega
              simp [h1, this])
      refine ⟨b', l1, l2.congr ?_⟩
      intro r c _ _
      by_cases h1 : r < i
      · by_cases h2 : c = j
        · simp [h1, h2]
        · have : c < j + 1 ↔ c < j := by omega
          simp [h1, h2, this]
      · simp [h1])
  exact ⟨a', h1, h2⟩

/-- One turn of the second loop. -/
theorem tredBack_ok {A : ℕ → ℕ → ℝ} (hi : i < n) (ha : Holds2 n n M a) (hd : Holds n D d) (hD : D i = mark A n i) (hdone : Done A n M i)
    (hz : ∀ r c, r < i → c < i → M r c = orth A n (i - 1) r c) :
    ∃ a' d' M', tredBack i (a, d) = some (a', d') ∧ Holds2 n n M' a' ∧ Holds n (fun r => if r = i then diag A n i else D r) d' ∧
      (∀ r c, r ≤ i → c ≤ i → M' r c = orth A n i r c) ∧ ∀ r c, i < r ∨ i < c → M' r c = M r c := by
  have hdi := hd.2 i hi
  rw [hD] at hdi
  have back : ∃ a1 M1, backMaybe i (mark A n i) a = some a1 ∧ Holds2 n n M1 a1 ∧ M1 i i = diag A n i ∧
      (∀ r c, r < i → c < i → M1 r c = orth A n i r c) ∧ ∀ r c, i < r ∨ i < c → M1 r c = M r c := by
    by_cases hact : Active (at' A n i) i
    · have h1i := hact.1
      obtain ⟨j, rfl⟩ : ∃ j, i = j + 1 := ⟨i - 1, by omega⟩
      have hne := (hH_pos hact).ne'
      obtain ⟨a1, b1, b2⟩ := backApply_ok hi ha (fun k hk => (hdone.2 hact k hk).1) (fun k hk => (hdone.2 hact k hk).2)
      refine ⟨a1, _, ?_, b2, ?_, ?_, ?_⟩
      · unfold backMaybe mark
        rw [if_pos hact, if_pos hne, b1]
      · simp only [lt_irrefl, and_false, if_false]
        exact hdone.1
      · intro r c hr hc
        simp only [hr, hc, and_self, if_true]
        simp only [orth, show r ≠ j + 1 by omega, show c ≠ j + 1 by omega, if_false]
        rw [refl, if_pos hact, hz r c hr hc]
        rw [show j + 1 - 1 = j by omega]
        rw [Finset.sum_congr rfl fun k hk => by rw [hz k c (mem_range.mp hk) hc, show j + 1 - 1 = j by omega]]
      · intro r c h
        simp only [show ¬ (r < j + 1 ∧ c < j + 1) by omega, if_false]
    · refine ⟨a, M, ?_, ha, hdone.1, ?_, fun _ _ _ => rfl⟩
      · unfold backMaybe mark
        rw [if_neg hact]
        simp
      · intro r c hr hc
        obtain ⟨j, rfl⟩ : ∃ j, i = j + 1 := ⟨i - 1, by omega⟩
        simp only [orth, show r ≠ j + 1 by omega, show c ≠ j + 1 by omega, if_false]
        rw [refl, if_neg hact, hz r c hr hc]
        rfl
  obtain ⟨a1, M1, b1, b2, b3, b4, b5⟩ := back
  have hx := b2.rd hi hi
  rw [b3] at hx
  obtain ⟨d1, v1, v2⟩ := Holds.put hd hi (diag A n i)
  obtain ⟨a2, w1, w2⟩ := b2.wr hi hi 1
  obtain ⟨a3, l1, l2⟩ := loop_inv (n := i) (s := a2) (f := fun j (a : List (List ℝ)) => do
      let a ← wr2 a i j 0
      wr2 a j i 0)
    (P := fun j a => Holds2 n n (fun r c => if r = i ∧ c = i then 1 else if r = i ∧ c < j ∨ c = i ∧ r < j then 0 else M1 r c) a)
    (w2.congr fun r c _ _ => by simp)
    (by
      intro j b hj hb
      obtain ⟨b1, e1, e2⟩ := hb.wr hi (show j < n by omega) 0
      obtain ⟨b2, e3, e4⟩ := e2.wr (show j < n by omega) hi 0
      refine ⟨b2, ?_, e4.congr ?_⟩
      · rw [bind_ok e1]
        exact e3
      · intro r c _ _
        have t1 : c < j + 1 ↔ c = j ∨ c < j := by omega
        have t2 : r < j + 1 ↔ r = j ∨ r < j := by omega
        by_cases h1 : r = i
        · subst h1
          by_cases h2 : c = r
          · subst h2
            simp [show ¬ c = j by omega]
          · by_cases h3 : c = j
            · subst h3
              simp [h2]
            · simp [h2, h3, t1]
        · by_cases h2 : c = i
          · subst h2
            by_cases h3 : r = j
            · subst h3
              simp [h1]
            · simp [h1, h3, t2]
          · simp [h1, h2])
  refine ⟨a3, d1, _, ?_, l2, v2, ?_, ?_⟩
  · unfold tredBack
    dsimp only
    rw [bind_ok hdi, bind_ok b1, bind_ok hx, bind_ok v1, bind_ok w1, bind_ok l1]
    rfl
  · intro r c hr hc
    by_cases h1 : r = i
    · subst h1
      rw [orth_row n r hc]
      by_cases h2 : c = r
      · simp [h2]
      · simp [h2, show c < r by omega]
    · by_cases h2 : c = i
      · subst h2
        rw [orth_col n c hr]
        simp [h1, show r < c by omega]
      · simp only [h1, h2, false_and, or_self, if_false]
        exact b4 r c (by omega) (by omega)
  · intro r c h
    simp only [show ¬ (r = i ∧ c = i) by omega, show ¬ (r = i ∧ c < i ∨ c = i ∧ r < i) by omega, if_false]
    exact b5 r c h

/-- `tred2` computes the orthogonal matrix, the diagonal and the side diagonal of the Householder reduction. -/
theorem tred2_ok {A : ℕ → ℕ → ℝ} (hn : 1 ≤ n) (ha : Holds2 n n A a) (hd : d.length = n) (he : e.length = n) (hs : ∀ r c, r < n → c < n → A r c = A c r) :
    ∃ a' d' e', tred2 n ⟨a, d, e⟩ = some ⟨a', d', e'⟩ ∧ Holds2 n n (orth A n (n - 1)) a' ∧ Holds n (diag A n) d' ∧
      Holds n (fun r => if r = 0 then 0 else off A n r) e' := by
  obtain ⟨a1, d1, e1, M1, D1, E1, h1, h2, h3, h4, h5, h6⟩ := tredRows_ok hn ha (holds_of_length he 0) (holds_of_length hd 0) hs
  obtain ⟨d2, v1, v2⟩ := Holds.put h3 (show 0 < n by omega) 0
  obtain ⟨e2, w1, w2⟩ := Holds.put h4 (show 0 < n by omega) 0
  obtain ⟨⟨a3, d3⟩, l1, M3, l2, l3, l4⟩ := loop_inv (n := n) (s := (a1, d2)) (f := fun i r => tredBack i r)
    (P := fun i s => ∃ M, Holds2 n n M s.1 ∧ Holds n (fun r => if r < i then diag A n r else mark A n r) s.2 ∧
      (∀ r c, r < i → c < i → M r c = orth A n (i - 1) r c) ∧ ∀ r, i ≤ r → r < n → Done A n M r)
    ⟨M1, h2, v2.congr fun r hr => by
        by_cases h : r = 0
        · subst h
          simp [mark, Active]
        · simp [h, (h6 r (by omega) hr).2.1], by simp, fun r _ hr => by
        by_cases h : r = 0
        · subst h
          exact ⟨h5, fun h => absurd h.1 (by omega)⟩
        · exact (h6 r (by omega) hr).1⟩
    (by
      rintro i ⟨a, d⟩ hi ⟨M, g1, g2, g3, g4⟩
      dsimp only at g1 g2
      obtain ⟨a', d', M', k1, k2, k3, k4, k5⟩ := tredBack_ok (A := A) hi g1 g2 (by simp) (g4 i le_rfl hi) g3
      refine ⟨(a', d'), k1, M', k2, k3.congr fun r _ => ?_, fun r c hr hc => ?_, fun r hr hrn => ?_⟩
      · by_cases h : r = i
        · simp [h]
        · have : r < i + 1 ↔ r < i := by omega
          simp [h, this]
      · exact k4 r c (by omega) (by omega)
      · obtain ⟨q1, q2⟩ := g4 r (by omega) hrn
        refine ⟨?_, fun hact c hc => ?_⟩
        · rw [k5 r r (by omega), q1]
        · rw [k5 r c (by omega), k5 c r (by omega)]
          exact q2 hact c hc)
  refine ⟨a3, d3, e2, ?_, l2.congr fun r c hr hc => l4.1 r c hr hc, l3.congr fun r hr => by simp [hr], w2.congr fun r hr => ?_⟩
  · unfold tred2
    rw [bind_ok h1]
    dsimp only
    rw [bind_ok v1, bind_ok w1, bind_ok l1]
    rfl
  · by_cases h : r = 0
    · simp [h]
    · simp [h, (h6 r (by omega) hr).2.2]

end QM.Pca
