import Verif.TempoTrack.Model
import Verif.Common.Tri
import Mathlib.Tactic.Ring
import Mathlib.Tactic.FieldSimp
import Mathlib.Tactic.Linarith
import Mathlib.Tactic.NormNum
import Mathlib.Algebra.Order.Floor.Ring

/-! # Lemmas about the tempo tracker's parts -/

namespace QM.TempoTrack

open QM.MathReal

variable {K E : Type} [Field K] [LinearOrder K] [FloorRing K] [IsStrictOrderedRing K] {b : Prop}

/-- All entries are positive numbers. -/
def Pos (xs : List (Option K)) : Prop := ∀ v ∈ xs, ∃ x, v = some x ∧ 0 < x

theorem Pos.get {xs : List (Option K)} (h : Pos xs) {i : Nat} {v : Option K} (hv : xs[i]? = some v) : ∃ x, v = some x ∧ 0 < x :=
  h v (List.mem_of_getElem? hv)

/-- The filter bank: the first and the last value are zero, the others positive. -/
theorem combBank_ok {lag win : Nat} {acf : List (Option K)} (hl : acf.length = win) (hp : Pos acf) {weight : List K} (hw : weight.length = lag)
    (hwp : ∀ w ∈ weight, 0 < w) {tsig : Nat} (ht : tsig = 0 ∨ tsig = 3 ∨ tsig = 4) (hb : b → 4 * lag + 3 ≤ win) :
    Tri b (combBank lag acf weight tsig) (fun scr => scr.length = lag ∧
      ∀ j, j < lag → ∃ x, scr[j]? = some (some x) ∧ (if 1 ≤ j ∧ j < lag - 1 then 0 < x else x = 0)) := by
  unfold combBank
  refine Tri.mono (Tri.loop (fun (i : Nat) (scr : List (Option K)) => scr.length = lag ∧
      ∀ j, j < lag → ∃ x, scr[j]? = some (some x) ∧ (if 1 ≤ j ∧ j < i + 1 then 0 < x else x = 0)) ?_ ?_) ?_
  · refine ⟨by simp, fun j hj => ⟨0, by simp [hj], ?_⟩⟩
    rw [if_neg (by omega)]
  · intro i scr hi ⟨hl1, hv⟩
    have hne : 0 < (if tsig = 0 then 4 else tsig) := by rcases ht with h | h | h <;> subst h <;> decide
    have hle : (if tsig = 0 then 4 else tsig) ≤ 4 := by rcases ht with h | h | h <;> subst h <;> decide
    refine Tri.mono (Tri.loop (fun (a : Nat) (scr : List (Option K)) => scr.length = lag ∧
      ∀ j, j < lag → ∃ x, scr[j]? = some (some x) ∧ (if (1 ≤ j ∧ j < i + 1) ∨ (j = i + 1 ∧ 0 < a) then 0 < x else x = 0)) ?_ ?_) ?_
    · refine ⟨hl1, fun j hj => ?_⟩
      obtain ⟨x, h1, h2⟩ := hv j hj
      refine ⟨x, h1, ?_⟩
      by_cases hc : 1 ≤ j ∧ j < i + 1
      · rw [if_pos hc] at h2; rw [if_pos (Or.inl hc)]; exact h2
      · rw [if_neg hc] at h2; rw [if_neg (by omega)]; exact h2
    · intro a scr ha ⟨hl2, hv2⟩
      refine Tri.mono (Tri.loop (fun (c : Nat) (scr : List (Option K)) => scr.length = lag ∧
        ∀ j, j < lag → ∃ x, scr[j]? = some (some x) ∧
          (if (1 ≤ j ∧ j < i + 1) ∨ (j = i + 1 ∧ (0 < a ∨ 0 < c)) then 0 < x else x = 0)) ?_ ?_) ?_
      · refine ⟨hl2, fun j hj => ?_⟩
        obtain ⟨x, h1, h2⟩ := hv2 j hj
        refine ⟨x, h1, ?_⟩
        by_cases hc : (1 ≤ j ∧ j < i + 1) ∨ (j = i + 1 ∧ 0 < a)
        · rw [if_pos hc] at h2; rw [if_pos (by omega)]; exact h2
        · rw [if_neg hc] at h2; rw [if_neg (by omega)]; exact h2
      · intro c scr hc ⟨hl3, hv3⟩
        have hidx : b → (a + 1) * (i + 1 + 1) + 1 + c - (a + 1) - 1 < acf.length := by
          intro h
          have h4 := hb h
          have ha4 : a + 1 ≤ 4 := by omega
          have := Nat.mul_le_mul ha4 (Nat.le_refl (i + 1 + 1))
          omega
        refine Tri.bind (Tri.get hidx) (fun v hvv => ?_)
        obtain ⟨v0, rfl, hv0⟩ := hp.get hvv
        refine Tri.bind (Tri.get (fun _ => by omega)) (fun w hww => ?_)
        have hw0 : 0 < w := hwp w (List.mem_of_getElem? hww)
        refine Tri.bind (Tri.get (fun _ => by omega)) (fun s hss => ?_)
        obtain ⟨x, h1, h2⟩ := hv3 (i + 1) (by omega)
        rw [h1] at hss
        obtain rfl := Option.some.inj hss
        refine Tri.mono (Tri.wr (fun _ => by omega)) ?_
        rintro ys ⟨_, rfl⟩
        refine ⟨by simpa using hl3, fun j hj => ?_⟩
        by_cases hji : j = i + 1
        · subst hji
          refine ⟨_, by rw [List.getElem?_set_self (by omega)]; rfl, ?_⟩
          rw [if_pos (by omega)]
          have hx0 : 0 ≤ x := by
            by_cases hcc : (1 ≤ i + 1 ∧ i + 1 < i + 1) ∨ (i + 1 = i + 1 ∧ (0 < a ∨ 0 < c))
            · rw [if_pos hcc] at h2; exact h2.le
            · rw [if_neg hcc] at h2; exact h2.ge
          have hk : (0 : K) < (if tsig = 0 then 1 / (2 * ((a + 1 : Nat) : K) - 1) else 1) := by
            by_cases h0 : tsig = 0
            · rw [if_pos h0]
              apply one_div_pos.mpr
              push_cast
              have : (0 : K) ≤ (a : K) := Nat.cast_nonneg a
              linarith
            · rw [if_neg h0]; exact one_pos
          have := mul_pos (mul_pos hv0 hk) hw0
          linarith
        · obtain ⟨y, h3, h4⟩ := hv3 j hj
          refine ⟨y, by rw [List.getElem?_set_ne (by omega)]; exact h3, ?_⟩
          by_cases hcc : (1 ≤ j ∧ j < i + 1) ∨ (j = i + 1 ∧ (0 < a ∨ 0 < c))
          · rw [if_pos hcc] at h4; rw [if_pos (by omega)]; exact h4
          · rw [if_neg hcc] at h4; rw [if_neg (by omega)]; exact h4
      · intro scr ⟨hl3, hv3⟩
        refine ⟨hl3, fun j hj => ?_⟩
        obtain ⟨x, h1, h2⟩ := hv3 j hj
        refine ⟨x, h1, ?_⟩
        by_cases hcc : (1 ≤ j ∧ j < i + 1) ∨ (j = i + 1 ∧ (0 < a ∨ 0 < 2 * (a + 1) - 1))
        · rw [if_pos hcc] at h2; rw [if_pos (by omega)]; exact h2
        · rw [if_neg hcc] at h2; rw [if_neg (by omega)]; exact h2
    · intro scr ⟨hl3, hv3⟩
      refine ⟨hl3, fun j hj => ?_⟩
      obtain ⟨x, h1, h2⟩ := hv3 j hj
      refine ⟨x, h1, ?_⟩
      by_cases hcc : (1 ≤ j ∧ j < i + 1) ∨ (j = i + 1 ∧ 0 < (if tsig = 0 then 4 else tsig))
      · rw [if_pos hcc] at h2; rw [if_pos (by omega)]; exact h2
      · rw [if_neg hcc] at h2; rw [if_neg (by omega)]; exact h2
  · intro scr ⟨hl1, hv⟩
    refine ⟨hl1, fun j hj => ?_⟩
    obtain ⟨x, h1, h2⟩ := hv j hj
    refine ⟨x, h1, ?_⟩
    by_cases hc : 1 ≤ j ∧ j < lag - 2 + 1
    · rw [if_pos hc] at h2; rw [if_pos (by omega)]; exact h2
    · rw [if_neg hc] at h2; rw [if_neg (by omega)]; exact h2

/-- The maximum of the filter bank is neither at its first nor at its last place. -/
theorem maxIndex_ok {lag : Nat} {scr : List (Option K)} (hlag : 3 ≤ lag) (hl : scr.length = lag)
    (h : ∀ j, j < lag → ∃ x, scr[j]? = some (some x) ∧ (if 1 ≤ j ∧ j < lag - 1 then 0 < x else x = 0)) :
    1 ≤ maxIndex scr ∧ maxIndex scr ≤ lag - 2 := by
  have key : ∀ k, k ≤ lag → let s := (scr.take k).foldl (fun (s : K × Nat × Nat) x => match x with
      | some v => if v > s.1 then (v, s.2.2, s.2.2 + 1) else (s.1, s.2.1, s.2.2 + 1)
      | none => (s.1, s.2.1, s.2.2 + 1)) (0, 0, 0)
      s.2.2 = k ∧ 0 ≤ s.1 ∧ (s.2.1 = 0 ∨ (1 ≤ s.2.1 ∧ s.2.1 ≤ lag - 2)) ∧ (2 ≤ k → 1 ≤ s.2.1) ∧ (k ≤ 1 → s.1 = 0) := by
    intro k
    induction k with
    | zero => intro _; simp
    | succ k ih =>
      intro hk
      obtain ⟨x, h1, h2⟩ := h k (by omega)
      rw [List.take_add_one, h1]
      simp only [Option.toList, List.foldl_append, List.foldl_cons, List.foldl_nil]
      obtain ⟨i1, i2, i3, i4, i5⟩ := ih (by omega)
      revert i1 i2 i3 i4 i5
      generalize (scr.take k).foldl (fun (s : K × Nat × Nat) x => match x with
      | some v => if v > s.1 then (v, s.2.2, s.2.2 + 1) else (s.1, s.2.1, s.2.2 + 1)
      | none => (s.1, s.2.1, s.2.2 + 1)) (0, 0, 0) = s
      intro i1 i2 i3 i4 i5
      by_cases hgt : x > s.1
      · rw [if_pos hgt]
        have hc : 1 ≤ k ∧ k < lag - 1 := by
          by_contra hc
          rw [if_neg hc] at h2
          rw [h2] at hgt
          exact absurd i2 (not_le.mpr hgt)
        refine ⟨by dsimp only; omega, by dsimp only; linarith, by dsimp only; omega, by dsimp only; omega, by dsimp only; omega⟩
      · rw [if_neg hgt]
        refine ⟨by dsimp only; omega, i2, i3, ?_, ?_⟩
        · intro h2k
          dsimp only
          by_cases hk2 : 2 ≤ k
          · exact i4 hk2
          · have hk1 : k = 1 := by omega
            subst hk1
            rw [if_pos (by omega)] at h2
            rw [i5 (by omega)] at hgt
            exact absurd h2 hgt
        · intro h1k; exact i5 (by omega)
  have := key lag (le_refl _)
  rw [List.take_of_length_le (by omega)] at this
  obtain ⟨_, _, i3, i4, _⟩ := this
  have i4' := i4 (by omega)
  unfold maxIndex
  refine ⟨i4', ?_⟩
  rcases i3 with h0 | h0
  · rw [h0] at i4'; omega
  · exact h0.2

theorem mat_ok {n : Nat} {M : List (List E)} {i j : Nat} (h : M.length = n ∧ ∀ r ∈ M, r.length = n) (hi : i < n) (hj : j < n) :
    Tri b (rd2 M i j) (fun _ => True) := by
  unfold rd2
  refine Tri.bind (Tri.get (fun _ => by omega)) (fun r hr => ?_)
  have := h.2 r (List.mem_of_getElem? hr)
  exact Tri.mono (Tri.get (fun _ => by omega)) (fun _ _ => trivial)

theorem mat_wr {n : Nat} {M : List (List E)} {i j : Nat} (v : E) (h : M.length = n ∧ ∀ r ∈ M, r.length = n) (hi : i < n) (hj : j < n) :
    Tri b (wr2 M i j v) (fun M => M.length = n ∧ ∀ r ∈ M, r.length = n) := by
  unfold wr2
  refine Tri.bind (Tri.get (fun _ => by omega)) (fun r hr => ?_)
  have hrl := h.2 r (List.mem_of_getElem? hr)
  refine Tri.bind (Tri.wr (fun _ => by omega)) (fun r' hr' => ?_)
  refine Tri.mono (Tri.wr (fun _ => by omega)) ?_
  rintro M' ⟨_, rfl⟩
  refine ⟨by simpa using h.1, fun q hq => ?_⟩
  rcases List.mem_or_eq_of_mem_set hq with h1 | h1
  · exact h.2 q h1
  · rw [h1, hr'.2, List.length_set]; exact hrl

/-- The pair search always picks a place other than the first. -/
theorem pairIndex_ok (env : Env K E) {scr : List E} (hlag : 2 ≤ env.lag) (hl : scr.length = env.lag) :
    Tri b (pairIndex env scr) (fun m => 1 ≤ m ∧ m ≤ env.lag - 1) := by
  unfold pairIndex
  refine Tri.bind (Tri.loop (fun _ (M : List (List E)) => M.length = env.lag ∧ ∀ r ∈ M, r.length = env.lag) ?_ ?_) ?_
  · refine ⟨by simp, fun r hr => ?_⟩
    rw [(List.mem_replicate.mp hr).2]; simp
  · intro i M hi hM
    refine Tri.loop (fun _ (M : List (List E)) => M.length = env.lag ∧ ∀ r ∈ M, r.length = env.lag) hM ?_
    intro j M hj hM
    refine Tri.bind (Tri.get (fun _ => by omega)) (fun x _ => ?_)
    refine Tri.bind (Tri.get (fun _ => by omega)) (fun y _ => ?_)
    exact mat_wr _ hM (by omega) (by omega)
  intro M hM
  refine Tri.bind (Tri.loop (fun _ (_ : E) => True) trivial ?_) ?_
  · intro i m hi _
    refine Tri.loop (fun _ (_ : E) => True) trivial ?_
    intro j m hj _
    exact Tri.bind (mat_ok hM (by omega) (by omega)) (fun _ _ => Tri.pure trivial)
  intro maxVal _
  refine Tri.bind (Tri.loop (fun _ (M : List (List E)) => M.length = env.lag ∧ ∀ r ∈ M, r.length = env.lag) hM ?_) ?_
  · intro i M hi hM
    exact mat_wr _ hM (by omega) (by omega)
  intro M hM
  refine Tri.bind (Tri.loop (fun _ (s : E × Nat × Nat) => (1 ≤ s.2.1 ∧ s.2.1 ≤ env.lag - 1) ∧ (1 ≤ s.2.2 ∧ s.2.2 ≤ env.lag - 1)) ?_ ?_) ?_
  · exact ⟨⟨le_refl 1, (by omega : 1 ≤ env.lag - 1)⟩, ⟨le_refl 1, (by omega : 1 ≤ env.lag - 1)⟩⟩
  · intro i s hi hs
    refine Tri.loop (fun _ (s : E × Nat × Nat) => (1 ≤ s.2.1 ∧ s.2.1 ≤ env.lag - 1) ∧ (1 ≤ s.2.2 ∧ s.2.2 ≤ env.lag - 1)) hs ?_
    intro j s hj hs
    refine Tri.bind (mat_ok hM (by omega) (by omega)) (fun v _ => Tri.pure ?_)
    by_cases hc : env.lt v s.1 = true
    · rw [if_pos hc]; exact ⟨⟨by dsimp only; omega, by dsimp only; omega⟩, ⟨by dsimp only; omega, by dsimp only; omega⟩⟩
    · rw [if_neg hc]; exact hs
  intro s hs
  refine Tri.bind (Tri.get (fun _ => by omega)) (fun x _ => ?_)
  refine Tri.bind (Tri.get (fun _ => by omega)) (fun y _ => Tri.pure ?_)
  by_cases hc : env.lt y x = true
  · rw [if_pos hc]; exact hs.1
  · rw [if_neg hc]; exact hs.2

theorem peak_ok {acf : List (Option K)} {start cnt : Nat} (hc : 0 < cnt) (h : b → start + cnt ≤ acf.length) :
    Tri b (peak acf start cnt) (fun t => t < cnt) := by
  unfold peak
  refine Tri.bind (Tri.loop (fun _ (s : K × Nat) => s.2 < cnt) (by dsimp only; exact hc) ?_) (fun s hs => Tri.pure hs)
  intro c s hcc hs
  refine Tri.bind (Tri.get (fun hb => by have := h hb; omega)) (fun v _ => ?_)
  cases v with
  | none => exact Tri.pure hs
  | some v =>
    refine Tri.pure ?_
    by_cases hv : v > s.1
    · rw [if_pos hv]; exact hcc
    · rw [if_neg hv]; exact hs

theorem round_between {x : K} {m : Nat} (h1 : (m : K) + 1 / 8 ≤ x) (h2 : x < (m : K) + 3 / 2) :
    MathReal.round x = m ∨ MathReal.round x = m + 1 := by
  unfold MathReal.round
  have hm : (0 : K) ≤ (m : K) := Nat.cast_nonneg m
  rw [if_neg (by linarith)]
  have h3 : (m : Int) ≤ ⌊x + 1 / 2⌋ := by
    rw [Int.le_floor]; push_cast; linarith
  have h4 : ⌊x + 1 / 2⌋ < (m : Int) + 2 := by
    rw [Int.floor_lt]; push_cast; linarith
  omega

/-- The period lies between an eighth above the chosen place and three halves above it. -/
theorem periodOf_ok {acf : List (Option K)} {m tsig : Nat} (ht : tsig = 3 ∨ tsig = 4) (h : b → 4 * m + 7 ≤ acf.length) :
    Tri b (periodOf acf m tsig) (fun p => (m : K) + 1 / 8 ≤ p ∧ p < (m : K) + 3 / 2) := by
  unfold periodOf
  refine Tri.bind (peak_ok (by decide) (fun hb => by have := h hb; omega)) (fun t1 h1 => ?_)
  refine Tri.bind (peak_ok (by decide) (fun hb => by have := h hb; omega)) (fun t2 h2 => ?_)
  have a1 : (t1 : K) ≤ 2 := by exact_mod_cast Nat.lt_succ_iff.mp h1
  have a2 : (t2 : K) ≤ 4 := by exact_mod_cast Nat.lt_succ_iff.mp h2
  have b1 : (0 : K) ≤ (t1 : K) := Nat.cast_nonneg _
  have b2 : (0 : K) ≤ (t2 : K) := Nat.cast_nonneg _
  rcases ht with ht | ht
  · subst ht
    refine Tri.pure ?_
    simp only [mean, MathReal.sum, List.foldl_cons, List.foldl_nil, List.length_cons, List.length_nil]
    push_cast
    constructor <;> linarith
  · subst ht
    refine Tri.bind (peak_ok (by decide) (fun hb => by have := h hb; omega)) (fun t3 h3 => ?_)
    have a3 : (t3 : K) ≤ 6 := by exact_mod_cast Nat.lt_succ_iff.mp h3
    have b3 : (0 : K) ≤ (t3 : K) := Nat.cast_nonneg _
    refine Tri.pure ?_
    simp only [mean, MathReal.sum, List.foldl_cons, List.foldl_nil, List.length_cons, List.length_nil]
    push_cast
    constructor <;> linarith

end QM.TempoTrack
