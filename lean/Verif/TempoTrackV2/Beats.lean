import Verif.TempoTrackV2.Lemmas
import Mathlib.Algebra.Order.Floor.Ring
import Mathlib.Tactic.Positivity
import Mathlib.Tactic.Linarith

namespace QM.TempoTrackV2

section
variable {K : Type} [Field K] [LinearOrder K] [IsStrictOrderedRing K] [FloorRing K]

/-- The greatest distance to the previous beat: twice the period, rounded down. -/
def far (p : K) : Int := ⌊2 * p⌋

/-- The least distance to the previous beat: half the period, rounded. -/
def near (p : K) : Int := ⌊p / 2 + 1 / 2⌋

theorem toInt_far {p : K} (hp : 0 ≤ p) : toInt (-2 * p) = -far p := by
  unfold toInt far
  rcases hp.eq_or_lt with h | h
  · subst h; simp
  · rw [if_neg (by linarith), show -2 * p = -(2 * p) by ring, Int.ceil_neg]

theorem cround_near {p : K} (hp : 0 ≤ p) : cround (-(1 / 2) * p) = -near p := by
  unfold cround near
  rcases hp.eq_or_lt with h | h
  · subst h
    norm_num
  · rw [if_neg (by linarith), show -(1 / 2) * p - 1 / 2 = -(p / 2 + 1 / 2) by ring, Int.ceil_neg]

theorem near_nonneg {p : K} (hp : 0 ≤ p) : 0 ≤ near p := Int.floor_nonneg.mpr (by linarith)

theorem near_le_far {p : K} (hp : 0 ≤ p) : near p ≤ far p := by
  unfold near far
  by_cases h : p < 1
  · have : ⌊p / 2 + 1 / 2⌋ < 1 := Int.floor_lt.mpr (by push_cast; linarith)
    have h2 : 0 ≤ ⌊2 * p⌋ := Int.floor_nonneg.mpr (by linarith)
    omega
  · exact Int.floor_le_floor (by linarith)

theorem near_pos {p : K} (hp : 1 ≤ p) : 1 ≤ near p := Int.le_floor.mpr (by push_cast; linarith)

/-- The candidates for the beat before `i`, oldest first. -/
def cand (wt : K → Nat → Option K) (P C : Nat → K) (i j : Nat) : Option K :=
  if 0 ≤ (i : Int) - far (P i) + j then (wt (P i) j).map (· * (if ((i : Int) - far (P i) + j).toNat < i then C ((i : Int) - far (P i) + j).toNat else 0))
  else some 0

/-- All candidates. -/
def cands (wt : K → Nat → Option K) (P C : Nat → K) (i : Nat) : List (Option K) :=
  (List.range (far (P i) - near (P i) + 1).toNat).map (cand wt P C i)

/-- Row `i` of the table. -/
def Row (wt : K → Nat → Option K) (alpha : K) (X P C : Nat → K) (B : Nat → Int) (i : Nat) : Prop :=
  C i = alpha * getMaxVal (cands wt P C i) + (1 - alpha) * X i ∧ B i = (i : Int) - far (P i) + getMaxInd (cands wt P C i)

omit [IsStrictOrderedRing K] in
theorem cand_congr {wt : K → Nat → Option K} {P C C' : Nat → K} {i : Nat} (h : ∀ m, m < i → C m = C' m) : cands wt P C i = cands wt P C' i := by
  unfold cands
  refine List.map_congr_left fun j _ => ?_
  unfold cand
  split
  · congr 1
    funext x
    split
    · next hlt => rw [h _ hlt]
    · rfl
  · rfl

theorem beatStep_ok {wt : K → Nat → Option K} {alpha : K} {df bp cum : List K} {back : List Int} {n k : Nat} {X P C : Nat → K} {B : Nat → Int} (hk : k < n)
    (hd : Holds n X df) (hbp : ∀ i, i < n → bp[i]? = some (P i)) (hp : ∀ i, i < n → 0 ≤ P i) (hc : Holds n C cum) (hb : Holds n B back)
    (hz : ∀ i, k ≤ i → C i = 0) (hrow : ∀ i, i < k → Row wt alpha X P C B i) :
    ∃ cum' back', ∃ (C' : Nat → K) (B' : Nat → Int), beatStep wt alpha df bp k (cum, back) = some (cum', back') ∧ Holds n C' cum' ∧ Holds n B' back' ∧
      (∀ i, k + 1 ≤ i → C' i = 0) ∧ ∀ i, i < k + 1 → Row wt alpha X P C' B' i := by
  have hpk := hp k hk
  have hnf := near_le_far hpk
  have hn0 := near_nonneg hpk
  obtain ⟨cs, h1, h2⟩ := loop_inv (n := (far (P k) - near (P k) + 1).toNat) (f := fun j (c : List (Option K)) =>
      let ind := (k : Int) + (-far (P k)) + j
      if ind ≥ 0 then do
        let v ← cum[ind.toNat]?
        wr c j ((wt (P k) j).map (· * v))
      else pure c) (s := List.replicate (far (P k) - near (P k) + 1).toNat (some 0))
    (P := fun j c => Holds (far (P k) - near (P k) + 1).toNat (fun l => if l < j then cand wt P C k l else some 0) c)
    ((holds_replicate _ (some (0 : K))).congr fun _ _ => by simp)
    (by
      intro j c hj hc'
      dsimp only
      by_cases h0 : (k : Int) + (-far (P k)) + j ≥ 0
      · rw [if_pos h0]
        have hlt : ((k : Int) + (-far (P k)) + j).toNat < n := by omega
        have hv : cum[((k : Int) + (-far (P k)) + j).toNat]? = some (C ((k : Int) + (-far (P k)) + j).toNat) := hc.2 _ hlt
        have hcand : (wt (P k) j).map (· * C ((k : Int) + (-far (P k)) + j).toNat) = cand wt P C k j := by
          unfold cand
          rw [if_pos (by omega)]
          congr 1
          funext x
          split
          · rw [← sub_eq_add_neg]
          · next h => rw [← sub_eq_add_neg, hz _ (by omega)]
        obtain ⟨w1, w2⟩ := Hmm.Holds.wr' hc' hj (cand wt P C k j)
        refine ⟨_, ?_, w2.congr fun l _ => ?_⟩
        · rw [bind_ok hv, hcand]; exact w1
        · by_cases c1 : l = j
          · rw [if_pos c1, if_pos (by omega), c1]
          · rw [if_neg c1]
            by_cases c2 : l < j
            · rw [if_pos c2, if_pos (by omega)]
            · rw [if_neg c2, if_neg (by omega)]
      · rw [if_neg h0]
        refine ⟨c, rfl, hc'.congr fun l _ => ?_⟩
        by_cases c2 : l < j
        · rw [if_pos c2, if_pos (by omega)]
        · rw [if_neg c2]
          by_cases c3 : l = j
          · rw [if_pos (by omega), c3]
            unfold cand
            rw [if_neg (by omega)]
          · rw [if_neg (by omega)])
  have h3 : cs = cands wt P C k := by
    refine Holds.ext h2 ⟨by simp [cands], fun j hj => ?_⟩
    simp [cands, hj]
  obtain ⟨w1, w2⟩ := Hmm.Holds.wr' hc hk (alpha * getMaxVal (cands wt P C k) + (1 - alpha) * X k)
  obtain ⟨w3, w4⟩ := Hmm.Holds.wr' hb hk ((k : Int) + (-far (P k)) + getMaxInd (cands wt P C k))
  refine ⟨_, _, _, _, ?_, w2, w4, fun i hi => ?_, fun i hi => ?_⟩
  · unfold beatStep
    rw [bind_ok (hbp k hk), toInt_far hpk, cround_near hpk]
    dsimp only
    rw [if_neg (by omega), show -near (P k) - -far (P k) + 1 = far (P k) - near (P k) + 1 by ring, bind_ok h1, bind_ok (hd.2 k hk), h3, bind_ok w1, bind_ok w3]
    rfl
  · rw [if_neg (by omega)]; exact hz i (by omega)
  · have hcc : cands wt P (fun j => if j = k then alpha * getMaxVal (cands wt P C k) + (1 - alpha) * X k else C j) i = cands wt P C i :=
      cand_congr fun m hm => by rw [if_neg (by omega)]
    unfold Row
    rw [hcc]
    dsimp only
    by_cases c : i = k
    · rw [if_pos c, if_pos c, c]
      exact ⟨rfl, by ring⟩
    · rw [if_neg c, if_neg c]
      exact hrow i (by omega)

theorem table_ok {wt : K → Nat → Option K} {alpha : K} {df bp : List K} {n : Nat} {X P : Nat → K}
    (hd : Holds n X df) (hbp : ∀ i, i < n → bp[i]? = some (P i)) (hp : ∀ i, i < n → 0 ≤ P i) :
    ∃ cum back, ∃ (C : Nat → K) (B : Nat → Int), loop n (beatStep wt alpha df bp) (List.replicate n 0, List.replicate n (-1)) = some (cum, back) ∧
      Holds n C cum ∧ Holds n B back ∧ ∀ i, i < n → Row wt alpha X P C B i := by
  obtain ⟨⟨cum, back⟩, h1, C, B, h2, h3, _, h5⟩ := loop_inv (n := n) (f := beatStep wt alpha df bp) (s := (List.replicate n 0, List.replicate n (-1)))
    (P := fun k st => ∃ (C : Nat → K) (B : Nat → Int), Holds n C st.1 ∧ Holds n B st.2 ∧ (∀ i, k ≤ i → C i = 0) ∧ ∀ i, i < k → Row wt alpha X P C B i)
    ⟨fun _ => 0, fun _ => -1, holds_replicate n 0, holds_replicate n (-1), fun _ _ => rfl, fun i hi => absurd hi (Nat.not_lt_zero i)⟩
    (by
      rintro k ⟨cum, back⟩ hk ⟨C, B, i1, i2, i3, i4⟩
      obtain ⟨cum', back', C', B', e1, e2, e3, e4, e5⟩ := beatStep_ok hk hd hbp hp i1 i2 i3 i4
      exact ⟨(cum', back'), e1, C', B', e2, e3, e4, e5⟩)
  exact ⟨cum, back, C, B, h1, h2, h3, h5⟩

omit [IsStrictOrderedRing K] [FloorRing K] in
theorem maxInd_lt {xs : List (Option K)} (h : xs ≠ []) : getMaxInd xs < xs.length := by
  rcases (maxOf xs).1 with ⟨_, e⟩ | ⟨_, e⟩
  · rw [e]; exact List.length_pos_iff.mpr h
  · exact lt_of_getElem?_some e

/-- A back link does not point beyond its beat, and for a period of at least one it points before it. -/
theorem back_le {wt : K → Nat → Option K} {alpha : K} {X P C : Nat → K} {B : Nat → Int} {i : Nat} (h : Row wt alpha X P C B i) (hp : 0 ≤ P i) :
    B i ≤ (i : Int) - near (P i) := by
  have hnf := near_le_far hp
  have hlen : (cands wt P C i).length = (far (P i) - near (P i) + 1).toNat := by simp [cands]
  have : getMaxInd (cands wt P C i) < (cands wt P C i).length := maxInd_lt (by
    rw [← List.length_pos_iff, hlen]; omega)
  rw [h.2]
  omega

/-- The positions found by following the back links from `b`, latest first. -/
def trace (B : Nat → Int) : Nat → Nat → List Nat
  | 0, b => [b]
  | f + 1, b => if B b > 0 ∧ B b ≠ b then b :: trace B f (B b).toNat else [b]

theorem trace_ok {n : Nat} {B : Nat → Int} {back : List Int} (hb : Holds n B back) (hB : ∀ i, i < n → B i ≤ i) (fuel : Nat) :
    ∀ b acc, b < n → b < fuel → track back fuel ((b : Int) :: acc) = some (((trace B fuel b).reverse.map fun (x : Nat) => (x : Int)) ++ acc) := by
  induction fuel with
  | zero => intro b acc _ h; omega
  | succ f ih =>
    intro b acc hb' hf
    rw [track]
    show (rdI back (b : Int) >>= _) = _
    rw [rdI_natCast, bind_ok (hb.2 b hb'), trace]
    by_cases h1 : B b > 0
    · rw [if_pos h1]
      by_cases h2 : B b = b
      · rw [if_pos h2, if_neg (fun h => h.2 h2)]
        rfl
      · rw [if_neg h2, if_pos ⟨h1, h2⟩]
        have hlt := hB b hb'
        obtain ⟨m, hm⟩ : ∃ m : Nat, B b = (m : Int) := ⟨(B b).toNat, by omega⟩
        rw [hm] at h1 h2 hlt ⊢
        rw [ih m ((b : Int) :: acc) (by omega) (by omega)]
        simp
    · rw [if_neg h1, if_neg (fun h => h1 h.1)]
      rfl

theorem trace_desc {n : Nat} {B : Nat → Int} (hB : ∀ i, i < n → B i ≤ i) (fuel : Nat) :
    ∀ b, b < n → (trace B fuel b).head? = some b ∧ (trace B fuel b).Pairwise (· > ·) ∧ ∀ x ∈ trace B fuel b, x ≤ b := by
  induction fuel with
  | zero => intro b _; simp [trace]
  | succ f ih =>
    intro b hb
    rw [trace]
    by_cases h : B b > 0 ∧ B b ≠ b
    · rw [if_pos h]
      have hlt := hB b hb
      obtain ⟨_, h2, h3⟩ := ih (B b).toNat (by omega)
      refine ⟨rfl, List.pairwise_cons.mpr ⟨fun x hx => ?_, h2⟩, fun x hx => ?_⟩
      · have := h3 x hx; omega
      · rcases List.mem_cons.mp hx with h' | h'
        · exact h'.le
        · have := h3 x h'; omega
    · rw [if_neg h]; simp

theorem startPoint_ok {n : Nat} {bp cum : List K} {C : Nat → K} {last : K} (hn : 0 < n) (hc : Holds n C cum) (hl : bp.getLast? = some last) (h0 : 0 ≤ last)
    (h1 : last < (n : K) + 1) : ∃ s : Nat, startPoint bp cum n = some (s : Int) ∧ s < n := by
  have hi0 : 0 ≤ toInt ((n : K) - last) := by
    unfold toInt
    split
    · next h => exact Int.floor_nonneg.mpr h
    · have : (-1 : Int) < ⌈(n : K) - last⌉ := Int.lt_ceil.mpr (by push_cast; linarith)
      omega
  have hi1 : toInt ((n : K) - last) ≤ n := by
    unfold toInt
    split
    · have : ⌊(n : K) - last⌋ ≤ ⌊((n : Nat) : K)⌋ := Int.floor_le_floor (by linarith)
      rwa [Int.floor_natCast] at this
    · next h =>
      have : ⌈(n : K) - last⌉ ≤ ((0 : Int)) := Int.ceil_le.mpr (by push_cast; linarith)
      omega
  obtain ⟨i0, hi⟩ : ∃ i0 : Nat, toInt ((n : K) - last) = (i0 : Int) := ⟨(toInt ((n : K) - last)).toNat, by omega⟩
  have hin : i0 ≤ n := by omega
  obtain ⟨tmp, h2, h3⟩ := loop_inv (n := n - i0) (f := fun k (tmp : List K) => do
    let v ← rdI cum ((i0 : Int) + k)
    pure (tmp ++ [v])) (s := []) (P := fun k tmp => tmp.length = k)
    rfl
    (by
      intro k tmp hk ht
      refine ⟨tmp ++ [C (i0 + k)], ?_, by simp [ht]⟩
      have : rdI cum ((i0 : Int) + k) = some (C (i0 + k)) := by
        rw [← Int.natCast_add, rdI_natCast]
        exact hc.2 _ (by omega)
      rw [bind_ok this]
      rfl)
  have hs : startPoint bp cum n = some (if toInt (((getMaxInd (tmp.map some) : Nat) : K) + (n : K) - last) ≥ n then (n : Int) - 1
      else toInt (((getMaxInd (tmp.map some) : Nat) : K) + (n : K) - last)) := by
    unfold startPoint
    rw [bind_ok hl]
    dsimp only
    rw [hi, show ((n : Int) - (i0 : Int)).toNat = n - i0 by omega, bind_ok h2]
    rfl
  have hge : 0 ≤ toInt (((getMaxInd (tmp.map some) : Nat) : K) + (n : K) - last) := by
    have hg : (0 : K) ≤ ((getMaxInd (tmp.map some) : Nat) : K) := Nat.cast_nonneg _
    unfold toInt
    split
    · next h => exact Int.floor_nonneg.mpr h
    · have : (-1 : Int) < ⌈((getMaxInd (tmp.map some) : Nat) : K) + (n : K) - last⌉ := Int.lt_ceil.mpr (by push_cast; linarith)
      omega
  rw [hs]
  split
  · exact ⟨n - 1, by congr 1; omega, by omega⟩
  · next h => exact ⟨(toInt (((getMaxInd (tmp.map some) : Nat) : K) + (n : K) - last)).toNat, by congr 1; omega, by omega⟩

end

end QM.TempoTrackV2
