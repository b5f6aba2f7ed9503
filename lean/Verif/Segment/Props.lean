import Verif.Segment.Model
import Verif.Common.FlatMat
import Verif.MathInt.Props
import Mathlib.Tactic.Ring
import Mathlib.Tactic.Linarith
import Mathlib.Order.Bounds.Basic

/-! # C41, C43, C44: segments, histograms, decimation factor -/

namespace QM.Segment

open Finset

/-! ## C41 -/

/-- Segments that follow one another without gap or overlap from `a` to `b`, each of positive length. -/
def Tiles : Int → List Segment → Int → Prop
  | a, [], b => a = b
  | a, s :: ss, b => s.start = a ∧ s.start < s.stop ∧ Tiles s.stop ss b

/-- No two neighbouring segments have the same type. -/
def TypesDiffer (segs : List Segment) : Prop :=
  ∀ (i : Nat) (s t : Segment), segs[i]? = some s → segs[i + 1]? = some t → s.type ≠ t.type

/-- One label for every `hop` samples. -/
def expand (hop : Int) (segs : List Segment) : List Int :=
  segs.flatMap (fun s => List.replicate ((s.stop - s.start) / hop).toNat s.type)

theorem Tiles.snoc {a b c t : Int} {ss : List Segment} (h : Tiles a ss b) (hbc : b < c) : Tiles a (ss ++ [⟨b, c, t⟩]) c := by
  induction ss generalizing a with
  | nil => cases h; exact ⟨rfl, hbc, rfl⟩
  | cons s ss ih => exact ⟨h.1, h.2.1, ih h.2.2⟩

theorem TypesDiffer.snoc {ss : List Segment} {s : Segment} (h : TypesDiffer ss)
    (hl : ∀ t, ss[ss.length - 1]? = some t → t.type ≠ s.type) : TypesDiffer (ss ++ [s]) := by
  intro i a b ha hb
  have hi := lt_of_getElem?_some hb
  rw [List.length_append, List.length_singleton] at hi
  rw [List.getElem?_append_left (by omega)] at ha
  by_cases hlt : i + 1 < ss.length
  · rw [List.getElem?_append_left hlt] at hb
    exact h i a b ha hb
  · have e : i + 1 = ss.length := by omega
    rw [e, List.getElem?_append_right (le_refl _), Nat.sub_self] at hb
    cases hb
    exact hl a (by rw [← e]; exact ha)

theorem expand_snoc (hop : Int) (ss : List Segment) (s : Segment) :
    expand hop (ss ++ [s]) = expand hop ss ++ List.replicate ((s.stop - s.start) / hop).toNat s.type := by
  simp [expand]

theorem width (hop : Int) (h : 0 < hop) (a b : Nat) : (((b : Int) * hop - (a : Int) * hop) / hop).toNat = b - a := by
  rw [← sub_mul, Int.mul_ediv_cancel _ h.ne']
  omega

theorem take_run {q : List Int} {v : Int} {k n : Nat} (hkn : k ≤ n) (h : ∀ j : Nat, k ≤ j → j < n → q[j]? = some v) :
    q.take k ++ List.replicate (n - k) v = q.take n := by
  induction n, hkn using Nat.le_induction with
  | base => simp
  | succ n hn ih =>
    rw [show n + 1 - k = (n - k) + 1 by omega, List.replicate_succ', ← List.append_assoc, ih (fun j h1 h2 => h j h1 (by omega)),
      List.take_add_one, h n hn (by omega)]
    rfl

/-- **C41** Whatever the labels, at least one, and the hop, which is positive: the segments follow one another from 0 to the end without
gap or overlap, each is not empty, neighbours have different types, they begin and end at a multiple of the hop, and writing the type of
each segment once for every hop gives back the labels. -/
theorem C41_makeSegmentation (hop : Int) (q : List Int) (hhop : 0 < hop) (hq : q ≠ []) :
    ∃ segs, makeSegmentation hop q = some segs ∧ Tiles 0 segs ((q.length : Int) * hop) ∧ TypesDiffer segs ∧
      (∀ s ∈ segs, hop ∣ s.start ∧ hop ∣ s.stop) ∧ expand hop segs = q := by
  have hlen : 0 < q.length := List.length_pos_of_ne_nil hq
  obtain ⟨q0, hq0⟩ : ∃ v, q[0]? = some v := ⟨q[0], List.getElem?_eq_getElem hlen⟩
  obtain ⟨⟨L, a, t⟩, h1, k, h2, h3, h4, h5, h6, h7, h8, h9⟩ := loop_inv (q.length - 1) (fun n (s : List Segment × Int × Int) => do
      let a ← q[n + 1]?
      let b ← q[n]?
      if a ≠ b then pure (s.1 ++ [⟨s.2.1, ((n + 1 : Nat) : Int) * hop, s.2.2⟩], ((n + 1 : Nat) : Int) * hop, a)
      else pure s) ([], 0, q0)
    (fun n s => ∃ k : Nat, k ≤ n ∧ s.2.1 = (k : Int) * hop ∧ Tiles 0 s.1 ((k : Int) * hop) ∧ TypesDiffer s.1 ∧
      (∀ t, s.1[s.1.length - 1]? = some t → t.type ≠ s.2.2) ∧ (∀ t ∈ s.1, hop ∣ t.start ∧ hop ∣ t.stop) ∧
      expand hop s.1 = q.take k ∧ ∀ j : Nat, k ≤ j → j < n + 1 → q[j]? = some s.2.2)
    ⟨0, le_refl _, by simp, by simp [Tiles], fun i s t hs => by simp at hs, fun t ht => by simp at ht, fun t ht => by simp at ht,
      by simp [expand], fun j _ hj => by rw [show j = 0 by omega]; exact hq0⟩ (by
      rintro n ⟨L, a, t⟩ hn ⟨k, h2, h3, h4, h5, h6, h7, h8, h9⟩
      dsimp only at h3 h4 h5 h6 h7 h8 h9
      subst h3
      obtain ⟨v, hv⟩ : ∃ v, q[n + 1]? = some v := ⟨q[n + 1], List.getElem?_eq_getElem (by omega)⟩
      have ht := h9 n h2 (by omega)
      have hstep : ∀ (x : List Segment × Int × Int), ((do
          let a ← q[n + 1]?
          let b ← q[n]?
          if a ≠ b then pure (x.1 ++ [⟨x.2.1, ((n + 1 : Nat) : Int) * hop, x.2.2⟩], ((n + 1 : Nat) : Int) * hop, a)
          else pure x) : Option (List Segment × Int × Int)) =
          if v ≠ t then some (x.1 ++ [⟨x.2.1, ((n + 1 : Nat) : Int) * hop, x.2.2⟩], ((n + 1 : Nat) : Int) * hop, v) else some x := by
        intro x
        rw [bind_ok hv, bind_ok ht]
        rfl
      by_cases e : v ≠ t
      · refine ⟨(L ++ [⟨(k : Int) * hop, ((n + 1 : Nat) : Int) * hop, t⟩], ((n + 1 : Nat) : Int) * hop, v), by rw [hstep, if_pos e],
          n + 1, le_refl _, rfl, h4.snoc ?_, h5.snoc h6, ?_, ?_, ?_, ?_⟩
        · exact mul_lt_mul_of_pos_right (by omega) hhop
        · intro s hs
          simp at hs
          subst hs
          exact fun e' => e e'.symm
        · intro s hs
          rcases List.mem_append.mp hs with hs | hs
          · exact h7 s hs
          · rw [List.mem_singleton] at hs
            subst hs
            exact ⟨Dvd.intro_left _ rfl, Dvd.intro_left _ rfl⟩
        · dsimp only
          rw [expand_snoc, h8]
          dsimp only
          rw [width hop hhop]
          exact take_run (by omega) h9
        · intro j hj1 hj2
          rw [show j = n + 1 by omega]
          exact hv
      · refine ⟨(L, (k : Int) * hop, t), by rw [hstep, if_neg e], k, by omega, rfl, h4, h5, h6, h7, h8, ?_⟩
        intro j hj1 hj2
        by_cases hj : j = n + 1
        · rw [hj, hv, not_not.mp e]
        · exact h9 j hj1 (by omega))
  dsimp only at h3 h4 h5 h6 h7 h8 h9
  subst h3
  refine ⟨L ++ [⟨(k : Int) * hop, (q.length : Int) * hop, t⟩], ?_, h4.snoc ?_, h5.snoc h6, ?_, ?_⟩
  · unfold makeSegmentation
    rw [bind_ok hq0, bind_ok h1]
    rfl
  · exact mul_lt_mul_of_pos_right (by omega) hhop
  · intro s hs
    rcases List.mem_append.mp hs with hs | hs
    · exact h7 s hs
    · rw [List.mem_singleton] at hs
      subst hs
      exact ⟨Dvd.intro_left _ rfl, Dvd.intro_left _ rfl⟩
  · rw [expand_snoc, h8]
    dsimp only
    rw [width hop hhop, take_run (by omega) (fun j a b => h9 j a (by omega))]
    simp

/-- **C41** Without labels the first one is read all the same. -/
theorem C41_empty (hop : Int) : makeSegmentation hop [] = none := rfl

/-- **C41** The types of the segments are the labels: exactly those that occur. -/
theorem C41_types (hop : Int) (q : List Int) (hhop : 0 < hop) (hq : q ≠ []) (segs : List Segment) (h : makeSegmentation hop q = some segs) :
    ∀ t, t ∈ segs.map (·.type) ↔ t ∈ q := by
  obtain ⟨segs', h1, h2, _, h3, h4⟩ := C41_makeSegmentation hop q hhop hq
  rw [h] at h1
  cases h1
  intro t
  have hpos : ∀ a b ss, Tiles a ss b → ∀ s ∈ ss, s.start < s.stop := by
    intro a b ss hss s hs
    induction ss generalizing a with
    | nil => simp at hs
    | cons x xs ih =>
      rcases List.mem_cons.mp hs with rfl | hs
      · exact hss.2.1
      · exact ih _ hss.2.2 hs
  rw [← h4]
  unfold expand
  rw [List.mem_map, List.mem_flatMap]
  constructor
  · rintro ⟨s, hs, rfl⟩
    refine ⟨s, hs, List.mem_replicate.mpr ⟨?_, rfl⟩⟩
    have hlt := hpos _ _ _ h2 s hs
    obtain ⟨⟨a, ha⟩, ⟨b, hb⟩⟩ := h3 s hs
    rw [ha, hb, ← mul_sub, Int.mul_ediv_cancel_left _ hhop.ne']
    rw [ha, hb] at hlt
    have := lt_of_mul_lt_mul_left hlt hhop.le
    omega
  · rintro ⟨s, hs, ht⟩
    exact ⟨s, hs, ((List.mem_replicate.mp ht).2).symm⟩

example : makeSegmentation 100 [1, 1, 2, 2, 2, 1] = some [⟨0, 200, 1⟩, ⟨200, 500, 2⟩, ⟨500, 600, 1⟩] := by decide

example : expand 100 [⟨0, 200, 1⟩, ⟨200, 500, 2⟩, ⟨500, 600, 1⟩] = [1, 1, 2, 2, 2, 1] := by decide

/-! ## C44 -/

theorem roundUp_ok (p : Nat) : ∀ fuel d : Nat, 1 ≤ d → d ≤ 2 ^ p → (∀ i, d ≤ 2 ^ i → 2 ^ p ≤ 2 ^ i) → 2 ^ p - d < fuel →
    roundUp fuel d = some (2 ^ p) := by
  intro fuel
  induction fuel with
  | zero => intro d _ _ _ h; omega
  | succ fuel ih =>
    intro d h1 h2 h3 h4
    unfold roundUp
    by_cases e : d &&& (d - 1) = 0
    · rw [if_neg (not_not.mpr e)]
      obtain ⟨k, hk⟩ := (MathInt.land_pred_eq_zero_iff d h1).mp e
      have := h3 k (le_of_eq hk)
      congr 1
      omega
    · rw [if_pos e]
      have hne : d ≠ 2 ^ p := fun h => e ((MathInt.land_pred_eq_zero_iff d h1).mpr ⟨p, h⟩)
      exact ih (d + 1) (by omega) (by omega) (fun i hi => h3 i (by omega)) (by omega)

/-- The power of two not below `d` that is at most `2 * d`. -/
theorem least_pow (d : Nat) (h : 1 ≤ d) : ∃ p, d ≤ 2 ^ p ∧ (∀ i, d ≤ 2 ^ i → 2 ^ p ≤ 2 ^ i) ∧ 2 ^ p < 2 * d := by
  have hex : ∃ p, d ≤ 2 ^ p := ⟨d, Nat.lt_two_pow_self.le⟩
  refine ⟨Nat.find hex, Nat.find_spec hex, fun i hi => Nat.pow_le_pow_right (by omega) (Nat.find_min' hex hi), ?_⟩
  cases hp : Nat.find hex with
  | zero => rw [Nat.pow_zero]; omega
  | succ p =>
    have := Nat.find_min hex (m := p) (by omega)
    rw [Nat.pow_succ]
    omega

/-- **C44** For every sample rate (any integer) and either of the two internal rates, the search for the factor ends, after no more rounds
than the sample rate, and the factor is the smallest power of two not below the integer quotient of the rates, or 8 if that is greater than
8; so it is 1, 2, 4 or 8. -/
theorem C44_decimationFactor (fuel : Nat) (internalRate samplerate : Int) (hr : 0 < internalRate) (hfuel : samplerate.toNat + 1 < fuel) :
    ∃ r p : Nat, decimationFactor fuel internalRate samplerate = some r ∧ r = min 8 p ∧
      IsLeast {p : Nat | (∃ i : Nat, p = 2 ^ i) ∧ samplerate / internalRate ≤ p} p ∧ (r = 1 ∨ r = 2 ∨ r = 4 ∨ r = 8) := by
  set d : Int := if samplerate.tdiv internalRate < 1 then 1 else samplerate.tdiv internalRate with hd
  have hd1 : 1 ≤ d := by rw [hd]; split_ifs <;> omega
  have hdle : d.toNat ≤ samplerate.toNat + 1 := by
    rw [hd]
    split_ifs with h
    · omega
    · have h0 : 0 ≤ samplerate := by
        by_contra hneg
        have : samplerate.tdiv internalRate ≤ 0 := by
          rw [Int.tdiv_eq_ediv]
          have := Int.ediv_neg_of_neg_of_pos (not_le.mp hneg) hr
          split_ifs <;> try omega
          rw [Int.sign_eq_one_of_pos hr]
          omega
        omega
      rw [Int.tdiv_eq_ediv_of_nonneg h0]
      have := Int.ediv_le_self internalRate h0
      omega
  obtain ⟨p, hp1, hp2, hp3⟩ := least_pow d.toNat (by omega)
  have hru := roundUp_ok p fuel d.toNat (by omega) hp1 hp2 (by omega)
  refine ⟨min 8 (2 ^ p), 2 ^ p, ?_, rfl, ⟨⟨⟨p, rfl⟩, ?_⟩, ?_⟩, ?_⟩
  · unfold decimationFactor
    dsimp only
    rw [← hd, bind_ok hru]
    show some _ = some _
    congr 1
    split_ifs <;> omega
  · have hq : samplerate / internalRate ≤ d := by
      rw [hd]
      by_cases h0 : 0 ≤ samplerate
      · rw [Int.tdiv_eq_ediv_of_nonneg h0]
        split_ifs <;> omega
      · have := Int.ediv_neg_of_neg_of_pos (not_le.mp h0) hr
        omega
    omega
  · rintro x ⟨⟨i, rfl⟩, hx⟩
    refine hp2 i ?_
    have hpos : 1 ≤ 2 ^ i := Nat.one_le_two_pow
    have : d ≤ ((2 ^ i : Nat) : Int) := by
      rw [hd]
      split_ifs with h
      · omega
      · have h0 : 0 ≤ samplerate := by
          by_contra hneg
          have : samplerate.tdiv internalRate ≤ 0 := by
            rw [Int.tdiv_eq_ediv]
            have := Int.ediv_neg_of_neg_of_pos (not_le.mp hneg) hr
            split_ifs <;> try omega
            rw [Int.sign_eq_one_of_pos hr]
            omega
          omega
        rw [Int.tdiv_eq_ediv_of_nonneg h0]
        exact hx
    omega
  · rcases Nat.lt_or_ge p 3 with h | h
    · have : p = 0 ∨ p = 1 ∨ p = 2 := by omega
      rcases this with rfl | rfl | rfl <;> simp
    · have : 2 ^ 3 ≤ 2 ^ p := Nat.pow_le_pow_right (by omega) h
      omega

example : [decimationFactor 10 11025 44100, decimationFactor 10 11025 48000, decimationFactor 20 11025 96000, decimationFactor 20 11025 8000,
    decimationFactor 10 22050 44100, decimationFactor 100 11025 192000, decimationFactor 10 11025 33075] =
    [some 4, some 4, some 8, some 1, some 2, some 8, some 4] := by decide

/-! ## C43 -/

section histogram
variable {K : Type} [Field K]

/-- How many of the `w` labels from place `a` on are `v`. -/
def count (x : List Int) (a w v : Nat) : Nat := ((range w).filter (fun u => x[a + u]? = some (v : Int))).card

/-- The count divided by the sum of the squares of the counts of all labels. -/
def scaled (x : List Int) (m a w v : Nat) : K := (count x a w v : K) / ∑ j ∈ range m, (count x a w j : K) * (count x a w j : K)

theorem count_succ (x : List Int) (a w v : Nat) : count x a (w + 1) v = count x a w v + if x[a + w]? = some (v : Int) then 1 else 0 := by
  unfold count
  rw [range_add_one, filter_insert]
  split_ifs with h
  · rw [card_insert_of_notMem (by simp)]
  · rfl

/-- One histogram. -/
theorem histogram_ok (x : List Int) (m w i a : Nat) (hx : ∀ l ∈ x, 0 ≤ l ∧ l < m) (hw : a + w ≤ x.length) (hi : i < x.length)
    (f : Nat → Nat → K) (h : List K) (hh : HoldsF x.length m f h) :
    ∃ h', (do
      let h ← loop m (fun j h => wr h (i * m + j) 0) h
      let h ← loop w (fun u h => do
        let v ← x[a + u]?
        let c ← rdI h ((i * m : Nat) + v)
        wrI h ((i * m : Nat) + v) (c + 1)) h
      let norm ← loop m (fun j norm => do
        let c ← h[i * m + j]?
        pure (norm + c * c)) 0
      loop m (fun j h => do
        let c ← h[i * m + j]?
        wr h (i * m + j) (c / norm)) h) = some h' ∧
      HoldsF x.length m (fun r j => if r = i then scaled x m a w j else f r j) h' := by
  obtain ⟨h1, e1, g1⟩ := hh.fillRow hi (fun _ => (0 : K)) (fun j h => wr h (i * m + j) 0) (fun j ys hj _ => rfl)
  obtain ⟨h2, e2, g2⟩ := loop_inv w (fun u (h : List K) => do
      let v ← x[a + u]?
      let c ← rdI h ((i * m : Nat) + v)
      wrI h ((i * m : Nat) + v) (c + 1)) h1
    (fun u h => HoldsF x.length m (fun r j => if r = i then (count x a u j : K) else f r j) h)
    (g1.congr fun r j _ _ => by simp [count]) (by
      intro u ys hu hy
      obtain ⟨l, hl⟩ : ∃ l, x[a + u]? = some l := ⟨x[a + u], List.getElem?_eq_getElem (by omega)⟩
      obtain ⟨l0, l1⟩ := hx l (List.mem_of_getElem? hl)
      obtain ⟨v, rfl⟩ : ∃ v : Nat, l = (v : Int) := ⟨l.toNat, by omega⟩
      have hv : v < m := by omega
      obtain ⟨w1, w2⟩ := hy.wr hi hv ((count x a u v : K) + 1)
      refine ⟨_, ?_, w2.congr fun r j hr hj => ?_⟩
      · have hr := hy.rd hi hv
        try dsimp only at hr
        rw [if_pos rfl] at hr
        rw [bind_ok hl, ← Nat.cast_add, rdI_natCast, bind_ok hr, wrI_natCast]
        exact w1
      · try dsimp only
        by_cases er : r = i
        · subst er
          rw [if_pos rfl, if_pos rfl, count_succ, hl]
          by_cases ej : j = v
          · subst ej; simp
          · rw [if_neg (by simp [ej]), if_neg (by simp; omega)]; simp
        · simp [er])
  have e3 : loop m (fun j (norm : K) => do
      let c ← h2[i * m + j]?
      pure (norm + c * c)) 0 = some (∑ j ∈ range m, (count x a w j : K) * (count x a w j : K)) := by
    rw [loop_sum m _ (fun j => (count x a w j : K) * (count x a w j : K)) 0, zero_add]
    intro j acc hj
    have hr := g2.rd hi hj
    try dsimp only at hr
    rw [if_pos rfl] at hr
    rw [bind_ok hr]
    rfl
  obtain ⟨h4, e4, g4⟩ := g2.fillRow hi (fun j => scaled x m a w j) (fun j h => do
      let c ← h[i * m + j]?
      wr h (i * m + j) (c / ∑ j ∈ range m, (count x a w j : K) * (count x a w j : K))) (by
      intro j ys hj hy
      have hr := hy.rd hi hj
      try dsimp only at hr
      rw [if_neg (by omega), if_pos rfl] at hr
      rw [bind_ok hr]
      rfl)
  refine ⟨h4, ?_, g4.congr fun r j _ _ => ?_⟩
  · rw [bind_ok e1, bind_ok e2, bind_ok e3]
    exact e4
  · try dsimp only
    by_cases er : r = i <;> simp [er]

/-- The place the window of row `i` is centred on: `i`, but at least `half` from both ends. -/
def centre (n half i : Nat) : Nat := min (max half i) (n - half - 1)

/-- **C43** If every label is one of the `m` states and the window of `2 * (hlen / 2) + 1` labels (`hlen` if it is odd, as demanded) is not longer than the data,
every access is inside the array of `nx * m` values, and row `i`, for every place of the data, holds for each state how often it occurs in the window
centred on `i`, divided by the sum of the squares of these counts. For places too near the beginning or the end it is the first or last complete window. -/
theorem C43_createHistograms (x : List Int) (m hlen : Nat) (h : List K) (hx : ∀ l ∈ x, 0 ≤ l ∧ l < m)
    (hlen' : 2 * (hlen / 2) + 1 ≤ x.length) (hh : h.length = x.length * m) :
    ∃ h', createHistograms x m hlen h = some h' ∧ h'.length = x.length * m ∧
      ∀ i j : Nat, i < x.length → j < m →
        h'[i * m + j]? = some (scaled x m (centre x.length (hlen / 2) i - hlen / 2) (2 * (hlen / 2) + 1) j) := by
  set half := hlen / 2 with hhalf
  set nx := x.length with hnx
  obtain ⟨h1, e1, g1⟩ := fill_part (new := fun _ => (0 : K)) (f := fun i h => wr h i 0) (holds_of_length hh 0) (fun i ys _ _ => rfl)
  have g1' := holdsF_const g1
  obtain ⟨h2, e2, g2⟩ := loop_inv (nx - half - half) (fun n (h : List K) => do
      let i := half + n
      let h ← loop m (fun j h => wr h (i * m + j) 0) h
      let h ← loop (2 * half + 1) (fun u h => do
        let v ← x[i - half + u]?
        let c ← rdI h ((i * m : Nat) + v)
        wrI h ((i * m : Nat) + v) (c + 1)) h
      let norm ← loop m (fun j norm => do
        let c ← h[i * m + j]?
        pure (norm + c * c)) 0
      loop m (fun j h => do
        let c ← h[i * m + j]?
        wr h (i * m + j) (c / norm)) h) h1
    (fun n h => HoldsF nx m (fun r j => if half ≤ r ∧ r < half + n then (scaled x m (r - half) (2 * half + 1) j : K) else 0) h)
    (g1'.congr fun r j _ _ => by rw [if_neg (by omega)]) (by
      intro n ys hn hy
      obtain ⟨h', q1, q2⟩ := histogram_ok x m (2 * half + 1) (half + n) (half + n - half) hx (by omega) (by omega) _ ys hy
      refine ⟨h', q1, q2.congr fun r j _ _ => ?_⟩
      try dsimp only
      by_cases er : r = half + n
      · subst er; rw [if_pos rfl, if_pos (by omega)]
      · rw [if_neg er]
        by_cases hr : half ≤ r ∧ r < half + n
        · rw [if_pos hr, if_pos (by omega)]
        · rw [if_neg hr, if_neg (by omega)])
  obtain ⟨h3, e3, g3⟩ := loop_inv half (fun i (h : List K) => loop m (fun j h => do
      let v ← h[half * m + j]?
      wr h (i * m + j) v) h) h2
    (fun n h => HoldsF nx m (fun r j => if r < n then (scaled x m 0 (2 * half + 1) j : K) else
      if half ≤ r ∧ r < nx - half then (scaled x m (r - half) (2 * half + 1) j : K) else 0) h)
    (g2.congr fun r j _ _ => by
      rw [if_neg (show ¬ r < 0 by omega)]
      by_cases hr : half ≤ r ∧ r < nx - half
      · rw [if_pos hr, if_pos (by omega)]
      · rw [if_neg hr, if_neg (by omega)]) (by
      intro n ys hn hy
      obtain ⟨h', q1, q2⟩ := hy.fillRow (i := n) (by omega) (fun j => (scaled x m 0 (2 * half + 1) j : K)) (fun j h => do
          let v ← h[half * m + j]?
          wr h (n * m + j) v) (by
        intro j zs hj hz
        have hr := hz.rd (i := half) (by omega) hj
        try dsimp only at hr
        rw [if_neg (by omega), if_neg (by omega), if_pos (by omega), Nat.sub_self] at hr
        rw [bind_ok hr])
      refine ⟨h', q1, q2.congr fun r j _ _ => ?_⟩
      try dsimp only
      by_cases er : r = n
      · subst er; rw [if_pos rfl, if_pos (by omega)]
      · rw [if_neg er]
        by_cases hr : r < n
        · rw [if_pos hr, if_pos (by omega)]
        · rw [if_neg hr, if_neg (show ¬ r < n + 1 by omega)])
  obtain ⟨h4, e4, g4⟩ := loop_inv half (fun n (h : List K) => loop m (fun j h => do
      let v ← rdI h (((nx : Int) - (half : Nat) - 1) * m + j)
      wrI h (((nx : Int) - (half : Nat) + n) * m + j) v) h) h3
    (fun n h => HoldsF nx m (fun r j => if r < half then (scaled x m 0 (2 * half + 1) j : K) else
      if r < nx - half then (scaled x m (r - half) (2 * half + 1) j : K) else
      if r < nx - half + n then scaled x m (nx - half - 1 - half) (2 * half + 1) j else 0) h)
    (g3.congr fun r j _ _ => by
      by_cases h1 : r < half
      · rw [if_pos h1, if_pos h1]
      · rw [if_neg h1, if_neg h1]
        by_cases h2 : r < nx - half
        · rw [if_pos (by omega), if_pos h2]
        · rw [if_neg (by omega), if_neg h2, if_neg (by omega)]) (by
      intro n ys hn hy
      obtain ⟨h', q1, q2⟩ := hy.fillRow (i := nx - half + n) (by omega) (fun j => (scaled x m (nx - half - 1 - half) (2 * half + 1) j : K)) (fun j h => do
          let v ← rdI h (((nx : Int) - (half : Nat) - 1) * m + j)
          wrI h (((nx : Int) - (half : Nat) + n) * m + j) v) (by
        intro j zs hj hz
        have hr := hz.rd (i := nx - half - 1) (by omega) hj
        try dsimp only at hr
        rw [if_neg (by omega), if_neg (by omega), if_pos (by omega)] at hr
        have c1 : ((nx : Int) - (half : Nat) - 1) * m + j = (((nx - half - 1) * m + j : Nat) : Int) := by
          push_cast
          rw [Nat.cast_sub (by omega), Nat.cast_sub (by omega)]
          simp
        have c2 : ((nx : Int) - (half : Nat) + n) * m + j = (((nx - half + n) * m + j : Nat) : Int) := by
          push_cast
          rw [Nat.cast_sub (by omega)]
        rw [c1, c2, rdI_natCast, bind_ok hr, wrI_natCast])
      refine ⟨h', q1, q2.congr fun r j _ _ => ?_⟩
      try dsimp only
      by_cases er : r = nx - half + n
      · subst er; rw [if_pos rfl, if_neg (by omega), if_neg (by omega), if_pos (by omega)]
      · rw [if_neg er]
        by_cases h1 : r < half
        · rw [if_pos h1, if_pos h1]
        · rw [if_neg h1, if_neg h1]
          by_cases h2 : r < nx - half
          · rw [if_pos h2, if_pos h2]
          · rw [if_neg h2, if_neg h2]
            by_cases h3 : r < nx - half + n
            · rw [if_pos h3, if_pos (by omega)]
            · rw [if_neg h3, if_neg (by omega)])
  refine ⟨h4, ?_, g4.1, fun i j hi hj => ?_⟩
  · unfold createHistograms
    try dsimp only
    rw [← hnx, ← hhalf, bind_ok e1, bind_ok e2, bind_ok e3]
    exact e4
  · rw [g4.rd hi hj]
    congr 1
    try dsimp only
    unfold centre
    by_cases h1 : i < half
    · rw [if_pos h1]; congr 1; omega
    · rw [if_neg h1]
      by_cases h2 : i < nx - half
      · rw [if_pos h2]; congr 1; omega
      · rw [if_neg h2, if_pos (by omega)]; congr 1; omega

/-- **C43** The counts of a window add up to its length, so that the sum of squares divided by is not zero. -/
theorem C43_counts (x : List Int) (m a w : Nat) (hx : ∀ l ∈ x, 0 ≤ l ∧ l < m) (hw : a + w ≤ x.length) :
    ∑ j ∈ range m, count x a w j = w := by
  induction w with
  | zero => simp [count]
  | succ w ih =>
    simp only [count_succ]
    rw [sum_add_distrib, ih (by omega)]
    congr 1
    obtain ⟨l, hl⟩ : ∃ l, x[a + w]? = some l := ⟨x[a + w], List.getElem?_eq_getElem (by omega)⟩
    obtain ⟨l0, l1⟩ := hx l (List.mem_of_getElem? hl)
    obtain ⟨v, rfl⟩ : ∃ v : Nat, l = (v : Int) := ⟨l.toNat, by omega⟩
    rw [sum_eq_single v]
    · rw [if_pos hl]
    · intro j _ hj
      rw [if_neg]
      rw [hl]
      simp
      omega
    · intro hv
      exact absurd (mem_range.mpr (by omega)) hv

example : createHistograms (K := ℚ) [0, 0, 1, 1, 1] 2 3 (List.replicate 10 7) =
    some [2 / 5, 1 / 5, 2 / 5, 1 / 5, 1 / 5, 2 / 5, 0, 1 / 3, 0, 1 / 3] := by decide +kernel

/-- **C43** A label that is not one of the states is counted in the histogram of another place, or outside the array. -/
theorem C43_label_outside : createHistograms (K := ℚ) [0, 0, 2, 0, 0] 2 1 (List.replicate 10 7) ≠ none ∧
    createHistograms (K := ℚ) [0, 0, 0, 0, 2] 2 1 (List.replicate 10 7) = none := by decide +kernel

end histogram

/-! ## C46: cq2chroma -/

section chroma
variable {K : Type} [Field K] [LinearOrder K]

/-- **C46** `cq2chroma`: each class is the sum of the magnitudes of the bins of that class in the complete octaves. -/
theorem C46_cq2chroma (cq : List K) (ncoeff bins : Nat) (chroma : List K) (hcq : ncoeff ≤ cq.length) (hc : chroma.length = bins) :
    cq2chroma cq ncoeff bins chroma =
      some ((List.range bins).map (fun b => ∑ oct ∈ range (ncoeff / bins), |cq.getD (oct * bins + b) 0|)) := by
  obtain ⟨c1, e1, g1⟩ := fill_part (new := fun _ => (0 : K)) (f := fun b c => wr c b 0) (holds_of_length hc 0) (fun i ys _ _ => rfl)
  obtain ⟨c2, e2, g2⟩ := loop_inv (ncoeff / bins) (fun oct (chroma : List K) => loop bins (fun b chroma => do
      let c ← chroma[b]?
      let v ← cq[oct * bins + b]?
      wr chroma b (c + |v|)) chroma) c1
    (fun n c => Holds bins (fun b => ∑ oct ∈ range n, |cq.getD (oct * bins + b) 0|) c)
    (g1.congr fun b _ => by simp) (by
      intro n c hn hcn
      obtain ⟨c', q1, q2⟩ := fill_part (new := fun b => ∑ oct ∈ range (n + 1), |cq.getD (oct * bins + b) 0|) (f := fun b chroma => do
          let c ← chroma[b]?
          let v ← cq[n * bins + b]?
          wr chroma b (c + |v|)) hcn (by
        intro b ys hb hp
        have hlt := flat_lt hn hb
        have := Nat.div_mul_le_self ncoeff bins
        rw [bind_ok (hp.get hb), bind_ok (get_getD cq (n * bins + b) 0 (by omega)), sum_range_succ])
      exact ⟨c', q1, q2⟩)
  unfold cq2chroma
  try dsimp only
  rw [bind_ok e1, e2]
  congr 1
  refine Holds.ext g2 ⟨by simp, fun j hj => ?_⟩
  rw [List.getElem?_map, List.getElem?_range hj]
  rfl

/-- **C46** No bin of the complete octaves is left out or counted twice: the classes add up to the sum of all magnitudes. -/
theorem C46_total (cq : List K) (noct bins : Nat) (hcq : cq.length = noct * bins) :
    ∑ b ∈ range bins, ∑ oct ∈ range noct, |cq.getD (oct * bins + b) 0| = ∑ i ∈ range (noct * bins), |cq.getD i 0| := by
  rw [sum_comm]
  clear hcq
  induction noct with
  | zero => simp
  | succ n ih => rw [sum_range_succ, ih, Nat.succ_mul, sum_range_add]

example : cq2chroma (K := ℚ) [1, 2, 3, -4, 5, 6, 7] 7 3 [9, 9, 9] = some [5, 7, 9] := by decide +kernel

end chroma

end QM.Segment
