import Verif.TempoTrackV2.Beats
import Verif.TempoTrackV2.Props
import Verif.PolyFit.Gauss

/-!
# C36: the beats
-/

namespace QM.TempoTrackV2

section
variable {K : Type} [Field K] [LinearOrder K] [IsStrictOrderedRing K] [FloorRing K]

theorem trace_stable {n : Nat} {B : Nat → Int} (hB : ∀ i, i < n → B i ≤ i) :
    ∀ f g b, b < n → b < f → b < g → trace B f b = trace B g b := by
  intro f
  induction f with
  | zero => intro g b _ h; omega
  | succ f ih =>
    intro g b hb hf hg
    obtain ⟨g, rfl⟩ : ∃ g', g = g' + 1 := ⟨g - 1, by omega⟩
    rw [trace, trace]
    by_cases h : B b > 0 ∧ B b ≠ b
    · have := hB b hb
      rw [if_pos h, if_pos h, ih g _ (by omega) (by omega) (by omega)]
    · rw [if_neg h, if_neg h]

/-- C36, with the missing hypothesis. For every detection function of `n` frames, at least as many periods, none of them negative and the
last one less than `n + 1`, and any weights: the back tracking ends within `n` rounds, and the beats appended are strictly increasing
frame numbers below `n`. The hypothesis on the last period is not part of the interface: see `C36_violation`. -/
theorem C36_beats_partial (wt : K → Nat → Option K) (alpha : K) (df bp beats : List K) (hn : df ≠ []) (hl : df.length ≤ bp.length)
    (hp : ∀ p ∈ bp, 0 ≤ p) (hlast : ∀ p, bp.getLast? = some p → p < (df.length : K) + 1) :
    ∃ new : List Nat, (∀ fuel, df.length ≤ fuel → calculateBeats wt alpha fuel df bp beats = some (beats ++ new.map fun (x : Nat) => (x : K))) ∧
      new ≠ [] ∧ new.Pairwise (· < ·) ∧ ∀ b ∈ new, b < df.length := by
  have hpos : 0 < df.length := List.length_pos_iff.mpr hn
  have hbp : ∀ i, i < df.length → bp[i]? = some (bp.getD i 0) := fun i hi => get_getD bp i 0 (by omega)
  have hpp : ∀ i, i < df.length → 0 ≤ bp.getD i 0 := fun i hi => hp _ (List.mem_of_getElem? (hbp i hi))
  obtain ⟨cum, back, C, B, h1, h2, h3, h4⟩ := table_ok (wt := wt) (alpha := alpha) (holds_getD df 0) hbp hpp
  obtain ⟨last, hla⟩ : ∃ last, bp.getLast? = some last := ⟨_, List.getLast?_eq_some_getLast (fun h => by rw [h] at hl; simp at hl; exact hn hl)⟩
  obtain ⟨s, h5, h6⟩ := startPoint_ok hpos h2 hla (hp _ (List.mem_of_getLast? hla)) (hlast _ hla)
  have hB : ∀ i, i < df.length → B i ≤ i := fun i hi => by
    have := back_le (h4 i hi) (hpp i hi)
    have := near_nonneg (hpp i hi)
    omega
  have hstable := fun f b (hb : b < df.length) (hf : b < f) => trace_stable hB f df.length b hb hf hb
  obtain ⟨t1, t2, t3⟩ := trace_desc hB df.length s h6
  refine ⟨(trace B df.length s).reverse, fun fuel hf => ?_, ?_, ?_, fun b hb => ?_⟩
  · unfold calculateBeats
    rw [if_neg (by omega), bind_ok h1]
    dsimp only
    rw [bind_ok h5, bind_ok (trace_ok h3 hB fuel s [] h6 (by omega)), hstable fuel s h6 (by omega), List.append_nil]
    simp [Function.comp_def]
  · intro h
    rw [List.reverse_eq_nil_iff] at h
    rw [h] at t1; cases t1
  · rw [List.pairwise_reverse]; exact t2
  · have := t3 b (List.mem_reverse.mp hb)
    omega

/-- C36. Without data there are no beats. -/
theorem C36_empty (wt : K → Nat → Option K) (alpha : K) (fuel : Nat) (df bp beats : List K) (h : df = [] ∨ bp = []) :
    calculateBeats wt alpha fuel df bp beats = some beats := by
  unfold calculateBeats
  rw [if_pos]
  rcases h with h | h <;> simp [h]

/-- C36 fails in general: if the last period exceeds the number of frames by one or more, the search for the last beat reads before the
beginning of the score vector. -/
theorem C36_violation (wt : K → Nat → Option K) (alpha : K) (fuel : Nat) (df bp beats : List K) (hn : df ≠ []) (hl : df.length ≤ bp.length)
    (hp : ∀ p ∈ bp, 0 ≤ p) (last : K) (hla : bp.getLast? = some last) (hlast : (df.length : K) + 1 ≤ last) :
    calculateBeats wt alpha fuel df bp beats = none := by
  have hpos : 0 < df.length := List.length_pos_iff.mpr hn
  have hbp : ∀ i, i < df.length → bp[i]? = some (bp.getD i 0) := fun i hi => get_getD bp i 0 (by omega)
  have hpp : ∀ i, i < df.length → 0 ≤ bp.getD i 0 := fun i hi => hp _ (List.mem_of_getElem? (hbp i hi))
  obtain ⟨cum, back, C, B, h1, h2, h3, h4⟩ := table_ok (wt := wt) (alpha := alpha) (holds_getD df 0) hbp hpp
  have hi0 : toInt ((df.length : K) - last) < 0 := by
    unfold toInt
    rw [if_neg (by linarith)]
    have : ⌈(df.length : K) - last⌉ ≤ (-1 : Int) := Int.ceil_le.mpr (by push_cast; linarith)
    omega
  have hs : startPoint bp cum df.length = none := by
    unfold startPoint
    rw [bind_ok hla]
    dsimp only
    rw [PolyFit.loop_none_at _ 0 _ _ (by omega)]
    · rfl
    · intro s
      have : rdI cum (toInt ((df.length : K) - last) + ((0 : Nat) : Int)) = none := if_pos (by omega)
      rw [this]
      rfl
  have hb : bp.length ≠ 0 := by omega
  unfold calculateBeats
  rw [if_neg (by omega), bind_ok h1]
  dsimp only
  rw [hs]
  rfl

/-- Three frames and a constant period of five: the hypotheses of `C36_violation` hold. -/
example : calculateBeats (fun _ _ => some (1 : ℚ)) (9 / 10) 3 [1, 0, 1] [5, 5, 5] [] = none := by decide +kernel

/-- Eight frames with a period of two: the hypotheses of `C36_beats_partial` hold and the beats are these. -/
example : calculateBeats (fun _ _ => some (1 : ℚ)) (9 / 10) 8 [1, 0, 1, 0, 1, 0, 1, 0] [2, 2, 2, 2, 2, 2, 2, 2] [] = some [2, 4, 6] := by decide +kernel

/-! ## The beats are the best ones -/

/-- Frame `p` may hold the beat before frame `i`. -/
def Prev (P : Nat → K) (i p : Nat) : Prop := near (P i) ≤ (i : Int) - p ∧ (i : Int) - p ≤ far (P i)

/-- The score of beats, latest first: each beat adds its detection value, and what comes before it is weighted by the distance. -/
def total (w : Nat → Nat → K) (alpha : K) (X : Nat → K) : List Nat → K
  | [] => 0
  | [i] => (1 - alpha) * X i
  | i :: p :: rest => alpha * (w i p * total w alpha X (p :: rest)) + (1 - alpha) * X i

section
variable {wt : K → Nat → Option K} {alpha : K} {n : Nat} {X P C : Nat → K} {B : Nat → Int} {w : Nat → Nat → K}

/-- Weights by position: `w i p` is the weight of the step from `p` to `i`. -/
def Weights (wt : K → Nat → Option K) (P : Nat → K) (w : Nat → Nat → K) (n : Nat) : Prop :=
  ∀ i p, i < n → Prev P i p → 0 ≤ w i p ∧ wt (P i) ((p : Int) - i + far (P i)).toNat = some (w i p)

omit [IsStrictOrderedRing K] in
theorem cand_eq (hw : Weights wt P w n) {i p : Nat} (hi : i < n) (h : Prev P i p) (hnear : 1 ≤ near (P i)) :
    cand wt P C i ((p : Int) - i + far (P i)).toNat = some (w i p * C p) := by
  obtain ⟨h1, h2⟩ := h
  unfold cand
  rw [(hw i p hi ⟨h1, h2⟩).2]
  have e : (i : Int) - far (P i) + (((p : Int) - i + far (P i)).toNat : Int) = p := by omega
  rw [e, if_pos (by omega), Int.toNat_natCast, if_pos (by omega)]
  rfl

omit [IsStrictOrderedRing K] in
theorem row_ge (hw : Weights wt P w n) {i p : Nat} (hi : i < n) (h : Prev P i p) (hnear : 1 ≤ near (P i)) : w i p * C p ≤ getMaxVal (cands wt P C i) := by
  obtain ⟨h1, h2⟩ := h
  refine (maxOf _).2.1 _ ?_
  rw [← cand_eq (C := C) hw hi ⟨h1, h2⟩ hnear]
  exact List.mem_map_of_mem (List.mem_range.mpr (by omega))

omit [IsStrictOrderedRing K] [FloorRing K] in
theorem maxVal_nonneg (xs : List (Option K)) : 0 ≤ getMaxVal xs := by
  rcases (maxOf xs).1 with ⟨e, _⟩ | ⟨e, _⟩
  · exact e.ge
  · exact e.le

/-- No beats that end at `i` score more than the table. -/
theorem total_le (hw : Weights wt P w n) (ha : 0 ≤ alpha) (hnear : ∀ i, i < n → 1 ≤ near (P i)) (hrow : ∀ i, i < n → Row wt alpha X P C B i) :
    ∀ (l : List Nat) (i : Nat), i < n → (i :: l).IsChain (Prev P) → total w alpha X (i :: l) ≤ C i := by
  intro l
  induction l with
  | nil =>
    intro i hi _
    rw [(hrow i hi).1]
    show (1 - alpha) * X i ≤ _
    have := mul_nonneg ha (maxVal_nonneg (cands wt P C i))
    linarith
  | cons p l ih =>
    intro i hi hc
    rw [List.isChain_cons_cons] at hc
    have h1 := hnear i hi
    have hp : p < n := by have := hc.1.1; omega
    rw [(hrow i hi).1]
    show alpha * (w i p * total w alpha X (p :: l)) + (1 - alpha) * X i ≤ _
    have h2 := mul_le_mul_of_nonneg_left (ih p hp hc.2) (hw i p hi hc.1).1
    have h3 := row_ge (C := C) hw hi hc.1 h1
    have h4 := mul_le_mul_of_nonneg_left (le_trans h2 h3) ha
    linarith

theorem table_nonneg (ha : 0 ≤ alpha) (ha1 : alpha ≤ 1) (hX : ∀ i, i < n → 0 ≤ X i) (hrow : ∀ i, i < n → Row wt alpha X P C B i) {i : Nat} (hi : i < n) : 0 ≤ C i := by
  rw [(hrow i hi).1]
  have := mul_nonneg ha (maxVal_nonneg (cands wt P C i))
  have := mul_nonneg (sub_nonneg.mpr ha1) (hX i hi)
  linarith

/-- A back link leads to a candidate with the greatest value. -/
theorem back_value (hw : Weights wt P w n) (ha : 0 ≤ alpha) (ha1 : alpha ≤ 1) (hX : ∀ i, i < n → 0 ≤ X i) (hP : ∀ i, i < n → 1 ≤ P i)
    (hrow : ∀ i, i < n → Row wt alpha X P C B i) {i : Nat} (hi : i < n) :
    (B i < 0 ∧ C i = (1 - alpha) * X i) ∨ ∃ p : Nat, B i = p ∧ Prev P i p ∧ C i = alpha * (w i p * C p) + (1 - alpha) * X i := by
  have hp0 : (0 : K) ≤ P i := le_trans zero_le_one (hP i hi)
  have hnf := near_le_far hp0
  have hnear := near_pos (hP i hi)
  have hlen : (cands wt P C i).length = (far (P i) - near (P i) + 1).toNat := by simp [cands]
  have hlt : getMaxInd (cands wt P C i) < (cands wt P C i).length := maxInd_lt (by rw [← List.length_pos_iff, hlen]; omega)
  obtain ⟨hC, hB⟩ := hrow i hi
  have hget : (cands wt P C i)[getMaxInd (cands wt P C i)]? = some (cand wt P C i (getMaxInd (cands wt P C i))) := by
    rw [hlen] at hlt
    generalize getMaxInd (cands wt P C i) = k at hlt
    simp [cands, hlt]
  -- the value at the index found
  have hval : cand wt P C i (getMaxInd (cands wt P C i)) = some (getMaxVal (cands wt P C i)) := by
    rcases (maxOf (cands wt P C i)).1 with ⟨e1, e2⟩ | ⟨_, e2⟩
    · -- all candidates are zero
      rw [e1, e2]
      by_cases h0 : 0 ≤ (i : Int) - far (P i)
      · obtain ⟨p, hp⟩ : ∃ p : Nat, (i : Int) - far (P i) = p := ⟨((i : Int) - far (P i)).toNat, by omega⟩
        have hpr : Prev P i p := ⟨by omega, by omega⟩
        have hc := cand_eq (C := C) hw hi hpr hnear
        rw [show ((p : Int) - i + far (P i)).toNat = 0 by omega] at hc
        rw [hc]
        have h1 := row_ge (C := C) hw hi hpr hnear
        rw [e1] at h1
        have h2 := mul_nonneg (hw i p hi hpr).1 (table_nonneg ha ha1 hX hrow (show p < n by omega))
        rw [le_antisymm h1 h2]
      · unfold cand
        rw [if_neg (by simpa using h0)]
    · rw [hget] at e2
      exact Option.some.inj e2
  rw [hlen] at hlt
  by_cases h0 : B i < 0
  · left
    refine ⟨h0, ?_⟩
    unfold cand at hval
    rw [if_neg (by omega)] at hval
    rw [hC, ← Option.some.inj hval]
    ring
  · right
    obtain ⟨p, hp⟩ : ∃ p : Nat, B i = p := ⟨(B i).toNat, by omega⟩
    have hpr : Prev P i p := ⟨by omega, by omega⟩
    refine ⟨p, hp, hpr, ?_⟩
    have hc := cand_eq (C := C) hw hi hpr hnear
    rw [show ((p : Int) - i + far (P i)).toNat = getMaxInd (cands wt P C i) by omega, hval] at hc
    rw [hC, Option.some.inj hc]

/-- Following the back links, and adding frame 0 if the last link leads there, gives beats with the score of the table. -/
theorem trace_total (hw : Weights wt P w n) (ha : 0 ≤ alpha) (ha1 : alpha ≤ 1) (hX : ∀ i, i < n → 0 ≤ X i) (hP : ∀ i, i < n → 1 ≤ P i)
    (hrow : ∀ i, i < n → Row wt alpha X P C B i) (fuel : Nat) :
    ∀ b, b < n → b < fuel → ∃ ext : List Nat, (ext = [] ∨ ext = [0]) ∧ (trace B fuel b ++ ext).IsChain (Prev P) ∧ total w alpha X (trace B fuel b ++ ext) = C b := by
  induction fuel with
  | zero => intro b _ h; omega
  | succ f ih =>
    intro b hb hf
    have hback := back_le (hrow b hb) (le_trans zero_le_one (hP b hb))
    have hnear := near_pos (hP b hb)
    rw [trace]
    rcases back_value hw ha ha1 hX hP hrow hb with ⟨h0, hC⟩ | ⟨p, hp, hpr, hC⟩
    · rw [if_neg (by omega)]
      exact ⟨[], Or.inl rfl, by simp, hC.symm⟩
    · by_cases hp0 : p = 0
      · subst hp0
        rw [if_neg (by omega)]
        refine ⟨[0], Or.inr rfl, by simpa using hpr, ?_⟩
        show alpha * (w b 0 * ((1 - alpha) * X 0)) + (1 - alpha) * X b = C b
        have hn0 : 0 < n := by omega
        have h00 := back_le (hrow 0 hn0) (le_trans zero_le_one (hP 0 hn0))
        have h01 := near_pos (hP 0 hn0)
        rcases back_value hw ha ha1 hX hP hrow hn0 with ⟨_, hC0⟩ | ⟨p0, hp0, _, _⟩
        · rw [hC, hC0]
        · omega
      · rw [if_pos (by omega), hp, Int.toNat_natCast]
        obtain ⟨ext, e1, e2, e3⟩ := ih p (by omega) (by omega)
        obtain ⟨l, hl⟩ : ∃ l, trace B f p = p :: l := by
          cases f with
          | zero => exact ⟨[], rfl⟩
          | succ f =>
            rw [trace]
            split
            · exact ⟨_, rfl⟩
            · exact ⟨[], rfl⟩
        rw [hl] at e2 e3 ⊢
        refine ⟨ext, e1, ?_, ?_⟩
        · show (b :: p :: (l ++ ext)).IsChain (Prev P)
          rw [List.isChain_cons_cons]
          exact ⟨hpr, e2⟩
        · show alpha * (w b p * total w alpha X (p :: (l ++ ext))) + (1 - alpha) * X b = C b
          rw [hC]
          have : total w alpha X (p :: (l ++ ext)) = C p := e3
          rw [this]

/-- The last beat has the greatest score in the last period. -/
theorem startPoint_max {bp cum : List K} {l : Nat} (hc : Holds n C cum) (hl : bp.getLast? = some (l : K)) (h1 : 1 ≤ l) (h2 : l ≤ n) (hC : ∀ i, i < n → 0 ≤ C i) :
    ∃ s : Nat, startPoint bp cum n = some (s : Int) ∧ n - l ≤ s ∧ s < n ∧ ∀ i, n - l ≤ i → i < n → C i ≤ C s := by
  have hcast : (n : K) - (l : K) = ((n - l : Nat) : K) := by rw [Nat.cast_sub h2]
  have hi0 : toInt ((n : K) - (l : K)) = ((n - l : Nat) : Int) := by
    unfold toInt
    rw [hcast, if_pos (Nat.cast_nonneg _), Int.floor_natCast]
  obtain ⟨tmp, h3, h4⟩ := loop_inv (n := l) (f := fun k (tmp : List K) => do
    let v ← rdI cum (((n - l : Nat) : Int) + k)
    pure (tmp ++ [v])) (s := []) (P := fun k tmp => Holds k (fun j => C (n - l + j)) tmp)
    ⟨rfl, fun i hi => absurd hi (Nat.not_lt_zero i)⟩
    (by
      intro k tmp hk ht
      refine ⟨tmp ++ [C (n - l + k)], ?_, by simp [ht.1], fun j hj => ?_⟩
      · have : rdI cum (((n - l : Nat) : Int) + k) = some (C (n - l + k)) := by
          rw [← Int.natCast_add, rdI_natCast]
          exact hc.2 _ (by omega)
        rw [bind_ok this]
        rfl
      · by_cases c : j < k
        · rw [List.getElem?_append_left (by rw [ht.1]; exact c)]
          exact ht.2 j c
        · obtain rfl : j = k := by omega
          rw [List.getElem?_append_right (by rw [ht.1]), ht.1]
          simp)
  obtain ⟨m1, _, m3, _⟩ := max_holds h4 (by omega) (fun i hi => hC _ (by omega))
  refine ⟨n - l + getMaxInd (tmp.map some), ?_, by omega, by omega, fun i hi1 hi2 => ?_⟩
  · unfold startPoint
    rw [bind_ok hl]
    dsimp only
    rw [hi0, show ((n : Int) - ((n - l : Nat) : Int)).toNat = l by omega, bind_ok h3, add_sub_assoc, hcast, ← Nat.cast_add]
    have : toInt (((getMaxInd (tmp.map some) + (n - l) : Nat)) : K) = ((getMaxInd (tmp.map some) + (n - l) : Nat) : Int) := by
      unfold toInt
      rw [if_pos (Nat.cast_nonneg _), Int.floor_natCast]
    rw [this, if_neg (by omega), Nat.add_comm]
    rfl
  · have := m3 (i - (n - l)) (by omega)
    rwa [show n - l + (i - (n - l)) = i by omega] at this

end

/-- C36. For a detection function without negative values, periods of at least one frame of which the last is a whole number `l` no
greater than the number of frames, `alpha` between 0 and 1, and weights that are not negative: the beats found lie at allowed distances
and have the greatest score of all sequences of beats that end in the last `l` frames, if frame 0 counts as a beat whenever the first beat
found links to it. -/
theorem C36_best {wt : K → Nat → Option K} {alpha : K} {df bp : List K} (beats : List K) {w : Nat → Nat → K} {l : Nat} (hn : df ≠ []) (hl : df.length ≤ bp.length)
    (hp : ∀ p ∈ bp, 1 ≤ p) (hla : bp.getLast? = some (l : K)) (hln : l ≤ df.length) (hx : ∀ x ∈ df, 0 ≤ x) (ha : 0 ≤ alpha) (ha1 : alpha ≤ 1)
    (hw : Weights wt (fun i => bp.getD i 0) w df.length) :
    ∃ (new ext : List Nat) (last : Nat), calculateBeats wt alpha df.length df bp beats = some (beats ++ new.map fun (x : Nat) => (x : K)) ∧
      (ext = [] ∨ ext = [0]) ∧ (new.reverse ++ ext).IsChain (Prev (fun i => bp.getD i 0)) ∧ new.getLast? = some last ∧ df.length - l ≤ last ∧ last < df.length ∧
      ∀ i rest, df.length - l ≤ i → i < df.length → (i :: rest).IsChain (Prev (fun i => bp.getD i 0)) →
        total w alpha (fun i => df.getD i 0) (i :: rest) ≤ total w alpha (fun i => df.getD i 0) (new.reverse ++ ext) := by
  have hpos : 0 < df.length := List.length_pos_iff.mpr hn
  have hbp : ∀ i, i < df.length → bp[i]? = some (bp.getD i 0) := fun i hi => get_getD bp i 0 (by omega)
  have hP : ∀ i, i < df.length → 1 ≤ bp.getD i 0 := fun i hi => hp _ (List.mem_of_getElem? (hbp i hi))
  have hpp : ∀ i, i < df.length → 0 ≤ bp.getD i 0 := fun i hi => le_trans zero_le_one (hP i hi)
  have hX : ∀ i, i < df.length → 0 ≤ df.getD i 0 := fun i hi => hx _ (List.mem_of_getElem? (get_getD df i 0 hi))
  have hl1 : 1 ≤ l := by
    have := hp _ (List.mem_of_getLast? hla)
    exact_mod_cast this
  obtain ⟨cum, back, C, B, h1, h2, h3, h4⟩ := table_ok (wt := wt) (alpha := alpha) (holds_getD df 0) hbp hpp
  obtain ⟨s, h5, h6, h7, h8⟩ := startPoint_max h2 hla hl1 hln (fun i hi => table_nonneg ha ha1 hX h4 hi)
  have hB : ∀ i, i < df.length → B i ≤ i := fun i hi => by
    have := back_le (h4 i hi) (hpp i hi)
    have := near_nonneg (hpp i hi)
    omega
  obtain ⟨t1, _, _⟩ := trace_desc hB df.length s h7
  obtain ⟨ext, e1, e2, e3⟩ := trace_total hw ha ha1 hX hP h4 df.length s h7 h7
  refine ⟨(trace B df.length s).reverse, ext, s, ?_, e1, by rw [List.reverse_reverse]; exact e2, by rw [List.getLast?_reverse]; exact t1, h6, h7, fun i rest hi1 hi2 hc => ?_⟩
  · unfold calculateBeats
    rw [if_neg (by omega), bind_ok h1]
    dsimp only
    rw [bind_ok h5, bind_ok (trace_ok h3 hB df.length s [] h7 h7), List.append_nil]
    simp [Function.comp_def]
  · rw [List.reverse_reverse, e3]
    exact le_trans (total_le hw ha (fun i hi => near_pos (hP i hi)) h4 rest i hi2 hc) (h8 i hi1 hi2)

end

/-- C36. The weights of the code, for whole periods of at least one frame: a bell curve over the logarithm of the ratio of distance and
period. -/
theorem C36_weights (tightness : ℝ) (m : Nat → Nat) (hm : ∀ i, 1 ≤ m i) (n : Nat) :
    Weights (txwt tightness) (fun i => (m i : ℝ)) (fun i p => Real.exp (-(1 / 2) * (tightness * Real.log (((i : ℝ) - p) / m i)) ^ 2)) n := by
  intro i p _ ⟨h1, h2⟩
  dsimp only at h1 h2
  refine ⟨(Real.exp_pos _).le, ?_⟩
  have hfar : far ((m i : ℝ)) = 2 * m i := by
    unfold far
    rw [show (2 : ℝ) * (m i : ℝ) = ((2 * m i : Nat) : ℝ) by push_cast; rfl, Int.floor_natCast]
    push_cast; rfl
  have hnear : 1 ≤ near ((m i : ℝ)) := near_pos (by exact_mod_cast hm i)
  have hround : cround (2 * (m i : ℝ)) = 2 * m i := by
    unfold cround
    rw [if_pos (by positivity)]
    rw [Int.floor_eq_iff]
    push_cast
    constructor <;> linarith
  have hm0 : (0 : ℝ) < (m i : ℝ) := by exact_mod_cast hm i
  have hr : ((cround (2 * (m i : ℝ)) : Int) : ℝ) - (((p : Int) - i + far (m i : ℝ)).toNat : ℝ) = (i : ℝ) - p := by
    have : (((p : Int) - i + far (m i : ℝ)).toNat : Int) = (p : Int) - i + 2 * m i := by rw [hfar] at h2 ⊢; omega
    have h3 : ((((p : Int) - i + far (m i : ℝ)).toNat : Int) : ℝ) = (p : ℝ) - i + 2 * m i := by rw [this]; push_cast; ring
    rw [Int.cast_natCast] at h3
    rw [h3, hround]
    push_cast
    ring
  have hd : (0 : ℝ) < (i : ℝ) - p := by
    have : (p : Int) < i := by omega
    have : (p : ℝ) < i := by exact_mod_cast this
    linarith
  unfold txwt
  dsimp only
  rw [hr, if_neg hm0.ne', if_neg (not_lt.mpr (div_pos hd hm0).le), if_neg hd.ne']

/-- The two halves together: for every detection function, with the periods of `calculateBeatPeriod` in a vector that was zero and as long
as the detection function, the beat search stays inside its vectors and returns increasing frame numbers. -/
theorem C36_tracker (rate : ℝ) {inc : Int} (hinc : inc ≠ 0) (df : List ℝ) (hn : df ≠ []) {tempo : ℝ} (ht : tempo ≠ 0) (constrain : Bool) (alpha tightness : ℝ) :
    ∃ (bp tempi : List ℝ) (new : List Nat), calculateBeatPeriod Real.exp rate inc df (List.replicate df.length 0) [] tempo constrain = some (bp, tempi) ∧
      calculateBeats (txwt tightness) alpha df.length df bp [] = some (new.map fun (x : Nat) => (x : ℝ)) ∧
      new ≠ [] ∧ new.Pairwise (· < ·) ∧ ∀ b ∈ new, b < df.length := by
  have hpos : 0 < df.length := List.length_pos_iff.mpr hn
  by_cases hT : 2 ≤ frames df.length
  · obtain ⟨q, bp', h1, h2, h3, h4, _⟩ := C35_periods Real.exp_pos rate hinc df (List.replicate df.length 0) [] ht constrain hT (by simp)
    rw [List.length_replicate] at h2 h3
    have hmem : ∀ p ∈ bp', ∃ k : Nat, p = (k : ℝ) ∧ k < 108 := by
      intro p hp
      obtain ⟨m, hm, e⟩ := List.getElem_of_mem hp
      have := h3 m (by omega)
      rw [List.getElem?_eq_getElem hm, e, Option.some.injEq] at this
      exact ⟨_, this, (h4 _ (by omega)).2⟩
    obtain ⟨new, g1, g2⟩ := C36_beats_partial (txwt tightness) alpha df bp' [] hn (by omega)
      (fun p hp => by obtain ⟨k, rfl, _⟩ := hmem p hp; exact Nat.cast_nonneg k)
      (fun p hp => by
        obtain ⟨k, rfl, hk⟩ := hmem p (List.mem_of_getLast? hp)
        have := (frames_spec df.length 0).mp (by omega)
        have : k < df.length + 1 := by omega
        exact_mod_cast this)
    exact ⟨bp', _, new, h1, by rw [g1 _ (Nat.le_refl _)]; rfl, g2⟩
  · obtain ⟨new, g1, g2⟩ := C36_beats_partial (txwt tightness) alpha df (List.replicate df.length 0) [] hn (by simp)
      (fun p hp => (List.eq_of_mem_replicate hp).ge)
      (fun p hp => by
        rw [List.eq_of_mem_replicate (List.mem_of_getLast? hp)]
        positivity)
    refine ⟨_, _, new, C35_short Real.exp rate inc df _ [] ht constrain ?_, by rw [g1 _ (Nat.le_refl _)]; rfl, g2⟩
    have := (frames_spec df.length 1).not.mp (by omega)
    omega

end QM.TempoTrackV2
