import Verif.PeakPicking.Model
import Verif.DFProcess.Props
import Verif.PolyFit.Props
import Mathlib.Tactic.IntervalCases

namespace QM.PeakPicking

/-! ## Specification -/

/-- The squared error of the parabola `f + g t + h t²` against the five values of `v` around place `i`. -/
def error5 (v : List ℝ) (i : Nat) (f g h : ℝ) : ℝ :=
  (f - 2 * g + 4 * h - v.getD (i - 2) 0) ^ 2 + (f - g + h - v.getD (i - 1) 0) ^ 2 + (f - v.getD i 0) ^ 2 +
    (f + g + h - v.getD (i + 1) 0) ^ 2 + (f + 2 * g + 4 * h - v.getD (i + 2) 0) ^ 2

/-- `(f, g, h)` is the parabola that fits the five values around place `i` best. -/
def BestFit (v : List ℝ) (i : Nat) (f g h : ℝ) : Prop := ∀ f' g' h', error5 v i f g h ≤ error5 v i f' g' h'

/-- Place `i` of `v` is an onset for the thresholds `a` and `c`: at least two places from both ends, higher than both neighbours and
than 0, and the best parabola through the five values around it is sharp enough or high enough. -/
def IsOnset (a c : ℝ) (v : List ℝ) (i : Nat) : Prop :=
  2 ≤ i ∧ i + 2 < v.length ∧ v.getD (i - 1) 0 < v.getD i 0 ∧ v.getD (i + 1) 0 < v.getD i 0 ∧ 0 < v.getD i 0 ∧
    ∃ f g h, BestFit v i f g h ∧ (h < -a ∨ c < f)

/-! ## Proofs -/

theorem rd (v : List ℝ) (i : Nat) (h : i < v.length) : v[i]? = some (v.getD i 0) := by
  simp [List.getElem?_eq_getElem h]

theorem candidates_ok (v : List ℝ) : ∃ l, candidates v = some l ∧ l.Pairwise (· < ·) ∧
    ∀ i, i ∈ l ↔ 2 ≤ i ∧ i + 2 < v.length ∧ v.getD (i - 1) 0 < v.getD i 0 ∧ v.getD (i + 1) 0 < v.getD i 0 ∧ 0 < v.getD i 0 := by
  obtain ⟨l, h1, h2, h3⟩ := loop_inv (n := v.length - 4) (s := []) (f := fun t (out : List Nat) => do
      let i := t + 2
      let x ← v[i]?
      let p ← v[i - 1]?
      let q ← v[i + 1]?
      if x > p ∧ x > q ∧ x > 0 then pure (out ++ [i]) else pure out)
    (P := fun t l => l.Pairwise (· < ·) ∧ ∀ i, i ∈ l ↔ 2 ≤ i ∧ i < t + 2 ∧ v.getD (i - 1) 0 < v.getD i 0 ∧
      v.getD (i + 1) 0 < v.getD i 0 ∧ 0 < v.getD i 0)
    ⟨List.Pairwise.nil, fun i => ⟨fun h => absurd h (by simp), fun h => by omega⟩⟩
    (by
      rintro t l ht ⟨h1, h2⟩
      simp only [rd v (t + 2) (by omega), rd v (t + 2 - 1) (by omega), rd v (t + 2 + 1) (by omega), Option.bind_eq_bind,
        Option.bind_some]
      by_cases hc : v.getD (t + 2) 0 > v.getD (t + 2 - 1) 0 ∧ v.getD (t + 2) 0 > v.getD (t + 2 + 1) 0 ∧ v.getD (t + 2) 0 > 0
      · rw [if_pos hc]
        refine ⟨_, rfl, ?_, fun i => ?_⟩
        · rw [List.pairwise_append]
          refine ⟨h1, List.pairwise_singleton _ _, fun a ha b hb => ?_⟩
          rw [List.mem_singleton] at hb
          have := ((h2 a).mp ha).2.1
          omega
        · rw [List.mem_append, List.mem_singleton, h2]
          constructor
          · rintro (⟨a, b, c⟩ | rfl)
            · exact ⟨a, by omega, c⟩
            · exact ⟨by omega, by omega, hc⟩
          · rintro ⟨a, b, c⟩
            by_cases he : i = t + 2
            · exact Or.inr he
            · exact Or.inl ⟨a, by omega, c⟩
      · rw [if_neg hc]
        refine ⟨_, rfl, h1, fun i => ?_⟩
        rw [h2]
        constructor
        · rintro ⟨a, b, c⟩; exact ⟨a, by omega, c⟩
        · rintro ⟨a, b, c⟩
          refine ⟨a, ?_, c⟩
          by_contra hh
          have he : i = t + 2 := by omega
          subst he
          exact hc c)
  refine ⟨l, h1, h2, fun i => ?_⟩
  rw [h3]
  constructor
  · rintro ⟨a, b, c⟩; exact ⟨a, by omega, c⟩
  · rintro ⟨a, b, c⟩; exact ⟨a, by omega, c⟩

theorem residual_eq (v : List ℝ) (i : Nat) (f g h : ℝ) :
    PolyFit.residual [-2, -1, 0, 1, 2] [v.getD (i - 2) 0, v.getD (i - 1) 0, v.getD i 0, v.getD (i + 1) 0, v.getD (i + 2) 0] [f, g, h] =
      error5 v i f g h := by
  simp [PolyFit.residual, PolyFit.evalPoly, error5, Finset.sum_range_succ]
  ring

theorem card_points : ([-2, -1, 0, 1, 2] : List ℝ).toFinset.card = 5 := by
  rw [List.toFinset_card_of_nodup]
  · rfl
  · norm_num

/-- The fit finds the best parabola, which is unique. -/
theorem fit_ok (v : List ℝ) (i : Nat) (coefs : List ℝ) (hc : coefs.length = 3) :
    ∃ f g h, (PolyFit.polyFit2 [-2, -1, 0, 1, 2]
      [v.getD (i - 2) 0, v.getD (i - 1) 0, v.getD i 0, v.getD (i + 1) 0, v.getD (i + 2) 0] coefs).coefs = [f, g, h] ∧
      (PolyFit.polyFit2 [-2, -1, 0, 1, 2]
      [v.getD (i - 2) 0, v.getD (i - 1) 0, v.getD i 0, v.getD (i + 1) 0, v.getD (i + 2) 0] coefs).nan = false ∧
      BestFit v i f g h ∧ ∀ f' g' h', BestFit v i f' g' h' → f' = f ∧ g' = g ∧ h' = h := by
  have ha : PolyFit.Args [-2, -1, 0, 1, 2]
      [v.getD (i - 2) 0, v.getD (i - 1) 0, v.getD i 0, v.getD (i + 1) 0, v.getD (i + 2) 0] coefs := ⟨by omega, by simp, by simp⟩
  have hr : (PolyFit.polyFit2 [-2, -1, 0, 1, 2]
      [v.getD (i - 2) 0, v.getD (i - 1) 0, v.getD i 0, v.getD (i + 1) 0, v.getD (i + 2) 0] coefs).ret ≠ -1 := by
    intro hh
    have := (PolyFit.C40_failure _ _ coefs ha).1.mp hh
    rw [card_points, hc] at this
    omega
  obtain ⟨h1, h2, h3, h4⟩ := PolyFit.C40_least_squares _ _ coefs ha hr
  rw [hc] at h1
  generalize hq : (PolyFit.polyFit2 [-2, -1, 0, 1, 2]
      [v.getD (i - 2) 0, v.getD (i - 1) 0, v.getD i 0, v.getD (i + 1) 0, v.getD (i + 2) 0] coefs) = q at *
  obtain ⟨f, g, h, e⟩ := List.length_eq_three.mp h1
  have hb : BestFit v i f g h := by
    intro f' g' h'
    have := h3 [f', g', h'] (by rw [hc]; rfl)
    rw [e, residual_eq, residual_eq] at this
    exact this
  refine ⟨f, g, h, e, h2, hb, fun f' g' h' hb' => ?_⟩
  have := h4 [f', g', h'] (by rw [hc]; rfl) (by rw [e, residual_eq, residual_eq]; exact le_antisymm (hb' f g h) (hb f' g' h'))
  rw [e] at this
  simpa using this

theorem fitStep_ok (a c : ℝ) (v : List ℝ) (poly : List ℝ) (out : List Nat) (i : Nat) (h1 : 2 ≤ i) (h2 : i + 2 < v.length)
    (hp : poly.length = 3) :
    ∃ poly', poly'.length = 3 ∧
      (((∃ f g h, BestFit v i f g h ∧ (h < -a ∨ c < f)) ∧ fitStep a c v (poly, out) i = some (poly', out ++ [i])) ∨
      ((¬ ∃ f g h, BestFit v i f g h ∧ (h < -a ∨ c < f)) ∧ fitStep a c v (poly, out) i = some (poly', out))) := by
  have hfit : loop 5 (fun k (fit : List ℝ) => do
      let x ← rdI v ((i : Int) + ((k : Int) - 2))
      pure (fit ++ [x])) [] =
      some [v.getD (i - 2) 0, v.getD (i - 1) 0, v.getD i 0, v.getD (i + 1) 0, v.getD (i + 2) 0] := by
    have e : ∀ k : Nat, k < 5 → rdI v ((i : Int) + ((k : Int) - 2)) = some (v.getD (i + k - 2) 0) := by
      intro k hk
      rw [show (i : Int) + ((k : Int) - 2) = ((i + k - 2 : Nat) : Int) by omega, rdI_natCast, rd v _ (by omega)]
    simp only [loop, e 0 (by omega), e 1 (by omega), e 2 (by omega), e 3 (by omega), e 4 (by omega), Option.bind_eq_bind,
      Option.bind_some, Option.pure_def, List.nil_append, List.cons_append]
    rfl
  obtain ⟨f, g, h, e1, e2, e3, e4⟩ := fit_ok v i poly hp
  have hiff : (∃ f g h, BestFit v i f g h ∧ (h < -a ∨ c < f)) ↔ (h < -a ∨ f > c) := by
    constructor
    · rintro ⟨f', g', h', b1, b2⟩
      obtain ⟨rfl, rfl, rfl⟩ := e4 f' g' h' b1
      exact b2
    · intro b; exact ⟨f, g, h, e3, b⟩
  refine ⟨[f, g, h], rfl, ?_⟩
  rw [hiff]
  have hstep : fitStep a c v (poly, out) i = if h < -a ∨ f > c then some ([f, g, h], out ++ [i]) else some ([f, g, h], out) := by
    unfold fitStep
    rw [hfit]
    simp only [Option.bind_eq_bind, Option.bind_some, e1, e2]
    rfl
  rw [hstep]
  by_cases hh : h < -a ∨ f > c
  · exact Or.inl ⟨hh, by rw [if_pos hh]⟩
  · exact Or.inr ⟨hh, by rw [if_neg hh]⟩

theorem fits_ok (a c : ℝ) (v : List ℝ) (cand : List Nat) (hnd : cand.Nodup) : ∀ (poly : List ℝ) (out : List Nat), poly.length = 3 →
    (∀ i ∈ cand, 2 ≤ i ∧ i + 2 < v.length) → ∃ poly' l, cand.foldlM (fitStep a c v) (poly, out) = some (poly', out ++ l) ∧
      l.Sublist cand ∧ ∀ i ∈ cand, i ∈ l ↔ ∃ f g h, BestFit v i f g h ∧ (h < -a ∨ c < f) := by
  induction cand with
  | nil => exact fun poly out _ _ => ⟨poly, [], by simp, List.Sublist.refl _, fun i hi => absurd hi (by simp)⟩
  | cons m cand ih =>
    intro poly out hp hr
    obtain ⟨poly1, q1, q2⟩ := fitStep_ok a c v poly out m (hr m (by simp)).1 (hr m (by simp)).2 hp
    have hr' : ∀ i ∈ cand, 2 ≤ i ∧ i + 2 < v.length := fun i hi => hr i (by simp [hi])
    have hnd' := (List.nodup_cons.mp hnd)
    rcases q2 with ⟨q2, q3⟩ | ⟨q2, q3⟩
    · obtain ⟨poly2, l, e1, e2, e3⟩ := ih hnd'.2 poly1 (out ++ [m]) q1 hr'
      refine ⟨poly2, m :: l, ?_, e2.cons_cons m, fun i hi => ?_⟩
      · rw [List.foldlM_cons, q3]
        simpa using e1
      · rcases List.mem_cons.mp hi with rfl | hi
        · simp [q2]
        · rw [← e3 i hi, List.mem_cons]
          constructor
          · intro h
            rcases h with h | h
            · exact absurd (h ▸ hi) hnd'.1
            · exact h
          · exact Or.inr
    · obtain ⟨poly2, l, e1, e2, e3⟩ := ih hnd'.2 poly1 out q1 hr'
      refine ⟨poly2, l, ?_, e2.cons m, fun i hi => ?_⟩
      · rw [List.foldlM_cons, q3]
        simpa using e1
      · rcases List.mem_cons.mp hi with rfl | hi
        · exact ⟨fun h => absurd (e2.subset h) hnd'.1, fun h => absurd h q2⟩
        · exact e3 i hi

/-! ## C29 -/

/-- The peaks: the positions appended to the list are, in increasing order, exactly the onsets of the smoothed function. -/
theorem C29_quadEval (a c : ℝ) (v : List ℝ) (onsets : List Nat) :
    ∃ l, quadEval a c v onsets = some (onsets ++ l) ∧ l.Pairwise (· < ·) ∧ ∀ i, i ∈ l ↔ IsOnset a c v i := by
  obtain ⟨cand, h1, h2, h3⟩ := candidates_ok v
  obtain ⟨poly, l, e1, e2, e3⟩ := fits_ok a c v cand (h2.imp (fun h => Nat.ne_of_lt h)) [0, 0, 0] onsets rfl
    (fun i hi => ⟨((h3 i).mp hi).1, ((h3 i).mp hi).2.1⟩)
  refine ⟨l, ?_, h2.sublist e2, fun i => ?_⟩
  · unfold quadEval
    simp [h1, e1]
  · unfold IsOnset
    constructor
    · intro hi
      have hc := e2.subset hi
      obtain ⟨a1, a2, a3, a4, a5⟩ := (h3 i).mp hc
      exact ⟨a1, a2, a3, a4, a5, (e3 i hc).mp hi⟩
    · rintro ⟨a1, a2, a3, a4, a5, a6⟩
      exact (e3 i ((h3 i).mpr ⟨a1, a2, a3, a4, a5⟩)).mpr a6

/-- A parabola through the five values is the best fit: at the top of `[0, 3, 4, 3, 0]` it is `4 - t²`, so the peak is reported for the
curvature threshold 1/2, whatever the height threshold. -/
example (c : ℝ) : IsOnset (1 / 2) c [0, 3, 4, 3, 0] 2 := by
  refine ⟨by simp, by simp, by norm_num, by norm_num, by norm_num, 4, 0, -1, fun f g h => ?_, Or.inl (by norm_num)⟩
  have : error5 [0, 3, 4, 3, 0] 2 4 0 (-1) = 0 := by norm_num [error5]
  rw [this]
  unfold error5
  positivity

/-- Fewer than four values: nothing is read and nothing changes. -/
theorem C29_short (p : PP) (src : List ℝ) (len : Nat) (onsets : List Nat) (h : len < 4) :
    process p src len onsets = some (p, src, onsets) := by
  unfold process
  rw [if_pos h]

/-- `process` for any picker: whenever smoothing succeeds and the block has the configured length, the input is replaced by the smoothed
function and exactly its onsets are appended, in increasing order. -/
theorem C29_process (p : PP) (src : List ℝ) (len : Nat) (onsets : List Nat) (d : DFProcess.DFP) (work : List ℝ) (h4 : 4 ≤ len)
    (hs : src.length = len) (hw : work.length = len) (hd : DFProcess.process p.dfp src p.work = some (d, work)) :
    ∃ l, process p src len onsets = some ({ p with dfp := d, work := work }, work, onsets ++ l) ∧ l.Pairwise (· < ·) ∧
      ∀ i, i ∈ l ↔ IsOnset p.a p.c work i := by
  have hm : loop len (fun i (m : List ℝ) => do
      let v ← work[i]?
      pure (m ++ [v])) [] = some work := by
    obtain ⟨m, e1, e2⟩ := loop_inv (n := len) (s := []) (f := fun i (m : List ℝ) => do
        let v ← work[i]?
        pure (m ++ [v])) (P := fun i m => m = work.take i) (by simp)
      (by
        rintro i m hi rfl
        refine ⟨_, by rw [List.getElem?_eq_getElem (show i < work.length by omega)]; rfl, ?_⟩
        rw [List.take_add_one, List.getElem?_eq_getElem (show i < work.length by omega)]
        rfl)
    rw [e1, e2, List.take_of_length_le (by omega)]
  have hc : loop work.length (fun b (src : List ℝ) => do
      let v ← work[b]?
      wr src b v) src = some work := by
    obtain ⟨xs, e1, e2, e3, _⟩ := fill_ok work.length (fun b (src : List ℝ) => do
        let v ← work[b]?
        wr src b v) (fun b => work.getD b 0) src (by omega)
      (by
        intro i b hi hb _ _
        rw [rd work i hi]
        exact wr_some _ (by omega))
    rw [e1]
    congr 1
    apply List.ext_getElem?
    intro i
    by_cases hi : i < work.length
    · rw [e3 i hi, rd work i hi]
    · rw [List.getElem?_eq_none (by omega), List.getElem?_eq_none (by omega)]
  obtain ⟨l, q1, q2, q3⟩ := C29_quadEval p.a p.c work onsets
  refine ⟨l, ?_, q2, q3⟩
  unfold process
  rw [if_neg (by omega), hd]
  simp only [Option.bind_eq_bind, Option.bind_some]
  simp only [Option.bind_eq_bind] at hm hc
  rw [hm]
  simp only [Option.bind_some, q1]
  rw [hc]
  rfl

/-- A first call on a block that is not silent and longer than the threshold window reaches: everything is defined, the source is
replaced by the smoothed function described in C56, and exactly its onsets are appended. -/
theorem C29_first_call_partial (len pre post alpha : Nat) (delta qa qb qc : ℝ) (bs as : List ℝ) (u : ℝ) (p : PP) (src : List ℝ)
    (onsets : List Nat) (hm : make len pre post alpha delta qa qb qc bs as u = some p) (hord : as.length ≠ 1) (ha : 0 < alpha)
    (h4 : 4 ≤ len) (hs : src.length = len) (hnz : ∃ x ∈ src, x ≠ 0) (h : post + pre < len ∨ post = 0) :
    ∃ p' v l lo norm f' filt, process p src len onsets = some (p', v, onsets ++ l) ∧ v.length = len ∧
      lo ∈ src ∧ (∀ x ∈ src, lo ≤ x) ∧ MathReal.getAlphaNorm src alpha = some norm ∧ 0 < norm ∧
      Filter.filtfilt p.dfp.filter (src.map (fun x => (x - lo) / norm)) = some (f', filt) ∧
      (∀ i : Nat, i < len → ∃ x m, filt[i]? = some x ∧ DFProcess.IsMedian (DFProcess.around pre post filt i) m ∧
        v[i]? = some (x - m - delta)) ∧
      l.Pairwise (· < ·) ∧ ∀ i, i ∈ l ↔ IsOnset qa qc v i := by
  unfold make at hm
  cases hd : DFProcess.make len pre post alpha false delta bs as u with
  | none => rw [hd] at hm; cases hm
  | some d =>
    rw [hd] at hm
    simp only [Option.bind_eq_bind, Option.bind_some, Option.pure_def, Option.some.injEq] at hm
    subst hm
    obtain ⟨d', v, lo, norm, fs, f', filt, e1, e2, e3, e4, e5, rfl, e7, e8, e9, e10⟩ := DFProcess.C56_process_partial len pre post alpha
      false delta bs as u d src (List.replicate len 0) hd hord ha (by omega) hs hnz (by simp) h
    rw [List.length_replicate] at e9
    obtain ⟨l, q1, q2, q3⟩ := C29_process ⟨d, qa, qb, qc, List.replicate len 0⟩ src len onsets d' v h4 hs e9 e1
    exact ⟨_, v, l, lo, norm, f', filt, q1, e9, e2, e3, e4, e5, e7, by simpa using e10, q2, q3⟩

/-- A block longer than three values but shorter than the threshold window reads past its end. -/
theorem C29_short_block_violation (p : PP) (src : List ℝ) (onsets : List Nat) (h4 : 4 ≤ src.length) (hl : p.dfp.len = src.length)
    (h1 : 0 < p.dfp.pre) (h2 : 0 < p.dfp.post) (h : src.length < p.dfp.post + p.dfp.pre) :
    process p src src.length onsets = none := by
  unfold process
  rw [if_neg (by omega)]
  have : DFProcess.process p.dfp src p.work = none := by
    unfold DFProcess.process
    rw [if_neg (by omega)]
    cases DFProcess.removeDCNormalize p.dfp.len p.dfp.alpha src p.dfp.filtSrc with
    | none => rfl
    | some fs =>
      simp only [Option.bind_eq_bind, Option.bind_some]
      cases hf : Filter.filtfilt p.dfp.filter (fs.take p.dfp.len) with
      | none => rfl
      | some r =>
        have hlen : r.2.length ≤ p.dfp.len := by
          unfold Filter.filtfilt at hf
          split at hf
          · cases hf; simp
          · simp only [Option.bind_eq_bind, Option.bind_eq_some_iff, Option.some.injEq] at hf
            obtain ⟨_, _, _, _, _, _, rfl⟩ := hf
            simp only [List.length_take]
            omega
        simp only [Option.bind_some]
        rw [DFProcess.C56_short_block_violation _ _ _ _ _ _ _ hlen (by omega) h1 h2 (by omega)]
        rfl
  rw [this]
  rfl

end QM.PeakPicking
