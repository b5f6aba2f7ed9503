import Verif.Framer.Model
import Mathlib.Algebra.Ring.Int.Defs
import Mathlib.Tactic.Ring
import Mathlib.Tactic.Linarith

/-!
# C13: Framer
-/

namespace QM.Framer

variable {R : Type} [Zero R]

/-- Successive `getFrame` calls, each into a fresh caller buffer. -/
def frames (s : State R) : List (List R) → Option (State R × List (List R))
  | [] => some (s, [])
  | dst :: rest => do
    let (s, f) ← getFrame s dst
    let (s, fs) ← frames s rest
    some (s, f :: fs)

omit [Zero R] in
theorem copyIn_spec (src : List R) (n k : Nat) (dst : List R) (h1 : k + n ≤ src.length)
    (h2 : n ≤ dst.length) :
    ∃ dst', copyIn src n (k : Int) dst = some (((k + n : Nat) : Int), dst') ∧
      dst'.length = dst.length ∧
      ∀ j, dst'[j]? = if j < n then src[k + j]? else dst[j]? := by
  have := loop_inv n (fun i (p : Int × List R) => do
    let v ← rdI src p.1
    let dst ← wr p.2 i v
    some (p.1 + 1, dst)) ((k : Int), dst)
    (fun m p => p.1 = ((k + m : Nat) : Int) ∧ p.2.length = dst.length ∧
      ∀ j, p.2[j]? = if j < m then src[k + j]? else dst[j]?)
    ⟨by simp, rfl, by intro j; simp⟩ ?_
  · obtain ⟨⟨ix, d⟩, e1, e2, e3, e4⟩ := this
    simp only at e2 e3 e4
    subst e2
    exact ⟨d, e1, e3, e4⟩
  · rintro i ⟨ix, d⟩ hi ⟨p1, p2, p3⟩
    simp only at p1 p2 p3
    subst p1
    have hlt : k + i < src.length := by omega
    refine ⟨(((k + i : Nat) : Int) + 1, d.set i src[k + i]), ?_, ?_, by simpa using p2, ?_⟩
    · simp only [rdI_natCast, List.getElem?_eq_getElem hlt, Option.bind_eq_bind, Option.bind_some]
      rw [wr_some _ (by omega)]
      rfl
    · push_cast; ring
    · intro j
      rw [List.getElem?_set]
      by_cases hij : i = j
      · subst hij
        rw [if_pos rfl, if_pos (by omega), if_pos (by omega), List.getElem?_eq_getElem hlt]
      · rw [if_neg hij, p3 j]
        by_cases hj : j < i
        · rw [if_pos hj, if_pos (by omega)]
        · rw [if_neg hj, if_neg (by omega)]

/-- One frame, from any position inside the source (or exactly at its end). -/
theorem getFrame_spec (s : State R) (k : Nat) (hk : s.srcIndex = (k : Int)) (hin : k ≤ s.src.length)
    (dst : List R) (hd : dst.length = s.frameLength) :
    ∃ d, getFrame s dst = some ({ s with srcIndex := ((k + s.stepSize : Nat) : Int)
                                         framesRead := s.framesRead + 1 }, d) ∧
      d.length = s.frameLength ∧
      ∀ i, i < s.frameLength → d[i]? = some (s.src.getD (k + i) 0) := by
  unfold getFrame
  rw [hk]
  by_cases hc : (k : Int) + s.frameLength < s.src.length
  · rw [if_pos hc]
    obtain ⟨d, e1, e2, e3⟩ := copyIn_spec s.src s.frameLength k dst (by omega) (by omega)
    refine ⟨d, ?_, by omega, ?_⟩
    · simp only [e1, Option.bind_eq_bind, Option.bind_some]
      congr 3
      push_cast; ring
    · intro i hi
      have hlt : k + i < s.src.length := by omega
      rw [e3, if_pos hi]
      simp [hlt]
  · rw [if_neg hc]
    have hrem : ((s.src.length : Int) - (k : Int)).toNat = s.src.length - k := by omega
    obtain ⟨d, e1, e2, e3⟩ := copyIn_spec s.src (s.src.length - k) k dst (by omega) (by omega)
    have hz : ((s.frameLength : Int) - ((s.src.length : Int) - (k : Int))).toNat
        = s.frameLength - (s.src.length - k) := by omega
    obtain ⟨d2, f1, f2, f3⟩ := loop_inv (s.frameLength - (s.src.length - k))
      (fun i (dst : List R) => wrI dst ((s.src.length : Int) - (k : Int) + i) 0) d
      (fun m x => x.length = s.frameLength ∧ ∀ j, x[j]? =
        if s.src.length - k ≤ j ∧ j < s.src.length - k + m then some 0 else d[j]?)
      ⟨by omega, by intro j; rw [if_neg (by omega)]⟩ (by
        rintro i x hi ⟨p1, p2⟩
        have : (s.src.length : Int) - (k : Int) + i = ((s.src.length - k + i : Nat) : Int) := by omega
        refine ⟨x.set (s.src.length - k + i) 0, ?_, by simpa using p1, ?_⟩
        · show wrI x ((s.src.length : Int) - (k : Int) + i) 0 = _
          rw [this, wrI_natCast, wr_some _ (by omega)]
        · intro j
          rw [List.getElem?_set]
          by_cases hij : s.src.length - k + i = j
          · rw [if_pos hij, if_pos (by omega), if_pos (by omega)]
          · rw [if_neg hij, p2]
            by_cases hj : s.src.length - k ≤ j ∧ j < s.src.length - k + i
            · rw [if_pos hj, if_pos (by omega)]
            · rw [if_neg hj, if_neg (by omega)])
    refine ⟨d2, ?_, f2, ?_⟩
    · simp only [hrem, hz, e1, Option.bind_eq_bind, Option.bind_some, f1]
      congr 3
      push_cast; omega
    · intro i hi
      rw [f3, e3]
      by_cases hi2 : s.src.length - k ≤ i
      · rw [if_pos (by omega)]
        simp [List.getD_eq_getElem?_getD, List.getElem?_eq_none (show s.src.length ≤ k + i by omega)]
      · have hlt : k + i < s.src.length := by omega
        rw [if_neg (by omega), if_pos (by omega)]
        simp [hlt]

theorem frames_spec (dsts : List (List R)) (s : State R) (k : Nat)
    (hk : s.srcIndex = ((k * s.stepSize : Nat) : Int))
    (hd : ∀ d ∈ dsts, d.length = s.frameLength)
    (hin : dsts ≠ [] → (k + dsts.length - 1) * s.stepSize ≤ s.src.length) :
    ∃ s' fs, frames s dsts = some (s', fs) ∧ fs.length = dsts.length ∧
      ∀ j f, fs[j]? = some f → f.length = s.frameLength ∧
        ∀ i, i < s.frameLength → f[i]? = some (s.src.getD ((k + j) * s.stepSize + i) 0) := by
  induction dsts generalizing s k with
  | nil => exact ⟨s, [], rfl, rfl, by intro j f h; simp at h⟩
  | cons dst rest ih =>
    have hin' := hin (by simp)
    simp only [List.length_cons] at hin'
    have hle : k * s.stepSize ≤ s.src.length :=
      le_trans (Nat.mul_le_mul_right _ (by omega)) hin'
    obtain ⟨d, e1, e2, e3⟩ := getFrame_spec s (k * s.stepSize) hk hle dst (hd dst (by simp))
    obtain ⟨s2, fs, g1, g2, g3⟩ := ih { s with srcIndex := ((k * s.stepSize + s.stepSize : Nat) : Int)
                                               framesRead := s.framesRead + 1 } (k + 1)
      (by simp only; congr 1; ring) (fun d hd' => hd d (by simp [hd'])) (by
        intro _
        simp only
        refine le_trans (Nat.mul_le_mul_right _ ?_) hin'
        omega)
    refine ⟨s2, d :: fs, ?_, by simp [g2], ?_⟩
    · rw [frames, e1]
      simp only [Option.bind_eq_bind, Option.bind_some, g1]
    · intro j f hf
      cases j with
      | zero => simp at hf; subst hf; exact ⟨e2, by simpa using e3⟩
      | succ j =>
        have := g3 j f (by simpa using hf)
        rw [show k + 1 + j = k + (j + 1) by ring] at this
        exact this

/-- C13. A new framer has no frames, and asking it for one leaves the caller's buffer alone. -/
theorem C13_fresh (dst : List R) : (new : State R).maxFrames = 0 ∧ (getFrame (new : State R) dst).map Prod.snd = some dst :=
  ⟨rfl, rfl⟩

/-- C13. `getMaxNoFrames` is `⌈n / hop⌉` (clamped to `INT_MAX`): the least number of hops covering the
source. -/
theorem C13_maxFrames (s0 : State R) (len hop : Nat) (hhop : 0 < hop) (src : List R) :
    ∃ s, setSource (configure s0 len hop) src = some s ∧
      (src.length ≤ 2147483647 → src.length ≤ s.maxFrames * hop ∧
        ∀ m, src.length ≤ m * hop → s.maxFrames ≤ m) ∧
      s.maxFrames ≤ 2147483647 := by
  have hdm := Nat.div_add_mod src.length hop
  have hml := Nat.mod_lt src.length hhop
  have hstep : (configure s0 len hop).stepSize = hop := rfl
  unfold setSource
  simp only [hstep]
  rw [if_neg (by omega)]
  refine ⟨_, rfl, ?_, by simp only; split_ifs <;> omega⟩
  intro hmax
  have hq : src.length / hop ≤ src.length := Nat.div_le_self _ _
  simp only
  rw [mul_comm hop] at hdm
  have h1 : ∀ m, src.length ≤ m * hop → src.length / hop * hop < src.length → src.length / hop + 1 ≤ m := by
    intro m hm hlt
    have : src.length / hop * hop < m * hop := by omega
    exact Nat.lt_of_mul_lt_mul_right this
  have h2 : ∀ m, src.length ≤ m * hop → src.length / hop ≤ m := by
    intro m hm
    apply Nat.le_of_mul_le_mul_right _ hhop
    omega
  by_cases hc : src.length / hop * hop < src.length
  · rw [if_pos hc]
    have hb : src.length / hop + 1 ≤ src.length := by
      by_contra hcon
      have he : src.length / hop = src.length := by omega
      rw [he] at hc
      have := Nat.le_mul_of_pos_right src.length hhop
      omega
    rw [if_neg (by omega)]
    refine ⟨?_, fun m hm => h1 m hm hc⟩
    rw [add_mul, one_mul]; omega
  · rw [if_neg hc, if_neg (by omega)]
    exact ⟨by omega, h2⟩

/-- C13. After `configure` and `setSource`, any number of `getFrame` calls up to `getMaxNoFrames`
stays inside the source and the caller's buffers, and frame `k` is the samples
`k·hop .. k·hop + frameLength - 1`, zero past the end. -/
theorem C13_frames (s0 s : State R) (len hop : Nat) (hhop : 0 < hop) (src : List R)
    (hs : setSource (configure s0 len hop) src = some s) (dsts : List (List R))
    (hd : ∀ d ∈ dsts, d.length = len) (hn : dsts.length ≤ s.maxFrames) :
    ∃ s' fs, frames s dsts = some (s', fs) ∧ fs.length = dsts.length ∧
      ∀ k f, fs[k]? = some f → f.length = len ∧
        ∀ i, i < len → f[i]? = some (src.getD (k * hop + i) 0) := by
  have hdm := Nat.div_add_mod src.length hop
  unfold setSource at hs
  have hstep : (configure s0 len hop).stepSize = hop := rfl
  simp only [hstep] at hs
  rw [if_neg (by omega)] at hs
  cases hs
  have := frames_spec dsts { (configure s0 len hop) with src := src, maxFrames :=
    (if (if src.length / hop * hop < src.length then src.length / hop + 1 else src.length / hop)
      > 2147483647 then 2147483647 else
      (if src.length / hop * hop < src.length then src.length / hop + 1 else src.length / hop)) } 0
    (by simp [configure, resetCounters]) hd (by
      intro hne
      have hpos : 0 < dsts.length := List.length_pos_iff.mpr hne
      simp only at hn
      show (0 + dsts.length - 1) * hop ≤ src.length
      have hle : dsts.length - 1 ≤ src.length / hop := by
        split_ifs at hn <;> omega
      calc (0 + dsts.length - 1) * hop ≤ (src.length / hop) * hop :=
            Nat.mul_le_mul_right _ (by omega)
        _ ≤ src.length := Nat.div_mul_le_self _ _)
  obtain ⟨s', fs, g1, g2, g3⟩ := this
  refine ⟨s', fs, g1, g2, ?_⟩
  intro k f hf
  have := g3 k f hf
  rw [Nat.zero_add] at this
  exact this

/-- C13. With `hop ≤ frameLength` every source sample appears in one of the first `getMaxNoFrames`
frames. -/
theorem C13_coverage (len hop : Nat) (hhop : 0 < hop) (hle : hop ≤ len) (n maxFrames : Nat)
    (hmax : n ≤ maxFrames * hop) (m : Nat) (hm : m < n) :
    ∃ k i, k < maxFrames ∧ i < len ∧ k * hop + i = m := by
  refine ⟨m / hop, m % hop, ?_, ?_, ?_⟩
  · rw [Nat.div_lt_iff_lt_mul hhop]; omega
  · exact lt_of_lt_of_le (Nat.mod_lt _ hhop) hle
  · rw [mul_comm]; exact Nat.div_add_mod _ _

/-- C13, outside the documented use: asking for a frame that starts beyond the end of the source writes
before the caller's buffer. -/
theorem C13_past_end (s : State R) (k : Nat) (hk : s.srcIndex = (k : Int))
    (hout : s.src.length < k) (hlen : 0 < s.frameLength) (dst : List R) : getFrame s dst = none := by
  unfold getFrame
  rw [hk, if_neg (by omega)]
  have hrem : ((s.src.length : Int) - (k : Int)).toNat = 0 := by omega
  simp only [hrem]
  have : copyIn s.src 0 (k : Int) dst = some ((k : Int), dst) := rfl
  simp only [this, Option.bind_eq_bind, Option.bind_some]
  rw [loop_none_of_le (m := 1)]
  · rfl
  · omega
  · simp [loop, wrI]; omega

/-- C13. A hop of 0 divides by zero in `setSource`. -/
theorem C13_zero_hop (s0 : State R) (len : Nat) (src : List R) :
    setSource (configure s0 len 0) src = none := rfl

example : ∃ s, setSource (configure (new : State Int) 4 3) [1, 2, 3, 4, 5, 6, 7] = some s ∧
    s.maxFrames = 3 ∧ ∃ s', frames s [[9, 9, 9, 9], [9, 9, 9, 9], [9, 9, 9, 9]] =
      some (s', [[1, 2, 3, 4], [4, 5, 6, 7], [7, 0, 0, 0]]) :=
  ⟨_, rfl, rfl, _, rfl⟩

end QM.Framer
