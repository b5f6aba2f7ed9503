import Verif.Nan.Agree
import Verif.Nan.Props

/-! C98: on numbers the models with NaN compute what the models of the other claims compute. -/

namespace QM.Nan

/-- **C98** Given numbers, the filters with NaN are the filters of C10 to C12: the same construction, the same outputs and the same memory. -/
theorem C98_filter_agrees (b a : List ℝ) :
    (newFilter b a = match (Filter.new b a) with | .ok s => some (liftF s) | .error _ => none) ∧
    ∀ s : Filter.State ℝ, resetFilter (liftF s) = liftF (Filter.reset s) ∧
      (∀ xs : List ℝ, filter (liftF s) (xs.map .val) = (Filter.process s xs).map fun r => (liftF r.1, r.2.map .val)) ∧
      ∀ src : List ℝ, filtfilt (liftF s) (src.map .val) = (Filter.filtfilt s src).map fun r => (liftF r.1, r.2.map .val) := by
  refine ⟨?_, fun s => ⟨reset_val s, fun xs => filter_val xs s, fun src => filtfilt_val s src⟩⟩
  unfold newFilter Filter.new
  by_cases ha : a = []
  · rw [if_pos ha, if_pos ha]
    by_cases hb : b = []
    · rw [if_pos hb, if_pos hb]
    · rw [if_neg hb, if_neg hb]
      simp [liftF, ha, Num.zero_eq]
  · rw [if_neg ha, if_neg ha]
    by_cases hl : a.length ≠ b.length
    · rw [if_pos hl, if_pos hl]
    · rw [if_neg hl, if_neg hl]
      simp [liftF, Num.zero_eq]

/-- **C98** Given numbers, the decimator with NaN is the decimator of C14. -/
theorem C98_decimator_agrees (inLength factor : Nat) :
    newDecimator inLength factor = (Decimator.new inLength factor).map liftD ∧
    ∀ (s : Decimator.State ℝ) (src dst : List ℝ), resetDecimator (liftD s) = liftD (Decimator.resetFilter s) ∧
      decimate (liftD s) (src.map .val) (dst.map .val) = (Decimator.process s src dst).map fun r => (liftD r.1, r.2.map .val) := by
  refine ⟨?_, fun s src dst => ⟨rfl, decimate_val s src dst⟩⟩
  unfold newDecimator Decimator.new
  split
  · rfl
  · simp [resetDecimator, Decimator.resetFilter, liftD, Num.zero_eq]

/-- **C98** Given numbers, the key detector with NaN is that of C30: the same key for every frame and the same state after it. -/
theorem C98_key_agrees (s : KeyMode.KM) (hcs : 0 < s.cs) (hm : s.mean.length = 36) (frame : List ℝ) :
    processKey (liftK s) (frame.map .val) = (KeyMode.process s frame).map fun r => (liftK r.1, r.2) := processKey_val s hcs hm frame

/-- **C98** New key detectors agree as well. -/
theorem C98_key_new (cs ms : Nat) (u : ℝ) : ∃ s, KeyMode.make cs ms u = some s ∧ liftK s = newKey cs ms (.val u) ∧ s.cs = cs ∧ s.mean.length = 36 := by
  have hn : ∀ tab : List Int, tab.length = 36 → loop 36 (fun i (a : List ℝ) => do
      let v ← (KeyMode.profile tab)[i]?
      wr a i (v - MathReal.mean (KeyMode.profile tab))) (List.replicate 36 u) =
      some ((KeyMode.profile tab).map fun v => v - MathReal.mean (KeyMode.profile tab)) := fun tab h => by
    have hl : (KeyMode.profile tab).length = 36 := by simp [KeyMode.profile, h]
    obtain ⟨c, e, p⟩ := fill_part (L := 36) (new := fun i => (KeyMode.profile tab).getD i 0 - MathReal.mean (KeyMode.profile tab)) (f := fun i (a : List ℝ) => do
      let v ← (KeyMode.profile tab)[i]?
      wr a i (v - MathReal.mean (KeyMode.profile tab))) (holds_replicate 36 u) (fun i ys hi _ => by
        rw [List.getElem?_eq_getElem (by omega)]
        simp [List.getElem?_eq_getElem (show i < (KeyMode.profile tab).length by omega)])
    rw [e]
    congr 1
    refine List.ext_getElem? fun i => ?_
    by_cases hi : i < 36
    · rw [p.2 i hi, List.getElem?_map, List.getElem?_eq_getElem (by omega)]
      simp [List.getElem?_eq_getElem (show i < (KeyMode.profile tab).length by omega)]
    · rw [List.getElem?_eq_none (by rw [p.1]; omega), List.getElem?_eq_none (by rw [List.length_map]; omega)]
  refine ⟨⟨cs, ms, 0, 0, 0, List.replicate (36 * cs) 0, List.replicate 36 u,
    (KeyMode.profile KeyMode.majTab).map fun v => v - MathReal.mean (KeyMode.profile KeyMode.majTab),
    (KeyMode.profile KeyMode.minTab).map fun v => v - MathReal.mean (KeyMode.profile KeyMode.minTab), List.replicate 36 u, List.replicate 36 u,
    List.replicate ms 0, List.replicate ms 0, List.replicate 24 u⟩, ?_, ?_, rfl, by simp⟩
  · unfold KeyMode.make
    dsimp only
    rw [bind_ok (hn KeyMode.majTab (by decide)), bind_ok (hn KeyMode.minTab (by decide))]
    rfl
  · simp [liftK, newKey, centred, Num.zero_eq]

end QM.Nan
