import Verif.PhaseVocoder.Model
import Verif.Common.Double

/-!
# Model of the phase computations in rounded arithmetic

`MathUtilities::mod`, `MathUtilities::princarg` (maths/MathUtilities.cpp) and the phases kept by `PhaseVocoder` (dsp/phasevocoder/PhaseVocoder.cpp), with a
rounding `fl` after every operation and for every constant. `floor` of a double is exact. The products `2 * M_PI` and `-2 * M_PI` are rounded too,
although they are exact in binary.
-/

namespace QM.PhaseVocoder

noncomputable section

variable (fl : ℝ → ℝ)

/-- `MathUtilities::mod`, maths/MathUtilities.cpp:25-31. -/
def modF (x y : ℝ) : ℝ :=
  let a := ((⌊fl (x / y)⌋ : ℤ) : ℝ)
  fl (x - fl (y * a))

/-- `MathUtilities::princarg`, maths/MathUtilities.cpp:33-40. -/
def princargF (ang : ℝ) : ℝ := fl (modF fl (fl (ang + fl Real.pi)) (fl (-2 * fl Real.pi)) + fl Real.pi)

/-- `omega`, dsp/phasevocoder/PhaseVocoder.cpp:98 and 123. -/
def omegaF (n : Nat) (hop : Int) (i : Nat) : ℝ := fl (fl (fl (fl (2 * fl Real.pi) * hop) * i) / n)

/-- The phases a `PhaseVocoder` keeps: `m_phase` and `m_unwrapped`, dsp/phasevocoder/PhaseVocoder.h:72-73. -/
structure Phases where
  phase : List ℝ
  unwrapped : List ℝ

/-- `PhaseVocoder::reset`, dsp/phasevocoder/PhaseVocoder.cpp:91-102. The sign of a double is changed without rounding. -/
def resetF (n : Nat) (hop : Int) (d : Phases) : Option Phases := do
  let p ← loop (n / 2 + 1) (fun i (p : List ℝ × List ℝ) => do
    let ph ← wr p.1 i (-omegaF fl n hop i)
    let un ← wr p.2 i (-omegaF fl n hop i)
    pure (ph, un)) (d.phase, d.unwrapped)
  pure ⟨p.1, p.2⟩

/-- The body of the loop of `PhaseVocoder::unwrapPhases`, dsp/phasevocoder/PhaseVocoder.cpp:121-130. State: `m_phase`, `m_unwrapped`, `unwrapped`. -/
def unwrapBodyF (n : Nat) (hop : Int) (theta : List ℝ) (i : Nat) (s : List ℝ × List ℝ × List ℝ) :
    Option (List ℝ × List ℝ × List ℝ) := do
  let ph ← s.1[i]?
  let expected := fl (ph + omegaF fl n hop i)
  let t ← theta[i]?
  let error := princargF fl (fl (t - expected))
  let un ← s.2.1[i]?
  let out ← wr s.2.2 i (fl (fl (un + omegaF fl n hop i) + error))
  let phase ← wr s.1 i t
  let v ← out[i]?
  let unwrapped ← wr s.2.1 i v
  pure (phase, unwrapped, out)

/-- `PhaseVocoder::unwrapPhases`, dsp/phasevocoder/PhaseVocoder.cpp:118-132. -/
def unwrapPhasesF (n : Nat) (hop : Int) (d : Phases) (theta out : List ℝ) : Option (Phases × List ℝ) := do
  let s ← loop (n / 2 + 1) (unwrapBodyF fl n hop theta) (d.phase, d.unwrapped, out)
  pure (⟨s.1, s.2.1⟩, s.2.2)

/-- Successive frames: each comes with the phases of its bins and the caller's output array. -/
def framesF (n : Nat) (hop : Int) (d : Phases) : List (List ℝ × List ℝ) → Option (Phases × List (List ℝ))
  | [] => some (d, [])
  | (theta, out) :: rest => do
    let (d, o) ← unwrapPhasesF fl n hop d theta out
    let (d, os) ← framesF n hop d rest
    some (d, o :: os)

end

/-! ## Without rounding it is the model of C03 and C27 -/

theorem modF_id (x y : ℝ) : modF id x y = MathReal.mod x y := rfl

theorem princargF_id (a : ℝ) : princargF id a = MathReal.princarg a := rfl

theorem omegaF_id (n : Nat) (hop : Int) (i : Nat) : omegaF id n hop i = omega n hop i := rfl

theorem resetF_id (d : PV) : (resetF id d.n d.hop ⟨d.phase, d.unwrapped⟩).map (fun p => { d with phase := p.phase, unwrapped := p.unwrapped }) = reset d := by
  unfold resetF reset
  simp only [omegaF_id, Option.bind_eq_bind, Option.pure_def]
  cases loop (d.n / 2 + 1) (fun i (p : List ℝ × List ℝ) => (wr p.1 i (-omega d.n d.hop i)).bind fun ph =>
    (wr p.2 i (-omega d.n d.hop i)).bind fun un => some (ph, un)) (d.phase, d.unwrapped) <;> rfl

theorem unwrapBodyF_id (n : Nat) (hop : Int) (theta : List ℝ) : unwrapBodyF id n hop theta = unwrapBody n hop theta := rfl

theorem unwrapPhasesF_id (d : PV) (theta out : List ℝ) :
    (unwrapPhasesF id d.n d.hop ⟨d.phase, d.unwrapped⟩ theta out).map (fun p => ({ d with phase := p.1.phase, unwrapped := p.1.unwrapped }, p.2)) =
      unwrapPhases d theta out := by
  unfold unwrapPhasesF unwrapPhases
  rw [unwrapBodyF_id]
  simp only [Option.bind_eq_bind, Option.pure_def]
  cases loop (d.n / 2 + 1) (unwrapBody d.n d.hop theta) (d.phase, d.unwrapped, out) <;> rfl

end QM.PhaseVocoder
