import Verif.PhaseVocoder.Model
import Verif.Window.Model
import Verif.DetectionFunction.Spec

/-!
# Model of `dsp/onsets/DetectionFunction.cpp`

Doubles are real numbers; an access outside an array and a division of zero by zero are `none`.
-/

namespace QM.DetectionFunction

open QM.MathReal QM.PhaseVocoder

/-- A `DetectionFunction`, dsp/onsets/DetectionFunction.h:72-95. -/
structure DF where
  c : Config
  half : Nat
  relaxCoeff : ℝ
  floorCoeff : ℝ
  magHistory : List ℝ
  phaseHistory : List ℝ
  phaseHistoryOld : List ℝ
  magPeaks : List ℝ
  pv : PV
  magnitude : List ℝ
  theta : List ℝ
  unwrapped : List ℝ
  window : List ℝ
  windowed : List ℝ

/-- `DetectionFunction::initialise`, dsp/onsets/DetectionFunction.cpp:40-75. `u`, `v` are uninitialised memory. -/
noncomputable def make (c : Config) (u : ℂ) (v : ℝ) : Option DF := do
  let half := c.frame / 2 + 1
  let relax := if c.relaxCoeff < 0 then 0.9997 else c.relaxCoeff
  let floor := if c.floor < 0 then 0.01 else c.floor
  let pv ← PhaseVocoder.make c.frame c.step u v
  let w ← Window.encache .hanning c.frame
  pure ⟨c, half, relax, floor, List.replicate half 0, List.replicate half 0, List.replicate half 0, List.replicate half 0, pv,
    List.replicate half v, List.replicate half v, List.replicate half v, w, List.replicate c.frame v⟩

/-- One iteration of `DetectionFunction::whiten`, dsp/onsets/DetectionFunction.cpp:121-129. State: `m_magPeaks`, `m_magnitude`. -/
noncomputable def whitenBody (relax floor : ℝ) (i : Nat) (s : List ℝ × List ℝ) : Option (List ℝ × List ℝ) := do
  let m ← s.2[i]?
  let p ← s.1[i]?
  let m1 := if m < p then m + (p - m) * relax else m
  let m2 := if m1 < floor then floor else m1
  let peaks ← wr s.1 i m2
  if m2 = 0 then none
  else do
    let mags ← wr s.2 i (m / m2)
    pure (peaks, mags)

/-- `DetectionFunction::whiten`, dsp/onsets/DetectionFunction.cpp:119-130. -/
noncomputable def whiten (d : DF) : Option DF := do
  let s ← loop d.half (whitenBody d.relaxCoeff d.floorCoeff) (d.magPeaks, d.magnitude)
  pure { d with magPeaks := s.1, magnitude := s.2 }

/-- `DetectionFunction::HFC`, dsp/onsets/DetectionFunction.cpp:167-174. -/
noncomputable def hfc (length : Nat) (src : List ℝ) : Option ℝ :=
  loop length (fun i val => do
    let s ← src[i]?
    pure (val + s * (i + 1))) 0

/-- `DetectionFunction::specDiff`, dsp/onsets/DetectionFunction.cpp:176-198. State: `m_magHistory`, `val`. -/
noncomputable def specDiffBody (src : List ℝ) (i : Nat) (st : List ℝ × ℝ) : Option (List ℝ × ℝ) := do
  let s ← src[i]?
  let h ← st.1[i]?
  let temp := |s * s - h * h|
  let diff := Real.sqrt temp
  let hist ← wr st.1 i s
  pure (hist, st.2 + diff)

/-- `DetectionFunction::phaseDev`, dsp/onsets/DetectionFunction.cpp:201-232. State: `m_phaseHistory`, `m_phaseHistoryOld`, `val`. -/
noncomputable def phaseDevBody (src : List ℝ) (i : Nat) (st : List ℝ × List ℝ × ℝ) : Option (List ℝ × List ℝ × ℝ) := do
  let s ← src[i]?
  let h ← st.1[i]?
  let o ← st.2.1[i]?
  let tmpPhase := s - 2 * h + o
  let dev := princarg tmpPhase
  let old ← wr st.2.1 i h
  let hist ← wr st.1 i s
  pure (hist, old, st.2.2 + |dev|)

/-- `DetectionFunction::complexSD`, dsp/onsets/DetectionFunction.cpp:235-264.
State: `m_phaseHistory`, `m_phaseHistoryOld`, `m_magHistory`, `val`. -/
noncomputable def complexSDBody (srcMag srcPhase : List ℝ) (i : Nat) (st : List ℝ × List ℝ × List ℝ × ℝ) :
    Option (List ℝ × List ℝ × List ℝ × ℝ) := do
  let s ← srcPhase[i]?
  let h ← st.1[i]?
  let o ← st.2.1[i]?
  let tmpPhase := s - 2 * h + o
  let dev := princarg tmpPhase
  let mh ← st.2.2.1[i]?
  let m ← srcMag[i]?
  let meas : ℂ := (mh : ℂ) - m * Complex.exp (Complex.I * dev)
  let val := st.2.2.2 + Real.sqrt (meas.re * meas.re + meas.im * meas.im)
  let old ← wr st.2.1 i h
  let hist ← wr st.1 i s
  let mhist ← wr st.2.2.1 i m
  pure (hist, old, mhist, val)

open Classical in
/-- `DetectionFunction::broadband`, dsp/onsets/DetectionFunction.cpp:266-278. State: `m_magHistory`, `val`. `log10(0)` is minus infinity,
so the comparison with `m_dbRise` is false then. -/
noncomputable def broadbandBody (dbRise : ℝ) (src : List ℝ) (i : Nat) (st : List ℝ × ℝ) : Option (List ℝ × ℝ) := do
  let s ← src[i]?
  let sqrmag := s * s
  let h ← st.1[i]?
  let val := if h > 0 then (if sqrmag / h ≠ 0 ∧ 10 * Real.logb 10 (sqrmag / h) > dbRise then st.2 + 1 else st.2) else st.2
  let hist ← wr st.1 i sqrmag
  pure (hist, val)

/-- `DetectionFunction::runDF`, dsp/onsets/DetectionFunction.cpp:132-165. -/
noncomputable def runDF (d : DF) : Option (DF × ℝ) :=
  match d.c.ty with
  | .hfc => do
    let v ← hfc d.half d.magnitude
    pure (d, v)
  | .specDiff => do
    let s ← loop d.half (specDiffBody d.magnitude) (d.magHistory, 0)
    pure ({ d with magHistory := s.1 }, s.2)
  | .phaseDev => do
    let s ← loop d.half (phaseDevBody d.theta) (d.phaseHistory, d.phaseHistoryOld, 0)
    pure ({ d with phaseHistory := s.1, phaseHistoryOld := s.2.1 }, s.2.2)
  | .complexSD => do
    let s ← loop d.half (complexSDBody d.magnitude d.theta) (d.phaseHistory, d.phaseHistoryOld, d.magHistory, 0)
    pure ({ d with phaseHistory := s.1, phaseHistoryOld := s.2.1, magHistory := s.2.2.1 }, s.2.2.2)
  | .broadband => do
    let s ← loop d.half (broadbandBody d.c.dbRise d.magnitude) (d.magHistory, 0)
    pure ({ d with magHistory := s.1 }, s.2)

/-- The common end of the process functions, dsp/onsets/DetectionFunction.cpp:102-104 and 114-116. -/
noncomputable def finish (d : DF) : Option (DF × ℝ) :=
  if d.c.whiten then (whiten d).bind runDF else runDF d

/-- `DetectionFunction::processTimeDomain`, dsp/onsets/DetectionFunction.cpp:95-105. -/
noncomputable def processTime (d : DF) (samples : List ℝ) : Option (DF × ℝ) := do
  let windowed ← Window.cut d.c.frame d.window samples d.windowed
  let (pv, m, t, u) ← PhaseVocoder.processTime d.pv windowed d.magnitude d.theta d.unwrapped
  finish { d with windowed := windowed, pv := pv, magnitude := m, theta := t, unwrapped := u }

/-- `DetectionFunction::processFrequencyDomain`, dsp/onsets/DetectionFunction.cpp:107-117. -/
noncomputable def processFreq (d : DF) (reals imags : List ℝ) : Option (DF × ℝ) := do
  let (pv, m, t, u) ← PhaseVocoder.processFreq d.pv reals imags d.magnitude d.theta d.unwrapped
  finish { d with pv := pv, magnitude := m, theta := t, unwrapped := u }

end QM.DetectionFunction
