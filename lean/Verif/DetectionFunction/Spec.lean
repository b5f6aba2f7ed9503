import Mathlib.Analysis.SpecialFunctions.Complex.Arg
import Mathlib.Analysis.SpecialFunctions.Log.Base
import Mathlib.Algebra.BigOperators.Group.Finset.Basic

/-!
# Onset detection functions of a history of spectra

Written without reference to the model of the code. A history is a list of spectra (bin number to complex value), most recent first.
-/

namespace QM.DetectionFunction

/-- Detection function types, dsp/onsets/DetectionFunction.h:23-27. -/
inductive DFType
  | hfc | specDiff | phaseDev | complexSD | broadband
deriving DecidableEq, Repr

structure Config where
  step : Int
  frame : Nat
  ty : DFType
  dbRise : ℝ
  whiten : Bool
  relaxCoeff : ℝ
  floor : ℝ

/-- The relaxation coefficient in use: a negative setting means the default. -/
noncomputable def Config.relax (c : Config) : ℝ := if c.relaxCoeff < 0 then 0.9997 else c.relaxCoeff

/-- The whitening floor in use: a negative setting means the default. -/
noncomputable def Config.floorVal (c : Config) : ℝ := if c.floor < 0 then 0.01 else c.floor

/-- The running peak of bin `k`: it follows rises at once, relaxes on falls, and never is below the floor. -/
noncomputable def peak (c : Config) (k : Nat) : List (Nat → ℂ) → ℝ
  | [] => 0
  | z :: zs =>
    let m := if ‖z k‖ < peak c k zs then ‖z k‖ + (peak c k zs - ‖z k‖) * c.relax else ‖z k‖
    if m < c.floorVal then c.floorVal else m

/-- The (whitened, if asked) magnitude of bin `k` of the latest spectrum; 0 before the first. -/
noncomputable def mag (c : Config) (k : Nat) : List (Nat → ℂ) → ℝ
  | [] => 0
  | z :: zs => if c.whiten then ‖z k‖ / peak c k (z :: zs) else ‖z k‖

/-- The phase of bin `k` of the latest spectrum; 0 before the first. -/
noncomputable def phase (k : Nat) : List (Nat → ℂ) → ℝ
  | [] => 0
  | z :: _ => (z k).arg

/-- Phase deviation: the representative in `(-π, π]` of the second difference of the phase. -/
def IsDev (k : Nat) (h : List (Nat → ℂ)) (d : ℝ) : Prop :=
  -Real.pi < d ∧ d ≤ Real.pi ∧ ∃ j : ℤ, phase k h - 2 * phase k h.tail + phase k h.tail.tail = d + 2 * Real.pi * j

/-- Bin `k` rose by more than `dbRise` decibels from a non-zero level to a non-zero level. -/
def Rose (c : Config) (k : Nat) (h : List (Nat → ℂ)) : Prop :=
  mag c k h.tail ≠ 0 ∧ mag c k h ≠ 0 ∧ c.dbRise < 10 * Real.logb 10 (mag c k h ^ 2 / mag c k h.tail ^ 2)

open Classical in
/-- `v` is the value of the detection function after history `h` (not empty). -/
def IsValue (c : Config) (h : List (Nat → ℂ)) (v : ℝ) : Prop :=
  match c.ty with
  | .hfc => v = ∑ k ∈ Finset.range (c.frame / 2 + 1), (k + 1) * mag c k h
  | .specDiff => v = ∑ k ∈ Finset.range (c.frame / 2 + 1), Real.sqrt |mag c k h ^ 2 - mag c k h.tail ^ 2|
  | .phaseDev => ∃ d : Nat → ℝ, (∀ k, k ≤ c.frame / 2 → IsDev k h (d k)) ∧ v = ∑ k ∈ Finset.range (c.frame / 2 + 1), |d k|
  | .complexSD => ∃ d : Nat → ℝ, (∀ k, k ≤ c.frame / 2 → IsDev k h (d k)) ∧
      v = ∑ k ∈ Finset.range (c.frame / 2 + 1), ‖(mag c k h.tail : ℂ) - mag c k h * Complex.exp (d k * Complex.I)‖
  | .broadband => v = ((Finset.range (c.frame / 2 + 1)).filter (fun k => Rose c k h)).card

end QM.DetectionFunction
