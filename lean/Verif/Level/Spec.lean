import Verif.DetectionFunction.Props

/-!
# Louder

What it means to play a recording louder, and what that should do to a detection function.
-/

namespace QM.Level

open QM QM.DetectionFunction

/-- Every value times `g`. -/
noncomputable def louder (g : ℝ) (xs : List ℝ) : List ℝ := xs.map (g * ·)

/-- Every spectrum times `g`. -/
noncomputable def louderZ (g : ℝ) (zs : List (Nat → ℂ)) : List (Nat → ℂ) := zs.map (fun z k => (g : ℂ) * z k)

/-- What the value of a detection function is multiplied with: its dimension is that of the signal, or it has none. -/
noncomputable def gain (g : ℝ) : DFType → ℝ
  | .hfc | .specDiff | .complexSD => |g|
  | .phaseDev | .broadband => 1

/-- The types that look at magnitudes only. -/
def phaseless : DFType → Prop
  | .hfc | .specDiff | .broadband => True
  | .phaseDev | .complexSD => False

/-- The detection function of successive frames. -/
noncomputable def values (d : DF) : List (List ℝ) → Option (List ℝ)
  | [] => some []
  | f :: fs => do
    let (d, v) ← processTime d f
    let vs ← values d fs
    some (v :: vs)

end QM.Level
