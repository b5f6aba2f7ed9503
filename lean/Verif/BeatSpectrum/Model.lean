import Verif.Distance.Model

/-!
# Model of `BeatSpectrum` (dsp/rhythm/BeatSpectrum.cpp)

`none` is an access outside a vector.
-/

namespace QM.BeatSpectrum

/-- The double loop, dsp/rhythm/BeatSpectrum.cpp:34-42 (`k = j - i - 1`). -/
noncomputable def accumulate (m : List (List ℝ)) (sz : Nat) (v : List ℝ) : Option (List ℝ) :=
  loop sz (fun i v => loop sz (fun k v => do
    let a ← m[i]?
    let b ← m[i + 1 + k]?
    let d ← Distance.cosine a b
    let x ← v[k]?
    wr v k (x + d)) v) v

/-- The maximum, never below 0: dsp/rhythm/BeatSpectrum.cpp:46-50. -/
noncomputable def maximum (sz : Nat) (v : List ℝ) : Option ℝ :=
  loop sz (fun i mx => do
    let x ← v[i]?
    some (if x > mx then x else mx)) 0

/-- `BeatSpectrum::process`, dsp/rhythm/BeatSpectrum.cpp:22-59. -/
noncomputable def process (m : List (List ℝ)) : Option (List ℝ) := do
  let sz := m.length / 2
  let v ← accumulate m sz (List.replicate sz 0)
  let mx ← maximum sz v
  if mx > 0 then
    loop sz (fun i v => do
      let x ← v[i]?
      wr v i (x / mx)) v
  else some v

end QM.BeatSpectrum
