import Verif.Common.Loop
import Verif.MathInt.Model
import Mathlib.Analysis.SpecialFunctions.Trigonometric.Basic
import Mathlib.Analysis.SpecialFunctions.Pow.Real

/-!
# Model of `base/Window.h`, `base/KaiserWindow.cpp` and `base/SincWindow.cpp`

Values are real numbers; an access outside an array is `none`.
-/

namespace QM.Window

/-- `WindowType`, base/Window.h:23-33. -/
inductive WindowType
  | rectangular | bartlett | hamming | hanning | blackman | blackmanHarris
deriving DecidableEq, Repr

/-- `mult[i] = mult[i] * g(i)` for all `i`, the loop used by five of the window types. -/
noncomputable def scale (n : Nat) (g : Nat → ℝ) (mult : List ℝ) : Option (List ℝ) :=
  loop n (fun i mult => do
    let v ← mult[i]?
    wr mult i (v * g i)) mult

/-- `Window::encache`, base/Window.h:91-156. -/
noncomputable def encache (ty : WindowType) (n : Nat) : Option (List ℝ) := do
  let mult ← loop n (fun i mult => wr mult i 1) (List.replicate n 0)
  match ty with
  | .rectangular => scale n (fun _ => 0.5) mult
  | .bartlett =>
    if n = 2 then do
      let mult ← wr mult 1 0
      wr mult 0 0
    else if n = 3 then do
      let mult ← wr mult 0 0
      let mult ← wr mult 2 (2 / 3)
      wr mult 1 (2 / 3)
    else if n > 3 then
      loop (n / 2) (fun i mult => do
        let v ← mult[i]?
        let mult ← wr mult i (v * (i / ((n / 2 : Nat) : ℝ)))
        let w ← mult[i + n - n / 2]?
        wr mult (i + n - n / 2) (w * (1 - (i / ((n / 2 : Nat) : ℝ))))) mult
    else some mult
  | .hamming => if n > 1 then scale n (fun i => 0.54 - 0.46 * Real.cos (2 * Real.pi * i / n)) mult else some mult
  | .hanning => if n > 1 then scale n (fun i => 0.50 - 0.50 * Real.cos (2 * Real.pi * i / n)) mult else some mult
  | .blackman =>
    if n > 1 then scale n (fun i => 0.42 - 0.50 * Real.cos (2 * Real.pi * i / n) + 0.08 * Real.cos (4 * Real.pi * i / n)) mult
    else some mult
  | .blackmanHarris =>
    if n > 1 then scale n (fun i => 0.35875 - 0.48829 * Real.cos (2 * Real.pi * i / n)
      + 0.14128 * Real.cos (4 * Real.pi * i / n) - 0.01168 * Real.cos (6 * Real.pi * i / n)) mult
    else some mult

/-- `Window::cut(src, dst)`, base/Window.h:62-66; also `KaiserWindow::cut`, base/KaiserWindow.h:97-101, and `SincWindow::cut`,
base/SincWindow.h:46-50. -/
noncomputable def cut (n : Nat) (cache src dst : List ℝ) : Option (List ℝ) :=
  loop n (fun i dst => do
    let s ← src[i]?
    let c ← cache[i]?
    wr dst i (s * c)) dst

/-- `Window::cut(src)`, in place, base/Window.h:61. -/
noncomputable def cutInPlace (n : Nat) (cache src : List ℝ) : Option (List ℝ) :=
  loop n (fun i src => do
    let s ← src[i]?
    let c ← cache[i]?
    wr src i (s * c)) src

/-- `Window::getWindowData`, base/Window.h:71-77. -/
noncomputable def getWindowData (n : Nat) (cache : List ℝ) : Option (List ℝ) :=
  loop n (fun i d => do
    let c ← cache[i]?
    pure (d ++ [c])) []

/-! ## Kaiser window -/

/-- `besselTerm`, base/KaiserWindow.cpp:34-42. The factorial is a double. -/
noncomputable def besselTerm (x : ℝ) (i : Nat) : ℝ :=
  if i = 0 then 1 else
    let f : ℝ := (MathInt.factorial i : ℝ)
    (x / 2) ^ (i * 2) / (f * f)

/-- `bessel0`, base/KaiserWindow.cpp:44-51. -/
noncomputable def bessel0 (x : ℝ) : ℝ := (List.range 20).foldl (fun b i => b + besselTerm x i) 0

/-- `KaiserWindow::init`, base/KaiserWindow.cpp:53-65. With `m_length = 1` the position `k` is 0/0, recorded as `none`. -/
noncomputable def kaiser (n : Nat) (beta : ℝ) : Option (List ℝ) := do
  let denominator := bessel0 beta
  let w ← loop (if n % 2 = 0 then n / 2 else (n + 1) / 2) (fun i w =>
    if n = 1 then none
    else
      let k : ℝ := ((2 * i : Nat) : ℝ) / ((n - 1 : Nat) : ℝ) - 1
      some (w ++ [bessel0 (beta * Real.sqrt (1 - k * k)) / denominator])) []
  loop (if n % 2 = 0 then n / 2 else (n - 1) / 2) (fun i w => do
    let v ← rdI w ((n / 2 : Nat) - (i : Int) - 1)
    pure (w ++ [v])) w

/-! ## Sinc window -/

/-- `sin(x) / x`, where 0/0 is recorded as `none`. -/
noncomputable def sincAt (x : ℝ) : Option ℝ := if x = 0 then none else some (Real.sin x / x)

/-- `SincWindow::init`, base/SincWindow.cpp:18-44. -/
noncomputable def sinc (n : Nat) (p : ℝ) : Option (List ℝ) :=
  if n < 1 then some []
  else if n < 2 then some [1]
  else do
    let n0 := if n % 2 = 0 then n / 2 else (n - 1) / 2
    let n1 := if n % 2 = 0 then n / 2 else (n + 1) / 2
    let m := 2 * Real.pi / p
    let w ← loop n0 (fun i w => do
      let v ← sincAt (((n / 2 : Nat) - (i : Int) : Int) * m)
      pure (w ++ [v])) []
    let w := w ++ [1]
    loop (n1 - 1) (fun i w => do
      let v ← sincAt (((i + 1 : Nat) : ℝ) * m)
      pure (w ++ [v])) w

end QM.Window
