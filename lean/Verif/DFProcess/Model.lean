import Verif.Common.Loop
import Verif.MathReal.Model
import Verif.Filter.Model

/-!
# Model of `dsp/signalconditioning/DFProcess.cpp`

Uninitialised elements of an array are `none` elements. An access outside an array, a read of an uninitialised element and a division
by zero make the result `none`.
-/

namespace QM.DFProcess

open QM.MathReal

section
variable {α : Type} [Field α] [LinearOrder α]

/-- Copying `cnt` elements of `src` from `start` on to the front of `y`,
dsp/signalconditioning/DFProcess.cpp:117-119, 130-134 and 148-152. -/
def copyWin (src y : List α) (start cnt : Nat) : Option (List α) :=
  loop cnt (fun l y => do
    let v ← src[start + l]?
    wr y l v) y

/-- Copying a window and storing its median: dsp/signalconditioning/DFProcess.cpp:117-121, 130-137 and 148-155.
State: `index`, `y`, `scratch`. -/
def medStep (src : List α) (start cnt : Nat) (s : Nat × List α × List (Option α)) : Option (Nat × List α × List (Option α)) := do
  let y ← copyWin src s.2.1 start cnt
  let m ← median (y.take cnt)
  let scratch ← wr s.2.2 s.1 (some m)
  pure (s.1 + 1, y, scratch)

/-- The three loops of `DFProcess::medianFilter`, dsp/signalconditioning/DFProcess.cpp:99-156. `break` when `index >= m_length` is
modelled by doing nothing from then on. -/
def medians (pre post len : Nat) (src : List α) : Option (Nat × List α × List (Option α)) := do
  let s ← loop pre (fun i (s : Nat × List α × List (Option α)) =>
    if s.1 ≥ len then some s else medStep src 0 (i + post + 1) s)
    (0, List.replicate (post + pre + 1) 0, List.replicate len none)
  let s ← loop (len - (post + pre)) (fun i (s : Nat × List α × List (Option α)) =>
    if s.1 ≥ len then some s else medStep src i (post + pre + 1) s) s
  let first := max (len - post) 1
  loop (len - first) (fun t (s : Nat × List α × List (Option α)) =>
    if s.1 ≥ len then some s
    else
      let k := max (first + t - pre) 1
      medStep src k (len - k) s) s

/-- `DFProcess::medianFilter`, dsp/signalconditioning/DFProcess.cpp:97-176. -/
def medianFilter (pre post len : Nat) (delta : α) (isPos : Bool) (src dst : List α) : Option (List α) := do
  let s ← medians pre post len src
  loop len (fun i dst => do
    let v ← src[i]?
    let m ← s.2.2[i]?
    let m ← m
    let val := v - m - delta
    if isPos then (if val > 0 then wr dst i val else wr dst i 0)
    else wr dst i val) dst

end

/-- `DFProcess::removeDCNormalize`, dsp/signalconditioning/DFProcess.cpp:179-192. The block is the first `m_length` elements. -/
noncomputable def removeDCNormalize (len alpha : Nat) (src dst : List ℝ) : Option (List ℝ) :=
  if src.length < len then none
  else do
    let mm := getFrameMinMax (src.take len)
    let norm ← getAlphaNorm (src.take len) alpha
    if norm = 0 then none
    else loop len (fun i dst => do
      let v ← src[i]?
      wr dst i ((v - mm.1) / norm)) dst

/-- A `DFProcess`, dsp/signalconditioning/DFProcess.h:63-86, without the two scratch pointers that are never used. -/
structure DFP where
  len : Nat
  pre : Nat
  post : Nat
  alpha : Nat
  isPos : Bool
  delta : ℝ
  filtSrc : List ℝ
  filter : Filter.State ℝ

/-- `DFProcess::DFProcess`, dsp/signalconditioning/DFProcess.cpp:35-45 and 52-74. `b`, `a` are the `LPOrd + 1` coefficients; an exception
from `Filter` is `none`. -/
def make (len pre post alpha : Nat) (isPos : Bool) (delta : ℝ) (b a : List ℝ) (u : ℝ) [DecidableEq ℝ] : Option DFP :=
  match Filter.new b a with
  | .ok f => some ⟨len, pre, post, alpha, isPos, delta, List.replicate len u, f⟩
  | .error _ => none

/-- `DFProcess::process`, dsp/signalconditioning/DFProcess.cpp:85-94. (`filtDst` is overwritten completely by `FiltFilt::process`.) -/
noncomputable def process (d : DFP) (src dst : List ℝ) : Option (DFP × List ℝ) :=
  if d.len = 0 then some (d, dst)
  else do
    let filtSrc ← removeDCNormalize d.len d.alpha src d.filtSrc
    let (f, filtDst) ← Filter.filtfilt d.filter (filtSrc.take d.len)
    let dst ← medianFilter d.pre d.post d.len d.delta d.isPos filtDst dst
    pure ({ d with filtSrc := filtSrc, filter := f }, dst)

end QM.DFProcess
