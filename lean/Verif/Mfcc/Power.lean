import Verif.Mfcc.Props
import Verif.Common.Ext

/-!
# Model of `MFCC::process` with results that may not be numbers

The end of `process` (dsp/mfcc/MFCC.cpp:220-273) again, with the `pow` of C and sums over doubles with infinities and NaN; finite results are exact.
-/

namespace QM.Mfcc

open Ext

open Classical in
/-- `pow(x, p)` of C for numbers: a negative base with a power that is not an integer gives NaN, zero to a negative power an infinity. -/
noncomputable def powE (x p : ℝ) : Ext :=
  if p = 0 then 1
  else if 0 < x then fin (x ^ p)
  else if x = 0 then (if 0 < p then 0 else pinf)
  else if h : ∃ n : ℤ, p = n then fin (x ^ h.choose)
  else nan

/-- `earMag[i]`, dsp/mfcc/MFCC.cpp:238-243. -/
noncomputable def earE (p t : ℝ) : Ext := if p ≠ 1 then powE (ear t) p else fin (ear t)

/-- `earMag`, dsp/mfcc/MFCC.cpp:228-244. -/
noncomputable def earsE (n : Nat) (p : ℝ) (weights : List (List ℝ)) (mag : List ℝ) (earMag : List Ext) : Option (List Ext) := do
  let earMag ← loop 40 (fun i e => wr e i 0) earMag
  loop 40 (fun i e => do
    let t ← loop n (fun j acc => do
      let w ← rd2 weights i j
      let m ← mag[j]?
      some (acc + w * m)) (0 : ℝ)
    wr e i (earE p t)) earMag

/-- One row of the cosine transform, dsp/mfcc/MFCC.cpp:256-259 and 264-267. -/
noncomputable def dctRowE (D : List (List ℝ)) (e : List Ext) (i : Nat) : Option Ext :=
  loop 40 (fun j acc => do
    let d ← rd2 D i j
    let x ← e[j]?
    some (acc + fin d * x)) (0 : Ext)

/-- dsp/mfcc/MFCC.cpp:253-270. -/
noncomputable def cepstraE (wantC0 : Bool) (nceps : Nat) (D : List (List ℝ)) (e out : List Ext) : Option (List Ext) :=
  if wantC0 then
    loop (nceps + 1) (fun i out => do
      let t ← dctRowE D e i
      wr out i t) out
  else
    loop nceps (fun k out => do
      let t ← dctRowE D e (k + 1)
      wr out (k + 1 - 1) t) out

/-- What `MFCC::process(real, imag, outceps)` writes, dsp/mfcc/MFCC.cpp:220-273, for `logPower = p`; `earMag` is the old content of that member. -/
noncomputable def processE (m : MFCC) (p : ℝ) (re im : List ℝ) (earMag out : List Ext) : Option (List Ext) := do
  let mag ← magnitudes (m.fftSize / 2) re im m.fftMag
  let e ← earsE (m.fftSize / 2) p m.weights mag earMag
  cepstraE m.wantC0 m.nceps m.dctMatrix e out

end QM.Mfcc
