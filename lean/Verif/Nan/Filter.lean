import Verif.Nan.Num
import Verif.Filter.Model

/-!
# `Filter` and `FiltFilt` with values that may be NaN

The same code as in `Verif.Filter.Model`, on doubles that may be NaN. The coefficients are numbers.
-/

namespace QM.Nan

open QM.Filter (State offmax)

/-- `Filter::Filter`, dsp/signalconditioning/Filter.cpp:21-59. `none` is the thrown `logic_error`. -/
def newFilter (b a : List ℝ) : Option (State Num) :=
  if a = [] then
    if b = [] then none
    else some { fir := true, sz := b.length, a := [], b := b.map .val, bufa := [],
                bufb := List.replicate (b.length + offmax) 0, offa := offmax, offb := offmax }
  else
    if a.length ≠ b.length then none
    else some { fir := false, sz := b.length, a := a.map .val, b := b.map .val,
                bufa := List.replicate (b.length - 1 + offmax) 0,
                bufb := List.replicate (b.length + offmax) 0, offa := offmax, offb := offmax }

/-- `Filter::reset`, dsp/signalconditioning/Filter.cpp:65-76. -/
def resetFilter (s : State Num) : State Num :=
  { s with
    offb := offmax, offa := offmax,
    bufa := if s.fir then s.bufa else List.replicate s.bufa.length 0,
    bufb := List.replicate s.bufb.length 0 }

/-- `for (i = cnt-1; i >= 0; --i) buf[i + m_offmax + 1] = buf[i]`, dsp/signalconditioning/Filter.cpp:88-90 and 116-118. -/
def moveBack (cnt : Nat) (buf : List Num) : Option (List Num) :=
  loop cnt (fun k buf => do
    let i := cnt - 1 - k
    let v ← buf[i]?
    wr buf (i + offmax + 1) v) buf

/-- `for (i = 0; i < n; ++i) sum += c[i + coff] * buf[i + off]`, dsp/signalconditioning/Filter.cpp:95-98 and 108-111. -/
def dot (c buf : List Num) (coff off n : Nat) : Option Num :=
  loop n (fun i sum => do
    let x ← c[i + coff]?
    let y ← buf[i + off]?
    some (sum + x * y)) 0

/-- Making room for one value, dsp/signalconditioning/Filter.cpp:85-92 and 113-120. -/
def makeRoom (cnt : Nat) (buf : List Num) (off : Nat) : Option (List Num × Nat) :=
  if off > 0 then some (buf, off - 1)
  else (moveBack cnt buf).map (fun b => (b, offmax))

/-- One iteration of `Filter::process`, dsp/signalconditioning/Filter.cpp:83-125. -/
def filterStep (s : State Num) (x : Num) : Option (State Num × Num) := do
  let (bufb, offb) ← makeRoom (s.sz - 1) s.bufb s.offb
  let bufb ← wr bufb offb x
  let b_sum ← dot s.b bufb 0 offb s.sz
  if s.fir then
    some ({ s with bufb := bufb, offb := offb }, b_sum)
  else
    let a_sum ← dot s.a s.bufa 1 s.offa (s.sz - 1)
    let outval := b_sum - a_sum
    let (bufa, offa) ← makeRoom (s.sz - 1 - 1) s.bufa s.offa
    let bufa ← wr bufa offa outval
    some ({ s with bufb := bufb, offb := offb, bufa := bufa, offa := offa }, outval)

/-- `Filter::process`, dsp/signalconditioning/Filter.cpp:78-126. -/
def filter (s : State Num) : List Num → Option (State Num × List Num)
  | [] => some (s, [])
  | x :: xs => do
    let (s, y) ← filterStep s x
    let (s, ys) ← filter s xs
    some (s, y :: ys)

/-- The edge-reflected input of `FiltFilt::process`, dsp/signalconditioning/FiltFilt.cpp:41-75. -/
def extend (nFact : Nat) (src : List Num) : Option (List Num) := do
  let length := src.length
  let nExt := length + 2 * nFact
  let scratch := List.replicate nExt (0 : Num)
  let s0 ← src[0]?
  let sample0 := .val 2 * s0
  let sN ← src[length - 1]?
  let sampleN := .val 2 * sN
  let scratch ← loop nFact (fun index sc => do
    let i := nFact - index
    if i < length then
      let v ← src[i]?
      wr sc index (sample0 - v)
    else some sc) scratch
  let scratch ← loop nFact (fun i sc => do
    if i + 1 < length then
      let v ← src[(length - 2) - i]?
      wr sc ((nExt - nFact) + i) (sampleN - v)
    else some sc) scratch
  loop length (fun i sc => do
    let v ← src[i]?
    wr sc (i + nFact) v) scratch

/-- `FiltFilt::process`, dsp/signalconditioning/FiltFilt.cpp:28-94. -/
def filtfilt (s : State Num) (src : List Num) : Option (State Num × List Num) :=
  if src.length = 0 then some (s, [])
  else do
    let nFact := 3 * (s.sz - 1)
    let ext ← extend nFact src
    let (s, out) ← filter s ext
    let (s, out2) ← filter (resetFilter s) out.reverse
    some (s, (out2.reverse.drop nFact).take src.length)

end QM.Nan
