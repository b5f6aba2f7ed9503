import Verif.Common.Loop
import Mathlib.Algebra.Ring.Defs
import Mathlib.Algebra.Ring.Int.Defs

/-!
# Model of `Filter` and `FiltFilt` (dsp/signalconditioning)

Samples and coefficients are elements of a commutative ring. Vectors are lists and every access is
checked; `none` is an access outside a vector.
-/

namespace QM.Filter

variable {R : Type} [CommRing R]

/-- Data members of `Filter`, dsp/signalconditioning/Filter.h:56-66 (`m_order = m_sz - 1`,
`m_offmax` is always 20). -/
structure State (R : Type) where
  fir : Bool
  sz : Nat
  a : List R
  b : List R
  bufa : List R
  bufb : List R
  offa : Nat
  offb : Nat
deriving DecidableEq, Repr

/-- `m_offmax`, dsp/signalconditioning/Filter.cpp:48. -/
def offmax : Nat := 20

/-- `Filter::Filter`, dsp/signalconditioning/Filter.cpp:21-59. `Except.error` is the thrown
`logic_error`. -/
def new (b a : List R) : Except String (State R) :=
  if a = [] then
    if b = [] then .error "Filter must have at least one pair of coefficients"
    else .ok { fir := true, sz := b.length, a := a, b := b, bufa := [],
               bufb := List.replicate (b.length + offmax) 0, offa := offmax, offb := offmax }
  else
    if a.length ≠ b.length then .error "Inconsistent numbers of filter coefficients"
    else .ok { fir := false, sz := b.length, a := a, b := b,
               bufa := List.replicate (b.length - 1 + offmax) 0,
               bufb := List.replicate (b.length + offmax) 0, offa := offmax, offb := offmax }


/-- `Filter::reset`, dsp/signalconditioning/Filter.cpp:65-76. -/
def reset (s : State R) : State R :=
  { s with
    offb := offmax, offa := offmax,
    bufa := if s.fir then s.bufa else List.replicate s.bufa.length 0,
    bufb := List.replicate s.bufb.length 0 }

/-- `for (i = cnt-1; i >= 0; --i) buf[i + m_offmax + 1] = buf[i]`,
dsp/signalconditioning/Filter.cpp:88-90 and 116-118. -/
def moveBack (cnt : Nat) (buf : List R) : Option (List R) :=
  loop cnt (fun k buf => do
    let i := cnt - 1 - k
    let v ← buf[i]?
    wr buf (i + offmax + 1) v) buf

/-- `for (i = 0; i < n; ++i) sum += c[i + coff] * buf[i + off]`,
dsp/signalconditioning/Filter.cpp:95-98 and 108-111. -/
def dot (c buf : List R) (coff off n : Nat) : Option R :=
  loop n (fun i sum => do
    let x ← c[i + coff]?
    let y ← buf[i + off]?
    some (sum + x * y)) 0

/-- Making room for one value in front of `cnt` values kept: step the offset back, or move the values
to the end of the buffer when there is no room left, dsp/signalconditioning/Filter.cpp:85-92 and
113-120. -/
def makeRoom (cnt : Nat) (buf : List R) (off : Nat) : Option (List R × Nat) :=
  if off > 0 then some (buf, off - 1)
  else (moveBack cnt buf).map (fun b => (b, offmax))

/-- One iteration of `Filter::process`, dsp/signalconditioning/Filter.cpp:83-125: returns the new
state and `out[s]`. -/
def step (s : State R) (x : R) : Option (State R × R) := do
  -- lines 85-93
  let (bufb, offb) ← makeRoom (s.sz - 1) s.bufb s.offb
  let bufb ← wr bufb offb x
  -- lines 95-98
  let b_sum ← dot s.b bufb 0 offb s.sz
  if s.fir then
    some ({ s with bufb := bufb, offb := offb }, b_sum)
  else
    let a_sum ← dot s.a s.bufa 1 s.offa (s.sz - 1)
    let outval := b_sum - a_sum
    let (bufa, offa) ← makeRoom (s.sz - 1 - 1) s.bufa s.offa
    let bufa ← wr bufa offa outval
    some ({ s with bufb := bufb, offb := offb, bufa := bufa, offa := offa }, outval)

/-- `Filter::process`, dsp/signalconditioning/Filter.cpp:78-126: the output block. -/
def process (s : State R) : List R → Option (State R × List R)
  | [] => some (s, [])
  | x :: xs => do
    let (s, y) ← step s x
    let (s, ys) ← process s xs
    some (s, y :: ys)

/-- The edge-reflected input of `FiltFilt::process`, dsp/signalconditioning/FiltFilt.cpp:41-75:
a zeroed scratch array of `length + 2*nFact` elements, reflected heads and tails, then the block. -/
def extend (nFact : Nat) (src : List R) : Option (List R) := do
  let length := src.length
  let nExt := length + 2 * nFact
  let scratch := List.replicate nExt (0 : R)
  let s0 ← src[0]?
  let sample0 := 2 * s0
  let sN ← src[length - 1]?
  let sampleN := 2 * sN
  -- lines 55-60: i runs from nFact down to 1, index = nFact - i
  let scratch ← loop nFact (fun index sc => do
    let i := nFact - index
    if i < length then
      let v ← src[i]?
      wr sc index (sample0 - v)
    else some sc) scratch
  -- lines 61-68
  let scratch ← loop nFact (fun i sc => do
    if i + 1 < length then
      let v ← src[(length - 2) - i]?
      wr sc ((nExt - nFact) + i) (sampleN - v)
    else some sc) scratch
  -- lines 70-72
  loop length (fun i sc => do
    let v ← src[i]?
    wr sc (i + nFact) v) scratch

/-- `FiltFilt::process`, dsp/signalconditioning/FiltFilt.cpp:28-94. `m_ord` is the filter's order
`sz - 1`. The two reversing copies (lines 79-81, 90-92) are written as list reversals of blocks whose
length is known. -/
def filtfilt (s : State R) (src : List R) : Option (State R × List R) :=
  if src.length = 0 then some (s, [])
  else do
    let nFact := 3 * (s.sz - 1)
    let ext ← extend nFact src
    let (s, out) ← process s ext
    let (s, out2) ← process (reset s) out.reverse
    some (s, (out2.reverse.drop nFact).take src.length)

end QM.Filter
