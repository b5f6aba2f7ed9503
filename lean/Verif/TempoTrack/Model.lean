import Verif.Common.Mat
import Verif.MathReal.Model
import Verif.Framer.Model

/-!
# Model of `dsp/tempotracking/TempoTrack.cpp`

Doubles are elements of an ordered field `K`; where a value can be "not a number" it is an `Option K`, and comparisons with `none` are
false. `none` as the result of a function is an access outside an array, or a loop that has not ended after the given number of rounds.

The conditioning of the detection function frame followed by its autocorrelation (modelled in `Verif/DFProcess` and
`Verif/Correlation`) is the parameter `acf`. The smoothing and normalisation of the comb filter output is the parameter `smooth`; its
values are of an arbitrary type `E`, on which only a comparison and a function that makes matrix entries are given, so that infinities
and values that are not numbers are covered.
-/

namespace QM.TempoTrack

open QM.MathReal

/-- Parameters of a `TempoTrack` and what it calls. -/
structure Env (K E : Type) where
  win : Nat
  lag : Nat
  ex : K → K
  root : K
  acf : List K → List (Option K)
  smooth : List (Option K) → List E
  entry : E → E → Nat → Nat → E
  lt : E → E → Bool
  zeroE : E

section
variable {K E : Type} [Field K] [LinearOrder K] [FloorRing K]

/-- `TempoTrack::createCombFilter`, dsp/tempotracking/TempoTrack.cpp:111-130. `root` is the square root of two pi. -/
def createCombFilter (env : Env K E) (filter : List K) (beatLag : K) : Option (List K) :=
  loop env.lag (fun i filter =>
    if beatLag = 0 then wr filter i ((((i + 1 : Nat) : K) / 43 ^ 2) * env.ex (-((i + 1 : Nat) : K) ^ 2 / (2 * 43 ^ 2)))
    else
      let sigma := beatLag / 4
      let dlag := ((i + 1 : Nat) : K) - beatLag
      wr filter i (env.ex (-(1 / 2) * (dlag / sigma) ^ 2) / (env.root * sigma))) filter

/-- The comb filter bank of `tempoMM`, dsp/tempotracking/TempoTrack.cpp:147-173. The loop variable `b` is `1 - a + b'`. -/
def combBank (lag : Nat) (acf : List (Option K)) (weight : List K) (tsig : Nat) : Option (List (Option K)) :=
  loop (lag - 2) (fun i' scr =>
    loop (if tsig = 0 then 4 else tsig) (fun a' scr =>
      loop (2 * (a' + 1) - 1) (fun b' scr => do
        let v ← acf[(a' + 1) * (i' + 1 + 1) + 1 + b' - (a' + 1) - 1]?
        let w ← weight[i' + 1]?
        let s ← scr[i' + 1]?
        wr scr (i' + 1) (do
          let s ← s
          let v ← v
          some (s + v * (if tsig = 0 then 1 / (2 * ((a' + 1 : Nat) : K) - 1) else 1) * w))) scr) scr) (List.replicate lag (some 0))

/-- The search for the maximum with a known metre, dsp/tempotracking/TempoTrack.cpp:184-192. -/
def maxIndex (scr : List (Option K)) : Nat :=
  (scr.foldl (fun (s : K × Nat × Nat) x => match x with
    | some v => if v > s.1 then (v, s.2.2, s.2.2 + 1) else (s.1, s.2.1, s.2.2 + 1)
    | none => (s.1, s.2.1, s.2.2 + 1)) (0, 0, 0)).2.1

/-- The search for a pair of periods, dsp/tempotracking/TempoTrack.cpp:194-271. `scr` holds the smoothed and normalised values. -/
def pairIndex (env : Env K E) (scr : List E) : Option Nat := do
  let mat ← loop (env.lag - 1) (fun i mat =>
    loop (env.lag - 1) (fun j mat => do
      let x ← scr[i + 1]?
      let y ← scr[j + 1]?
      wr2 mat (i + 1) (j + 1) (env.entry x y (i + 1) (j + 1))) mat) (List.replicate env.lag (List.replicate env.lag env.zeroE))
  let maxVal ← loop (env.lag - 1) (fun i m =>
    loop (env.lag - 1) (fun j m => do
      let v ← rd2 mat (i + 1) (j + 1)
      pure (if env.lt m v then v else m)) m) env.zeroE
  let mat ← loop (env.lag - 1) (fun i mat => wr2 mat (i + 1) (i + 1) maxVal) mat
  let s ← loop (env.lag - 1) (fun i (s : E × Nat × Nat) =>
    loop (env.lag - 1) (fun j (s : E × Nat × Nat) => do
      let v ← rd2 mat (i + 1) (j + 1)
      pure (if env.lt v s.1 then (v, i + 1, j + 1) else s)) s) (maxVal, 1, 1)
  let x ← scr[s.2.1]?
  let y ← scr[s.2.2]?
  pure (if env.lt y x then s.2.1 else s.2.2)

/-- One of the peak searches, dsp/tempotracking/TempoTrack.cpp:304-314, 316-327, 329-341, 358-369, 371-383: the offset of the greatest of
`cnt` values. -/
def peak (acf : List (Option K)) (start cnt : Nat) : Option Nat := do
  let s ← loop cnt (fun c (s : K × Nat) => do
    let v ← acf[start + c]?
    match v with
    | some v => pure (if v > s.1 then (v, c) else s)
    | none => pure s) (0, 0)
  pure s.2

/-- The period from the peaks, dsp/tempotracking/TempoTrack.cpp:286-392. -/
def periodOf (acf : List (Option K)) (m tsig : Nat) : Option K := do
  let t1 ← peak acf (2 * m) 3
  let t2 ← peak acf (3 * m) 5
  let p0 : K := (m : K) + 1
  let p1 : K := (((t1 : Int) + 1 + ((2 * m + 1) - 2) + 1 : Int) : K) / 2
  let p2 : K := (((t2 : Int) + 1 + ((3 * m + 2) - 4) + 1 : Int) : K) / 3
  if tsig = 4 then do
    let t3 ← peak acf (4 * m) 7
    let p3 : K := (((t3 : Int) + 1 + ((4 * m + 3) - 9) + 1 : Int) : K) / 4
    pure (mean [p0, p1, p2, p3])
  else pure (mean [p0, p1, p2])

/-- The chosen place in the filter bank, dsp/tempotracking/TempoTrack.cpp:184-271. -/
def bestLag (env : Env K E) (scr : List (Option K)) (tsig : Nat) : Option Nat :=
  if tsig ≠ 0 then some (maxIndex scr) else pairIndex env (env.smooth scr)

/-- `TempoTrack::tempoMM`, dsp/tempotracking/TempoTrack.cpp:132-397. Returns the period and `m_lockedTempo`. -/
def tempoMM (env : Env K E) (acf : List (Option K)) (weight : List K) (tsig : Nat) (locked : K) : Option (K × K) := do
  let scr ← combBank env.lag acf weight tsig
  let m ← bestLag env scr tsig
  let l : K := 5168 / (m : K)
  let locked := if m ≠ 0 ∧ 30 ≤ l ∧ l ≤ 180 then l else locked
  let period ← periodOf acf m (if tsig = 0 then 4 else tsig)
  pure (period, locked)

/-- `TempoTrack::stepDetect`, dsp/tempotracking/TempoTrack.cpp:399-412. -/
def stepDetect (periodP periodG : List K) (idx flag : Nat) : Option Nat := do
  let g ← periodG[idx]?
  let p ← periodP[idx]?
  if flag ≠ 0 then pure flag
  else pure (if |g - p| > 39017 / 10000 then 3 else flag)

/-- `TempoTrack::constDetect`, dsp/tempotracking/TempoTrack.cpp:414-423. -/
def constDetect (periodP : List K) (idx : Nat) : Option Nat := do
  let x ← rdI periodP (idx : Int)
  let y ← rdI periodP ((idx : Int) - 1)
  let z ← rdI periodP ((idx : Int) - 2)
  pure (if |2 * x - y - z| < 2 * (39017 / 10000) then 1 else 0)

/-- The energy loops of `findMeter`, dsp/tempotracking/TempoTrack.cpp:443-474: five values around `c`. -/
def energy (acf : List (Option K)) (c : Int) : Option (Option K) :=
  loop 5 (fun i (t : Option K) => do
    let v ← rdI acf (c - 2 + i)
    pure (do
      let t ← t
      let v ← v
      some (t + v))) (some 0)

/-- `a > b` for values that may not be numbers. -/
def gtNN (a b : Option K) : Bool :=
  match a, b with
  | some x, some y => decide (x > y)
  | _, _ => false

/-- `TempoTrack::findMeter`, dsp/tempotracking/TempoTrack.cpp:425-485, for a block of at least five values (`dbf` is otherwise
overrun). -/
def findMeter (acf : List (Option K)) (period : K) : Option Nat :=
  let p := MathReal.round period
  let len := acf.length
  if len < 5 then none
  else if (len : Int) < 6 * p + 2 then do
    let e3 ← energy acf (3 * p)
    let e4 ← energy acf (4 * p)
    pure (if gtNN e3 e4 then 3 else 4)
  else do
    let a3 ← energy acf (3 * p)
    let a4 ← energy acf (4 * p)
    let b3 ← energy acf (6 * p)
    let b4 ← energy acf (2 * p)
    let e3 := do
      let a ← a3
      let b ← b3
      some (a + b)
    let e4 := do
      let a ← a4
      let b ← b4
      some (a + b)
    pure (if gtNN e3 e4 then 3 else 4)

/-- `TempoTrack::createPhaseExtractor`, dsp/tempotracking/TempoTrack.cpp:487-554. A negative array size makes the result `none`. The
minimum and maximum of the window are those of `getFrameMinMax`. -/
def createPhaseExtractor (env : Env K E) (filter : List K) (period : K) (fsp lastBeat : Int) : Option (List K) :=
  let p := MathReal.round period
  if p < 0 then none
  else
    let p := p.toNat
    let off : Int := lastBeat + p - fsp
    let lastBeat := if lastBeat ≠ 0 ∧ off < 0 then 0 else lastBeat
    if lastBeat ≠ 0 then do
      let sigma : K := (p : K) / 8
      let scratch ← loop (p * 2) (fun i s =>
        wr s i (env.ex (-(1 / 2) * ((((i : Int) - p : Int) : K) / sigma) ^ 2) / (env.root * sigma))) (List.replicate (p * 2 + 2) 0)
      let mm := getFrameMinMax (scratch.take (p * 2))
      let scratch ← loop (p * 2) (fun i s => do
        let t ← s[i]?
        wr s i ((t - mm.1) / mm.2)) scratch
      loop p (fun index filter => do
        let v ← rdI scratch ((p : Int) - (off - 1) + index)
        wr filter index v) filter
    else loop p (fun i filter => wr filter i 1) filter

/-- `TempoTrack::phaseMM`, dsp/tempotracking/TempoTrack.cpp:556-592. -/
def phaseMM (df weighting : List K) (win : Nat) (period : K) : Option Nat :=
  let p := MathReal.round period
  if p < 0 then none
  else do
    let p := p.toNat
    let align ← loop p (fun o (align : List K) => do
      let temp ← loop ((win - o + p) / (p + 1)) (fun k temp => do
        let v ← df[o + k * (p + 1)]?
        pure (temp + v * ((((win : Int) - (o + k * (p + 1) : Nat) : Int) : K) / (win : K)) ^ 2)) 0
      let w ← weighting[o]?
      wr align o (temp * w)) (List.replicate p 0)
    let s ← loop p (fun i (s : K × Nat) => do
      let v ← align[i]?
      pure (if v > s.1 then (v, i) else s)) (0, 0)
    pure s.2

/-- The loop of `beatPredict`, dsp/tempotracking/TempoTrack.cpp:606-609: at most `fuel` rounds. -/
def place (p fep : Int) : Nat → Int → List Int → Option (Int × List Int)
  | 0, _, _ => none
  | fuel + 1, beat, beats => if beat + p < fep then place p fep fuel (beat + p) (beats ++ [beat + p]) else some (beat, beats)

/-- `TempoTrack::beatPredict`, dsp/tempotracking/TempoTrack.cpp:594-612. Returns the last beat and all beats. -/
def beatPredict (fuel : Nat) (fsp : Int) (alignment period : K) (step : Nat) (beats : List Int) : Option (Int × List Int) :=
  let p := MathReal.round period
  let align := MathReal.round alignment
  place p (fsp + step) fuel (fsp + align) (beats ++ [fsp + align])

/-- The variables of `process`, dsp/tempotracking/TempoTrack.cpp:619-671, with `m_beats`, `m_lockedTempo` and the framer. -/
structure St (K : Type) where
  framer : Framer.State K
  raw : List K
  stepFlag : Nat
  constFlag : Nat
  fsp : Int
  tsig : Nat
  lastBeat : Int
  gw : List K
  pw : List K
  periodP : List K
  periodG : List K
  beats : List Int
  locked : K
  tempi : List K

/-- The flags, dsp/tempotracking/TempoTrack.cpp:691-700: the new `stepFlag` and `constFlag`. -/
def flags (periodP : List K) (idx stepFlag constFlag : Nat) : Option (Nat × Nat) :=
  if stepFlag = 1 then do
    let c ← constDetect periodP idx
    pure (0, c)
  else some (stepFlag - 1, constFlag)

/-- The choice of the period, dsp/tempotracking/TempoTrack.cpp:685-757, after `stepDetect`. Returns the state and the period. -/
def choose (env : Env K E) (acf : List (Option K)) (idx : Nat) (s : St K) : Option (St K × K) := do
  let fl ← flags s.periodP idx s.stepFlag s.constFlag
  let s := { s with stepFlag := fl.1, constFlag := fl.2 }
  let g0 ← s.gw[0]?
  let pP ← s.periodP[idx]?
  if s.constFlag ≠ 0 then do
    let tsig ← findMeter acf pP
    let gw ← createCombFilter env s.gw pP
    let r ← tempoMM env acf gw tsig s.locked
    let pg ← wr s.periodG idx r.1
    let pw ← createPhaseExtractor env s.pw r.1 s.fsp 0
    pure ({ s with tsig := tsig, gw := gw, locked := r.2, periodG := pg, pw := pw, constFlag := 0 }, r.1)
  else if g0 ≠ 0 then do
    let pg ← s.periodG[idx]?
    let period := if pg > 10000 then ((5168 / 120 : Nat) : K) else pg
    let pw ← createPhaseExtractor env s.pw period s.fsp s.lastBeat
    pure ({ s with pw := pw }, period)
  else do
    let pw ← createPhaseExtractor env s.pw pP s.fsp 0
    pure ({ s with pw := pw }, pP)

/-- The period with the context-dependent weighting, dsp/tempotracking/TempoTrack.cpp:683-687. -/
def contextPeriod (env : Env K E) (acf : List (Option K)) (gw : List K) (tsig : Nat) (locked : K) : Option (K × K) := do
  let g0 ← gw[0]?
  if g0 ≠ 0 then tempoMM env acf gw tsig locked else pure (0, locked)

/-- One frame of `process`, dsp/tempotracking/TempoTrack.cpp:675-770. -/
def frameStep (env : Env K E) (fuel : Nat) (rw : List K) (idx : Nat) (s : St K) : Option (St K) := do
  let fr ← Framer.getFrame s.framer s.raw
  let s := { s with framer := fr.1, raw := fr.2 }
  let acf := env.acf s.raw
  let r ← tempoMM env acf rw 0 s.locked
  let pp ← wr s.periodP idx r.1
  let s := { s with periodP := pp, locked := r.2 }
  let g ← contextPeriod env acf s.gw s.tsig s.locked
  let pg ← wr s.periodG idx g.1
  let s := { s with periodG := pg, locked := g.2 }
  let f ← stepDetect s.periodP s.periodG idx s.stepFlag
  let c ← choose env acf idx { s with stepFlag := f }
  let s := c.1
  let al ← phaseMM s.raw s.pw env.win c.2
  let b ← beatPredict fuel s.fsp (al : K) c.2 env.lag s.beats
  pure { s with lastBeat := b.1, beats := b.2, fsp := s.fsp + env.lag, tempi := s.tempi ++ [s.locked] }

/-- `TempoTrack::process`, dsp/tempotracking/TempoTrack.cpp:616-785, on a tracker whose framer is in state `framer` and whose frame
buffer holds `raw`. Returns the new state of the framer, the frame buffer, the beats and the tempi. -/
def process (env : Env K E) (fuel : Nat) (framer : Framer.State K) (raw : List K) (df : List K) : Option (Framer.State K × List K × List Int × List K) := do
  let fr ← Framer.setSource framer df
  let rw ← createCombFilter env (List.replicate env.lag 0) 0
  let n := fr.maxFrames
  let s ← loop n (frameStep env fuel rw)
    { framer := fr, raw := raw, stepFlag := 0, constFlag := 0, fsp := 0, tsig := 0, lastBeat := 0, gw := List.replicate env.lag 0,
      pw := List.replicate env.lag 0, periodP := List.replicate n 0, periodG := List.replicate n 0, beats := [], locked := 0, tempi := [] }
  pure (s.framer, s.raw, s.beats, s.tempi)

end

end QM.TempoTrack
