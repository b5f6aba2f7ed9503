import Verif.Kiss.Model

/-!
# dsp/transforms/FFT.cpp and ext/kissfft/tools/kiss_fftr.c

Doubles are real numbers. An object holds its plans and its work buffers, whose contents survive from call to call.
Output arrays are lists that are written in place (`none` if a write or read is out of bounds); input and output arrays of a
call are taken to be distinct.
-/

namespace QM.FFT

open Complex QM.Kiss

/-! ## `FFT` -/

/-- `FFT::D`, dsp/transforms/FFT.cpp:70-75. -/
structure D where
  n : Nat
  planf : Plan
  plani : Plan
  kin : List ℂ
  kout : List ℂ

/-- `FFT::D::D`, dsp/transforms/FFT.cpp:25-30; `new` leaves the buffers uninitialised (`k1`, `k2`). -/
noncomputable def D.make (n : Nat) (k1 k2 : ℂ) : Option D := do
  let planf ← alloc n false
  let plani ← alloc n true
  pure ⟨n, planf, plani, List.replicate n k1, List.replicate n k2⟩

/-- `(ii ? ii[i] : 0.0)`, dsp/transforms/FFT.cpp:47. -/
noncomputable def imagIn (ii : Option (List ℝ)) (i : Nat) : Option ℝ :=
  match ii with
  | some ii => ii[i]?
  | none => some 0

/-- `FFT::D::process`, dsp/transforms/FFT.cpp:39-67; `ii = none` is a null pointer. -/
noncomputable def D.process (d : D) (inverse : Bool) (ri : List ℝ) (ii : Option (List ℝ)) (ro io : List ℝ) :
    Option (D × List ℝ × List ℝ) := do
  let kin ← loop d.n (fun i kin => do
    let r ← ri[i]?
    let im ← imagIn ii i
    wr kin i ⟨r, im⟩) d.kin
  if !inverse then
    let kout ← Kiss.fft d.planf kin d.kout [] false
    let (ro, io) ← loop d.n (fun i (p : List ℝ × List ℝ) => do
      let v ← kout[i]?
      let ro ← wr p.1 i v.re
      let io ← wr p.2 i v.im
      pure (ro, io)) (ro, io)
    pure ({ d with kin := kin, kout := kout }, ro, io)
  else
    let kout ← Kiss.fft d.plani kin d.kout [] false
    let scale : ℝ := 1 / d.n
    let (ro, io) ← loop d.n (fun i (p : List ℝ × List ℝ) => do
      let v ← kout[i]?
      let ro ← wr p.1 i (v.re * scale)
      let io ← wr p.2 i (v.im * scale)
      pure (ro, io)) (ro, io)
    pure ({ d with kin := kin, kout := kout }, ro, io)

/-! ## `kiss_fftr` -/

/-- `struct kiss_fftr_state`, ext/kissfft/tools/kiss_fftr.c:18-25. -/
structure RPlan where
  sub : Plan
  tmpbuf : List ℂ
  super : List ℂ

/-- The phase of super twiddle `i`, ext/kissfft/tools/kiss_fftr.c:58-61. -/
noncomputable def superPhase (nfft : Nat) (inverse : Bool) (i : Nat) : ℝ :=
  let ph := -Real.pi * (((i : ℝ) + 1) / nfft + 1 / 2)
  if inverse then ph * -1 else ph

/-- `kiss_fftr_alloc`, ext/kissfft/tools/kiss_fftr.c:27-65. `none`: an odd size (the C function returns NULL). There is room
for `nfft * 3 / 2` numbers, of which `tmpbuf` gets `nfft` (lines 40, 54-56). `u` is the content of uninitialised memory. -/
noncomputable def ralloc (n : Nat) (inverse : Bool) (u : ℂ) : Option RPlan :=
  if n % 2 = 1 then none
  else do
    let nfft := n / 2
    let sub ← alloc nfft inverse
    let super ← loop (nfft / 2) (fun i t => wr t i (kfCexp (superPhase nfft inverse i)))
      (List.replicate (nfft * 3 / 2 - nfft) u)
    pure ⟨sub, List.replicate nfft u, super⟩

/-- `(const kiss_fft_cpx *)` of an array of scalars. -/
def pack : List ℝ → List ℂ
  | a :: b :: t => ⟨a, b⟩ :: pack t
  | _ => []

/-- `(kiss_fft_scalar *)` of an array of complex numbers. -/
def unpack : List ℂ → List ℝ
  | [] => []
  | z :: t => z.re :: z.im :: unpack t

/-- One iteration of the loop of `kiss_fftr`, ext/kissfft/tools/kiss_fftr.c:103-120, `k = k' + 1`. -/
noncomputable def fftrBody (ncfft : Nat) (super tmpbuf : List ℂ) (k' : Nat) (freq : List ℂ) : Option (List ℂ) := do
  let k := k' + 1
  let fpk ← tmpbuf[k]?
  let t ← tmpbuf[ncfft - k]?
  let fpnk : ℂ := ⟨t.re, -t.im⟩
  let f1k := fpk + fpnk
  let f2k := fpk - fpnk
  let s ← super[k - 1]?
  let tw := f2k * s
  let freq ← wr freq k ⟨(f1k.re + tw.re) * (1 / 2), (f1k.im + tw.im) * (1 / 2)⟩
  wr freq (ncfft - k) ⟨(f1k.re - tw.re) * (1 / 2), (tw.im - f1k.im) * (1 / 2)⟩

/-- `kiss_fftr`, ext/kissfft/tools/kiss_fftr.c:67-121. Returns the plan (with its `tmpbuf`) and `freqdata`.
`exit(1)` for a plan of the wrong direction is `none`. -/
noncomputable def fftr (st : RPlan) (time : List ℝ) (freq : List ℂ) : Option (RPlan × List ℂ) :=
  if st.sub.inverse then none
  else do
    let ncfft := st.sub.nfft
    let tmpbuf ← Kiss.fft st.sub (pack time) st.tmpbuf [] false
    let tdc ← tmpbuf[0]?
    let freq ← wr freq 0 ⟨tdc.re + tdc.im, 0⟩
    let freq ← wr freq ncfft ⟨tdc.re - tdc.im, 0⟩
    let freq ← loop (ncfft / 2) (fftrBody ncfft st.super tmpbuf) freq
    pure ({ st with tmpbuf := tmpbuf }, freq)

/-- One iteration of the loop of `kiss_fftri`, ext/kissfft/tools/kiss_fftr.c:139-157, `k = k' + 1`. -/
noncomputable def fftriBody (ncfft : Nat) (super freq : List ℂ) (k' : Nat) (tmpbuf : List ℂ) : Option (List ℂ) := do
  let k := k' + 1
  let fk ← freq[k]?
  let t ← freq[ncfft - k]?
  let fnkc : ℂ := ⟨t.re, -t.im⟩
  let fek := fk + fnkc
  let tmp := fk - fnkc
  let s ← super[k - 1]?
  let fok := tmp * s
  let tmpbuf ← wr tmpbuf k (fek + fok)
  let d := fek - fok
  wr tmpbuf (ncfft - k) ⟨d.re, d.im * -1⟩

/-- `kiss_fftri`, ext/kissfft/tools/kiss_fftr.c:123-159. The transform is written straight into `timedata`. -/
noncomputable def fftri (st : RPlan) (freq : List ℂ) (time : List ℝ) : Option (RPlan × List ℝ) :=
  if st.sub.inverse = false then none
  else do
    let ncfft := st.sub.nfft
    let f0 ← freq[0]?
    let fn ← freq[ncfft]?
    let tmpbuf ← wr st.tmpbuf 0 ⟨f0.re + fn.re, f0.re - fn.re⟩
    let tmpbuf ← loop (ncfft / 2) (fftriBody ncfft st.super freq) tmpbuf
    let out ← Kiss.fft st.sub tmpbuf (pack time) [] false
    pure ({ st with tmpbuf := tmpbuf }, unpack out ++ time.drop (2 * (time.length / 2)))

/-! ## `FFTReal` -/

/-- `FFTReal::D`, dsp/transforms/FFT.cpp:166-170. -/
structure RD where
  n : Nat
  planf : RPlan
  plani : RPlan
  c : List ℂ

/-- `FFTReal::D::D`, dsp/transforms/FFT.cpp:103-111. `none`: the exception for odd sizes. -/
noncomputable def RD.make (n : Nat) (u : ℂ) : Option RD :=
  if n % 2 = 1 then none
  else do
    let planf ← ralloc n false u
    let plani ← ralloc n true u
    pure ⟨n, planf, plani, List.replicate n u⟩

/-- `FFTReal::D::forward`, dsp/transforms/FFT.cpp:119-132. -/
noncomputable def RD.forward (d : RD) (ri ro io : List ℝ) : Option (RD × List ℝ × List ℝ) := do
  let (planf, c) ← fftr d.planf ri d.c
  let p ← loop (d.n / 2 + 1) (fun i (p : List ℝ × List ℝ) => do
    let v ← c[i]?
    let ro ← wr p.1 i v.re
    let io ← wr p.2 i v.im
    pure (ro, io)) (ro, io)
  let p ← loop (d.n / 2 - 1) (fun i (p : List ℝ × List ℝ) => do
    let r ← p.1[i + 1]?
    let ro ← wr p.1 (d.n - i - 1) r
    let im ← p.2[i + 1]?
    let io ← wr p.2 (d.n - i - 1) (-im)
    pure (ro, io)) p
  pure ({ d with planf := planf, c := c }, p.1, p.2)

/-- `FFTReal::D::forwardMagnitude`, dsp/transforms/FFT.cpp:134-145; `u` is uninitialised memory. -/
noncomputable def RD.forwardMagnitude (d : RD) (ri mo : List ℝ) (u : ℝ) : Option (RD × List ℝ) := do
  let (d', mo, io) ← d.forward ri mo (List.replicate d.n u)
  let mo ← loop d.n (fun i mo => do
    let r ← mo[i]?
    let im ← io[i]?
    wr mo i (Real.sqrt (r * r + im * im))) mo
  pure (d', mo)

/-- `FFTReal::D::inverse`, dsp/transforms/FFT.cpp:147-164. -/
noncomputable def RD.inverse (d : RD) (ri ii ro : List ℝ) : Option (RD × List ℝ) := do
  let c ← loop (d.n / 2 + 1) (fun i c => do
    let r ← ri[i]?
    let im ← ii[i]?
    wr c i ⟨r, im⟩) d.c
  let (plani, ro) ← fftri d.plani c ro
  let scale : ℝ := 1 / d.n
  let ro ← loop d.n (fun i ro => do
    let v ← ro[i]?
    wr ro i (v * scale)) ro
  pure ({ d with plani := plani, c := c }, ro)

end QM.FFT
