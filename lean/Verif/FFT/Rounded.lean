import Verif.Kiss.Rounded
import Verif.FFT.Model

/-!
# dsp/transforms/FFT.cpp and ext/kissfft/tools/kiss_fftr.c in floating point

The functions of `Verif.FFT.Model` again, with every operation on `double`s followed by a rounding `fl`. `cosF`, `sinF` are the
functions of the C library; its square root is rounded correctly, as IEEE 754 requires. Negations, and the multiplication by -1 in
`kiss_fftri`, are exact. With `fl` the identity the functions are those of `Verif.FFT.Model` (`processF_id`, `forwardF_id`, …).
-/

namespace QM.FFT

open Complex QM.Kiss

noncomputable section

variable (fl cosF sinF : ℝ → ℝ)

/-! ## `FFT` -/

/-- `FFT::D::D`, dsp/transforms/FFT.cpp:25-30. -/
def D.makeF (n : Nat) (k1 k2 : ℂ) : Option D := do
  let planf ← allocF fl cosF sinF n false
  let plani ← allocF fl cosF sinF n true
  pure ⟨n, planf, plani, List.replicate n k1, List.replicate n k2⟩

/-- `FFT::D::process`, dsp/transforms/FFT.cpp:39-67. -/
def D.processF (d : D) (inverse : Bool) (ri : List ℝ) (ii : Option (List ℝ)) (ro io : List ℝ) :
    Option (D × List ℝ × List ℝ) := do
  let kin ← loop d.n (fun i kin => do
    let r ← ri[i]?
    let im ← imagIn ii i
    wr kin i ⟨r, im⟩) d.kin
  if !inverse then
    let kout ← fftF fl d.planf kin d.kout
    let (ro, io) ← loop d.n (fun i (p : List ℝ × List ℝ) => do
      let v ← kout[i]?
      let ro ← wr p.1 i v.re
      let io ← wr p.2 i v.im
      pure (ro, io)) (ro, io)
    pure ({ d with kin := kin, kout := kout }, ro, io)
  else
    let kout ← fftF fl d.plani kin d.kout
    let scale : ℝ := fl (1 / d.n)
    let (ro, io) ← loop d.n (fun i (p : List ℝ × List ℝ) => do
      let v ← kout[i]?
      let ro ← wr p.1 i (fl (v.re * scale))
      let io ← wr p.2 i (fl (v.im * scale))
      pure (ro, io)) (ro, io)
    pure ({ d with kin := kin, kout := kout }, ro, io)

/-! ## `kiss_fftr` -/

/-- The phase of super twiddle `i`, ext/kissfft/tools/kiss_fftr.c:58-61. -/
def superPhaseF (nfft : Nat) (inverse : Bool) (i : Nat) : ℝ :=
  let ph := fl (-fl Real.pi * fl (fl (((i : ℝ) + 1) / nfft) + 1 / 2))
  if inverse then fl (ph * -1) else ph

/-- `kiss_fftr_alloc`, ext/kissfft/tools/kiss_fftr.c:27-65. -/
def rallocF (n : Nat) (inverse : Bool) (u : ℂ) : Option RPlan :=
  if n % 2 = 1 then none
  else do
    let nfft := n / 2
    let sub ← allocF fl cosF sinF nfft inverse
    let super ← loop (nfft / 2)
      (fun i t => wr t i ⟨cosF (superPhaseF fl nfft inverse i), sinF (superPhaseF fl nfft inverse i)⟩)
      (List.replicate (nfft * 3 / 2 - nfft) u)
    pure ⟨sub, List.replicate nfft u, super⟩

/-- One iteration of the loop of `kiss_fftr`, ext/kissfft/tools/kiss_fftr.c:103-120, `k = k' + 1`. -/
def fftrBodyF (ncfft : Nat) (super tmpbuf : List ℂ) (k' : Nat) (freq : List ℂ) : Option (List ℂ) := do
  let k := k' + 1
  let fpk ← tmpbuf[k]?
  let t ← tmpbuf[ncfft - k]?
  let fpnk : ℂ := ⟨t.re, -t.im⟩
  let f1k := cadd fl fpk fpnk
  let f2k := csub fl fpk fpnk
  let s ← super[k - 1]?
  let tw := cmul fl f2k s
  let freq ← wr freq k ⟨fl (fl (f1k.re + tw.re) * (1 / 2)), fl (fl (f1k.im + tw.im) * (1 / 2))⟩
  wr freq (ncfft - k) ⟨fl (fl (f1k.re - tw.re) * (1 / 2)), fl (fl (tw.im - f1k.im) * (1 / 2))⟩

/-- `kiss_fftr`, ext/kissfft/tools/kiss_fftr.c:67-121. -/
def fftrF (st : RPlan) (time : List ℝ) (freq : List ℂ) : Option (RPlan × List ℂ) :=
  if st.sub.inverse then none
  else do
    let ncfft := st.sub.nfft
    let tmpbuf ← fftF fl st.sub (pack time) st.tmpbuf
    let tdc ← tmpbuf[0]?
    let freq ← wr freq 0 ⟨fl (tdc.re + tdc.im), 0⟩
    let freq ← wr freq ncfft ⟨fl (tdc.re - tdc.im), 0⟩
    let freq ← loop (ncfft / 2) (fftrBodyF fl ncfft st.super tmpbuf) freq
    pure ({ st with tmpbuf := tmpbuf }, freq)

/-- One iteration of the loop of `kiss_fftri`, ext/kissfft/tools/kiss_fftr.c:139-157, `k = k' + 1`. -/
def fftriBodyF (ncfft : Nat) (super freq : List ℂ) (k' : Nat) (tmpbuf : List ℂ) : Option (List ℂ) := do
  let k := k' + 1
  let fk ← freq[k]?
  let t ← freq[ncfft - k]?
  let fnkc : ℂ := ⟨t.re, -t.im⟩
  let fek := cadd fl fk fnkc
  let tmp := csub fl fk fnkc
  let s ← super[k - 1]?
  let fok := cmul fl tmp s
  let tmpbuf ← wr tmpbuf k (cadd fl fek fok)
  let d := csub fl fek fok
  wr tmpbuf (ncfft - k) ⟨d.re, d.im * -1⟩

/-- `kiss_fftri`, ext/kissfft/tools/kiss_fftr.c:123-159. -/
def fftriF (st : RPlan) (freq : List ℂ) (time : List ℝ) : Option (RPlan × List ℝ) :=
  if st.sub.inverse = false then none
  else do
    let ncfft := st.sub.nfft
    let f0 ← freq[0]?
    let fn ← freq[ncfft]?
    let tmpbuf ← wr st.tmpbuf 0 ⟨fl (f0.re + fn.re), fl (f0.re - fn.re)⟩
    let tmpbuf ← loop (ncfft / 2) (fftriBodyF fl ncfft st.super freq) tmpbuf
    let out ← fftF fl st.sub tmpbuf (pack time)
    pure ({ st with tmpbuf := tmpbuf }, unpack out ++ time.drop (2 * (time.length / 2)))

/-! ## `FFTReal` -/

/-- `FFTReal::D::D`, dsp/transforms/FFT.cpp:103-111. -/
def RD.makeF (n : Nat) (u : ℂ) : Option RD :=
  if n % 2 = 1 then none
  else do
    let planf ← rallocF fl cosF sinF n false u
    let plani ← rallocF fl cosF sinF n true u
    pure ⟨n, planf, plani, List.replicate n u⟩

/-- `FFTReal::D::forward`, dsp/transforms/FFT.cpp:119-132. -/
def RD.forwardF (d : RD) (ri ro io : List ℝ) : Option (RD × List ℝ × List ℝ) := do
  let (planf, c) ← fftrF fl d.planf ri d.c
  let p ← loop (d.n / 2 + 1) (fun i (p : List ℝ × List ℝ) => do
    let v ← c[i]?
    let ro ← wr p.1 i v.re
    let io ← wr p.2 i v.im
    pure (ro, io)) (ro, io)
  let p ← loop (d.n / 2 - 1) (fun i (p : List ℝ × List ℝ) => do
    let r ← p.1[i + 1]?
    let ro ← wr p.1 (d.n - i - 1) r
    let im ← p.2[i + 1]?
    let io ← wr p.2 (d.n - i - 1) (-im)
    pure (ro, io)) p
  pure ({ d with planf := planf, c := c }, p.1, p.2)

/-- `FFTReal::D::forwardMagnitude`, dsp/transforms/FFT.cpp:134-145; `none` also if the square root is taken of a negative number. -/
def RD.forwardMagnitudeF (d : RD) (ri mo : List ℝ) (u : ℝ) : Option (RD × List ℝ) := do
  let (d', mo, io) ← d.forwardF fl ri mo (List.replicate d.n u)
  let mo ← loop d.n (fun i mo => do
    let r ← mo[i]?
    let im ← io[i]?
    let a := fl (fl (r * r) + fl (im * im))
    if a < 0 then none
    else wr mo i (fl (Real.sqrt a))) mo
  pure (d', mo)

/-- `FFTReal::D::inverse`, dsp/transforms/FFT.cpp:147-164. -/
def RD.inverseF (d : RD) (ri ii ro : List ℝ) : Option (RD × List ℝ) := do
  let c ← loop (d.n / 2 + 1) (fun i c => do
    let r ← ri[i]?
    let im ← ii[i]?
    wr c i ⟨r, im⟩) d.c
  let (plani, ro) ← fftriF fl d.plani c ro
  let scale : ℝ := fl (1 / d.n)
  let ro ← loop d.n (fun i ro => do
    let v ← ro[i]?
    wr ro i (fl (v * scale))) ro
  pure ({ d with plani := plani, c := c }, ro)

end

/-! ## Without rounding -/

theorem processF_id (d : D) : d.processF id = d.process := by
  funext inverse ri ii ro io
  simp only [D.processF, D.process, fftF_id, id_eq]

theorem makeF_id (n : Nat) (k1 k2 : ℂ) : D.makeF id Real.cos Real.sin n k1 k2 = D.make n k1 k2 := by
  simp only [D.makeF, D.make, allocF_id]

theorem rallocF_id (n : Nat) (inv : Bool) (u : ℂ) : rallocF id Real.cos Real.sin n inv u = ralloc n inv u := by
  simp only [rallocF, ralloc, allocF_id, superPhaseF, superPhase, kfCexp, id_eq]

theorem fftrF_id (st : RPlan) : fftrF id st = fftr st := by
  have h : ∀ nc s t, fftrBodyF id nc s t = fftrBody nc s t := by
    intro nc s t; funext k f; simp only [fftrBodyF, fftrBody, cadd_id, csub_id, cmul_id, id_eq]
  funext time freq
  simp only [fftrF, fftr, fftF_id, h, id_eq]

theorem fftriF_id (st : RPlan) : fftriF id st = fftri st := by
  have h : ∀ nc s t, fftriBodyF id nc s t = fftriBody nc s t := by
    intro nc s t; funext k f; simp only [fftriBodyF, fftriBody, cadd_id, csub_id, cmul_id]
  funext freq time
  simp only [fftriF, fftri, fftF_id, h, id_eq]

theorem rmakeF_id (n : Nat) (u : ℂ) : RD.makeF id Real.cos Real.sin n u = RD.make n u := by
  simp only [RD.makeF, RD.make, rallocF_id]

theorem forwardF_id (d : RD) : d.forwardF id = d.forward := by
  funext ri ro io; simp only [RD.forwardF, RD.forward, fftrF_id]

theorem forwardMagnitudeF_id (d : RD) : d.forwardMagnitudeF id = d.forwardMagnitude := by
  have h : ∀ r im : ℝ, ¬ r * r + im * im < 0 := fun r im => not_lt.mpr (by nlinarith [mul_self_nonneg r, mul_self_nonneg im])
  funext ri mo u; simp only [RD.forwardMagnitudeF, RD.forwardMagnitude, forwardF_id, id_eq, h, if_false]

theorem inverseF_id (d : RD) : d.inverseF id = d.inverse := by
  funext ri ii ro; simp only [RD.inverseF, RD.inverse, fftriF_id, id_eq]

end QM.FFT
