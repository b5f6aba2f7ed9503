import Verif.Kiss.Model
import Mathlib.Analysis.Real.Pi.Bounds

/-!
# ext/kissfft/kiss_fft.c in floating point

The functions of `Verif.Kiss.Model` again, with every operation on `double`s followed by a rounding `fl`, in the order in which
the C expressions are evaluated (no contraction to fused operations). `cosF` and `sinF` are the `cos` and `sin` of the C library. A negation is exact. With `fl` the identity and
the mathematical cosine and sine the functions are those of `Verif.Kiss.Model` (`fftF_id`).
-/

namespace QM.Kiss

noncomputable section

variable (fl : ℝ → ℝ)

/-- `C_ADD`, ext/kissfft/_kiss_fft_guts.h:99-104. -/
def cadd (a b : ℂ) : ℂ := ⟨fl (a.re + b.re), fl (a.im + b.im)⟩

/-- `C_SUB`, ext/kissfft/_kiss_fft_guts.h:105-110. -/
def csub (a b : ℂ) : ℂ := ⟨fl (a.re - b.re), fl (a.im - b.im)⟩

/-- `C_MUL`, ext/kissfft/_kiss_fft_guts.h:87-89. -/
def cmul (a b : ℂ) : ℂ :=
  ⟨fl (fl (a.re * b.re) - fl (a.im * b.im)), fl (fl (a.re * b.im) + fl (a.im * b.re))⟩

/-- The phase of twiddle `i`, ext/kissfft/kiss_fft.c:360-363; the literal for pi is the `double` nearest to it, and
its product with -2 (a power of two) is exact. -/
def phaseF (n : Nat) (inverse : Bool) (i : Nat) : ℝ :=
  let ph := fl (fl (-2 * fl Real.pi * i) / n)
  if inverse then fl (ph * -1) else ph

/-- `kiss_fft_alloc`, ext/kissfft/kiss_fft.c:340-369. The factorisation works on integers. -/
def allocF (cosF sinF : ℝ → ℝ) (nfft : Nat) (inverse : Bool) : Option Plan := do
  let factors ← factor nfft
  pure ⟨nfft, inverse, factors,
    (List.range nfft).map (fun i => ⟨cosF (phaseF fl nfft inverse i), sinF (phaseF fl nfft inverse i)⟩)⟩

variable (st : Plan)

/-- One iteration of `kf_bfly2`, ext/kissfft/kiss_fft.c:32-41. -/
def bfly2BodyF (fs m off u : Nat) (b : List ℂ) : Option (List ℂ) := do
  let f0 ← b[off + u]?
  let f2 ← b[off + m + u]?
  let tw1 ← st.twiddles[u * fs]?
  let t := cmul fl f2 tw1
  let b ← wr b (off + m + u) (csub fl f0 t)
  wr b (off + u) (cadd fl f0 t)

/-- One iteration of `kf_bfly4`, ext/kissfft/kiss_fft.c:60-89. -/
def bfly4BodyF (fs m off u : Nat) (b : List ℂ) : Option (List ℂ) := do
  let f0 ← b[off + u]?
  let f1 ← b[off + u + m]?
  let f2 ← b[off + u + 2 * m]?
  let f3 ← b[off + u + 3 * m]?
  let tw1 ← st.twiddles[u * fs]?
  let tw2 ← st.twiddles[u * (fs * 2)]?
  let tw3 ← st.twiddles[u * (fs * 3)]?
  let s0 := cmul fl f1 tw1
  let s1 := cmul fl f2 tw2
  let s2 := cmul fl f3 tw3
  let s5 := csub fl f0 s1
  let f0 := cadd fl f0 s1
  let s3 := cadd fl s0 s2
  let s4 := csub fl s0 s2
  let b ← wr b (off + u + 2 * m) (csub fl f0 s3)
  let b ← wr b (off + u) (cadd fl f0 s3)
  if st.inverse then
    let b ← wr b (off + u + m) ⟨fl (s5.re - s4.im), fl (s5.im + s4.re)⟩
    wr b (off + u + 3 * m) ⟨fl (s5.re + s4.im), fl (s5.im - s4.re)⟩
  else
    let b ← wr b (off + u + m) ⟨fl (s5.re + s4.im), fl (s5.im - s4.re)⟩
    wr b (off + u + 3 * m) ⟨fl (s5.re - s4.im), fl (s5.im + s4.re)⟩

/-- One iteration of `kf_bfly3`, ext/kissfft/kiss_fft.c:108-133, with `epi3` read in line 104. -/
def bfly3BodyF (fs m off u : Nat) (b : List ℂ) : Option (List ℂ) := do
  let epi3 ← st.twiddles[fs * m]?
  let f0 ← b[off + u]?
  let f1 ← b[off + u + m]?
  let f2 ← b[off + u + 2 * m]?
  let tw1 ← st.twiddles[u * fs]?
  let tw2 ← st.twiddles[u * (fs * 2)]?
  let s1 := cmul fl f1 tw1
  let s2 := cmul fl f2 tw2
  let s3 := cadd fl s1 s2
  let s0 := csub fl s1 s2
  let g1 : ℂ := ⟨fl (f0.re - fl (s3.re * (1 / 2))), fl (f0.im - fl (s3.im * (1 / 2)))⟩
  let s0 : ℂ := ⟨fl (s0.re * epi3.im), fl (s0.im * epi3.im)⟩
  let b ← wr b (off + u) (cadd fl f0 s3)
  let b ← wr b (off + u + 2 * m) ⟨fl (g1.re + s0.im), fl (g1.im - s0.re)⟩
  wr b (off + u + m) ⟨fl (g1.re - s0.im), fl (g1.im + s0.re)⟩

/-- One iteration of `kf_bfly5`, ext/kissfft/kiss_fft.c:160-194, with `ya`, `yb` read in lines 149-150. -/
def bfly5BodyF (fs m off u : Nat) (b : List ℂ) : Option (List ℂ) := do
  let ya ← st.twiddles[fs * m]?
  let yb ← st.twiddles[fs * 2 * m]?
  let s0 ← b[off + u]?
  let f1 ← b[off + u + m]?
  let f2 ← b[off + u + 2 * m]?
  let f3 ← b[off + u + 3 * m]?
  let f4 ← b[off + u + 4 * m]?
  let tw1 ← st.twiddles[u * fs]?
  let tw2 ← st.twiddles[2 * u * fs]?
  let tw3 ← st.twiddles[3 * u * fs]?
  let tw4 ← st.twiddles[4 * u * fs]?
  let s1 := cmul fl f1 tw1
  let s2 := cmul fl f2 tw2
  let s3 := cmul fl f3 tw3
  let s4 := cmul fl f4 tw4
  let s7 := cadd fl s1 s4
  let s10 := csub fl s1 s4
  let s8 := cadd fl s2 s3
  let s9 := csub fl s2 s3
  let b ← wr b (off + u) ⟨fl (s0.re + fl (s7.re + s8.re)), fl (s0.im + fl (s7.im + s8.im))⟩
  let s5 : ℂ := ⟨fl (fl (s0.re + fl (s7.re * ya.re)) + fl (s8.re * yb.re)),
    fl (fl (s0.im + fl (s7.im * ya.re)) + fl (s8.im * yb.re))⟩
  let s6 : ℂ := ⟨fl (fl (s10.im * ya.im) + fl (s9.im * yb.im)), fl (-fl (s10.re * ya.im) - fl (s9.re * yb.im))⟩
  let b ← wr b (off + u + m) (csub fl s5 s6)
  let b ← wr b (off + u + 4 * m) (cadd fl s5 s6)
  let s11 : ℂ := ⟨fl (fl (s0.re + fl (s7.re * yb.re)) + fl (s8.re * ya.re)),
    fl (fl (s0.im + fl (s7.im * yb.re)) + fl (s8.im * ya.re))⟩
  let s12 : ℂ := ⟨fl (-fl (s10.im * yb.im) + fl (s9.im * ya.im)), fl (fl (s10.re * yb.im) - fl (s9.re * ya.im))⟩
  let b ← wr b (off + u + 2 * m) (cadd fl s11 s12)
  wr b (off + u + 3 * m) (csub fl s11 s12)

/-- The innermost loop of `kf_bfly_generic`, ext/kissfft/kiss_fft.c:223-229. -/
def genericInnerF (fs off k : Nat) (scratch : List ℂ) (q' : Nat) (s : List ℂ × Nat) : Option (List ℂ × Nat) := do
  let q := q' + 1
  let twidx := s.2 + fs * k
  let twidx := if twidx ≥ st.nfft then twidx - st.nfft else twidx
  let sq ← scratch[q]?
  let tw ← st.twiddles[twidx]?
  let t := cmul fl sq tw
  let v ← s.1[off + k]?
  let b ← wr s.1 (off + k) (cadd fl v t)
  pure (b, twidx)

/-- One iteration of the outer loop of `kf_bfly_generic`, ext/kissfft/kiss_fft.c:211-233. -/
def genericBodyF (fs m p off u : Nat) (b : List ℂ) : Option (List ℂ) := do
  let scratch ← (List.range p).mapM (fun q1 => b[off + u + q1 * m]?)
  loop p (fun q1 b => do
    let k := u + q1 * m
    let s0 ← scratch[0]?
    let b ← wr b (off + k) s0
    let r ← loop (p - 1) (genericInnerF fl st fs off k scratch) (b, 0)
    pure r.1) b

/-- The `switch (p)` of `kf_work`, ext/kissfft/kiss_fft.c:296-302. -/
def butterflyF (fs m p off : Nat) (b : List ℂ) : Option (List ℂ) :=
  match p with
  | 2 => doLoop m (bfly2BodyF fl st fs m off) b
  | 3 => doLoop m (bfly3BodyF fl st fs m off) b
  | 4 => doLoop m (bfly4BodyF fl st fs m off) b
  | 5 => loop m (bfly5BodyF fl st fs m off) b
  | p => loop m (genericBodyF fl st fs m p off) b

/-- `kf_work`, ext/kissfft/kiss_fft.c:237-303. -/
def workF (fin : List ℂ) (inStride : Nat) : List (Nat × Nat) → (fs foff off : Nat) → List ℂ → Option (List ℂ)
  | [], _, _, _, _ => none
  | (p, m) :: rest, fs, foff, off, b => do
    let b ←
      if m = 1 then
        doLoop p (fun q b => do
          let v ← fin[foff + q * (fs * inStride)]?
          wr b (off + q) v) b
      else if m = 0 then none
      else doLoop p (fun q b => workF fin inStride rest (fs * p) (foff + q * (fs * inStride)) (off + q * m) b) b
    butterflyF fl st fs m p off b

/-- `kiss_fft` with distinct buffers, ext/kissfft/kiss_fft.c:374-391. -/
def fftF (fin fout : List ℂ) : Option (List ℂ) := workF fl st fin 1 st.factors 1 0 0 fout

end

/-! ## Without rounding -/

theorem cadd_id : cadd id = fun a b => a + b := by funext a b; apply Complex.ext <;> simp [cadd]
theorem csub_id : csub id = fun a b => a - b := by funext a b; apply Complex.ext <;> simp [csub]
theorem cmul_id : cmul id = fun a b => a * b := by funext a b; apply Complex.ext <;> simp [cmul]

variable (st : Plan)

theorem bfly2_id : bfly2BodyF id st = bfly2Body st := by
  funext fs m off u b; simp only [bfly2BodyF, bfly2Body, cadd_id, csub_id, cmul_id]
theorem bfly3_id : bfly3BodyF id st = bfly3Body st := by
  funext fs m off u b; simp only [bfly3BodyF, bfly3Body, cadd_id, csub_id, cmul_id, id_eq]
theorem bfly4_id : bfly4BodyF id st = bfly4Body st := by
  funext fs m off u b; simp only [bfly4BodyF, bfly4Body, cadd_id, csub_id, cmul_id, id_eq]
theorem bfly5_id : bfly5BodyF id st = bfly5Body st := by
  funext fs m off u b; simp only [bfly5BodyF, bfly5Body, cadd_id, csub_id, cmul_id, id_eq]
theorem generic_id : genericBodyF id st = genericBody st := by
  have h : genericInnerF id st = genericInner st := by
    funext fs off k scratch q' s; simp only [genericInnerF, genericInner, cadd_id, cmul_id]
  funext fs m p off u b; simp only [genericBodyF, genericBody, h]
theorem butterfly_id : butterflyF id st = butterfly st := by
  funext fs m p off b
  unfold butterflyF butterfly
  simp only [bfly2_id, bfly3_id, bfly4_id, bfly5_id, generic_id]
  rfl

theorem work_id (fin : List ℂ) (inStride : Nat) : workF id st fin inStride = work st fin inStride := by
  funext fac
  induction fac with
  | nil => funext fs foff off b; simp [workF, work]
  | cons pm rest ih =>
    obtain ⟨p, m⟩ := pm
    funext fs foff off b
    simp only [workF, work, ih, butterfly_id]

/-- Without rounding the function is the one of `Verif.Kiss.Model`. -/
theorem fftF_id (fin fout : List ℂ) : fftF id st fin fout = fft st fin fout [] false := by
  simp [fftF, fft, fftStride, work_id]

theorem allocF_id (n : Nat) (inv : Bool) : allocF id Real.cos Real.sin n inv = alloc n inv := by
  simp only [allocF, alloc, phaseF, phase, kfCexp, id_eq]

end QM.Kiss
