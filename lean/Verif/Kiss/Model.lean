import Verif.Common.Loop
import Mathlib.Data.Complex.Basic
import Mathlib.Analysis.SpecialFunctions.Trigonometric.Basic
import Mathlib.Data.Nat.Sqrt

/-!
# ext/kissfft/kiss_fft.c

The complex mixed-radix FFT. `kiss_fft_scalar` is `double` in this build (ext/kissfft, qm-dsp.pro / Makefile.inc define
`-Dkiss_fft_scalar=double`), modelled by `ℝ`; `kiss_fft_cpx` by `ℂ` (`C_MUL`, `C_ADD`, `C_SUB`, `C_ADDTO` of
_kiss_fft_guts.h:87-118 are complex multiplication, addition and subtraction; `C_FIXDIV` is empty, line 90). A
pointer into a buffer is an offset into a list; an access outside a buffer gives `none`. The literal for pi is taken
to be π. The OpenMP variant (line 253-275, not enabled by the build files) is not modelled. Overflow of `int` indices is not modelled.
-/

namespace QM.Kiss

open Complex

/-- `do { body } while (--n)` (or a pointer counted up to an end pointer): runs for ever, or off the end of the
buffer, when `n` is 0. -/
def doLoop {S : Type} (n : Nat) (f : Nat → S → Option S) (s : S) : Option S :=
  if n = 0 then none else loop n f s

/-- One step of the search for a radix, ext/kissfft/kiss_fft.c:319-324: `fs` is `floor_sqrt`, `n` what remains, `p` the
radix that does not divide `n`. -/
def bump (fs n p : Nat) : Nat :=
  let p' := if p = 4 then 2 else if p = 2 then 3 else p + 2
  if p' > fs then n else p'

/-- Termination measure of the search. -/
def radixMeasure (fs n p : Nat) : Nat :=
  if n % p = 0 then 0 else if p = 4 then fs + 6 else if p = 2 then fs + 5 else if p = 0 then fs + 20
  else (fs - p) + 1

theorem radixMeasure_bump (fs n p : Nat) (h : ¬ n % p = 0) :
    radixMeasure fs n (bump fs n p) < radixMeasure fs n p := by
  unfold bump
  by_cases h4 : p = 4
  · subst h4
    by_cases hf : 2 > fs
    · simp [h, hf, radixMeasure]
    · simp only [h, hf, radixMeasure, if_true, if_false]
      split_ifs <;> omega
  · by_cases h2 : p = 2
    · subst h2
      by_cases hf : 3 > fs
      · simp [h, hf, radixMeasure]
      · simp [h, hf, h4, radixMeasure]
        split_ifs <;> omega
    · by_cases hf : p + 2 > fs
      · simp only [h, hf, h4, h2, radixMeasure, if_true, if_false, Nat.mod_self]
        split_ifs <;> omega
      · have h4' : ¬ p + 2 = 4 := by omega
        have hr : radixMeasure fs n p = if p = 0 then fs + 20 else (fs - p) + 1 := by
          simp only [radixMeasure, h, h4, h2, if_false]
        have hl : radixMeasure fs n (p + 2) ≤ if p = 0 then fs + 5 else (fs - (p + 2)) + 1 := by
          simp only [radixMeasure, h4', if_false]
          split_ifs <;> first | contradiction | omega
        simp only [hf, h4, h2, if_false]
        rw [hr]
        refine lt_of_le_of_lt hl ?_
        split_ifs <;> omega

/-- The search for the next radix, ext/kissfft/kiss_fft.c:318-325. -/
def nextRadix (fs n p : Nat) : Nat :=
  if n % p = 0 then p else nextRadix fs n (bump fs n p)
termination_by radixMeasure fs n p
decreasing_by exact radixMeasure_bump fs n p (by assumption)

/-- `kf_factor`, ext/kissfft/kiss_fft.c:309-331, from the current remainder `n` and radix `p` on. `cap` is the number
of (radix, length) pairs for which there is still room in `facbuf` (`MAXFACTORS` is 32,
_kiss_fft_guts.h:22). `none`: the buffer overflows. The remainder is not 1 and does not shrink only if the radix is 1 or 0; that does
not happen (`factor_spec`), and would also give `none` here through `cap`. -/
def factorFrom (fs : Nat) : (cap : Nat) → (n p : Nat) → Option (List (Nat × Nat))
  | 0, _, _ => none
  | cap + 1, n, p =>
    let p := nextRadix fs n p
    let n := n / p
    if n > 1 then (factorFrom fs cap n p).map ((p, n) :: ·) else some [(p, n)]

/-- `kf_factor` from the start, ext/kissfft/kiss_fft.c:309-317; the square root and floor are exact for any `int`. -/
def factor (n : Nat) : Option (List (Nat × Nat)) := factorFrom (Nat.sqrt n) 32 n 4

/-- `struct kiss_fft_state`, ext/kissfft/_kiss_fft_guts.h:27-32. -/
structure Plan where
  nfft : Nat
  inverse : Bool
  factors : List (Nat × Nat)
  twiddles : List ℂ

/-- `kf_cexp`, ext/kissfft/_kiss_fft_guts.h:141-145. -/
noncomputable def kfCexp (phase : ℝ) : ℂ := ⟨Real.cos phase, Real.sin phase⟩

/-- The phase of twiddle `i`, ext/kissfft/kiss_fft.c:360-363. -/
noncomputable def phase (n : Nat) (inverse : Bool) (i : Nat) : ℝ :=
  let ph := -2 * Real.pi * i / n
  if inverse then ph * -1 else ph

/-- `kiss_fft_alloc`, ext/kissfft/kiss_fft.c:340-369 (with memory always available). -/
noncomputable def alloc (nfft : Nat) (inverse : Bool) : Option Plan := do
  let factors ← factor nfft
  pure ⟨nfft, inverse, factors, (List.range nfft).map (fun i => kfCexp (phase nfft inverse i))⟩

variable (st : Plan)

/-- One iteration of `kf_bfly2`, ext/kissfft/kiss_fft.c:32-41, number `u`. -/
noncomputable def bfly2Body (fs m off u : Nat) (b : List ℂ) : Option (List ℂ) := do
  let f0 ← b[off + u]?
  let f2 ← b[off + m + u]?
  let tw1 ← st.twiddles[u * fs]?
  let t := f2 * tw1
  let b ← wr b (off + m + u) (f0 - t)
  wr b (off + u) (f0 + t)

/-- One iteration of `kf_bfly4`, ext/kissfft/kiss_fft.c:60-89. -/
noncomputable def bfly4Body (fs m off u : Nat) (b : List ℂ) : Option (List ℂ) := do
  let f0 ← b[off + u]?
  let f1 ← b[off + u + m]?
  let f2 ← b[off + u + 2 * m]?
  let f3 ← b[off + u + 3 * m]?
  let tw1 ← st.twiddles[u * fs]?
  let tw2 ← st.twiddles[u * (fs * 2)]?
  let tw3 ← st.twiddles[u * (fs * 3)]?
  let s0 := f1 * tw1
  let s1 := f2 * tw2
  let s2 := f3 * tw3
  let s5 := f0 - s1
  let f0 := f0 + s1
  let s3 := s0 + s2
  let s4 := s0 - s2
  let b ← wr b (off + u + 2 * m) (f0 - s3)
  let b ← wr b (off + u) (f0 + s3)
  if st.inverse then
    let b ← wr b (off + u + m) ⟨s5.re - s4.im, s5.im + s4.re⟩
    wr b (off + u + 3 * m) ⟨s5.re + s4.im, s5.im - s4.re⟩
  else
    let b ← wr b (off + u + m) ⟨s5.re + s4.im, s5.im - s4.re⟩
    wr b (off + u + 3 * m) ⟨s5.re - s4.im, s5.im + s4.re⟩

/-- One iteration of `kf_bfly3`, ext/kissfft/kiss_fft.c:108-133, with `epi3` read in line 104. -/
noncomputable def bfly3Body (fs m off u : Nat) (b : List ℂ) : Option (List ℂ) := do
  let epi3 ← st.twiddles[fs * m]?
  let f0 ← b[off + u]?
  let f1 ← b[off + u + m]?
  let f2 ← b[off + u + 2 * m]?
  let tw1 ← st.twiddles[u * fs]?
  let tw2 ← st.twiddles[u * (fs * 2)]?
  let s1 := f1 * tw1
  let s2 := f2 * tw2
  let s3 := s1 + s2
  let s0 := s1 - s2
  let g1 : ℂ := ⟨f0.re - s3.re * (1 / 2), f0.im - s3.im * (1 / 2)⟩
  let s0 : ℂ := ⟨s0.re * epi3.im, s0.im * epi3.im⟩
  let b ← wr b (off + u) (f0 + s3)
  let b ← wr b (off + u + 2 * m) ⟨g1.re + s0.im, g1.im - s0.re⟩
  wr b (off + u + m) ⟨g1.re - s0.im, g1.im + s0.re⟩

/-- One iteration of `kf_bfly5`, ext/kissfft/kiss_fft.c:160-194, with `ya`, `yb` read in lines 149-150. -/
noncomputable def bfly5Body (fs m off u : Nat) (b : List ℂ) : Option (List ℂ) := do
  let ya ← st.twiddles[fs * m]?
  let yb ← st.twiddles[fs * 2 * m]?
  let s0 ← b[off + u]?
  let f1 ← b[off + u + m]?
  let f2 ← b[off + u + 2 * m]?
  let f3 ← b[off + u + 3 * m]?
  let f4 ← b[off + u + 4 * m]?
  let tw1 ← st.twiddles[u * fs]?
  let tw2 ← st.twiddles[2 * u * fs]?
  let tw3 ← st.twiddles[3 * u * fs]?
  let tw4 ← st.twiddles[4 * u * fs]?
  let s1 := f1 * tw1
  let s2 := f2 * tw2
  let s3 := f3 * tw3
  let s4 := f4 * tw4
  let s7 := s1 + s4
  let s10 := s1 - s4
  let s8 := s2 + s3
  let s9 := s2 - s3
  let b ← wr b (off + u) ⟨s0.re + (s7.re + s8.re), s0.im + (s7.im + s8.im)⟩
  let s5 : ℂ := ⟨s0.re + s7.re * ya.re + s8.re * yb.re, s0.im + s7.im * ya.re + s8.im * yb.re⟩
  let s6 : ℂ := ⟨s10.im * ya.im + s9.im * yb.im, -(s10.re * ya.im) - s9.re * yb.im⟩
  let b ← wr b (off + u + m) (s5 - s6)
  let b ← wr b (off + u + 4 * m) (s5 + s6)
  let s11 : ℂ := ⟨s0.re + s7.re * yb.re + s8.re * ya.re, s0.im + s7.im * yb.re + s8.im * ya.re⟩
  let s12 : ℂ := ⟨-(s10.im * yb.im) + s9.im * ya.im, s10.re * yb.im - s9.re * ya.im⟩
  let b ← wr b (off + u + 2 * m) (s11 + s12)
  wr b (off + u + 3 * m) (s11 - s12)

/-- The innermost loop of `kf_bfly_generic`, ext/kissfft/kiss_fft.c:223-229: accumulates into `Fout[k]`. -/
noncomputable def genericInner (fs off k : Nat) (scratch : List ℂ) (q' : Nat) (s : List ℂ × Nat) :
    Option (List ℂ × Nat) := do
  let q := q' + 1
  let twidx := s.2 + fs * k
  let twidx := if twidx ≥ st.nfft then twidx - st.nfft else twidx
  let sq ← scratch[q]?
  let tw ← st.twiddles[twidx]?
  let t := sq * tw
  let v ← s.1[off + k]?
  let b ← wr s.1 (off + k) (v + t)
  pure (b, twidx)

/-- One iteration of the outer loop of `kf_bfly_generic`, ext/kissfft/kiss_fft.c:211-233. -/
noncomputable def genericBody (fs m p off u : Nat) (b : List ℂ) : Option (List ℂ) := do
  let scratch ← (List.range p).mapM (fun q1 => b[off + u + q1 * m]?)
  loop p (fun q1 b => do
    let k := u + q1 * m
    let s0 ← scratch[0]?
    let b ← wr b (off + k) s0
    let r ← loop (p - 1) (genericInner st fs off k scratch) (b, 0)
    pure r.1) b

/-- The `switch (p)` of `kf_work`, ext/kissfft/kiss_fft.c:296-302. The loops of `kf_bfly5` and `kf_bfly_generic` are `for`
loops, the others `do … while`. -/
noncomputable def butterfly (fs m p off : Nat) (b : List ℂ) : Option (List ℂ) :=
  match p with
  | 2 => doLoop m (bfly2Body st fs m off) b
  | 3 => doLoop m (bfly3Body st fs m off) b
  | 4 => doLoop m (bfly4Body st fs m off) b
  | 5 => loop m (bfly5Body st fs m off) b
  | p => loop m (genericBody st fs m p off) b

/-- `kf_work`, ext/kissfft/kiss_fft.c:237-303: `fin`/`foff` is `f`, `b`/`off` is `Fout`. -/
noncomputable def work (fin : List ℂ) (inStride : Nat) :
    List (Nat × Nat) → (fs foff off : Nat) → List ℂ → Option (List ℂ)
  | [], _, _, _, _ => none
  | (p, m) :: rest, fs, foff, off, b => do
    let b ←
      if m = 1 then
        doLoop p (fun q b => do
          let v ← fin[foff + q * (fs * inStride)]?
          wr b (off + q) v) b
      else if m = 0 then none
      else doLoop p (fun q b => work fin inStride rest (fs * p) (foff + q * (fs * inStride)) (off + q * m) b) b
    butterfly st fs m p off b

/-- `kiss_fft_stride`, ext/kissfft/kiss_fft.c:374-386. `inPlace` is `fin == fout`; then `fout` is the same buffer as `fin`;
`tmp` is the content of the freshly allocated buffer. -/
noncomputable def fftStride (fin fout tmp : List ℂ) (inPlace : Bool) (inStride : Nat) : Option (List ℂ) :=
  if inPlace then do
    let t ← work st fin inStride st.factors 1 0 0 (tmp.take st.nfft)
    loop st.nfft (fun i b => do
      let v ← t[i]?
      wr b i v) fin
  else work st fin inStride st.factors 1 0 0 fout

/-- `kiss_fft`, ext/kissfft/kiss_fft.c:388-391. -/
noncomputable def fft (fin fout tmp : List ℂ) (inPlace : Bool) : Option (List ℂ) :=
  fftStride st fin fout tmp inPlace 1

end QM.Kiss
