import Verif.PhaseVocoder.Lemmas

namespace QM.PhaseVocoder

open Complex QM.FFT QM.DFT QM.MathReal

/-- The expected phase advance of bin `k` over one hop of a frame of `n` samples. -/
noncomputable def advance (n : Nat) (hop : Int) (k : Nat) : ℝ := 2 * Real.pi * k * hop / n

theorem omega_eq (n : Nat) (hop : Int) (k : Nat) : omega n hop k = advance n hop k := by
  unfold omega advance; ring

/-- The `PhaseVocoder` objects a program can have, with the unwrapped phases `prev` last returned by them. After construction and after
`reset` there are none: `prev` then is one step before zero. -/
inductive Hist (n : Nat) (hop : Int) : PV → (Nat → ℝ) → Prop
  | make {u v d} : make n hop u v = some d → Hist n hop d (fun k => -advance n hop k)
  | reset {d d' prev} : Hist n hop d prev → reset d = some d' → Hist n hop d' (fun k => -advance n hop k)
  | time {d d' prev src mag theta out mag' theta' out' prev'} : Hist n hop d prev → n ≤ src.length → n / 2 + 1 ≤ mag.length →
      n / 2 + 1 ≤ theta.length → n / 2 + 1 ≤ out.length →
      processTime d src mag theta out = some (d', mag', theta', out') →
      (∀ k : Nat, k ≤ n / 2 → out'[k]? = some (prev' k)) → Hist n hop d' prev'
  | freq {d d' prev reals imags mag theta out mag' theta' out' prev'} : Hist n hop d prev → n / 2 + 1 ≤ reals.length →
      n / 2 + 1 ≤ imags.length → n / 2 + 1 ≤ mag.length → n / 2 + 1 ≤ theta.length → n / 2 + 1 ≤ out.length →
      processFreq d reals imags mag theta out = some (d', mag', theta', out') →
      (∀ k : Nat, k ≤ n / 2 → out'[k]? = some (prev' k)) → Hist n hop d' prev'

theorem Ok.congr {n : Nat} {hop : Int} {d : PV} {p q : Nat → ℝ} (h : Ok n hop d p) (he : ∀ k, k ≤ n / 2 → p k = q k) : Ok n hop d q :=
  ⟨h.size, h.hop_eq, h.fft, h.time, h.real, h.imag, h.plen, h.ulen, fun k hk => by rw [h.un k hk, he k hk],
    fun k hk => by
      obtain ⟨a, j, e1, e2⟩ := h.ph k hk
      exact ⟨a, j, e1, by rw [← he k hk, e2]⟩⟩

theorem hist_ok {n : Nat} (h0 : n % 2 = 0) (h1 : 2 ≤ n) (h2 : n ≤ 2147483647) {hop : Int} {d : PV} {prev : Nat → ℝ}
    (h : Hist n hop d prev) : Ok n hop d prev := by
  induction h with
  | make hm =>
    rename_i u v d
    obtain ⟨d', e1, e2⟩ := make_ok h0 h1 h2 hop u v
    rw [e1] at hm; cases hm
    exact e2.congr fun k _ => by rw [omega_eq]
  | reset hh hr ih =>
    obtain ⟨d', e1, e2⟩ := reset_ok ih.size ih.hop_eq ih.fft ih.time ih.real ih.imag ih.plen ih.ulen
    rw [e1] at hr; cases hr
    exact e2.congr fun k _ => by rw [omega_eq]
  | time hh a b c d hf hp ih =>
    obtain ⟨_, _, _, _, e1, _, _, _, e5, _, e7⟩ := time_ok h0 h1 h2 ih _ _ _ _ a b c d
    rw [e1] at hf; cases hf
    refine e7.congr fun k hk => ?_
    have := (e5 k hk).2.2
    rw [hp k hk] at this
    exact (Option.some.inj this).symm
  | freq hh a b c d e hf hp ih =>
    obtain ⟨_, _, _, _, e1, _, _, _, e5, _, e7⟩ := freq_ok h1 ih _ _ _ _ _ a b c d e
    rw [e1] at hf; cases hf
    refine e7.congr fun k hk => ?_
    have := (e5 k hk).2.2
    rw [hp k hk] at this
    exact (Option.some.inj this).symm

/-! ## C27 -/

/-- What the three output arrays of a process call contain, for a frame with spectrum `z` after previously returned unwrapped phases
`prev`: magnitudes and phases of the bins, and for each bin the one value congruent to the measured phase modulo `2π` that is less
than `π` below or at most `π` above the expected value. -/
def Unwrapped (n : Nat) (hop : Int) (z : Nat → ℂ) (prev : Nat → ℝ) (mag theta out : List ℝ) : Prop :=
  ∀ k : Nat, k ≤ n / 2 → ∃ u : ℝ, mag[k]? = some ‖z k‖ ∧ theta[k]? = some (z k).arg ∧ out[k]? = some u ∧
    (∃ j : ℤ, u = (z k).arg + 2 * Real.pi * j) ∧
    -Real.pi < u - (prev k + advance n hop k) ∧ u - (prev k + advance n hop k) ≤ Real.pi

theorem unwrapped_of {n : Nat} {hop : Int} {z : Nat → ℂ} {prev : Nat → ℝ} {mag theta out : List ℝ}
    (h : ∀ k : Nat, k ≤ n / 2 → mag[k]? = some ‖z k‖ ∧ theta[k]? = some (z k).arg ∧
        out[k]? = some (prev k + omega n hop k + princarg ((z k).arg - (prev k + omega n hop k)))) :
    Unwrapped n hop z prev mag theta out := by
  intro k hk
  obtain ⟨a, b, c⟩ := h k hk
  obtain ⟨h1, h2, j, hj⟩ := C03_princarg_partial ((z k).arg - (prev k + omega n hop k))
  refine ⟨_, a, b, c, ⟨-j, ?_⟩, ?_, ?_⟩
  · push_cast; linarith
  · rw [← omega_eq]; linarith
  · rw [← omega_eq]; linarith

/-- C27: construction succeeds for every even frame size and every hop. -/
theorem C27_construct (n : Nat) (h0 : n % 2 = 0) (h1 : 2 ≤ n) (h2 : n ≤ 2147483647) (hop : Int) (u : ℂ) (v : ℝ) :
    ∃ d, make n hop u v = some d ∧ Hist n hop d (fun k => -advance n hop k) := by
  obtain ⟨d, e, _⟩ := make_ok h0 h1 h2 hop u v
  exact ⟨d, e, Hist.make e⟩

/-- C27: after any history, `processFrequencyDomain` unwraps the phases of the given spectrum. -/
theorem C27_frequency (n : Nat) (h0 : n % 2 = 0) (h1 : 2 ≤ n) (h2 : n ≤ 2147483647) (hop : Int) {d : PV} {prev : Nat → ℝ}
    (hd : Hist n hop d prev) (reals imags mag theta out : List ℝ) (hr : n / 2 + 1 ≤ reals.length) (hi : n / 2 + 1 ≤ imags.length)
    (hm : n / 2 + 1 ≤ mag.length) (ht : n / 2 + 1 ≤ theta.length) (ho : n / 2 + 1 ≤ out.length) :
    ∃ d' mag' theta' out', processFreq d reals imags mag theta out = some (d', mag', theta', out') ∧
      Unwrapped n hop (fun k => ⟨reals.getD k 0, imags.getD k 0⟩) prev mag' theta' out' ∧
      (∀ k : Nat, n / 2 < k → mag'[k]? = mag[k]? ∧ theta'[k]? = theta[k]? ∧ out'[k]? = out[k]?) := by
  obtain ⟨d', m, t, o, e1, _, _, _, e5, e6, _⟩ := freq_ok h1 (hist_ok h0 h1 h2 hd) reals imags mag theta out hr hi hm ht ho
  exact ⟨d', m, t, o, e1, unwrapped_of e5, e6⟩

/-- C27: after any history, `processTimeDomain` unwraps the phases of the spectrum of the frame, measured at its centre: bin `k` of the
discrete Fourier transform times `(-1)^k`. -/
theorem C27_time (n : Nat) (h0 : n % 2 = 0) (h1 : 2 ≤ n) (h2 : n ≤ 2147483647) (hop : Int) {d : PV} {prev : Nat → ℝ}
    (hd : Hist n hop d prev) (src mag theta out : List ℝ) (hs : n ≤ src.length)
    (hm : n / 2 + 1 ≤ mag.length) (ht : n / 2 + 1 ≤ theta.length) (ho : n / 2 + 1 ≤ out.length) :
    ∃ d' mag' theta' out', processTime d src mag theta out = some (d', mag', theta', out') ∧
      Unwrapped n hop (fun k => (-1) ^ k * dft false n (fun j => ((src.getD j 0 : ℝ) : ℂ)) k) prev mag' theta' out' ∧
      (∀ k : Nat, n / 2 < k → mag'[k]? = mag[k]? ∧ theta'[k]? = theta[k]? ∧ out'[k]? = out[k]?) := by
  obtain ⟨d', m, t, o, e1, _, _, _, e5, e6, _⟩ := time_ok h0 h1 h2 (hist_ok h0 h1 h2 hd) src mag theta out hs hm ht ho
  exact ⟨d', m, t, o, e1, unwrapped_of e5, e6⟩

/-- A call on a phase vocoder, with arrays of the documented sizes. -/
inductive Cmd
  | time (src : List ℝ)
  | freq (reals imags : List ℝ)
  | reset

/-- The call is made with arrays of at least the documented sizes. -/
def Cmd.sized (n : Nat) : Cmd → Prop
  | .time src => n ≤ src.length
  | .freq reals imags => n / 2 + 1 ≤ reals.length ∧ n / 2 + 1 ≤ imags.length
  | .reset => True

/-- One call, with zeroed result arrays of `n/2 + 1` values. -/
noncomputable def Cmd.run (n : Nat) (d : PV) : Cmd → Option (PV × List ℝ × List ℝ × List ℝ)
  | .time src => processTime d src (List.replicate (n / 2 + 1) 0) (List.replicate (n / 2 + 1) 0) (List.replicate (n / 2 + 1) 0)
  | .freq reals imags =>
    processFreq d reals imags (List.replicate (n / 2 + 1) 0) (List.replicate (n / 2 + 1) 0) (List.replicate (n / 2 + 1) 0)
  | .reset => (QM.PhaseVocoder.reset d).map (fun d' => (d', [], [], []))

/-- Everything a sequence of calls returns. -/
noncomputable def runAll (n : Nat) : PV → List Cmd → Option (List (List ℝ × List ℝ × List ℝ))
  | _, [] => some []
  | d, c :: cs => do
    let (d', o) ← c.run n d
    let os ← runAll n d' cs
    pure (o :: os)

theorem list_eq_of {a b : List ℝ} {m : Nat} {f : Nat → ℝ} (ha : a.length = m) (hb : b.length = m)
    (h1 : ∀ k : Nat, k < m → a[k]? = some (f k)) (h2 : ∀ k : Nat, k < m → b[k]? = some (f k)) : a = b := by
  apply List.ext_getElem?
  intro k
  by_cases h : k < m
  · rw [h1 k h, h2 k h]
  · rw [List.getElem?_eq_none (by omega), List.getElem?_eq_none (by omega)]

theorem run_same {n : Nat} (h0 : n % 2 = 0) (h1 : 2 ≤ n) (h2 : n ≤ 2147483647) {hop : Int} {d e : PV} {prev : Nat → ℝ}
    (hd : Ok n hop d prev) (he : Ok n hop e prev) (c : Cmd) (hc : c.sized n) :
    ∃ d' e' o next, c.run n d = some (d', o) ∧ c.run n e = some (e', o) ∧ Ok n hop d' next ∧ Ok n hop e' next := by
  have hl : n / 2 + 1 ≤ (List.replicate (n / 2 + 1) (0 : ℝ)).length := by simp
  cases c with
  | time src =>
    obtain ⟨d', m, t, o, a1, a2, a3, a4, a5, _, a7⟩ := time_ok h0 h1 h2 hd src _ _ _ hc hl hl hl
    obtain ⟨e', m', t', o', b1, b2, b3, b4, b5, _, b7⟩ := time_ok h0 h1 h2 he src _ _ _ hc hl hl hl
    rw [List.length_replicate] at a2 a3 a4 b2 b3 b4
    have em : m = m' := list_eq_of a2 b2 (fun k hk => (a5 k (by omega)).1) (fun k hk => (b5 k (by omega)).1)
    have et : t = t' := list_eq_of a3 b3 (fun k hk => (a5 k (by omega)).2.1) (fun k hk => (b5 k (by omega)).2.1)
    have eo : o = o' := list_eq_of a4 b4 (fun k hk => (a5 k (by omega)).2.2) (fun k hk => (b5 k (by omega)).2.2)
    subst em et eo
    exact ⟨d', e', _, _, a1, b1, a7, b7⟩
  | freq re im =>
    obtain ⟨d', m, t, o, a1, a2, a3, a4, a5, _, a7⟩ := freq_ok h1 hd re im _ _ _ hc.1 hc.2 hl hl hl
    obtain ⟨e', m', t', o', b1, b2, b3, b4, b5, _, b7⟩ := freq_ok h1 he re im _ _ _ hc.1 hc.2 hl hl hl
    rw [List.length_replicate] at a2 a3 a4 b2 b3 b4
    have em : m = m' := list_eq_of a2 b2 (fun k hk => (a5 k (by omega)).1) (fun k hk => (b5 k (by omega)).1)
    have et : t = t' := list_eq_of a3 b3 (fun k hk => (a5 k (by omega)).2.1) (fun k hk => (b5 k (by omega)).2.1)
    have eo : o = o' := list_eq_of a4 b4 (fun k hk => (a5 k (by omega)).2.2) (fun k hk => (b5 k (by omega)).2.2)
    subst em et eo
    exact ⟨d', e', _, _, a1, b1, a7, b7⟩
  | reset =>
    obtain ⟨d', a1, a2⟩ := reset_ok hd.size hd.hop_eq hd.fft hd.time hd.real hd.imag hd.plen hd.ulen
    obtain ⟨e', b1, b2⟩ := reset_ok he.size he.hop_eq he.fft he.time he.real he.imag he.plen he.ulen
    exact ⟨d', e', _, _, by simp only [Cmd.run]; rw [a1]; rfl, by simp only [Cmd.run]; rw [b1]; rfl, a2, b2⟩

theorem runAll_same {n : Nat} (h0 : n % 2 = 0) (h1 : 2 ≤ n) (h2 : n ≤ 2147483647) {hop : Int} (cs : List Cmd)
    (hc : ∀ c ∈ cs, c.sized n) {d e : PV} {prev : Nat → ℝ} (hd : Ok n hop d prev) (he : Ok n hop e prev) :
    ∃ os, runAll n d cs = some os ∧ runAll n e cs = some os := by
  induction cs generalizing d e prev with
  | nil => exact ⟨[], rfl, rfl⟩
  | cons c cs ih =>
    obtain ⟨d', e', o, next, a1, a2, a3, a4⟩ := run_same h0 h1 h2 hd he c (hc c (by simp))
    obtain ⟨os, b1, b2⟩ := ih (fun c hc' => hc c (by simp [hc'])) a3 a4
    exact ⟨o :: os, by simp [runAll, a1, b1], by simp [runAll, a2, b2]⟩

/-- C27: whatever came before, after `reset` every further sequence of calls returns exactly what a newly built object returns. -/
theorem C27_reset (n : Nat) (h0 : n % 2 = 0) (h1 : 2 ≤ n) (h2 : n ≤ 2147483647) (hop : Int) {d : PV} {prev : Nat → ℝ}
    (hd : Hist n hop d prev) (u : ℂ) (v : ℝ) (cs : List Cmd) (hc : ∀ c ∈ cs, c.sized n) :
    ∃ d' e os, reset d = some d' ∧ make n hop u v = some e ∧ runAll n d' cs = some os ∧ runAll n e cs = some os := by
  have ok := hist_ok h0 h1 h2 hd
  obtain ⟨d', a1, a2⟩ := reset_ok ok.size ok.hop_eq ok.fft ok.time ok.real ok.imag ok.plen ok.ulen
  obtain ⟨e, b1, b2⟩ := make_ok h0 h1 h2 hop u v
  obtain ⟨os, c1, c2⟩ := runAll_same h0 h1 h2 cs hc a2 b2
  exact ⟨d', e, os, a1, b1, c1, c2⟩

/-- The hypotheses are met: frame size 4, hop 2, a time-domain frame followed by a reset and two more frames. -/
example : ∃ d d1 m t o, make 4 2 0 0 = some d ∧ processTime d [1, 2, 3, 4] [0, 0, 0] [0, 0, 0] [0, 0, 0] = some (d1, m, t, o) ∧
    ∃ d2 e os, reset d1 = some d2 ∧ make 4 2 0 0 = some e ∧
      runAll 4 d2 [.time [1, 0, 0, 0], .freq [1, 2, 3] [0, 1, 0]] = some os ∧
      runAll 4 e [.time [1, 0, 0, 0], .freq [1, 2, 3] [0, 1, 0]] = some os := by
  obtain ⟨d, e1, h1⟩ := C27_construct 4 (by norm_num) (by norm_num) (by norm_num) 2 0 0
  obtain ⟨d1, m, t, o, e2, hu, _⟩ := C27_time 4 (by norm_num) (by norm_num) (by norm_num) 2 h1 [1, 2, 3, 4] [0, 0, 0] [0, 0, 0]
    [0, 0, 0] (by simp) (by simp) (by simp) (by simp)
  have h2 : Hist 4 2 d1 (fun k => o.getD k 0) := Hist.time h1 (by simp) (by simp) (by simp) (by simp) e2 (by
    intro k hk
    obtain ⟨u, _, _, h, _⟩ := hu k hk
    simp [List.getD, h])
  refine ⟨d, d1, m, t, o, e1, e2, ?_⟩
  exact C27_reset 4 (by norm_num) (by norm_num) (by norm_num) 2 h2 0 0 _ (by simp [Cmd.sized])

end QM.PhaseVocoder
