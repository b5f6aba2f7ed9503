import Verif.PhaseVocoder.RoundedLemmas
import Verif.PhaseVocoder.Props

/-!
# C87: phases in double precision

`MathUtilities::mod`, `MathUtilities::princarg` and the phase unwrapping of `PhaseVocoder` with every operation rounded to double precision.
-/

namespace QM.PhaseVocoder

open QM.Double

variable {fl : ℝ → ℝ}

/-- **C87** `mod(x, y)` is `x` less a whole number of periods `y`, off by at most 4 units of rounding of the arguments, and no further than that
outside the period. -/
theorem C87_mod (hfl : Rounds fl) (x y : ℝ) (hx : |x| ≤ 2 ^ 120) (hy1 : 1 / 2 ^ 60 ≤ |y|) (hy2 : |y| ≤ 2 ^ 60) :
    (∃ k : ℤ, |modF fl x y - (x - k * y)| ≤ 4 / 2 ^ 53 * (|x| + |y|)) ∧
      (0 < y → -(6 / 2 ^ 53 * (|x| + |y|)) ≤ modF fl x y ∧ modF fl x y ≤ y + 6 / 2 ^ 53 * (|x| + |y|)) ∧
      (y < 0 → y - 6 / 2 ^ 53 * (|x| + |y|) ≤ modF fl x y ∧ modF fl x y ≤ 6 / 2 ^ 53 * (|x| + |y|)) := by
  obtain ⟨k, h1, h2, h3⟩ := modF_near hfl x y hx hy1 hy2
  obtain ⟨a, b⟩ := abs_le.mp h1
  refine ⟨⟨k, h1⟩, fun hp => ?_, fun hn => ?_⟩
  · obtain ⟨c, d⟩ := h2 hp
    constructor <;> linarith
  · obtain ⟨c, d⟩ := h3 hn
    constructor <;> linarith

/-- **C87** The period is not half open once results are rounded: `mod(-2^-60, 1)` is 1, although every exact result is below 1. -/
theorem C87_mod_end : modF rn (-(1 / 2 ^ 60)) 1 = 1 ∧ ∀ x : ℝ, MathReal.mod x 1 < 1 := by
  have e1 : rn (-(1 / 2 ^ 60)) = -(1 / 2 ^ 60) := by
    rw [rn_eq (-(1 / 2 ^ 60)) (-60) (-2 ^ 52) (by norm_num) (by norm_num [abs_of_pos, zpow_neg]) (by norm_num [abs_of_pos, zpow_neg])
      (by norm_num [zpow_neg]) (by norm_num [zpow_neg])]
    norm_num [zpow_neg]
  have e2 : rn (-1) = -1 := by
    rw [rn_eq (-1) 0 (-2 ^ 52) (by norm_num) (by norm_num) (by norm_num) (by norm_num [zpow_neg]) (by norm_num [zpow_neg])]
    norm_num [zpow_neg]
  have e3 : rn (1 - 1 / 2 ^ 60) = 1 := by
    rw [rn_eq (1 - 1 / 2 ^ 60) (-1) (2 ^ 53) (by norm_num) (by rw [abs_of_pos (by norm_num)]; norm_num) (by rw [abs_of_pos (by norm_num)]; norm_num)
      (by norm_num [zpow_neg]) (by norm_num [zpow_neg])]
    norm_num [zpow_neg]
  refine ⟨?_, fun x => ?_⟩
  · have hf : ⌊(-(1 / 2 ^ 60) : ℝ)⌋ = -1 := by
      rw [Int.floor_eq_iff]
      norm_num
    unfold modF
    rw [div_one, e1, hf]
    dsimp only
    rw [show (1 : ℝ) * ((-1 : ℤ) : ℝ) = -1 by norm_num, e2, show (-(1 / 2 ^ 60) - -1 : ℝ) = 1 - 1 / 2 ^ 60 by ring, e3]
  · rw [← modF_id]
    have := Int.lt_floor_add_one x
    simp only [modF, id, div_one, one_mul]
    linarith

/-- **C87** `princarg` takes off whole turns, up to an error proportional to the angle, and what is left is at most half a turn. -/
theorem C87_princarg (hfl : Rounds fl) (ang : ℝ) (ha : |ang| ≤ 2 ^ 100) :
    (∃ k : ℤ, |princargF fl ang - (ang - 2 * Real.pi * k)| ≤ (8 * |ang| + 100) / 2 ^ 53) ∧
      |princargF fl ang| ≤ Real.pi + (8 * |ang| + 100) / 2 ^ 53 := by
  obtain ⟨k, h1, h2⟩ := princargF_near hfl ang ha
  exact ⟨⟨k, h1⟩, h2⟩

/-! ## Frames -/

/-- A frame can be passed to `unwrapPhases`: both arrays hold `n / 2 + 1` values and the phases are angles. -/
def Sized (n : Nat) (f : List ℝ × List ℝ) : Prop := n / 2 + 1 ≤ f.1.length ∧ n / 2 + 1 ≤ f.2.length ∧ ∀ i, i ≤ n / 2 → |f.1.getD i 0| ≤ 4

/-- The state of bin `i` after `N` frames. -/
structure Kept (N : Nat) (H ph un : ℝ) : Prop where
  ph_le : |ph| ≤ H
  un_le : |un| ≤ 2 * (N + 1) * H
  drift : ∃ j : ℤ, |un - ph - 2 * Real.pi * j| ≤ 27 * (N * (N + 1)) / 2 ^ 53 * H

theorem Kept.step (hfl : Rounds fl) {N : Nat} {H ph un w t : ℝ} (h : Kept N H ph un) (hN : N ≤ 2 ^ 40) (hH : 4 ≤ H) (hH2 : H ≤ 2 ^ 60)
    (hw : |w| ≤ H - 4) (ht : |t| ≤ 4) :
    Kept (N + 1) H t (stepF fl w ph un t) ∧ |stepF fl w ph un t - un - w| ≤ Real.pi + 53 * (N + 1) / 2 ^ 53 * H := by
  have hNr : (N : ℝ) ≤ 2 ^ 40 := by exact_mod_cast hN
  have hN0 : (0 : ℝ) ≤ N := by positivity
  have hNH : 0 ≤ (N : ℝ) * H := by positivity
  have hNH2 : (N : ℝ) * H ≤ 2 ^ 40 * H := mul_le_mul_of_nonneg_right hNr (by linarith)
  obtain ⟨k, k1, k2⟩ := stepF_near hfl w ph un t H (2 * (N + 1) * H) hH hH2 (by
    have : 2 * ((N : ℝ) + 1) * H = 2 * (N * H) + 2 * H := by ring
    rw [this]
    linarith) hw h.ph_le ht h.un_le
  have p2 := Real.pi_lt_d2
  have hc : (2.1 * (2 * ((N : ℝ) + 1) * H) + 48 * H) / 2 ^ 53 ≤ 53 * (N + 1) / 2 ^ 53 * H := by
    have e1 : (2.1 * (2 * ((N : ℝ) + 1) * H) + 48 * H) / 2 ^ 53 = (4.2 * (N * H) + 52.2 * H) / 2 ^ 53 := by ring
    have e2 : 53 * ((N : ℝ) + 1) / 2 ^ 53 * H = (53 * (N * H) + 53 * H) / 2 ^ 53 := by ring
    rw [e1, e2]
    refine div_le_div_of_nonneg_right ?_ (by positivity)
    linarith
  have hs : 53 * ((N : ℝ) + 1) / 2 ^ 53 * H ≤ H := by
    have e2 : 53 * ((N : ℝ) + 1) / 2 ^ 53 * H = (53 * (N * H) + 53 * H) / 2 ^ 53 := by ring
    rw [e2]
    linarith
  refine ⟨⟨by linarith, ?_, ?_⟩, k2.trans (by linarith)⟩
  · have h1 := abs_add_le (stepF fl w ph un t - un - w) (un + w)
    have h2 := abs_add_le un w
    rw [show stepF fl w ph un t - un - w + (un + w) = stepF fl w ph un t from by ring] at h1
    have := h.un_le
    have e1 : 2 * (((N + 1 : ℕ) : ℝ) + 1) * H = 2 * (N + 1) * H + 2 * H := by push_cast; ring
    rw [e1]
    linarith
  · obtain ⟨j, hj⟩ := h.drift
    refine ⟨j + k, ?_⟩
    have h1 := abs_add_le (stepF fl w ph un t - t - (un - ph) - 2 * Real.pi * k) (un - ph - 2 * Real.pi * j)
    rw [show stepF fl w ph un t - t - (un - ph) - 2 * Real.pi * k + (un - ph - 2 * Real.pi * j) =
      stepF fl w ph un t - t - 2 * Real.pi * ((j + k : ℤ) : ℝ) from by push_cast; ring] at h1
    refine h1.trans ((add_le_add (k1.trans hc) hj).trans ?_)
    have e1 : 27 * (((N + 1 : ℕ) : ℝ) * (((N + 1 : ℕ) : ℝ) + 1)) / 2 ^ 53 * H = 54 * ((N : ℝ) + 1) / 2 ^ 53 * H + 27 * (N * (N + 1)) / 2 ^ 53 * H := by
      push_cast
      ring
    rw [e1]
    have : 53 * ((N : ℝ) + 1) / 2 ^ 53 * H ≤ 54 * ((N : ℝ) + 1) / 2 ^ 53 * H := by
      refine mul_le_mul_of_nonneg_right (div_le_div_of_nonneg_right ?_ (by positivity)) (by linarith)
      linarith
    linarith

/-- The invariant of the frames. -/
structure KeptAll (fl : ℝ → ℝ) (n : Nat) (hop : Int) (N : Nat) (d : Phases) : Prop where
  plen : d.phase.length = n / 2 + 1
  ulen : d.unwrapped.length = n / 2 + 1
  bins : ∀ i, i ≤ n / 2 → ∃ ph un, d.phase[i]? = some ph ∧ d.unwrapped[i]? = some un ∧ Kept N (|advance n hop i| + 5) ph un

theorem advance_le {n : Nat} {hop : Int} {i : Nat} (hn : 0 < n) (hi : i ≤ n) (hh : |hop| ≤ 2 ^ 31) : |advance n hop i| ≤ 2 ^ 40 := by
  have p2 := Real.pi_lt_d2
  have p0 := Real.pi_pos
  have hn0 : (0 : ℝ) < n := by exact_mod_cast hn
  have hir : (i : ℝ) / n ≤ 1 := by rw [div_le_one hn0]; exact_mod_cast hi
  have hhr : |(hop : ℝ)| ≤ 2 ^ 31 := by exact_mod_cast hh
  have : |advance n hop i| = 2 * Real.pi * (|(hop : ℝ)| * (i / n)) := by
    unfold advance
    rw [abs_div, abs_mul, abs_mul, Nat.abs_cast, Nat.abs_cast, abs_of_pos (by linarith : (0 : ℝ) < 2 * Real.pi)]
    ring
  rw [this]
  have h1 : |(hop : ℝ)| * (i / n) ≤ |(hop : ℝ)| := mul_le_of_le_one_right (abs_nonneg _) hir
  have h2 : 2 * Real.pi * (|(hop : ℝ)| * (i / n)) ≤ 6.4 * |(hop : ℝ)| := mul_le_mul (by linarith) h1 (by positivity) (by norm_num)
  linarith

theorem omegaF_le (hfl : Rounds fl) {n : Nat} {hop : Int} {i : Nat} (hn : 0 < n) (hi : i ≤ n) (hn' : n ≤ 2 ^ 31) (hh : |hop| ≤ 2 ^ 31) :
    |omegaF fl n hop i - advance n hop i| ≤ 10 / 2 ^ 53 * (|advance n hop i| + 5) ∧ |omegaF fl n hop i| ≤ |advance n hop i| + 5 - 4 := by
  have h := omegaF_near hfl n hop i hn hi hn' hh
  rw [omega_eq] at h
  have h2 := advance_le hn hi hh
  have h3 := abs_nonneg (advance n hop i)
  have h4 := abs_sub_abs_le_abs_sub (omegaF fl n hop i) (advance n hop i)
  constructor <;> linarith

/-- What a frame returns: for bin `i`, a value congruent to the measured phase modulo whole turns and within half a turn of the expected
value, up to rounding. `prev` is what the previous frame returned. -/
def Frame (n : Nat) (hop : Int) (N : Nat) (prev : Nat → ℝ) (f : List ℝ × List ℝ) (o : List ℝ) : Prop :=
  o.length = f.2.length ∧ (∀ i, n / 2 < i → o[i]? = f.2[i]?) ∧ ∀ i, i ≤ n / 2 → ∃ w, o[i]? = some w ∧
    (∃ j : ℤ, |w - (f.1.getD i 0 + 2 * Real.pi * j)| ≤ 27 * ((N + 1) * (N + 2)) / 2 ^ 53 * (|advance n hop i| + 5)) ∧
    |w - (prev i + advance n hop i)| ≤ Real.pi + 63 * (N + 1) / 2 ^ 53 * (|advance n hop i| + 5)

theorem frame_ok (hfl : Rounds fl) {n : Nat} {hop : Int} (hn : 0 < n) (hn' : n ≤ 2 ^ 31) (hh : |hop| ≤ 2 ^ 31) {N : Nat} (hN : N ≤ 2 ^ 40)
    {d : Phases} (hd : KeptAll fl n hop N d) (theta out : List ℝ) (hf : Sized n (theta, out)) :
    ∃ d' o, unwrapPhasesF fl n hop d theta out = some (d', o) ∧ KeptAll fl n hop (N + 1) d' ∧
      Frame n hop N (fun i => d.unwrapped.getD i 0) (theta, out) o ∧ (∀ i, i ≤ n / 2 → d'.unwrapped[i]? = o[i]?) := by
  obtain ⟨h1, h2, h3⟩ := hf
  have hth : ∀ i, i ≤ n / 2 → theta[i]? = some (theta.getD i 0) := by
    intro i hi
    dsimp only at h1
    rw [List.getD_eq_getElem?_getD, List.getElem?_eq_getElem (by omega)]
    rfl
  have hph : ∀ i, i ≤ n / 2 → d.phase[i]? = some (d.phase.getD i 0) := by
    intro i hi
    have := hd.plen
    rw [List.getD_eq_getElem?_getD, List.getElem?_eq_getElem (by omega)]
    rfl
  have hun : ∀ i, i ≤ n / 2 → d.unwrapped[i]? = some (d.unwrapped.getD i 0) := by
    intro i hi
    have := hd.ulen
    rw [List.getD_eq_getElem?_getD, List.getElem?_eq_getElem (by omega)]
    rfl
  obtain ⟨d', o, e1, e2, e3, e4, e5, e6, e7, e8⟩ := unwrapF_ok (fl := fl) (hop := hop) hd.plen hd.ulen hph hun theta out hth h2
  have key : ∀ i, i ≤ n / 2 → Kept (N + 1) (|advance n hop i| + 5) (theta.getD i 0)
        (stepF fl (omegaF fl n hop i) (d.phase.getD i 0) (d.unwrapped.getD i 0) (theta.getD i 0)) ∧
      |stepF fl (omegaF fl n hop i) (d.phase.getD i 0) (d.unwrapped.getD i 0) (theta.getD i 0) - d.unwrapped.getD i 0 - omegaF fl n hop i| ≤
        Real.pi + 53 * (N + 1) / 2 ^ 53 * (|advance n hop i| + 5) := by
    intro i hi
    obtain ⟨ph, un, b1, b2, b3⟩ := hd.bins i hi
    rw [hph i hi] at b1
    rw [hun i hi] at b2
    cases b1
    cases b2
    have := advance_le (n := n) (hop := hop) (i := i) hn (by omega) hh
    exact b3.step hfl hN (by linarith [abs_nonneg (advance n hop i)]) (by linarith) (omegaF_le hfl hn (by omega) hn' hh).2 (h3 i hi)
  refine ⟨d', o, e1, ⟨e2, e3, fun i hi => ⟨_, _, e5 i hi, e6 i hi, (key i hi).1⟩⟩, ⟨e4, e8, fun i hi => ⟨_, e7 i hi, ?_, ?_⟩⟩,
    fun i hi => by rw [e6 i hi, e7 i hi]⟩
  · obtain ⟨j, hj⟩ := (key i hi).1.drift
    refine ⟨j, ?_⟩
    rw [← sub_sub]
    refine hj.trans (le_of_eq ?_)
    push_cast
    ring
  · have k2 := (key i hi).2
    have k3 := (omegaF_le hfl hn (by omega : i ≤ n) hn' hh).1
    have h5 := abs_add_le (stepF fl (omegaF fl n hop i) (d.phase.getD i 0) (d.unwrapped.getD i 0) (theta.getD i 0) - d.unwrapped.getD i 0 -
      omegaF fl n hop i) (omegaF fl n hop i - advance n hop i)
    rw [sub_add_sub_cancel, sub_sub] at h5
    refine h5.trans ((add_le_add k2 k3).trans ?_)
    have h0 : 0 ≤ |advance n hop i| + 5 := by positivity
    have : 10 / 2 ^ 53 * (|advance n hop i| + 5) ≤ 10 * (N + 1) / 2 ^ 53 * (|advance n hop i| + 5) := by
      refine mul_le_mul_of_nonneg_right (div_le_div_of_nonneg_right ?_ (by positivity)) h0
      have : (0 : ℝ) ≤ N := by positivity
      linarith
    have e : 63 * ((N : ℝ) + 1) / 2 ^ 53 * (|advance n hop i| + 5) =
      53 * (N + 1) / 2 ^ 53 * (|advance n hop i| + 5) + 10 * (N + 1) / 2 ^ 53 * (|advance n hop i| + 5) := by ring
    rw [e]
    linarith

/-- The frames of a run: frame `N` is compared with what frame `N - 1` returned, the first with the state before it. -/
def Frames (n : Nat) (hop : Int) : Nat → (Nat → ℝ) → List (List ℝ × List ℝ) → List (List ℝ) → Prop
  | _, _, [], [] => True
  | N, prev, f :: fs, o :: os => Frame n hop N prev f o ∧ Frames n hop (N + 1) (fun i => o.getD i 0) fs os
  | _, _, _, _ => False

theorem Frame.congr {n : Nat} {hop : Int} {N : Nat} {p q : Nat → ℝ} {f : List ℝ × List ℝ} {o : List ℝ} (h : Frame n hop N p f o)
    (hpq : ∀ i, i ≤ n / 2 → p i = q i) : Frame n hop N q f o := by
  refine ⟨h.1, h.2.1, fun i hi => ?_⟩
  obtain ⟨w, a, b, c⟩ := h.2.2 i hi
  exact ⟨w, a, b, by rw [← hpq i hi]; exact c⟩

theorem frames_ok (hfl : Rounds fl) {n : Nat} {hop : Int} (hn : 0 < n) (hn' : n ≤ 2 ^ 31) (hh : |hop| ≤ 2 ^ 31) (fs : List (List ℝ × List ℝ)) :
    ∀ (N : Nat) (d : Phases) (prev : Nat → ℝ), N + fs.length ≤ 2 ^ 40 → KeptAll fl n hop N d → (∀ i, i ≤ n / 2 → d.unwrapped.getD i 0 = prev i) →
      (∀ f ∈ fs, Sized n f) → ∃ d' os, framesF fl n hop d fs = some (d', os) ∧ Frames n hop N prev fs os := by
  induction fs with
  | nil => exact fun N d prev _ _ _ _ => ⟨d, [], rfl, trivial⟩
  | cons f fs ih =>
    intro N d prev hN hd hp hs
    obtain ⟨theta, out⟩ := f
    simp only [List.length_cons] at hN
    obtain ⟨d1, o, e1, e2, e3, e4⟩ := frame_ok hfl hn hn' hh (by omega) hd theta out (hs _ (by simp))
    obtain ⟨d2, os, e5, e6⟩ := ih (N + 1) d1 (fun i => o.getD i 0) (by omega) e2
      (fun i hi => by rw [List.getD_eq_getElem?_getD, e4 i hi, List.getD_eq_getElem?_getD]) (fun f hf => hs f (by simp [hf]))
    refine ⟨d2, o :: os, ?_, e3.congr hp, e6⟩
    simp only [framesF, e1, Option.bind_eq_bind, Option.bind_some, e5]

/-- **C87** Phase unwrapping after `reset` in double precision. For every frame size, hop and sequence of up to `2 ^ 40` frames, frame `N` returns
for every bin a value that is the measured phase plus a whole number of turns, off by at most `27 (N + 1) (N + 2) / 2 ^ 53` times the expected
advance per frame plus 5. It is within half a turn of what the previous frame returned plus the expected advance, up to an error that grows
with the number of frames only. -/
theorem C87_unwrap (hfl : Rounds fl) (n : Nat) (hop : Int) (hn : 0 < n) (hn' : n ≤ 2 ^ 31) (hh : |hop| ≤ 2 ^ 31) (d : Phases)
    (hp : d.phase.length = n / 2 + 1) (hu : d.unwrapped.length = n / 2 + 1) (fs : List (List ℝ × List ℝ)) (hN : fs.length ≤ 2 ^ 40)
    (hs : ∀ f ∈ fs, Sized n f) :
    ∃ d0 d' os, resetF fl n hop d = some d0 ∧ framesF fl n hop d0 fs = some (d', os) ∧ Frames n hop 0 (fun i => -omegaF fl n hop i) fs os := by
  obtain ⟨d0, h1, h2, h3, h4, h5⟩ := resetF_ok (fl := fl) (hop := hop) hp hu
  have hk : KeptAll fl n hop 0 d0 := by
    refine ⟨h2, h3, fun i hi => ⟨_, _, h4 i hi, h5 i hi, ?_, ?_, 0, ?_⟩⟩
    · rw [abs_neg]
      linarith [(omegaF_le hfl hn (by omega : i ≤ n) hn' hh).2]
    · rw [abs_neg]
      have := abs_nonneg (advance n hop i)
      push_cast
      linarith [(omegaF_le hfl hn (by omega : i ≤ n) hn' hh).2]
    · simp
  obtain ⟨d', os, e1, e2⟩ := frames_ok hfl hn hn' hh fs 0 d0 (fun i => -omegaF fl n hop i) (by omega) hk
    (fun i hi => by rw [List.getD_eq_getElem?_getD, h5 i hi]; rfl) hs
  exact ⟨d0, d', os, h1, e1, e2⟩

/-- **C87** The expected advance itself, as computed, is off by at most 10 units of rounding. -/
theorem C87_advance (hfl : Rounds fl) (n : Nat) (hop : Int) (i : Nat) (hn : 0 < n) (hi : i ≤ n / 2) (hn' : n ≤ 2 ^ 31) (hh : |hop| ≤ 2 ^ 31) :
    |omegaF fl n hop i - advance n hop i| ≤ 10 / 2 ^ 53 * (|advance n hop i| + 1) := by
  rw [← omega_eq]
  exact omegaF_near hfl n hop i hn (by omega) hn' hh

/-- Rounding to nearest, frames of 1024 samples with hop 512, two frames. -/
example : ∃ d0 d' os, resetF rn 1024 512 ⟨List.replicate 513 0, List.replicate 513 0⟩ = some d0 ∧
    framesF rn 1024 512 d0 [(List.replicate 513 1, List.replicate 513 0), (List.replicate 513 (-2), List.replicate 513 0)] = some (d', os) ∧
    Frames 1024 512 0 (fun i => -omegaF rn 1024 512 i) [(List.replicate 513 1, List.replicate 513 0), (List.replicate 513 (-2), List.replicate 513 0)] os := by
  have key : ∀ c : ℝ, |c| ≤ 4 → ∀ i : Nat, |(List.replicate 513 c).getD i 0| ≤ 4 := by
    intro c hc i
    rw [List.getD_eq_getElem?_getD, List.getElem?_replicate]
    split
    · exact hc
    · norm_num
  refine C87_unwrap rounds_rn 1024 512 (by norm_num) (by norm_num) (by norm_num) _ List.length_replicate List.length_replicate _ (by norm_num) ?_
  intro f hf
  simp only [List.mem_cons, List.not_mem_nil, or_false] at hf
  rcases hf with h | h
  · subst h
    exact ⟨List.length_replicate.ge, List.length_replicate.ge, fun i _ => key _ (by norm_num) i⟩
  · subst h
    exact ⟨List.length_replicate.ge, List.length_replicate.ge, fun i _ => key _ (by norm_num) i⟩

end QM.PhaseVocoder
