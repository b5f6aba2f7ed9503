import Verif.ConstantQ.Props
import Verif.FFT.Props
import Verif.FFT.RealProps
import Verif.Window.Props
import Verif.MathInt.Props
import Mathlib.Analysis.SpecialFunctions.Pow.Real

/-! # The kernel of the constant-Q transform -/

namespace QM.ConstantQ

open Finset QM.DFT

/-- A segment of an array rewritten element by element. -/
theorem seg_fill {β : Type} {N o wl : Nat} {old : Nat → β} {new : Nat → β} {xs : List β} {f : Nat → List β → Option (List β)} (h : Holds N old xs) (ho : o + wl ≤ N)
    (hf : ∀ (i : Nat) (ys : List β), i < wl → ys[o + i]? = some (old (o + i)) → f i ys = wr ys (o + i) (new i)) :
    ∃ ys, loop wl f xs = some ys ∧ Holds N (fun n => if o ≤ n ∧ n < o + wl then new (n - o) else old n) ys := by
  obtain ⟨ys, e, g⟩ := loop_inv wl f xs (fun i ys => Holds N (fun n => if o ≤ n ∧ n < o + i then new (n - o) else old n) ys)
    (h.congr fun n _ => by rw [if_neg (by omega)]) (by
      intro i ys hi hp
      have h1 := hp.2 (o + i) (by omega)
      dsimp only at h1
      rw [if_neg (by omega)] at h1
      obtain ⟨w, q⟩ := holds_set hp (i := o + i) (by omega) (g := fun n => if o ≤ n ∧ n < o + (i + 1) then new (n - o) else old n) (fun j _ hj => by
        by_cases h : o ≤ j ∧ j < o + i
        · rw [if_pos (by omega), if_pos h]
        · rw [if_neg (by omega), if_neg h])
      rw [if_pos (by omega), Nat.add_sub_cancel_left] at w q
      exact ⟨_, by rw [hf i ys hi h1]; exact w, q⟩)
  exact ⟨ys, e, g⟩

/-- Exchanging the halves. -/
theorem shift_ok {β : Type} {N : Nat} {g : Nat → β} {xs : List β} (h : Holds N g xs) (hN : N = 1 ∨ N % 2 = 0) :
    ∃ ys, shift N xs = some ys ∧ Holds N (fun n => g ((n + N / 2) % N)) ys := by
  obtain ⟨ys, e, q⟩ := loop_inv (N / 2) (fun i (buf : List β) => do
      let a ← buf[i]?
      let b ← buf[i + N / 2]?
      let buf ← wr buf i b
      wr buf (i + N / 2) a) xs
    (fun i ys => Holds N (fun n => if n < i then g (n + N / 2) else if N / 2 ≤ n ∧ n < N / 2 + i then g (n - N / 2) else g n) ys)
    (h.congr fun n _ => by rw [if_neg (by omega), if_neg (by omega)]) (by
      intro i ys hi hp
      have h1 := hp.2 i (by omega)
      have h2 := hp.2 (i + N / 2) (by omega)
      dsimp only at h1 h2
      rw [if_neg (by omega), if_neg (by omega)] at h1 h2
      refine ⟨(ys.set i (g (i + N / 2))).set (i + N / 2) (g i), ?_, by simp [hp.1], fun n hn => ?_⟩
      · rw [bind_ok h1, bind_ok h2, bind_ok (wr_some _ (by rw [hp.1]; omega)), wr_some _ (by rw [List.length_set, hp.1]; omega)]
      · dsimp only
        by_cases e1 : i + N / 2 = n
        · subst e1
          rw [List.getElem?_set_self (by rw [List.length_set, hp.1]; omega), if_neg (by omega), if_pos (by omega), Nat.add_sub_cancel]
        · rw [List.getElem?_set_ne e1]
          by_cases e2 : i = n
          · subst e2
            rw [List.getElem?_set_self (by rw [hp.1]; omega), if_pos (by omega)]
          · rw [List.getElem?_set_ne e2, hp.2 n hn]
            dsimp only
            congr 1
            by_cases e3 : n < i
            · rw [if_pos e3, if_pos (by omega)]
            · rw [if_neg e3, if_neg (show ¬ n < i + 1 by omega)]
              by_cases e4 : N / 2 ≤ n ∧ n < N / 2 + i
              · rw [if_pos e4, if_pos (by omega)]
              · rw [if_neg e4, if_neg (by omega)])
  refine ⟨ys, e, q.congr fun n hn => ?_⟩
  rcases hN with rfl | hN
  · obtain rfl : n = 0 := by omega
    simp
  · by_cases h1 : n < N / 2
    · rw [if_pos h1, Nat.mod_eq_of_lt (by omega)]
    · rw [if_neg h1, if_pos (by omega)]
      congr 1
      rw [show n + N / 2 = (n - N / 2) + N by omega, Nat.add_mod_right, Nat.mod_eq_of_lt (by omega)]

/-! ## Specification -/

/-- Sample `n` of the kernel of a bin: a Hamming window of length `wl` in the middle of the frame, times a sinusoid with `dQ` periods in it, over `wl`. -/
noncomputable def atom (N wl : Nat) (dQ : ℝ) (trig : ℝ → ℝ) (n : Nat) : ℝ :=
  let o := N / 2 - wl / 2
  if o ≤ n ∧ n < o + wl then trig (2 * Real.pi * dQ * (n - o : Nat) / wl) * Window.shape .hamming wl (n - o) / wl else 0

/-- The kernel of a bin, with the middle of the frame moved to time zero. -/
noncomputable def atomC (N wl : Nat) (dQ : ℝ) (n : Nat) : ℂ := ⟨atom N wl dQ Real.cos ((n + N / 2) % N), atom N wl dQ Real.sin ((n + N / 2) % N)⟩

/-- The cells of bin `j`, in order: those bins of the spectrum of the kernel whose magnitude is above the threshold, conjugate and over `N`. -/
noncomputable def cellsFor (N : Nat) (thresh : ℝ) (j : Nat) (W : Nat → ℂ) : List (Cell ℝ) :=
  ((List.range N).filter (fun i => thresh * thresh < (W i).re * (W i).re + (W i).im * (W i).im)).map (fun i : Nat => ⟨(i : Int), (j : Int), (W i).re / N, -(W i).im / N⟩)

/-! ## Proofs -/

theorem temporal_ok {N wl : Nat} (hN : N = 1 ∨ N % 2 = 0) (hw : wl ≤ N) (dQ : ℝ) (ham : List ℝ) (hl : ham.length = wl)
    (hh : ∀ i : Nat, i < wl → ham[i]? = some (Window.shape .hamming wl i)) (trig : ℝ → ℝ) (buf : List ℝ) (hb : buf.length = N) :
    ∃ out, temporal N wl dQ ham trig buf = some out ∧ Holds N (fun n => atom N wl dQ trig ((n + N / 2) % N)) out := by
  have ho : ((N / 2 : Nat) : Int) - ((wl / 2 : Nat) : Int) = ((N / 2 - wl / 2 : Nat) : Int) := by omega
  have hol : N / 2 - wl / 2 + wl ≤ N := by omega
  generalize hoe : N / 2 - wl / 2 = o at ho hol
  obtain ⟨b1, e1, g1⟩ := fill_part (new := fun _ => (0 : ℝ)) (f := fun i buf => wr buf i 0) (holds_of_length hb 0) (fun i ys _ _ => rfl)
  obtain ⟨b2, e2, g2⟩ := seg_fill (o := o) (wl := wl) (new := fun i : Nat => trig (2 * Real.pi * dQ * i / wl))
    (f := fun i buf => wrI buf ((o : Int) + i) (trig (2 * Real.pi * dQ * i / wl))) g1 hol (by
      intro i ys hi _
      rw [show (o : Int) + i = ((o + i : Nat) : Int) by omega, wrI_natCast])
  obtain ⟨b3, e3, g3⟩ := seg_fill (o := o) (wl := wl) (new := fun i : Nat => trig (2 * Real.pi * dQ * i / wl) * Window.shape .hamming wl i)
    (f := fun i buf => do
      let v ← rdI buf ((o : Int) + i)
      let w ← ham[i]?
      wrI buf ((o : Int) + i) (v * w)) g2 hol (by
      intro i ys hi hy
      rw [if_pos (by omega), Nat.add_sub_cancel_left] at hy
      rw [show (o : Int) + i = ((o + i : Nat) : Int) by omega, rdI_natCast, bind_ok hy, bind_ok (hh i hi), wrI_natCast])
  obtain ⟨b4, e4, g4⟩ := seg_fill (o := o) (wl := wl) (new := fun i : Nat => trig (2 * Real.pi * dQ * i / wl) * Window.shape .hamming wl i / wl)
    (f := fun i (buf : List ℝ) => do
      let v ← rdI buf ((o : Int) + i)
      wrI buf ((o : Int) + i) (v / wl)) g3 hol (by
      intro i ys hi hy
      rw [if_pos (by omega), Nat.add_sub_cancel_left] at hy
      rw [show (o : Int) + i = ((o + i : Nat) : Int) by omega, rdI_natCast, bind_ok hy, wrI_natCast])
  have g5 : Holds N (atom N wl dQ trig) b4 := g4.congr fun n _ => by
    unfold atom
    rw [hoe]
    dsimp only
    by_cases h : o ≤ n ∧ n < o + wl
    · rw [if_pos h, if_pos h]
    · rw [if_neg h, if_neg h, if_neg h, if_neg h]
  obtain ⟨b5, e5, g6⟩ := shift_ok g5 hN
  refine ⟨b5, ?_, g6⟩
  unfold temporal
  dsimp only
  rw [bind_ok e1, ho, bind_ok e2, bind_ok e3, bind_ok e4, e5]

theorem sparse_ok (N : Nat) (thresh : ℝ) (j : Nat) (W : Nat → ℂ) (tRe tIm : List ℝ) (cells : List (Cell ℝ)) (h1 : ∀ i : Nat, i < N → tRe[i]? = some (W i).re)
    (h2 : ∀ i : Nat, i < N → tIm[i]? = some (W i).im) : sparse N thresh j tRe tIm cells = some (cells ++ cellsFor N thresh j W) := by
  unfold sparse
  obtain ⟨c, e, g⟩ := loop_inv N (fun i cells => do
    let re ← tRe[i]?
    let im ← tIm[i]?
    if re * re + im * im ≤ thresh * thresh then pure cells
    else pure (cells ++ [(⟨(i : Int), (j : Int), re / N, -im / N⟩ : Cell ℝ)])) cells
    (fun i c => c = cells ++ ((List.range i).filter (fun i => thresh * thresh < (W i).re * (W i).re + (W i).im * (W i).im)).map
      (fun i : Nat => ⟨(i : Int), (j : Int), (W i).re / N, -(W i).im / N⟩)) (by simp) (by
      intro i c hi hc
      rw [bind_ok (h1 i hi), bind_ok (h2 i hi), List.range_succ, List.filter_append, List.map_append, ← List.append_assoc, ← hc]
      by_cases h : (W i).re * (W i).re + (W i).im * (W i).im ≤ thresh * thresh
      · rw [if_pos h, List.filter_cons_of_neg (by simpa using h)]
        exact ⟨c, rfl, by simp⟩
      · rw [if_neg h, List.filter_cons_of_pos (by simpa using h)]
        exact ⟨_, rfl, rfl⟩)
  rw [e, g]
  rfl

/-- The cells of the kernel: from the highest bin to the lowest. -/
noncomputable def kernel (N uK : Nat) (thresh : ℝ) (W : Nat → Nat → ℂ) : List (Cell ℝ) := (List.range uK).flatMap (fun t => cellsFor N thresh (uK - 1 - t) (W (uK - 1 - t)))

theorem sparsekernel_ok {N uK : Nat} (hN : N = 1 ∨ N % 2 = 0) (h0 : 1 ≤ N) (hmax : N ≤ 2147483647) (dQ fs fmin thresh : ℝ) (bpo : Nat)
    (hw : ∀ j, windowLength dQ fs fmin bpo j ≤ N) (wRe wIm tRe tIm : List ℝ) (k1 k2 : ℂ) (l1 : wRe.length = N) (l2 : wIm.length = N)
    (l3 : tRe.length = N) (l4 : tIm.length = N) : sparsekernel N uK dQ fs fmin thresh bpo wRe wIm tRe tIm k1 k2 =
      some (kernel N uK thresh (fun j => dft false N (atomC N (windowLength dQ fs fmin bpo j) dQ))) := by
  obtain ⟨fft, e1, hr⟩ := FFT.C22_construct N h0 hmax k1 k2
  unfold sparsekernel
  rw [bind_ok e1]
  obtain ⟨s, e, _, _, _, _, _, g⟩ := loop_inv uK (fun t s => binStep N dQ fs fmin thresh bpo (uK - 1 - t) s) ⟨wRe, wIm, tRe, tIm, fft, []⟩
    (fun t s => s.wRe.length = N ∧ s.wIm.length = N ∧ s.tRe.length = N ∧ s.tIm.length = N ∧ FFT.Reach N s.fft ∧
      s.cells = (List.range t).flatMap (fun t => cellsFor N thresh (uK - 1 - t) (dft false N (atomC N (windowLength dQ fs fmin bpo (uK - 1 - t)) dQ))))
    ⟨l1, l2, l3, l4, hr, rfl⟩ (by
      rintro t s ht ⟨p1, p2, p3, p4, p5, p6⟩
      obtain ⟨ham, a1, a2, a3⟩ := Window.encache_ok .hamming (windowLength dQ fs fmin bpo (uK - 1 - t))
      obtain ⟨r, b1, b2⟩ := temporal_ok hN (hw _) dQ ham a2 a3 Real.cos s.wRe p1
      obtain ⟨m, c1, c2⟩ := temporal_ok hN (hw _) dQ ham a2 a3 Real.sin s.wIm p2
      obtain ⟨d', ro, io, d1, d2, d3, d4, d5, _⟩ := FFT.C22_process N h0 hmax p5 false r (some m) s.tRe s.tIm (by rw [b2.1]) (by
        intro l hl
        obtain rfl := Option.some.inj hl
        rw [c2.1]) (by omega) (by omega)
      have hin : ∀ k, dft false N (FFT.inputOf r (some m)) k = dft false N (atomC N (windowLength dQ fs fmin bpo (uK - 1 - t)) dQ) k := by
        intro k
        unfold dft
        refine sum_congr rfl fun n hn => ?_
        congr 1
        have hn := mem_range.mp hn
        simp only [FFT.inputOf, atomC, List.getD_eq_getElem?_getD, b2.2 n hn, c2.2 n hn, Option.getD_some]
      have h5 := sparse_ok N thresh (uK - 1 - t) (dft false N (atomC N (windowLength dQ fs fmin bpo (uK - 1 - t)) dQ)) ro io s.cells
        (by
          intro i hi
          obtain ⟨a, b, q1, q2, q3⟩ := d5 i hi
          rw [q1, ← hin, ← one_mul (dft false N _ i)]
          rw [if_neg (by simp)] at q3
          rw [← q3])
        (by
          intro i hi
          obtain ⟨a, b, q1, q2, q3⟩ := d5 i hi
          rw [q2, ← hin, ← one_mul (dft false N _ i)]
          rw [if_neg (by simp)] at q3
          rw [← q3])
      refine ⟨⟨r, m, ro, io, d', s.cells ++ cellsFor N thresh (uK - 1 - t) (dft false N (atomC N (windowLength dQ fs fmin bpo (uK - 1 - t)) dQ))⟩, ?_, b2.1, c2.1,
        by rw [d3, p3], by rw [d4, p4], d2, ?_⟩
      · unfold binStep
        dsimp only
        rw [bind_ok a1, bind_ok b1, bind_ok c1, bind_ok d1]
        dsimp only
        rw [bind_ok h5]
        rfl
      · dsimp only
        rw [List.range_succ, List.flatMap_append, p6]
        simp)
  rw [bind_ok e]
  show some s.cells = _
  rw [g]
  rfl

end QM.ConstantQ
