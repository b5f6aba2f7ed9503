import Verif.ConstantQ.Model
import Verif.Common.Sum
import Verif.Segment.Props
import Verif.MathReal.Props
import Mathlib.Tactic.Ring
import Mathlib.Tactic.Linarith
import Mathlib.Tactic.NormNum

/-! # C45, C46: constant-Q transform and chroma -/

namespace QM.ConstantQ

open Finset

section transform
variable {K : Type} [CommRing K]

/-! ## Specification -/

/-- The cells that count for bin `row`: those of the bin, except at frequency zero. -/
def cellsOf (cells : List (Cell K)) (row : Nat) : List (Cell K) := cells.filter (fun c => c.cqbin = row ∧ c.fftbin ≠ 0)

/-- The real part of the product of the kernel with a spectrum, of which `re k` and `im k` are bin `k`; `bin` says which bin a cell is for. -/
def innerRe (cells : List (Cell K)) (row : Nat) (bin : Cell K → Nat) (re im : Nat → K) : K :=
  ((cellsOf cells row).map (fun c => c.re * re (bin c) - c.im * im (bin c))).sum

/-- The imaginary part. -/
def innerIm (cells : List (Cell K)) (row : Nat) (bin : Cell K → Nat) (re im : Nat → K) : K :=
  ((cellsOf cells row).map (fun c => c.re * im (bin c) + c.im * re (bin c))).sum

/-- A kernel for `uK` bins and transforms of length `N`. -/
def Valid (N uK : Nat) (cells : List (Cell K)) : Prop := ∀ c ∈ cells, 0 ≤ c.fftbin ∧ c.fftbin < N ∧ 0 ≤ c.cqbin ∧ c.cqbin < uK

theorem cellsOf_snoc (cells : List (Cell K)) (c : Cell K) (row : Nat) :
    cellsOf (cells ++ [c]) row = cellsOf cells row ++ if c.cqbin = row ∧ c.fftbin ≠ 0 then [c] else [] := by
  unfold cellsOf
  rw [List.filter_append]
  congr 1
  by_cases h : c.cqbin = row ∧ c.fftbin ≠ 0
  · rw [if_pos h, List.filter_cons_of_pos (by simpa using h)]; rfl
  · rw [if_neg h, List.filter_cons_of_neg (by simpa using h)]; rfl

theorem innerRe_snoc (cells : List (Cell K)) (c : Cell K) (row : Nat) (bin : Cell K → Nat) (re im : Nat → K) :
    innerRe (cells ++ [c]) row bin re im = innerRe cells row bin re im +
      if c.cqbin = row ∧ c.fftbin ≠ 0 then c.re * re (bin c) - c.im * im (bin c) else 0 := by
  unfold innerRe
  rw [cellsOf_snoc]
  split_ifs <;> simp

theorem innerIm_snoc (cells : List (Cell K)) (c : Cell K) (row : Nat) (bin : Cell K → Nat) (re im : Nat → K) :
    innerIm (cells ++ [c]) row bin re im = innerIm cells row bin re im +
      if c.cqbin = row ∧ c.fftbin ≠ 0 then c.re * im (bin c) + c.im * re (bin c) else 0 := by
  unfold innerIm
  rw [cellsOf_snoc]
  split_ifs <;> simp

theorem take_snoc {β : Type} {xs : List β} {i : Nat} {c : β} (h : xs[i]? = some c) : xs.take (i + 1) = xs.take i ++ [c] := by
  rw [List.take_add_one, h]; rfl

theorem holds_set {β : Type} {L : Nat} {f g : Nat → β} {xs : List β} (h : Holds L f xs) {i : Nat} (hi : i < L)
    (hg : ∀ j, j < L → j ≠ i → g j = f j) : wr xs i (g i) = some (xs.set i (g i)) ∧ Holds L g (xs.set i (g i)) := by
  refine ⟨wr_some _ (by rw [h.1]; exact hi), by rw [List.length_set]; exact h.1, fun j hj => ?_⟩
  by_cases e : i = j
  · subst e; rw [List.getElem?_set_self (by rw [h.1]; exact hi)]
  · rw [List.getElem?_set_ne e, h.2 j hj, hg j hj (Ne.symm e)]

/-- The bin the split overload reads for a cell. -/
def mirror (N : Nat) (c : Cell K) : Nat := N - c.fftbin.toNat

/-- **C45** The overload with separate real and imaginary parts, for every kernel and spectrum: all accesses are inside the arrays (`N` values of
spectrum, `uK` values of output), and output `row` is the sum over the cells of the bin of the cell times bin `N - col` of the spectrum. -/
theorem C45_split (N uK : Nat) (cells : List (Cell K)) (fftRe fftIm cqRe cqIm : List K) (hv : Valid N uK cells) (hr : fftRe.length = N)
    (hi : fftIm.length = N) (h1 : cqRe.length = uK) (h2 : cqIm.length = uK) :
    processSplit N uK (some cells) fftRe fftIm (cqRe, cqIm) = some
      ((List.range uK).map (fun row => innerRe cells row (mirror N) (fun k => fftRe.getD k 0) (fun k => fftIm.getD k 0)),
       (List.range uK).map (fun row => innerIm cells row (mirror N) (fun k => fftRe.getD k 0) (fun k => fftIm.getD k 0))) := by
  obtain ⟨s1, e1, g1, g1'⟩ := loop_inv uK (fun row (s : List K × List K) => do
      let re ← wr s.1 row 0
      let im ← wr s.2 row 0
      pure (re, im)) (cqRe, cqIm)
    (fun i s => Part uK i (fun _ => (0 : K)) (fun j => cqRe.getD j 0) s.1 ∧ Part uK i (fun _ => (0 : K)) (fun j => cqIm.getD j 0) s.2)
    ⟨(holds_of_length h1 0).part _, (holds_of_length h2 0).part _⟩ (by
      rintro i ⟨a, b⟩ hi ⟨p1, p2⟩
      refine ⟨(a.set i 0, b.set i 0), ?_, p1.step hi, p2.step hi⟩
      have w1 := p1.wr hi
      have w2 := p2.wr hi
      dsimp only at w1 w2 ⊢
      rw [bind_ok w1, bind_ok w2]
      rfl)
  set re := fun k => fftRe.getD k 0 with hre
  set im := fun k => fftIm.getD k 0 with him
  obtain ⟨s2, e2, g2, g2'⟩ := loop_inv cells.length (fun i s => do
      let c ← cells[i]?
      cellSplit N fftRe fftIm c s) s1
    (fun i s => Holds uK (fun row => innerRe (cells.take i) row (mirror N) re im) s.1 ∧
      Holds uK (fun row => innerIm (cells.take i) row (mirror N) re im) s.2)
    ⟨g1.holds.congr fun j _ => by simp [innerRe, cellsOf], g1'.holds.congr fun j _ => by simp [innerIm, cellsOf]⟩ (by
      rintro i ⟨a, b⟩ hlt ⟨p1, p2⟩
      obtain ⟨c, hc⟩ : ∃ c, cells[i]? = some c := ⟨cells[i], List.getElem?_eq_getElem hlt⟩
      obtain ⟨v1, v2, v3, v4⟩ := hv c (List.mem_of_getElem? hc)
      have hs1 : ∀ row, innerRe (cells.take (i + 1)) row (mirror N) re im = innerRe (cells.take i) row (mirror N) re im +
          if c.cqbin = row ∧ c.fftbin ≠ 0 then c.re * re (mirror N c) - c.im * im (mirror N c) else 0 := fun row => by
        rw [take_snoc hc, innerRe_snoc]
      have hs2 : ∀ row, innerIm (cells.take (i + 1)) row (mirror N) re im = innerIm (cells.take i) row (mirror N) re im +
          if c.cqbin = row ∧ c.fftbin ≠ 0 then c.re * im (mirror N c) + c.im * re (mirror N c) else 0 := fun row => by
        rw [take_snoc hc, innerIm_snoc]
      rw [bind_ok hc]
      unfold cellSplit
      by_cases h0 : c.fftbin = 0
      · rw [if_pos h0]
        refine ⟨(a, b), rfl, p1.congr fun row _ => ?_, p2.congr fun row _ => ?_⟩
        · rw [hs1, if_neg (by simp [h0]), add_zero]
        · rw [hs2, if_neg (by simp [h0]), add_zero]
      · rw [if_neg h0]
        obtain ⟨row, hrow⟩ : ∃ row : Nat, c.cqbin = row := ⟨c.cqbin.toNat, by omega⟩
        have hb : (N : Int) - c.fftbin = ((mirror N c : Nat) : Int) := by unfold mirror; omega
        have hlt2 : mirror N c < N := by unfold mirror; omega
        have hrow' : row < uK := by omega
        obtain ⟨w1, q1⟩ := holds_set p1 hrow' (g := fun row => innerRe (cells.take (i + 1)) row (mirror N) re im) (fun j _ hj => by
          rw [hs1, if_neg (by omega), add_zero])
        obtain ⟨w2, q2⟩ := holds_set p2 hrow' (g := fun row => innerIm (cells.take (i + 1)) row (mirror N) re im) (fun j _ hj => by
          rw [hs2, if_neg (by omega), add_zero])
        rw [hs1, if_pos ⟨hrow, h0⟩] at w1
        rw [hs2, if_pos ⟨hrow, h0⟩] at w2
        refine ⟨(a.set row (innerRe (cells.take (i + 1)) row (mirror N) re im), b.set row (innerIm (cells.take (i + 1)) row (mirror N) re im)), ?_, q1, q2⟩
        rw [hs1, if_pos ⟨hrow, h0⟩, hs2, if_pos ⟨hrow, h0⟩]
        rw [hb, rdI_natCast, bind_ok (get_getD fftRe (mirror N c) 0 (by omega)), rdI_natCast, bind_ok (get_getD fftIm (mirror N c) 0 (by omega)),
          hrow, rdI_natCast, bind_ok (p1.2 row hrow'), wrI_natCast, bind_ok w1, rdI_natCast, bind_ok (p2.2 row hrow'), wrI_natCast, bind_ok w2]
        rfl)
  unfold processSplit
  dsimp only
  rw [bind_ok e1, e2]
  rw [List.take_length] at g2 g2'
  congr 1
  refine Prod.ext (Holds.ext g2 ⟨by simp, fun j hj => ?_⟩) (Holds.ext g2' ⟨by simp, fun j hj => ?_⟩)
  · rw [List.getElem?_map, List.getElem?_range hj]; rfl
  · rw [List.getElem?_map, List.getElem?_range hj]; rfl

/-- **C45** The interleaved overload writes outside its output array, of length `2 * uK`, on every call: for every kernel and spectrum. -/
theorem C45_interleaved_overrun (N uK : Nat) (cells : List (Cell K)) (fftdata cq : List K) (hK : 0 < uK) (h : cq.length = 2 * uK) :
    processInterleaved N uK (some cells) fftdata cq = none := by
  unfold processInterleaved
  dsimp only
  obtain ⟨m, hm⟩ : ∃ m, 2 * uK = m + 1 := ⟨2 * uK - 1, by omega⟩
  have : loop (2 * uK) (fun row (cq : List K) => do
      let cq ← wr cq row 0
      wr cq (row + 1) 0) cq = none := by
    rw [hm]
    obtain ⟨c, h1, h2⟩ := loop_inv m (fun row (cq : List K) => do
      let cq ← wr cq row 0
      wr cq (row + 1) 0) cq (fun _ c => c.length = 2 * uK) h (by
        intro i c hi hc
        refine ⟨(c.set i 0).set (i + 1) 0, ?_, by simp [hc]⟩
        rw [bind_ok (wr_some 0 (by omega)), wr_some _ (by rw [List.length_set]; omega)])
    show (loop m _ cq >>= _) = none
    rw [bind_ok h1]
    dsimp only
    rw [bind_ok (wr_some 0 (by omega)), wr_none _ (by rw [List.length_set]; omega)]
  rw [this]
  rfl

/-- The bin the interleaved overload reads for a cell. -/
def mirror' (N : Nat) (c : Cell K) : Nat := N - c.fftbin.toNat - 1

/-- **C45** Had the output array room for one more value, the interleaved overload would give, in turn, real and imaginary parts of the sum over the cells
of the bin of the cell times bin `N - col - 1` of the spectrum, not `N - col`.

Full statement: it writes only its own `2 * uK` values, and agrees with the other overload. Neither holds (`C45_interleaved_overrun`, `C45_overloads_differ`). -/
theorem C45_interleaved_partial (N uK : Nat) (cells : List (Cell K)) (fftdata cq : List K) (hv : Valid N uK cells) (hf : fftdata.length = 2 * N)
    (h : cq.length = 2 * uK + 1) : ∃ out, processInterleaved N uK (some cells) fftdata cq = some out ∧ ∀ row, row < uK →
      out[2 * row]? = some (innerRe cells row (mirror' N) (fun k => fftdata.getD (2 * k) 0) (fun k => fftdata.getD (2 * k + 1) 0)) ∧
      out[2 * row + 1]? = some (innerIm cells row (mirror' N) (fun k => fftdata.getD (2 * k) 0) (fun k => fftdata.getD (2 * k + 1) 0)) := by
  obtain ⟨c1, e1, g0, g1⟩ := loop_inv (2 * uK) (fun row (cq : List K) => do
      let cq ← wr cq row 0
      wr cq (row + 1) 0) cq
    (fun i c => c.length = 2 * uK + 1 ∧ ∀ j : Nat, j < i → c[j]? = some 0)
    ⟨h, fun j hj => absurd hj (by omega)⟩ (by
      rintro i c hi ⟨p1, p2⟩
      refine ⟨(c.set i 0).set (i + 1) 0, ?_, by simp [p1], fun j hj => ?_⟩
      · rw [bind_ok (wr_some 0 (by omega)), wr_some _ (by rw [List.length_set]; omega)]
      · rw [List.getElem?_set_ne (by omega)]
        by_cases e : i = j
        · subst e; rw [List.getElem?_set_self (by omega)]
        · rw [List.getElem?_set_ne e]; exact p2 j (by omega))
  set re := fun k => fftdata.getD (2 * k) 0 with hre
  set im := fun k => fftdata.getD (2 * k + 1) 0 with him
  obtain ⟨c2, e2, g2, g3⟩ := loop_inv cells.length (fun i cq => do
      let c ← cells[i]?
      cellInterleaved N fftdata c cq) c1
    (fun i s => s.length = 2 * uK + 1 ∧ ∀ row, row < uK → s[2 * row]? = some (innerRe (cells.take i) row (mirror' N) re im) ∧
      s[2 * row + 1]? = some (innerIm (cells.take i) row (mirror' N) re im))
    ⟨g0, fun row hrow => ⟨by rw [g1 _ (by omega)]; simp [innerRe, cellsOf], by rw [g1 _ (by omega)]; simp [innerIm, cellsOf]⟩⟩ (by
      rintro i a hlt ⟨p0, p1⟩
      obtain ⟨c, hc⟩ : ∃ c, cells[i]? = some c := ⟨cells[i], List.getElem?_eq_getElem hlt⟩
      obtain ⟨v1, v2, v3, v4⟩ := hv c (List.mem_of_getElem? hc)
      have hs1 : ∀ row, innerRe (cells.take (i + 1)) row (mirror' N) re im = innerRe (cells.take i) row (mirror' N) re im +
          if c.cqbin = row ∧ c.fftbin ≠ 0 then c.re * re (mirror' N c) - c.im * im (mirror' N c) else 0 := fun row => by
        rw [take_snoc hc, innerRe_snoc]
      have hs2 : ∀ row, innerIm (cells.take (i + 1)) row (mirror' N) re im = innerIm (cells.take i) row (mirror' N) re im +
          if c.cqbin = row ∧ c.fftbin ≠ 0 then c.re * im (mirror' N c) + c.im * re (mirror' N c) else 0 := fun row => by
        rw [take_snoc hc, innerIm_snoc]
      rw [bind_ok hc]
      unfold cellInterleaved
      by_cases h0 : c.fftbin = 0
      · rw [if_pos h0]
        refine ⟨a, rfl, p0, fun row hrow => ?_⟩
        rw [hs1, hs2, if_neg (by simp [h0]), if_neg (by simp [h0]), add_zero, add_zero]
        exact p1 row hrow
      · rw [if_neg h0]
        obtain ⟨row, hrow⟩ : ∃ row : Nat, c.cqbin = row := ⟨c.cqbin.toNat, by omega⟩
        have hb : 2 * (N : Int) - 2 * c.fftbin - 2 = ((2 * mirror' N c : Nat) : Int) := by unfold mirror'; omega
        have hb' : ((2 * mirror' N c : Nat) : Int) + 1 = ((2 * mirror' N c + 1 : Nat) : Int) := by omega
        have hc1 : 2 * c.cqbin = ((2 * row : Nat) : Int) := by omega
        have hc2 : ((2 * row : Nat) : Int) + 1 = ((2 * row + 1 : Nat) : Int) := by omega
        have hlt2 : mirror' N c < N := by unfold mirror'; omega
        have hrow' : row < uK := by omega
        obtain ⟨q1, q2⟩ := p1 row hrow'
        refine ⟨(a.set (2 * row) (innerRe (cells.take (i + 1)) row (mirror' N) re im)).set (2 * row + 1) (innerIm (cells.take (i + 1)) row (mirror' N) re im),
          ?_, by simp [p0], fun r hr => ?_⟩
        · rw [hb, rdI_natCast, bind_ok (get_getD fftdata (2 * mirror' N c) 0 (by omega)), hb', rdI_natCast,
            bind_ok (get_getD fftdata (2 * mirror' N c + 1) 0 (by omega)), hc1, rdI_natCast, bind_ok q1, wrI_natCast, bind_ok (wr_some _ (by omega)),
            hc2, rdI_natCast, bind_ok ((List.getElem?_set_ne (by omega)).trans q2), wrI_natCast, wr_some _ (by rw [List.length_set]; omega), hs1, hs2, if_pos ⟨hrow, h0⟩,
            if_pos ⟨hrow, h0⟩]
        · by_cases e : r = row
          · subst e
            rw [List.getElem?_set_ne (by omega), List.getElem?_set_self (by omega), List.getElem?_set_self (by rw [List.length_set]; omega)]
            exact ⟨rfl, rfl⟩
          · rw [List.getElem?_set_ne (by omega), List.getElem?_set_ne (by omega), List.getElem?_set_ne (by omega), List.getElem?_set_ne (by omega), hs1, hs2,
              if_neg (by omega), if_neg (by omega), add_zero, add_zero]
            exact p1 r hr)
  unfold processInterleaved
  dsimp only
  rw [bind_ok e1]
  rw [List.take_length] at g3
  exact ⟨c2, e2, g3⟩

end transform

/-- **C45** The two overloads do not agree: a spectrum of four bins and a kernel of one cell, with room for one more value in the output. -/
theorem C45_overloads_differ : processSplit (K := ℤ) 4 1 (some [⟨1, 0, 1, 0⟩]) [10, 20, 30, 40] [0, 0, 0, 0] ([0], [0]) = some ([40], [0]) ∧
    processInterleaved (K := ℤ) 4 1 (some [⟨1, 0, 1, 0⟩]) [10, 0, 20, 0, 30, 0, 40, 0] [0, 0, 0] = some [30, 0, 0] := by decide +kernel

/-- **C45** Before the kernel has been made neither overload writes anything. -/
theorem C45_no_kernel {K : Type} [CommRing K] (N uK : Nat) (fftdata fftRe fftIm cq : List K) (s : List K × List K) :
    processInterleaved N uK none fftdata cq = some cq ∧ processSplit N uK none fftRe fftIm s = some s := ⟨rfl, rfl⟩

example : processSplit (K := ℤ) 4 2 (some [⟨1, 1, 1, 2⟩, ⟨2, 1, 1, 0⟩, ⟨0, 0, 1, 1⟩, ⟨3, 0, 0, 1⟩]) [10, 20, 30, 40] [1, 2, 3, 4] ([9, 9], [9, 9]) =
    some ([-2, 62], [20, 87]) := by decide +kernel

example : Valid (K := ℤ) 4 2 [⟨1, 1, 1, 2⟩, ⟨2, 1, 1, 0⟩, ⟨0, 0, 1, 1⟩, ⟨3, 0, 0, 1⟩] := by
  intro c hc; fin_cases hc <;> decide

/-! ## C46 -/

section chroma
variable {K : Type} [Field K]

/-- **C46** The chroma before normalisation: each class is the sum, over the complete octaves, of the magnitudes of the bins of that class. -/
theorem C46_foldOctaves (mag : K → K → K) (uK bpo : Nat) (cqRe cqIm chroma : List K) (h1 : cqRe.length = uK) (h2 : cqIm.length = uK)
    (hc : chroma.length = bpo) : foldOctaves mag uK bpo cqRe cqIm chroma =
      some ((List.range bpo).map (fun b => ∑ oct ∈ range (uK / bpo), mag (cqRe.getD (oct * bpo + b) 0) (cqIm.getD (oct * bpo + b) 0))) := by
  obtain ⟨c1, e1, g1⟩ := fill_part (new := fun _ => (0 : K)) (f := fun b c => wr c b 0) (holds_of_length hc 0) (fun i ys _ _ => rfl)
  obtain ⟨c2, e2, g2⟩ := loop_inv (uK / bpo) (fun oct (chroma : List K) => loop bpo (fun b chroma => do
      let c ← chroma[b]?
      let re ← cqRe[oct * bpo + b]?
      let im ← cqIm[oct * bpo + b]?
      wr chroma b (c + mag re im)) chroma) c1
    (fun n c => Holds bpo (fun b => ∑ oct ∈ range n, mag (cqRe.getD (oct * bpo + b) 0) (cqIm.getD (oct * bpo + b) 0)) c)
    (g1.congr fun b _ => by simp) (by
      intro n c hn hcn
      obtain ⟨c', q1, q2⟩ := fill_part (new := fun b => ∑ oct ∈ range (n + 1), mag (cqRe.getD (oct * bpo + b) 0) (cqIm.getD (oct * bpo + b) 0))
        (f := fun b chroma => do
          let c ← chroma[b]?
          let re ← cqRe[n * bpo + b]?
          let im ← cqIm[n * bpo + b]?
          wr chroma b (c + mag re im)) hcn (by
        intro b ys hb hp
        have hlt := flat_lt hn hb
        have := Nat.div_mul_le_self uK bpo
        rw [bind_ok (hp.get hb), bind_ok (get_getD cqRe (n * bpo + b) 0 (by omega)), bind_ok (get_getD cqIm (n * bpo + b) 0 (by omega)), sum_range_succ])
      exact ⟨c', q1, q2⟩)
  unfold foldOctaves
  rw [bind_ok e1, e2]
  congr 1
  refine Holds.ext g2 ⟨by simp, fun j hj => ?_⟩
  rw [List.getElem?_map, List.getElem?_range hj]
  rfl

/-- **C46** If the number of bins is a number of octaves, every bin is counted exactly once: the classes add up to the sum of all magnitudes. -/
theorem C46_total_magnitude (mag : Nat → K) (noct bpo : Nat) :
    ∑ b ∈ range bpo, ∑ oct ∈ range noct, mag (oct * bpo + b) = ∑ i ∈ range (noct * bpo), mag i := by
  rw [sum_comm]
  induction noct with
  | zero => simp
  | succ n ih => rw [sum_range_succ, ih, Nat.succ_mul, sum_range_add]

/-- **C46** The whole of `Chromagram::process` for a spectrum: the sums over octaves of the magnitudes of the constant-Q bins, then normalised as asked. -/
theorem C46_chromagram [LinearOrder K] [IsStrictOrderedRing K] (mag : K → K → K) (N uK bpo : Nat) (cells : List (Cell K)) (norm : MathReal.NormaliseType)
    (real imag cqRe cqIm chroma : List K) (hv : Valid N uK cells) (hr : real.length = N) (hi : imag.length = N) (h1 : cqRe.length = uK)
    (h2 : cqIm.length = uK) (hc : chroma.length = bpo) :
    chromaOf mag N uK bpo cells norm real imag (cqRe, cqIm) chroma = some (MathReal.normaliseArr ((List.range bpo).map (fun b => ∑ oct ∈ range (uK / bpo),
      mag (innerRe cells (oct * bpo + b) (mirror N) (fun k => real.getD k 0) (fun k => imag.getD k 0))
        (innerIm cells (oct * bpo + b) (mirror N) (fun k => real.getD k 0) (fun k => imag.getD k 0)))) bpo norm) := by
  unfold chromaOf
  rw [bind_ok (C45_split N uK cells real imag cqRe cqIm hv hr hi h1 h2)]
  dsimp only
  rw [bind_ok (C46_foldOctaves mag uK bpo _ _ chroma (by simp) (by simp) hc)]
  show some _ = some _
  congr 2
  refine List.map_congr_left fun b hb => sum_congr rfl fun oct hoct => ?_
  have hb := List.mem_range.mp hb
  have hlt := flat_lt (mem_range.mp hoct) hb
  have := Nat.div_mul_le_self uK bpo
  have hx : oct * bpo + b < uK := by omega
  simp [List.getD_eq_getElem?_getD, List.getElem?_map, List.getElem?_range hx]

example : foldOctaves (K := ℚ) (fun a b => |a| + |b|) 6 3 [1, 2, 3, -4, 5, 6] [0, 0, 0, 1, 1, 1] [9, 9, 9] = some [6, 8, 10] := by decide +kernel

end chroma

end QM.ConstantQ
