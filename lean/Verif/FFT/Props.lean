import Verif.FFT.Model
import Verif.Kiss.Props

namespace QM.FFT

open Complex QM.DFT QM.Kiss

/-- The objects a program can have: constructed with size `n`, then used for any sequence of transforms. -/
inductive Reach (n : Nat) : D → Prop
  | make {k1 k2 d} : D.make n k1 k2 = some d → Reach n d
  | process {d d' inverse ri ii ro io ro' io'} : Reach n d → d.process inverse ri ii ro io = some (d', ro', io') → Reach n d'

/-- The complex input of a call. -/
noncomputable def inputOf (ri : List ℝ) (ii : Option (List ℝ)) (j : Nat) : ℂ :=
  ⟨ri.getD j 0, match ii with | some l => l.getD j 0 | none => 0⟩

theorem reach_plans {n : Nat} (h1 : 1 ≤ n) (h2 : n ≤ 2147483647) {d : D} (h : Reach n d) :
    d.n = n ∧ alloc n false = some d.planf ∧ alloc n true = some d.plani ∧ n = d.kin.length ∧ n = d.kout.length := by
  induction h with
  | make hm =>
    unfold D.make at hm
    simp only [Option.bind_eq_bind, Option.bind_eq_some_iff] at hm
    obtain ⟨pf, e1, pi, e2, e3⟩ := hm
    cases e3
    exact ⟨rfl, e1, e2, by simp, by simp⟩
  | @process d d' inverse ri ii ro io ro' io' hd hp ih =>
    obtain ⟨g1, g2, g3, g4, g5⟩ := ih
    unfold D.process at hp
    simp only [Option.bind_eq_bind, Option.bind_eq_some_iff] at hp
    obtain ⟨kin, e1, e2⟩ := hp
    have hk : kin.length = d.kin.length := by
      have aux : ∀ m kin', loop m (fun i kin => (ri[i]?).bind fun r => (imagIn ii i).bind fun im => wr kin i ⟨r, im⟩) d.kin = some kin' → kin'.length = d.kin.length := by
        intro m
        induction m with
        | zero => intro kin' h; cases h; rfl
        | succ m ih =>
          intro kin' h
          simp only [loop, Option.bind_eq_some_iff] at h
          obtain ⟨a, ha, r, _, im, _, hw⟩ := h
          unfold wr at hw
          split_ifs at hw
          cases hw
          simp [ih a ha]
      exact aux _ _ e1
    cases inverse
    · simp only [Bool.not_false, if_true, Option.bind_eq_some_iff] at e2
      obtain ⟨kout, f1, q, f2, f3⟩ := e2
      obtain ⟨st, out, c1, c2, c3, _⟩ := C22_kiss_fft n false h1 h2 kin d.kout [] (by omega) (by omega)
      rw [g2] at c1; cases c1
      rw [f1] at c2; cases c2
      cases f3
      exact ⟨g1, g2, g3, by simp only; omega, by simp only; omega⟩
    · simp only [Bool.not_true, Bool.false_eq_true, if_false, Option.bind_eq_some_iff] at e2
      obtain ⟨kout, f1, q, f2, f3⟩ := e2
      obtain ⟨st, out, c1, c2, c3, _⟩ := C22_kiss_fft n true h1 h2 kin d.kout [] (by omega) (by omega)
      rw [g3] at c1; cases c1
      rw [f1] at c2; cases c2
      cases f3
      exact ⟨g1, g2, g3, by simp only; omega, by simp only; omega⟩

/-- An object can be constructed for every size from 1 to `INT_MAX`. -/
theorem C22_construct (n : Nat) (h1 : 1 ≤ n) (h2 : n ≤ 2147483647) (k1 k2 : ℂ) : ∃ d, D.make n k1 k2 = some d ∧ Reach n d := by
  obtain ⟨pf, e1, _⟩ := alloc_ok n false h1 h2
  obtain ⟨pi, e2, _⟩ := alloc_ok n true h1 h2
  have : D.make n k1 k2 = some ⟨n, pf, pi, List.replicate n k1, List.replicate n k2⟩ := by
    simp [D.make, e1, e2]
  exact ⟨_, this, Reach.make this⟩

/-- C22: on an object of any size `n` from 1 to `INT_MAX` with any history, `FFT::process` returns in the `n` output
elements the discrete Fourier transform of its input (scaled by `1/n` for the inverse), leaves the output arrays otherwise
alone, and makes no access out of bounds. A null imaginary input is taken as zeros. -/
theorem C22_process (n : Nat) (h1 : 1 ≤ n) (h2 : n ≤ 2147483647) {d : D} (hd : Reach n d) (inverse : Bool)
    (ri : List ℝ) (ii : Option (List ℝ)) (ro io : List ℝ) (hri : n ≤ ri.length) (hii : ∀ l, ii = some l → n ≤ l.length)
    (hro : n ≤ ro.length) (hio : n ≤ io.length) :
    ∃ d' ro' io', d.process inverse ri ii ro io = some (d', ro', io') ∧ Reach n d' ∧
      ro'.length = ro.length ∧ io'.length = io.length ∧
      (∀ k, k < n → ∃ a b, ro'[k]? = some a ∧ io'[k]? = some b ∧
        (⟨a, b⟩ : ℂ) = (if inverse then 1 / (n : ℂ) else 1) * dft inverse n (inputOf ri ii) k) ∧
      (∀ k, n ≤ k → ro'[k]? = ro[k]? ∧ io'[k]? = io[k]?) := by
  obtain ⟨g1, g2, g3, g4, g5⟩ := reach_plans h1 h2 hd
  obtain ⟨kin, a1, a2, a3, _⟩ := fill_ok n (fun i kin => (ri[i]?).bind fun r => (imagIn ii i).bind fun im => wr kin i ⟨r, im⟩) (inputOf ri ii) d.kin (by omega)
    (by
      intro i b1 hi hl _ _
      have hr : ri[i]? = some (ri.getD i 0) := by simp [List.getElem?_eq_getElem (show i < ri.length by omega)]
      rw [hr]
      simp only [Option.bind_some]
      cases ii with
      | none =>
        simp only [imagIn, Option.bind_some]
        rw [wr_some _ (by omega)]; rfl
      | some l =>
        have hl' := hii l rfl
        have hr' : l[i]? = some (l.getD i 0) := by simp [List.getElem?_eq_getElem (show i < l.length by omega)]
        simp only [imagIn, hr', Option.bind_some]
        rw [wr_some _ (by omega)]; rfl)
  obtain ⟨st, out, c1, c2, c3, c4, _⟩ := C22_kiss_fft n inverse h1 h2 kin d.kout [] (by omega) (by omega)
  have hdft : ∀ k, dft inverse n (fun j => kin.getD j 0) k = dft inverse n (inputOf ri ii) k := by
    intro k
    unfold dft
    refine Finset.sum_congr rfl fun j hj => ?_
    rw [Finset.mem_range] at hj
    simp [List.getD, a3 j hj]
  have hst : st = if inverse then d.plani else d.planf := by
    cases inverse
    · rw [g2] at c1; exact (Option.some.inj c1).symm
    · rw [g3] at c1; exact (Option.some.inj c1).symm
  obtain ⟨sc, hsc⟩ : ∃ sc : ℝ, sc = if inverse then 1 / (n : ℝ) else 1 := ⟨_, rfl⟩
  obtain ⟨ro', io', b1, b2, b3, b4, b5⟩ := fill2_ok n (fun i (p : List ℝ × List ℝ) => do
      let v ← out[i]?
      let ro ← wr p.1 i (v.re * sc)
      let io ← wr p.2 i (v.im * sc)
      pure (ro, io)) (fun k => (dft inverse n (inputOf ri ii) k).re * sc) (fun k => (dft inverse n (inputOf ri ii) k).im * sc)
    ro io hro hio
    (by
      intro i x y hi hx hy
      simp only [c4 i hi, hdft, Option.bind_eq_bind, Option.bind_some]
      rw [wr_some _ (by omega)]
      simp only [Option.bind_some]
      rw [wr_some _ (by omega)]
      rfl)
  have hres : d.process inverse ri ii ro io = some ({ d with kin := kin, kout := out }, ro', io') := by
    unfold D.process
    simp only [Option.bind_eq_bind]
    rw [g1, a1]
    simp only [Option.bind_some]
    cases inverse
    · simp only [Bool.false_eq_true, if_false] at hst hsc
      subst hst hsc
      simp only [mul_one, Option.bind_eq_bind] at b1
      simp only [Bool.not_false, if_true, c2, Option.bind_some]
      rw [b1]
      rfl
    · simp only [if_true] at hst hsc
      subst hst hsc
      simp only [Option.bind_eq_bind] at b1
      simp only [Bool.not_true, Bool.false_eq_true, if_false, c2, Option.bind_some]
      rw [b1]
      rfl
  refine ⟨_, ro', io', hres, Reach.process hd hres, b2, b3, ?_, b5⟩
  intro k hk
  refine ⟨_, _, (b4 k hk).1, (b4 k hk).2, ?_⟩
  have hs' : (if inverse then 1 / (n : ℂ) else 1) = ((sc : ℝ) : ℂ) := by
    rw [hsc]; cases inverse <;> simp
  rw [hs']
  apply Complex.ext <;> simp [mul_comm]

/-- The hypotheses are met: a 6-point transform (radices 2 and 3) of real input. -/
example : ∃ d d' ro io, D.make 6 0 0 = some d ∧
    d.process false [1, 2, 3, 4, 5, 6] none (List.replicate 6 0) (List.replicate 6 0) = some (d', ro, io) := by
  obtain ⟨d, h, hr⟩ := C22_construct 6 (by norm_num) (by norm_num) 0 0
  obtain ⟨d', ro, io, h', _⟩ := C22_process 6 (by norm_num) (by norm_num) hr false [1, 2, 3, 4, 5, 6] none
    (List.replicate 6 0) (List.replicate 6 0) (by simp) (by simp) (by simp) (by simp)
  exact ⟨d, d', ro, io, h, h'⟩

/-! ## C23 -/

/-- C23: transforming and transforming back with the opposite direction, in either order, returns the input exactly. -/
theorem C23_round_trip (n : Nat) (h1 : 1 ≤ n) (h2 : n ≤ 2147483647) {d : D} (hd : Reach n d) (inverse : Bool)
    (ri ii ro io ro2 io2 : List ℝ) (hri : n ≤ ri.length) (hii : n ≤ ii.length)
    (hro : n ≤ ro.length) (hio : n ≤ io.length) (hro2 : n ≤ ro2.length) (hio2 : n ≤ io2.length) :
    ∃ d' ro' io' d'' ro'' io'', d.process inverse ri (some ii) ro io = some (d', ro', io') ∧
      d'.process (!inverse) ro' (some io') ro2 io2 = some (d'', ro'', io'') ∧
      (∀ k, k < n → ro''[k]? = ri[k]? ∧ io''[k]? = ii[k]?) := by
  obtain ⟨d', ro', io', e1, e2, e3, e4, e5, _⟩ := C22_process n h1 h2 hd inverse ri (some ii) ro io hri
    (by rintro l ⟨⟩; exact hii) hro hio
  obtain ⟨d'', ro'', io'', f1, f2, f3, f4, f5, _⟩ := C22_process n h1 h2 e2 (!inverse) ro' (some io') ro2 io2 (by omega)
    (by rintro l ⟨⟩; omega) hro2 hio2
  refine ⟨d', ro', io', d'', ro'', io'', e1, f1, fun k hk => ?_⟩
  obtain ⟨a, b, ha, hb, hab⟩ := f5 k hk
  have hn : (n : ℂ) ≠ 0 := by exact_mod_cast (show n ≠ 0 by omega)
  have hmid : ∀ j, j < n → inputOf ro' (some io') j =
      (if inverse then 1 / (n : ℂ) else 1) * dft inverse n (inputOf ri (some ii)) j := by
    intro j hj
    obtain ⟨x, y, hx, hy, hxy⟩ := e5 j hj
    rw [← hxy]
    simp [inputOf, List.getD, hx, hy]
  have hd2 : dft (!inverse) n (inputOf ro' (some io')) k =
      (if inverse then 1 / (n : ℂ) else 1) * (n * inputOf ri (some ii) k) := by
    rw [← dft_dft inverse (inputOf ri (some ii)) k hk]
    conv_lhs => unfold dft
    conv_rhs => rw [dft]
    rw [Finset.mul_sum]
    refine Finset.sum_congr rfl fun j hj => ?_
    rw [hmid j (Finset.mem_range.mp hj)]; ring
  have hfin : (⟨a, b⟩ : ℂ) = inputOf ri (some ii) k := by
    rw [hab, hd2]
    cases inverse
    · simp; field_simp
    · simp; field_simp
  have hre := congrArg Complex.re hfin
  have him := congrArg Complex.im hfin
  simp only [inputOf] at hre him
  rw [ha, hb, hre, him]
  simp [List.getElem?_eq_getElem (show k < ri.length by omega), List.getElem?_eq_getElem (show k < ii.length by omega)]

example : ∃ d d' ro io d'' ro' io', D.make 7 0 0 = some d ∧
    d.process false [1, 2, 3, 4, 5, 6, 7] (some [0, 1, 0, 1, 0, 1, 0]) (List.replicate 7 0) (List.replicate 7 0) =
      some (d', ro, io) ∧
    d'.process true ro (some io) (List.replicate 7 0) (List.replicate 7 0) = some (d'', ro', io') ∧ ro'[2]? = some 3 := by
  obtain ⟨d, h, hr⟩ := C22_construct 7 (by norm_num) (by norm_num) 0 0
  obtain ⟨d', ro, io, d'', ro', io', e1, e2, e3⟩ := C23_round_trip 7 (by norm_num) (by norm_num) hr false
    [1, 2, 3, 4, 5, 6, 7] [0, 1, 0, 1, 0, 1, 0] (List.replicate 7 0) (List.replicate 7 0) (List.replicate 7 0)
    (List.replicate 7 0) (by simp) (by simp) (by simp) (by simp) (by simp) (by simp)
  exact ⟨d, d', ro, io, d'', ro', io', h, e1, e2, by rw [(e3 2 (by norm_num)).1]; rfl⟩

end QM.FFT
