import Verif.DCT.Lemmas

namespace QM.DCT

open QM.FFT

/-- The four transforms of the class. -/
inductive Op
  | forward | forwardUnitary | inverse | inverseUnitary

noncomputable def Op.run : Op → T → List ℝ → List ℝ → Option (T × List ℝ)
  | .forward => QM.DCT.forward
  | .forwardUnitary => QM.DCT.forwardUnitary
  | .inverse => QM.DCT.inverse
  | .inverseUnitary => QM.DCT.inverseUnitary

/-- The `DCT` objects a program can have: constructed with size `n`, then used any number of times, in any order, with arrays of at
least `n` elements. -/
inductive Reach (n : Nat) : T → Prop
  | make {u d} : QM.DCT.make n u = some d → Reach n d
  | call {d d' inp out out'} (op : Op) : Reach n d → n ≤ inp.length → n ≤ out.length → op.run d inp out = some (d', out') → Reach n d'

theorem make_ok {n : Nat} (h1 : 1 ≤ n) (h2 : 4 * n ≤ 2147483647) (u : ℂ) : ∃ d, QM.DCT.make n u = some d ∧ Ok d n := by
  obtain ⟨r, e1, e2⟩ := C24_even_accepted (4 * n) u (by omega) (by omega) h2
  refine ⟨⟨n, n * Real.sqrt (2 / n), List.replicate n 0, List.replicate (n * 4) 0, List.replicate (n * 4) 0,
    List.replicate (n * 4) 0, r⟩, ?_, ⟨rfl, rfl, by simp, by simp; omega, ?_, by simp; omega, by simp; omega, e2⟩⟩
  · unfold make
    rw [show n * 4 = 4 * n by ring, e1]; rfl
  · intro j hj _
    have : j < n * 4 := by omega
    simp [List.getElem?_replicate, this]

theorem sqrt_two_div {n : Nat} (h1 : 1 ≤ n) : (n : ℝ) * Real.sqrt (2 / n) ≠ 0 ∧
    2 / ((n : ℝ) * Real.sqrt (2 / n)) = Real.sqrt (2 / n) ∧ Real.sqrt (2 / n) / Real.sqrt 2 = Real.sqrt (1 / n) := by
  have hn : (0 : ℝ) < n := by exact_mod_cast h1
  have h0 : 0 < Real.sqrt (2 / n) := Real.sqrt_pos.mpr (by positivity)
  refine ⟨by positivity, ?_, ?_⟩
  · rw [div_eq_iff (by positivity)]
    rw [show Real.sqrt (2 / n) * (n * Real.sqrt (2 / n)) = n * (Real.sqrt (2 / n) * Real.sqrt (2 / n)) by ring,
      Real.mul_self_sqrt (by positivity)]
    field_simp
  · rw [← Real.sqrt_div (by positivity)]
    congr 1
    field_simp

theorem forwardUnitary_ok {n : Nat} (h1 : 1 ≤ n) (h2 : 4 * n ≤ 2147483647) {d : T} (hd : Ok d n) (inp out : List ℝ)
    (hi : n ≤ inp.length) (ho : n ≤ out.length) :
    ∃ d' out', forwardUnitary d inp out = some (d', out') ∧ Ok d' n ∧ out'.length = out.length ∧
      (∀ k : Nat, k < n → out'[k]? = some (dctU n (fun j => inp.getD j 0) k)) ∧
      (∀ k : Nat, n ≤ k → out'[k]? = out[k]?) := by
  obtain ⟨d', o, a1, a2, a3, a4, a5⟩ := forward_ok h1 h2 hd inp out hi ho
  obtain ⟨o2, b1, b2, b3, b4⟩ := fill_ok n (fun i o => do
      let v ← o[i]?
      wr o i (v / d.scale)) (fun k => 2 * dct2 n (fun j => inp.getD j 0) k / d.scale) o (by omega)
    (by
      intro i b hin hl hs _
      simp only [hs i (le_refl i), a4 i hin, Option.bind_eq_bind, Option.bind_some]
      rw [wr_some _ (by omega)])
  obtain ⟨s1, s2, s3⟩ := sqrt_two_div h1
  refine ⟨d', o2.set 0 (2 * dct2 n (fun j => inp.getD j 0) 0 / d.scale / Real.sqrt 2), ?_, a2, by simp; omega, ?_, ?_⟩
  · unfold forwardUnitary
    simp only [Option.bind_eq_bind] at b1
    simp only [a1, hd.size, Option.bind_eq_bind, Option.bind_some]
    rw [b1]
    simp only [Option.bind_some, b3 0 (by omega)]
    rw [wr_some _ (by omega)]
    rfl
  · intro k hk
    rw [dctU_eq, rowScale]
    by_cases e : k = 0
    · subst e
      rw [List.getElem?_set_self (by omega), if_pos rfl, hd.scale, ← s3]
      nth_rewrite 2 [← s2]
      congr 1
      ring
    · have hne : (0 : Nat) ≠ k := by omega
      rw [List.getElem?_set_ne hne, b3 k hk, if_neg e, hd.scale]
      congr 1
      conv_rhs => rw [← s2]
      ring
  · intro k hk
    rw [List.getElem?_set_ne (by omega), b4 k hk, a5 k hk]

theorem inverseUnitary_ok {n : Nat} (h1 : 1 ≤ n) (h2 : 4 * n ≤ 2147483647) {d : T} (hd : Ok d n) (inp out : List ℝ)
    (hi : n ≤ inp.length) (ho : n ≤ out.length) :
    ∃ d' out', inverseUnitary d inp out = some (d', out') ∧ Ok d' n ∧ out'.length = out.length ∧
      (∀ m : Nat, m < n → out'[m]? =
        some (∑ k ∈ Finset.range n, inp.getD k 0 * (rowScale n k * ker n k m))) ∧
      (∀ m : Nat, n ≤ m → out'[m]? = out[m]?) := by
  have hn : (0 : ℝ) < n := by exact_mod_cast h1
  obtain ⟨s, a1, a2, a3, a4⟩ := fill_ok n (fun i s => do
      let v ← inp[i]?
      wr s i (v * d.scale)) (fun i => inp.getD i 0 * d.scale) d.scaled (by rw [hd.scaled])
    (by
      intro i b hin hl _ _
      have hv : inp[i]? = some (inp.getD i 0) := by simp [List.getElem?_eq_getElem (show i < inp.length by omega)]
      simp only [hv, Option.bind_eq_bind, Option.bind_some]
      rw [wr_some _ (by rw [hl, hd.scaled]; exact hin)])
  rw [hd.scaled] at a2
  obtain ⟨s', hs'⟩ : ∃ s', s' = s.set 0 (inp.getD 0 0 * d.scale * Real.sqrt 2) := ⟨_, rfl⟩
  have hl' : s'.length = n := by rw [hs']; simp [a2]
  obtain ⟨d', o, b1, b2, b3, b4, b5⟩ := inverse_ok h1 h2 (d := { d with scaled := s' })
    ⟨hd.size, hd.scale, hl', hd.time2, hd.even, hd.fr, hd.fi, hd.fft⟩ s' out (by omega) ho
  refine ⟨d', o, ?_, b2, b3, ?_, b5⟩
  · unfold inverseUnitary
    simp only [Option.bind_eq_bind] at a1
    simp only [hd.size, Option.bind_eq_bind]
    rw [a1]
    simp only [Option.bind_some, a3 0 (by omega)]
    rw [wr_some _ (by omega)]
    simp only [Option.bind_some]
    simp only [hd.size] at b1
    rw [← hs', b1]
  · intro m hm
    rw [b4 m hm]
    congr 1
    obtain ⟨s1, s2, s3⟩ := sqrt_two_div h1
    have hsq : Real.sqrt (2 / n) * Real.sqrt (2 / n) = 2 / n := Real.mul_self_sqrt (by positivity)
    have h22 : Real.sqrt 2 * Real.sqrt 2 = 2 := Real.mul_self_sqrt (by norm_num)
    have hr2 : Real.sqrt 2 ≠ 0 := by positivity
    rw [dct3, Finset.range_eq_Ico, Finset.sum_eq_sum_Ico_succ_bot (show 0 < n by omega), add_div, Finset.sum_div]
    have e0 : s'.getD 0 0 = inp.getD 0 0 * d.scale * Real.sqrt 2 := by
      rw [hs']
      simp [List.getD, List.getElem?_set_self (show 0 < s.length by omega)]
    congr 1
    · rw [e0, hd.scale, ker_zero, rowScale, if_pos rfl, ← s3]
      have h3 : Real.sqrt 2 / 2 = 1 / Real.sqrt 2 := by
        rw [div_eq_div_iff (by norm_num) hr2, h22]; norm_num
      rw [show inp.getD 0 0 * ((n : ℝ) * Real.sqrt (2 / n)) * Real.sqrt 2 / 2 / n =
        inp.getD 0 0 * Real.sqrt (2 / n) * (Real.sqrt 2 / 2) by field_simp, h3]
      ring
    · refine Finset.sum_congr rfl fun k hk => ?_
      rw [Finset.mem_Ico] at hk
      have hne : (0 : Nat) ≠ k := by omega
      have ek : s'.getD k 0 = inp.getD k 0 * d.scale := by
        rw [hs']
        simp only [List.getD, List.getElem?_set_ne hne, a3 k hk.2, Option.getD_some]
      rw [ek, hd.scale, rowScale, if_neg (by omega)]
      field_simp

theorem reach_ok {n : Nat} (h1 : 1 ≤ n) (h2 : 4 * n ≤ 2147483647) {d : T} (h : Reach n d) : Ok d n := by
  induction h with
  | make hm =>
    rename_i u d
    obtain ⟨d', e1, e2⟩ := make_ok h1 h2 u
    rw [e1] at hm; cases hm; exact e2
  | call op hr a b hf ih =>
    rename_i d d' inp out out'
    cases op with
    | forward =>
      obtain ⟨_, _, e1, e2, _⟩ := forward_ok h1 h2 ih inp out a b
      rw [Op.run, e1] at hf; cases hf; exact e2
    | forwardUnitary =>
      obtain ⟨_, _, e1, e2, _⟩ := forwardUnitary_ok h1 h2 ih inp out a b
      rw [Op.run, e1] at hf; cases hf; exact e2
    | inverse =>
      obtain ⟨_, _, e1, e2, _⟩ := inverse_ok h1 h2 ih inp out a b
      rw [Op.run, e1] at hf; cases hf; exact e2
    | inverseUnitary =>
      obtain ⟨_, _, e1, e2, _⟩ := inverseUnitary_ok h1 h2 ih inp out a b
      rw [Op.run, e1] at hf; cases hf; exact e2

/-! ## C26 -/

/-- C26: objects of every size exist. -/
theorem C26_construct (n : Nat) (h1 : 1 ≤ n) (h2 : 4 * n ≤ 2147483647) (u : ℂ) :
    ∃ d, QM.DCT.make n u = some d ∧ Reach n d := by
  obtain ⟨d, e, _⟩ := make_ok h1 h2 u
  exact ⟨d, e, Reach.make e⟩

/-- C26: whatever was done with the object before, `forward` stays within its buffers and returns twice the DCT-II of its argument. -/
theorem C26_forward (n : Nat) (h1 : 1 ≤ n) (h2 : 4 * n ≤ 2147483647) {d : T} (hd : Reach n d) (inp out : List ℝ)
    (hi : n ≤ inp.length) (ho : n ≤ out.length) :
    ∃ d' out', forward d inp out = some (d', out') ∧ Reach n d' ∧ out'.length = out.length ∧
      (∀ k : Nat, k < n → out'[k]? = some (2 * dct2 n (fun j => inp.getD j 0) k)) ∧
      (∀ k : Nat, n ≤ k → out'[k]? = out[k]?) := by
  obtain ⟨d', o, e1, _, e3, e4, e5⟩ := forward_ok h1 h2 (reach_ok h1 h2 hd) inp out hi ho
  exact ⟨d', o, e1, Reach.call .forward hd hi ho e1, e3, e4, e5⟩

/-- C26: `forwardUnitary` returns the unitary DCT-II and preserves energy, whatever the history. -/
theorem C26_forwardUnitary (n : Nat) (h1 : 1 ≤ n) (h2 : 4 * n ≤ 2147483647) {d : T} (hd : Reach n d) (inp out : List ℝ)
    (hi : n ≤ inp.length) (ho : n ≤ out.length) :
    ∃ d' out', forwardUnitary d inp out = some (d', out') ∧ Reach n d' ∧ out'.length = out.length ∧
      (∀ k : Nat, k < n → out'[k]? = some (dctU n (fun j => inp.getD j 0) k)) ∧
      ∑ k ∈ Finset.range n, out'.getD k 0 ^ 2 = ∑ j ∈ Finset.range n, inp.getD j 0 ^ 2 := by
  obtain ⟨d', o, e1, _, e3, e4, e5⟩ := forwardUnitary_ok h1 h2 (reach_ok h1 h2 hd) inp out hi ho
  refine ⟨d', o, e1, Reach.call .forwardUnitary hd hi ho e1, e3, e4, ?_⟩
  rw [← dctU_energy n (fun j => inp.getD j 0)]
  refine Finset.sum_congr rfl fun k hk => ?_
  simp only [List.getD, e4 k (Finset.mem_range.mp hk), Option.getD_some]

/-- C26: `inverse` returns the DCT-III divided by `n`, whatever the history. -/
theorem C26_inverse (n : Nat) (h1 : 1 ≤ n) (h2 : 4 * n ≤ 2147483647) {d : T} (hd : Reach n d) (inp out : List ℝ)
    (hi : n ≤ inp.length) (ho : n ≤ out.length) :
    ∃ d' out', inverse d inp out = some (d', out') ∧ Reach n d' ∧ out'.length = out.length ∧
      (∀ m : Nat, m < n → out'[m]? = some (dct3 n (fun k => inp.getD k 0) m / n)) ∧
      (∀ m : Nat, n ≤ m → out'[m]? = out[m]?) := by
  obtain ⟨d', o, e1, _, e3, e4, e5⟩ := inverse_ok h1 h2 (reach_ok h1 h2 hd) inp out hi ho
  exact ⟨d', o, e1, Reach.call .inverse hd hi ho e1, e3, e4, e5⟩

/-- A sum over `n` depends on the first `n` values only. -/
theorem dct2_congr {n : Nat} {x y : Nat → ℝ} (h : ∀ j, j < n → x j = y j) (k : Nat) : dct2 n x k = dct2 n y k :=
  Finset.sum_congr rfl fun j hj => by rw [h j (Finset.mem_range.mp hj)]

theorem dct3_congr {n : Nat} (h0 : 0 < n) {x y : Nat → ℝ} (h : ∀ j, j < n → x j = y j) (m : Nat) : dct3 n x m = dct3 n y m := by
  unfold dct3
  rw [h 0 h0]
  congr 1
  exact Finset.sum_congr rfl fun j hj => by rw [h j (Finset.mem_Ico.mp hj).2]

/-- C26: `inverse` undoes `forward`, on any two objects of the same size with any histories. -/
theorem C26_round_trip (n : Nat) (h1 : 1 ≤ n) (h2 : 4 * n ≤ 2147483647) {d e : T} (hd : Reach n d) (he : Reach n e)
    (inp mid out : List ℝ) (hi : n ≤ inp.length) (hm : n ≤ mid.length) (ho : n ≤ out.length) :
    ∃ d' mid' e' out', forward d inp mid = some (d', mid') ∧ inverse e mid' out = some (e', out') ∧
      (∀ j : Nat, j < n → out'[j]? = inp[j]?) := by
  have hn : (n : ℝ) ≠ 0 := by exact_mod_cast (show n ≠ 0 by omega)
  obtain ⟨d', mid', a1, _, a3, a4, _⟩ := C26_forward n h1 h2 hd inp mid hi hm
  obtain ⟨e', out', b1, _, b3, b4, _⟩ := C26_inverse n h1 h2 he mid' out (by omega) ho
  refine ⟨d', mid', e', out', a1, b1, fun j hj => ?_⟩
  rw [b4 j hj]
  have : dct3 n (fun k => mid'.getD k 0) j = 2 * dct3 n (dct2 n (fun j => inp.getD j 0)) j := by
    rw [dct3_congr (by omega) (y := fun k => 2 * dct2 n (fun j => inp.getD j 0) k)
      (fun k hk => by simp only [List.getD, a4 k hk, Option.getD_some])]
    unfold dct3
    rw [mul_add, Finset.mul_sum]
    congr 1
    · ring
    · exact Finset.sum_congr rfl fun k _ => by ring
  rw [this, dct3_dct2 hj, List.getElem?_eq_getElem (show j < inp.length by omega)]
  congr 1
  simp only [List.getD, List.getElem?_eq_getElem (show j < inp.length by omega), Option.getD_some]
  field_simp

/-- C26: `forward` undoes `inverse`. -/
theorem C26_round_trip' (n : Nat) (h1 : 1 ≤ n) (h2 : 4 * n ≤ 2147483647) {d e : T} (hd : Reach n d) (he : Reach n e)
    (inp mid out : List ℝ) (hi : n ≤ inp.length) (hm : n ≤ mid.length) (ho : n ≤ out.length) :
    ∃ d' mid' e' out', inverse d inp mid = some (d', mid') ∧ forward e mid' out = some (e', out') ∧
      (∀ j : Nat, j < n → out'[j]? = inp[j]?) := by
  have hn : (n : ℝ) ≠ 0 := by exact_mod_cast (show n ≠ 0 by omega)
  obtain ⟨d', mid', a1, _, a3, a4, _⟩ := C26_inverse n h1 h2 hd inp mid hi hm
  obtain ⟨e', out', b1, _, b3, b4, _⟩ := C26_forward n h1 h2 he mid' out (by omega) ho
  refine ⟨d', mid', e', out', a1, b1, fun j hj => ?_⟩
  rw [b4 j hj]
  have : dct2 n (fun k => mid'.getD k 0) j = dct2 n (dct3 n (fun j => inp.getD j 0)) j / n := by
    rw [dct2_congr (y := fun k => dct3 n (fun j => inp.getD j 0) k / n)
      (fun k hk => by simp only [List.getD, a4 k hk, Option.getD_some])]
    unfold dct2
    rw [Finset.sum_div]
    exact Finset.sum_congr rfl fun k _ => by ring
  rw [this, dct2_dct3 hj, List.getElem?_eq_getElem (show j < inp.length by omega)]
  congr 1
  simp only [List.getD, List.getElem?_eq_getElem (show j < inp.length by omega), Option.getD_some]
  field_simp

/-- C26: `inverseUnitary` undoes `forwardUnitary`. -/
theorem C26_unitary_round_trip (n : Nat) (h1 : 1 ≤ n) (h2 : 4 * n ≤ 2147483647) {d e : T} (hd : Reach n d) (he : Reach n e)
    (inp mid out : List ℝ) (hi : n ≤ inp.length) (hm : n ≤ mid.length) (ho : n ≤ out.length) :
    ∃ d' mid' e' out', forwardUnitary d inp mid = some (d', mid') ∧ inverseUnitary e mid' out = some (e', out') ∧
      (∀ j : Nat, j < n → out'[j]? = inp[j]?) := by
  obtain ⟨d', mid', a1, _, a3, a4, _⟩ := C26_forwardUnitary n h1 h2 hd inp mid hi hm
  obtain ⟨e', out', b1, _, b3, b4, _⟩ := inverseUnitary_ok h1 h2 (reach_ok h1 h2 he) mid' out (by omega) ho
  refine ⟨d', mid', e', out', a1, b1, fun j hj => ?_⟩
  rw [b4 j hj, List.getElem?_eq_getElem (show j < inp.length by omega)]
  congr 1
  have e1 : ∀ k ∈ Finset.range n, mid'.getD k 0 * (rowScale n k * ker n k j) =
      ∑ i ∈ Finset.range n, inp.getD i 0 * (rowScale n k * rowScale n k * (ker n k i * ker n k j)) := by
    intro k hk
    simp only [List.getD, a4 k (Finset.mem_range.mp hk), Option.getD_some]
    rw [dctU_eq, dct2, Finset.mul_sum, Finset.sum_mul]
    exact Finset.sum_congr rfl fun i _ => by ring
  rw [Finset.sum_congr rfl e1, Finset.sum_comm]
  have e2 : ∀ i ∈ Finset.range n, ∑ k ∈ Finset.range n, inp.getD i 0 * (rowScale n k * rowScale n k * (ker n k i * ker n k j)) =
      if i = j then inp.getD i 0 else 0 := by
    intro i hi'
    rw [← Finset.mul_sum, col_orth (Finset.mem_range.mp hi') hj]
    split_ifs <;> simp
  rw [Finset.sum_congr rfl e2, Finset.sum_ite_eq', if_pos (Finset.mem_range.mpr hj)]
  simp only [List.getD, List.getElem?_eq_getElem (show j < inp.length by omega), Option.getD_some]

/-- C26: every call's result depends only on its argument: two objects of the same size, whatever their histories, return the same
first `n` values for the same input. -/
theorem C26_stateless (n : Nat) (h1 : 1 ≤ n) (h2 : 4 * n ≤ 2147483647) {d e : T} (hd : Reach n d) (he : Reach n e) (op : Op)
    (inp out out2 : List ℝ) (hi : n ≤ inp.length) (ho : n ≤ out.length) (ho2 : n ≤ out2.length) :
    ∃ d' o e' o2, op.run d inp out = some (d', o) ∧ op.run e inp out2 = some (e', o2) ∧
      (∀ k : Nat, k < n → o[k]? = o2[k]?) := by
  have hd' := reach_ok h1 h2 hd
  have he' := reach_ok h1 h2 he
  cases op with
  | forward =>
    obtain ⟨d', o, a1, _, _, a4, _⟩ := forward_ok h1 h2 hd' inp out hi ho
    obtain ⟨e', o2, b1, _, _, b4, _⟩ := forward_ok h1 h2 he' inp out2 hi ho2
    exact ⟨d', o, e', o2, a1, b1, fun k hk => by rw [a4 k hk, b4 k hk]⟩
  | forwardUnitary =>
    obtain ⟨d', o, a1, _, _, a4, _⟩ := forwardUnitary_ok h1 h2 hd' inp out hi ho
    obtain ⟨e', o2, b1, _, _, b4, _⟩ := forwardUnitary_ok h1 h2 he' inp out2 hi ho2
    exact ⟨d', o, e', o2, a1, b1, fun k hk => by rw [a4 k hk, b4 k hk]⟩
  | inverse =>
    obtain ⟨d', o, a1, _, _, a4, _⟩ := inverse_ok h1 h2 hd' inp out hi ho
    obtain ⟨e', o2, b1, _, _, b4, _⟩ := inverse_ok h1 h2 he' inp out2 hi ho2
    exact ⟨d', o, e', o2, a1, b1, fun k hk => by rw [a4 k hk, b4 k hk]⟩
  | inverseUnitary =>
    obtain ⟨d', o, a1, _, _, a4, _⟩ := inverseUnitary_ok h1 h2 hd' inp out hi ho
    obtain ⟨e', o2, b1, _, _, b4, _⟩ := inverseUnitary_ok h1 h2 he' inp out2 hi ho2
    exact ⟨d', o, e', o2, a1, b1, fun k hk => by rw [a4 k hk, b4 k hk]⟩

/-- The hypotheses are met: an object of size 3 that has done an inverse transform still computes the forward transform. -/
example : ∃ d d' o d'' o', QM.DCT.make 3 0 = some d ∧ inverse d [1, 2, 3] [0, 0, 0] = some (d', o) ∧
    forward d' [4, 5, 6] [0, 0, 0] = some (d'', o') ∧ o'[0]? = some 30 := by
  obtain ⟨d, h, hr⟩ := C26_construct 3 (by norm_num) (by norm_num) 0
  obtain ⟨d', o, e1, e2, _⟩ := C26_inverse 3 (by norm_num) (by norm_num) hr [1, 2, 3] [0, 0, 0] (by simp) (by simp)
  obtain ⟨d'', o', f1, _, _, f4, _⟩ := C26_forward 3 (by norm_num) (by norm_num) e2 [4, 5, 6] [0, 0, 0] (by simp) (by simp)
  refine ⟨d, d', o, d'', o', h, e1, f1, ?_⟩
  rw [f4 0 (by norm_num), dct2]
  simp [Finset.sum_range_succ, ker_zero]
  norm_num

end QM.DCT
