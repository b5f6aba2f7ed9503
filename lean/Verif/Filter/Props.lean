import Verif.Filter.Lemmas

/-!
# C10-C12: Filter and FiltFilt
-/

namespace QM.Filter

variable {R : Type} [CommRing R]
open Finset

/-- A call on a `Filter` object. -/
inductive Op (R : Type) where
  | process (block : List R)
  | reset

/-- Performing calls; the outputs of the `process` calls are collected, one block per call. -/
def run (s : State R) : List (Op R) → Option (State R × List (List R))
  | [] => some (s, [])
  | .process blk :: ops => do
    let (s, out) ← process s blk
    let (s, outs) ← run s ops
    some (s, out :: outs)
  | .reset :: ops => run (reset s) ops

/-- All blocks of a list of `process` calls. -/
def blocks (bs : List (List R)) : List (Op R) := bs.map .process

/-! ## C11: constructor -/

/-- C11. The constructor throws exactly when both coefficient vectors are empty, or `a` is non-empty
and of another length than `b`. -/
theorem C11_new_guard (b a : List R) :
    (∃ e, new b a = .error e) ↔ (a = [] ∧ b = []) ∨ (a ≠ [] ∧ a.length ≠ b.length) := by
  unfold new
  by_cases ha : a = [] <;> by_cases hb : b = [] <;> by_cases hl : a.length = b.length <;>
    simp_all

theorem run_blocks_spec (b a : List R) (bs : List (List R)) (s : State R) (xs ys : List R)
    (h : Inv b a s xs ys) (hd : DiffEq b a xs ys) :
    ∃ s' outs, run s (blocks bs) = some (s', outs) ∧ Inv b a s' (xs ++ bs.flatten) (ys ++ outs.flatten) ∧
      outs.map List.length = bs.map List.length ∧
      DiffEq b a (xs ++ bs.flatten) (ys ++ outs.flatten) := by
  induction bs generalizing s xs ys with
  | nil => exact ⟨s, [], rfl, by simpa using h, rfl, by simpa using hd⟩
  | cons blk bs ih =>
    obtain ⟨s1, out, h1, h2, h3, h4⟩ := process_spec b a blk s xs ys h hd
    obtain ⟨s2, outs, h5, h6, h7, h8⟩ := ih s1 _ _ h2 h4
    refine ⟨s2, out :: outs, ?_, by simpa using h6, by simp [h3, h7], by simpa using h8⟩
    show run s (.process blk :: blocks bs) = _
    rw [run, h1]
    simp only [Option.bind_eq_bind, Option.bind_some, h5]

theorem run_inv (b a : List R) (ops : List (Op R)) (s : State R) (xs ys : List R)
    (h : Inv b a s xs ys) (hd : DiffEq b a xs ys) :
    ∃ s' outs xs' ys', run s ops = some (s', outs) ∧ Inv b a s' xs' ys' ∧ DiffEq b a xs' ys' := by
  induction ops generalizing s xs ys with
  | nil => exact ⟨s, [], xs, ys, rfl, h, hd⟩
  | cons op ops ih =>
    cases op with
    | process blk =>
      obtain ⟨s1, out, h1, h2, h3, h4⟩ := process_spec b a blk s xs ys h hd
      obtain ⟨s2, outs, xs', ys', h5, h6, h7⟩ := ih s1 _ _ h2 h4
      refine ⟨s2, out :: outs, xs', ys', ?_, h6, h7⟩
      rw [run, h1]
      simp only [Option.bind_eq_bind, Option.bind_some, h5]
    | reset =>
      exact ih (reset s) [] [] (reset_inv b a s xs ys h) ⟨rfl, by simp⟩

/-- C11 (what holds). For every accepted filter that is FIR or of order at least 1, no history of
`process` and `reset` calls touches memory outside the internal buffers. Partial: IIR filters of order
0 (one coefficient each) are excluded, see `C11_violation`. -/
theorem C11_memory_safe_partial (b a : List R) (s : State R) (h : new b a = .ok s)
    (hord : a.length ≠ 1) (ops : List (Op R)) : run s ops ≠ none := by
  obtain ⟨s', outs, _, _, h1, _⟩ := run_inv b a ops s [] [] (new_inv b a s h hord) ⟨rfl, by simp⟩
  rw [h1]; simp

/-- C11 fails for an accepted filter: with one `a` and one `b` coefficient (order 0) the 21st sample
writes one element past the end of the output history. -/
theorem C11_violation :
    ∃ s : State ℤ, new [1] [1] = .ok s ∧ run s [.process (List.replicate 20 1)] ≠ none ∧
      run s [.process (List.replicate 21 1)] = none := by
  refine ⟨_, rfl, ?_, ?_⟩ <;> decide

example : ∃ s : State ℤ, new [1, 2] [1, 3] = .ok s ∧ [1, (3 : ℤ)].length ≠ 1 := ⟨_, rfl, by decide⟩

/-! ## C10: difference equation -/

/-- C10. Starting from a new object, whatever the block lengths, each block yields as many outputs
as inputs, and the concatenated output is the solution of the difference equation for the
concatenated input. Hypothesis `hord` excludes the order-0 IIR filter of `C11_violation`. -/
theorem C10_difference_equation (b a : List R) (s : State R) (h : new b a = .ok s)
    (hord : a.length ≠ 1) (bs : List (List R)) :
    ∃ s' outs, run s (blocks bs) = some (s', outs) ∧ outs.map List.length = bs.map List.length ∧
      DiffEq b a bs.flatten outs.flatten := by
  obtain ⟨s', outs, h1, _, h3, h4⟩ := run_blocks_spec b a bs s [] [] (new_inv b a s h hord)
    ⟨rfl, by simp⟩
  exact ⟨s', outs, h1, h3, by simpa using h4⟩

/-- C10. Chunking does not matter: two ways of cutting the same stream into blocks give the same
concatenated output. -/
theorem C10_chunk_independent (b a : List R) (s : State R) (h : new b a = .ok s)
    (hord : a.length ≠ 1) (bs cs : List (List R)) (hbc : bs.flatten = cs.flatten)
    (s1 s2 : State R) (o1 o2 : List (List R)) (h1 : run s (blocks bs) = some (s1, o1))
    (h2 : run s (blocks cs) = some (s2, o2)) : o1.flatten = o2.flatten := by
  obtain ⟨_, p1, e1, _, d1⟩ := C10_difference_equation b a s h hord bs
  obtain ⟨_, p2, e2, _, d2⟩ := C10_difference_equation b a s h hord cs
  rw [e1] at h1; cases h1
  rw [e2] at h2; cases h2
  rw [← hbc] at d2
  exact diffEq_unique _ _ _ _ _ d1 d2

/-- A reset object of a reachable state is literally the new object. -/
theorem reset_eq_new (b a : List R) (s t : State R) (xs ys : List R) (h : new b a = .ok s)
    (ht : Inv b a t xs ys) (hfa : t.fir = true → t.bufa = []) : reset t = s := by
  obtain ⟨hb, ha, hsz, hpos, hfir, hiir, hbl, hob, hbuf⟩ := ht
  unfold new at h
  by_cases hae : a = []
  · rw [if_pos hae] at h
    have hbe : b ≠ [] := List.length_pos_iff.mp hpos
    rw [if_neg hbe] at h
    cases h
    have hf := hfir.mpr hae
    have := hfa hf
    cases t
    simp_all [reset, offmax]
  · obtain ⟨i1, i2, i3, i4, i5⟩ := hiir hae
    rw [if_neg hae, if_neg (by simpa using i1)] at h
    cases h
    have hf : t.fir = false := by
      cases hs : t.fir with
      | false => rfl
      | true => exact absurd (hfir.mp hs) hae
    cases t
    simp_all [reset, offmax]

theorem step_bufa_fir (s s' : State R) (x y : R) (h : step s x = some (s', y)) (hf : s.fir = true) :
    s'.bufa = s.bufa ∧ s'.fir = s.fir := by
  unfold step at h
  simp only [Option.bind_eq_bind, Option.bind_eq_some_iff, hf, if_true] at h
  obtain ⟨p, _, q, _, r, _, h4⟩ := h
  cases h4
  exact ⟨rfl, hf.symm⟩

theorem process_bufa_fir (blk : List R) (s s' : State R) (out : List R)
    (h : process s blk = some (s', out)) (hf : s.fir = true) : s'.bufa = s.bufa ∧ s'.fir = s.fir := by
  induction blk generalizing s out with
  | nil => cases h; exact ⟨rfl, rfl⟩
  | cons x blk ih =>
    rw [process] at h
    simp only [Option.bind_eq_bind, Option.bind_eq_some_iff] at h
    obtain ⟨⟨s1, y⟩, h1, ⟨s2, ys⟩, h2, h3⟩ := h
    cases h3
    obtain ⟨e1, e2⟩ := step_bufa_fir s s1 x y h1 hf
    obtain ⟨e3, e4⟩ := ih s1 ys h2 (by rw [e2]; exact hf)
    exact ⟨by rw [e3, e1], by rw [e4, e2]⟩

theorem run_bufa_fir (ops : List (Op R)) (s s' : State R) (outs : List (List R))
    (h : run s ops = some (s', outs)) (hf : s.fir = true) : s'.bufa = s.bufa ∧ s'.fir = s.fir := by
  induction ops generalizing s outs with
  | nil => cases h; exact ⟨rfl, rfl⟩
  | cons op ops ih =>
    cases op with
    | process blk =>
      rw [run] at h
      simp only [Option.bind_eq_bind, Option.bind_eq_some_iff] at h
      obtain ⟨⟨s1, y⟩, h1, ⟨s2, ys⟩, h2, h3⟩ := h
      cases h3
      obtain ⟨e1, e2⟩ := process_bufa_fir blk s s1 y h1 hf
      obtain ⟨e3, e4⟩ := ih s1 ys h2 (by rw [e2]; exact hf)
      exact ⟨by rw [e3, e1], by rw [e4, e2]⟩
    | reset =>
      obtain ⟨e3, e4⟩ := ih (reset s) outs h hf
      refine ⟨?_, e4⟩
      rw [e3]; simp [reset, hf]

/-- C10. After any history, `reset` returns the object to its initial state, hence to its initial
behaviour. -/
theorem C10_reset (b a : List R) (s : State R) (h : new b a = .ok s) (hord : a.length ≠ 1)
    (ops : List (Op R)) (t : State R) (outs : List (List R)) (hr : run s ops = some (t, outs)) :
    reset t = s := by
  obtain ⟨s', outs', xs, ys, h1, h2, _⟩ := run_inv b a ops s [] [] (new_inv b a s h hord)
    ⟨rfl, by simp⟩
  rw [hr] at h1; cases h1
  refine reset_eq_new b a s t xs ys h h2 ?_
  intro hf
  have hsf : s.fir = true := (new_inv b a s h hord).hfir.mpr (h2.hfir.mp hf)
  rw [(run_bufa_fir ops s t outs hr hsf).1]
  unfold new at h
  rw [if_pos (h2.hfir.mp hf)] at h
  split at h
  · cases h
  · cases h; rfl

example : ∃ s s' : State ℤ, new [1, 2] [1, 3] = .ok s ∧
    run s (blocks [[1, 0], [5]]) = some (s', [[1, -1], [8]]) := ⟨_, _, rfl, by rfl⟩

/-! ## C12: FiltFilt -/

/-- The odd (point) reflection of a block: `n` values before its start and after its end; where the
block is too short to reflect, zero. -/
def oddExt (n : Nat) (src : List R) (k : Nat) : R :=
  let N := src.length
  if k < n then (if n - k < N then 2 * src.getD 0 0 - src.getD (n - k) 0 else 0)
  else if k < n + N then src.getD (k - n) 0
  else (if k - (n + N) + 1 < N then 2 * src.getD (N - 1) 0 - src.getD (N - 2 - (k - (n + N))) 0 else 0)

theorem getD_of_lt (l : List R) (i : Nat) (h : i < l.length) : l.getD i 0 = l[i] := by
  simp [List.getD_eq_getElem?_getD, h]

/-- The scratch array really is the odd extension, and building it is memory safe. -/
theorem extend_spec (n : Nat) (src : List R) (hne : src ≠ []) :
    extend n src = some ((List.range (src.length + 2 * n)).map (oddExt n src)) := by
  have hN : 0 < src.length := List.length_pos_iff.mpr hne
  unfold extend
  simp only [List.getElem?_eq_getElem hN, List.getElem?_eq_getElem (show src.length - 1 < src.length by omega),
    Option.bind_eq_bind, Option.bind_some]
  obtain ⟨s1, e1, l1, p1⟩ := loop_inv n (fun index (sc : List R) =>
      if n - index < src.length then (src[n - index]?).bind (fun v => wr sc index ((2 : R) * src[0] - v))
      else some sc) (List.replicate (src.length + 2 * n) 0)
    (fun k sc => sc.length = src.length + 2 * n ∧ ∀ j, j < src.length + 2 * n →
      sc[j]? = some (if j < k then oddExt n src j else 0))
    ⟨by simp, by intro j hj; simp [List.getElem?_replicate, hj]⟩ (by
      rintro i sc hi ⟨hl, hp⟩
      by_cases hc : n - i < src.length
      · rw [if_pos hc, List.getElem?_eq_getElem hc]
        refine ⟨_, wr_some _ (by omega), by simpa using hl, ?_⟩
        intro j hj
        rw [List.getElem?_set]
        by_cases hij : i = j
        · subst hij
          rw [if_pos rfl, if_pos (by omega), if_pos (by omega)]
          simp only [oddExt]
          rw [if_pos hi, if_pos hc, getD_of_lt _ _ hN, getD_of_lt _ _ hc]
        · rw [if_neg hij, hp j hj]
          congr 1
          by_cases hji : j < i
          · rw [if_pos hji, if_pos (by omega)]
          · rw [if_neg hji, if_neg (by omega)]
      · rw [if_neg hc]
        refine ⟨_, rfl, hl, ?_⟩
        intro j hj
        rw [hp j hj]
        congr 1
        by_cases hji : j < i
        · rw [if_pos hji, if_pos (by omega)]
        · rw [if_neg hji]
          by_cases hje : j = i
          · subst hje
            rw [if_pos (by omega)]
            simp only [oddExt]
            rw [if_pos hi, if_neg hc]
          · rw [if_neg (by omega)])
  obtain ⟨s2, e2, l2, p2⟩ := loop_inv n (fun i (sc : List R) =>
      if i + 1 < src.length then (src[(src.length - 2) - i]?).bind (fun v =>
        wr sc ((src.length + 2 * n - n) + i) ((2 : R) * src[src.length - 1] - v))
      else some sc) s1
    (fun k sc => sc.length = src.length + 2 * n ∧ ∀ j, j < src.length + 2 * n →
      sc[j]? = some (if j < n ∨ (n + src.length ≤ j ∧ j < n + src.length + k) then oddExt n src j else 0))
    ⟨l1, by intro j hj; rw [p1 j hj]; congr 1; simp only [Nat.add_zero]; congr 1; simp⟩ (by
      rintro i sc hi ⟨hl, hp⟩
      have key : oddExt n src (n + src.length + i) = if i + 1 < src.length then
          2 * src.getD (src.length - 1) 0 - src.getD (src.length - 2 - i) 0 else 0 := by
        simp only [oddExt]
        rw [if_neg (by omega), if_neg (by omega)]
        rw [show n + src.length + i - (n + src.length) = i by omega]
      by_cases hc : i + 1 < src.length
      · rw [if_pos hc, List.getElem?_eq_getElem (show src.length - 2 - i < src.length by omega)]
        refine ⟨_, wr_some _ (by omega), by simpa using hl, ?_⟩
        intro j hj
        rw [List.getElem?_set]
        by_cases hij : src.length + 2 * n - n + i = j
        · rw [if_pos hij, if_pos (by omega), if_pos (by omega)]
          have : j = n + src.length + i := by omega
          rw [this, key, if_pos hc, getD_of_lt _ _ (by omega), getD_of_lt _ _ (by omega)]
        · rw [if_neg hij, hp j hj]
          congr 1
          by_cases hji : j < n ∨ (n + src.length ≤ j ∧ j < n + src.length + i)
          · rw [if_pos hji, if_pos (by omega)]
          · rw [if_neg hji, if_neg (by omega)]
      · rw [if_neg hc]
        refine ⟨_, rfl, hl, ?_⟩
        intro j hj
        rw [hp j hj]
        congr 1
        by_cases hji : j < n ∨ (n + src.length ≤ j ∧ j < n + src.length + i)
        · rw [if_pos hji, if_pos (by omega)]
        · rw [if_neg hji]
          by_cases hje : j = n + src.length + i
          · subst hje
            rw [if_pos (by omega), key, if_neg hc]
          · rw [if_neg (by omega)])
  obtain ⟨s3, e3, l3, p3⟩ := loop_inv src.length (fun i (sc : List R) =>
      (src[i]?).bind (fun v => wr sc (i + n) v)) s2
    (fun k sc => sc.length = src.length + 2 * n ∧ ∀ j, j < src.length + 2 * n →
      sc[j]? = some (if j < n + k ∨ n + src.length ≤ j then oddExt n src j else 0))
    ⟨l2, by intro j hj; rw [p2 j hj]; congr 2; simp only [Nat.add_zero]; exact propext (by omega)⟩ (by
      rintro i sc hi ⟨hl, hp⟩
      rw [List.getElem?_eq_getElem hi]
      refine ⟨_, wr_some _ (by omega), by simpa using hl, ?_⟩
      intro j hj
      rw [List.getElem?_set]
      by_cases hij : i + n = j
      · rw [if_pos hij, if_pos (by omega), if_pos (by omega)]
        subst hij
        simp only [oddExt]
        rw [if_neg (by omega), if_pos (by omega), getD_of_lt _ _ (by omega)]
        congr 2; omega
      · rw [if_neg hij, hp j hj]
        congr 1
        by_cases hji : j < n + i ∨ n + src.length ≤ j
        · rw [if_pos hji, if_pos (by omega)]
        · rw [if_neg hji, if_neg (by omega)])
  simp only [e1, e2, Option.bind_some]
  rw [e3]
  congr 1
  apply List.ext_getElem?
  intro j
  by_cases hj : j < src.length + 2 * n
  · rw [p3 j hj, List.getElem?_map, List.getElem?_range hj, if_pos (by omega)]; rfl
  · rw [List.getElem?_eq_none (by omega), List.getElem?_eq_none (by simp; omega)]

/-- C12 (what holds). The *first* call on a new object returns the zero-phase response of this block
alone: filter the odd extension, reverse, filter, reverse, cut the extension off. Partial: this holds for the first call only, see `C12_violation`. Filters as in C10. -/
theorem C12_first_call_partial (b a : List R) (s : State R) (h : new b a = .ok s)
    (hord : a.length ≠ 1) (src : List R) (hne : src ≠ []) :
    ∃ s' dst y1 y2, filtfilt s src = some (s', dst) ∧
      DiffEq b a ((List.range (src.length + 2 * (3 * (b.length - 1)))).map
        (oddExt (3 * (b.length - 1)) src)) y1 ∧
      DiffEq b a y1.reverse y2 ∧
      dst.length = src.length ∧
      ∀ i, i < src.length → dst[i]? = y2.reverse[3 * (b.length - 1) + i]? := by
  have hN : 0 < src.length := List.length_pos_iff.mpr hne
  have hi := new_inv b a s h hord
  set n := 3 * (b.length - 1) with hn
  obtain ⟨s1, y1, h1, h2, h3, h4⟩ := process_spec b a
    ((List.range (src.length + 2 * n)).map (oddExt n src)) s [] [] hi ⟨rfl, by simp⟩
  obtain ⟨s2, y2, h5, h6, h7, h8⟩ := process_spec b a y1.reverse (reset s1) [] []
    (reset_inv b a s1 _ _ h2) ⟨rfl, by simp⟩
  refine ⟨s2, (y2.reverse.drop n).take src.length, y1, y2, ?_, by simpa using h4, by simpa using h8,
    ?_, ?_⟩
  · unfold filtfilt
    rw [if_neg (by omega), hi.hsz, ← hn]
    simp only [extend_spec n src hne]
    simp only [Option.bind_eq_bind, Option.bind_some, h1, h5]
  · simp only [List.length_take, List.length_drop, List.length_reverse, h7, h3, List.length_map,
      List.length_range]
    omega
  · intro i hi'
    rw [List.getElem?_take, if_pos hi', List.getElem?_drop]

/-- C12 fails for recursive filters: the filter is not reset before the forward pass, so a second
call with the same block gives a different answer. -/
theorem C12_violation :
    ∃ (s s1 s2 : State ℤ) (src d1 d2 : List ℤ), new [1, 0] [1, -1] = .ok s ∧
      filtfilt s src = some (s1, d1) ∧ filtfilt s1 src = some (s2, d2) ∧ d1 ≠ d2 := by
  have h : ∃ s1 s2 d1 d2, filtfilt (R := ℤ) ⟨false, 2, [1, -1], [1, 0],
      List.replicate 21 0, List.replicate 22 0, 20, 20⟩
      [1, 2, 4] = some (s1, d1) ∧ filtfilt s1 [1, 2, 4] = some (s2, d2) ∧ d1 ≠ d2 := by
    refine ⟨_, _, _, _, rfl, rfl, ?_⟩
    decide
  obtain ⟨s1, s2, d1, d2, h1, h2, h3⟩ := h
  exact ⟨_, s1, s2, _, d1, d2, rfl, h1, h2, h3⟩

example : ∃ s : State ℤ, new [1, 1] [] = .ok s ∧ ([] : List ℤ).length ≠ 1 ∧ ([1, 2] : List ℤ) ≠ [] :=
  ⟨_, rfl, by decide, by decide⟩

end QM.Filter
