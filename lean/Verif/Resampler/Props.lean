import Verif.Resampler.Lemmas
import Mathlib.Tactic.NormNum

namespace QM.Resampler

variable {R : Type} [CommRing R]

theorem Ready.feed {I O g : Nat} {f : List R} {scale : R} {x : Nat → R} (hI : 0 < I) (hO : 0 < O)
    (hg : 0 < g) (hL : O ≤ f.length) (blocks : List (List R)) :
    ∀ {s : State R} {N k : Nat}, Ready I O g f scale x s N k →
    (∀ i, i < blocks.flatten.length → blocks.flatten[i]? = some (x (N + i))) →
    ∃ s' outs, feed s blocks = .ok (s', outs) ∧
      Ready I O g f scale x s' (N + blocks.flatten.length) (k + outs.flatten.length) ∧
      outs.length = blocks.length ∧
      (∀ i, i < outs.flatten.length → outs.flatten[i]? =
        some (streamAt I O f scale (cdiv (f.length - f.length / 2) O) x (k + i))) := by
  induction blocks with
  | nil => intro s N k h _; exact ⟨s, [], rfl, by simpa using h, rfl, by simp⟩
  | cons b bs ih =>
    intro s N k h hx
    simp only [List.flatten_cons, List.length_append] at hx ⊢
    obtain ⟨s1, o, r1, l1, h1, c1⟩ := h.process hI hO hg hL b (by
      intro i hi
      rw [← hx i (by omega), List.getElem?_append_left hi])
    obtain ⟨s2, os, r2, h2, l2, c2⟩ := ih h1 (by
      intro i hi
      have := hx (b.length + i) (by omega)
      rw [List.getElem?_append_right (by omega)] at this
      simpa [Nat.add_assoc] using this)
    refine ⟨s2, o :: os, ?_, ?_, by simp [l2], ?_⟩
    · rw [Resampler.feed, r1]; dsimp only; rw [r2]
    · simpa [Nat.add_assoc] using h2
    · intro i hi
      simp only [List.flatten_cons, List.length_append] at hi ⊢
      by_cases ho : i < o.length
      · rw [List.getElem?_append_left ho, c1 i ho]
      · rw [List.getElem?_append_right (not_lt.1 ho), c2 _ (by omega)]
        congr 2; omega

/-! ## C15, C16: one stream, whatever the blocks -/

/-- C15 and C16. Take any positive rates, any prototype filter at least `source / gcd` long and any
input stream `x`. However a prefix of the stream is cut into blocks, none of the calls throws or
touches memory out of bounds, and the concatenated outputs are the first samples of one fixed stream:
sample `j` is the filter-weighted sum of the input, with the filter centred on grid position
`(j - latency) * source / gcd`. -/
theorem C16_polyphase_stream (S T : Nat) (hS : 0 < S) (hT : 0 < T) (f : List R) (scale : R)
    (hL : S / Nat.gcd S T ≤ f.length) (x : Nat → R) (blocks : List (List R))
    (hx : ∀ i, i < blocks.flatten.length → blocks.flatten[i]? = some (x i)) :
    ∃ r r' outs, new S T f scale = some r ∧ feed r blocks = .ok (r', outs) ∧
      outs.flatten = (List.range outs.flatten.length).map
        (streamAt (T / Nat.gcd S T) (S / Nat.gcd S T) f scale r.latency x) := by
  obtain ⟨r, hr, h0⟩ := new_spec S T hS hT f scale x
  have hg : 0 < Nat.gcd S T := Nat.gcd_pos_of_pos_left _ hS
  have hI : 0 < T / Nat.gcd S T := Nat.div_pos (Nat.le_of_dvd hT (Nat.gcd_dvd_right _ _)) hg
  have hO : 0 < S / Nat.gcd S T := Nat.div_pos (Nat.le_of_dvd hS (Nat.gcd_dvd_left _ _)) hg
  obtain ⟨r', outs, e, _, _, hc⟩ := h0.feed hI hO hg hL blocks (by simpa using hx)
  refine ⟨r, r', outs, hr, e, ?_⟩
  apply List.ext_getElem?
  intro i
  generalize outs.flatten = o at hc ⊢
  by_cases hi : i < o.length
  · rw [hc i hi, h0.lat]; simp [hi]
  · rw [List.getElem?_eq_none (by omega), List.getElem?_eq_none (by simp; omega)]

/-- C15. For each pair of rates, prototype and input stream there is one output stream such that every
way of cutting any prefix of the input into blocks delivers a prefix of it. -/
theorem C15_one_stream (S T : Nat) (hS : 0 < S) (hT : 0 < T) (f : List R) (scale : R)
    (hL : S / Nat.gcd S T ≤ f.length) (x : Nat → R) :
    ∃ r, new S T f scale = some r ∧ ∃ Y : Nat → R, ∀ blocks : List (List R),
      (∃ n, blocks.flatten = (List.range n).map x) →
      ∃ r' outs, feed r blocks = .ok (r', outs) ∧ ∃ k, outs.flatten = (List.range k).map Y := by
  obtain ⟨r, _, _, hr, _, _⟩ := C16_polyphase_stream S T hS hT f scale hL x [] (by simp)
  refine ⟨r, hr, streamAt (T / Nat.gcd S T) (S / Nat.gcd S T) f scale r.latency x,
    fun blocks ⟨n, hn⟩ => ?_⟩
  obtain ⟨ra, r', outs, hra, e, c⟩ := C16_polyphase_stream S T hS hT f scale hL x blocks (by
    intro i hi
    rw [hn] at hi ⊢
    simp only [List.length_map, List.length_range] at hi
    simp [hi])
  rw [hr] at hra; cases hra
  exact ⟨r', outs, e, _, c⟩

/-- C15. Two ways of cutting the same input into blocks give outputs of which one is a prefix of the
other. -/
theorem C15_chunk_independence (S T : Nat) (hS : 0 < S) (hT : 0 < T) (f : List R) (scale : R)
    (hL : S / Nat.gcd S T ≤ f.length) (b1 b2 : List (List R)) (hb : b1.flatten = b2.flatten) :
    ∃ r r1 r2 o1 o2, new S T f scale = some r ∧ feed r b1 = .ok (r1, o1) ∧ feed r b2 = .ok (r2, o2) ∧
      (o1.flatten <+: o2.flatten ∨ o2.flatten <+: o1.flatten) := by
  have hx : ∀ b : List (List R), b.flatten = b2.flatten →
      ∀ i, i < b.flatten.length → b.flatten[i]? = some (b2.flatten.getD i 0) := by
    intro b e i hi
    rw [e] at hi ⊢
    simp [List.getD_eq_getElem?_getD, List.getElem?_eq_getElem hi]
  obtain ⟨r, r1, o1, hr, e1, c1⟩ := C16_polyphase_stream S T hS hT f scale hL _ b1 (hx b1 hb)
  obtain ⟨ra, r2, o2, hra, e2, c2⟩ := C16_polyphase_stream S T hS hT f scale hL _ b2 (hx b2 rfl)
  rw [hr] at hra; cases hra
  refine ⟨r, r1, r2, o1, o2, hr, e1, e2, ?_⟩
  rw [c1, c2]
  have hpre : ∀ m n : Nat, m ≤ n → List.range m <+: List.range n := by
    intro m n h
    obtain ⟨d, rfl⟩ := Nat.exists_eq_add_of_le h
    rw [List.range_add]; exact List.prefix_append _ _
  rcases le_total o1.flatten.length o2.flatten.length with h | h
  · left; simpa using (hpre _ _ h).map _
  · right; simpa using (hpre _ _ h).map _

/-- A non-trivial instance: 3:2 resampling with a 7-tap prototype; the third sample delivered (latency
2) has the filter centre on the first input sample. -/
example : 0 < 3 ∧ 0 < 2 ∧ 3 / Nat.gcd 3 2 ≤ [1, 2, 3, 4, 3, 2, (1 : Int)].length ∧
    (match new 3 2 [1, 2, 3, 4, 3, 2, (1 : Int)] 1 with
     | some r => r.latency | none => 0) = 2 ∧
    (List.range 4).map (streamAt 2 3 [1, 2, 3, 4, 3, 2, (1 : Int)] 1 2 (fun m => (m : Int) + 1)) =
      [0, 1, 8, 20] := by
  refine ⟨by decide, by decide, by decide, ?_, by decide +kernel⟩
  simp [new, QM.MathInt.C02_gcd_correct, wrapUp, mkPhase, List.range_succ, cdiv]

/-! ## C17: how much is delivered, and safety -/

theorem cdiv_le_avail {I O : Nat} (hO : 0 < O) (L N : Nat) : cdiv (N * I) O ≤ avail I O L N := by
  rw [cdiv_le_iff hO]
  have hc := c0_ge O L hO
  by_contra h
  have h1 : ¬ (avail I O L N < avail I O L N) := lt_irrefl _
  rw [lt_avail_iff hO] at h1
  -- (avail) * O > c0 + N I - L ≥ N I
  omega

theorem cdiv_add_le {a b c : Nat} (hc : 0 < c) : cdiv (a + b) c ≤ cdiv a c + cdiv b c := by
  rw [cdiv_le_iff hc, Nat.add_mul]
  have := (cdiv_le_iff (a := a) hc).1 le_rfl
  have := (cdiv_le_iff (a := b) hc).1 le_rfl
  omega

theorem avail_le {I O : Nat} (hO : 0 < O) (L N : Nat) : avail I O L N ≤ cdiv (N * I) O + 1 := by
  unfold avail cdiv
  apply Nat.succ_le_succ
  apply Nat.div_le_div_right
  have h1 : c0 O L ≤ L + (O - 1) := by
    unfold c0
    rcases Nat.eq_zero_or_pos (cdiv (L - L / 2) O) with h | h
    · rw [h]; omega
    · have := (lt_cdiv_iff (a := L - L / 2) (k := cdiv (L - L / 2) O - 1) hO).1 (by omega)
      have h2 : cdiv (L - L / 2) O * O = (cdiv (L - L / 2) O - 1) * O + O := by
        conv_lhs => rw [← Nat.sub_add_cancel h]
        rw [Nat.add_mul, Nat.one_mul]
      omega
  omega

/-- Lower bound on the delivered total, kept by every call. -/
theorem feed_total {I O g : Nat} {f : List R} {scale : R} {x : Nat → R} (hI : 0 < I) (hO : 0 < O)
    (hg : 0 < g) (hL : O ≤ f.length) (blocks : List (List R)) :
    ∀ {s : State R} {N k : Nat}, Ready I O g f scale x s N k → cdiv (N * I) O ≤ k →
    (∀ i, i < blocks.flatten.length → blocks.flatten[i]? = some (x (N + i))) →
    ∀ s' outs, feed s blocks = .ok (s', outs) →
      cdiv ((N + blocks.flatten.length) * I) O ≤ k + outs.flatten.length := by
  induction blocks with
  | nil => intro s N k h hk _ s' outs e; cases e; simpa using hk
  | cons b bs ih =>
    intro s N k h hk hx s' outs e
    simp only [List.flatten_cons, List.length_append] at hx ⊢
    obtain ⟨s1, o, r1, l1, h1, c1⟩ := h.process hI hO hg hL b (by
      intro i hi
      rw [← hx i (by omega), List.getElem?_append_left hi])
    rw [Resampler.feed, r1] at e
    dsimp only at e
    cases e2 : Resampler.feed s1 bs with
    | error er => rw [e2] at e; cases e
    | ok q =>
      obtain ⟨s2, os⟩ := q
      rw [e2] at e; cases e
      have := ih h1 (by
        have a1 := cdiv_le_avail (I := I) hO f.length (N + b.length)
        have a2 := cdiv_add_le (a := N * I) (b := b.length * I) hO
        rw [← Nat.add_mul] at a2
        omega) (by
        intro i hi
        have := hx (b.length + i) (by omega)
        rw [List.getElem?_append_right (by omega)] at this
        simpa [Nat.add_assoc] using this) _ _ e2
      simp only [List.flatten_cons, List.length_append]
      rw [← Nat.add_assoc, ← Nat.add_assoc]; exact this

/-- C17. In any history of calls, every call succeeds and delivers at most
`ceil(n * target / source)` samples (so a caller who provides that much room is safe). The total delivered
is `ceil(total input * target / source)` or one more, after every call. The first call delivers exactly
`ceil(n * target / source)` samples. -/
theorem C17_delivery (S T : Nat) (hS : 0 < S) (hT : 0 < T) (f : List R) (scale : R)
    (hL : S / Nat.gcd S T ≤ f.length) (blocks : List (List R)) (b : List R) :
    ∃ r r1 r2 outs out, new S T f scale = some r ∧ feed r blocks = .ok (r1, outs) ∧
      process r1 b = .ok (r2, out) ∧
      out.length ≤ cdiv (b.length * T) S ∧
      cdiv ((blocks.flatten ++ b).length * T) S ≤ (outs.flatten ++ out).length ∧
      (outs.flatten ++ out).length ≤ cdiv ((blocks.flatten ++ b).length * T) S + 1 ∧
      (blocks = [] → out.length = cdiv (b.length * T) S) := by
  let x : Nat → R := fun i => (blocks.flatten ++ b).getD i 0
  obtain ⟨r, hr, h0⟩ := new_spec S T hS hT f scale x
  have hg : 0 < Nat.gcd S T := Nat.gcd_pos_of_pos_left _ hS
  have hI : 0 < T / Nat.gcd S T := Nat.div_pos (Nat.le_of_dvd hT (Nat.gcd_dvd_right _ _)) hg
  have hO : 0 < S / Nat.gcd S T := Nat.div_pos (Nat.le_of_dvd hS (Nat.gcd_dvd_left _ _)) hg
  have hx1 : ∀ i, i < blocks.flatten.length → blocks.flatten[i]? = some (x (0 + i)) := by
    intro i hi
    show _ = some ((blocks.flatten ++ b).getD _ 0)
    rw [Nat.zero_add, List.getD_eq_getElem?_getD, List.getElem?_append_left hi,
      List.getElem?_eq_getElem hi]; rfl
  obtain ⟨r1, outs, e, h1, _, hc⟩ := h0.feed hI hO hg hL blocks hx1
  have htot := feed_total hI hO hg hL blocks h0 (by
    rw [cdiv_le_iff hO]; simp) hx1 _ _ e
  rw [Nat.zero_add, Nat.zero_add] at htot
  rw [Nat.zero_add, Nat.zero_add] at h1
  obtain ⟨r2, out, e2, l2, h2, _⟩ := h1.process hI hO hg hL b (by
    intro i hi
    show _ = some ((blocks.flatten ++ b).getD _ 0)
    rw [List.getD_eq_getElem?_getD, List.getElem?_append_right (by omega), Nat.add_sub_cancel_left,
      List.getElem?_eq_getElem hi]; rfl)
  refine ⟨r, r1, r2, outs, out, hr, e, e2, ?_⟩
  have hratio : ∀ n, cdiv (n * T) S = cdiv (n * (T / Nat.gcd S T)) (S / Nat.gcd S T) := by
    intro n
    conv_lhs => rw [← Nat.div_mul_cancel (Nat.gcd_dvd_left S T), ← Nat.div_mul_cancel (Nat.gcd_dvd_right S T)]
    simp only [Nat.gcd_div_gcd_div_gcd_of_pos_left, Nat.div_mul_cancel (Nat.gcd_dvd_left S T),
      Nat.div_mul_cancel (Nat.gcd_dvd_right S T)]
    have h1 : S = S / Nat.gcd S T * Nat.gcd S T := (Nat.div_mul_cancel (Nat.gcd_dvd_left S T)).symm
    have h2 : T = T / Nat.gcd S T * Nat.gcd S T := (Nat.div_mul_cancel (Nat.gcd_dvd_right S T)).symm
    have h3 := cdiv_mul_right (a := n * (T / Nat.gcd S T)) hO hg
    rw [Nat.mul_assoc, ← h2, ← h1] at h3
    exact h3
  rw [hratio, hratio]
  generalize T / Nat.gcd S T = I at *
  generalize S / Nat.gcd S T = O at *
  have a1 := cdiv_le_avail (I := I) hO f.length (blocks.flatten.length + b.length)
  have a3 := avail_le (I := I) hO f.length (blocks.flatten.length + b.length)
  have a2 := cdiv_add_le (a := blocks.flatten.length * I) (b := b.length * I) hO
  rw [← Nat.add_mul] at a2
  have hle := h1.le.trans (avail_mono (M := blocks.flatten.length + b.length) (by omega) _)
  simp only [List.length_append]
  refine ⟨by omega, by omega, by omega, ?_⟩
  rintro rfl
  cases e
  simp only [List.flatten_nil, List.length_nil, Nat.zero_add] at *
  omega

/-- C17, why a prototype shorter than `source / gcd` is excluded: the prototype is capped at 200001
taps, and with fewer taps than `source / gcd` the origin can overtake the buffer, which `process`
reports by throwing. (Reduced instance: 1 tap, 5:1.) -/
theorem C17_violation : ∃ (r r' : State Int) (o : List Int), new 5 1 [1] 1 = some r ∧
    process r [7] = .ok (r', o) ∧ process r' [8] = .error .throws := by
  refine ⟨⟨5, 1, 1, 1, [⟨0, [1], 5⟩], 0, [0, 0, 0, 0, 0], 0⟩,
    ⟨5, 1, 1, 1, [⟨0, [1], 5⟩], 0, [7], 0⟩, [0], ?_, rfl, rfl⟩
  simp [new, QM.MathInt.C02_gcd_correct, wrapUp, mkPhase, List.range_succ, cdiv, List.replicate]

/-! ## C55: the one-off resampler -/

/-- C55. `resample` returns exactly `ceil(n * target / source)` samples, and sample `i` is the
filter-weighted sum of the (zero-extended) data with the filter centred on grid position
`i * source / gcd`: the latency is exactly compensated. -/
theorem C55_one_off (S T : Nat) (hS : 0 < S) (hT : 0 < T) (f : List R) (scale : R)
    (hL : S / Nat.gcd S T ≤ f.length) (data : List R) :
    ∃ out, resample S T f scale data = .ok out ∧ out.length = cdiv (data.length * T) S ∧
      ∀ i, i < out.length → out[i]? = some
        (outAt (T / Nat.gcd S T) (S / Nat.gcd S T) f scale (fun m => data.getD m 0) data.length i) := by
  let x : Nat → R := fun i => data.getD i 0
  obtain ⟨r, hr, h0⟩ := new_spec S T hS hT f scale x
  have hg : 0 < Nat.gcd S T := Nat.gcd_pos_of_pos_left _ hS
  have hI : 0 < T / Nat.gcd S T := Nat.div_pos (Nat.le_of_dvd hT (Nat.gcd_dvd_right _ _)) hg
  have hO : 0 < S / Nat.gcd S T := Nat.div_pos (Nat.le_of_dvd hS (Nat.gcd_dvd_left _ _)) hg
  have h1 : S = S / Nat.gcd S T * Nat.gcd S T := (Nat.div_mul_cancel (Nat.gcd_dvd_left S T)).symm
  have h2 : T = T / Nat.gcd S T * Nat.gcd S T := (Nat.div_mul_cancel (Nat.gcd_dvd_right S T)).symm
  have hratio : ∀ n, cdiv (n * T) S = cdiv (n * (T / Nat.gcd S T)) (S / Nat.gcd S T) := by
    intro n
    have h3 := cdiv_mul_right (a := n * (T / Nat.gcd S T)) hO hg
    rw [Nat.mul_assoc, ← h2, ← h1] at h3
    exact h3
  have hratio' : ∀ n, cdiv (n * S) T = cdiv (n * (S / Nat.gcd S T)) (T / Nat.gcd S T) := by
    intro n
    have h3 := cdiv_mul_right (a := n * (S / Nat.gcd S T)) hI hg
    rw [Nat.mul_assoc, ← h2, ← h1] at h3
    exact h3
  clear h1 h2
  unfold resample
  rw [hr]
  simp only [hratio, hratio']
  have hlat := h0.lat
  rw [hlat]
  generalize T / Nat.gcd S T = I at *
  generalize S / Nat.gcd S T = O at *
  set lat := cdiv (f.length - f.length / 2) O with hlatdef
  obtain ⟨r1, o1, e1, l1, h1, c1⟩ := h0.process hI hO hg hL data (by
    intro i hi
    show _ = some (data.getD _ 0)
    rw [Nat.zero_add, List.getD_eq_getElem?_getD, List.getElem?_eq_getElem hi]; rfl)
  rw [Nat.zero_add, Nat.zero_add] at h1
  rw [Nat.zero_add] at l1
  set pad := cdiv (lat * O) I with hpad
  obtain ⟨r2, o2, e2, l2, h2, c2⟩ := h1.process hI hO hg hL (List.replicate (data.length + pad - data.length) 0) (by
    intro i hi
    show _ = some (data.getD _ 0)
    simp only [List.length_replicate] at hi
    rw [List.getElem?_replicate, if_pos hi, List.getD_eq_getElem?_getD, List.getElem?_eq_none (by omega)]; rfl)
  rw [e1]; dsimp only; rw [e2]; dsimp only
  rw [List.length_replicate, Nat.add_sub_cancel_left] at l2
  have a1 := cdiv_le_avail (I := I) hO f.length data.length
  have a2 := cdiv_le_avail (I := I) hO f.length (data.length + pad)
  have a3 := avail_le (I := I) hO f.length (data.length + pad)
  have hl1 : o1.length = cdiv (data.length * I) O := by omega
  have p1 : lat * O ≤ pad * I := (cdiv_le_iff hI).1 le_rfl
  have p2 : lat ≤ cdiv (pad * I) O := by
    by_contra hlt
    have := (cdiv_le_iff (a := pad * I) hO).1 (le_refl _)
    have h3 : (cdiv (pad * I) O + 1) * O ≤ lat * O := Nat.mul_le_mul_right O (by omega)
    rw [Nat.add_mul] at h3
    omega
  have p3 : cdiv (data.length * I) O + lat ≤ cdiv ((data.length + pad) * I) O := by
    have hh := (cdiv_le_iff (k := cdiv ((data.length + pad) * I) O) (a := (data.length + pad) * I) hO).1
      (le_refl _)
    generalize cdiv ((data.length + pad) * I) O = K at hh ⊢
    rw [Nat.add_mul] at hh
    have hlK : lat ≤ K := by
      by_contra hlt
      have : (K + 1) * O ≤ lat * O := Nat.mul_le_mul_right O (by omega)
      rw [Nat.add_mul] at this
      omega
    have : cdiv (data.length * I) O ≤ K - lat := by
      rw [cdiv_le_iff hO, Nat.sub_mul]; omega
    omega
  have hcl : cdiv ((data.length + pad) * I) O ≤ cdiv (data.length * I) O + cdiv (pad * I) O := by
    rw [Nat.add_mul]; exact cdiv_add_le hO
  generalize hmdef : cdiv (data.length * I) O = m at *
  generalize cdiv ((data.length + pad) * I) O = m1 at *
  rw [if_neg (by omega)]
  have hret : (if ((o1.length + o2.length : Nat) : Int) - lat > m then (m : Int)
      else ((o1.length + o2.length : Nat) : Int) - lat) = m := by
    split_ifs <;> omega
  rw [hret]
  rw [if_neg (by simp only [List.length_append, List.length_replicate]; omega)]
  refine ⟨_, rfl, ?_, ?_⟩
  · simp only [List.length_take, List.length_drop, List.length_append, List.length_replicate]; omega
  · intro i hi
    simp only [List.length_take, List.length_drop, List.length_append, List.length_replicate] at hi
    have him : i < m := by omega
    rw [List.getElem?_take, if_pos (by omega), List.getElem?_drop,
      List.getElem?_append_left (by simp only [List.length_append]; omega)]
    have hval : (o1 ++ o2)[lat + i]? = some (streamAt I O f scale lat x (lat + i)) := by
      by_cases ho : lat + i < o1.length
      · rw [List.getElem?_append_left ho, c1 _ ho, Nat.zero_add]
      · rw [List.getElem?_append_right (not_lt.1 ho), c2 _ (by omega)]
        congr 2; omega
    rw [hval]
    unfold streamAt outAt
    congr 2
    have : ((lat + i : Nat) : Int) - lat = i := by push_cast; ring
    rw [this]
    apply sum_ext_zero (fun B => x B * tap f (((f.length / 2 : Nat) : Int) + B * I - i * O))
    · intro B hB
      show _ * tap f _ = 0
      rw [tap_ge, mul_zero]
      obtain ⟨d, rfl⟩ := Nat.exists_eq_add_of_le hB
      have hI1 : (1 : Int) ≤ I := by omega
      have hnn : (0 : Int) ≤ ((lat + i) * O + f.length + d : Nat) := by omega
      have h1 := mul_le_mul_of_nonneg_left hI1 hnn
      push_cast at h1 ⊢
      have h3 : (0 : Int) ≤ (lat : Int) * O := by positivity
      have h4 : (0 : Int) ≤ (f.length : Int) / 2 := by omega
      have h5 : (0 : Int) ≤ d := by omega
      linarith
    · intro B hB
      show data.getD B 0 * _ = 0
      rw [List.getD_eq_getElem?_getD, List.getElem?_eq_none hB]; simp

example : 0 < 2 ∧ 0 < 3 ∧ 2 / Nat.gcd 2 3 ≤ [1, 2, (1 : Int)].length ∧ cdiv (4 * 3) 2 = 6 ∧
    (List.range 6).map (fun i : Nat => outAt 3 2 [1, 2, (1 : Int)] 1 (fun m => [5, 6, 7, (8 : Int)].getD m 0) 4 i) =
      [10, 6, 6, 14, 8, 8] := by
  refine ⟨by decide, by decide, by decide, by decide, by decide +kernel⟩

end QM.Resampler
