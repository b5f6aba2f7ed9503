import Verif.MedianFilter.Lemmas
import Mathlib.Tactic.NormNum
import Mathlib.Tactic.FieldSimp

/-!
# C08, C09: MedianFilter
-/

namespace QM.MedianFilter

variable {T : Type} [LinearOrder T] [Zero T]
variable {α : Type} [Field α] [LinearOrder α] [IsStrictOrderedRing α] [FloorRing α]

/-! ## Specification -/

/-- A call on the filter object. -/
inductive Op (T : Type) where
  | push (v : Option T)
  | reset

/-- Values pushed since the last reset, oldest first, NaN counted as zero. -/
def recent (ops : List (Op T)) : List T :=
  ops.foldl (fun acc op => match op with
    | .push v => acc ++ [v.getD 0]
    | .reset => []) []

/-- The last `size` of these, positions before the start counting as zero. -/
def window (size : Nat) (pushed : List T) : List T :=
  (List.replicate size 0 ++ pushed).drop pushed.length

/-- `s` is the ascending rearrangement of `w`. -/
def IsSortOf (s w : List T) : Prop := s.Perm w ∧ s.Pairwise (· ≤ ·)

/-- Rank `⌊size·p/100⌋` clamped to `0 .. size-1`. -/
def rank (size : Nat) (p : α) : Nat :=
  (max 0 (min ((size : Int) - 1) ⌊(size : α) * p / 100⌋)).toNat

/-- Performing calls on the object. -/
def run (s : State T) : List (Op T) → Option (State T)
  | [] => some s
  | .push v :: ops => do run (← push s v) ops
  | .reset :: ops => run (reset s) ops

/-! ## Proofs -/

theorem percentileIndex_eq_rank (size : Nat) (hsz : 1 ≤ size) (p : α) :
    percentileIndex size p = rank size p := by
  unfold percentileIndex rank truncInt
  set x : α := (size : α) * p / 100
  by_cases hx : x < 0
  · have h1 : ⌊x⌋ < 0 := by rw [Int.floor_lt]; simpa using hx
    have h2 : 0 ≤ ⌊-x⌋ := Int.floor_nonneg.mpr (by linarith)
    rw [if_pos hx]
    simp only
    split_ifs <;> omega
  · rw [if_neg hx]
    have h2 : 0 ≤ ⌊x⌋ := Int.floor_nonneg.mpr (not_lt.mp hx)
    simp only
    split_ifs <;> omega

theorem percentileIndex_lt (size : Nat) (hsz : 1 ≤ size) (p : α) : percentileIndex size p < size := by
  rw [percentileIndex_eq_rank size hsz]; unfold rank; omega

omit [LinearOrder T] in
theorem window_length (size : Nat) (l : List T) : (window size l).length = size := by
  simp [window]

omit [LinearOrder T] in
theorem window_push (size : Nat) (hsz : 1 ≤ size) (l : List T) (v : T) :
    window size (l ++ [v]) = (window size l).drop 1 ++ [v] := by
  unfold window
  rw [List.drop_drop, ← List.append_assoc, List.length_append, List.length_singleton]
  rw [List.drop_append_of_le_length]
  simp; omega

theorem mk_inv (size : Nat) (hsz : 1 ≤ size) (p : α) : Inv (mk (T := T) size p) :=
  reset_inv _ hsz

theorem run_spec (ops : List (Op T)) (s : State T) (h : Inv s) (acc : List T)
    (hacc : s.frame = window s.size acc) :
    ∃ s', run s ops = some s' ∧ Inv s' ∧ s'.size = s.size ∧ s'.index = s.index ∧
      s'.frame = window s.size (ops.foldl (fun acc op => match op with
        | .push v => acc ++ [v.getD 0]
        | .reset => []) acc) := by
  induction ops generalizing s acc with
  | nil => exact ⟨s, rfl, h, rfl, rfl, hacc⟩
  | cons op ops ih =>
    cases op with
    | push v =>
      obtain ⟨s1, h1, h2, h3, h4, h5⟩ := push_spec s v h
      obtain ⟨s2, h6, h7, h8, h9, h10⟩ := ih s1 h2 (acc ++ [v.getD 0])
        (by rw [h5, h3, window_push _ h.size_pos, hacc])
      exact ⟨s2, by rw [run, h1]; exact h6, h7, by omega, by omega, by rw [h10, h3]; rfl⟩
    | reset =>
      obtain ⟨s2, h6, h7, h8, h9, h10⟩ := ih (reset s) (reset_inv s h.size_pos) []
        (by simp [reset, window])
      exact ⟨s2, h6, h7, h8, h9, h10⟩

omit [Zero T] in
theorem isSortOf_unique {s t w : List T} (h1 : IsSortOf s w) (h2 : IsSortOf t w) : s = t :=
  (h1.1.trans h2.1.symm).eq_of_pairwise' (r := (· ≤ ·)) h1.2 h2.2

/-- C08. After any history of `push` (including NaN) and `reset` calls on a filter of any size `≥ 1`
and percentile `p`, no access has left the arrays, and `get` returns the element of the stated rank of
the ascending rearrangement of the last `size` values. `getAt q` likewise for every `q`. -/
theorem C08_get (size : Nat) (hsz : 1 ≤ size) (p q : α) (ops : List (Op T)) (srt : List T)
    (hsrt : IsSortOf srt (window size (recent ops))) :
    ∃ s, run (mk size p) ops = some s ∧
      (∃ h : rank size p < srt.length, get s = some srt[rank size p]) ∧
      (∃ h : rank size q < srt.length, getAt s q = some srt[rank size q]) := by
  obtain ⟨s, h1, h2, h3, h4, h5⟩ := run_spec ops (mk (T := T) size p) (mk_inv size hsz p) []
    (by simp [mk, setPercentile, reset, window])
  have hsz' : (mk (T := T) size p).size = size := rfl
  rw [hsz'] at h3 h5
  have hs : s.sorted = srt := isSortOf_unique ⟨h2.perm, h2.sorted⟩ (by rw [h5]; exact hsrt)
  have hl : srt.length = size := by rw [hsrt.1.length_eq, window_length]
  have hr : ∀ x : α, rank size x < srt.length := fun x => by
    rw [← percentileIndex_eq_rank size hsz, hl]; exact percentileIndex_lt size hsz x
  have hidx : s.index = rank size p := by
    rw [h4, ← percentileIndex_eq_rank size hsz]; rfl
  refine ⟨s, h1, ⟨hr p, ?_⟩, ⟨hr q, ?_⟩⟩
  · rw [get, hs, hidx, List.getElem?_eq_getElem]
  · rw [getAt, hs, h3, percentileIndex_eq_rank size hsz, List.getElem?_eq_getElem]

/-- C08. `reset` (at any time) makes the object indistinguishable from a new one. -/
theorem C08_reset (size : Nat) (hsz : 1 ≤ size) (p : α) (before after : List (Op T)) :
    run (mk size p) (before ++ .reset :: after) = run (mk size p) after := by
  obtain ⟨s, h1, h2, h3, h4, -⟩ := run_spec before (mk (T := T) size p) (mk_inv size hsz p) []
    (by simp [mk, setPercentile, reset, window])
  have happ : ∀ (l1 l2 : List (Op T)) (s : State T),
      run s (l1 ++ l2) = (run s l1).bind (fun s => run s l2) := by
    intro l1 l2
    induction l1 with
    | nil => intro s; rfl
    | cons op l1 ih =>
      intro s
      cases op with
      | push v =>
        simp only [List.cons_append, run]
        cases push s v with
        | none => rfl
        | some s' => simp [ih]
      | reset => simp only [List.cons_append, run, ih]
  rw [happ, h1]
  show run s (.reset :: after) = _
  rw [run]
  have : reset s = mk size p := by
    unfold reset
    rw [h3]
    show State.mk size _ _ s.index = _
    rw [h4]; rfl
  rw [this]

example : (1 ≤ 3) ∧ IsSortOf ([0, 2, 5] : List ℚ)
    (window 3 (recent [.push (some 7), .reset, .push (some 1), .push (some 5), .push none,
      .push (some 2)])) := by
  refine ⟨by omega, ?_, ?_⟩ <;> decide

example : rank 3 (50 : ℚ) = 1 := by
  have : ⌊((3 : ℕ) : ℚ) * 50 / 100⌋ = 1 := by rw [Int.floor_eq_iff]; norm_num
  unfold rank; rw [this]; rfl

/-! ## C09 -/

/-- The default percentile 50 selects rank `size/2`: the middle for odd sizes. -/
theorem rank_fifty (size : Nat) (hsz : 1 ≤ size) : rank size (50 : ℚ) = size / 2 := by
  have : ⌊(size : ℚ) * 50 / 100⌋ = ((size / 2 : Nat) : Int) := by
    rw [Int.floor_eq_iff]
    have h1 : 2 * (size / 2) ≤ size := by omega
    have h2 : size < 2 * (size / 2) + 2 := by omega
    have h1' : (2 : ℚ) * ((size / 2 : Nat) : ℚ) ≤ size := by exact_mod_cast h1
    have h2' : (size : ℚ) < 2 * ((size / 2 : Nat) : ℚ) + 2 := by exact_mod_cast h2
    rw [Int.cast_natCast]
    constructor <;> linarith
  unfold rank
  rw [this]; omega

/-- Input with NaN read as zero, at any integer position, zero outside. -/
def sampleAt (inp : List (Option T)) (i : Int) : T :=
  if i < 0 then 0 else ((inp[i.toNat]?).getD none).getD 0

/-- The `size` values at positions `i + size/2 - size + 1 .. i + size/2`. -/
def centred (size : Nat) (inp : List (Option T)) (i : Nat) : List T :=
  (List.range size).map (fun k : Nat => sampleAt inp ((i : Int) + (size / 2 : Nat) - size + 1 + k))

theorem push_get (f : State T) (hf : Inv f) (hidx : f.index < f.size) (x : Option T)
    (acc : List T) (hacc : f.frame = window f.size acc) :
    ∃ f' m, push f x = some f' ∧ Inv f' ∧ f'.size = f.size ∧ f'.index = f.index ∧
      f'.frame = window f.size (acc ++ [x.getD 0]) ∧ get f' = some m ∧
      ∀ srt, IsSortOf srt (window f.size (acc ++ [x.getD 0])) → srt[f.index]? = some m := by
  obtain ⟨f1, h1, h2, h3, h4, h5⟩ := push_spec f x hf
  have hfr : f1.frame = window f.size (acc ++ [x.getD 0]) := by
    rw [h5, window_push _ hf.size_pos, hacc]
  have hlen : f1.index < f1.sorted.length := by
    rw [h2.perm.length_eq, h2.frame_len]; omega
  refine ⟨f1, f1.sorted[f1.index], h1, h2, h3, h4, hfr, ?_, ?_⟩
  · rw [get, List.getElem?_eq_getElem hlen]
  · intro srt hsrt
    have : f1.sorted = srt := isSortOf_unique ⟨h2.perm, h2.sorted⟩ (by rw [hfr]; exact hsrt)
    subst this
    rw [← h4, List.getElem?_eq_getElem hlen]

/-- Result of the main loop: outputs are medians after each push from index `size/2` on. -/
theorem filterLoop_spec (size : Nat) (inp : List (Option T)) (f : State T) (hf : Inv f)
    (hfs : f.size = size) (hidx : f.index = size / 2) (acc : List T)
    (hacc : f.frame = window size acc) (out : List T) (hout : out.length = acc.length - size / 2) :
    ∃ f' out', filterLoop size f acc.length out inp = some (f', out ++ out') ∧ Inv f' ∧
      f'.size = size ∧ f'.index = size / 2 ∧
      f'.frame = window size (acc ++ inp.map (·.getD 0)) ∧
      (out ++ out').length = (acc.length + inp.length) - size / 2 ∧
      ∀ j m, out.length ≤ j → (out ++ out')[j]? = some m →
        ∀ srt, IsSortOf srt (window size ((acc ++ inp.map (·.getD 0)).take (j + size / 2 + 1))) →
          srt[size / 2]? = some m := by
  induction inp generalizing f acc out with
  | nil =>
    refine ⟨f, [], by simp [filterLoop], hf, hfs, hidx, by simpa using hacc, by simpa using hout, ?_⟩
    intro j m hj hm
    rw [List.append_nil, List.getElem?_eq_none (by omega)] at hm
    cases hm
  | cons x inp ih =>
    have hsp := hf.size_pos
    obtain ⟨f1, m1, h1, h2, h3, h4, h5, h6, h7⟩ := push_get f hf (by omega) x acc (by rw [hfs]; exact hacc)
    rw [hfs] at h3 h5 h7
    rw [hidx] at h4 h7
    rw [filterLoop, h1]
    simp only [Option.bind_eq_bind, Option.bind_some, h6]
    have hal : (acc ++ [x.getD 0]).length = acc.length + 1 := by simp
    have happ : acc ++ (x :: inp).map (·.getD 0) = (acc ++ [x.getD 0]) ++ inp.map (·.getD 0) := by
      simp
    by_cases hi : acc.length ≥ size / 2
    · rw [if_pos hi]
      obtain ⟨f2, out2, g1, g2, g3, g4, g5, g6, g7⟩ := ih f1 h2 h3 h4 (acc ++ [x.getD 0]) h5
        (out ++ [m1]) (by rw [hal, List.length_append]; simp; omega)
      rw [hal] at g1 g6
      refine ⟨f2, m1 :: out2, by simpa using g1, g2, g3, g4, by rw [happ]; exact g5, by
        simp at g6 ⊢; omega, ?_⟩
      intro j m hj hm srt hsrt
      rw [happ] at hsrt
      rw [show out ++ m1 :: out2 = (out ++ [m1]) ++ out2 by simp] at hm
      by_cases hjl : j = out.length
      · subst hjl
        rw [List.getElem?_append_left (by simp), List.getElem?_append_right (le_refl _)] at hm
        simp at hm
        subst hm
        apply h7
        rw [show out.length + size / 2 + 1 = (acc ++ [x.getD 0]).length by rw [hal]; omega,
          List.take_left] at hsrt
        exact hsrt
      · exact g7 j m (by simp; omega) hm srt hsrt
    · rw [if_neg hi]
      obtain ⟨f2, out2, g1, g2, g3, g4, g5, g6, g7⟩ := ih f1 h2 h3 h4 (acc ++ [x.getD 0]) h5
        out (by rw [hal]; omega)
      rw [hal] at g1 g6
      refine ⟨f2, out2, g1, g2, g3, g4, by rw [happ]; exact g5, by
        simp at g6 ⊢; omega, ?_⟩
      intro j m hj hm srt hsrt
      rw [happ] at hsrt
      exact g7 j m hj hm srt hsrt

/-- Result of the padding loop. -/
theorem padLoop_spec (size k : Nat) (f : State T) (hf : Inv f) (hfs : f.size = size)
    (hidx : f.index = size / 2) (acc : List T) (hacc : f.frame = window size acc) (out : List T) :
    ∃ out', padLoop f out k = some (out ++ out') ∧ out'.length = k ∧
      ∀ j m, out'[j]? = some m →
        ∀ srt, IsSortOf srt (window size (acc ++ List.replicate (j + 1) 0)) →
          srt[size / 2]? = some m := by
  induction k generalizing f acc out with
  | zero => exact ⟨[], by simp [padLoop], rfl, by intro j m hm; simp at hm⟩
  | succ k ih =>
    have hsp := hf.size_pos
    obtain ⟨f1, m1, h1, h2, h3, h4, h5, h6, h7⟩ := push_get f hf (by omega) (some 0) acc
      (by rw [hfs]; exact hacc)
    rw [hfs] at h3 h5 h7
    rw [hidx] at h4 h7
    simp only [Option.getD_some] at h5 h7
    obtain ⟨out2, g1, g2, g3⟩ := ih f1 h2 h3 h4 (acc ++ [0]) h5 (out ++ [m1])
    refine ⟨m1 :: out2, ?_, by simp [g2], ?_⟩
    · rw [padLoop, h1]
      simp only [Option.bind_eq_bind, Option.bind_some, h6]
      simpa using g1
    · intro j m hm srt hsrt
      cases j with
      | zero => simp at hm; subst hm; exact h7 srt (by simpa using hsrt)
      | succ j =>
        refine g3 j m (by simpa using hm) srt ?_
        rw [List.append_assoc, show [0] ++ List.replicate (j + 1) (0:T) = List.replicate (j + 1 + 1) 0
          from rfl]
        exact hsrt

omit [LinearOrder T] in
/-- The window after `n` pushes of the zero-extended input is the centred window. -/
theorem window_eq_centred (size : Nat) (inp : List (Option T)) (i : Nat) (pushed : List T)
    (hl : pushed.length = i + size / 2 + 1)
    (hp : ∀ j, j < pushed.length → pushed[j]? = some (sampleAt inp j)) :
    window size pushed = centred size inp i := by
  apply List.ext_getElem?
  intro k
  unfold window centred
  rw [List.getElem?_drop, List.getElem?_map, List.getElem?_append, List.length_replicate]
  by_cases hk : k < size
  · rw [List.getElem?_range hk]
    simp only [Option.map_some]
    by_cases h1 : pushed.length + k < size
    · rw [if_pos h1, List.getElem?_replicate, if_pos h1]
      unfold sampleAt
      rw [if_pos (by omega)]
    · rw [if_neg h1, hp _ (by omega)]
      congr 2; omega
  · rw [if_neg (by omega), List.getElem?_eq_none (by omega), List.getElem?_eq_none (by simp; omega)]
    rfl

/-- Fewer than half of the window is non-zero: the middle element is zero. -/
theorem middle_zero (size : Nat) (hsz : 1 ≤ size) (w srt : List T) (hw : w.length = size)
    (hs : IsSortOf srt w) (hz : size < 2 * w.count 0) :
    srt[size / 2]? = some 0 := by
  have hl : srt.length = size := by rw [hs.1.length_eq, hw]
  have hlt : size / 2 < srt.length := by omega
  rw [List.getElem?_eq_getElem hlt]
  have hcount : srt.count 0 = w.count 0 := hs.1.count_eq 0
  have hsplit : (srt.take (size / 2)).count 0 + (srt.drop (size / 2)).count 0 = srt.count 0 := by
    rw [← List.count_append, List.take_append_drop]
  have hsplit2 : (srt.take (size / 2 + 1)).count 0 + (srt.drop (size / 2 + 1)).count 0
      = srt.count 0 := by
    rw [← List.count_append, List.take_append_drop]
  congr 1
  apply le_antisymm
  · -- some zero at or after the middle
    have : 0 < (srt.drop (size / 2)).count 0 := by
      have := List.count_le_length (a := (0:T)) (l := srt.take (size / 2))
      rw [List.length_take] at this
      omega
    obtain ⟨k, hk, hk0⟩ := List.mem_iff_getElem.mp (List.count_pos_iff.mp this)
    rw [List.getElem_drop] at hk0
    refine pairwise_getElem? hs.2 (Nat.le_add_right (size / 2) k) (List.getElem?_eq_getElem hlt) ?_
    rw [← hk0, ← List.getElem?_eq_getElem]
  · have : 0 < (srt.take (size / 2 + 1)).count 0 := by
      have := List.count_le_length (a := (0:T)) (l := srt.drop (size / 2 + 1))
      rw [List.length_drop] at this
      omega
    obtain ⟨k, hk, hk0⟩ := List.mem_iff_getElem.mp (List.count_pos_iff.mp this)
    rw [List.getElem_take] at hk0
    rw [List.length_take] at hk
    refine pairwise_getElem? hs.2 (show k ≤ size / 2 by omega) ?_ (List.getElem?_eq_getElem hlt)
    rw [← hk0, ← List.getElem?_eq_getElem]

theorem window_count (size : Nat) (pushed : List T) (l : List T) (r : Nat)
    (h : pushed = l ++ List.replicate r 0) :
    size ≤ (window size pushed).count 0 + l.length := by
  subst h
  have h1 : (List.replicate size 0 ++ (l ++ List.replicate r 0)).count 0
      ≤ (l ++ List.replicate r (0:T)).length + (window size (l ++ List.replicate r (0:T))).count 0 := by
    conv_lhs => rw [← List.take_append_drop (l ++ List.replicate r (0:T)).length
      (List.replicate size 0 ++ (l ++ List.replicate r 0)), List.count_append]
    have := List.count_le_length (a := (0:T)) (l := (List.replicate size 0 ++
      (l ++ List.replicate r 0)).take (l ++ List.replicate r (0:T)).length)
    rw [List.length_take] at this
    unfold window
    omega
  rw [List.count_append, List.count_append, List.count_replicate_self, List.count_replicate_self,
    List.length_append, List.length_replicate] at h1
  omega

/-- C09. The static `filter` never leaves its arrays, returns exactly as many values as it is given,
and value `i` is the middle element (rank `size/2`) of the `size` input values centred on `i`, zero
outside the input and for NaN, for every size `≥ 1` and every input, also one shorter than the
window. -/
theorem C09_filter (size : Nat) (hsz : 1 ≤ size) (inp : List (Option T)) :
    ∃ out, filter size inp = some out ∧ out.length = inp.length ∧
      ∀ i, i < inp.length → ∀ srt, IsSortOf srt (centred size inp i) →
        out[i]? = srt[size / 2]? ∧ size / 2 < srt.length := by
  have hmk : (mk (T := T) size (50 : ℚ)).index = size / 2 := by
    show percentileIndex size (50 : ℚ) = _
    rw [percentileIndex_eq_rank size hsz, rank_fifty size hsz]
  obtain ⟨f1, out1, h1, h2, h3, h4, h5, h6, h7⟩ := filterLoop_spec size inp (mk size (50 : ℚ))
    (mk_inv size hsz _) rfl hmk [] (by simp [mk, setPercentile, reset, window]) [] (by simp)
  simp only [List.nil_append, List.length_nil, Nat.zero_add] at h1 h5 h6 h7
  obtain ⟨out2, g1, g2, g3⟩ := padLoop_spec size (inp.length - out1.length) f1 h2 h3 h4 _ h5 out1
  refine ⟨out1 ++ out2, ?_, ?_, ?_⟩
  · unfold filter
    rw [h1]; exact g1
  · rw [List.length_append, g2]; omega
  · intro i hi srt hsrt
    have hlen : size / 2 < srt.length := by
      rw [hsrt.1.length_eq]; simp [centred]; omega
    refine ⟨?_, hlen⟩
    have hmapget : ∀ j, j < inp.length → (inp.map (·.getD 0))[j]? = some (sampleAt inp j) := by
      intro j hj
      rw [List.getElem?_map, List.getElem?_eq_getElem hj]
      unfold sampleAt
      rw [if_neg (by omega)]
      simp [hj]
    by_cases hi1 : i < out1.length
    · rw [List.getElem?_append_left hi1, List.getElem?_eq_getElem hi1]
      symm
      refine h7 i out1[i] (Nat.zero_le _) (List.getElem?_eq_getElem hi1) srt ?_
      rw [window_eq_centred size inp i]
      · exact hsrt
      · rw [List.length_take, List.length_map]; omega
      · intro j hj
        rw [List.length_take, List.length_map] at hj
        rw [List.getElem?_take, if_pos (by omega)]
        exact hmapget j (by omega)
    · have hlt2 : i - out1.length < out2.length := by omega
      rw [List.getElem?_append_right (by omega), List.getElem?_eq_getElem hlt2]
      symm
      by_cases hshort : size / 2 ≤ inp.length
      · refine g3 (i - out1.length) _ (List.getElem?_eq_getElem hlt2) srt ?_
        rw [window_eq_centred size inp i]
        · exact hsrt
        · simp; omega
        · intro j hj
          rw [List.getElem?_append, List.length_map]
          by_cases hjl : j < inp.length
          · rw [if_pos hjl]; exact hmapget j hjl
          · rw [if_neg hjl, List.getElem?_replicate, if_pos (by simp at hj; omega)]
            unfold sampleAt
            rw [if_neg (by omega)]
            rw [List.getElem?_eq_none (by simp; omega)]
            rfl
      · -- input shorter than half the window: both are zero
        let W := window size (inp.map (·.getD 0) ++ List.replicate (i - out1.length + 1) (0:T))
        have hW : IsSortOf (W.mergeSort (fun a b => decide (a ≤ b))) W := by
          refine ⟨List.mergeSort_perm _ _, ?_⟩
          have := List.pairwise_mergeSort (le := fun a b : T => decide (a ≤ b))
            (by intro a b c; simp; exact le_trans) (by intro a b; simp; exact le_total a b) W
          simpa using this
        have e1 := g3 (i - out1.length) _ (List.getElem?_eq_getElem hlt2) _ hW
        have e2 := middle_zero size hsz W _ (window_length _ _) hW (by
          have := window_count size _ (inp.map (·.getD 0)) (i - out1.length + 1) rfl
          rw [List.length_map] at this
          show size < 2 * W.count 0
          simp only [W]
          omega)
        rw [e1] at e2
        rw [Option.some.inj e2]
        let P := inp.map (·.getD 0) ++ List.replicate (i + size / 2 + 1 - inp.length) (0:T)
        have hPl : P.length = i + size / 2 + 1 := by simp [P]; omega
        have hP : window size P = centred size inp i := by
          apply window_eq_centred size inp i P hPl
          intro j hj
          simp only [P]
          rw [List.getElem?_append, List.length_map]
          by_cases hjl : j < inp.length
          · rw [if_pos hjl]; exact hmapget j hjl
          · rw [if_neg hjl, List.getElem?_replicate, if_pos (by omega)]
            unfold sampleAt
            rw [if_neg (by omega)]
            rw [List.getElem?_eq_none (by simp; omega)]
            rfl
        refine middle_zero size hsz (centred size inp i) srt (by simp [centred]) hsrt ?_
        have := window_count size P (inp.map (·.getD 0)) _ rfl
        rw [hP, List.length_map] at this
        omega

example : centred 3 [some 5, none, some (1 : ℚ)] 0 = [0, 5, 0] ∧
    IsSortOf [0, 0, 5] (centred 3 [some 5, none, some (1 : ℚ)] 0) := by
  refine ⟨by decide, by decide, by decide⟩

end QM.MedianFilter
