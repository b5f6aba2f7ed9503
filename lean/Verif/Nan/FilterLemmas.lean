import Verif.Nan.Filter
import Verif.Common.Sum
import Mathlib.Tactic.Linarith

/-! The difference equation in doubles that may be NaN. -/

namespace QM.Nan

open QM.Filter (State offmax)
open Finset

/-- `i`-th most recent sample (0 = newest), zero before the start. -/
def hist (l : List Num) (i : Nat) : Num := l.reverse.getD i 0

@[simp] theorem hist_nil (i : Nat) : hist [] i = 0 := by simp [hist]
@[simp] theorem hist_snoc_zero (l : List Num) (x : Num) : hist (l ++ [x]) 0 = x := by simp [hist]
@[simp] theorem hist_snoc_succ (l : List Num) (x : Num) (i : Nat) : hist (l ++ [x]) (i + 1) = hist l i := by simp [hist]

theorem moveBack_spec (cnt : Nat) (buf : List Num) (h : cnt = 0 ∨ cnt + 20 < buf.length) :
    ∃ ys, moveBack cnt buf = some ys ∧ ys.length = buf.length ∧
      ∀ j, ys[j]? = if 21 ≤ j ∧ j < 21 + cnt then buf[j - 21]? else buf[j]? := by
  have := loop_inv cnt (fun k (buf : List Num) => do
    let i := cnt - 1 - k
    let v ← buf[i]?
    wr buf (i + offmax + 1) v) buf
    (fun k ys => ys.length = buf.length ∧ ∀ j, ys[j]? =
      if 21 + (cnt - k) ≤ j ∧ j < 21 + cnt then buf[j - 21]? else buf[j]?)
    ⟨rfl, fun j => by rw [if_neg (by omega)]⟩ ?_
  · obtain ⟨ys, h1, h2, h3⟩ := this
    refine ⟨ys, h1, h2, fun j => ?_⟩
    rw [h3 j]; congr 2; simp
  · rintro k ys hk ⟨h1, h2⟩
    have hlt : cnt - 1 - k < ys.length := by omega
    have hoff : offmax = 20 := rfl
    have hlt2 : cnt - 1 - k + offmax + 1 < ys.length := by omega
    refine ⟨ys.set (cnt - 1 - k + offmax + 1) ys[cnt - 1 - k], ?_, by simpa using h1, ?_⟩
    · simp only [List.getElem?_eq_getElem hlt, Option.bind_eq_bind, Option.bind_some]
      rw [wr_some _ hlt2]
    · intro j
      rw [List.getElem?_set]
      by_cases hj : cnt - 1 - k + offmax + 1 = j
      · rw [if_pos hj, if_pos (by omega), if_pos (by omega), ← List.getElem?_eq_getElem hlt, h2,
          if_neg (by omega)]
        congr 1; omega
      · rw [if_neg hj, h2]
        by_cases hc : 21 + (cnt - k) ≤ j ∧ j < 21 + cnt
        · rw [if_pos hc, if_pos (by omega)]
        · rw [if_neg hc, if_neg (by omega)]

theorem dot_spec (c buf : List Num) (coff off n : Nat) (cf bf : Nat → Num)
    (hc : ∀ i, i < n → c[i + coff]? = some (cf i))
    (hb : ∀ i, i < n → buf[i + off]? = some (bf i)) :
    dot c buf coff off n = some (∑ i ∈ range n, cf i * bf i) := by
  have := loop_inv n (fun i (sum : Num) => do
    let x ← c[i + coff]?
    let y ← buf[i + off]?
    some (sum + x * y)) 0 (fun k s => s = ∑ i ∈ range k, cf i * bf i) (by simp) ?_
  · obtain ⟨s, h1, h2⟩ := this
    unfold dot; rw [h1, h2]
  · rintro i s hi rfl
    refine ⟨_, ?_, rfl⟩
    simp [hc i hi, hb i hi, sum_range_succ]

/-- The relation between the object and the streams `xs`, `ys` it has consumed and produced since construction or the last reset. -/
structure Inv (b a : List ℝ) (s : State Num) (xs ys : List Num) : Prop where
  hb : s.b = b.map .val
  ha : s.a = a.map .val
  hsz : s.sz = b.length
  hpos : 1 ≤ b.length
  hfir : s.fir = true ↔ a = []
  hiir : a ≠ [] → a.length = b.length ∧ 2 ≤ b.length ∧ s.bufa.length = b.length - 1 + 20 ∧
    s.offa ≤ 20 ∧ ∀ i, i < b.length - 1 → s.bufa[i + s.offa]? = some (hist ys i)
  hbl : s.bufb.length = b.length + 20
  hob : s.offb ≤ 20
  hbuf : ∀ i, i < b.length → s.bufb[i + s.offb]? = some (hist xs i)

/-- Value the difference equation demands next. -/
noncomputable def nextOut (b a : List ℝ) (xs ys : List Num) (x : Num) : Num :=
  if a = [] then ∑ i ∈ range b.length, .val (b.getD i 0) * hist (xs ++ [x]) i
  else ∑ i ∈ range b.length, .val (b.getD i 0) * hist (xs ++ [x]) i - ∑ i ∈ range (a.length - 1), .val (a.getD (i + 1) 0) * hist ys i

theorem slide (n : Nat) (hn : 1 ≤ n) (buf : List Num) (off : Nat) (l : List Num) (x : Num)
    (hl : buf.length = n + 20) (ho : off ≤ 20)
    (hbuf : ∀ i, i < n → buf[i + off]? = some (hist l i)) :
    ∃ buf' off' buf'', makeRoom (n - 1) buf off = some (buf', off') ∧
      wr buf' off' x = some buf'' ∧ buf''.length = n + 20 ∧ off' ≤ 20 ∧
      ∀ i, i < n → buf''[i + off']? = some (hist (l ++ [x]) i) := by
  have hoff : offmax = 20 := rfl
  unfold makeRoom
  by_cases h : off > 0
  · refine ⟨buf, off - 1, buf.set (off - 1) x, by rw [if_pos h], wr_some _ (by omega), by simpa using hl,
      by omega, ?_⟩
    intro i hi
    rw [List.getElem?_set]
    cases i with
    | zero => rw [if_pos (by omega), if_pos (by omega), hist_snoc_zero]
    | succ i =>
      rw [if_neg (by omega), hist_snoc_succ, ← hbuf i (by omega)]
      congr 1; omega
  · obtain ⟨ys, h1, h2, h3⟩ := moveBack_spec (n - 1) buf (by omega)
    refine ⟨ys, offmax, ys.set offmax x, by rw [if_neg h, h1]; rfl, wr_some _ (by omega),
      by simp [h2, hl], by simp [offmax], ?_⟩
    intro i hi
    rw [List.getElem?_set]
    cases i with
    | zero => rw [if_pos (by omega), if_pos (by omega), hist_snoc_zero]
    | succ i =>
      rw [if_neg (by omega), hist_snoc_succ, ← hbuf i (by omega), h3, if_pos (by omega)]
      congr 1; omega

theorem step_spec (b a : List ℝ) (s : State Num) (xs ys : List Num) (x : Num) (h : Inv b a s xs ys) :
    ∃ s', filterStep s x = some (s', nextOut b a xs ys x) ∧
      Inv b a s' (xs ++ [x]) (ys ++ [nextOut b a xs ys x]) := by
  obtain ⟨hb, ha, hsz, hpos, hfir, hiir, hbl, hob, hbuf⟩ := h
  obtain ⟨b1, o1, b2, e1, e2, e3, e4, e5⟩ := slide b.length hpos s.bufb s.offb xs x hbl hob hbuf
  have hbs : dot s.b b2 0 o1 s.sz = some (∑ i ∈ range b.length, .val (b.getD i 0) * hist (xs ++ [x]) i) := by
    rw [hsz, hb]
    apply dot_spec
    · intro i hi; simp [hi]
    · exact e5
  unfold filterStep
  rw [hsz] at hbs ⊢
  simp only [e1, e2, hbs, Option.bind_eq_bind, Option.bind_some]
  by_cases hf : a = []
  · rw [if_pos (hfir.mpr hf)]
    have hno : nextOut b a xs ys x = ∑ i ∈ range b.length, .val (b.getD i 0) * hist (xs ++ [x]) i := by
      simp [nextOut, hf]
    rw [hno]
    exact ⟨_, rfl, ⟨hb, ha, rfl, hpos, hfir, fun hne => absurd hf hne, e3, e4, e5⟩⟩
  · rw [if_neg (by rw [hfir]; exact hf)]
    obtain ⟨i1, i2, i3, i4, i5⟩ := hiir hf
    have has : dot s.a s.bufa 1 s.offa (b.length - 1)
        = some (∑ i ∈ range (a.length - 1), .val (a.getD (i + 1) 0) * hist ys i) := by
      rw [ha, i1]
      apply dot_spec
      · intro i hi
        have : i + 1 < a.length := by omega
        simp [this]
      · exact i5
    obtain ⟨a1, p1, a2, f1, f2, f3, f4, f5⟩ := slide (b.length - 1) (by omega) s.bufa s.offa ys
      (nextOut b a xs ys x) (by omega) i4 i5
    simp only [has, f1, Option.bind_some]
    have : ∑ i ∈ range b.length, .val (b.getD i 0) * hist (xs ++ [x]) i
        - ∑ i ∈ range (a.length - 1), .val (a.getD (i + 1) 0) * hist ys i = nextOut b a xs ys x := by
      rw [nextOut, if_neg hf]
    rw [this]
    simp only [f2, Option.bind_some]
    exact ⟨_, rfl, ⟨hb, ha, rfl, hpos, hfir, fun _ => ⟨i1, i2, f3, f4, f5⟩, e3, e4, e5⟩⟩

/-- The outputs of the difference equation for the inputs that follow `xs`. -/
noncomputable def outs (b a : List ℝ) : List Num → List Num → List Num → List Num
  | _, _, [] => []
  | xs, ys, x :: rest => nextOut b a xs ys x :: outs b a (xs ++ [x]) (ys ++ [nextOut b a xs ys x]) rest

theorem filter_spec (b a : List ℝ) (blk : List Num) (s : State Num) (xs ys : List Num) (h : Inv b a s xs ys) :
    ∃ s', filter s blk = some (s', outs b a xs ys blk) ∧ Inv b a s' (xs ++ blk) (ys ++ outs b a xs ys blk) := by
  induction blk generalizing s xs ys with
  | nil => exact ⟨s, rfl, by simpa [outs] using h⟩
  | cons x blk ih =>
    obtain ⟨s1, e1, e2⟩ := step_spec b a s xs ys x h
    obtain ⟨s2, e3, e4⟩ := ih s1 _ _ e2
    refine ⟨s2, ?_, ?_⟩
    · unfold filter
      rw [bind_ok e1]
      dsimp only
      rw [bind_ok e3]
      rfl
    · simpa [outs] using e4

theorem outs_length (b a : List ℝ) (xs ys blk : List Num) : (outs b a xs ys blk).length = blk.length := by
  induction blk generalizing xs ys with
  | nil => rfl
  | cons x blk ih => simp [outs, ih]

theorem hist_ok {l : List Num} (h : ∀ x ∈ l, x ≠ .nan) (i : Nat) : hist l i ≠ .nan := by
  unfold hist
  rw [List.getD_eq_getElem?_getD]
  cases e : l.reverse[i]? with
  | none => simp [Num.zero_eq]
  | some v => exact h v (by simpa using List.mem_of_getElem? e)

theorem sum_ok (n : Nat) (c : Nat → ℝ) (f : Nat → Num) (h : ∀ i, i < n → f i ≠ .nan) : ∑ i ∈ range n, .val (c i) * f i ≠ .nan := by
  induction n with
  | zero => simp [Num.zero_eq]
  | succ n ih =>
    rw [sum_range_succ]
    obtain ⟨r, hr⟩ := (Num.ok_iff _).mp (ih fun i hi => h i (by omega))
    obtain ⟨q, hq⟩ := (Num.ok_iff _).mp (h n (by omega))
    rw [hr, hq]
    simp

/-- The next output of a filter without recursive part is NaN if and only if one of the samples in its reach is. -/
theorem next_fir (b : List ℝ) (xs ys : List Num) (x : Num) :
    nextOut b [] xs ys x = .nan ↔ ∃ i, i < b.length ∧ hist (xs ++ [x]) i = .nan := by
  unfold nextOut
  rw [if_pos rfl]
  constructor
  · intro h
    by_contra hn
    rw [not_exists] at hn
    exact sum_ok b.length (fun i => b.getD i 0) _ (fun i hi e => hn i ⟨hi, e⟩) h
  · rintro ⟨i, hi, h⟩
    exact Num.sum_nan _ hi (by rw [h]; simp)

/-- The next output of a recursive filter of order one or more is NaN after a NaN output and for a NaN input. -/
theorem next_iir (b a : List ℝ) (ha : 2 ≤ a.length) (hb : 1 ≤ b.length) (xs ys : List Num) (x : Num) (h : hist ys 0 = .nan ∨ x = .nan) :
    nextOut b a xs ys x = .nan := by
  unfold nextOut
  rw [if_neg (by rintro rfl; simp at ha)]
  rcases h with h | h
  · rw [Num.sum_nan (n := a.length - 1) (i := 0) (fun i => .val (a.getD (i + 1) 0) * hist ys i) (by omega) (by rw [h]; simp)]
    simp
  · rw [Num.sum_nan (i := 0) (fun i => .val (b.getD i 0) * hist (xs ++ [x]) i) (by omega) (by rw [hist_snoc_zero, h]; simp)]
    simp

theorem next_ok (b a : List ℝ) (xs ys : List Num) (x : Num) (hx : x ≠ .nan) (hxs : ∀ v ∈ xs, v ≠ .nan) (hys : ∀ v ∈ ys, v ≠ .nan) :
    nextOut b a xs ys x ≠ .nan := by
  have h1 := sum_ok b.length (fun i => b.getD i 0) (fun i => hist (xs ++ [x]) i) fun i _ => hist_ok (by
    intro v hv
    rcases List.mem_append.mp hv with h | h
    · exact hxs v h
    · rw [List.mem_singleton.mp h]; exact hx) i
  have h2 := sum_ok (a.length - 1) (fun i => a.getD (i + 1) 0) (fun i => hist ys i) fun i _ => hist_ok hys i
  unfold nextOut
  split
  · exact h1
  · obtain ⟨r, hr⟩ := (Num.ok_iff _).mp h1
    obtain ⟨q, hq⟩ := (Num.ok_iff _).mp h2
    rw [hr, hq]
    simp

/-- Once the last output is NaN, all following outputs are. -/
theorem outs_poisoned (b a : List ℝ) (ha : 2 ≤ a.length) (hb : 1 ≤ b.length) (blk xs ys : List Num) (h : hist ys 0 = .nan) :
    outs b a xs ys blk = List.replicate blk.length .nan := by
  induction blk generalizing xs ys with
  | nil => rfl
  | cons x blk ih =>
    have e := next_iir b a ha hb xs ys x (Or.inl h)
    rw [outs, e, ih _ _ (by simp)]
    rfl

theorem newFilter_inv (b a : List ℝ) (hb : 1 ≤ b.length) (ha : a = [] ∨ (a.length = b.length ∧ 2 ≤ b.length)) :
    ∃ s, newFilter b a = some s ∧ Inv b a s [] [] := by
  have hoff : offmax = 20 := rfl
  unfold newFilter
  by_cases h : a = []
  · subst h
    rw [if_pos rfl, if_neg (by rintro rfl; simp at hb)]
    refine ⟨_, rfl, ⟨rfl, by simp, rfl, hb, by simp, fun h => absurd rfl h, by simp [hoff], by simp [hoff], fun i hi => ?_⟩⟩
    simp [hi]
  · obtain ⟨h1, h2⟩ := ha.resolve_left h
    rw [if_neg h, if_neg (by simpa using h1)]
    refine ⟨_, rfl, ⟨rfl, rfl, rfl, hb, by simp [h], fun _ => ⟨h1, h2, by simp [hoff], by simp [hoff], fun i hi => ?_⟩, by simp [hoff], by simp [hoff],
      fun i hi => ?_⟩⟩
    · dsimp only; rw [List.getElem?_replicate, if_pos (by omega)]; simp
    · dsimp only; rw [List.getElem?_replicate, if_pos (by omega)]; simp

theorem reset_inv (b a : List ℝ) (s : State Num) (xs ys : List Num) (h : Inv b a s xs ys) : Inv b a (resetFilter s) [] [] := by
  have hoff : offmax = 20 := rfl
  obtain ⟨hb, ha, hsz, hpos, hfir, hiir, hbl, hob, hbuf⟩ := h
  refine ⟨hb, ha, hsz, hpos, hfir, fun hne => ?_, by simp [resetFilter, hbl], by simp [resetFilter, hoff], fun i hi => ?_⟩
  · obtain ⟨i1, i2, i3, i4, i5⟩ := hiir hne
    have hf : s.fir = false := by
      cases e : s.fir with
      | false => rfl
      | true => exact absurd (hfir.mp e) hne
    refine ⟨i1, i2, by simp [resetFilter, hf, i3], by simp [resetFilter, hoff], fun i hi => ?_⟩
    unfold resetFilter
    simp only [hf, Bool.false_eq_true, if_false]
    rw [List.getElem?_replicate, if_pos (by omega)]; simp
  · unfold resetFilter
    simp only
    rw [List.getElem?_replicate, if_pos (by omega)]; simp

end QM.Nan
