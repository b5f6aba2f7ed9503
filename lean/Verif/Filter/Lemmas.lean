import Verif.Filter.Model
import Verif.Filter.Spec
import Mathlib.Algebra.BigOperators.Group.Finset.Basic
import Mathlib.Tactic.Ring

namespace QM.Filter

variable {R : Type} [CommRing R]
open Finset

/-- `i`-th most recent sample (0 = newest), zero before the start. -/
def hist (l : List R) (i : Nat) : R := l.reverse.getD i 0

@[simp] theorem hist_nil (i : Nat) : hist ([] : List R) i = 0 := by simp [hist]
@[simp] theorem hist_snoc_zero (l : List R) (x : R) : hist (l ++ [x]) 0 = x := by simp [hist]
@[simp] theorem hist_snoc_succ (l : List R) (x : R) (i : Nat) :
    hist (l ++ [x]) (i + 1) = hist l i := by simp [hist]

theorem hist_eq_delayed (l : List R) (x : R) (i : Nat) :
    hist (l ++ [x]) i = delayed (l ++ [x]) l.length i := by
  unfold hist delayed
  by_cases h : i ≤ l.length
  · rw [if_pos h, List.getD_eq_getElem?_getD, List.getD_eq_getElem?_getD,
      List.getElem?_reverse (by simp; omega)]
    congr 2; simp
  · rw [if_neg h, List.getD_eq_getElem?_getD, List.getElem?_eq_none (by simp; omega)]; rfl

theorem hist_eq_delayed_succ (l : List R) (y : R) (i : Nat) :
    hist l i = delayed (l ++ [y]) l.length (i + 1) := by
  rw [← hist_eq_delayed, hist_snoc_succ]

theorem moveBack_spec (cnt : Nat) (buf : List R) (h : cnt = 0 ∨ cnt + 20 < buf.length) :
    ∃ ys, moveBack cnt buf = some ys ∧ ys.length = buf.length ∧
      ∀ j, ys[j]? = if 21 ≤ j ∧ j < 21 + cnt then buf[j - 21]? else buf[j]? := by
  have := loop_inv cnt (fun k (buf : List R) => do
    let i := cnt - 1 - k
    let v ← buf[i]?
    wr buf (i + offmax + 1) v) buf
    (fun k ys => ys.length = buf.length ∧ ∀ j, ys[j]? =
      if 21 + (cnt - k) ≤ j ∧ j < 21 + cnt then buf[j - 21]? else buf[j]?)
    ⟨rfl, fun j => by rw [if_neg (by omega)]⟩ ?_
  · obtain ⟨ys, h1, h2, h3⟩ := this
    refine ⟨ys, h1, h2, fun j => ?_⟩
    rw [h3 j]; congr 2; simp
  · rintro k ys hk ⟨h1, h2⟩
    have hlt : cnt - 1 - k < ys.length := by omega
    have hoff : offmax = 20 := rfl
    have hlt2 : cnt - 1 - k + offmax + 1 < ys.length := by omega
    refine ⟨ys.set (cnt - 1 - k + offmax + 1) ys[cnt - 1 - k], ?_, by simpa using h1, ?_⟩
    · simp only [List.getElem?_eq_getElem hlt, Option.bind_eq_bind, Option.bind_some]
      rw [wr_some _ hlt2]
    · intro j
      rw [List.getElem?_set]
      by_cases hj : cnt - 1 - k + offmax + 1 = j
      · rw [if_pos hj, if_pos (by omega), if_pos (by omega), ← List.getElem?_eq_getElem hlt, h2,
          if_neg (by omega)]
        congr 1; omega
      · rw [if_neg hj, h2]
        by_cases hc : 21 + (cnt - k) ≤ j ∧ j < 21 + cnt
        · rw [if_pos hc, if_pos (by omega)]
        · rw [if_neg hc, if_neg (by omega)]

theorem dot_spec (c buf : List R) (coff off n : Nat) (cf bf : Nat → R)
    (hc : ∀ i, i < n → c[i + coff]? = some (cf i))
    (hb : ∀ i, i < n → buf[i + off]? = some (bf i)) :
    dot c buf coff off n = some (∑ i ∈ range n, cf i * bf i) := by
  have := loop_inv n (fun i (sum : R) => do
    let x ← c[i + coff]?
    let y ← buf[i + off]?
    some (sum + x * y)) 0 (fun k s => s = ∑ i ∈ range k, cf i * bf i) (by simp) ?_
  · obtain ⟨s, h1, h2⟩ := this
    unfold dot; rw [h1, h2]
  · rintro i s hi rfl
    refine ⟨_, ?_, rfl⟩
    simp [hc i hi, hb i hi, sum_range_succ]

/-- The relation between the object and the streams `xs`, `ys` it has consumed and produced since
construction or the last reset. -/
structure Inv (b a : List R) (s : State R) (xs ys : List R) : Prop where
  hb : s.b = b
  ha : s.a = a
  hsz : s.sz = b.length
  hpos : 1 ≤ b.length
  hfir : s.fir = true ↔ a = []
  hiir : a ≠ [] → a.length = b.length ∧ 2 ≤ b.length ∧ s.bufa.length = b.length - 1 + 20 ∧
    s.offa ≤ 20 ∧ ∀ i, i < b.length - 1 → s.bufa[i + s.offa]? = some (hist ys i)
  hbl : s.bufb.length = b.length + 20
  hob : s.offb ≤ 20
  hbuf : ∀ i, i < b.length → s.bufb[i + s.offb]? = some (hist xs i)

/-- Value the difference equation demands next. -/
def nextOut (b a xs ys : List R) (x : R) : R :=
  ∑ i ∈ range b.length, b.getD i 0 * hist (xs ++ [x]) i
    - ∑ i ∈ range (a.length - 1), a.getD (i + 1) 0 * hist ys i

/-- Sliding one value into a buffer with headroom: common to both buffers. -/
theorem slide (n : Nat) (hn : 1 ≤ n) (buf : List R) (off : Nat) (l : List R) (x : R)
    (hl : buf.length = n + 20) (ho : off ≤ 20)
    (hbuf : ∀ i, i < n → buf[i + off]? = some (hist l i)) :
    ∃ buf' off' buf'', makeRoom (n - 1) buf off = some (buf', off') ∧
      wr buf' off' x = some buf'' ∧ buf''.length = n + 20 ∧ off' ≤ 20 ∧
      ∀ i, i < n → buf''[i + off']? = some (hist (l ++ [x]) i) := by
  have hoff : offmax = 20 := rfl
  unfold makeRoom
  by_cases h : off > 0
  · refine ⟨buf, off - 1, buf.set (off - 1) x, by rw [if_pos h], wr_some _ (by omega), by simpa using hl,
      by omega, ?_⟩
    intro i hi
    rw [List.getElem?_set]
    cases i with
    | zero => rw [if_pos (by omega), if_pos (by omega), hist_snoc_zero]
    | succ i =>
      rw [if_neg (by omega), hist_snoc_succ, ← hbuf i (by omega)]
      congr 1; omega
  · obtain ⟨ys, h1, h2, h3⟩ := moveBack_spec (n - 1) buf (by omega)
    refine ⟨ys, offmax, ys.set offmax x, by rw [if_neg h, h1]; rfl, wr_some _ (by omega),
      by simp [h2, hl], by simp [offmax], ?_⟩
    intro i hi
    rw [List.getElem?_set]
    cases i with
    | zero => rw [if_pos (by omega), if_pos (by omega), hist_snoc_zero]
    | succ i =>
      rw [if_neg (by omega), hist_snoc_succ, ← hbuf i (by omega), h3, if_pos (by omega)]
      congr 1; omega

theorem step_spec (b a : List R) (s : State R) (xs ys : List R) (x : R) (h : Inv b a s xs ys) :
    ∃ s', step s x = some (s', nextOut b a xs ys x) ∧
      Inv b a s' (xs ++ [x]) (ys ++ [nextOut b a xs ys x]) := by
  obtain ⟨hb, ha, hsz, hpos, hfir, hiir, hbl, hob, hbuf⟩ := h
  obtain ⟨b1, o1, b2, e1, e2, e3, e4, e5⟩ := slide b.length hpos s.bufb s.offb xs x hbl hob hbuf
  have hbs : dot s.b b2 0 o1 s.sz = some (∑ i ∈ range b.length, b.getD i 0 * hist (xs ++ [x]) i) := by
    rw [hsz, hb]
    apply dot_spec
    · intro i hi; simp [hi]
    · exact e5
  unfold step
  rw [hsz] at hbs ⊢
  simp only [e1, e2, hbs, Option.bind_eq_bind, Option.bind_some]
  by_cases hf : a = []
  · rw [if_pos (hfir.mpr hf)]
    have hno : nextOut b a xs ys x = ∑ i ∈ range b.length, b.getD i 0 * hist (xs ++ [x]) i := by
      simp [nextOut, hf]
    rw [hno]
    exact ⟨_, rfl, ⟨hb, ha, rfl, hpos, hfir, fun hne => absurd hf hne, e3, e4, e5⟩⟩
  · rw [if_neg (by rw [hfir]; exact hf)]
    obtain ⟨i1, i2, i3, i4, i5⟩ := hiir hf
    have has : dot s.a s.bufa 1 s.offa (b.length - 1)
        = some (∑ i ∈ range (a.length - 1), a.getD (i + 1) 0 * hist ys i) := by
      rw [ha, i1]
      apply dot_spec
      · intro i hi
        have : i + 1 < a.length := by omega
        simp [this]
      · exact i5
    obtain ⟨a1, p1, a2, f1, f2, f3, f4, f5⟩ := slide (b.length - 1) (by omega) s.bufa s.offa ys
      (nextOut b a xs ys x) (by omega) i4 i5
    simp only [has, f1, Option.bind_some]
    have : ∑ i ∈ range b.length, b.getD i 0 * hist (xs ++ [x]) i
        - ∑ i ∈ range (a.length - 1), a.getD (i + 1) 0 * hist ys i = nextOut b a xs ys x := rfl
    rw [this]
    simp only [f2, Option.bind_some]
    exact ⟨_, rfl, ⟨hb, ha, rfl, hpos, hfir, fun _ => ⟨i1, i2, f3, f4, f5⟩, e3, e4, e5⟩⟩

theorem getD_append_left (l r : List R) (i : Nat) (h : i < l.length) :
    (l ++ r).getD i 0 = l.getD i 0 := by
  simp [List.getD_eq_getElem?_getD, List.getElem?_append, h]

theorem delayed_append (l r : List R) (n i : Nat) (h : n < l.length) :
    delayed (l ++ r) n i = delayed l n i := by
  unfold delayed
  by_cases hi : i ≤ n
  · rw [if_pos hi, if_pos hi, getD_append_left _ _ _ (by omega)]
  · rw [if_neg hi, if_neg hi]

theorem diffEq_snoc (b a xs ys : List R) (x : R) (h : DiffEq b a xs ys) :
    DiffEq b a (xs ++ [x]) (ys ++ [nextOut b a xs ys x]) := by
  obtain ⟨h1, h2⟩ := h
  refine ⟨by simp [h1], ?_⟩
  intro n hn
  simp only [List.length_append, List.length_singleton] at hn
  by_cases hlt : n < xs.length
  · rw [getD_append_left _ _ _ (by omega), h2 n hlt]
    congr 1
    · exact sum_congr rfl (fun i _ => by rw [delayed_append _ _ _ _ hlt])
    · exact sum_congr rfl (fun i _ => by rw [delayed_append _ _ _ _ (by omega)])
  · have hn' : n = xs.length := by omega
    subst hn'
    have : (ys ++ [nextOut b a xs ys x]).getD xs.length 0 = nextOut b a xs ys x := by
      rw [← h1]; simp [List.getD_eq_getElem?_getD]
    rw [this]
    unfold nextOut
    congr 1
    · exact sum_congr rfl (fun i _ => by rw [hist_eq_delayed])
    · refine sum_congr rfl (fun i _ => ?_)
      rw [hist_eq_delayed_succ ys (nextOut b a xs ys x) i, ← h1]
      rfl

theorem process_spec (b a : List R) (blk : List R) (s : State R) (xs ys : List R)
    (h : Inv b a s xs ys) (hd : DiffEq b a xs ys) :
    ∃ s' out, process s blk = some (s', out) ∧ Inv b a s' (xs ++ blk) (ys ++ out) ∧
      out.length = blk.length ∧ DiffEq b a (xs ++ blk) (ys ++ out) := by
  induction blk generalizing s xs ys with
  | nil => exact ⟨s, [], rfl, by simpa using h, rfl, by simpa using hd⟩
  | cons x blk ih =>
    obtain ⟨s1, h1, h2⟩ := step_spec b a s xs ys x h
    obtain ⟨s2, out, h3, h4, h5, h6⟩ := ih s1 _ _ h2 (diffEq_snoc b a xs ys x hd)
    refine ⟨s2, nextOut b a xs ys x :: out, ?_, ?_, by simp [h5], ?_⟩
    · rw [process, h1]
      simp only [Option.bind_eq_bind, Option.bind_some, h3]
    · simpa using h4
    · simpa using h6

/-- Solutions of the difference equation are unique. -/
theorem diffEq_unique (b a x y z : List R) (hy : DiffEq b a x y) (hz : DiffEq b a x z) : y = z := by
  have key : ∀ n, n < x.length → y.getD n 0 = z.getD n 0 := by
    intro n
    induction n using Nat.strong_induction_on with
    | _ n ih =>
      intro hn
      rw [hy.2 n hn, hz.2 n hn]
      congr 1
      refine sum_congr rfl (fun i _ => ?_)
      unfold delayed
      by_cases h : i + 1 ≤ n
      · rw [if_pos h, if_pos h, ih (n - (i + 1)) (by omega) (by omega)]
      · rw [if_neg h, if_neg h]
  apply List.ext_getElem (by rw [hy.1, hz.1])
  intro n h1 h2
  have := key n (by rw [← hy.1]; exact h1)
  simpa [List.getD_eq_getElem?_getD, h1, h2] using this

/-- A freshly built filter meets the invariant, provided an IIR filter has order at least 1. -/
theorem new_inv (b a : List R) (s : State R) (h : new b a = .ok s) (hord : a.length ≠ 1) :
    Inv b a s [] [] := by
  unfold new at h
  by_cases ha : a = []
  · rw [if_pos ha] at h
    by_cases hb : b = []
    · rw [if_pos hb] at h; cases h
    · rw [if_neg hb] at h
      cases h
      have : 1 ≤ b.length := List.length_pos_iff.mpr hb
      refine ⟨rfl, rfl, rfl, this, by simp [ha], fun h => absurd ha h, by simp [offmax],
        by simp [offmax], ?_⟩
      intro i hi
      simp only [hist_nil, offmax]
      rw [List.getElem?_replicate, if_pos (by omega)]
  · rw [if_neg ha] at h
    by_cases hl : a.length = b.length
    · rw [if_neg (by simpa using hl)] at h
      cases h
      have h1 : 1 ≤ a.length := List.length_pos_iff.mpr ha
      refine ⟨rfl, rfl, rfl, by omega, by simp [ha], ?_, by simp [offmax],
        by simp [offmax], ?_⟩
      · intro _
        refine ⟨hl, by omega, by simp [offmax], by simp [offmax], ?_⟩
        intro i hi
        simp only [hist_nil, offmax]
        rw [List.getElem?_replicate, if_pos (by omega)]
      · intro i hi
        simp only [hist_nil, offmax]
        rw [List.getElem?_replicate, if_pos (by omega)]
    · rw [if_pos (by simpa using hl)] at h; cases h

theorem reset_inv (b a : List R) (s : State R) (xs ys : List R) (h : Inv b a s xs ys) :
    Inv b a (reset s) [] [] := by
  obtain ⟨hb, ha, hsz, hpos, hfir, hiir, hbl, hob, hbuf⟩ := h
  refine ⟨hb, ha, hsz, hpos, hfir, ?_, by simpa [reset] using hbl, by simp [reset, offmax], ?_⟩
  · intro hne
    obtain ⟨i1, i2, i3, i4, i5⟩ := hiir hne
    have hf : s.fir = false := by
      cases hs : s.fir with
      | false => rfl
      | true => exact absurd (hfir.mp hs) hne
    refine ⟨i1, i2, by simp [reset, hf, i3], by simp [reset, offmax], ?_⟩
    intro i hi
    simp only [reset, hf, hist_nil, offmax]
    simp [List.getElem?_replicate, i3]; omega
  · intro i hi
    simp only [reset, hist_nil, offmax]
    rw [List.getElem?_replicate, if_pos (by omega)]

end QM.Filter
