import Verif.Decimator.Model
import Verif.Filter.Lemmas
import Mathlib.Tactic.Ring
import Mathlib.Tactic.NormNum
import Mathlib.Tactic.Linarith
import Mathlib.Algebra.Order.Ring.Rat
import Mathlib.Algebra.Order.Ring.Abs

/-!
# C14: Decimator
-/

namespace QM.Decimator

variable {K : Type} [Field K]
open Finset QM.Filter

/-- The filter memory expressed by the past inputs `xs` and outputs `ys`: `o_k` holds what the samples
seen so far will contribute `k` samples from the last one. -/
structure Inv (b a : List K) (s : State K) (xs ys : List K) : Prop where
  hb : s.b = b
  ha : s.a = a
  h1 : s.o1 = ∑ i ∈ range 7, (b.getD (i + 1) 0 * hist xs i - a.getD (i + 1) 0 * hist ys i)
  h2 : s.o2 = ∑ i ∈ range 6, (b.getD (i + 2) 0 * hist xs i - a.getD (i + 2) 0 * hist ys i)
  h3 : s.o3 = ∑ i ∈ range 5, (b.getD (i + 3) 0 * hist xs i - a.getD (i + 3) 0 * hist ys i)
  h4 : s.o4 = ∑ i ∈ range 4, (b.getD (i + 4) 0 * hist xs i - a.getD (i + 4) 0 * hist ys i)
  h5 : s.o5 = ∑ i ∈ range 3, (b.getD (i + 5) 0 * hist xs i - a.getD (i + 5) 0 * hist ys i)
  h6 : s.o6 = ∑ i ∈ range 2, (b.getD (i + 6) 0 * hist xs i - a.getD (i + 6) 0 * hist ys i)
  h7 : s.o7 = ∑ i ∈ range 1, (b.getD (i + 7) 0 * hist xs i - a.getD (i + 7) 0 * hist ys i)

theorem step_shift (b a : List K) (k : Nat) (n : Nat) (xs ys : List K) (x y o : K)
    (ho : o = ∑ i ∈ range n, (b.getD (i + (k + 1)) 0 * hist xs i - a.getD (i + (k + 1)) 0 * hist ys i)) :
    x * b.getD k 0 - y * a.getD k 0 + o = ∑ i ∈ range (n + 1),
      (b.getD (i + k) 0 * hist (xs ++ [x]) i - a.getD (i + k) 0 * hist (ys ++ [y]) i) := by
  rw [sum_range_succ', ho]
  simp only [hist_snoc_zero, hist_snoc_succ, Nat.zero_add]
  rw [add_comm, mul_comm x, mul_comm y]
  congr 1
  refine sum_congr rfl (fun i _ => ?_)
  rw [show i + 1 + k = i + (k + 1) by omega]

theorem antiAliasStep_spec (b a : List K) (hbl : b.length = 8) (hal : a.length = 8) (s : State K)
    (xs ys : List K) (x : K) (h : Inv b a s xs ys) :
    (antiAliasStep s x).2 = nextOut b a xs ys x ∧
    Inv b a (antiAliasStep s x).1 (xs ++ [x]) (ys ++ [nextOut b a xs ys x]) := by
  obtain ⟨hb, ha, h1, h2, h3, h4, h5, h6, h7⟩ := h
  have hout : x * s.b.getD 0 0 + s.o1 = nextOut b a xs ys x := by
    unfold nextOut
    rw [hbl, hal, sum_range_succ' _ 7, h1, sum_sub_distrib, hb]
    simp only [hist_snoc_zero, hist_snoc_succ, Nat.add_sub_cancel, show 8 - 1 = 7 from rfl]
    ring
  refine ⟨hout, ?_⟩
  unfold antiAliasStep
  simp only [hout]
  rw [hb, ha]
  refine ⟨rfl, rfl, ?_, ?_, ?_, ?_, ?_, ?_, ?_⟩
  · exact step_shift b a 1 6 xs ys x _ _ h2
  · exact step_shift b a 2 5 xs ys x _ _ h3
  · exact step_shift b a 3 4 xs ys x _ _ h4
  · exact step_shift b a 4 3 xs ys x _ _ h5
  · exact step_shift b a 5 2 xs ys x _ _ h6
  · exact step_shift b a 6 1 xs ys x _ _ h7
  · have := step_shift b a 7 0 xs ys x (nextOut b a xs ys x) 0 (by simp)
    simpa using this

theorem doAntiAlias_spec (b a : List K) (hbl : b.length = 8) (hal : a.length = 8) (blk : List K)
    (s : State K) (xs ys : List K) (h : Inv b a s xs ys) (hd : DiffEq b a xs ys) :
    ∃ s' out, doAntiAlias s blk = (s', out) ∧ Inv b a s' (xs ++ blk) (ys ++ out) ∧
      out.length = blk.length ∧ DiffEq b a (xs ++ blk) (ys ++ out) ∧
      s'.inputLength = s.inputLength ∧ s'.outputLength = s.outputLength ∧
      s'.decFactor = s.decFactor := by
  induction blk generalizing s xs ys with
  | nil => exact ⟨s, [], rfl, by simpa using h, rfl, by simpa using hd, rfl, rfl, rfl⟩
  | cons x blk ih =>
    obtain ⟨e1, e2⟩ := antiAliasStep_spec b a hbl hal s xs ys x h
    obtain ⟨s2, out, f1, f2, f3, f4, f5, f6, f7⟩ := ih _ _ _ e2 (diffEq_snoc b a xs ys x hd)
    refine ⟨s2, nextOut b a xs ys x :: out, ?_, by simpa using f2, by simp [f3], by simpa using f4,
      f5, f6, f7⟩
    rw [doAntiAlias]
    have : antiAliasStep s x = ((antiAliasStep s x).1, nextOut b a xs ys x) := by rw [← e1]
    rw [this]
    simp only [f1]

/-- The coefficients for a factor, in the sample field. -/
def bOf (f : Nat) : List K := (coeffs f).1.map (fun q : ℚ => (q : K))
/-- The coefficients for a factor, in the sample field. -/
def aOf (f : Nat) : List K := (coeffs f).2.map (fun q : ℚ => (q : K))

theorem coeffs_length (f : Nat) : (coeffs f).1.length = 8 ∧ (coeffs f).2.length = 8 := by
  unfold coeffs
  split <;> exact ⟨rfl, rfl⟩

/-- Successive `process` calls; each block comes with the caller's output buffer. -/
def run (s : State K) : List (List K × List K) → Option (State K × List (List K))
  | [] => some (s, [])
  | (src, dst) :: rest => do
    let (s, o) ← process s src dst
    let (s, os) ← run s rest
    some (s, o :: os)

omit [Field K] in
theorem gather (n : Nat) (src : Nat → Option K) (dst : List K) (hn : n ≤ dst.length)
    (hs : ∀ i, i < n → (src i).isSome) :
    ∃ d, loop n (fun i dst => do
        let v ← src i
        wr dst i v) dst = some d ∧ d.length = dst.length ∧
      ∀ i, d[i]? = if i < n then src i else dst[i]? := by
  obtain ⟨d, e1, e2, e3⟩ := loop_inv n (fun i (dst : List K) => do
        let v ← src i
        wr dst i v) dst
    (fun k d => d.length = dst.length ∧ ∀ i, d[i]? = if i < k then src i else dst[i]?)
    ⟨rfl, by intro i; simp⟩ (by
      rintro i d hi ⟨p1, p2⟩
      obtain ⟨v, hv⟩ := Option.isSome_iff_exists.mp (hs i hi)
      refine ⟨d.set i v, ?_, by simpa using p1, ?_⟩
      · simp only [hv, Option.bind_eq_bind, Option.bind_some]
        rw [wr_some _ (by omega)]
      · intro j
        rw [List.getElem?_set]
        by_cases hij : i = j
        · subst hij
          rw [if_pos rfl, if_pos (by omega), if_pos (by omega), hv]
        · rw [if_neg hij, p2]
          by_cases hj : j < i
          · rw [if_pos hj, if_pos (by omega)]
          · rw [if_neg hj, if_neg (by omega)])
  exact ⟨d, e1, e2, e3⟩

/-- The state after the stream `xs ↦ ys`. For factor 1 nothing is filtered (and `ys = xs`). -/
structure Running (L f : Nat) (s : State K) (xs ys : List K) : Prop where
  hL : s.inputLength = L
  hO : s.outputLength = L / f
  hf : s.decFactor = f
  hfil : f ≠ 1 → Inv (bOf f) (aOf f) s xs ys
  hone : f = 1 → ys = xs
  hd : f ≠ 1 → DiffEq (bOf f) (aOf f) xs ys

theorem process_spec (L f : Nat) (hf : 0 < f) (s : State K) (xs ys : List K)
    (h : Running L f s xs ys) (src dst : List K) (hs : src.length = L) (hdst : dst.length = L / f) :
    ∃ s' out y, process s src dst = some (s', out) ∧ out.length = L / f ∧ y.length = L ∧
      Running L f s' (xs ++ src) (ys ++ y) ∧ ∀ i, i < L / f → out[i]? = y[f * i]? := by
  obtain ⟨hL, hO, hf', hfil, hone, hd⟩ := h
  unfold process
  by_cases h1 : f = 1
  · subst h1
    rw [if_pos hf']
    obtain ⟨d, e1, e2, e3⟩ := gather s.outputLength (fun i => src[i]?) dst (by omega) (by
      intro i hi
      rw [hO, Nat.div_one] at hi
      simp; omega)
    refine ⟨s, d, src, by simp only [Option.bind_eq_bind] at e1 ⊢; simp only [e1, Option.bind_some], by omega, hs,
      ⟨hL, hO, hf', fun h => absurd rfl h, fun _ => by rw [hone rfl], fun h => absurd rfl h⟩, ?_⟩
    intro i hi
    rw [e3, if_pos (by omega), Nat.one_mul]
  · rw [if_neg (by omega), if_neg (by omega)]
    obtain ⟨s', out, e1, e2, e3, e4, e5, e6, e7⟩ := doAntiAlias_spec (bOf f) (aOf f)
      (by simp [bOf, coeffs_length]) (by simp [aOf, coeffs_length]) src s xs ys (hfil h1) (hd h1)
    have htake : src.take s.inputLength = src := by rw [hL, ← hs, List.take_length]
    have hbound : ∀ i, i < L / f → f * i < L := by
      intro i hi
      calc f * i < f * (L / f) := by exact Nat.mul_lt_mul_of_pos_left hi hf
        _ ≤ L := Nat.mul_div_le L f
    obtain ⟨d, g1, g2, g3⟩ := gather s.outputLength (fun i => out[s.decFactor * i]?) dst (by omega) (by
      intro i hi
      have := hbound i (by omega)
      rw [hf']
      simp; omega)
    refine ⟨s', d, out, ?_, by omega, by omega, ⟨by omega, by omega, by omega, fun _ => e2,
      fun h => absurd h h1, fun _ => e4⟩, ?_⟩
    · rw [htake, e1]
      simp only [Option.bind_eq_bind] at g1 ⊢
      simp only [g1, Option.bind_some]
    · intro i hi
      rw [g3, if_pos (by omega), hf']

theorem run_spec (L f : Nat) (hf : 0 < f) (calls : List (List K × List K)) (s : State K)
    (xs ys : List K) (h : Running L f s xs ys)
    (hlen : ∀ c ∈ calls, c.1.length = L ∧ c.2.length = L / f) :
    ∃ s' outs y, run s calls = some (s', outs) ∧
      Running L f s' (xs ++ (calls.map Prod.fst).flatten) (ys ++ y) ∧
      y.length = calls.length * L ∧ outs.length = calls.length ∧
      ∀ j o, outs[j]? = some o → o.length = L / f ∧
        ∀ i, i < L / f → o[i]? = y[j * L + f * i]? := by
  induction calls generalizing s xs ys with
  | nil => exact ⟨s, [], [], rfl, by simpa using h, by simp, rfl, by intro j o h; simp at h⟩
  | cons c rest ih =>
    obtain ⟨src, dst⟩ := c
    obtain ⟨hc1, hc2⟩ := hlen (src, dst) (by simp)
    obtain ⟨s1, out, y1, e1, e2, e3, e4, e5⟩ := process_spec L f hf s xs ys h src dst hc1 hc2
    obtain ⟨s2, outs, y2, f1, f2, f3, f4, f5⟩ := ih s1 _ _ e4 (fun c hc => hlen c (by simp [hc]))
    refine ⟨s2, out :: outs, y1 ++ y2, ?_, by simpa using f2, ?_, by simp [f4], ?_⟩
    · rw [run, e1]
      simp only [Option.bind_eq_bind, Option.bind_some, f1]
    · rw [List.length_append, e3, f3, List.length_cons]; ring
    · intro j o ho
      cases j with
      | zero =>
        simp at ho; subst ho
        refine ⟨e2, fun i hi => ?_⟩
        have hb : f * i < L := calc
          f * i < f * (L / f) := Nat.mul_lt_mul_of_pos_left hi hf
          _ ≤ L := Nat.mul_div_le L f
        rw [e5 i hi, List.getElem?_append_left (by omega)]
        congr 1; omega
      | succ j =>
        obtain ⟨g1, g2⟩ := f5 j o (by simpa using ho)
        refine ⟨g1, fun i hi => ?_⟩
        rw [g2 i hi, List.getElem?_append_right (by rw [e3]; nlinarith)]
        congr 1
        rw [e3, add_mul]; omega

theorem new_running (L f : Nat) (s : State K) (h : new L f = some s) : Running L f s [] [] := by
  unfold new at h
  by_cases hf : f = 0
  · rw [if_pos hf] at h; cases h
  · rw [if_neg hf] at h
    cases h
    refine ⟨rfl, rfl, rfl, fun _ => ?_, fun _ => rfl, fun _ => ⟨rfl, by simp⟩⟩
    constructor <;> simp [resetFilter, bOf, aOf]

/-- C14. Feeding consecutive blocks of the configured length `L`: every block yields exactly `L/f`
samples, no access leaves the arrays, and there is one continuous stream `y`, the response of the
order-7 filter with the coefficients for `f` to the concatenated input (for factor 1: the input
itself), such that sample `i` of block `j` is `y[j·L + f·i]`. -/
theorem C14_stream (L f : Nat) (hf : 0 < f) (s : State K) (h : new L f = some s)
    (calls : List (List K × List K)) (hlen : ∀ c ∈ calls, c.1.length = L ∧ c.2.length = L / f) :
    ∃ s' outs y, run s calls = some (s', outs) ∧ outs.length = calls.length ∧
      (f ≠ 1 → DiffEq (bOf f) (aOf f) (calls.map Prod.fst).flatten y) ∧
      (f = 1 → y = (calls.map Prod.fst).flatten) ∧
      ∀ j o, outs[j]? = some o → o.length = L / f ∧
        ∀ i, i < L / f → o[i]? = y[j * L + f * i]? := by
  obtain ⟨s', outs, y, e1, e2, e3, e4, e5⟩ := run_spec L f hf calls s [] [] (new_running L f s h) hlen
  refine ⟨s', outs, y, e1, e4, fun h1 => by simpa using e2.hd h1, fun h1 => by simpa using e2.hone h1, e5⟩

omit [Field K] in
theorem flatten_get (os : List (List K)) (m : Nat) (hm : 0 < m) (y : Nat → Option K) (n0 : Nat)
    (h : ∀ j o, os[j]? = some o → o.length = m ∧ ∀ i, i < m → o[i]? = y (n0 + j * m + i)) :
    os.flatten.length = os.length * m ∧
      ∀ i, i < os.length * m → os.flatten[i]? = y (n0 + i) := by
  induction os generalizing n0 with
  | nil => simp
  | cons o os ih =>
    obtain ⟨h1, h2⟩ := h 0 o (by simp)
    obtain ⟨g1, g2⟩ := ih (n0 + m) (by
      intro j o ho
      obtain ⟨a, b⟩ := h (j + 1) o (by simpa using ho)
      refine ⟨a, fun i hi => ?_⟩
      rw [b i hi]; congr 1; ring)
    refine ⟨by simp only [List.flatten_cons, List.length_append, List.length_cons, h1, g1]; ring, ?_⟩
    intro i hi
    rw [List.flatten_cons, List.getElem?_append, h1]
    by_cases him : i < m
    · rw [if_pos him, h2 i him]; simp
    · rw [if_neg him, g2 (i - m) (by rw [List.length_cons, add_mul] at hi; omega)]
      congr 1; omega

/-- C14. When the block length is a multiple of the factor (as the header asks), the concatenated
output is exactly every `f`-th sample of that continuous stream. -/
theorem C14_every_fth (q f : Nat) (hf : 0 < f) (hq : 0 < q) (s : State K)
    (h : new (f * q) f = some s) (calls : List (List K × List K))
    (hlen : ∀ c ∈ calls, c.1.length = f * q ∧ c.2.length = q) :
    ∃ s' outs y, run s calls = some (s', outs) ∧
      (f ≠ 1 → DiffEq (bOf f) (aOf f) (calls.map Prod.fst).flatten y) ∧
      (f = 1 → y = (calls.map Prod.fst).flatten) ∧
      outs.flatten.length = calls.length * q ∧
      ∀ m, m < calls.length * q → outs.flatten[m]? = y[f * m]? := by
  have hdiv : f * q / f = q := Nat.mul_div_cancel_left q hf
  obtain ⟨s', outs, y, e1, e2, e3, e4, e5⟩ := C14_stream (f * q) f hf s h calls (by
    intro c hc; rw [hdiv]; exact hlen c hc)
  rw [hdiv] at e5
  obtain ⟨g1, g2⟩ := flatten_get outs q hq (fun m => y[f * m]?) 0 (by
    intro j o ho
    obtain ⟨a, b⟩ := e5 j o ho
    refine ⟨a, fun i hi => ?_⟩
    rw [b i hi]; congr 1; ring)
  refine ⟨s', outs, y, e1, e3, e4, by rw [g1, e2], ?_⟩
  intro m hm
  rw [g2 m (by rw [e2]; exact hm), Nat.zero_add]

theorem process_fields (s s' : State K) (src dst out : List K) (h : process s src dst = some (s', out)) :
    s'.inputLength = s.inputLength ∧ s'.outputLength = s.outputLength ∧ s'.decFactor = s.decFactor ∧
      s'.b = s.b ∧ s'.a = s.a := by
  have hda : ∀ (blk : List K) (s : State K), (doAntiAlias s blk).1.inputLength = s.inputLength ∧
      (doAntiAlias s blk).1.outputLength = s.outputLength ∧
      (doAntiAlias s blk).1.decFactor = s.decFactor ∧
      (doAntiAlias s blk).1.b = s.b ∧ (doAntiAlias s blk).1.a = s.a := by
    intro blk
    induction blk with
    | nil => intro s; exact ⟨rfl, rfl, rfl, rfl, rfl⟩
    | cons x blk ih => intro s; exact ih (antiAliasStep s x).1
  unfold process at h
  split_ifs at h
  · simp only [Option.bind_eq_bind, Option.bind_eq_some_iff] at h
    obtain ⟨d, _, h2⟩ := h
    cases h2
    exact ⟨rfl, rfl, rfl, rfl, rfl⟩
  · simp only [Option.bind_eq_bind, Option.bind_eq_some_iff] at h
    obtain ⟨d, _, h2⟩ := h
    cases h2
    exact hda _ s

/-- C14. After any calls, `resetFilter` gives back the newly constructed object. -/
theorem C14_reset (L f : Nat) (s : State K) (h : new L f = some s)
    (calls : List (List K × List K)) (t : State K) (outs : List (List K))
    (hr : run s calls = some (t, outs)) : resetFilter t = s := by
  have key : ∀ (calls : List (List K × List K)) (s t : State K) (outs : List (List K)),
      run s calls = some (t, outs) → t.inputLength = s.inputLength ∧
      t.outputLength = s.outputLength ∧ t.decFactor = s.decFactor ∧ t.b = s.b ∧ t.a = s.a := by
    intro calls
    induction calls with
    | nil => intro s t outs h; cases h; exact ⟨rfl, rfl, rfl, rfl, rfl⟩
    | cons c rest ih =>
      intro s t outs h
      obtain ⟨src, dst⟩ := c
      rw [run] at h
      simp only [Option.bind_eq_bind, Option.bind_eq_some_iff] at h
      obtain ⟨⟨s1, o⟩, h1, ⟨s2, os⟩, h2, h3⟩ := h
      cases h3
      obtain ⟨a1, a2, a3, a4, a5⟩ := process_fields s s1 src dst o h1
      obtain ⟨b1, b2, b3, b4, b5⟩ := ih s1 s2 os h2
      exact ⟨by rw [b1, a1], by rw [b2, a2], by rw [b3, a3], by rw [b4, a4], by rw [b5, a5]⟩
  obtain ⟨a1, a2, a3, a4, a5⟩ := key calls s t outs hr
  unfold new at h
  split_ifs at h
  cases h
  unfold resetFilter at *
  simp only at a1 a2 a3 a4 a5 ⊢
  rw [a1, a2, a3, a4, a5]

/-- C14. The supported factors' filters have unit gain at frequency zero to within 1e-7. -/
theorem C14_dc_gain (f : Nat) (hf : f = 2 ∨ f = 4 ∨ f = 8) :
    0 < (coeffs f).2.sum ∧ |(coeffs f).1.sum / (coeffs f).2.sum - 1| ≤ 1 / 10000000 := by
  rcases hf with rfl | rfl | rfl <;> norm_num [coeffs, abs_le]

/-- Factor 0 is a division by zero. -/
theorem C14_zero (L : Nat) : new (K := K) L 0 = none := rfl

example : ∃ s : State ℚ, new 4 2 = some s ∧ 0 < 2 := ⟨_, rfl, by norm_num⟩

end QM.Decimator
