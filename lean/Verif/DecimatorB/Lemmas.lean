import Verif.DecimatorB.Model
import Verif.DecimatorB.Spec
import Verif.Decimator.Props
import Verif.Common.Sum

/-! Helper lemmas for the decimator by powers of two. -/

namespace QM.DecimatorB

variable {K : Type} [Field K]
open Finset QM.Filter QM.Decimator

omit [Field K] in
theorem evens_spec (ys : List K) (m : Nat) (h : ys.length = 2 * m) :
    (evens ys).length = m ∧ ∀ i, i < m → (evens ys)[i]? = ys[i * 2]? := by
  induction m generalizing ys with
  | zero => 
    have : ys = [] := List.length_eq_zero_iff.mp (by omega)
    subst this; exact ⟨rfl, by intro i hi; omega⟩
  | succ m ih =>
    match ys, h with
    | x :: y :: r, h =>
      obtain ⟨h1, h2⟩ := ih r (by simp at h; omega)
      refine ⟨by simp [evens, h1], ?_⟩
      intro i hi
      cases i with
      | zero => rfl
      | succ i =>
        have := h2 i (by omega)
        rw [show (i + 1) * 2 = i * 2 + 1 + 1 by omega]
        simpa [evens] using this

omit [Field K] in
theorem evens_append (xs ys : List K) (m : Nat) (h : xs.length = 2 * m) :
    evens (xs ++ ys) = evens xs ++ evens ys := by
  induction m generalizing xs with
  | zero => 
    have : xs = [] := List.length_eq_zero_iff.mp (by omega)
    subst this; rfl
  | succ m ih =>
    match xs, h with
    | x :: y :: r, h =>
      have := ih r (by simp at h; omega)
      simp [evens, this]

/-- Filter memory after the inputs `xs` and outputs `ys`. -/
structure Mem (b a o xs ys : List K) : Prop where
  h0 : o.getD 0 0 = ∑ i ∈ range 6, (b.getD (i + 1) 0 * hist xs i - a.getD (i + 1) 0 * hist ys i)
  h1 : o.getD 1 0 = ∑ i ∈ range 5, (b.getD (i + 2) 0 * hist xs i - a.getD (i + 2) 0 * hist ys i)
  h2 : o.getD 2 0 = ∑ i ∈ range 4, (b.getD (i + 3) 0 * hist xs i - a.getD (i + 3) 0 * hist ys i)
  h3 : o.getD 3 0 = ∑ i ∈ range 3, (b.getD (i + 4) 0 * hist xs i - a.getD (i + 4) 0 * hist ys i)
  h4 : o.getD 4 0 = ∑ i ∈ range 2, (b.getD (i + 5) 0 * hist xs i - a.getD (i + 5) 0 * hist ys i)
  h5 : o.getD 5 0 = ∑ i ∈ range 1, (b.getD (i + 6) 0 * hist xs i - a.getD (i + 6) 0 * hist ys i)

theorem step_spec (b a : List K) (hbl : b.length = 7) (hal : a.length = 7) (o xs ys : List K) (x : K)
    (h : Mem b a o xs ys) :
    (antiAliasStep b a o x).2 = nextOut b a xs ys x ∧
    Mem b a (antiAliasStep b a o x).1 (xs ++ [x]) (ys ++ [nextOut b a xs ys x]) := by
  obtain ⟨h0, h1, h2, h3, h4, h5⟩ := h
  have hout : x * b.getD 0 0 + o.getD 0 0 = nextOut b a xs ys x := by
    unfold nextOut
    rw [hbl, hal, sum_range_succ' _ 6, h0, sum_sub_distrib]
    simp only [hist_snoc_zero, hist_snoc_succ, Nat.add_sub_cancel, show 7 - 1 = 6 from rfl]
    ring
  refine ⟨hout, ?_⟩
  unfold antiAliasStep
  simp only [hout]
  constructor
  · exact step_shift b a 1 5 xs ys x _ _ h1
  · exact step_shift b a 2 4 xs ys x _ _ h2
  · exact step_shift b a 3 3 xs ys x _ _ h3
  · exact step_shift b a 4 2 xs ys x _ _ h4
  · exact step_shift b a 5 1 xs ys x _ _ h5
  · have := step_shift b a 6 0 xs ys x (nextOut b a xs ys x) 0 (by simp)
    simpa using this

theorem antiAlias_spec (b a : List K) (hbl : b.length = 7) (hal : a.length = 7)
    (os : List (List K)) (idx : Nat) (o : List K) (ho : os[idx]? = some o) (src dst blk xs ys : List K)
    (hs : ∀ i, i < blk.length → src[i]? = blk[i]?) (hd : blk.length ≤ dst.length)
    (h : Mem b a o xs ys) (hde : DiffEq b a xs ys) :
    ∃ o' dst' out, doAntiAlias b a os src dst blk.length idx = some (os.set idx o', dst') ∧
      Mem b a o' (xs ++ blk) (ys ++ out) ∧ DiffEq b a (xs ++ blk) (ys ++ out) ∧
      out.length = blk.length ∧ dst'.length = dst.length ∧
      ∀ i, i < blk.length → dst'[i]? = out[i]? := by
  obtain ⟨⟨o', dst'⟩, e1, out, p1, p2, p3, p4, p5⟩ := loop_inv blk.length
    (fun i (s : List K × List K) => do
      let input ← src[i]?
      let r := antiAliasStep b a s.1 input
      let dst ← wr s.2 i r.2
      some (r.1, dst)) (o, dst)
    (fun k s => ∃ out : List K, out.length = k ∧ Mem b a s.1 (xs ++ blk.take k) (ys ++ out) ∧
      DiffEq b a (xs ++ blk.take k) (ys ++ out) ∧ s.2.length = dst.length ∧
      ∀ i, i < k → s.2[i]? = out[i]?)
    ⟨[], rfl, by simpa using h, by simpa using hde, rfl, by intro i hi; omega⟩ (by
      rintro i ⟨o1, d1⟩ hi ⟨out, p1, p2, p3, p4, p5⟩
      dsimp only at p2 p3 p4 p5 ⊢
      obtain ⟨e1, e2⟩ := step_spec b a hbl hal o1 _ _ blk[i] p2
      refine ⟨((antiAliasStep b a o1 blk[i]).1,
        d1.set i (nextOut b a (xs ++ blk.take i) (ys ++ out) blk[i])),
        ?_, out ++ [nextOut b a (xs ++ blk.take i) (ys ++ out) blk[i]], by simp [p1], ?_, ?_, ?_, ?_⟩
      · rw [bind_ok (hs i hi |>.trans (List.getElem?_eq_getElem hi))]
        rw [e1, bind_ok (wr_some _ (by omega))]
      · rw [List.take_add_one, List.getElem?_eq_getElem hi]
        simpa using e2
      · rw [List.take_add_one, List.getElem?_eq_getElem hi]
        have := diffEq_snoc b a _ _ blk[i] p3
        simpa using this
      · simpa using p4
      · intro j hj
        rw [List.getElem?_set]
        by_cases hij : i = j
        · subst hij
          rw [if_pos rfl, if_pos (by omega)]
          simp [p1]
        · rw [if_neg hij, p5 j (by omega), List.getElem?_append_left (by omega)])
  refine ⟨o', dst', out, ?_, by simpa using p2, by simpa using p3, p1, p4, p5⟩
  unfold doAntiAlias
  rw [bind_ok ho, bind_ok e1, bind_ok (wr_some _ (lt_of_getElem?_some ho))]

/-- The filter memories of the remaining stages, the signal entering them and the signal leaving. -/
inductive Chain (b a : List K) : List (List K) → List K → List K → Prop
  | nil (xs : List K) : Chain b a [] xs xs
  | cons (o : List K) (os : List (List K)) (xs ys zs : List K) (m : Nat) : Mem b a o xs ys →
      DiffEq b a xs ys → xs.length = 2 * m → Chain b a os (evens ys) zs → Chain b a (o :: os) xs zs

theorem Chain.cascade {b a : List K} {os : List (List K)} {xs zs : List K} (h : Chain b a os xs zs) :
    Cascade b a os.length xs zs := by
  induction h with
  | nil xs => exact .done xs
  | cons o os xs ys zs m _ hd _ _ ih => exact .halve _ xs ys zs hd ih

theorem doProcess_spec (s : State K) (hbl : s.b.length = 7) (hal : s.a.length = 7)
    (os : List (List K)) (pre : List (List K)) (xs zs blk aa tmp : List K) (fuel q : Nat)
    (hc : Chain s.b s.a os xs zs) (hf : s.decFactor = 2 ^ (pre.length + os.length))
    (hL : s.inputLength = q * s.decFactor) (hblk : blk.length = q * 2 ^ os.length)
    (haa : aa.length = s.inputLength) (htmp : tmp.length = s.inputLength)
    (ht : ∀ i, i < blk.length → tmp[i]? = blk[i]?) (hfuel : os.length < fuel) :
    ∃ os' aa' tmp' out, doProcess s fuel pre.length (2 ^ pre.length) (pre ++ os, aa, tmp) =
        some (pre ++ os', aa', tmp') ∧ os'.length = os.length ∧
      Chain s.b s.a os' (xs ++ blk) (zs ++ out) ∧ out.length = q ∧
      aa'.length = s.inputLength ∧ tmp'.length = s.inputLength ∧
      ∀ i, i < q → tmp'[i]? = out[i]? := by
  induction os generalizing pre xs blk aa tmp fuel with
  | nil =>
    cases hc
    obtain ⟨fuel, rfl⟩ : ∃ f, fuel = f + 1 := ⟨fuel - 1, by omega⟩
    refine ⟨[], aa, tmp, blk, ?_, rfl, .nil _, by simpa using hblk, haa, htmp, ?_⟩
    · rw [doProcess, if_neg (show ¬ 2 ^ pre.length < s.decFactor by rw [hf]; simp)]
    · intro i hi; exact ht i (by simp at hblk; omega)
  | cons o os ih =>
    cases hc with
    | cons _ _ _ ys _ m hm hd hx hc =>
    obtain ⟨fuel, rfl⟩ : ∃ f, fuel = f + 1 := ⟨fuel - 1, by omega⟩
    rw [List.length_cons] at hf hblk hfuel
    have hlen1 : s.inputLength / 2 ^ pre.length = blk.length := by
      rw [hL, hf, hblk, show 2 ^ (pre.length + (os.length + 1)) = 2 ^ (os.length + 1) * 2 ^ pre.length by
        rw [← pow_add]; ring_nf, ← mul_assoc]
      exact Nat.mul_div_cancel _ (by positivity)
    have hb2 : blk.length = 2 * (q * 2 ^ os.length) := by rw [hblk, pow_succ]; ring
    have hlen2 : s.inputLength / (2 ^ pre.length * 2) = q * 2 ^ os.length := by
      rw [← Nat.div_div_eq_div_mul, hlen1, hb2, Nat.mul_div_cancel_left _ (by omega)]
    have hle : blk.length ≤ s.inputLength := by rw [← hlen1]; exact Nat.div_le_self _ _
    obtain ⟨o', aa', out, e1, e2, e3, e4, e5, e6⟩ := antiAlias_spec s.b s.a hbl hal (pre ++ o :: os)
      pre.length o (by simp) tmp aa blk xs ys ht (by omega) hm hd
    have hev := evens_spec out (q * 2 ^ os.length) (by omega)
    obtain ⟨tmp', g1, g2, g3⟩ := gather (q * 2 ^ os.length) (fun i => aa'[i * 2]?) tmp (by omega) (by
      intro i hi
      simp; omega)
    have hpass : pass s pre.length (2 ^ pre.length) (pre ++ o :: os, aa, tmp) =
        some (pre ++ o' :: os, aa', tmp') := by
      unfold pass
      dsimp only
      rw [hlen1, hlen2, bind_ok e1]
      dsimp only
      rw [bind_ok g1]
      simp
    have hylen : ys.length = 2 * m := by rw [hd.1, hx]
    obtain ⟨os', aa2, tmp2, out2, f1, f2, f3, f4, f5, f6, f7⟩ := ih (pre ++ [o']) (evens ys) (evens out)
      aa' tmp' fuel hc (by rw [hf]; congr 1; simp; omega) (by rw [hev.1]) (by omega)
      (by omega) (by
        intro i hi
        rw [hev.1] at hi
        rw [g3 i, if_pos hi, hev.2 i hi, e6 (i * 2) (by omega)]) (by omega)
    refine ⟨o' :: os', aa2, tmp2, out2, ?_, by simp [f2], ?_, f4, f5, f6, f7⟩
    · rw [doProcess, if_pos (show 2 ^ pre.length < s.decFactor by
        rw [hf]; exact Nat.pow_lt_pow_right (by omega) (by omega)), bind_ok hpass]
      have := f1
      rw [List.length_append, List.length_singleton, pow_succ] at this
      simpa using this
    · refine .cons o' os' _ (ys ++ out) _ (m + q * 2 ^ os.length) e2 e3 (by
        rw [List.length_append, hx, hb2]; ring) ?_
      rw [evens_append ys out m hylen]
      exact f3

theorem filters_pow (k : Nat) : filters (K := K) (2 ^ k) = List.replicate k (List.replicate 6 0) := by
  induction k with
  | zero => rw [filters]; simp
  | succ k ih =>
    rw [filters, if_pos (by rw [pow_succ]; have := Nat.one_le_two_pow (n := k); omega), pow_succ,
      Nat.mul_div_cancel _ (by omega), ih]
    rfl

theorem chain_new (b a : List K) (k : Nat) : Chain b a (List.replicate k (List.replicate 6 0)) [] [] := by
  induction k with
  | zero => exact .nil []
  | succ k ih =>
    refine .cons _ _ [] [] [] 0 ?_ ⟨rfl, by simp⟩ rfl ih
    constructor <;> simp

end QM.DecimatorB
