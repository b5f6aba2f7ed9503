import Verif.DecimatorB.Rounded
import Verif.DecimatorB.Props

/-!
# The stream through the stages of `DecimatorB`
-/

namespace QM.DecimatorB

open QM.Decimator

/-! ## Without rounding it is the model of C60 -/

theorem step_id (b a o : List ℝ) (x : ℝ) : antiAliasStepFl id b a o x = antiAliasStep b a o x := rfl

theorem doAntiAlias_id (b a : List ℝ) (os : List (List ℝ)) (src dst : List ℝ) (l i : Nat) :
    doAntiAliasFl id b a os src dst l i = doAntiAlias b a os src dst l i := rfl

theorem pass_id (s : State ℝ) (i f : Nat) (w : List (List ℝ) × List ℝ × List ℝ) : passFl id s i f w = pass s i f w := rfl

theorem doProcess_id (s : State ℝ) (fuel i f : Nat) (w : List (List ℝ) × List ℝ × List ℝ) : doProcessFl id s fuel i f w = doProcess s fuel i f w := by
  induction fuel generalizing i f w with
  | zero => rfl
  | succ fuel ih =>
    rw [doProcessFl, doProcess, pass_id]
    simp only [ih]

theorem process_id (s : State ℝ) (src dst : List ℝ) : processFl id s src dst = process s src dst := by
  unfold processFl process
  simp only [doProcess_id]

theorem run_id (s : State ℝ) (calls : List (List ℝ × List ℝ)) : runFl id s calls = run s calls := by
  induction calls generalizing s with
  | nil => rfl
  | cons c rest ih =>
    obtain ⟨src, dst⟩ := c
    rw [runFl, run, process_id]
    simp only [ih]

theorem new_id (L : Nat) (f : Int) (aa tmp : List ℝ) : newFl id L f aa tmp = new L f aa tmp := rfl

/-! ## The signals between the stages -/

noncomputable section

/-- The memory of a filter before sample `n`. -/
def mems (fl : ℝ → ℝ) (b a : List ℝ) (x : ℕ → ℝ) : ℕ → List ℝ
  | 0 => List.replicate 6 0
  | n + 1 => (antiAliasStepFl fl b a (mems fl b a x n) (x n)).1

/-- The filtered signal. -/
def filt (fl : ℝ → ℝ) (b a : List ℝ) (x : ℕ → ℝ) (n : ℕ) : ℝ := (antiAliasStepFl fl b a (mems fl b a x n) (x n)).2

/-- The signal after `k` stages. -/
def casc (fl : ℝ → ℝ) (b a : List ℝ) : ℕ → (ℕ → ℝ) → ℕ → ℝ
  | 0, x => x
  | k + 1, x => casc fl b a k (fun n => filt fl b a x (2 * n))

end

/-- The memories of the remaining stages after `N` samples of the signal `x` that enters them. -/
inductive Mems (fl : ℝ → ℝ) (b a : List ℝ) : List (List ℝ) → (ℕ → ℝ) → ℕ → Prop
  | nil (x : ℕ → ℝ) (N : ℕ) : Mems fl b a [] x N
  | cons (os : List (List ℝ)) (x : ℕ → ℝ) (m : ℕ) : Mems fl b a os (fun n => filt fl b a x (2 * n)) m →
      Mems fl b a (mems fl b a x (2 * m) :: os) x (2 * m)

theorem antiAliasFl_spec (fl : ℝ → ℝ) (b a : List ℝ) (os : List (List ℝ)) (idx : Nat) (x : ℕ → ℝ) (N len : ℕ)
    (ho : os[idx]? = some (mems fl b a x N)) (src dst : List ℝ) (hs : ∀ i, i < len → src[i]? = some (x (N + i))) (hd : len ≤ dst.length) :
    ∃ dst', doAntiAliasFl fl b a os src dst len idx = some (os.set idx (mems fl b a x (N + len)), dst') ∧ dst'.length = dst.length ∧
      ∀ i, i < len → dst'[i]? = some (filt fl b a x (N + i)) := by
  obtain ⟨⟨o', dst'⟩, e1, p1, p2, p3⟩ := loop_inv len
    (fun i (s : List ℝ × List ℝ) => do
      let input ← src[i]?
      let r := antiAliasStepFl fl b a s.1 input
      let dst ← wr s.2 i r.2
      some (r.1, dst)) (mems fl b a x N, dst)
    (fun k s => s.1 = mems fl b a x (N + k) ∧ s.2.length = dst.length ∧ ∀ i, i < k → s.2[i]? = some (filt fl b a x (N + i)))
    ⟨rfl, rfl, by intro i hi; omega⟩ (by
      rintro i ⟨o1, d1⟩ hi ⟨p1, p2, p3⟩
      dsimp only at p1 p2 p3 ⊢
      subst p1
      refine ⟨(mems fl b a x (N + (i + 1)), d1.set i (filt fl b a x (N + i))), ?_, rfl, by simpa using p2, ?_⟩
      · rw [bind_ok (hs i hi), bind_ok (wr_some _ (by omega))]
        rfl
      · intro j hj
        dsimp only
        rw [List.getElem?_set]
        by_cases hij : i = j
        · subst hij
          rw [if_pos rfl, if_pos (by omega)]
        · rw [if_neg hij, p3 j (by omega)])
  dsimp only at p1 p2 p3
  subst p1
  refine ⟨dst', ?_, p2, p3⟩
  unfold doAntiAliasFl
  rw [bind_ok ho, bind_ok e1, bind_ok (wr_some _ (lt_of_getElem?_some ho))]

theorem doProcessFl_spec (fl : ℝ → ℝ) (s : State ℝ) (os : List (List ℝ)) (pre : List (List ℝ)) (x : ℕ → ℝ) (p q : ℕ) (aa tmp : List ℝ) (fuel : Nat)
    (hc : Mems fl s.b s.a os x (p * 2 ^ os.length)) (hf : s.decFactor = 2 ^ (pre.length + os.length)) (hL : s.inputLength = q * s.decFactor)
    (haa : aa.length = s.inputLength) (htmp : tmp.length = s.inputLength)
    (ht : ∀ i, i < q * 2 ^ os.length → tmp[i]? = some (x (p * 2 ^ os.length + i))) (hfuel : os.length < fuel) :
    ∃ os' aa' tmp', doProcessFl fl s fuel pre.length (2 ^ pre.length) (pre ++ os, aa, tmp) = some (pre ++ os', aa', tmp') ∧
      os'.length = os.length ∧ Mems fl s.b s.a os' x ((p + q) * 2 ^ os.length) ∧ aa'.length = s.inputLength ∧ tmp'.length = s.inputLength ∧
      ∀ i, i < q → tmp'[i]? = some (casc fl s.b s.a os.length x (p + i)) := by
  induction os generalizing pre x aa tmp fuel with
  | nil =>
    obtain ⟨fuel, rfl⟩ : ∃ f, fuel = f + 1 := ⟨fuel - 1, by omega⟩
    refine ⟨[], aa, tmp, ?_, rfl, .nil _ _, haa, htmp, ?_⟩
    · rw [doProcessFl, if_neg (show ¬ 2 ^ pre.length < s.decFactor by rw [hf]; simp)]
    · intro i hi
      simpa [casc] using ht i (by simpa using hi)
  | cons o os ih =>
    obtain ⟨fuel, rfl⟩ : ∃ f, fuel = f + 1 := ⟨fuel - 1, by omega⟩
    rw [List.length_cons] at hf hfuel hc ht
    have hp2 : ∀ r : ℕ, r * 2 ^ (os.length + 1) = 2 * (r * 2 ^ os.length) := fun r => by rw [pow_succ]; ring
    obtain ⟨ho, hc'⟩ : o = mems fl s.b s.a x (2 * (p * 2 ^ os.length)) ∧ Mems fl s.b s.a os (fun n => filt fl s.b s.a x (2 * n)) (p * 2 ^ os.length) := by
      generalize hN : p * 2 ^ (os.length + 1) = N at hc
      rw [hp2] at hN
      cases hc with
      | cons _ _ m h =>
        obtain rfl : m = p * 2 ^ os.length := by omega
        exact ⟨rfl, h⟩
    subst ho
    have hlen1 : s.inputLength / 2 ^ pre.length = 2 * (q * 2 ^ os.length) := by
      rw [← hp2, hL, hf, show 2 ^ (pre.length + (os.length + 1)) = 2 ^ (os.length + 1) * 2 ^ pre.length by
        rw [← pow_add]; ring_nf, ← mul_assoc]
      exact Nat.mul_div_cancel _ (by positivity)
    have hlen2 : s.inputLength / (2 ^ pre.length * 2) = q * 2 ^ os.length := by
      rw [← Nat.div_div_eq_div_mul, hlen1, Nat.mul_div_cancel_left _ (by omega)]
    have hle : 2 * (q * 2 ^ os.length) ≤ s.inputLength := by rw [← hlen1]; exact Nat.div_le_self _ _
    simp only [hp2] at ht
    obtain ⟨aa', e1, e5, e6⟩ := antiAliasFl_spec fl s.b s.a (pre ++ mems fl s.b s.a x (2 * (p * 2 ^ os.length)) :: os) pre.length x
      (2 * (p * 2 ^ os.length)) (2 * (q * 2 ^ os.length)) (by simp) tmp aa ht (by omega)
    obtain ⟨tmp', g1, g2, g3⟩ := gather (q * 2 ^ os.length) (fun i => aa'[i * 2]?) tmp (by omega) (by
      intro i hi
      simp; omega)
    have hpass : passFl fl s pre.length (2 ^ pre.length) (pre ++ mems fl s.b s.a x (2 * (p * 2 ^ os.length)) :: os, aa, tmp) =
        some (pre ++ mems fl s.b s.a x (2 * (p * 2 ^ os.length) + 2 * (q * 2 ^ os.length)) :: os, aa', tmp') := by
      unfold passFl
      dsimp only
      rw [hlen1, hlen2, bind_ok e1]
      dsimp only
      rw [bind_ok g1]
      simp
    obtain ⟨os', aa2, tmp2, f1, f2, f3, f5, f6, f7⟩ := ih (pre ++ [mems fl s.b s.a x (2 * (p * 2 ^ os.length) + 2 * (q * 2 ^ os.length))])
      (fun n => filt fl s.b s.a x (2 * n)) aa' tmp' fuel hc' (by rw [hf]; congr 1; simp; omega) (by omega) (by omega) (by
        intro i hi
        rw [g3 i, if_pos hi, e6 (i * 2) (by omega)]
        congr 2
        omega) (by omega)
    refine ⟨mems fl s.b s.a x (2 * ((p + q) * 2 ^ os.length)) :: os', aa2, tmp2, ?_, by simp [f2], ?_, f5, f6, f7⟩
    · rw [doProcessFl, if_pos (show 2 ^ pre.length < s.decFactor by
        rw [hf]; exact Nat.pow_lt_pow_right (by omega) (by omega)), bind_ok hpass]
      have := f1
      rw [List.length_append, List.length_singleton, pow_succ] at this
      rw [add_mul, mul_add]
      simpa using this
    · rw [List.length_cons, hp2]
      exact .cons os' x _ f3

/-- The decimator after `p` output samples of the stream `x`. -/
structure Streaming (fl : ℝ → ℝ) (b a : List ℝ) (q k : Nat) (s : State ℝ) (x : ℕ → ℝ) (p : ℕ) : Prop where
  hL : s.inputLength = q * 2 ^ k
  hO : s.outputLength = q
  hf : s.decFactor = 2 ^ k
  hb : s.b = b
  ha : s.a = a
  hk : s.o.length = k
  haa : s.aaBuffer.length = s.inputLength
  htmp : s.tmpBuffer.length = s.inputLength
  hc : Mems fl b a s.o x (p * 2 ^ k)

theorem processFl_spec (fl : ℝ → ℝ) (b a : List ℝ) (q k : Nat) (s : State ℝ) (x : ℕ → ℝ) (p : ℕ) (h : Streaming fl b a q k s x p)
    (src dst : List ℝ) (hs : src.length = q * 2 ^ k) (hx : ∀ i, i < q * 2 ^ k → src[i]? = some (x (p * 2 ^ k + i))) (hd : dst.length = q) :
    ∃ s' out, processFl fl s src dst = some (s', out) ∧ out.length = q ∧ (∀ i, i < q → out[i]? = some (casc fl b a k x (p + i))) ∧
      Streaming fl b a q k s' x (p + q) := by
  obtain ⟨hL, hO, hf, hb, ha, hk, haa, htmp, hc⟩ := h
  obtain ⟨t1, e1, e2, e3⟩ := gather s.inputLength (fun i => src[i]?) s.tmpBuffer (by omega) (by
    intro i hi
    simp; omega)
  have hlt := Nat.lt_two_pow_self (n := k)
  obtain ⟨os', aa', tmp', f1, f2, f3, f5, f6, f7⟩ := doProcessFl_spec fl s s.o [] x p q
    s.aaBuffer t1 (s.decFactor + 1) (by rw [hk, hb, ha]; exact hc) (by rw [hf, hk]; simp) (by rw [hL, hf]) haa
    (by omega) (by
      intro i hi
      rw [hk] at hi ⊢
      rw [e3, if_pos (by omega), hx i hi]) (by rw [hk, hf]; omega)
  rw [hk, hb, ha] at f3 f7
  obtain ⟨d, g1, g2, g3⟩ := gather s.outputLength.toNat (fun i => tmp'[i]?) dst (by omega) (by
    intro i hi
    have : q ≤ q * 2 ^ k := Nat.le_mul_of_pos_right _ (by positivity)
    simp; omega)
  refine ⟨{ s with o := os', aaBuffer := aa', tmpBuffer := tmp' }, d, ?_, by omega, ?_,
    ⟨hL, hO, hf, hb, ha, by rw [← hk, ← f2], f5, f6, f3⟩⟩
  · unfold processFl
    rw [if_neg (show ¬ s.decFactor = 0 by rw [hf]; positivity), bind_ok e1]
    have f1' : doProcessFl fl s (s.decFactor + 1) 0 1 (s.o, s.aaBuffer, t1) = some (os', aa', tmp') := by
      simpa using f1
    rw [bind_ok f1']
    dsimp only
    rw [bind_ok g1]
  · intro i hi
    rw [g3, if_pos (by omega), f7 i hi]

theorem runFl_spec (fl : ℝ → ℝ) (b a : List ℝ) (q k : Nat) (calls : List (List ℝ × List ℝ)) (s : State ℝ) (x : ℕ → ℝ) (p : ℕ)
    (h : Streaming fl b a q k s x p) (hlen : ∀ c ∈ calls, c.1.length = q * 2 ^ k ∧ c.2.length = q)
    (hx : ∀ i v, (calls.map Prod.fst).flatten[i]? = some v → v = x (p * 2 ^ k + i)) :
    ∃ s' outs, runFl fl s calls = some (s', outs) ∧ outs.flatten.length = calls.length * q ∧
      ∀ m v, outs.flatten[m]? = some v → v = casc fl b a k x (p + m) := by
  induction calls generalizing s p with
  | nil => exact ⟨s, [], rfl, by simp, by simp⟩
  | cons c rest ih =>
    obtain ⟨src, dst⟩ := c
    obtain ⟨hc1, hc2⟩ := hlen (src, dst) (by simp)
    dsimp only at hc1 hc2
    simp only [List.map_cons, List.flatten_cons] at hx
    obtain ⟨s1, out, e1, e2, e3, e4⟩ := processFl_spec fl b a q k s x p h src dst hc1 (by
      intro i hi
      have hi' : i < src.length := by omega
      rw [List.getElem?_eq_getElem hi', ← hx i src[i] (by rw [List.getElem?_append_left hi', List.getElem?_eq_getElem hi'])]) hc2
    obtain ⟨s2, outs, f1, f2, f3⟩ := ih s1 (p + q) e4 (fun c hc => hlen c (by simp [hc])) (by
      intro i v hv
      have := hx (q * 2 ^ k + i) v (by rw [List.getElem?_append_right (by omega), hc1, Nat.add_sub_cancel_left, hv])
      rw [this, add_mul, add_assoc])
    refine ⟨s2, out :: outs, ?_, ?_, ?_⟩
    · rw [runFl, e1]
      simp only [Option.bind_eq_bind, Option.bind_some, f1]
    · rw [List.flatten_cons, List.length_append, e2, f2, List.length_cons]
      ring
    · intro m v hv
      rw [List.flatten_cons, List.getElem?_append, e2] at hv
      split_ifs at hv with hm
      · rw [e3 m hm] at hv
        exact (Option.some_inj.mp hv).symm
      · have := f3 _ _ hv
        rw [this]
        congr 1
        omega

theorem newFl_streaming (fl : ℝ → ℝ) (q k : Nat) (hk : 0 < k) (aa tmp : List ℝ) (haa : aa.length = q * 2 ^ k) (htmp : tmp.length = q * 2 ^ k) (x : ℕ → ℝ) :
    ∃ s, newFl fl (q * 2 ^ k) ((2 : Int) ^ k) aa tmp = some s ∧
      Streaming fl (bCoeffs.map (fun q : ℚ => fl (q : ℝ))) (aCoeffs.map (fun q : ℚ => fl (q : ℝ))) q k s x 0 := by
  have h2 : (2 : Int) ≤ 2 ^ k := by
    calc (2 : Int) = 2 ^ 1 := by norm_num
      _ ≤ 2 ^ k := pow_le_pow_right₀ (by norm_num) hk
  have hnat : ((2 : Int) ^ k).toNat = 2 ^ k := by
    rw [show (2 : Int) ^ k = ((2 ^ k : Nat) : Int) by push_cast; rfl, Int.toNat_natCast]
  have hpow : MathInt.isPowerOfTwo ((2 : Int) ^ k) = true :=
    (MathInt.C01_isPowerOfTwo_iff _).mpr ⟨k, rfl⟩
  refine ⟨⟨q * 2 ^ k, q, 2 ^ k, filters (2 ^ k), bCoeffs.map (fun q : ℚ => fl (q : ℝ)),
    aCoeffs.map (fun q : ℚ => fl (q : ℝ)), aa, tmp⟩, ?_, ?_⟩
  · unfold newFl
    dsimp only
    rw [if_neg (by omega), if_neg (by rw [hpow]; simp; omega), if_neg (by simp)]
    simp [hnat]
  · refine ⟨rfl, rfl, rfl, rfl, rfl, by rw [filters_pow]; simp, haa, htmp, ?_⟩
    rw [filters_pow]
    dsimp only
    rw [Nat.zero_mul]
    generalize bCoeffs.map (fun q : ℚ => fl (q : ℝ)) = b
    generalize aCoeffs.map (fun q : ℚ => fl (q : ℝ)) = a
    clear h2 hnat hpow haa htmp hk
    induction k generalizing x with
    | zero => exact .nil _ _
    | succ k ih => exact .cons _ x 0 (ih _)

end QM.DecimatorB
