import Verif.Decimator.Single
import Verif.Decimator.RoundedProps
import Verif.DecimatorB.Single
import Verif.DecimatorB.RoundedProps
import Verif.Common.Single

/-!
# C127: the decimators in single precision
-/

namespace QM.Decimator

open QM.IntPoly QM.Stable QM.Filter QM.Double Finset

/-- Storing rounded values instead of the values themselves. -/
theorem store_rounded (g : ℝ → ℝ) (n : ℕ) (src : ℕ → Option ℝ) (dst : List ℝ) :
    loop n (fun i dst => (src i).bind fun v => wr dst i (g v)) dst =
      (loop n (fun i dst => (src i).bind fun v => wr dst i v) dst).map (fun d => (d.take n).map g ++ d.drop n) := by
  induction n with
  | zero => simp [loop]
  | succ n ih =>
    rw [loop, loop, ih]
    cases loop n (fun i dst => (src i).bind fun v => wr dst i v) dst with
    | none => rfl
    | some d =>
      simp only [Option.map_some, Option.bind_some]
      cases src n with
      | none => rfl
      | some v =>
        simp only [Option.bind_some]
        by_cases hn : n < d.length
        · rw [wr_some _ (by simp; omega), wr_some _ hn, Option.map_some, Option.some_inj]
          refine List.ext_getElem? fun i => ?_
          simp only [List.getElem?_set, List.getElem?_append, List.length_map, List.length_take, List.length_set, List.length_append, List.length_drop,
            List.getElem?_map, List.getElem?_take, List.getElem?_drop]
          have e1 : min n d.length = n := by omega
          have e2 : min (n + 1) d.length = n + 1 := by omega
          rw [e1, e2]
          rcases Nat.lt_trichotomy i n with h | h | h
          · rw [if_neg (by omega), if_pos h, if_pos h, if_pos (by omega), if_pos (by omega), if_neg (by omega)]
          · subst h
            rw [if_pos rfl, if_pos (by omega), if_pos (by omega), if_pos (by omega), if_pos rfl, if_pos hn]
            rfl
          · rw [if_neg (by omega), if_neg (by omega), if_neg (by omega), if_neg (by omega), Nat.add_sub_cancel' (by omega), Nat.add_sub_cancel' (by omega)]
        · rw [wr_none _ (by simp; omega), wr_none _ (by omega)]
          rfl

/-- One call: the same new state, and the kept samples rounded. -/
theorem processF_eq (g fl : ℝ → ℝ) (s : State ℝ) (src dst : List ℝ) :
    processF g fl s src dst = (processFl fl s src dst).map (fun r => (r.1, (r.2.take s.outputLength).map g ++ r.2.drop s.outputLength)) := by
  unfold processF processFl
  split_ifs
  · rfl
  · dsimp only
    simp only [Option.bind_eq_bind]
    rw [store_rounded]
    cases loop s.outputLength _ dst <;> rfl

/-- **C127** Whatever the history of calls to the two interfaces of a decimator, it is in the state that the same blocks through the double-precision
interface alone would have left, the calls to that interface return the same samples, and the calls to the single-precision interface return
these samples rounded to single precision and write nothing else: the two interfaces may be mixed, and single precision never gets into the
filter. -/
theorem C127_mixed (g fl : ℝ → ℝ) (q : ℕ) (calls : List (Bool × List ℝ × List ℝ)) (s : State ℝ) (hq : s.outputLength = q) :
    runMix g fl s calls = (runFl fl s (calls.map Prod.snd)).map (fun r => (r.1,
      List.zipWith (fun c o => if c.1 then (o.take q).map g ++ o.drop q else o) calls r.2)) := by
  induction calls generalizing s with
  | nil => rfl
  | cons c rest ih =>
    obtain ⟨b, src, dst⟩ := c
    have hstep : processMix g fl s b src dst =
        (processFl fl s src dst).map (fun r => (r.1, if b then (r.2.take q).map g ++ r.2.drop q else r.2)) := by
      cases b
      · simp [processMix]
      · simp [processMix, processF_eq, hq]
    rw [runMix, hstep, List.map_cons, runFl]
    cases hp : processFl fl s src dst with
    | none => rfl
    | some r =>
      obtain ⟨s1, o⟩ := r
      have hs1 : s1.outputLength = q := by
        unfold processFl at hp
        split_ifs at hp
        dsimp only at hp
        simp only [Option.bind_eq_bind, Option.bind_eq_some_iff, Option.some_inj, Prod.mk.injEq] at hp
        obtain ⟨-, -, rfl, -⟩ := hp
        rw [(doAntiAlias_fields fl _ s).2.1, hq]
      simp only [Option.map_some, Option.bind_eq_bind, Option.bind_some]
      rw [ih s1 hs1]
      cases runFl fl s1 (rest.map Prod.snd) <;> simp

/-- A new decimator by 2 used through both interfaces. -/
example : ∃ s : State ℝ, newFl rn (2 * 2) 2 = some s ∧ s.outputLength = 2 ∧
    ∃ r, runMix rnF rn s [(true, [1, -1, 1, -1], [0, 0]), (false, [1, 1, 1, 1], [0, 0])] = some r := by
  obtain ⟨s, hs⟩ : ∃ s, newFl rn (2 * 2) 2 = some s := ⟨_, rfl⟩
  obtain ⟨h1, h2, h3, -⟩ := newFl_fields rn _ _ s hs
  refine ⟨s, hs, h2, ?_⟩
  rw [C127_mixed rnF rn 2 _ _ h2]
  obtain ⟨s', outs, e, -⟩ := runFl_ok rn 2 2 (by norm_num) [([1, -1, 1, -1], [0, 0]), ([1, 1, 1, 1], [0, 0])] s h1 h2 h3 (by simp)
  exact ⟨_, by rw [show List.map Prod.snd [(true, [1, -1, 1, -1], [0, 0]), (false, ([1, 1, 1, 1] : List ℝ), ([0, 0] : List ℝ))] = [([1, -1, 1, -1], [0, 0]), ([1, 1, 1, 1], [0, 0])] from rfl, e]; rfl⟩

/-- The exact filter takes inputs that differ by at most `d` to outputs that differ by at most `3 d`. -/
theorem exact_sub (L f : Nat) (hf : f = 2 ∨ f = 4 ∨ f = 8) (s : State ℝ) (h : new L f = some s) (x x' : ℕ → ℝ) (d : ℝ) (hd : ∀ n, |x n - x' n| ≤ d) (n : ℕ) :
    |(antiAliasStepFl id (before id s x n) (x n)).2 - (antiAliasStepFl id (before id s x' n) (x' n)).2| ≤ 3 * d := by
  have hd0 : 0 ≤ d := (abs_nonneg _).trans (hd 0)
  obtain ⟨p0, ps, c1, c2, c3, c4, -, -⟩ := cert_sound _ _ _ _ _ _ (cert_ok f hf) (by norm_num)
  have hb := bounded (intA f) (intB f) (certQ f) ps p0 c1 c2 (fun n => x n - x' n)
    (fun n => (antiAliasStepFl id (before id s x n) (x n)).2 - (antiAliasStepFl id (before id s x' n) (x' n)).2) (n + 1)
    (fun k _ => by rw [cv_sub, cv_sub, exact_eq L f hf s h x, exact_eq L f hf s h x']) d hd n (Nat.lt_succ_self n)
  have hD : (0 : ℝ) < ((p0 - l1 ps : ℤ) : ℝ) := by exact_mod_cast sub_pos.mpr c2
  have hG : ((l1 (mul (certQ f) (intB f)) : ℤ) : ℝ) ≤ 3 * ((p0 - l1 ps : ℤ) : ℝ) := by exact_mod_cast c4
  refine le_of_mul_le_mul_left (hb.trans ?_) hD
  have := mul_le_mul_of_nonneg_right hG hd0
  linarith

/-- The output of the rounded and of the exact filter on lists that differ by at most `d`. -/
theorem stage_close (fl : ℝ → ℝ) (hfl : Rounds fl) (L f : Nat) (hf : f = 2 ∨ f = 4 ∨ f = 8) (s sf : State ℝ) (h : new L f = some s)
    (hs : newFl fl L f = some sf) (M d : ℝ) (hM1 : 1 / 2 ^ 1000 ≤ M) (hM2 : M ≤ 2 ^ 1000) (hd0 : 0 ≤ d) (X Y : List ℝ) (hl : X.length = Y.length)
    (hX : ∀ v ∈ X, |v| ≤ M) (hd : ∀ (n : ℕ) v w, X[n]? = some v → Y[n]? = some w → |v - w| ≤ d) (n : ℕ) (hn : n < X.length) :
    ∃ v w, (doAntiAliasFl fl sf X).2[n]? = some v ∧ (doAntiAliasFl id s Y).2[n]? = some w ∧ |v - w| ≤ M / 10 ^ 7 + 3 * d ∧ |v| ≤ 3.1 * M := by
  have hM0 : 0 < M := lt_of_lt_of_le (by positivity) hM1
  obtain ⟨-, i2⟩ := doAntiAlias_get fl X sf (fun n => X.getD n 0) (fun _ _ => rfl)
  obtain ⟨-, j2⟩ := doAntiAlias_get id Y s (fun n => Y.getD n 0) (fun _ _ => rfl)
  refine ⟨_, _, i2 n hn, j2 n (by omega), ?_⟩
  obtain ⟨k1, k2, -⟩ := stream_close fl hfl L f hf s sf h hs M hM1 hM2 (fun n => X.getD n 0) (by
    intro n
    rw [List.getD_eq_getElem?_getD]
    cases hg : X[n]? with
    | none => simpa using hM0.le
    | some w => exact hX w (List.mem_of_getElem? hg)) n
  have k3 := exact_sub L f hf s h (fun n => X.getD n 0) (fun n => Y.getD n 0) d (by
    intro n
    rw [List.getD_eq_getElem?_getD, List.getD_eq_getElem?_getD]
    cases hg : X[n]? with
    | none =>
      rw [List.getElem?_eq_none (by rw [← hl]; exact List.getElem?_eq_none_iff.mp hg)]
      simpa using hd0
    | some w =>
      have hn' : n < Y.length := by rw [← hl]; exact lt_of_getElem?_some hg
      rw [List.getElem?_eq_getElem hn']
      exact hd n w _ hg (List.getElem?_eq_getElem hn')) n
  refine ⟨?_, k2⟩
  have := abs_sub_le (antiAliasStepFl fl (before fl sf (fun n => X.getD n 0) n) (X.getD n 0)).2
    (antiAliasStepFl id (before id s (fun n => X.getD n 0) n) (X.getD n 0)).2 (antiAliasStepFl id (before id s (fun n => Y.getD n 0) n) (Y.getD n 0)).2
  linarith

theorem processF_ok (g fl : ℝ → ℝ) (q f : ℕ) (hf : 0 < f) (s : State ℝ) (h1 : s.inputLength = f * q) (h2 : s.outputLength = q) (h3 : s.decFactor = f)
    (src dst : List ℝ) (hs : src.length = f * q) (hd : dst.length = q) :
    ∃ out, processF g fl s src dst = some ((doAntiAliasFl fl s src).1, out) ∧ out.length = q ∧
      ∀ i, i < q → out[i]? = ((doAntiAliasFl fl s src).2[f * i]?).map g := by
  obtain ⟨out, e1, e2, e3⟩ := processFl_ok fl q f hf s h1 h2 h3 src dst hs hd
  refine ⟨out.map g, ?_, by simpa using e2, fun i hi => by rw [List.getElem?_map, e3 i hi]⟩
  rw [processF_eq, e1, Option.map_some, h2]
  dsimp only
  rw [List.take_of_length_le (by omega), List.drop_of_length_le (by omega), List.append_nil]

theorem cascadeF_ok (g fl : ℝ → ℝ) (q f e : ℕ) (hf : 0 < f) (he : 0 < e) (calls : List (List ℝ × List ℝ)) (s1 s2 : State ℝ) (decbuf : List ℝ)
    (h1 : s1.inputLength = e * (f * q)) (h2 : s1.outputLength = f * q) (h3 : s1.decFactor = e)
    (k1 : s2.inputLength = f * q) (k2 : s2.outputLength = q) (k3 : s2.decFactor = f) (hdb : decbuf.length = f * q)
    (hlen : ∀ c ∈ calls, c.1.length = e * (f * q) ∧ c.2.length = q) :
    ∃ mid outs, cascadeF g fl s1 s2 decbuf calls = some outs ∧ mid.length = calls.length * (f * q) ∧ outs.flatten.length = calls.length * q ∧
      (∀ m, m < calls.length * (f * q) → mid[m]? = ((doAntiAliasFl fl s1 (calls.map Prod.fst).flatten).2[e * m]?).map g) ∧
      ∀ m, m < calls.length * q → outs.flatten[m]? = ((doAntiAliasFl fl s2 mid).2[f * m]?).map g := by
  induction calls generalizing s1 s2 decbuf with
  | nil => exact ⟨[], [], rfl, by simp, by simp, by simp, by simp⟩
  | cons c rest ih =>
    obtain ⟨src, dst⟩ := c
    obtain ⟨hc1, hc2⟩ := hlen (src, dst) (by simp)
    dsimp only at hc1 hc2
    obtain ⟨o1, a1, a2, a3⟩ := processF_ok g fl (f * q) e he s1 h1 h2 h3 src decbuf hc1 hdb
    obtain ⟨o2, b1, b2, b3⟩ := processF_ok g fl q f hf s2 k1 k2 k3 o1 dst a2 hc2
    obtain ⟨f1, f2, f3⟩ := doAntiAlias_fields fl src s1
    obtain ⟨g1, g2, g3⟩ := doAntiAlias_fields fl o1 s2
    obtain ⟨mid, outs, r1, r2, r3, r4, r5⟩ := ih (doAntiAliasFl fl s1 src).1 (doAntiAliasFl fl s2 o1).1 o1 (by omega) (by omega) (by omega) (by omega)
      (by omega) (by omega) a2 (fun c hc => hlen c (by simp [hc]))
    have hl1 := (doAntiAlias_get fl src s1 (fun n => src.getD n 0) (fun _ _ => rfl)).1
    have hl2 := (doAntiAlias_get fl o1 s2 (fun n => o1.getD n 0) (fun _ _ => rfl)).1
    refine ⟨o1 ++ mid, o2 :: outs, ?_, ?_, ?_, ?_, ?_⟩
    · rw [cascadeF, a1]
      simp only [Option.bind_eq_bind, Option.bind_some, b1, r1]
    · rw [List.length_append, a2, r2, List.length_cons]
      ring
    · rw [List.flatten_cons, List.length_append, b2, r3, List.length_cons]
      ring
    · intro m hm
      rw [List.length_cons, add_mul, one_mul] at hm
      rw [List.map_cons, List.flatten_cons, doAntiAlias_append, List.getElem?_append, List.getElem?_append, a2, hl1, hc1]
      by_cases hmq : m < f * q
      · rw [if_pos hmq, if_pos (Nat.mul_lt_mul_of_pos_left hmq he), a3 m hmq]
      · rw [if_neg hmq, if_neg (by have := Nat.mul_le_mul_left e (Nat.le_of_not_lt hmq); omega), r4 (m - f * q) (by omega), Nat.mul_sub]
    · intro m hm
      rw [List.length_cons, add_mul, one_mul] at hm
      rw [List.flatten_cons, doAntiAlias_append, List.getElem?_append, List.getElem?_append, b2, hl2, a2]
      by_cases hmq : m < q
      · rw [if_pos hmq, if_pos (Nat.mul_lt_mul_of_pos_left hmq hf), b3 m hmq]
      · rw [if_neg hmq, if_neg (by have := Nat.mul_le_mul_left f (Nat.le_of_not_lt hmq); omega), r5 (m - q) (by omega), Nat.mul_sub]

/-- What storing in single precision adds. -/
theorem store_close (g : ℝ → ℝ) (hg : RoundsF g) (M v : ℝ) (hM1 : 1 / 2 ^ 100 ≤ M) (hM2 : M ≤ 2 ^ 100) (hv : |v| ≤ 10 * M) (B : ℝ) (hB : |v| ≤ B) :
    |g v - v| ≤ B / 2 ^ 24 + M / 2 ^ 50 := by
  have h1 : |v| ≤ 2 ^ 127 := hv.trans (by
    have : (10 : ℝ) * 2 ^ 100 ≤ 2 ^ 127 := by norm_num
    linarith)
  have h2 := hg v h1
  have h3 : (1 : ℝ) / 2 ^ 150 ≤ M / 2 ^ 50 := by
    have := div_le_div_of_nonneg_right hM1 (show (0 : ℝ) ≤ 2 ^ 50 by positivity)
    refine le_trans (le_of_eq ?_) this
    norm_num
  have h4 := div_le_div_of_nonneg_right hB (show (0 : ℝ) ≤ 2 ^ 24 by positivity)
  linarith

theorem flat_le (M : ℝ) (calls : List (List ℝ × List ℝ)) (hx : ∀ c ∈ calls, ∀ v ∈ c.1, |v| ≤ M) : ∀ v ∈ (calls.map Prod.fst).flatten, |v| ≤ M := by
  intro v hv
  rw [List.mem_flatten] at hv
  obtain ⟨l, hl, hv⟩ := hv
  obtain ⟨c, hc, rfl⟩ := List.mem_map.mp hl
  exact hx c hc v hv

theorem flat_length (n q : ℕ) (calls : List (List ℝ × List ℝ)) (hlen : ∀ c ∈ calls, c.1.length = n ∧ c.2.length = q) :
    (calls.map Prod.fst).flatten.length = calls.length * n := by
  induction calls with
  | nil => simp
  | cons c o ih =>
    rw [List.map_cons, List.flatten_cons, List.length_append, ih (fun d hd => hlen d (List.mem_cons_of_mem _ hd)), (hlen c List.mem_cons_self).1, List.length_cons]
    ring

theorem runF_ok (g fl : ℝ → ℝ) (q f : ℕ) (hf : 0 < f) (calls : List (List ℝ × List ℝ)) (s : State ℝ) (h1 : s.inputLength = f * q) (h2 : s.outputLength = q)
    (h3 : s.decFactor = f) (hlen : ∀ c ∈ calls, c.1.length = f * q ∧ c.2.length = q) :
    ∃ s' outs, runMix g fl s (calls.map fun c => (true, c)) = some (s', outs) ∧ outs.flatten.length = calls.length * q ∧
      ∀ m, m < calls.length * q → outs.flatten[m]? = ((doAntiAliasFl fl s (calls.map Prod.fst).flatten).2[f * m]?).map g := by
  induction calls generalizing s with
  | nil => exact ⟨s, [], rfl, by simp, by intro m hm; simp at hm⟩
  | cons c rest ih =>
    obtain ⟨src, dst⟩ := c
    obtain ⟨hc1, hc2⟩ := hlen (src, dst) (by simp)
    dsimp only at hc1 hc2
    obtain ⟨out, e1, e2, e3⟩ := processF_ok g fl q f hf s h1 h2 h3 src dst hc1 hc2
    obtain ⟨f1, f2, f3⟩ := doAntiAlias_fields fl src s
    obtain ⟨s', outs, g1, g2, g3⟩ := ih (doAntiAliasFl fl s src).1 (by omega) (by omega) (by omega) (fun c hc => hlen c (by simp [hc]))
    have hl := (doAntiAlias_get fl src s (fun n => src.getD n 0) (fun _ _ => rfl)).1
    have e1' : processMix g fl s true src dst = _ := e1
    refine ⟨s', out :: outs, ?_, ?_, ?_⟩
    · rw [List.map_cons, runMix, e1']
      simp only [Option.bind_eq_bind, Option.bind_some, g1]
    · rw [List.flatten_cons, List.length_append, e2, g2, List.length_cons]
      ring
    · intro m hm
      rw [List.length_cons, add_mul, one_mul] at hm
      rw [List.map_cons, List.flatten_cons, List.flatten_cons, doAntiAlias_append, List.getElem?_append, List.getElem?_append, e2, hl, hc1]
      by_cases hmq : m < q
      · rw [if_pos hmq, if_pos (Nat.mul_lt_mul_of_pos_left hmq hf), e3 m hmq]
      · rw [if_neg hmq, if_neg (by have := Nat.mul_le_mul_left f (Nat.le_of_not_lt hmq); omega), g3 (m - q) (by omega), Nat.mul_sub]

theorem mid_range (M : ℝ) (hM1 : 1 / 2 ^ 100 ≤ M) (hM2 : M ≤ 2 ^ 100) : (1 : ℝ) / 2 ^ 1000 ≤ M ∧ M ≤ 2 ^ 999 ∧ 0 < M := by
  have h1 : (1 : ℝ) / 2 ^ 1000 ≤ 1 / 2 ^ 100 := one_div_le_one_div_of_le (by positivity) (pow_le_pow_right₀ (by norm_num) (by norm_num))
  have h2 : (2 : ℝ) ^ 100 ≤ 2 ^ 999 := pow_le_pow_right₀ (by norm_num) (by norm_num)
  exact ⟨h1.trans hM1, hM2.trans h2, lt_of_lt_of_le (by positivity) hM1⟩

/-- **C127** The single-precision interface gives, for every stream within `M` and however it is cut into blocks, the samples of the exact decimator
to within `3 M / 10 ^ 7`: one conversion to `float` at the end, however long the stream, and nothing overflows. -/
theorem C127_single (g fl : ℝ → ℝ) (hg : RoundsF g) (hfl : Rounds fl) (q f : Nat) (hf : f = 2 ∨ f = 4 ∨ f = 8) (s sf : State ℝ)
    (h : new (f * q) f = some s) (hs : newFl fl (f * q) f = some sf) (M : ℝ) (hM1 : 1 / 2 ^ 100 ≤ M) (hM2 : M ≤ 2 ^ 100)
    (calls : List (List ℝ × List ℝ)) (hlen : ∀ c ∈ calls, c.1.length = f * q ∧ c.2.length = q) (hx : ∀ c ∈ calls, ∀ v ∈ c.1, |v| ≤ M) :
    ∃ s' outs sf' outsf, run s calls = some (s', outs) ∧ runMix g fl sf (calls.map fun c => (true, c)) = some (sf', outsf) ∧
      outs.flatten.length = calls.length * q ∧ outsf.flatten.length = calls.length * q ∧
      ∀ (m : ℕ) v w, outs.flatten[m]? = some v → outsf.flatten[m]? = some w → |w - v| ≤ 3 * M / 10 ^ 7 ∧ |w| ≤ 4 * M := by
  have hf0 : 0 < f := by rcases hf with rfl | rfl | rfl <;> norm_num
  have hf1 : f ≠ 1 := by rcases hf with rfl | rfl | rfl <;> norm_num
  have hdiv : f * q / f = q := Nat.mul_div_cancel_left q hf0
  obtain ⟨hM3, hM4, hM0⟩ := mid_range M hM1 hM2
  have hM5 : M ≤ 2 ^ 1000 := hM4.trans (pow_le_pow_right₀ (by norm_num) (by norm_num))
  obtain ⟨a1, a2, a3, -⟩ := newFl_fields id _ f s h
  obtain ⟨b1, b2, b3, -⟩ := newFl_fields fl _ f sf hs
  obtain ⟨s', outs, e1, e2, e3⟩ := runFl_ok id q f hf0 calls s a1 (by rw [a2, hdiv]) a3 hlen
  obtain ⟨sf', outsf, f1, f2, f3⟩ := runF_ok g fl q f hf0 calls sf b1 (by rw [b2, hdiv]) b3 hlen
  rw [run_id _ _ (by omega)] at e1
  refine ⟨s', outs, sf', outsf, e1, f1, e2, f2, ?_⟩
  intro m v w hv hw
  have hm : m < calls.length * q := by
    rw [← e2]
    exact lt_of_getElem?_some hv
  rw [e3 m hm] at hv
  rw [f3 m hm] at hw
  have hn : f * m < (calls.map Prod.fst).flatten.length := by
    rw [flat_length _ _ calls hlen, Nat.mul_left_comm]
    exact Nat.mul_lt_mul_of_pos_left hm hf0
  obtain ⟨v', w', k1, k2, k3, k4⟩ := stage_close fl hfl (f * q) f hf s sf h hs M 0 hM3 hM5 le_rfl _ _ rfl (flat_le M calls hx)
    (by intro n v w h1 h2; rw [h1, Option.some_inj] at h2; simp [h2]) (f * m) hn
  rw [k2, Option.some_inj] at hv
  rw [k1, Option.map_some, Option.some_inj] at hw
  subst hv hw
  have k5 := store_close g hg M v' hM1 hM2 (by linarith) _ k4
  have k6 := abs_sub_le (g v') v' w'
  have k7 := abs_sub_abs_le_abs_sub (g v') v'
  constructor
  · norm_num at k5 k3 ⊢
    linarith
  · norm_num at k5 k3 k4 ⊢
    linarith

/-- Rounding to nearest, and two blocks of the fastest oscillation at full scale. -/
example : RoundsF rnF ∧ Rounds rn ∧ ∃ s sf : State ℝ, new (2 * 2) 2 = some s ∧ newFl rn (2 * 2) 2 = some sf ∧ (1 / 2 ^ 100 : ℝ) ≤ 1 ∧ (1 : ℝ) ≤ 2 ^ 100 ∧
    (∀ c ∈ [(([1, -1, 1, -1], [0, 0]) : List ℝ × List ℝ), ([1, -1, 1, -1], [0, 0])], c.1.length = 2 * 2 ∧ c.2.length = 2) ∧
    ∀ c ∈ [(([1, -1, 1, -1], [0, 0]) : List ℝ × List ℝ), ([1, -1, 1, -1], [0, 0])], ∀ v ∈ c.1, |v| ≤ 1 :=
  ⟨roundsF_rnF, rounds_rn, _, _, rfl, rfl, by norm_num, by norm_num, by simp, by simp⟩

/-- **C127** The downbeat tracker decimates by 16, 32 or 64 with two decimators in cascade and single-precision numbers between them and after them.
Its samples are those of the exact cascade to within two millionths of the peak `M` of the audio, however long the audio. -/
theorem C127_cascade (g fl : ℝ → ℝ) (hg : RoundsF g) (hfl : Rounds fl) (q f : Nat) (hf : f = 2 ∨ f = 4 ∨ f = 8) (s1 s2 sf1 sf2 : State ℝ)
    (h1 : new (8 * (f * q)) 8 = some s1) (h2 : new (f * q) f = some s2) (hs1 : newFl fl (8 * (f * q)) 8 = some sf1)
    (hs2 : newFl fl (f * q) f = some sf2) (decbuf : List ℝ) (hdb : decbuf.length = f * q) (M : ℝ) (hM1 : 1 / 2 ^ 100 ≤ M) (hM2 : M ≤ 2 ^ 100)
    (calls : List (List ℝ × List ℝ)) (hlen : ∀ c ∈ calls, c.1.length = 8 * (f * q) ∧ c.2.length = q) (hx : ∀ c ∈ calls, ∀ v ∈ c.1, |v| ≤ M)
    (blocks : List (List ℝ × List ℝ)) (hbl : blocks.length = calls.length) (hblen : ∀ c ∈ blocks, c.1.length = f * q ∧ c.2.length = q)
    (t1 : State ℝ) (mid : List (List ℝ)) (hmid : run s1 (calls.map fun c => (c.1, decbuf)) = some (t1, mid)) (hcut : (blocks.map Prod.fst).flatten = mid.flatten) :
    ∃ t2 outs outsf, run s2 blocks = some (t2, outs) ∧ cascadeF g fl sf1 sf2 decbuf calls = some outsf ∧
      outs.flatten.length = calls.length * q ∧ outsf.flatten.length = calls.length * q ∧
      ∀ (m : ℕ) v w, outs.flatten[m]? = some v → outsf.flatten[m]? = some w → |w - v| ≤ 2 * M / 10 ^ 6 := by
  have hf0 : 0 < f := by rcases hf with rfl | rfl | rfl <;> norm_num
  have hf1 : f ≠ 1 := by rcases hf with rfl | rfl | rfl <;> norm_num
  have hdiv : f * q / f = q := Nat.mul_div_cancel_left q hf0
  have hdiv8 : 8 * (f * q) / 8 = f * q := Nat.mul_div_cancel_left _ (by norm_num)
  obtain ⟨hM3, hM4, hM0⟩ := mid_range M hM1 hM2
  have hM5 : M ≤ 2 ^ 1000 := hM4.trans (pow_le_pow_right₀ (by norm_num) (by norm_num))
  obtain ⟨a1, a2, a3, -⟩ := newFl_fields id _ _ s1 h1
  obtain ⟨b1, b2, b3, -⟩ := newFl_fields fl _ _ sf1 hs1
  obtain ⟨c1, c2, c3, -⟩ := newFl_fields id _ _ s2 h2
  obtain ⟨d1, d2, d3, -⟩ := newFl_fields fl _ _ sf2 hs2
  have hmap : ((calls.map fun c => (c.1, decbuf)).map Prod.fst) = calls.map Prod.fst := by
    rw [List.map_map]
    rfl
  obtain ⟨s', outs1, e1, e2, e3⟩ := runFl_ok id (f * q) 8 (by norm_num) (calls.map fun c => (c.1, decbuf)) s1 a1 (by rw [a2, hdiv8]) a3 (by
    intro c hc
    obtain ⟨d, hd, rfl⟩ := List.mem_map.mp hc
    exact ⟨(hlen d hd).1, hdb⟩)
  rw [run_id _ _ (by omega), hmid, Option.some_inj, Prod.mk.injEq] at e1
  obtain ⟨-, rfl⟩ := e1
  rw [List.length_map] at e2 e3
  rw [hmap] at e3
  obtain ⟨t2, outs, o1, o2, o3⟩ := runFl_ok id q f hf0 blocks s2 c1 (by rw [c2, hdiv]) c3 hblen
  rw [run_id _ _ (by omega)] at o1
  obtain ⟨midf, outsf, r1, r2, r3, r4, r5⟩ := cascadeF_ok g fl q f 8 hf0 (by norm_num) calls sf1 sf2 decbuf b1 (by rw [b2, hdiv8]) b3 d1 (by rw [d2, hdiv]) d3 hdb hlen
  refine ⟨t2, outs, outsf, o1, r1, by rw [o2, hbl], r3, ?_⟩
  rw [hcut] at o3
  have hmidf : ∀ (n : ℕ) v w, midf[n]? = some v → mid.flatten[n]? = some w → |v - w| ≤ 3 * M / 10 ^ 7 ∧ |v| ≤ 3.2 * M := by
    intro n v w hv hw
    have hn : n < calls.length * (f * q) := by
      rw [← r2]
      exact lt_of_getElem?_some hv
    rw [r4 n hn] at hv
    rw [e3 n hn] at hw
    obtain ⟨v', w', k1, k2, k3, k4⟩ := stage_close fl hfl _ 8 (by norm_num) s1 sf1 h1 hs1 M 0 hM3 hM5 le_rfl _ _ rfl (flat_le M calls hx)
      (by intro n v w h1 h2; rw [h1, Option.some_inj] at h2; simp [h2]) (8 * n) (by rw [flat_length _ _ calls hlen, Nat.mul_left_comm]; omega)
    rw [k2, Option.some_inj] at hw
    rw [k1, Option.map_some, Option.some_inj] at hv
    subst hv hw
    have k5 := store_close g hg M v' hM1 hM2 (by linarith) _ k4
    have k6 := abs_sub_le (g v') v' w'
    have k7 := abs_sub_abs_le_abs_sub (g v') v'
    constructor
    · norm_num at k5 k3 ⊢
      linarith
    · norm_num at k5 k3 k4 ⊢
      linarith
  intro m v w hv hw
  have hm : m < calls.length * q := by
    rw [← r3]
    exact lt_of_getElem?_some hw
  rw [o3 m (by rw [hbl]; exact hm)] at hv
  rw [r5 m hm] at hw
  have h16 : (3.2 : ℝ) * M ≤ 2 ^ 1000 := by
    have : (2 : ℝ) ^ 100 * 4 ≤ 2 ^ 1000 := by
      rw [show (4 : ℝ) = 2 ^ 2 by norm_num, ← pow_add]
      exact pow_le_pow_right₀ (by norm_num) (by norm_num)
    have h4 : (3.2 : ℝ) * M ≤ 2 ^ 100 * 4 := by
      norm_num at hM2 ⊢
      linarith
    exact h4.trans this
  obtain ⟨v', w', k1, k2, k3, k4⟩ := stage_close fl hfl (f * q) f hf s2 sf2 h2 hs2 (3.2 * M) (3 * M / 10 ^ 7) (hM3.trans (by norm_num; linarith)) h16 (by positivity) midf mid.flatten
    (by rw [r2, e2]) (by
      intro v hv
      obtain ⟨n, hn⟩ := List.getElem?_of_mem hv
      have hn' : n < mid.flatten.length := by
        rw [e2, ← r2]
        exact lt_of_getElem?_some hn
      exact (hmidf n v _ hn (List.getElem?_eq_getElem hn')).2) (fun n v w h1 h2 => (hmidf n v w h1 h2).1) (f * m) (by
      rw [r2, Nat.mul_left_comm]
      exact Nat.mul_lt_mul_of_pos_left hm hf0)
  rw [k2, Option.some_inj] at hv
  rw [k1, Option.map_some, Option.some_inj] at hw
  subst hv hw
  have k5 := store_close g hg M v' hM1 hM2 (by linarith) _ k4
  have k6 := abs_sub_le (g v') v' w'
  norm_num at k5 k3 ⊢
  linarith

/-- Decimation by 16 of two blocks. -/
example : RoundsF rnF ∧ Rounds rn ∧ ∃ s1 s2 sf1 sf2 : State ℝ, new (8 * (2 * 1)) 8 = some s1 ∧ new (2 * 1) 2 = some s2 ∧ newFl rn (8 * (2 * 1)) 8 = some sf1 ∧
    newFl rn (2 * 1) 2 = some sf2 ∧ ∃ calls blocks : List (List ℝ × List ℝ), blocks.length = calls.length ∧
    (∀ c ∈ calls, c.1.length = 8 * (2 * 1) ∧ c.2.length = 1) ∧ (∀ c ∈ calls, ∀ v ∈ c.1, |v| ≤ 1) ∧ (∀ c ∈ blocks, c.1.length = 2 * 1 ∧ c.2.length = 1) ∧
    ∃ t1 mid, run s1 (calls.map fun c => (c.1, [0, 0])) = some (t1, mid) ∧ (blocks.map Prod.fst).flatten = mid.flatten := by
  obtain ⟨s1, h1⟩ : ∃ s : State ℝ, new (8 * (2 * 1)) 8 = some s := ⟨_, rfl⟩
  obtain ⟨t1, mid, y, e1, -, -, e4, -⟩ := C14_every_fth 2 8 (by norm_num) (by norm_num) s1 h1 [(List.replicate 16 1, [0, 0])] (by simp)
  refine ⟨roundsF_rnF, rounds_rn, s1, _, _, _, h1, rfl, rfl, rfl, [(List.replicate 16 1, [0])], [(mid.flatten, [0])], rfl, by simp, by simp, ?_, t1, mid, e1, by simp⟩
  intro c hc
  rw [List.mem_singleton] at hc
  subst hc
  exact ⟨by simpa using e4, rfl⟩

end QM.Decimator

namespace QM.DecimatorB

open QM.Double

/-- **C127** The same for the decimator by powers of two: one call leaves the state of the double-precision interface and gives its samples rounded. -/
theorem C127_power_of_two (g fl : ℝ → ℝ) (q : ℕ) (calls : List (Bool × List ℝ × List ℝ)) (s : State ℝ) (hf : s.decFactor ≠ 0) (hq : s.outputLength = q) :
    runMix g fl s calls = (runFl fl s (calls.map Prod.snd)).map (fun r => (r.1,
      List.zipWith (fun c o => if c.1 then (o.take q).map g ++ o.drop q else o) calls r.2)) := by
  induction calls generalizing s with
  | nil => rfl
  | cons c rest ih =>
    obtain ⟨b, src, dst⟩ := c
    have hF : processF g fl s src dst = (processFl fl s src dst).map (fun r => (r.1, (r.2.take q).map g ++ r.2.drop q)) := by
      unfold processF processFl
      rw [if_neg hf, if_neg hf]
      simp only [Option.bind_eq_bind]
      cases loop s.inputLength _ s.tmpBuffer with
      | none => rfl
      | some tmp =>
        simp only [Option.bind_some]
        cases doProcessFl fl s (s.decFactor + 1) 0 1 (s.o, s.aaBuffer, tmp) with
        | none => rfl
        | some w =>
          simp only [Option.bind_some]
          rw [QM.Decimator.store_rounded, hq, Int.toNat_natCast]
          cases loop q _ dst <;> rfl
    have hstep : processMix g fl s b src dst =
        (processFl fl s src dst).map (fun r => (r.1, if b then (r.2.take q).map g ++ r.2.drop q else r.2)) := by
      cases b
      · simp [processMix]
      · simp [processMix, hF]
    rw [runMix, hstep, List.map_cons, runFl]
    cases hp : processFl fl s src dst with
    | none => rfl
    | some r =>
      obtain ⟨s1, o⟩ := r
      have hs1 : s1.outputLength = q ∧ s1.decFactor ≠ 0 := by
        unfold processFl at hp
        rw [if_neg hf] at hp
        simp only [Option.bind_eq_bind, Option.bind_eq_some_iff, Option.some_inj, Prod.mk.injEq] at hp
        obtain ⟨-, -, -, -, -, -, rfl, -⟩ := hp
        exact ⟨hq, hf⟩
      simp only [Option.map_some, Option.bind_eq_bind, Option.bind_some]
      rw [ih s1 hs1.2 hs1.1]
      cases runFl fl s1 (rest.map Prod.snd) <;> simp

theorem runFl_count (fl : ℝ → ℝ) (calls : List (List ℝ × List ℝ)) (s s' : State ℝ) (outs : List (List ℝ)) (h : runFl fl s calls = some (s', outs)) :
    outs.length = calls.length := by
  induction calls generalizing s outs with
  | nil =>
    simp only [runFl, Option.some_inj, Prod.mk.injEq] at h
    rw [← h.2]
    rfl
  | cons c rest ih =>
    simp only [runFl, Option.bind_eq_bind, Option.bind_eq_some_iff, Option.some_inj, Prod.mk.injEq] at h
    obtain ⟨r, h1, ⟨s2, os⟩, h2, rfl, rfl⟩ := h
    simp [ih _ _ h2]

/-- Storing rounded values or values as they are, block by block. -/
theorem mix_flatten {β : Type} (g : ℝ → ℝ) (q : ℕ) (b : β → Bool) (calls : List β) (outs : List (List ℝ)) (h : outs.length = calls.length) :
    (List.zipWith (fun c o => if b c then (o.take q).map g ++ o.drop q else o) calls outs).flatten.length = outs.flatten.length ∧
      ∀ (m : ℕ) x, (List.zipWith (fun c o => if b c then (o.take q).map g ++ o.drop q else o) calls outs).flatten[m]? = some x →
        ∃ w, outs.flatten[m]? = some w ∧ (x = w ∨ x = g w) := by
  induction calls generalizing outs with
  | nil =>
    rw [List.length_eq_zero_iff.mp h]
    simp
  | cons c rest ih =>
    cases outs with
    | nil => simp at h
    | cons o os =>
      obtain ⟨i1, i2⟩ := ih os (by simpa using h)
      obtain ⟨o', ho'⟩ : ∃ o', o' = if b c then (o.take q).map g ++ o.drop q else o := ⟨_, rfl⟩
      have hl : o'.length = o.length := by
        rw [ho']
        split
        · simp; omega
        · rfl
      simp only [List.zipWith_cons_cons, List.flatten_cons, ← ho', List.length_append, hl, i1, true_and]
      intro m x hx
      by_cases hm : m < o.length
      · rw [List.getElem?_append_left (by omega)] at hx
        rw [List.getElem?_append_left hm]
        rw [ho'] at hx
        split at hx
        · by_cases hq : m < q
          · rw [List.getElem?_append_left (by simp; omega), List.getElem?_map, List.getElem?_take_of_lt hq, List.getElem?_eq_getElem hm] at hx
            exact ⟨_, List.getElem?_eq_getElem hm, .inr (Option.some.inj hx).symm⟩
          · rw [List.getElem?_append_right (by simp; omega), List.getElem?_drop] at hx
            refine ⟨x, ?_, .inl rfl⟩
            rw [← hx]
            congr 1
            simp
            omega
        · exact ⟨x, hx, .inl rfl⟩
      · rw [List.getElem?_append_right (by omega), hl] at hx
        rw [List.getElem?_append_right (by omega)]
        exact i2 _ x hx

/-- **C127** Through either interface, or both in turn, the decimator by `2 ^ k` stays within its double-precision error (C86) and one conversion to
`float` of the exact one, however long the stream. -/
theorem C127_power_of_two_bound (g fl : ℝ → ℝ) (hg : RoundsF g) (hfl : Rounds fl) (q k : Nat) (hk : 0 < k) (aa tmp aaf tmpf : List ℝ)
    (haa : aa.length = q * 2 ^ k) (htmp : tmp.length = q * 2 ^ k) (haaf : aaf.length = q * 2 ^ k) (htmpf : tmpf.length = q * 2 ^ k) (M : ℝ)
    (hM1 : 1 / 2 ^ 1000 ≤ M) (hM2 : 2.1 ^ k * M ≤ 2 ^ 127) (calls : List (Bool × List ℝ × List ℝ))
    (hlen : ∀ c ∈ calls, c.2.1.length = q * 2 ^ k ∧ c.2.2.length = q) (hx : ∀ c ∈ calls, ∀ v ∈ c.2.1, |v| ≤ M) :
    ∃ s s' outs sf sf' outsf, new (q * 2 ^ k) ((2 : Int) ^ k) aa tmp = some s ∧ run s (calls.map Prod.snd) = some (s', outs) ∧
      newFl fl (q * 2 ^ k) ((2 : Int) ^ k) aaf tmpf = some sf ∧ runMix g fl sf calls = some (sf', outsf) ∧
      outs.flatten.length = calls.length * q ∧ outsf.flatten.length = calls.length * q ∧
      ∀ (m : ℕ) v x, outs.flatten[m]? = some v → outsf.flatten[m]? = some x →
        |x - v| ≤ (k * 32000 / 2 ^ 53 + 1 / 2 ^ 24) * (2.1 ^ k * M) + 1 / 2 ^ 150 := by
  have hM3 : (2.1 : ℝ) ^ k * M ≤ 2 ^ 1000 := hM2.trans (pow_le_pow_right₀ (by norm_num) (by norm_num))
  obtain ⟨s, s', outs, sf, sf', outsf, h1, h2, h3, h4, h5, h6, h7⟩ := C86_rounding fl hfl q k hk aa tmp aaf tmpf haa htmp haaf htmpf M hM1 hM3
    (calls.map Prod.snd) (by rintro c hc; obtain ⟨d, hd, rfl⟩ := List.mem_map.mp hc; exact hlen d hd)
    (by rintro c hc; obtain ⟨d, hd, rfl⟩ := List.mem_map.mp hc; exact hx d hd)
  obtain ⟨s0, n1, -, hO, hf, -⟩ := newFl_streaming fl q k hk aaf tmpf haaf htmpf (fun _ => 0)
  rw [h3] at n1
  cases n1
  have hmix := C127_power_of_two g fl q calls sf (by rw [hf]; positivity) hO
  rw [h4, Option.map_some] at hmix
  obtain ⟨m1, m2⟩ := mix_flatten g q (fun c : Bool × List ℝ × List ℝ => c.1) calls outsf (by rw [runFl_count fl _ _ _ _ h4]; simp)
  rw [List.length_map] at h5 h6
  refine ⟨s, s', outs, sf, _, _, h1, h2, h3, hmix, h5, by rw [m1, h6], ?_⟩
  intro m v x hv hxm
  obtain ⟨w, w1, w2⟩ := m2 m x hxm
  obtain ⟨b1, b2⟩ := h7 m v w hv w1
  have hg' := hg w (b2.trans hM2)
  have hd : |w| / 2 ^ 24 ≤ 2.1 ^ k * M / 2 ^ 24 := div_le_div_of_nonneg_right b2 (by positivity)
  have hxw : |x - w| ≤ 2.1 ^ k * M / 2 ^ 24 + 1 / 2 ^ 150 := by
    rcases w2 with rfl | rfl
    · rw [sub_self, abs_zero]
      have : 0 ≤ |x| / 2 ^ 24 := by positivity
      have : (0 : ℝ) ≤ 1 / 2 ^ 150 := by positivity
      linarith
    · linarith
  calc |x - v| ≤ |x - w| + |w - v| := abs_sub_le _ _ _
    _ ≤ (2.1 ^ k * M / 2 ^ 24 + 1 / 2 ^ 150) + k * 2.1 ^ k * (32000 / 2 ^ 53 * M) := add_le_add hxw b1
    _ = _ := by ring

/-- Two blocks of the fastest oscillation at full scale, one through each interface. -/
example : ∃ (aa tmp : List ℝ) (calls : List (Bool × List ℝ × List ℝ)), aa.length = 1 * 2 ^ 2 ∧ tmp.length = 1 * 2 ^ 2 ∧ calls.length = 2 ∧
    (1 / 2 ^ 1000 : ℝ) ≤ 1 ∧ (2.1 ^ 2 * 1 : ℝ) ≤ 2 ^ 127 ∧
    (∀ c ∈ calls, c.2.1.length = 1 * 2 ^ 2 ∧ c.2.2.length = 1) ∧ ∀ c ∈ calls, ∀ v ∈ c.2.1, |v| ≤ 1 := by
  refine ⟨List.replicate 4 0, List.replicate 4 0, [(true, [1, -1, 1, -1], [0]), (false, [1, -1, 1, -1], [0])], rfl, rfl, rfl, ?_, by norm_num, by simp, by simp⟩
  rw [div_le_iff₀ (by positivity), one_mul]
  exact one_le_pow₀ (by norm_num)

/-- A new decimator by 4 with blocks of four samples. -/
example : ∃ s : State ℝ, newFl rn (1 * 2 ^ 2) ((2 : Int) ^ 2) (List.replicate 4 0) (List.replicate 4 0) = some s ∧ s.decFactor ≠ 0 ∧ s.outputLength = (1 : ℕ) := by
  obtain ⟨s, h1, h2⟩ := newFl_streaming rn 1 2 (by norm_num) (List.replicate 4 0) (List.replicate 4 0) rfl rfl (fun _ => 0)
  obtain ⟨-, hO, hf, -⟩ := h2
  exact ⟨s, h1, by rw [hf]; norm_num, hO⟩

end QM.DecimatorB
