import Verif.Decimator.Rounded
import Verif.Decimator.ResponseProps
import Verif.Common.DoubleOps
import Verif.Common.Perturb

/-!
# C82: the decimator in double precision
-/

namespace QM.Decimator

open QM.IntPoly QM.Stable QM.Filter QM.Double Finset

/-! ## Without rounding it is the model of C14 and C78 -/

theorem step_id (s : State ℝ) (x : ℝ) : antiAliasStepFl id s x = antiAliasStep s x := rfl

theorem doAntiAlias_id (xs : List ℝ) (s : State ℝ) : doAntiAliasFl id s xs = doAntiAlias s xs := by
  induction xs generalizing s with
  | nil => rfl
  | cons x xs ih =>
    rw [doAntiAliasFl, doAntiAlias, step_id]
    simp only [ih]

theorem process_id (s : State ℝ) (h : s.decFactor ≠ 1) (src dst : List ℝ) : processFl id s src dst = process s src dst := by
  unfold processFl process
  rw [if_neg h]
  simp only [doAntiAlias_id]

/-! ## The stream -/

/-- The memory of the filter. -/
def mem (s : State ℝ) : ℕ → ℝ
  | 0 => s.o1
  | 1 => s.o2
  | 2 => s.o3
  | 3 => s.o4
  | 4 => s.o5
  | 5 => s.o6
  | 6 => s.o7
  | _ => 0

/-- The state before sample `n`. -/
noncomputable def before (fl : ℝ → ℝ) (s : State ℝ) (x : ℕ → ℝ) : ℕ → State ℝ
  | 0 => s
  | n + 1 => (antiAliasStepFl fl (before fl s x n) (x n)).1

theorem before_shift (fl : ℝ → ℝ) (s : State ℝ) (x : ℕ → ℝ) (n : ℕ) :
    before fl s x (n + 1) = before fl (antiAliasStepFl fl s (x 0)).1 (fun n => x (n + 1)) n := by
  induction n with
  | zero => rfl
  | succ n ih =>
    rw [before, ih]
    rfl

theorem before_fields (fl : ℝ → ℝ) (s : State ℝ) (x : ℕ → ℝ) (n : ℕ) :
    (before fl s x n).b = s.b ∧ (before fl s x n).a = s.a := by
  induction n with
  | zero => exact ⟨rfl, rfl⟩
  | succ n ih => exact ih

theorem doAntiAlias_get (fl : ℝ → ℝ) (xs : List ℝ) (s : State ℝ) (x : ℕ → ℝ) (hx : ∀ n, n < xs.length → x n = xs.getD n 0) :
    (doAntiAliasFl fl s xs).2.length = xs.length ∧
      ∀ n, n < xs.length → (doAntiAliasFl fl s xs).2[n]? = some (antiAliasStepFl fl (before fl s x n) (x n)).2 := by
  induction xs generalizing s x with
  | nil => exact ⟨rfl, fun n hn => by simp at hn⟩
  | cons v xs ih =>
    have hv : x 0 = v := hx 0 (by simp)
    obtain ⟨h1, h2⟩ := ih (antiAliasStepFl fl s v).1 (fun n => x (n + 1)) (fun n hn => by
      have := hx (n + 1) (by simpa using hn)
      simpa using this)
    refine ⟨by simp only [doAntiAliasFl, List.length_cons, h1], ?_⟩
    intro n hn
    cases n with
    | zero => simp [doAntiAliasFl, before, hv]
    | succ n =>
      have := h2 n (by simpa using hn)
      simp only [doAntiAliasFl, List.getElem?_cons_succ, this, before_shift, hv]

theorem doAntiAlias_append (fl : ℝ → ℝ) (xs ys : List ℝ) (s : State ℝ) :
    doAntiAliasFl fl s (xs ++ ys) = ((doAntiAliasFl fl (doAntiAliasFl fl s xs).1 ys).1,
      (doAntiAliasFl fl s xs).2 ++ (doAntiAliasFl fl (doAntiAliasFl fl s xs).1 ys).2) := by
  induction xs generalizing s with
  | nil => rfl
  | cons x xs ih => simp only [List.cons_append, doAntiAliasFl, ih]

theorem doAntiAlias_fields (fl : ℝ → ℝ) (xs : List ℝ) (s : State ℝ) : (doAntiAliasFl fl s xs).1.inputLength = s.inputLength ∧
    (doAntiAliasFl fl s xs).1.outputLength = s.outputLength ∧ (doAntiAliasFl fl s xs).1.decFactor = s.decFactor := by
  induction xs generalizing s with
  | nil => exact ⟨rfl, rfl, rfl⟩
  | cons x xs ih => exact ih (antiAliasStepFl fl s x).1

theorem processFl_ok (fl : ℝ → ℝ) (q f : ℕ) (hf : 0 < f) (s : State ℝ) (h1 : s.inputLength = f * q) (h2 : s.outputLength = q) (h3 : s.decFactor = f)
    (src dst : List ℝ) (hs : src.length = f * q) (hd : dst.length = q) :
    ∃ out, processFl fl s src dst = some ((doAntiAliasFl fl s src).1, out) ∧ out.length = q ∧ ∀ i, i < q → out[i]? = (doAntiAliasFl fl s src).2[f * i]? := by
  unfold processFl
  rw [if_neg (by omega), h1, ← hs, List.take_length]
  have hlen := (doAntiAlias_get fl src s (fun n => src.getD n 0) (fun _ _ => rfl)).1
  obtain ⟨d, e1, e2, e3⟩ := gather s.outputLength (fun i => (doAntiAliasFl fl s src).2[s.decFactor * i]?) dst (by omega) (by
    intro i hi
    rw [h2] at hi
    rw [h3]
    have : f * i < f * q := Nat.mul_lt_mul_of_pos_left hi hf
    simp; omega)
  refine ⟨d, ?_, by omega, fun i hi => ?_⟩
  · simp only [Option.bind_eq_bind] at e1 ⊢
    simp only [e1, Option.bind_some]
  · rw [e3, if_pos (by omega), h3]

theorem runFl_ok (fl : ℝ → ℝ) (q f : ℕ) (hf : 0 < f) (calls : List (List ℝ × List ℝ)) (s : State ℝ) (h1 : s.inputLength = f * q) (h2 : s.outputLength = q)
    (h3 : s.decFactor = f) (hlen : ∀ c ∈ calls, c.1.length = f * q ∧ c.2.length = q) :
    ∃ s' outs, runFl fl s calls = some (s', outs) ∧ outs.flatten.length = calls.length * q ∧
      ∀ m, m < calls.length * q → outs.flatten[m]? = (doAntiAliasFl fl s (calls.map Prod.fst).flatten).2[f * m]? := by
  induction calls generalizing s with
  | nil => exact ⟨s, [], rfl, by simp, by intro m hm; simp at hm⟩
  | cons c rest ih =>
    obtain ⟨src, dst⟩ := c
    obtain ⟨hc1, hc2⟩ := hlen (src, dst) (by simp)
    obtain ⟨out, e1, e2, e3⟩ := processFl_ok fl q f hf s h1 h2 h3 src dst hc1 hc2
    obtain ⟨f1, f2, f3⟩ := doAntiAlias_fields fl src s
    obtain ⟨s', outs, g1, g2, g3⟩ := ih (doAntiAliasFl fl s src).1 (by omega) (by omega) (by omega) (fun c hc => hlen c (by simp [hc]))
    have hl := (doAntiAlias_get fl src s (fun n => src.getD n 0) (fun _ _ => rfl)).1
    refine ⟨s', out :: outs, ?_, ?_, ?_⟩
    · rw [runFl, e1]
      simp only [Option.bind_eq_bind, Option.bind_some, g1]
    · rw [List.flatten_cons, List.length_append, e2, g2, List.length_cons]
      ring
    · intro m hm
      rw [List.length_cons, add_mul, one_mul] at hm
      rw [List.map_cons, List.flatten_cons, List.flatten_cons, doAntiAlias_append, List.getElem?_append, List.getElem?_append, e2, hl, hc1]
      by_cases hmq : m < q
      · rw [if_pos hmq, if_pos (Nat.mul_lt_mul_of_pos_left hmq hf), e3 m hmq]
      · rw [if_neg hmq, if_neg (by have := Nat.mul_le_mul_left f (Nat.le_of_not_lt hmq); omega), g3 (m - q) (by omega), Nat.mul_sub]

/-! ## The error -/

theorem cert_rec (f : Nat) (hf : f = 2 ∨ f = 4 ∨ f = 8) : cert (intA f) [10000000000000000000] (certQ f) 50 62000 1250 = true := by
  rcases hf with rfl | rfl | rfl <;> decide +kernel

/-- The coefficients of a factor as real numbers. -/
noncomputable def coefB (f k : ℕ) : ℝ := (((coeffs f).1.getD k 0 : ℚ) : ℝ)
/-- The coefficients of a factor as real numbers. -/
noncomputable def coefA (f k : ℕ) : ℝ := (((coeffs f).2.getD k 0 : ℚ) : ℝ)

theorem coeffs_le (f : Nat) (hf : f = 2 ∨ f = 4 ∨ f = 8) : (∀ q ∈ (coeffs f).1, |q| ≤ 20) ∧ ∀ q ∈ (coeffs f).2, |q| ≤ 20 := by
  rcases hf with rfl | rfl | rfl <;> norm_num [coeffs, abs_le]

theorem coef_le (p : List ℚ) (h : ∀ q ∈ p, |q| ≤ 20) (k : ℕ) : |((p.getD k 0 : ℚ) : ℝ)| ≤ 20 := by
  have : |p.getD k 0| ≤ 20 := by
    rw [List.getD_eq_getElem?_getD]
    cases hk : p[k]? with
    | none => simp
    | some q => simpa using h q (List.mem_of_getElem? hk)
  exact_mod_cast this

theorem coef_int (p : List ℤ) (k : ℕ) : ((p.getD k 0 : ℤ) : ℝ) = ((10000000000000000000 : ℤ) : ℝ) * ((((p.map (fun k : ℤ => (k : ℚ) / 10 ^ 19)).getD k 0 : ℚ)) : ℝ) := by
  rw [getD_map_div]
  push_cast
  ring

theorem coef_eq (f : Nat) (hf : f = 2 ∨ f = 4 ∨ f = 8) (k : ℕ) :
    (((intB f).getD k 0 : ℤ) : ℝ) = ((10000000000000000000 : ℤ) : ℝ) * coefB f k ∧ (((intA f).getD k 0 : ℤ) : ℝ) = ((10000000000000000000 : ℤ) : ℝ) * coefA f k := by
  obtain ⟨h1, h2⟩ := coeffs_int f hf
  unfold coefB coefA
  rw [h1, h2]
  exact ⟨coef_int _ _, coef_int _ _⟩

theorem getD_map (fl : ℝ → ℝ) (p : List ℚ) (hp : p.length = 8) (k : ℕ) (hk : k < 8) : (p.map (fun q : ℚ => fl (q : ℝ))).getD k 0 = fl ((p.getD k 0 : ℚ) : ℝ) := by
  rw [List.getD_eq_getElem?_getD, List.getD_eq_getElem?_getD, List.getElem?_map, List.getElem?_eq_getElem (by omega)]
  simp

/-- The statements of one iteration. -/
theorem mem_step (fl : ℝ → ℝ) (s : State ℝ) (x : ℝ) : (antiAliasStepFl fl s x).2 = fl (fl (x * s.b.getD 0 0) + mem s 0) ∧
    (∀ k, k < 6 → mem (antiAliasStepFl fl s x).1 k =
      fl (fl (fl (x * s.b.getD (k + 1) 0) - fl ((antiAliasStepFl fl s x).2 * s.a.getD (k + 1) 0)) + mem s (k + 1))) ∧
    mem (antiAliasStepFl fl s x).1 6 = fl (fl (x * s.b.getD 7 0) - fl ((antiAliasStepFl fl s x).2 * s.a.getD 7 0)) := by
  refine ⟨rfl, fun k hk => ?_, rfl⟩
  match k, hk with
  | 0, _ | 1, _ | 2, _ | 3, _ | 4, _ | 5, _ => rfl

theorem mem_high (s : State ℝ) (k : ℕ) (hk : 7 ≤ k) : mem s k = 0 := by
  match k, hk with
  | k + 7, _ => rfl

theorem newFl_fields (fl : ℝ → ℝ) (L f : ℕ) (s : State ℝ) (h : newFl fl L f = some s) : s.inputLength = L ∧ s.outputLength = L / f ∧ s.decFactor = f ∧
    s.b = (coeffs f).1.map (fun q : ℚ => fl (q : ℝ)) ∧ s.a = (coeffs f).2.map (fun q : ℚ => fl (q : ℝ)) ∧ ∀ k, mem s k = 0 := by
  unfold newFl at h
  split_ifs at h
  cases h
  refine ⟨rfl, rfl, rfl, rfl, rfl, fun k => ?_⟩
  match k with
  | 0 | 1 | 2 | 3 | 4 | 5 | 6 => rfl
  | k + 7 => rfl

theorem new_id (L f : ℕ) : newFl id L f = new L f := rfl

/-- The exact stream meets the difference equation. -/
theorem exact_eq (L f : Nat) (hf : f = 2 ∨ f = 4 ∨ f = 8) (s : State ℝ) (h : new L f = some s) (x : ℕ → ℝ) (n : ℕ) :
    cv (intA f) (fun n => (antiAliasStepFl id (before id s x n) (x n)).2) n = cv (intB f) x n := by
  rw [← new_id] at h
  obtain ⟨-, -, -, hb, ha, hm⟩ := newFl_fields id L f s h
  obtain ⟨l1, l2⟩ := coeffs_length f
  have hB : ∀ n k, k < 8 → (before id s x n).b.getD k 0 = coefB f k := by
    intro n k hk
    rw [(before_fields id s x n).1, hb, getD_map _ _ l1 k hk]
    rfl
  have hA : ∀ n k, k < 8 → (before id s x n).a.getD k 0 = coefA f k := by
    intro n k hk
    rw [(before_fields id s x n).2, ha, getD_map _ _ l2 k hk]
    rfl
  obtain ⟨i1, i2⟩ := int_length f hf
  obtain ⟨b, bs, e1⟩ : ∃ b bs, intB f = b :: bs := List.exists_cons_of_length_pos (by omega)
  obtain ⟨as, e2⟩ : ∃ as, intA f = 10000000000000000000 :: as := by
    rcases hf with rfl | rfl | rfl <;> exact ⟨_, rfl⟩
  rw [e1, List.length_cons] at i2
  rw [e2, List.length_cons] at i1
  have hcoef := coef_eq f hf
  rw [e1, e2] at hcoef
  have hz : ∀ k, (7 ≤ k → coefB f (k + 1) = 0 ∧ coefA f (k + 1) = 0) := by
    intro k hk
    unfold coefB coefA
    rw [List.getD_eq_getElem?_getD, List.getD_eq_getElem?_getD, List.getElem?_eq_none (by omega), List.getElem?_eq_none (by omega)]
    simp
  have hd := disturbed 10000000000000000000 (coefA f) (coefB f) x (fun n => (antiAliasStepFl id (before id s x n) (x n)).2)
    (fun k n => mem (before id s x n) k) (fun _ _ => 0) (fun k => hm k) (by
      intro n
      beta_reduce
      rw [(mem_step id _ _).1, hB n 0 (by omega)]
      simp only [id]
      ring) (by
      intro k n
      beta_reduce
      rw [before]
      by_cases h6 : k < 6
      · rw [(mem_step id _ _).2.1 k h6, hB n _ (by omega), hA n _ (by omega)]
        simp only [id]
        ring
      · by_cases h7 : k = 6
        · subst h7
          rw [(mem_step id _ _).2.2, hB n _ (by omega), hA n _ (by omega), mem_high _ _ (by omega)]
          simp only [id]
          ring
        · rw [mem_high _ _ (by omega), mem_high _ _ (by omega), (hz k (by omega)).1, (hz k (by omega)).2]
          ring) b bs as (by omega) (by rintro rfl; simp at i2) (by simpa using (hcoef 0).1) (by
      intro i _
      rw [Nat.add_comm 1]
      simpa using (hcoef (i + 1)).1) (by
      intro i _
      rw [Nat.add_comm 1]
      simpa using (hcoef (i + 1)).2) (by
      intro n
      exact mem_high _ _ (by omega)) n
  have he : ∀ l k n, errs (fun _ _ => 0) k l n = 0 := by
    intro l
    induction l with
    | zero => intro k n; rfl
    | succ l ih =>
      intro k n
      simp only [errs, zero_add]
      cases n with
      | zero => rfl
      | succ n => exact ih _ _
  rw [he, mul_zero, add_zero] at hd
  rw [e1, e2]
  exact hd

/-- The rounded stream stays close to the exact one. -/
theorem stream_close (fl : ℝ → ℝ) (hfl : Rounds fl) (L f : Nat) (hf : f = 2 ∨ f = 4 ∨ f = 8) (s sf : State ℝ) (h : new L f = some s) (hs : newFl fl L f = some sf)
    (M : ℝ) (hM1 : 1 / 2 ^ 1000 ≤ M) (hM2 : M ≤ 2 ^ 1000) (x : ℕ → ℝ) (hx : ∀ n, |x n| ≤ M) (n : ℕ) :
    |(antiAliasStepFl fl (before fl sf x n) (x n)).2 - (antiAliasStepFl id (before id s x n) (x n)).2| ≤ M / 10 ^ 7 ∧
      |(antiAliasStepFl fl (before fl sf x n) (x n)).2| ≤ 3.1 * M ∧ ∀ k, |mem (before fl sf x n) k| ≤ 600 * M := by
  have hM := scale_of M hM1 hM2
  have hM0 := hM.pos
  obtain ⟨-, -, -, hb, ha, hm⟩ := newFl_fields fl L f sf hs
  obtain ⟨l1, l2⟩ := coeffs_length f
  have hB : ∀ n k, k < 8 → (before fl sf x n).b.getD k 0 = fl (coefB f k) := by
    intro n k hk
    rw [(before_fields fl sf x n).1, hb, getD_map _ _ l1 k hk]
    rfl
  have hA : ∀ n k, k < 8 → (before fl sf x n).a.getD k 0 = fl (coefA f k) := by
    intro n k hk
    rw [(before_fields fl sf x n).2, ha, getD_map _ _ l2 k hk]
    rfl
  have hBl : ∀ k, |coefB f k| ≤ 20 := fun k => coef_le _ (coeffs_le f hf).1 k
  have hAl : ∀ k, |coefA f k| ≤ 20 := fun k => coef_le _ (coeffs_le f hf).2 k
  obtain ⟨i1, i2⟩ := int_length f hf
  obtain ⟨b, bs, e1⟩ : ∃ b bs, intB f = b :: bs := List.exists_cons_of_length_pos (by omega)
  obtain ⟨as, e2⟩ : ∃ as, intA f = 10000000000000000000 :: as := by
    rcases hf with rfl | rfl | rfl <;> exact ⟨_, rfl⟩
  have hex := exact_eq L f hf s h x
  have hc1 := cert_ok f hf
  have hc2 := cert_rec f hf
  rw [e1, List.length_cons] at i2
  rw [e2, List.length_cons] at i1
  have hcoef := coef_eq f hf
  rw [e1, e2] at hcoef hex hc1
  rw [e2] at hc2
  have hw := unit_pos hM
  have hwM := unit_le hM
  have hnum : (62000 : ℝ) * (8 * (1000 * (M / 2 ^ 53))) ≤ M / 10 ^ 7 := by
    rw [← mul_div_assoc, ← mul_div_assoc, ← mul_div_assoc, div_le_div_iff₀ (by norm_num) (by norm_num)]
    norm_num
    linarith
  have key := stays_close 10000000000000000000 b bs as (certQ f) 7 (by omega) (by omega) le_rfl (by norm_num) 50 62000 1250 (by norm_num) hc1 hc2 (by norm_num)
    (coefA f) (coefB f) hAl hBl (by simpa using (hcoef 0).1) (by
      intro i _
      rw [Nat.add_comm 1]
      simpa using (hcoef (i + 1)).1) (by
      intro i _
      rw [Nat.add_comm 1]
      simpa using (hcoef (i + 1)).2) M (1000 * (M / 2 ^ 53)) hM0.le (by linarith) hwM (by push_cast; refine hnum.trans ?_; norm_num; linarith) x
    (fun n => (antiAliasStepFl fl (before fl sf x n) (x n)).2) (fun n => (antiAliasStepFl id (before id s x n) (x n)).2)
    (fun k n => mem (before fl sf x n) k) hx hex (fun k => hm k) (fun k n hk => mem_high _ _ hk) (by
      intro n ho
      beta_reduce at ho ⊢
      rw [(mem_step fl _ _).1, hB n 0 (by omega)]
      exact stmtFirst hfl hM _ _ _ (hBl 0) (hx n) ho) (by
      intro k n hk hy ho
      beta_reduce at hy ho ⊢
      rw [before]
      by_cases h6 : k < 6
      · rw [(mem_step fl _ _).2.1 k h6, hB n _ (by omega), hA n _ (by omega)]
        exact stmtNext hfl hM _ _ _ _ _ (hBl _) (hAl _) (hx n) hy ho
      · obtain rfl : k = 6 := by omega
        rw [(mem_step fl _ _).2.2, hB n _ (by omega), hA n _ (by omega), mem_high _ _ (by omega), add_zero]
        exact (stmtLast hfl hM _ _ _ _ (hBl _) (hAl _) (hx n) hy).1.trans (by linarith)) n
  obtain ⟨k1, k2, k3⟩ := key
  exact ⟨k1.trans (by push_cast; exact hnum), k2, k3⟩

theorem run_id (calls : List (List ℝ × List ℝ)) (s : State ℝ) (h : s.decFactor ≠ 1) : runFl id s calls = run s calls := by
  induction calls generalizing s with
  | nil => rfl
  | cons c rest ih =>
    obtain ⟨src, dst⟩ := c
    rw [runFl, run, process_id s h]
    cases hp : process s src dst with
    | none => rfl
    | some r =>
      obtain ⟨s1, o⟩ := r
      have := (process_fields s s1 src dst o hp).2.2.1
      simp only [Option.bind_eq_bind, Option.bind_some]
      rw [ih s1 (by omega)]

/-- **C82** In double precision the decimator stays within `10 ^ -7` of the peak of its input from the exact one, however long the stream and however it is cut
into blocks, for every factor, and for every input in the middle of the range of a double nothing overflows. -/
theorem C82_rounding (fl : ℝ → ℝ) (hfl : Rounds fl) (q f : Nat) (hf : f = 2 ∨ f = 4 ∨ f = 8) (hq : 0 < q) (s sf : State ℝ)
    (h : new (f * q) f = some s) (hs : newFl fl (f * q) f = some sf) (M : ℝ) (hM1 : 1 / 2 ^ 1000 ≤ M) (hM2 : M ≤ 2 ^ 1000)
    (calls : List (List ℝ × List ℝ)) (hlen : ∀ c ∈ calls, c.1.length = f * q ∧ c.2.length = q) (hx : ∀ c ∈ calls, ∀ v ∈ c.1, |v| ≤ M) :
    ∃ s' outs sf' outsf, run s calls = some (s', outs) ∧ runFl fl sf calls = some (sf', outsf) ∧
      outs.flatten.length = calls.length * q ∧ outsf.flatten.length = calls.length * q ∧
      ∀ (m : ℕ) v w, outs.flatten[m]? = some v → outsf.flatten[m]? = some w → |w - v| ≤ M / 10 ^ 7 ∧ |w| ≤ 3.1 * M := by
  have hf0 : 0 < f := by rcases hf with rfl | rfl | rfl <;> norm_num
  have hf1 : f ≠ 1 := by rcases hf with rfl | rfl | rfl <;> norm_num
  have hdiv : f * q / f = q := Nat.mul_div_cancel_left q hf0
  obtain ⟨a1, a2, a3, -⟩ := newFl_fields id _ f s h
  obtain ⟨b1, b2, b3, -⟩ := newFl_fields fl _ f sf hs
  obtain ⟨s', outs, e1, e2, e3⟩ := runFl_ok id q f hf0 calls s a1 (by rw [a2, hdiv]) a3 hlen
  obtain ⟨sf', outsf, f1, f2, f3⟩ := runFl_ok fl q f hf0 calls sf b1 (by rw [b2, hdiv]) b3 hlen
  rw [run_id _ _ (by omega)] at e1
  refine ⟨s', outs, sf', outsf, e1, f1, e2, f2, ?_⟩
  intro m v w hv hw
  have hm : m < calls.length * q := by
    rw [← e2]
    exact (List.getElem?_eq_some_iff.mp hv).1
  rw [e3 m hm] at hv
  rw [f3 m hm] at hw
  set X := (calls.map Prod.fst).flatten with hX
  have hXM : ∀ n, |X.getD n 0| ≤ M := by
    intro n
    rw [List.getD_eq_getElem?_getD]
    cases hg : X[n]? with
    | none =>
      rw [Option.getD_none, abs_zero]
      exact (scale_of M hM1 hM2).pos.le
    | some w =>
      have hw := List.mem_of_getElem? hg
      rw [hX, List.mem_flatten] at hw
      obtain ⟨l, hl, hwl⟩ := hw
      obtain ⟨c, hc, rfl⟩ := List.mem_map.mp hl
      exact hx c hc w hwl
  obtain ⟨i1, i2⟩ := doAntiAlias_get id X s (fun n => X.getD n 0) (fun _ _ => rfl)
  obtain ⟨j1, j2⟩ := doAntiAlias_get fl X sf (fun n => X.getD n 0) (fun _ _ => rfl)
  have hlt : f * m < X.length := by
    rw [← i1]
    exact (List.getElem?_eq_some_iff.mp hv).1
  rw [i2 _ hlt, Option.some_inj] at hv
  rw [j2 _ hlt, Option.some_inj] at hw
  obtain ⟨k1, k2, -⟩ := stream_close fl hfl (f * q) f hf s sf h hs M hM1 hM2 (fun n => X.getD n 0) hXM (f * m)
  rw [← hv, ← hw]
  exact ⟨k1, k2⟩

/-- Rounding to nearest, and two blocks of the fastest oscillation at full scale. -/
example : Rounds rn ∧ ∃ s sf : State ℝ, new (2 * 2) 2 = some s ∧ newFl rn (2 * 2) 2 = some sf ∧ (1 / 2 ^ 1000 : ℝ) ≤ 1 ∧ (1 : ℝ) ≤ 2 ^ 1000 ∧
    (∀ c ∈ [(([1, -1, 1, -1], [0, 0]) : List ℝ × List ℝ), ([1, -1, 1, -1], [0, 0])], c.1.length = 2 * 2 ∧ c.2.length = 2) ∧
    ∀ c ∈ [(([1, -1, 1, -1], [0, 0]) : List ℝ × List ℝ), ([1, -1, 1, -1], [0, 0])], ∀ v ∈ c.1, |v| ≤ 1 := by
  have h1 : (1 : ℝ) ≤ 2 ^ 1000 := one_le_pow₀ (by norm_num)
  refine ⟨rounds_rn, _, _, rfl, rfl, ?_, h1, by simp, by simp⟩
  rw [div_le_iff₀ (by positivity), one_mul]
  exact h1

end QM.Decimator
