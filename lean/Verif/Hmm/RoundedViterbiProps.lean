import Verif.Hmm.RoundedViterbi
import Verif.Common.DoubleOps
import Verif.ConstantQ.RoundedLemmas
import Mathlib.Analysis.SpecialFunctions.Log.Basic
import Mathlib.Tactic.Positivity
import Mathlib.Tactic.NormNum
import Mathlib.Tactic.Ring

/-!
# C120: decoding in double precision
-/

namespace QM.Hmm

open QM.Double

/-- Addition in double precision; minus infinity plus anything is minus infinity. -/
noncomputable def radd (fl : ℝ → ℝ) : WithBot ℝ → WithBot ℝ → WithBot ℝ
  | (x : ℝ), (y : ℝ) => ((fl (x + y) : ℝ) : WithBot ℝ)
  | _, _ => ⊥

/-- `log` of the C library: minus infinity at 0. -/
noncomputable def flog (logF : ℝ → ℝ) (x : ℝ) : WithBot ℝ := if x = 0 then ⊥ else (logF x : ℝ)

/-- What is assumed of `log`: one unit in the last place. -/
def LogOk (logF : ℝ → ℝ) : Prop := ∀ x, 0 < x → |logF x - Real.log x| ≤ |Real.log x| * (2 / 2 ^ 53) + 1 / 2 ^ 1075

variable {fl logF : ℝ → ℝ}

theorem radd_mono (hfl : Nearest fl) (y : WithBot ℝ) : Monotone (fun x => radd fl x y) := by
  intro x x' h
  cases y with
  | bot => cases x <;> cases x' <;> exact le_refl _
  | coe y =>
    cases x with
    | bot => exact bot_le
    | coe x =>
      cases x' with
      | bot => simp at h
      | coe x' =>
        have h' := WithBot.coe_le_coe.mp h
        exact WithBot.coe_le_coe.mpr (hfl.mono (by linarith))

/-- One rounded addition to a value of size at most `X`. -/
theorem add_round (hfl : Rounds fl) {x X L : ℝ} (hL : 1 ≤ L) (hX : X ≤ 2 ^ 90) (hx : |x| ≤ X) : |fl x - x| ≤ (X + L) / 2 ^ 53 := by
  have h1 := hfl x (hx.trans (hX.trans (pow_le_pow_right₀ (by norm_num) (by norm_num))))
  have h2 : (1 : ℝ) / 2 ^ 1075 ≤ 1 / 2 ^ 53 := one_div_le_one_div_of_le (by positivity) (pow_le_pow_right₀ (by norm_num) (by norm_num))
  have h3 := div_le_div_of_nonneg_right hx (show (0 : ℝ) ≤ 2 ^ 53 by norm_num)
  have h4 := div_le_div_of_nonneg_right hL (show (0 : ℝ) ≤ 2 ^ 53 by norm_num)
  rw [add_div]
  linarith

theorem log_round (h : LogOk logF) {x L : ℝ} (hL : 1 ≤ L) (h0 : 0 < x) (hx : |Real.log x| ≤ L) : |logF x - Real.log x| ≤ 3 * L / 2 ^ 53 := by
  have h1 := h x h0
  have h2 : (1 : ℝ) / 2 ^ 1075 ≤ 1 / 2 ^ 53 := one_div_le_one_div_of_le (by positivity) (pow_le_pow_right₀ (by norm_num) (by norm_num))
  have h3 := mul_le_mul_of_nonneg_right hx (show (0 : ℝ) ≤ 2 / 2 ^ 53 by norm_num)
  have h4 := div_le_div_of_nonneg_right hL (show (0 : ℝ) ≤ 2 ^ 53 by norm_num)
  rw [show 3 * L / 2 ^ 53 = L * (2 / 2 ^ 53) + L / 2 ^ 53 by ring]
  linarith

/-- One step of the recursion: the size and the error grow by this much. -/
theorem step_near (hfl : Rounds fl) {v w l a b L m : ℝ} (hL : 1 ≤ L) (hL2 : L ≤ 2 ^ 40) (hm : 0 ≤ m) (hm2 : m ≤ 2 ^ 40) (hv : |v| ≤ 3 * m * L)
    (hl : |l - a| ≤ 3 * L / 2 ^ 53) (ha : |a| ≤ L) (hb : |b| ≤ L) {e : ℝ} (hw : |v - w| ≤ e) :
    |fl (fl (v + l) + b)| ≤ 3 * (m + 1) * L ∧ |fl (fl (v + l) + b) - (w + a + b)| ≤ e + 9 * (m + 1) * L / 2 ^ 53 := by
  have hmL : 0 ≤ m * L := by positivity
  have hmL2 : m * L ≤ 2 ^ 40 * L := mul_le_mul_of_nonneg_right hm2 (by linarith)
  have hbig : (3 * m * L + 3 * L) ≤ 2 ^ 90 := by
    have : (2 : ℝ) ^ 40 * L ≤ 2 ^ 40 * 2 ^ 40 := mul_le_mul_of_nonneg_left hL2 (by norm_num)
    norm_num at this hmL2 hL2 ⊢
    linarith
  have hl1 : |l| ≤ 1.01 * L := by
    have := abs_le_of_sub l a _ _ hl ha
    have h2 : 3 * L / 2 ^ 53 ≤ 0.01 * L := by
      rw [div_le_iff₀ (by norm_num)]; norm_num; linarith
    linarith
  have hs1 : |v + l| ≤ 3 * m * L + 1.01 * L := (abs_add_le v l).trans (by linarith)
  have r1 := add_round hfl hL (by linarith) hs1
  have h1 : |fl (v + l)| ≤ 3 * m * L + 1.02 * L := by
    have := abs_le_of_sub _ _ _ _ r1 hs1
    have h2 : (3 * m * L + 1.01 * L + L) / 2 ^ 53 ≤ 0.01 * L := by
      rw [div_le_iff₀ (by norm_num)]; norm_num at hmL2 ⊢; linarith
    linarith
  have hs2 : |fl (v + l) + b| ≤ 3 * m * L + 2.02 * L := (abs_add_le _ b).trans (by linarith)
  have r2 := add_round hfl hL (by linarith) hs2
  constructor
  · have := abs_le_of_sub _ _ _ _ r2 hs2
    have h2 : (3 * m * L + 2.02 * L + L) / 2 ^ 53 ≤ 0.01 * L := by
      rw [div_le_iff₀ (by norm_num)]; norm_num at hmL2 ⊢; linarith
    linarith
  · have e1 : fl (fl (v + l) + b) - (w + a + b) = (fl (fl (v + l) + b) - (fl (v + l) + b)) + (fl (v + l) - (v + l)) + (l - a) + (v - w) := by ring
    rw [e1]
    refine (abs_add_le _ _).trans ?_
    have t1 := (abs_add_le (fl (fl (v + l) + b) - (fl (v + l) + b) + (fl (v + l) - (v + l))) (l - a))
    have t2 := (abs_add_le (fl (fl (v + l) + b) - (fl (v + l) + b)) (fl (v + l) - (v + l)))
    have t3 : (3 * m * L + 2.02 * L + L) / 2 ^ 53 + (3 * m * L + 1.01 * L + L) / 2 ^ 53 + 3 * L / 2 ^ 53 ≤ 9 * (m + 1) * L / 2 ^ 53 := by
      rw [← add_div, ← add_div]
      exact div_le_div_of_nonneg_right (by nlinarith) (by norm_num)
    linarith

/-- The first column. -/
theorem first_near (hfl : Rounds fl) {l a b L : ℝ} (hL : 1 ≤ L) (hL2 : L ≤ 2 ^ 40)
    (hl : |l - a| ≤ 3 * L / 2 ^ 53) (ha : |a| ≤ L) (hb : |b| ≤ L) :
    |fl (l + b)| ≤ 3 * 1 * L ∧ |fl (l + b) - (a + b)| ≤ 9 * 1 * L / 2 ^ 53 := by
  have hl1 : |l| ≤ 1.01 * L := by
    have := abs_le_of_sub l a _ _ hl ha
    have h2 : 3 * L / 2 ^ 53 ≤ 0.01 * L := by
      rw [div_le_iff₀ (by norm_num)]; norm_num; linarith
    linarith
  have hs1 : |l + b| ≤ 2.01 * L := (abs_add_le l b).trans (by linarith)
  have r1 := add_round hfl hL (by norm_num at hL2 ⊢; linarith) hs1
  constructor
  · have := abs_le_of_sub _ _ _ _ r1 hs1
    have h2 : (2.01 * L + L) / 2 ^ 53 ≤ 0.01 * L := by
      rw [div_le_iff₀ (by norm_num)]; norm_num; linarith
    linarith
  · have e1 : fl (l + b) - (a + b) = (fl (l + b) - (l + b)) + (l - a) := by ring
    rw [e1]
    refine (abs_add_le _ _).trans ?_
    have t3 : (2.01 * L + L) / 2 ^ 53 + 3 * L / 2 ^ 53 ≤ 9 * 1 * L / 2 ^ 53 := by
      rw [← add_div]
      exact div_le_div_of_nonneg_right (by nlinarith) (by norm_num)
    linarith

section

variable {N T : Nat} {p0 : List ℝ} {a logb : List (List ℝ)} {phi : List (List (WithBot ℝ))} {psi : List (List Nat)} {q : List Nat}
  {P : Nat → ℝ} {A LB : Nat → Nat → ℝ} {L : ℝ}

/-- The step of the rounded recursion. -/
noncomputable def vstepD (fl logF : ℝ → ℝ) (A LB : Nat → Nat → ℝ) (t i j : Nat) (v : WithBot ℝ) : WithBot ℝ :=
  radd fl (radd fl v (flog logF (A i j))) ((LB (t + 1) j : ℝ) : WithBot ℝ)

theorem vstepD_mono (hfl : Nearest fl) (t i j : Nat) : Monotone (vstepD fl logF A LB t i j) :=
  (radd_mono hfl _).comp (radd_mono hfl _)

/-- The numbers of a model: probabilities that are 0 or have a logarithm of size at most `L`, and so have the observations. -/
structure LogSizes (N T : Nat) (P : Nat → ℝ) (A LB : Nat → Nat → ℝ) (L : ℝ) : Prop where
  one : 1 ≤ L
  big : L ≤ 2 ^ 40
  init : ∀ i, i < N → 0 ≤ P i ∧ (P i ≠ 0 → |Real.log (P i)| ≤ L)
  trans : ∀ i j, i < N → j < N → 0 ≤ A i j ∧ (A i j ≠ 0 → |Real.log (A i j)| ≤ L)
  obs : ∀ t j, t < T → j < N → |LB t j| ≤ L

/-- The value of a path in the rounded recursion is near the exact one; both are minus infinity together. -/
theorem val_near (hfl : Rounds fl) (hlog : LogOk logF) (hs : LogSizes N T P A LB L) (Q : Nat → Nat) (hQ : ∀ t, t < T → Q t < N) (hT2 : (T : ℝ) ≤ 2 ^ 40) :
    ∀ n, n < T → (Viterbi.val (fun i => radd fl (flog logF (P i)) ((LB 0 i : ℝ) : WithBot ℝ)) (vstepD fl logF A LB) Q n = ⊥ ∧
        Viterbi.val (fun i => blog (P i) + ((LB 0 i : ℝ) : WithBot ℝ)) (vstep A LB) Q n = ⊥) ∨
      ∃ v w : ℝ, Viterbi.val (fun i => radd fl (flog logF (P i)) ((LB 0 i : ℝ) : WithBot ℝ)) (vstepD fl logF A LB) Q n = (v : WithBot ℝ) ∧
        Viterbi.val (fun i => blog (P i) + ((LB 0 i : ℝ) : WithBot ℝ)) (vstep A LB) Q n = (w : WithBot ℝ) ∧
        |v| ≤ 3 * ((n : ℝ) + 1) * L ∧ |v - w| ≤ 9 * ((n : ℝ) + 1) ^ 2 * L / 2 ^ 53 := by
  intro n
  induction n with
  | zero =>
    intro hn
    have hq := hQ 0 hn
    show (radd fl (flog logF (P (Q 0))) _ = ⊥ ∧ blog (P (Q 0)) + _ = ⊥) ∨ ∃ v w : ℝ, radd fl (flog logF (P (Q 0))) _ = _ ∧ blog (P (Q 0)) + _ = _ ∧ _
    by_cases h0 : P (Q 0) = 0
    · left
      unfold flog blog
      rw [if_pos h0, if_pos h0]
      exact ⟨rfl, WithBot.bot_add _⟩
    · right
      unfold flog blog
      rw [if_neg h0, if_neg h0]
      obtain ⟨p1, p2⟩ := hs.init _ hq
      have hp := lt_of_le_of_ne p1 (Ne.symm h0)
      obtain ⟨b1, b2⟩ := first_near hfl hs.one hs.big (log_round hlog hs.one hp (p2 h0)) (p2 h0) (hs.obs 0 _ hn hq)
      refine ⟨_, _, rfl, rfl, ?_, ?_⟩
      · simpa using b1
      · simpa using b2
  | succ n ih =>
    intro hn
    have hq := hQ n (by omega)
    have hq1 := hQ (n + 1) hn
    show (vstepD fl logF A LB n (Q n) (Q (n + 1)) _ = ⊥ ∧ vstep A LB n (Q n) (Q (n + 1)) _ = ⊥) ∨
      ∃ v w : ℝ, vstepD fl logF A LB n (Q n) (Q (n + 1)) _ = _ ∧ vstep A LB n (Q n) (Q (n + 1)) _ = _ ∧ _
    rcases ih (by omega) with ⟨i1, i2⟩ | ⟨v, w, i1, i2, i3, i4⟩
    · left
      rw [i1, i2]
      refine ⟨?_, by simp [vstep]⟩
      unfold vstepD
      cases flog logF (A (Q n) (Q (n + 1))) <;> rfl
    · rw [i1, i2]
      by_cases h0 : A (Q n) (Q (n + 1)) = 0
      · left
        unfold vstepD vstep flog blog
        rw [if_pos h0, if_pos h0]
        exact ⟨rfl, by simp⟩
      · right
        unfold vstepD vstep flog blog
        rw [if_neg h0, if_neg h0]
        obtain ⟨p1, p2⟩ := hs.trans _ _ hq hq1
        have hp := lt_of_le_of_ne p1 (Ne.symm h0)
        have hn' : ((n : ℝ) + 1) ≤ 2 ^ 40 := le_trans (by exact_mod_cast hn.le) hT2
        obtain ⟨b1, b2⟩ := step_near hfl hs.one hs.big (by positivity) hn' i3 (log_round hlog hs.one hp (p2 h0)) (p2 h0) (hs.obs (n + 1) _ hn hq1) i4
        refine ⟨_, _, rfl, rfl, by push_cast; exact b1, b2.trans ?_⟩
        rw [← add_div]
        push_cast
        refine div_le_div_of_nonneg_right ?_ (by norm_num)
        have hL : 0 ≤ L := by linarith [hs.one]
        have hnn : (0 : ℝ) ≤ (n : ℝ) := Nat.cast_nonneg n
        have : 0 ≤ (9 * ((n : ℝ) + 1 + 1) ^ 2 - 9 * ((n : ℝ) + 1) ^ 2 - 9 * ((n : ℝ) + 1 + 1)) * L := by
          apply mul_nonneg _ hL
          nlinarith
        linarith

/-- **C120** (near-optimal). In double precision, for every model whose probabilities are 0 or have a logarithm of size at most `L`, at
least one state and up to `2 ^ 40` observations: `viterbi_decode` writes a sequence of `T` states below `N` whose joint probability with
the observations is the greatest, up to the factor `exp (18 T² L / 2⁵³)`. -/
theorem C120_near (hfl : Nearest fl) (hlog : LogOk logF) (hN : 0 < N) (hT : 0 < T) (hT2 : (T : ℝ) ≤ 2 ^ 40) (hp : Holds N P p0)
    (ha : Holds2 N N A a) (hl : Holds2 T N LB logb) (hphi : ∃ f, Holds2 T N f phi) (hpsi : ∃ f, Holds2 T N f psi) (hq : q.length = T)
    (hs : LogSizes N T P A LB L) :
    ∃ (q' : List Nat) (found : Fin T → Fin N), viterbiD (radd fl) (flog logF) N T p0 a logb phi psi q = some q' ∧ q'.length = T ∧
      (∀ t : Fin T, q'[t.1]? = some (found t).1) ∧
      ∀ other : Fin T → Fin N, pathProb P A (fun t i => Real.exp (LB t i)) other
        ≤ Real.exp (18 * (T : ℝ) ^ 2 * L / 2 ^ 53) * pathProb P A (fun t i => Real.exp (LB t i)) found := by
  obtain ⟨phi', psi', φ, ψ, h1, h2, h3, h4, h5⟩ := pass_okD (add := radd fl) (lg := flog logF) hN hT hp ha hl hphi hpsi
  obtain ⟨q', Q, h6, h7, h8, h9, h10, _⟩ := path_ok hN hT h2 h3 (fun t j ht hj => (h5 t j ht hj).1) hq
  have hP : ∀ i, i < N → 0 ≤ P i := fun i hi => (hs.init i hi).1
  have hA : ∀ i j, i < N → j < N → 0 ≤ A i j := fun i j hi hj => (hs.trans i j hi hj).1
  refine ⟨q', fun s => ⟨Q s.1, h8 s.1 s.2⟩, ?_, h7.1, fun t => h7.2 t.1 t.2, fun other => ?_⟩
  · unfold viterbiD
    rw [bind_ok h1]
    exact h6
  · have hval : ∀ (Q : Nat → Nat) (hQ : ∀ t, t < T → Q t < N), bexp (Viterbi.val (fun i => blog (P i) + ((LB 0 i : ℝ) : WithBot ℝ)) (vstep A LB) Q (T - 1))
        = pathProb P A (fun t i => Real.exp (LB t i)) (fun s : Fin T => (⟨Q s.1, hQ s.1 s.2⟩ : Fin N)) := by
      intro Q hQ
      rw [bexp_val hP hA Q (T - 1) (fun t ht => hQ t (by omega)), show T - 1 + 1 = T by omega]
      unfold pathProb
      rw [at'_of Q hQ hT]
      congr 1
      · congr 1
        refine Finset.prod_congr rfl fun t ht => ?_
        have := Finset.mem_range.mp ht
        rw [at'_of Q hQ (by omega), at'_of Q hQ (by omega)]
      · exact Finset.prod_congr rfl fun t ht => by rw [at'_of Q hQ (Finset.mem_range.mp ht)]
    have ho : other = fun s : Fin T => (⟨at' other s.1, at'_lt s.2⟩ : Fin N) := by
      funext s
      apply Fin.ext
      simp [at', s.2]
    rw [← hval Q h8, ho, ← hval (at' other) (fun t ht => at'_lt ht)]
    have hopt := Viterbi.optimal (N := N) (phi := φ) (M := vstepD fl logF A LB) (u := fun i => radd fl (flog logF (P i)) ((LB 0 i : ℝ) : WithBot ℝ))
      (n := T - 1) (q := Q) (fun t i j _ => vstepD_mono hfl t i j) h4 (fun t i j ht hi hj => by
        obtain ⟨_, g2, g3, _⟩ := h5 t j (by omega) hj
        rw [g2]
        exact radd_mono hfl _ (g3 i hi)) (fun t ht => by
        obtain ⟨_, g2, _, _⟩ := h5 t (Q (t + 1)) (by omega) (h8 _ (by omega))
        rw [g2, ← h9 t (by omega)]
        rfl)
      (fun t ht => h8 t (by omega)) h10 (at' other) (fun t ht => at'_lt (by omega))
    have hT1 : ((T - 1 : ℕ) : ℝ) + 1 = (T : ℝ) := by
      have : T - 1 + 1 = T := by omega
      exact_mod_cast this
    rcases val_near hfl.rounds hlog hs (at' other) (fun t ht => at'_lt ht) hT2 (T - 1) (by omega) with ⟨_, o2⟩ | ⟨v, w, o1, o2, _, o4⟩
    · rw [o2]
      refine mul_nonneg (Real.exp_pos _).le ?_
      generalize Viterbi.val _ _ _ _ = z
      cases z with
      | bot => exact le_refl _
      | coe z => exact (Real.exp_pos z).le
    · rcases val_near hfl.rounds hlog hs Q h8 hT2 (T - 1) (by omega) with ⟨f1, _⟩ | ⟨v', w', f1, f2, _, f4⟩
      · rw [o1, f1] at hopt
        simp at hopt
      · rw [o1, f1] at hopt
        have hvv := WithBot.coe_le_coe.mp hopt
        rw [o2, f2]
        show Real.exp w ≤ _ * Real.exp w'
        rw [← Real.exp_add]
        apply Real.exp_le_exp.mpr
        rw [hT1] at o4 f4
        rw [show 18 * (T : ℝ) ^ 2 * L / 2 ^ 53 = 9 * (T : ℝ) ^ 2 * L / 2 ^ 53 + 9 * (T : ℝ) ^ 2 * L / 2 ^ 53 by ring]
        have := (abs_le.mp o4).1
        have := (abs_le.mp f4).2
        linarith

/-- **C120** (clear winners). A sequence whose joint probability exceeds that of every other sequence by more than that factor is the one
`viterbi_decode` writes, in double precision. -/
theorem C120_clear (hfl : Nearest fl) (hlog : LogOk logF) (hN : 0 < N) (hT : 0 < T) (hT2 : (T : ℝ) ≤ 2 ^ 40) (hp : Holds N P p0)
    (ha : Holds2 N N A a) (hl : Holds2 T N LB logb) (hphi : ∃ f, Holds2 T N f phi) (hpsi : ∃ f, Holds2 T N f psi) (hq : q.length = T)
    (hs : LogSizes N T P A LB L) (best : Fin T → Fin N)
    (hbest : ∀ other : Fin T → Fin N, other ≠ best → Real.exp (18 * (T : ℝ) ^ 2 * L / 2 ^ 53) * pathProb P A (fun t i => Real.exp (LB t i)) other
      < pathProb P A (fun t i => Real.exp (LB t i)) best) :
    viterbiD (radd fl) (flog logF) N T p0 a logb phi psi q = some (List.ofFn fun t => (best t).1) := by
  obtain ⟨q', found, h1, h2, h3, h4⟩ := C120_near hfl hlog hN hT hT2 hp ha hl hphi hpsi hq hs
  have h5 : found = best := by
    by_contra hc
    exact absurd (h4 best) (not_le.mpr (hbest found hc))
  subst h5
  rw [h1]
  congr 1
  apply List.ext_getElem?
  intro t
  by_cases ht : t < T
  · rw [h3 ⟨t, ht⟩, List.getElem?_ofFn, dif_pos ht]
  · rw [List.getElem?_eq_none (by omega), List.getElem?_eq_none (by simpa using ht)]

end

/-- With exact addition the model is that of C34. -/
theorem viterbiD_add {K : Type} [Field K] [LinearOrder K] (lg : K → WithBot K) (N T : Nat) (p0 : List K) (a logb : List (List K))
    (phi : List (List (WithBot K))) (psi : List (List Nat)) (q : List Nat) :
    viterbiD (· + ·) lg N T p0 a logb phi psi q = viterbi lg N T p0 a logb phi psi q := rfl

/-- The correctly rounded logarithm is as assumed, wherever it is in the range of a double. -/
example : LogOk fun x => if |Real.log x| ≤ 2 ^ 1023 then rn (Real.log x) else Real.log x := by
  intro x _
  dsimp only
  split
  · rename_i h
    refine (rounds_rn _ h).trans ?_
    have := abs_nonneg (Real.log x)
    have h2 : |Real.log x| / 2 ^ 53 ≤ |Real.log x| * (2 / 2 ^ 53) := by
      rw [div_eq_mul_one_div]
      exact mul_le_mul_of_nonneg_left (by norm_num) this
    linarith
  · rw [sub_self, abs_zero]
    positivity

/-- Two states that never change into each other, two observations that are more likely in state 1. -/
example : LogSizes 2 2 (fun _ => 1 / 2) (fun i j => if i = j then 1 else 0) (fun _ j => if j = 1 then 0 else -1) 1 := by
  have h2 : |Real.log (1 / 2)| ≤ 1 := by
    rw [one_div, Real.log_inv, abs_neg, abs_of_nonneg (Real.log_nonneg (by norm_num))]
    have := Real.log_le_sub_one_of_pos (show (0 : ℝ) < 2 by norm_num)
    linarith
  refine ⟨le_refl _, by norm_num, fun i _ => ⟨by norm_num, fun _ => h2⟩, fun i j _ _ => ?_, fun t j _ _ => ?_⟩
  · by_cases h : i = j <;> simp [h]
  · by_cases h : j = 1 <;> simp [h]

end QM.Hmm
