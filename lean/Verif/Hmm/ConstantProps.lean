import Verif.Hmm.UnderflowProps
import Verif.Hmm.InvertProps

/-!
# Theorems about observations with a constant feature (property C104)
-/

namespace QM.Hmm.Under

open Ext

variable {N T L : Nat} {P : Nat → ℝ} {A : Nat → Nat → ℝ}

/-- What `invert` does with a singular matrix (`C80_singular_violation`): the determinant is 0, and the numbers in place of the inverse are finite. -/
def Singular (inv : (Nat → Nat → Ext) → (Nat → Nat → Ext) × Ext) (L : Nat) : Prop :=
  ∀ (cov : Nat → Nat → Ext) (C : Nat → Nat → ℝ), (∀ d e, d < L → e < L → cov d e = fin (C d e)) → (mat L C).det = 0 →
    ∃ D : Nat → Nat → ℝ, (∀ d e, d < L → e < L → (inv cov).1 d e = fin (D d e)) ∧ (inv cov).2 = fin 0

theorem loggauss_singular {x m : Nat → ℝ} {mu : Nat → Ext} {D : Nat → Nat → ℝ} {icov : Nat → Nat → Ext} {det : Ext} (hm : ∀ d, d < L → mu d = fin (m d))
    (hi : ∀ d e, d < L → e < L → icov d e = fin (D d e)) (hd : det = fin 0) : loggauss L x mu icov det = pinf := by
  unfold loggauss
  rw [total_fin (g := fun i => (∑ k ∈ Finset.range L, D i k * (x k - m k)) * (x i - m i)) (fun i hii => by
    rw [total_fin (g := fun k => D i k * (x k - m k)) (fun k hk => by rw [hi i k hii hk, hm k hk, fin_sub, fin_mul]), hm i hii, fin_sub, fin_mul]), hd]
  have hl : log (fin 0) = ninf := by
    show (if (0 : ℝ) < 0 then _ else if (0 : ℝ) = 0 then ninf else nan) = ninf
    rw [if_neg (lt_irrefl _), if_pos rfl]
  rw [hl, fin_add]
  show infOf (-(-1 / 2)) = pinf
  unfold infOf
  rw [if_pos (by norm_num)]

theorem infOf_pos {x : ℝ} (h : 0 < x) : infOf x = pinf := if_pos h

theorem best_pinf {f : Nat → Ext} : ∀ n, 0 < n → (∀ i, i < n → f i = pinf) → best f n = (pinf, true, 0)
  | 1, _, h => by
    show (if lt (fin (-1000000)) (f 0) ∨ false = false then (f 0, true, 0) else _) = _
    rw [if_pos (Or.inr rfl), h 0 (by omega)]
  | n + 2, _, h => by
    have ih := best_pinf (n + 1) (by omega) (fun i hi => h i (by omega))
    show (if lt (best f (n + 1)).1 (f (n + 1)) ∨ (best f (n + 1)).2.1 = false then (f (n + 1), true, n + 1) else best f (n + 1)) = _
    rw [ih, h (n + 1) (by omega), if_neg]
    rintro (h1 | h1)
    · exact h1
    · cases h1

theorem lastState_pinf {f : Nat → Ext} : ∀ n, (∀ i, i ≤ n → f i = pinf) → lastState f n = (pinf, 0)
  | 0, h => by show (f 0, 0) = _; rw [h 0 le_rfl]
  | n + 1, h => by
    show (if lt (lastState f n).1 (f (n + 1)) then (f (n + 1), n + 1) else lastState f n) = _
    rw [lastState_pinf n (fun i hi => h i (by omega)), h (n + 1) le_rfl]
    exact if_neg (fun h => h)

theorem phi_pinf (hN : 0 < N) {p0 : Nat → Ext} {a logb : Nat → Nat → Ext} (hp : ∀ i, i < N → p0 i = fin (P i)) (hP : ∀ i, i < N → 0 < P i)
    (ha : ∀ i j, i < N → j < N → a i j = fin (A i j)) (hA : ∀ i j, i < N → j < N → 0 < A i j) (hl : ∀ t i, i < N → logb t i = pinf) :
    ∀ t i, i < N → phi N p0 a logb t i = pinf
  | 0, i, hi => by
    show log (p0 i) + logb 0 i = pinf
    rw [hp i hi, log_fin (hP i hi), hl 0 i hi]
    rfl
  | t + 1, j, hj => by
    show (best (fun i => phi N p0 a logb t i + log (a i j)) N).1 + logb (t + 1) j = pinf
    rw [best_pinf N hN (fun i hi => by
      rw [phi_pinf hN hp hP ha hA hl t i hi, ha i j hi hj, log_fin (hA i j hi hj)]
      rfl), hl _ j hj]
    rfl

theorem path_pinf (hN : 0 < N) {p0 : Nat → Ext} {a logb : Nat → Nat → Ext} (hp : ∀ i, i < N → p0 i = fin (P i)) (hP : ∀ i, i < N → 0 < P i)
    (ha : ∀ i j, i < N → j < N → a i j = fin (A i j)) (hA : ∀ i j, i < N → j < N → 0 < A i j) (hl : ∀ t i, i < N → logb t i = pinf) :
    ∀ k, path N T p0 a logb k = 0
  | 0 => by
    show (lastState (phi N p0 a logb (T - 1)) (N - 1)).2 = 0
    rw [lastState_pinf _ (fun i hi => phi_pinf hN hp hP ha hA hl _ i (by omega))]
  | k + 1 => by
    show psi N p0 a logb (T - 1 - k) (path N T p0 a logb k) = 0
    rw [path_pinf hN hp hP ha hA hl k]
    generalize T - 1 - k = t
    cases t with
    | zero => rfl
    | succ t =>
      show (best (fun i => phi N p0 a logb t i + log (a i 0)) N).2.2 = 0
      rw [best_pinf N hN (fun i hi => by
        rw [phi_pinf hN hp hP ha hA hl t i hi, ha i 0 hi hN, log_fin (hA i 0 hi hN)]
        rfl)]

/-- **C104** If the covariance of a model is singular, every observation has infinite probability in every state: training leaves the model alone, and
decoding puts all observations in state 0, whatever they are. -/
theorem C104_singular {lib : Lib} {x Mu C : Nat → Nat → ℝ} (hinv : Singular lib.inv L) (hN : 0 < N) (hT : 2 ≤ T) (hP : ∀ i, i < N → 0 < P i)
    (hA : ∀ i j, i < N → j < N → 0 < A i j) (hdet : (mat L C).det = 0) (ll ll1 ll2 : Ext) :
    train lib N T L x ll ll1 ll2 (embed P A Mu C) = embed P A Mu C ∧ ∀ t, decode lib N T L x (embed P A Mu C) t = 0 := by
  obtain ⟨D, d1, d2⟩ := hinv (embed P A Mu C).cov C (fun _ _ _ _ => rfl) hdet
  have hlb : ∀ t i, loggauss L (x t) ((embed P A Mu C).mu i) (lib.inv (embed P A Mu C).cov).1 (lib.inv (embed P A Mu C).cov).2 = pinf :=
    fun t i => loggauss_singular (m := Mu i) (fun _ _ => rfl) d1 d2
  refine ⟨?_, fun t => path_pinf hN (P := P) (A := A) (fun _ _ => rfl) hP (fun _ _ _ _ => rfl) hA (fun t i _ => hlb t i) _⟩
  have hb : ∀ t i, density lib L x (embed P A Mu C) t i = pinf := by
    intro t i
    unfold density
    rw [hlb]
    rfl
  have hraw : ∀ i, i < N → rawRow N (embed P A Mu C).p0 (embed P A Mu C).a (density lib L x (embed P A Mu C)) 0 i = pinf := by
    intro i hi
    show fin (P i) * density lib L x (embed P A Mu C) 0 i = pinf
    rw [hb]
    exact infOf_pos (hP i hi)
  have htot : ∀ n, 0 < n → n ≤ N → Ext.total n (rawRow N (embed P A Mu C).p0 (embed P A Mu C).a (density lib L x (embed P A Mu C)) 0) = pinf := by
    intro n hn
    induction n, hn using Nat.le_induction with
    | base => intro h; show (0 : Ext) + _ = pinf; rw [hraw 0 hN]; rfl
    | succ n hn ih =>
      intro h
      show Ext.total n _ + _ = pinf
      rw [ih (by omega), hraw n (by omega)]
      rfl
  have hal : ∀ i, i < N → alpha N (embed P A Mu C).p0 (embed P A Mu C).a (density lib L x (embed P A Mu C)) 0 i = nan := by
    intro i hi
    unfold alpha c
    rw [hraw i hi, htot N hN le_rfl]
    show pinf * fin 0 = nan
    exact pinf_mul_zero
  have hl : loglik N (embed P A Mu C).p0 (embed P A Mu C).a (density lib L x (embed P A Mu C)) (T - 1) = nan :=
    loglik_of_c (t := 0 + 1) (c_nan hN hal) (by omega)
  unfold train trainLoop
  rw [if_neg (by rintro ⟨h, _⟩; omega)]
  exact if_pos hl

theorem varOf_const {X : Nat → Nat → ℝ} {d : Nat} {v : ℝ} (hT : 0 < T) (h : ∀ t, t < T → X t d = v) : varOf T X d = 0 := by
  have hT' : (T : ℝ) ≠ 0 := by exact_mod_cast hT.ne'
  have hm : meanOf T X d = v := by
    unfold meanOf
    rw [Finset.sum_congr rfl (fun t ht => h t (Finset.mem_range.mp ht)), Finset.sum_const, Finset.card_range, nsmul_eq_mul]
    field_simp
  unfold varOf
  rw [hm, Finset.sum_eq_zero (fun t ht => by rw [h t (Finset.mem_range.mp ht), sub_self]; ring), zero_div]

/-- **C104** Training and decoding from the start, with one constant feature: for every seed the model stays the random one of `hmm_init`, and all
observations get the same state. If all features are constant that is as it should be; but other features make no difference. -/
theorem C104_constant_violation {lib : Lib} (hinv : Singular lib.inv L) (hT : 2 ≤ T) (hN : 0 < N) (rm : Nat → Nat → ℝ) (r0 : Nat → ℝ) (r : Nat → Nat → ℝ)
    (hrm : ∀ i d, |rm i d| ≤ 1 / 4) (hr0 : ∀ i, 0 ≤ r0 i) (hr : ∀ i j, 0 ≤ r i j) {X : Nat → Nat → ℝ} {x a mu cov : List (List ℝ)} {p0 gm : List ℝ}
    (hx : Holds2 T L X x) (hp : p0.length = N) (ha : ∃ f, Holds2 N N f a) (hm : ∃ f, Holds2 N L f mu) (hc : ∃ f, Holds2 L L f cov) (hg : gm.length = L)
    {d : Nat} (hd : d < L) {v : ℝ} (hv : ∀ t, t < T → X t d = v) (ll ll1 ll2 : Ext) :
    ∃ m, hmmInit N T L x rm r0 r p0 a mu cov gm = some m ∧ train lib N T L X ll ll1 ll2 (ofLists m) = ofLists m ∧
      ∀ t, decode lib N T L X (train lib N T L X ll ll1 ll2 (ofLists m)) t = 0 := by
  obtain ⟨m, Mu, e1, ⟨P, A, Mu', C, q1, q2, _, _, q5, q6, _, _⟩, e3, e4, e5⟩ := C33_hmm_init rm r0 r hrm hr0 hr hT hN hx hp ha hm hc hg
  have hdet : (mat L (fun d e => (m.cov.getD d []).getD e 0)).det = 0 := by
    refine Matrix.det_eq_zero_of_row_eq_zero ⟨d, hd⟩ (fun e => ?_)
    show (m.cov.getD d []).getD e.1 0 = 0
    rw [Under.Holds2.getD e3 hd e.2, varOf_const (by omega) hv, ite_self]
  obtain ⟨h1, h2⟩ := C104_singular (N := N) (T := T) (x := X) (P := fun i => m.p0.getD i 0) (A := fun i j => (m.a.getD i []).getD j 0)
    (Mu := fun i d => (m.mu.getD i []).getD d 0) (C := fun d e => (m.cov.getD d []).getD e 0) hinv hN hT
    (fun i hi => by rw [Under.Holds.getD q1 hi]; exact q5 i hi) (fun i j hi hj => by rw [Under.Holds2.getD q2 hi hj]; exact q6 i j hi hj) hdet ll ll1 ll2
  refine ⟨m, e1, h1, fun t => ?_⟩
  rw [show train lib N T L X ll ll1 ll2 (ofLists m) = ofLists m from h1]
  exact h2 t

/-- **C104, partial** Observations that are all the same are all put in the same state. (What is missing: a constant feature should leave the use of the other
features alone; `C104_constant_violation` shows that it does not.) -/
theorem C104_silence_partial {lib : Lib} (hinv : Singular lib.inv L) (hT : 2 ≤ T) (hN : 0 < N) (hL : 0 < L) (rm : Nat → Nat → ℝ) (r0 : Nat → ℝ)
    (r : Nat → Nat → ℝ) (hrm : ∀ i d, |rm i d| ≤ 1 / 4) (hr0 : ∀ i, 0 ≤ r0 i) (hr : ∀ i j, 0 ≤ r i j) {X : Nat → Nat → ℝ} {x a mu cov : List (List ℝ)}
    {p0 gm : List ℝ} (hx : Holds2 T L X x) (hp : p0.length = N) (ha : ∃ f, Holds2 N N f a) (hm : ∃ f, Holds2 N L f mu) (hc : ∃ f, Holds2 L L f cov)
    (hg : gm.length = L) (hs : ∀ t, t < T → ∀ d, d < L → X t d = X 0 d) (ll ll1 ll2 : Ext) :
    ∃ m, hmmInit N T L x rm r0 r p0 a mu cov gm = some m ∧
      ∀ t u, decode lib N T L X (train lib N T L X ll ll1 ll2 (ofLists m)) t = decode lib N T L X (train lib N T L X ll ll1 ll2 (ofLists m)) u := by
  obtain ⟨m, h1, _, h3⟩ := C104_constant_violation hinv hT hN rm r0 r hrm hr0 hr hx hp ha hm hc hg hL (fun t ht => hs t ht 0 hL) ll ll1 ll2
  exact ⟨m, h1, fun t u => (h3 t).trans (h3 u).symm⟩

/-- A finite number as a real one. -/
noncomputable def toReal : Ext → ℝ
  | fin x => x
  | _ => 0

/-- `invert` of hmm.c on the finite numbers of a covariance matrix. -/
noncomputable def invOf (sfmin : ℝ) (L : Nat) (icov : List (List ℝ)) (a : List ℝ) (ipiv : List Nat) (work : List ℝ) (cov : Nat → Nat → Ext) :
    (Nat → Nat → Ext) × Ext :=
  let r := (invert sfmin L ((List.range L).map fun d => (List.range L).map fun e => toReal (cov d e)) icov a ipiv work).getD ([], 0)
  (fun d e => fin ((r.1.getD d []).getD e 0), fin r.2)

/-- **C104** The assumption about `invert` is true of `invert`, as it is modelled for C80, with LAPACK. -/
theorem C104_invert (sfmin : ℝ) {icov : List (List ℝ)} {a work : List ℝ} {ipiv : List Nat} (hL : 0 < L) (hi : ∃ f, Holds2 L L f icov)
    (hf : Fresh L a ipiv work) : Singular (invOf sfmin L icov a ipiv work) L := by
  intro cov C hc hdet
  have hh : Holds2 L L C ((List.range L).map fun d => (List.range L).map fun e => toReal (cov d e)) := by
    refine ⟨by rw [List.length_map, List.length_range], fun d hd => ⟨_, by rw [List.getElem?_map, List.getElem?_range hd, Option.map_some], by rw [List.length_map, List.length_range],
      fun e he => ?_⟩⟩
    rw [List.getElem?_map, List.getElem?_range he, Option.map_some, hc d e hd he]
    rfl
  obtain ⟨_, _, icov', D, _, _, _, h4, h5, _⟩ := C80_singular_violation sfmin hL hh hi hf hdet
  refine ⟨D, fun d e hd he => ?_, ?_⟩
  · unfold invOf
    rw [h4]
    show fin ((icov'.getD d []).getD e 0) = _
    rw [Under.Holds2.getD h5 hd he]
  · unfold invOf
    rw [h4]
    rfl

/-- A sound of two notes with a silent third one: two features, one of them alternates between 0 and 1, the other is always 0. Every observation is put in state 0. -/
example (T : Nat) (hT : 2 ≤ T) : ∃ m, hmmInit 2 T 2 ((List.range T).map (fun t => [((t % 2 : Nat) : ℝ), 0])) (fun i _ => if i = 0 then 1 / 4 else -1 / 4) (fun _ => 1)
      (fun i j => if i = j then 1 else 0) [0, 0] [[0, 0], [0, 0]] [[0, 0], [0, 0]] [[0, 0], [0, 0]] [0, 0] = some m ∧
    train ⟨Real.exp, invOf 0 2 [[7, 7], [7, 7]] [7, 7, 7, 7] [7, 7, 7, 7] (List.replicate 128 7)⟩ 2 T 2 (fun t d => if d = 0 then ((t % 2 : Nat) : ℝ) else 0) nan nan nan (ofLists m) =
      ofLists m ∧
    ∀ t, decode ⟨Real.exp, invOf 0 2 [[7, 7], [7, 7]] [7, 7, 7, 7] [7, 7, 7, 7] (List.replicate 128 7)⟩ 2 T 2 (fun t d => if d = 0 then ((t % 2 : Nat) : ℝ) else 0)
      (train ⟨Real.exp, invOf 0 2 [[7, 7], [7, 7]] [7, 7, 7, 7] [7, 7, 7, 7] (List.replicate 128 7)⟩ 2 T 2 (fun t d => if d = 0 then ((t % 2 : Nat) : ℝ) else 0) nan nan nan (ofLists m)) t = 0 := by
  refine C104_constant_violation (N := 2) (L := 2) (X := fun t d => if d = 0 then ((t % 2 : Nat) : ℝ) else 0) (d := 1) (v := 0) (C104_invert (work := List.replicate 128 7) 0 two_pos ⟨fun _ _ => 7, holds2_rep (n := 2) (m := 2) 7⟩ ⟨rfl, rfl, List.length_replicate⟩) hT two_pos _ _ _ ?_ ?_ ?_ ?_ rfl ?_ ?_ ?_ rfl
    one_lt_two (fun t _ => rfl) nan nan nan
  · intro i d
    split_ifs <;> norm_num [abs_div]
  · intro i
    norm_num
  · intro i j
    split_ifs <;> norm_num
  · refine ⟨by rw [List.length_map, List.length_range], fun t ht => ⟨_, by rw [List.getElem?_map, List.getElem?_range ht, Option.map_some], rfl, fun d hd => ?_⟩⟩
    interval_cases d <;> rfl
  all_goals exact ⟨fun _ _ => 0, holds2_rep (n := 2) (m := 2) 0⟩

end QM.Hmm.Under
