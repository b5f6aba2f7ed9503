import Verif.Machine.Model

/-!
# The first call of `dlamch_`, followed to its end

Loops are followed by saying what their variables are after every iteration.
-/

namespace QM.Machine

open B64 (ofInt add mul div neg lt eq le)

/-- A loop whose condition and variables are known at every iteration. -/
theorem whileDo_run {σ : Type} {cond : σ → Bool} {body : σ → σ} (f : Nat → σ) (n : Nat) {m : Nat} (hm : n < m)
    (h : ∀ k < n, cond (f k) = true ∧ body (f k) = f (k + 1)) (hn : cond (f n) = false) : whileDo cond body m (f 0) = some (f n) := by
  have key : ∀ k ≤ n, whileDo cond body m (f 0) = whileDo cond body (m - k) (f k) := by
    intro k
    induction k with
    | zero => intro _; rfl
    | succ k ih =>
      intro hk
      rw [ih (by omega)]
      obtain ⟨j, hj⟩ : ∃ j, m - k = j + 1 := ⟨m - k - 1, by omega⟩
      rw [hj, show m - (k + 1) = j by omega]
      show (if cond (f k) = true then whileDo cond body j (body (f k)) else some (f k)) = _
      rw [if_pos (h k (by omega)).1, (h k (by omega)).2]
  rw [key n le_rfl]
  obtain ⟨j, hj⟩ : ∃ j, m - n = j + 1 := ⟨m - n - 1, by omega⟩
  rw [hj]
  show (if cond (f n) = true then _ else some (f n)) = _
  rw [hn]; rfl

/-- A counted loop whose variables are known at every iteration. -/
theorem times_run {σ : Type} {body : σ → σ} (f : Nat → σ) (n : Nat) (h : ∀ k < n, body (f k) = f (k + 1)) : times body n (f 0) = f n := by
  induction n generalizing f with
  | zero => rfl
  | succ n ih =>
    show times body n (body (f 0)) = _
    rw [h 0 (by omega)]
    exact ih (fun k => f (k + 1)) fun k hk => h (k + 1) (by omega)

theorem isDouble_mul_pow {y : Int} (hy : |y| < 2 ^ 53) {k : Nat} (hk : k ≤ 2045) : IsDouble (y * 2 ^ k) := by
  refine ⟨⟨y, k, hy, rfl⟩, ?_⟩
  rw [abs_mul, abs_of_nonneg (by positivity : (0 : Int) ≤ 2 ^ k)]
  have h1 : (2 : Int) ^ k ≤ 2 ^ 2045 := pow_le_pow_right₀ (by norm_num) hk
  calc |y| * 2 ^ k < 2 ^ 53 * 2 ^ k := mul_lt_mul_of_pos_right hy (by positivity)
    _ ≤ 2 ^ 53 * 2 ^ 2045 := mul_le_mul_of_nonneg_left h1 (by positivity)
    _ = 2 ^ 2098 := by rw [← pow_add]

theorem ofInt_two : ofInt 2 = .fin (2 ^ 1075) := by decide +kernel

theorem ofInt_one : ofInt 1 = .fin (2 ^ 1074) := by decide +kernel

theorem half_eq : div (ofInt 1) (ofInt 2) = .fin (2 ^ 1073) := by decide +kernel

section Halving

variable {y : Int} (hy : |y| < 2 ^ 53) {k : Nat} (hk : k + 1 ≤ 2045)
include hy hk

theorem div_two : div (.fin (y * 2 ^ (k + 1))) (.fin (2 ^ 1075)) = .fin (y * 2 ^ k) :=
  B64.div_exact (isDouble_mul_pow hy (by omega)) (by positivity) (by
    rw [B64.one, Nat.cast_pow, Nat.cast_ofNat, mul_assoc, mul_assoc, ← pow_add, ← pow_add])

theorem mul_half : mul (.fin (y * 2 ^ (k + 1))) (.fin (2 ^ 1073)) = .fin (y * 2 ^ k) :=
  B64.mul_exact (isDouble_mul_pow hy (by omega)) (by
    rw [B64.one, Nat.cast_pow, Nat.cast_ofNat, mul_assoc, mul_assoc, ← pow_add, ← pow_add])

theorem mul_two : mul (.fin (y * 2 ^ k)) (.fin (2 ^ 1075)) = .fin (y * 2 ^ (k + 1)) :=
  B64.mul_exact (isDouble_mul_pow hy hk) (by
    rw [B64.one, Nat.cast_pow, Nat.cast_ofNat, mul_assoc, mul_assoc, ← pow_add, ← pow_add])

theorem div_half : div (.fin (y * 2 ^ k)) (.fin (2 ^ 1073)) = .fin (y * 2 ^ (k + 1)) :=
  B64.div_exact (isDouble_mul_pow hy hk) (by positivity) (by
    rw [B64.one, Nat.cast_pow, Nat.cast_ofNat, mul_assoc, mul_assoc, ← pow_add, ← pow_add])

theorem add_self : add (.fin (y * 2 ^ k)) (.fin (y * 2 ^ k)) = .fin (y * 2 ^ (k + 1)) :=
  B64.add_exact (isDouble_mul_pow hy hk) (by rw [pow_succ]; ring)

theorem add_zero' : add (.fin (y * 2 ^ k)) (.fin 0) = .fin (y * 2 ^ k) :=
  B64.add_exact (isDouble_mul_pow hy (by omega)) (by ring)

theorem zero_add' : add (.fin 0) (.fin (y * 2 ^ k)) = .fin (y * 2 ^ k) :=
  B64.add_exact (isDouble_mul_pow hy (by omega)) (by ring)

end Halving

theorem eq_self_fin (x : Int) : eq (.fin x) (.fin x) = true := by simp [B64.eq]

/-- The body of the loop of `dlamc4_` in base 2. -/
def halve (s : Shrink) : Shrink :=
  let zero := B64.fin 0
  let rbase := div (ofInt 1) (ofInt 2)
  let a := s.b1
  let b1 := dlamc3 (div a (ofInt 2)) zero
  let c1 := dlamc3 (mul b1 (ofInt 2)) zero
  let d1 := times (fun d => add d b1) 2 zero
  let b2 := dlamc3 (mul a rbase) zero
  let c2 := dlamc3 (div b2 rbase) zero
  let d2 := times (fun d => add d b2) 2 zero
  ⟨s.emin - 1, a, b1, c1, c2, d1, d2⟩

/-- The condition of the loop of `dlamc4_`. -/
def same (s : Shrink) : Bool := eq s.c1 s.a && eq s.c2 s.a && eq s.d1 s.a && eq s.d2 s.a

theorem halve_ok {y : Int} (hy : |y| < 2 ^ 53) {k : Nat} (hk : k + 2 ≤ 2045) {s : Shrink} (hs : s.b1 = .fin (y * 2 ^ (k + 1))) :
    halve s = ⟨s.emin - 1, .fin (y * 2 ^ (k + 1)), .fin (y * 2 ^ k), .fin (y * 2 ^ (k + 1)), .fin (y * 2 ^ (k + 1)), .fin (y * 2 ^ (k + 1)),
      .fin (y * 2 ^ (k + 1))⟩ := by
  unfold halve dlamc3
  rw [hs, half_eq, ofInt_two]
  dsimp only [times]
  rw [div_two hy (by omega), mul_half hy (by omega), add_zero' hy (by omega), mul_two hy (by omega), div_half hy (by omega),
    add_zero' hy (by omega), zero_add' hy (by omega), add_self hy (by omega)]

/-- `dlamc4_` from `y * 2 ^ N` units: the number of halvings until one is not exact. -/
theorem dlamc4_ok {y : Int} (hy : |y| < 2 ^ 53) {N : Nat} (hN : N + 2 ≤ 2045) (hN' : 2 ≤ N)
    (hlast : ∀ s : Shrink, s.b1 = .fin y → same (halve s) = false) : dlamc4 (.fin (y * 2 ^ N)) 2 = some (1 - (N : Int)) := by
  obtain ⟨M, rfl⟩ : ∃ M, N = M + 1 := ⟨N - 1, by omega⟩
  set f : Nat → Shrink := fun k =>
    if k ≤ M then ⟨1 - k, .fin (y * 2 ^ (M + 1 - k)), .fin (y * 2 ^ (M - k)), .fin (y * 2 ^ (M + 1 - k)), .fin (y * 2 ^ (M + 1 - k)),
      .fin (y * 2 ^ (M + 1 - k)), .fin (y * 2 ^ (M + 1 - k))⟩
    else halve ⟨1 - M, .fin (y * 2), .fin y, .fin (y * 2), .fin (y * 2), .fin (y * 2), .fin (y * 2)⟩ with hf
  have h0 : (⟨1, .fin (y * 2 ^ (M + 1)), dlamc3 (mul (.fin (y * 2 ^ (M + 1))) (div (ofInt 1) (ofInt 2))) (.fin 0), .fin (y * 2 ^ (M + 1)),
      .fin (y * 2 ^ (M + 1)), .fin (y * 2 ^ (M + 1)), .fin (y * 2 ^ (M + 1))⟩ : Shrink) = f 0 := by
    rw [half_eq, dlamc3, mul_half hy (by omega), add_zero' hy (by omega), hf]
    simp
  have h1 : whileDo same halve fuel (f 0) = some (f (M + 1)) := by
    apply whileDo_run f
    · unfold fuel; omega
    · intro k hk
      have hk' : k ≤ M := by omega
      have e1 : f k = ⟨1 - k, .fin (y * 2 ^ (M + 1 - k)), .fin (y * 2 ^ (M - k)), .fin (y * 2 ^ (M + 1 - k)), .fin (y * 2 ^ (M + 1 - k)),
          .fin (y * 2 ^ (M + 1 - k)), .fin (y * 2 ^ (M + 1 - k))⟩ := if_pos hk'
      refine ⟨?_, ?_⟩
      · rw [e1]; simp [same, eq_self_fin]
      · by_cases hl : k = M
        · subst hl
          have e2 : f (k + 1) = halve ⟨1 - k, .fin (y * 2), .fin y, .fin (y * 2), .fin (y * 2), .fin (y * 2), .fin (y * 2)⟩ := if_neg (by omega)
          rw [e1, e2]; simp
        · have e2 : f (k + 1) = ⟨1 - (k + 1 : Nat), .fin (y * 2 ^ (M + 1 - (k + 1))), .fin (y * 2 ^ (M - (k + 1))), .fin (y * 2 ^ (M + 1 - (k + 1))),
              .fin (y * 2 ^ (M + 1 - (k + 1))), .fin (y * 2 ^ (M + 1 - (k + 1))), .fin (y * 2 ^ (M + 1 - (k + 1)))⟩ := if_pos (by omega)
          obtain ⟨j, hj⟩ : ∃ j, M = k + 1 + j := ⟨M - (k + 1), by omega⟩
          rw [e1, halve_ok hy (k := j) (by omega) (by show B64.fin _ = _; rw [show M - k = j + 1 by omega]), e2,
            show M + 1 - (k + 1) = j + 1 by omega, show M - (k + 1) = j by omega]
          congr 1
          push_cast; ring
    · have e2 : f (M + 1) = halve ⟨1 - M, .fin (y * 2), .fin y, .fin (y * 2), .fin (y * 2), .fin (y * 2), .fin (y * 2)⟩ := if_neg (by omega)
      rw [e2]; exact hlast _ rfl
  have h2 : dlamc4 (.fin (y * 2 ^ (M + 1))) 2 = (whileDo same halve fuel (f 0)).bind fun r => pure r.emin := by
    rw [← h0]; rfl
  rw [h2, h1]
  have e2 : f (M + 1) = halve ⟨1 - M, .fin (y * 2), .fin y, .fin (y * 2), .fin (y * 2), .fin (y * 2), .fin (y * 2)⟩ := if_neg (by omega)
  rw [e2]
  show some ((1 - (M : Int)) - 1) = some _
  congr 1
  push_cast; ring

theorem last_step {y : Int} (h : same ⟨0, .fin y, dlamc3 (div (.fin y) (ofInt 2)) (.fin 0), (halve ⟨0, .nan, .fin y, .nan, .nan, .nan, .nan⟩).c1,
    (halve ⟨0, .nan, .fin y, .nan, .nan, .nan, .nan⟩).c2, (halve ⟨0, .nan, .fin y, .nan, .nan, .nan, .nan⟩).d1,
    (halve ⟨0, .nan, .fin y, .nan, .nan, .nan, .nan⟩).d2⟩ = false) (s : Shrink) (hs : s.b1 = .fin y) : same (halve s) = false := by
  rw [← h]
  unfold same halve
  rw [hs]

theorem ngpmin_eq : dlamc4 (.fin (2 ^ 1074)) 2 = some (-1073) := by
  have := dlamc4_ok (y := 1) (by norm_num) (N := 1074) (by norm_num) (by norm_num) (last_step (by decide +kernel))
  rw [one_mul] at this
  exact this

theorem ngnmin_eq : dlamc4 (.fin (-1 * 2 ^ 1074)) 2 = some (-1073) :=
  dlamc4_ok (y := -1) (N := 1074) (by norm_num) (by norm_num) (by norm_num) (last_step (by decide +kernel))

theorem gpmin_eq : dlamc4 (.fin (9 * 2 ^ 1071)) 2 = some (-1070) :=
  dlamc4_ok (y := 9) (N := 1071) (by norm_num) (by norm_num) (by norm_num) (last_step (by decide +kernel))

theorem gnmin_eq : dlamc4 (.fin (-9 * 2 ^ 1071)) 2 = some (-1070) :=
  dlamc4_ok (y := -9) (N := 1071) (by norm_num) (by norm_num) (by norm_num) (last_step (by decide +kernel))

/-- The variables of the first loop of `rmax` after `k` iterations. -/
def ones (k : Nat) : B64 × B64 × B64 :=
  (.fin (2 ^ (1074 - k)), .fin (2 ^ 1074 - 2 ^ (1074 - k)), .fin (if k = 0 then 0 else 2 ^ 1074 - 2 ^ (1075 - k)))

theorem dlamc5Max_eq : dlamc5Max 2 53 1024 = .fin ((2 ^ 53 - 1) * 2 ^ 2045) := by
  have h1 : times (fun s : B64 × B64 × B64 =>
      let z := mul s.1 (div (ofInt 1) (ofInt 2))
      let oldy := if lt s.2.1 (ofInt 1) then s.2.1 else s.2.2
      (z, dlamc3 s.2.1 z, oldy)) 53 (add (ofInt 2) (neg (ofInt 1)), B64.fin 0, B64.fin 0) =
      (.fin (2 ^ 1021), .fin (2 ^ 1074 - 2 ^ 1021), .fin (2 ^ 1074 - 2 ^ 1022)) := by
    have e0 : (add (ofInt 2) (neg (ofInt 1)), B64.fin 0, B64.fin 0) = ones 0 := by decide +kernel
    have e1 : (B64.fin (2 ^ 1021), B64.fin (2 ^ 1074 - 2 ^ 1021), B64.fin (2 ^ 1074 - 2 ^ 1022)) = ones 53 := by decide +kernel
    rw [e0, e1]
    apply times_run ones 53
    decide +kernel
  have h2 : times (fun y => dlamc3 (mul y (ofInt 2)) (B64.fin 0)) 1024 (.fin ((2 ^ 53 - 1) * 2 ^ 1021)) = .fin ((2 ^ 53 - 1) * 2 ^ 2045) := by
    have := times_run (body := fun y => dlamc3 (mul y (ofInt 2)) (B64.fin 0)) (fun k => .fin ((2 ^ 53 - 1) * 2 ^ (1021 + k))) 1024 (by
      intro k hk
      have hy : |(2 ^ 53 - 1 : Int)| < 2 ^ 53 := by norm_num
      rw [ofInt_two, mul_two hy (by omega), dlamc3, B64.add_exact (isDouble_mul_pow hy (k := 1021 + k + 1) (by omega)) (add_zero _)]
      rfl)
    exact this
  have h3 : (if le (ofInt 1) (.fin (2 ^ 1074 - 2 ^ 1021)) then (.fin (2 ^ 1074 - 2 ^ 1022)) else B64.fin (2 ^ 1074 - 2 ^ 1021)) =
      .fin ((2 ^ 53 - 1) * 2 ^ 1021) := by decide +kernel
  have h4 : dlamc5Max 2 53 1024 = times (fun y => dlamc3 (mul y (ofInt 2)) (B64.fin 0)) 1024
      (if le (ofInt 1) (.fin (2 ^ 1074 - 2 ^ 1021)) then (.fin (2 ^ 1074 - 2 ^ 1022)) else B64.fin (2 ^ 1074 - 2 ^ 1021)) := by
    unfold dlamc5Max
    dsimp only
    rw [show (53 : Int).toNat = 53 from rfl, show (1024 : Int).toNat = 1024 from rfl, h1]
  rw [h4, h3, h2]

theorem dlamc5Exp_eq : dlamc5Exp 2 53 (-1021) true = some 1024 := by decide +kernel

/-- Several steps. -/
def iter : Nat → Pc × Loc × Stat → Option (Pc × Loc × Stat)
  | 0, x => some x
  | n + 1, x => (step x.1 x.2.1 x.2.2).bind (iter n)

theorem iter_add {m n : Nat} {x y : Pc × Loc × Stat} (h : iter m x = some y) : iter (m + n) x = iter n y := by
  induction m generalizing x with
  | zero => cases h; rw [Nat.zero_add]
  | succ m ih =>
    rw [Nat.succ_add]
    show (step x.1 x.2.1 x.2.2).bind (iter (m + n)) = _
    have h' : (step x.1 x.2.1 x.2.2).bind (iter m) = some y := h
    cases hs : step x.1 x.2.1 x.2.2 with
    | none => rw [hs] at h'; exact absurd h' (by simp)
    | some z => rw [hs] at h'; exact ih h'

theorem iter_run {f : Nat → Pc × Loc × Stat} {d : Nat} : ∀ n : Nat, (∀ k < n, iter d (f k) = some (f (k + 1))) → iter (d * n) (f 0) = some (f n)
  | 0, _ => rfl
  | n + 1, h => by
    rw [Nat.mul_succ, iter_add (iter_run n fun k hk => h k (by omega))]
    exact h n (by omega)

/-- Before the loop that counts the bits of the significand, after `k` iterations (`c` is 1 until the end). -/
def atCount (g : Bool) (k : Nat) (c : B64) : Pc × Loc × Stat :=
  (.l349, { Loc.init g with a := .fin (2 ^ (1074 + k)), b := .fin (2 ^ 1075), c := c, savec := .fin (2 ^ 1127 + 2 ^ 1075) },
    { Stat.init with lbeta1 := 2, lrnd1 := true, lieee1 := true, lt1 := k })

theorem run_base (g : Bool) : iter 8 (.l108, Loc.init g, Stat.init) = some (atCount g 0 (.fin (2 ^ 1074))) := by
  revert g; decide +kernel

/-- The value of `c__` in that loop. -/
def countC (k : Nat) : B64 := .fin (if k = 53 then 0 else 2 ^ 1074)

theorem run_count (g : Bool) : iter 159 (atCount g 0 (.fin (2 ^ 1074))) = some (atCount g 53 (.fin 0)) := by
  have h : ∀ k < 53, iter 3 (atCount g k (countC k)) = some (atCount g (k + 1) (countC (k + 1))) := by
    revert g; decide +kernel
  have e0 : B64.fin (2 ^ 1074) = countC 0 := by decide +kernel
  have e1 : B64.fin 0 = countC 53 := by decide +kernel
  rw [e0, e1]
  exact iter_run (f := fun k => atCount g k (countC k)) (d := 3) 53 h

/-- Before the search for the least exponent. -/
def atLeast : Pc × Loc × Stat :=
  (.l576, { Loc.init true with a := .fin (2 ^ 1021), b := .fin 0, c := .fin (-(2 ^ 1073)), savec := .fin (2 ^ 1127 + 2 ^ 1075), lieee := true },
    { Stat.init with lbeta1 := 2, lrnd1 := true, lieee1 := true, lt1 := 53, first1 := false, lbeta2 := 2, lt2 := 53, leps := .fin (2 ^ 1021) })

theorem run_eps (g : Bool) : iter 14 (atCount g 53 (.fin 0)) = some atLeast := by
  revert g; decide +kernel

/-- After the search for the least exponent. -/
def afterLeast : Pc × Loc × Stat :=
  (.l592, { atLeast.2.1 with rbase := .fin (2 ^ 1073), a := .fin (9 * 2 ^ 1071), low := (-1073, -1073, -1070, -1070) }, atLeast.2.2)

theorem run_least : iter 1 atLeast = some afterLeast := by
  have h1 : times (fun x => dlamc3 (mul x (.fin (2 ^ 1073))) (.fin 0)) 3 (.fin (2 ^ 1074)) = .fin (2 ^ 1071) := by decide +kernel
  have h2 : dlamc3 (.fin (2 ^ 1074)) (.fin (2 ^ 1071)) = .fin (9 * 2 ^ 1071) := by decide +kernel
  have h3 : neg (.fin (2 ^ 1074)) = .fin (-1 * 2 ^ 1074) := by decide +kernel
  have h4 : neg (.fin (9 * 2 ^ 1071)) = .fin (-9 * 2 ^ 1071) := by decide +kernel
  have h5 : step .l576 atLeast.2.1 atLeast.2.2 = some afterLeast := by
    show (do
      let ngpmin ← dlamc4 (ofInt 1) 2
      let ngnmin ← dlamc4 (neg (ofInt 1)) 2
      let gpmin ← dlamc4 (dlamc3 (ofInt 1) (times (fun x => dlamc3 (mul x (div (ofInt 1) (ofInt 2))) (.fin 0)) 3 (ofInt 1))) 2
      let gnmin ← dlamc4 (neg (dlamc3 (ofInt 1) (times (fun x => dlamc3 (mul x (div (ofInt 1) (ofInt 2))) (.fin 0)) 3 (ofInt 1)))) 2
      pure (Pc.l592, ({ atLeast.2.1 with rbase := div (ofInt 1) (ofInt 2), a := (dlamc3 (ofInt 1) (times (fun x => dlamc3 (mul x (div (ofInt 1) (ofInt 2))) (.fin 0)) 3 (ofInt 1))), low := (ngpmin, ngnmin, gpmin, gnmin) } : Loc), atLeast.2.2)) = _
    rw [half_eq, ofInt_one, h1, h2, h3, h4, ngpmin_eq, ngnmin_eq, gpmin_eq, gnmin_eq]
    rfl
  show (step .l576 atLeast.2.1 atLeast.2.2).bind (iter 0) = _
  rw [h5]; rfl

/-- The static variables of `dlamc1_` and `dlamc2_` towards the end of the first call, those of `dlamch_` being as in `s`. -/
def Stat.late (s : Stat) (lrmin : B64) (lemax : Int) (lrmax : B64) : Stat :=
  { s with first1 := false, lt1 := 53, lrnd1 := true, lbeta1 := 2, lieee1 := true, first2 := false, iwarn := false, lt2 := 53, leps := .fin (2 ^ 1021),
           lbeta2 := 2, lemin := -1021, lemax := lemax, lrmin := lrmin, lrmax := lrmax }

/-- The loop that computes the smallest normal number, after `k` iterations. -/
def atMin (s : Stat) (k : Nat) : Pc × Loc × Stat :=
  (.l662, { afterLeast.2.1 with ieee := true, i := 1022 - k }, s.late (.fin (2 ^ (1074 - k))) 0 (.fin 0))

theorem run_exponent : iter 4 afterLeast = some (atMin Stat.init 0) := by decide +kernel

theorem run_min (s : Stat) : iter 1022 (atMin s 0) = some (atMin s 1022) := by
  have h : ∀ k < 1022, iter 1 (atMin s k) = some (atMin s (k + 1)) := by
    intro k hk
    have e1 : step .l662 (atMin s k).2.1 (atMin s k).2.2 = if 1 ≤ (1022 : Int) - k then
        some (Pc.l662, { afterLeast.2.1 with ieee := true, i := 1022 - k - 1 },
          s.late (dlamc3 (mul (.fin (2 ^ (1074 - k))) (.fin (2 ^ 1073))) (.fin 0)) 0 (.fin 0))
        else some (Pc.l670, (atMin s k).2.1, (atMin s k).2.2) := rfl
    have e2 : mul (.fin (2 ^ (1074 - k))) (.fin (2 ^ 1073)) = .fin (2 ^ (1074 - (k + 1))) := by
      have := mul_half (y := 1) (by norm_num) (k := 1074 - (k + 1)) (by omega)
      rw [one_mul, one_mul, show 1074 - (k + 1) + 1 = 1074 - k by omega] at this
      exact this
    have e3 : dlamc3 (.fin (2 ^ (1074 - (k + 1)))) (.fin 0) = .fin (2 ^ (1074 - (k + 1))) := by
      have := add_zero' (y := 1) (by norm_num) (k := 1074 - (k + 1)) (by omega)
      rwa [one_mul] at this
    have e4 : (1022 : Int) - k - 1 = 1022 - (k + 1 : Nat) := by push_cast; ring
    show (step .l662 (atMin s k).2.1 (atMin s k).2.2).bind (iter 0) = _
    rw [e1, if_pos (by omega), e2, e3, e4]
    rfl
  have := iter_run (f := atMin s) (d := 1) 1022 h
  rwa [one_mul] at this

/-- After the computation of the largest number. -/
def afterMax (s : Stat) : Pc × Loc × Stat :=
  (.l673, { afterLeast.2.1 with ieee := true, i := 0 }, s.late (.fin (2 ^ 52)) 1024 (.fin ((2 ^ 53 - 1) * 2 ^ 2045)))

theorem run_max (s : Stat) : iter 2 (atMin s 1022) = some (afterMax s) := by
  have e : atMin s 1022 = (.l662, { afterLeast.2.1 with ieee := true, i := 0 }, s.late (.fin (2 ^ 52)) 0 (.fin 0)) := rfl
  have h1 : step .l670 { afterLeast.2.1 with ieee := true, i := 0 } (s.late (.fin (2 ^ 52)) 0 (.fin 0)) =
      (dlamc5Exp 2 53 (-1021) true).bind fun e =>
      some (Pc.l673, { afterLeast.2.1 with ieee := true, i := 0 }, s.late (.fin (2 ^ 52)) e (dlamc5Max 2 53 e)) := rfl
  rw [e]
  show (step .l670 { afterLeast.2.1 with ieee := true, i := 0 } (s.late (.fin (2 ^ 52)) 0 (.fin 0))).bind (iter 0) = _
  rw [h1, dlamc5Exp_eq, Option.bind_some, dlamc5Max_eq]
  rfl

/-- The static variables after the first call has computed them. -/
def Stat.computed : Stat where
  first1 := false
  lt1 := 53
  lrnd1 := true
  lbeta1 := 2
  lieee1 := true
  first2 := false
  iwarn := false
  lt2 := 53
  leps := .fin (2 ^ 1021)
  lbeta2 := 2
  lemin := -1021
  lemax := 1024
  lrmin := .fin (2 ^ 52)
  lrmax := .fin ((2 ^ 53 - 1) * 2 ^ 2045)
  first := true
  t := .fin (53 * 2 ^ 1074)
  rnd := .fin (2 ^ 1074)
  eps := .fin (2 ^ 1021)
  base := .fin (2 ^ 1075)
  emin := .fin (-1021 * 2 ^ 1074)
  prec := .fin (2 ^ 1022)
  emax := .fin (1024 * 2 ^ 1074)
  rmin := .fin (2 ^ 52)
  rmax := .fin ((2 ^ 53 - 1) * 2 ^ 2045)
  sfmin := .fin (2 ^ 52)

/-- The local variables at the end of the first call. -/
def endLoc : Loc :=
  { afterLeast.2.1 with ieee := true, i := 0, beta := 2, it := 53, lrndH := true, imin := -1021, imax := 1024, small := div (ofInt 1) (.fin ((2 ^ 53 - 1) * 2 ^ 2045)) }

theorem run_end : iter 10 (afterMax Stat.init) = some (.l135, endLoc, Stat.computed) := by decide +kernel

/-- The first call, from its start to the selection of its result. -/
theorem run_first (g : Bool) : iter 1220 (.l108, Loc.init g, Stat.init) = some (.l135, endLoc, Stat.computed) := by
  rw [iter_add (m := 8) (n := 1212) (run_base g), iter_add (m := 159) (n := 1053) (run_count g), iter_add (m := 14) (n := 1039) (run_eps g),
    iter_add (m := 1) (n := 1038) run_least, iter_add (m := 4) (n := 1034) run_exponent, iter_add (m := 1022) (n := 12) (run_min _),
    iter_add (m := 2) (n := 10) (run_max _), run_end]

end QM.Machine
