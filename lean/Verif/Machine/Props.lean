import Verif.Machine.Lemmas

/-!
# The machine constants: property theorems

C107: whatever calls have come before, `dlamch_` gives the parameters of double precision, as long as no two calls overlap.
-/

namespace QM.Machine

open B64 (ofInt add mul div neg lt eq le rnd nearest)

/-- Thread `i` calls `dlamch_` with letter `c`, and no other thread does anything until the call has ended. -/
def Alone (y : Sys) (i c : Nat) (g : Bool) (y' : Sys) : Prop :=
  ∃ n, y.exec (.call i c g :: List.replicate n (.run i)) = some y' ∧ ∃ t, y'.th[i]? = some t ∧ t.pc = .done

/-- The states of a program whose calls never overlap. -/
inductive Sequential : Sys → Prop where
  | start (n : Nat) : Sequential (Sys.start n)
  | call {y y' : Sys} {i c : Nat} {g : Bool} (h : Sequential y) (hc : Alone y i c g y') : Sequential y'

/-- The parameters of double precision: the letter, numerator and denominator. -/
def table : List (Char × Int × Nat) :=
  [('E', 1, 2 ^ 53), ('S', 1, 2 ^ 1022), ('B', 2, 1), ('P', 1, 2 ^ 52), ('N', 53, 1), ('R', 1, 1), ('M', -1021, 1), ('U', 1, 2 ^ 1022),
    ('L', 1024, 1), ('O', (2 ^ 53 - 1) * 2 ^ 971, 1)]

/-- A program whose calls never overlap: all threads have ended, and the constants are not there yet or are all there. -/
def Quiet (y : Sys) : Prop := (y.s = Stat.init ∨ y.s = Stat.ready) ∧ ∀ t ∈ y.th, t.pc = .done

theorem quiet_alone {y y' : Sys} {i c : Nat} {g : Bool} (hq : Quiet y) (h : Alone y i c g y') :
    Quiet y' ∧ ∃ t, y'.th[i]? = some t ∧ t.res = select c Stat.computed := by
  obtain ⟨s, th⟩ := y
  obtain ⟨hs, hd⟩ := hq
  obtain ⟨n, h1, t, ht, htd⟩ := h
  have h2 : ((th[i]?).bind fun t => if t.pc = .done then some (⟨s, th.set i ⟨c, .l108, Loc.init g, none⟩⟩ : Sys) else none).bind
      (fun y => y.exec (List.replicate n (.run i))) = some y' := h1
  cases hi : th[i]? with
  | none => rw [hi] at h2; exact absurd h2 (by simp)
  | some u =>
    rw [hi, Option.bind_some, if_pos (hd u (List.mem_of_getElem? hi)), Option.bind_some] at h2
    have hlt : i < th.length := (List.getElem?_eq_some_iff.1 hi).1
    rw [exec_runs n (t := ⟨c, .l108, Loc.init g, none⟩) (by rw [List.getElem?_set_self hlt])] at h2
    cases hr : runs n (⟨c, .l108, Loc.init g, none⟩, s) with
    | none => rw [hr] at h2; exact absurd h2 (by simp)
    | some r =>
      rw [hr, Option.map_some] at h2
      cases h2
      dsimp only at ht
      rw [List.set_set, List.getElem?_set_self hlt] at ht
      cases ht
      have hres : r.2 = Stat.ready ∧ r.1.res = select c Stat.computed := by
        rcases hs with hs | hs
        · dsimp only at hs
          subst hs
          have := runs_unique (runs_first c g none) rfl hr htd
          rw [this]; exact ⟨rfl, rfl⟩
        · dsimp only at hs
          subst hs
          have := runs_unique (runs_later c g none (s := Stat.ready) rfl) rfl hr htd
          rw [this]; exact ⟨rfl, rfl⟩
      refine ⟨⟨Or.inr hres.1, ?_⟩, r.1, ?_, hres.2⟩
      · intro t ht
        dsimp only at ht
        rw [List.set_set] at ht
        rcases List.mem_or_eq_of_mem_set ht with h | h
        · exact hd t h
        · rw [h]; exact htd
      · dsimp only
        rw [List.set_set, List.getElem?_set_self hlt]

theorem sequential_quiet {y : Sys} (h : Sequential y) : Quiet y := by
  induction h with
  | start n =>
    refine ⟨Or.inl rfl, fun t ht => ?_⟩
    rw [List.eq_of_mem_replicate ht]; rfl
  | call _ hc ih => exact (quiet_alone ih hc).1

/-- **C107** For every letter that is documented, in capitals or not, and whatever calls of any threads have come before, a call of `dlamch_`
gives the number that the letter stands for in double precision, as long as no two calls overlap. -/
theorem C107_constants {y y' : Sys} {i c : Nat} {g : Bool} (h : Sequential y) (hc : Alone y i c g y') :
    ∀ r ∈ table, (c = r.1.toNat ∨ c = r.1.toLower.toNat) →
      ∃ t n, y'.th[i]? = some t ∧ t.res = some (.fin n) ∧ n * r.2.2 = r.2.1 * 2 ^ 1074 := by
  obtain ⟨-, t, ht, hres⟩ := quiet_alone (sequential_quiet h) hc
  have key : ∀ r ∈ table, ∀ c ∈ [r.1.toNat, r.1.toLower.toNat],
      (match select c Stat.computed with
        | some (.fin n) => decide (n * r.2.2 = r.2.1 * 2 ^ 1074)
        | _ => false) = true := by decide +kernel
  intro r hr hcr
  have h1 := key r hr c (by simpa using hcr)
  split at h1
  · rename_i n hn
    exact ⟨t, n, ht, hres.trans hn, of_decide_eq_true h1⟩
  · exact absurd h1 (by simp)

/-- **C107** Every such call ends. -/
theorem C107_ends {y : Sys} (h : Sequential y) {i : Nat} (hi : i < y.th.length) (c : Nat) (g : Bool) : ∃ y', Alone y i c g y' := by
  obtain ⟨hs, hd⟩ := sequential_quiet h
  obtain ⟨s, th⟩ := y
  dsimp only at hs hd hi
  have hcall : ∀ n, (⟨s, th⟩ : Sys).exec (.call i c g :: List.replicate n (.run i)) =
      (runs n (⟨c, .l108, Loc.init g, none⟩, s)).map fun r => (⟨r.2, th.set i r.1⟩ : Sys) := by
    intro n
    show ((th[i]?).bind fun t => if t.pc = .done then some (⟨s, th.set i ⟨c, .l108, Loc.init g, none⟩⟩ : Sys) else none).bind
      (fun y => y.exec (List.replicate n (.run i))) = _
    rw [List.getElem?_eq_getElem hi, Option.bind_some, if_pos (hd _ (List.getElem_mem hi)), Option.bind_some,
      exec_runs n (t := ⟨c, .l108, Loc.init g, none⟩) (by rw [List.getElem?_set_self hi])]
    simp only [List.set_set]
  rcases hs with rfl | rfl
  · exact ⟨_, 1222, by rw [hcall, runs_first]; rfl, _, List.getElem?_set_self hi, rfl⟩
  · exact ⟨_, 3, by rw [hcall, runs_later c g none (s := Stat.ready) rfl]; rfl, _, List.getElem?_set_self hi, rfl⟩

/-- **C107** Every double is at most `rmax` (letter O) in size, which is a double. -/
theorem C107_rmax : IsDouble ((2 ^ 53 - 1) * 2 ^ 2045) ∧ ∀ n, IsDouble n → |n| ≤ (2 ^ 53 - 1) * 2 ^ 2045 := by
  refine ⟨isDouble_mul_pow (by norm_num) le_rfl, ?_⟩
  rintro n ⟨⟨m, e, hm, rfl⟩, ht⟩
  rw [abs_mul, abs_of_nonneg (by positivity : (0 : Int) ≤ 2 ^ e)] at ht ⊢
  by_cases he : e ≤ 2045
  · have h1 : (2 : Int) ^ e ≤ 2 ^ 2045 := pow_le_pow_right₀ (by norm_num) he
    exact mul_le_mul (by omega) h1 (by positivity) (by norm_num)
  · obtain ⟨d, rfl⟩ := Nat.exists_eq_add_of_lt (not_le.1 he)
    have e1 : |m| * 2 ^ (2045 + d + 1) = |m| * 2 ^ (d + 1) * 2 ^ 2045 := by
      rw [show 2045 + d + 1 = (d + 1) + 2045 by omega, pow_add, mul_assoc]
    have e2 : (2 : Int) ^ 2098 = 2 ^ 53 * 2 ^ 2045 := by rw [← pow_add]
    rw [e1] at ht ⊢
    rw [e2] at ht
    have h2 : |m| * 2 ^ (d + 1) < 2 ^ 53 := lt_of_mul_lt_mul_right ht (by positivity)
    exact mul_le_mul_of_nonneg_right (by omega) (by positivity)

/-- **C107** The reciprocal of a double that is at least `sfmin` (letter S) in size does not overflow. This is what the factorisation of matrices
relies on. -/
theorem C107_safe {x : Int} (h : 2 ^ 52 ≤ |x|) : ∃ y, div (ofInt 1) (.fin x) = .fin y := by
  have hx : x ≠ 0 := by
    rintro rfl
    norm_num at h
  have hxa : 2 ^ 52 ≤ x.natAbs := by
    have : (2 : Int) ^ 52 ≤ (x.natAbs : Int) := by rw [Int.natCast_natAbs]; exact h
    exact_mod_cast this
  have hpos : 0 < x.natAbs := by omega
  rw [ofInt_one]
  have hdef : div (.fin (2 ^ 1074)) (.fin x) = rnd (2 ^ 1074 * B64.one * x.sign) x.natAbs := by
    rw [div, if_neg hx]
  rw [hdef]
  have hnum : (2 ^ 1074 * (B64.one : Int) * x.sign).natAbs = 2 ^ 2148 := by
    have hs : x.sign.natAbs = 1 := by
      rcases Int.lt_or_gt_of_ne hx with hneg | hp
      · rw [Int.sign_eq_neg_one_of_neg hneg]; rfl
      · rw [Int.sign_eq_one_of_pos hp]; rfl
    rw [Int.natAbs_mul, Int.natAbs_mul, hs, mul_one, Int.natAbs_pow, Int.natAbs_natCast, B64.one]
    rw [show (2 : Int).natAbs = 2 from rfl, ← pow_add]
  have hlt : nearest (2 ^ 2148) x.natAbs < 2 ^ 2098 := by
    set q := 2 ^ 2148 / x.natAbs with hq
    have hq1 : q ≤ 2 ^ 2096 := by
      rw [hq]
      apply Nat.div_le_of_le_mul
      calc 2 ^ 2148 = 2 ^ 52 * 2 ^ 2096 := by rw [← pow_add]
        _ ≤ x.natAbs * 2 ^ 2096 := Nat.mul_le_mul_right _ hxa
    set u := 2 ^ (Nat.log2 q - 52) with hu
    have hu1 : u ≤ 2 ^ 2096 := Nat.pow_le_pow_right (by norm_num) (by
      have : Nat.log2 q ≤ 2096 := by
        by_cases h0 : q = 0
        · rw [h0]; norm_num
        · exact Nat.lt_succ_iff.1 ((Nat.log2_lt h0).2 (lt_of_le_of_lt hq1 (Nat.pow_lt_pow_right (by norm_num) (by norm_num))))
      omega)
    have hm : 2 ^ 2148 / (x.natAbs * u) * u ≤ q := by
      rw [← Nat.div_div_eq_div_mul]; exact Nat.div_mul_le_self _ _
    have hn : nearest (2 ^ 2148) x.natAbs ≤ (2 ^ 2148 / (x.natAbs * u) + 1) * u := by
      unfold nearest
      dsimp only
      split
      · exact Nat.mul_le_mul_right _ (Nat.le_succ _)
      · exact le_rfl
    calc nearest (2 ^ 2148) x.natAbs ≤ (2 ^ 2148 / (x.natAbs * u) + 1) * u := hn
      _ ≤ q + u := by rw [Nat.add_mul, one_mul]; exact Nat.add_le_add_right hm _
      _ ≤ 2 ^ 2096 + 2 ^ 2096 := Nat.add_le_add hq1 hu1
      _ = 2 ^ 2097 := by rw [← two_mul, ← pow_succ']
      _ < 2 ^ 2098 := Nat.pow_lt_pow_right (by norm_num) (by norm_num)
  unfold rnd
  dsimp only
  rw [hnum, if_pos hlt]
  exact ⟨_, rfl⟩

/-- **C107** A quarter of `sfmin` would not do. -/
theorem C107_safe_sharp : div (ofInt 1) (.fin (2 ^ 50)) = .inf false := by decide +kernel

/-- **C107** A result of at least `rmin` (letter U) in size that does not overflow is wrong by at most `eps` (letter E), relative to the exact value. -/
theorem C107_eps {num : Int} {den : Nat} {x : Int} (hd : 0 < den) (h : rnd num den = .fin x) (hn : 2 ^ 52 * (den : Int) ≤ |num|) :
    2 ^ 53 * |num - x * den| ≤ |num| := by
  set N := num.natAbs with hN
  have hNn : (N : Int) = |num| := Int.natCast_natAbs num
  have hN1 : 2 ^ 52 * den ≤ N := by
    have : (2 : Int) ^ 52 * den ≤ N := by rw [hNn]; exact hn
    exact_mod_cast this
  set l := Nat.log2 (N / den) - 52 with hl
  have hq : 2 ^ 52 ≤ N / den := (Nat.le_div_iff_mul_le hd).2 hN1
  have hq0 : N / den ≠ 0 := by
    have : 0 < 2 ^ 52 := by norm_num
    omega
  have hlog : 52 ≤ Nat.log2 (N / den) := (Nat.le_log2 hq0).2 hq
  have hm : 2 ^ 52 ≤ N / (den * 2 ^ l) := by
    rw [← Nat.div_div_eq_div_mul, Nat.le_div_iff_mul_le (by positivity), ← pow_add, show 52 + l = Nat.log2 (N / den) by omega]
    exact Nat.log2_self_le hq0
  have hmul : den * 2 ^ l * (N / (den * 2 ^ l)) + N % (den * 2 ^ l) = N := Nat.div_add_mod N (den * 2 ^ l)
  have hdl : 0 < den * 2 ^ l := by positivity
  have hmod : N % (den * 2 ^ l) < den * 2 ^ l := Nat.mod_lt _ hdl
  set m := N / (den * 2 ^ l) with hmdef
  set r := N % (den * 2 ^ l) with hrdef
  have herr : 2 * |(N : Int) - nearest N den * den| ≤ den * 2 ^ l := by
    have hne : nearest N den = if 2 * r < den * 2 ^ l ∨ (2 * r = den * 2 ^ l ∧ m % 2 = 0) then m * 2 ^ l else (m + 1) * 2 ^ l := rfl
    have h3 : (N : Int) = den * 2 ^ l * m + r := by rw [← hmul]; push_cast; ring
    have h4 : (r : Int) < den * 2 ^ l := by exact_mod_cast hmod
    have h0 : (0 : Int) ≤ r := by positivity
    rw [hne]
    split
    · rename_i h
      have h' : 2 * (r : Int) ≤ den * 2 ^ l := by
        rcases h with h | h
        · exact_mod_cast h.le
        · exact_mod_cast h.1.le
      have : (N : Int) - ((m * 2 ^ l : Nat) : Int) * den = r := by rw [h3]; push_cast; ring
      rw [this, abs_of_nonneg h0]; exact h'
    · rename_i h
      push Not at h
      have h' : (den : Int) * 2 ^ l ≤ 2 * r := by exact_mod_cast h.1
      have : (N : Int) - (((m + 1) * 2 ^ l : Nat) : Int) * den = -(den * 2 ^ l - r) := by rw [h3]; push_cast; ring
      rw [this, abs_neg, abs_of_nonneg (by linarith)]; linarith
  have hbig : (2 : Int) ^ 52 * (den * 2 ^ l) ≤ N := by
    have : 2 ^ 52 * (den * 2 ^ l) ≤ N := by
      calc 2 ^ 52 * (den * 2 ^ l) ≤ m * (den * 2 ^ l) := Nat.mul_le_mul_right _ hm
        _ ≤ N := by rw [mul_comm]; omega
    exact_mod_cast this
  have hx : |num - x * den| = |(N : Int) - nearest N den * den| := by
    unfold rnd at h
    dsimp only at h
    split at h
    · cases h
      by_cases hneg : num < 0
      · rw [if_pos hneg, hNn, abs_of_neg hneg, ← abs_neg]
        congr 1; ring
      · rw [if_neg hneg, hNn, abs_of_nonneg (not_lt.1 hneg)]
    · exact absurd h (by simp)
  rw [hx, ← hNn]
  have e2 : (2 : Int) ^ 53 * |(N : Int) - nearest N den * den| = 2 ^ 52 * (2 * |(N : Int) - nearest N den * den|) := by ring
  rw [e2]
  exact (mul_le_mul_of_nonneg_left herr (by positivity)).trans hbig

/-- Two threads ask for the safe minimum and then, in small letters, for the precision. -/
example : ∃ y y' : Sys, Alone (Sys.start 2) 0 'S'.toNat true y ∧ Sequential y ∧ Alone y 1 'e'.toNat false y' ∧
    ∃ t n, y'.th[1]? = some t ∧ t.res = some (.fin n) ∧ n * 2 ^ 53 = 2 ^ 1074 := by
  obtain ⟨y, hy⟩ := C107_ends (Sequential.start 2) (i := 0) (by decide) 'S'.toNat true
  have hy1 : y.th.length = 2 := by
    obtain ⟨n, h, -⟩ := hy
    have h2 : (⟨Stat.init, (List.replicate 2 Thread.idle).set 0 ⟨'S'.toNat, .l108, Loc.init true, none⟩⟩ : Sys).exec (List.replicate n (.run 0)) = some y := h
    rw [exec_runs n (t := ⟨'S'.toNat, .l108, Loc.init true, none⟩) rfl] at h2
    cases hr : runs n (⟨'S'.toNat, .l108, Loc.init true, none⟩, Stat.init) with
    | none => rw [hr] at h2; exact absurd h2 (by simp)
    | some r => rw [hr] at h2; cases h2; rfl
  have hs := Sequential.call (Sequential.start 2) hy
  obtain ⟨y', hy'⟩ := C107_ends hs (i := 1) (by omega) 'e'.toNat false
  obtain ⟨t, n, h1, h2, h3⟩ := C107_constants hs hy' ('E', 1, 2 ^ 53) (List.mem_cons_self ..) (Or.inr rfl)
  refine ⟨y, y', hy, hs, hy', t, n, h1, h2, ?_⟩
  simpa using h3

end QM.Machine
