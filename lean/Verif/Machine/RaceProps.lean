import Verif.Machine.Props
import Verif.Hmm.Invert
import Verif.Lapack.Cols

/-!
# Matrices inverted in several threads at once: property theorems

C108: programs that compute segmentations in several threads share the static variables of `dlamch_`.
-/

namespace QM.Machine

open B64 (ofInt add mul div neg lt eq le rnd nearest)

/-- **C108** (what holds) Once one call of `dlamch_` has ended and no other is under way, threads may call it in every number and with every
interleaving: the static variables never change again, and every call that ends has the number that its letter stands for. -/
theorem C108_settled_partial {y y' : Sys} (hs : y.s = Stat.ready) (hd : ∀ t ∈ y.th, t.pc = .done) {ops : List Op} (h : y.exec ops = some y') :
    y'.s = Stat.ready ∧ ∀ (i : Nat) (t : Thread), y'.th[i]? = some t → t.pc = .done → y.th[i]? ≠ some t →
      ∀ r ∈ table, (t.c = r.1.toNat ∨ t.c = r.1.toLower.toNat) → ∃ n, t.res = some (.fin n) ∧ n * r.2.2 = r.2.1 * 2 ^ 1074 := by
  obtain ⟨s, th⟩ := y
  dsimp only at hs hd
  subst hs
  obtain ⟨h1, h2⟩ := exec_settled (s := Stat.ready) rfl hd ops (fun i t hi => Or.inl hi) h
  refine ⟨h1, fun i t hi htd hnew r hr hc => ?_⟩
  have key : ∀ r ∈ table, ∀ c ∈ [r.1.toNat, r.1.toLower.toNat],
      (match select c Stat.ready with
        | some (.fin n) => decide (n * r.2.2 = r.2.1 * 2 ^ 1074)
        | _ => false) = true := by decide +kernel
  have hres : t.res = select t.c Stat.ready := by
    rcases h2 i t hi with h | h | h | ⟨-, h⟩
    · exact absurd h hnew
    · rw [h] at htd; exact absurd htd (by decide)
    · rw [h] at htd; exact absurd htd (by decide)
    · exact h
  have h3 := key r hr t.c (by simpa using hc)
  split at h3
  · rename_i n hn
    exact ⟨n, hres.trans hn, of_decide_eq_true h3⟩
  · exact absurd h3 (by simp)

/-- Two calls that are interleaved, after an earlier one. -/
example : ((⟨Stat.ready, [Thread.idle, Thread.idle]⟩ : Sys).exec
    [.call 0 'S'.toNat true, .call 1 'o'.toNat false, .run 0, .run 1, .run 1, .run 0, .run 0, .run 1]).map (fun y => y.th.map fun t => (t.pc, t.res)) =
    some [(.done, some (.fin (2 ^ 52))), (.done, some (.fin ((2 ^ 53 - 1) * 2 ^ 2045)))] := by decide +kernel

/-- **C108** The state of `C108_settled_partial` is the one after any calls that do not overlap, at least one. -/
theorem C108_warm {y y' : Sys} {i c : Nat} {g : Bool} (h : Sequential y) (hc : Alone y i c g y') : y'.s = Stat.ready ∧ ∀ t ∈ y'.th, t.pc = .done := by
  obtain ⟨hq, -⟩ := quiet_alone (sequential_quiet h) hc
  refine ⟨hq.1.resolve_left fun h0 => ?_, hq.2⟩
  obtain ⟨s, th⟩ := y
  obtain ⟨hs, hd⟩ := sequential_quiet h
  obtain ⟨n, h1, t, ht, htd⟩ := hc
  have h2 : ((th[i]?).bind fun t => if t.pc = .done then some (⟨s, th.set i ⟨c, .l108, Loc.init g, none⟩⟩ : Sys) else none).bind
      (fun y => y.exec (List.replicate n (.run i))) = some y' := h1
  cases hi : th[i]? with
  | none => rw [hi] at h2; exact absurd h2 (by simp)
  | some u =>
    rw [hi, Option.bind_some, if_pos (hd u (List.mem_of_getElem? hi)), Option.bind_some] at h2
    have hlt : i < th.length := (List.getElem?_eq_some_iff.1 hi).1
    rw [exec_runs n (t := ⟨c, .l108, Loc.init g, none⟩) (by rw [List.getElem?_set_self hlt])] at h2
    cases hr : runs n (⟨c, .l108, Loc.init g, none⟩, s) with
    | none => rw [hr] at h2; exact absurd h2 (by simp)
    | some r =>
      rw [hr, Option.map_some] at h2
      cases h2
      dsimp only at ht h0
      rw [List.set_set, List.getElem?_set_self hlt] at ht
      cases ht
      have : r.2.first = false := by
        rcases hs with hs | hs <;> dsimp only at hs <;> subst hs
        · rw [runs_unique (runs_first c g none) rfl hr htd]; rfl
        · rw [runs_unique (runs_later c g none (s := Stat.ready) rfl) rfl hr htd]; rfl
      rw [h0] at this
      exact absurd this (by decide)

/-! ### The race -/

/-- The static variables when the second call overtakes the first. -/
def raceStat (g : Bool) : Stat :=
  { Stat.init.late (.fin (2 ^ 1074)) 0 (.fin 0) with
    t := .fin (53 * 2 ^ 1074), rnd := if g then .fin (2 ^ 1074) else .fin 0, eps := if g then .fin (2 ^ 1021) else .fin (2 ^ 1022),
    base := .fin (2 ^ 1075), emin := .fin (-1021 * 2 ^ 1074), prec := if g then .fin (2 ^ 1022) else .fin (2 ^ 1023), emax := .fin 0,
    rmin := .fin (2 ^ 1074), rmax := .fin 0, sfmin := .fin (2 ^ 1074) }

/-- The local variables of the second call then. -/
def raceLoc (g : Bool) : Loc :=
  { Loc.init g with beta := 2, it := 53, lrndH := g, imin := -1021, imax := 0, small := .inf false }

theorem race_second (g : Bool) : iter 12 (.l108, Loc.init g, (atMin Stat.init 0).2.2) = some (.l131, raceLoc g, raceStat g) := by
  revert g; decide +kernel

theorem race_end (g : Bool) : iter 10 (afterMax (raceStat g)) = some (.l135, endLoc, Stat.computed) := by
  revert g; decide +kernel

theorem race_first (g : Bool) : iter 1034 (.l662, (atMin Stat.init 0).2.1, raceStat g) = some (.l135, endLoc, Stat.computed) := by
  have e : (Pc.l662, (atMin Stat.init 0).2.1, raceStat g) = atMin (raceStat g) 0 := rfl
  rw [e, iter_add (m := 1022) (n := 12) (run_min _), iter_add (m := 2) (n := 10) (run_max _), race_end]

theorem race_before (g : Bool) : iter 186 (.l108, Loc.init g, Stat.init) = some (atMin Stat.init 0) := by
  rw [iter_add (m := 8) (n := 178) (run_base g), iter_add (m := 159) (n := 19) (run_count g), iter_add (m := 14) (n := 5) (run_eps g),
    iter_add (m := 1) (n := 4) run_least, run_exponent]

/-- The static variables after the race. -/
def spoilt : Stat := { Stat.ready with sfmin := .inf false }

theorem race_last (g : Bool) : iter 1 (.l131, raceLoc g, Stat.ready) = some (.l135, raceLoc g, spoilt) := by
  revert g; decide +kernel

/-- The interleaving: the first call is overtaken by the second after it has cleared `first`, but before it has computed all the constants; the
second goes on until it has read them; the first ends; the second ends. -/
def race (g₁ g₂ : Bool) : List Op :=
  .call 0 'S'.toNat g₁ :: List.replicate 186 (.run 0) ++ (.call 1 'S'.toNat g₂ :: List.replicate 12 (.run 1)) ++
    List.replicate 1036 (.run 0) ++ List.replicate 3 (.run 1)

theorem race_exec (g₁ g₂ : Bool) : (Sys.start 2).exec (race g₁ g₂) =
    some ⟨spoilt, [⟨'S'.toNat, .done, endLoc, some (.fin (2 ^ 52))⟩, ⟨'S'.toNat, .done, raceLoc g₂, some (.inf false)⟩]⟩ := by
  set S := 'S'.toNat with hS
  have h1 : (Sys.start 2).exec (.call 0 S g₁ :: List.replicate 186 (.run 0)) =
      some ⟨(atMin Stat.init 0).2.2, [⟨S, .l662, (atMin Stat.init 0).2.1, none⟩, Thread.idle]⟩ := by
    rw [Sys.start, exec_call (t := Thread.idle) rfl rfl, exec_runs 186 (t := ⟨S, .l108, Loc.init g₁, none⟩) rfl,
      runs_iter (t := ⟨S, .l108, Loc.init g₁, none⟩) (s := Stat.init) (race_before g₁)]
    rfl
  have h2 : (⟨(atMin Stat.init 0).2.2, [⟨S, .l662, (atMin Stat.init 0).2.1, none⟩, Thread.idle]⟩ : Sys).exec
      (.call 1 S g₂ :: List.replicate 12 (.run 1)) =
      some ⟨raceStat g₂, [⟨S, .l662, (atMin Stat.init 0).2.1, none⟩, ⟨S, .l131, raceLoc g₂, none⟩]⟩ := by
    rw [exec_call (t := Thread.idle) rfl rfl, exec_runs 12 (t := ⟨S, .l108, Loc.init g₂, none⟩) rfl, runs_iter (t := ⟨S, .l108, Loc.init g₂, none⟩) (race_second g₂)]
    rfl
  have h3 : (⟨raceStat g₂, [⟨S, .l662, (atMin Stat.init 0).2.1, none⟩, ⟨S, .l131, raceLoc g₂, none⟩]⟩ : Sys).exec (List.replicate 1036 (.run 0)) =
      some ⟨Stat.ready, [⟨S, .done, endLoc, some (.fin (2 ^ 52))⟩, ⟨S, .l131, raceLoc g₂, none⟩]⟩ := by
    rw [exec_runs 1036 (t := ⟨S, .l662, (atMin Stat.init 0).2.1, none⟩) rfl,
      runs_add (m := 1034) (n := 2) (runs_iter (t := ⟨S, .l662, (atMin Stat.init 0).2.1, none⟩) (race_first g₂)), runs_select _ _ rfl]
    rfl
  have h4 : (⟨Stat.ready, [⟨S, .done, endLoc, some (.fin (2 ^ 52))⟩, ⟨S, .l131, raceLoc g₂, none⟩]⟩ : Sys).exec (List.replicate 3 (.run 1)) =
      some ⟨spoilt, [⟨S, .done, endLoc, some (.fin (2 ^ 52))⟩, ⟨S, .done, raceLoc g₂, some (.inf false)⟩]⟩ := by
    rw [exec_runs 3 (t := ⟨S, .l131, raceLoc g₂, none⟩) rfl, runs_add (m := 1) (n := 2) (runs_iter (t := ⟨S, .l131, raceLoc g₂, none⟩) (race_last g₂)),
      runs_select _ _ rfl]
    rfl
  unfold race
  rw [exec_append, exec_append, exec_append, h1, Option.bind_some, h2, Option.bind_some, h3, Option.bind_some, h4]

/-- **C108 violated.** Two threads whose first inversions overlap can spoil the safe minimum for the rest of the program: there is an interleaving
of two calls after which one of them has infinity as its safe minimum, and so has every call that any thread makes from then on, however long
the program runs. -/
theorem C108_race_violation (g₁ g₂ : Bool) : ∃ ops y, (Sys.start 2).exec ops = some y ∧ (∃ t, y.th[1]? = some t ∧ t.pc = .done ∧ t.res = some (.inf false)) ∧
    ∀ ops' y', y.exec ops' = some y' → ∀ (i : Nat) (t : Thread), y'.th[i]? = some t → t.pc = .done → y.th[i]? ≠ some t → t.c = 'S'.toNat → t.res = some (.inf false) := by
  refine ⟨race g₁ g₂, _, race_exec g₁ g₂, ⟨_, rfl, rfl, rfl⟩, ?_⟩
  intro ops' y' h i t hi htd hnew hc
  have h0 : ∀ t ∈ [(⟨'S'.toNat, .done, endLoc, some (.fin (2 ^ 52))⟩ : Thread), ⟨'S'.toNat, .done, raceLoc g₂, some (.inf false)⟩], t.pc = .done := by
    intro t ht
    rcases List.mem_cons.1 ht with rfl | ht
    · rfl
    · rw [List.mem_singleton.1 ht]
  obtain ⟨-, h2⟩ := exec_settled (s := spoilt) rfl h0 ops' (fun i t hi => Or.inl hi) h
  rcases h2 i t hi with h | h | h | ⟨-, h⟩
  · exact absurd h hnew
  · rw [h] at htd; exact absurd htd (by decide)
  · rw [h] at htd; exact absurd htd (by decide)
  · rw [h, hc]; rfl

/-! ### What the safe minimum does to the factors -/

/-- The multiplier of one row below the pivot `p`, ext/clapack/src/dgetf2.c:159-170, in double precision. -/
def multiplier (sfmin p x : B64) : B64 :=
  if le sfmin (B64.abs p) then mul (div (ofInt 1) p) x else div x p

/-- **C108 violated.** After the race the factors of matrices are not the same: a row that is equal to the row of the pivot, 49, has the multiplier 1 with
a spoilt safe minimum and another one with the right one. -/
theorem C108_factors_violation : multiplier (.inf false) (ofInt 49) (ofInt 49) = ofInt 1 ∧ multiplier (.fin (2 ^ 52)) (ofInt 49) (ofInt 49) ≠ ofInt 1 := by
  decide +kernel

end QM.Machine

namespace QM.Lapack

variable {K : Type} [Field K] [LinearOrder K]

theorem divLoop_eq {d : K} (hd : d ≠ 0) {p q : Nat} {a : List K} (ha : a[p]? = some d) (n : Nat) (hpq : ∀ i < n, q + i ≠ p) :
    loop n (fun i a => do
      let x ← a[q + i]?
      let d ← a[p]?
      let z ← dv x d
      wr a (q + i) z) a = loop n (fun i a => scaleAt a (1 / d) (q + i)) a ∧
    ∀ a', loop n (fun i a => scaleAt a (1 / d) (q + i)) a = some a' → a'[p]? = some d := by
  induction n with
  | zero => exact ⟨rfl, fun a' h => by cases h; exact ha⟩
  | succ n ih =>
    obtain ⟨h1, h2⟩ := ih fun i hi => hpq i (by omega)
    constructor
    · show (loop n _ a).bind _ = (loop n _ a).bind _
      rw [h1]
      cases hl : loop n (fun i a => scaleAt a (1 / d) (q + i)) a with
      | none => rfl
      | some b =>
        have hb := h2 b hl
        show ((b[q + n]?).bind fun x => (b[p]?).bind fun d => (dv x d).bind fun z => wr b (q + n) z) = (b[q + n]?).bind fun x => wr b (q + n) (1 / d * x)
        rw [hb]
        congr 1
        funext x
        show (dv x d).bind _ = _
        rw [dv, if_neg hd, Option.bind_some]
        congr 1
        rw [one_div, mul_comm, div_eq_mul_inv]
    · intro a' h
      have h' : (loop n (fun i a => scaleAt a (1 / d) (q + i)) a).bind (fun a => scaleAt a (1 / d) (q + n)) = some a' := h
      cases hl : loop n (fun i a => scaleAt a (1 / d) (q + i)) a with
      | none => rw [hl] at h'; exact absurd h' (by simp)
      | some b =>
        rw [hl, Option.bind_some] at h'
        have hb := h2 b hl
        have h'' : ((b[q + n]?).bind fun x => wr b (q + n) (1 / d * x)) = some a' := h'
        cases hx : b[q + n]? with
        | none => rw [hx] at h''; exact absurd h'' (by simp)
        | some x =>
          rw [hx, Option.bind_some] at h''
          have hlt : q + n < b.length := (List.getElem?_eq_some_iff.1 hx).1
          rw [wr_some _ hlt] at h''
          cases h''
          rw [List.getElem?_set_ne (hpq n (by omega))]
          exact hb

theorem scaleColumn_any (s₁ s₂ : K) : scaleColumn (K := K) s₁ = scaleColumn s₂ := by
  funext a m o lda j
  have key : ∀ s : K, scaleColumn s a m o lda j = if j + 1 < m then (a[o + j + j * lda]?).bind fun d =>
      if d = 0 then none else loop (m - (j + 1)) (fun i a => scaleAt a (1 / d) (o + (j + 1) + j * lda + i)) a else some a := by
    intro s
    unfold scaleColumn
    by_cases hm : j + 1 < m
    · rw [if_pos hm, if_pos hm]
      show (a[o + j + j * lda]?).bind _ = _
      cases hp : a[o + j + j * lda]? with
      | none => rfl
      | some d =>
        simp only [Option.bind_some]
        by_cases hd : d = 0
        · rw [if_pos hd]
          split
          · rw [dv, if_pos hd]; rfl
          · refine loop_none_of_le (m := 1) (by omega) ?_
            show ((a[o + (j + 1 + 0) + j * lda]?).bind fun x => (a[o + j + j * lda]?).bind fun d => (dv x d).bind fun q => _) = none
            rw [hp]
            cases a[o + (j + 1 + 0) + j * lda]? with
            | none => rfl
            | some x =>
              show (dv x d).bind _ = none
              rw [dv, if_pos hd]; rfl
        · rw [if_neg hd]
          split
          · rw [dv, if_neg hd]
            show dscal a (m - (j + 1)) (1 / d) (o + (j + 1) + j * lda) = _
            rw [dscal_eq]
          · have := (divLoop_eq hd hp (q := o + (j + 1) + j * lda) (m - (j + 1)) (fun i _ => by omega)).1
            rw [← this]
            have e : ∀ i, o + (j + 1 + i) + j * lda = o + (j + 1) + j * lda + i := fun i => by omega
            simp only [e]
    · rw [if_neg hm, if_neg hm]
  rw [key s₁, key s₂]

theorem dgetf2_any (s₁ s₂ : K) : dgetf2 (K := K) s₁ = dgetf2 s₂ := by
  funext m n o lda po a piv
  unfold dgetf2 getf2Step pivotColumn
  rw [scaleColumn_any s₁ s₂]

theorem dgetrf_any (nb : Nat) (s₁ s₂ : K) : dgetrf (K := K) nb s₁ = dgetrf nb s₂ := by
  funext m n lda a piv
  unfold dgetrf getrfStep
  rw [dgetf2_any s₁ s₂]

end QM.Lapack

namespace QM.Machine

/-- **C108** (what holds) Without rounding the safe minimum makes no difference: whatever it is, the inverse and the determinant of every matrix are the same.
A safe minimum of infinity acts like every number that is larger than all the pivots. -/
theorem C108_invert_partial (s₁ s₂ : ℝ) (L : Nat) (cov icov : List (List ℝ)) (a : List ℝ) (ipiv : List Nat) (work : List ℝ) :
    Hmm.invert s₁ L cov icov a ipiv work = Hmm.invert s₂ L cov icov a ipiv work := by
  unfold Hmm.invert
  rw [Lapack.dgetrf_any Lapack.blockSize s₁ s₂]

end QM.Machine
