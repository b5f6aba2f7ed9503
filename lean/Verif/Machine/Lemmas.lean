import Verif.Machine.Run

/-!
# Histories of calls of `dlamch_`
-/

namespace QM.Machine

open B64 (ofInt add mul div neg lt eq le)

theorem exec_append (y : Sys) (p q : List Op) : y.exec (p ++ q) = (y.exec p).bind fun y => y.exec q := by
  induction p generalizing y with
  | nil => rfl
  | cons o p ih =>
    show (y.next o).bind _ = ((y.next o).bind _).bind _
    cases y.next o with
    | none => rfl
    | some z => exact ih z

theorem exec_call {s : Stat} {th : List Thread} {i : Nat} {t : Thread} (h : th[i]? = some t) (hd : t.pc = .done) (c : Nat) (g : Bool) (ops : List Op) :
    (⟨s, th⟩ : Sys).exec (.call i c g :: ops) = (⟨s, th.set i ⟨c, .l108, Loc.init g, none⟩⟩ : Sys).exec ops := by
  show ((th[i]?).bind fun t => if t.pc = .done then some (⟨s, th.set i ⟨c, .l108, Loc.init g, none⟩⟩ : Sys) else none).bind
      (fun y => y.exec ops) = _
  rw [h, Option.bind_some, if_pos hd, Option.bind_some]

/-- Several steps of a thread on its own. -/
def runs : Nat → Thread × Stat → Option (Thread × Stat)
  | 0, x => some x
  | n + 1, x => (stepThread x.1 x.2).bind (runs n)

theorem runs_add {m n : Nat} {x y : Thread × Stat} (h : runs m x = some y) : runs (m + n) x = runs n y := by
  induction m generalizing x with
  | zero => cases h; rw [Nat.zero_add]
  | succ m ih =>
    rw [Nat.succ_add]
    show (stepThread x.1 x.2).bind (runs (m + n)) = _
    have h' : (stepThread x.1 x.2).bind (runs m) = some y := h
    cases hs : stepThread x.1 x.2 with
    | none => rw [hs] at h'; exact absurd h' (by simp)
    | some z => rw [hs] at h'; exact ih h'

theorem runs_done {x : Thread × Stat} (h : x.1.pc = .done) (n : Nat) : runs (n + 1) x = none := by
  have : stepThread x.1 x.2 = none := by unfold stepThread; rw [h]
  show (stepThread x.1 x.2).bind _ = none
  rw [this]; rfl

/-- A thread on its own ends in one way. -/
theorem runs_unique {m n : Nat} {x y z : Thread × Stat} (h1 : runs m x = some y) (hy : y.1.pc = .done) (h2 : runs n x = some z) (hz : z.1.pc = .done) :
    z = y := by
  rcases Nat.lt_trichotomy m n with h | h | h
  · obtain ⟨d, rfl⟩ := Nat.exists_eq_add_of_lt h
    rw [Nat.add_assoc, runs_add h1, runs_done hy] at h2
    exact absurd h2 (by simp)
  · subst h
    exact Option.some_injective _ (h2.symm.trans h1)
  · obtain ⟨d, rfl⟩ := Nat.exists_eq_add_of_lt h
    rw [Nat.add_assoc, runs_add h2, runs_done hz] at h1
    exact absurd h1 (by simp)

theorem exec_runs {i : Nat} (n : Nat) {s : Stat} {th : List Thread} {t : Thread} (h : th[i]? = some t) :
    (⟨s, th⟩ : Sys).exec (List.replicate n (.run i)) = (runs n (t, s)).map fun r => ⟨r.2, th.set i r.1⟩ := by
  induction n generalizing s th t with
  | zero =>
    show some (⟨s, th⟩ : Sys) = some ⟨s, th.set i t⟩
    obtain ⟨hi, rfl⟩ := List.getElem?_eq_some_iff.1 h
    rw [List.set_getElem_self]
  | succ n ih =>
    have h1 : (⟨s, th⟩ : Sys).next (.run i) = (stepThread t s).map fun r => ⟨r.2, th.set i r.1⟩ := by
      show (th[i]?).bind _ = _
      rw [h]
      show (stepThread t s).bind _ = _
      cases stepThread t s <;> rfl
    rw [List.replicate_succ]
    show ((⟨s, th⟩ : Sys).next (.run i)).bind _ = ((stepThread t s).bind (runs n)).map _
    rw [h1]
    obtain ⟨hi, -⟩ := List.getElem?_eq_some_iff.1 h
    cases hs : stepThread t s with
    | none => rfl
    | some r =>
      show (⟨r.2, th.set i r.1⟩ : Sys).exec _ = _
      rw [ih (t := r.1) (by rw [List.getElem?_set_self hi])]
      simp only [List.set_set, Option.bind_some]

theorem step_not_end {pc : Pc} {l : Loc} {s : Stat} {r : Pc × Loc × Stat} (h : step pc l s = some r) : pc ≠ .done ∧ pc ≠ .l135 ∧ pc ≠ .l158 := by
  refine ⟨?_, ?_, ?_⟩ <;> (rintro rfl; simp [step] at h)

theorem stepThread_step {t : Thread} {s : Stat} {r : Pc × Loc × Stat} (h : step t.pc t.l s = some r) :
    stepThread t s = some ({ t with pc := r.1, l := r.2.1 }, r.2.2) := by
  obtain ⟨h1, h2, h3⟩ := step_not_end h
  unfold stepThread
  split
  · exact absurd (by assumption) h1
  · exact absurd (by assumption) h2
  · exact absurd (by assumption) h3
  · rw [h]; rfl

theorem runs_iter {n : Nat} {t : Thread} {s s' : Stat} {pc' : Pc} {l' : Loc} (h : iter n (t.pc, t.l, s) = some (pc', l', s')) :
    runs n (t, s) = some ({ t with pc := pc', l := l' }, s') := by
  induction n generalizing t s with
  | zero => cases h; rfl
  | succ n ih =>
    have h' : (step t.pc t.l s).bind (iter n) = some (pc', l', s') := h
    cases hs : step t.pc t.l s with
    | none => rw [hs] at h'; exact absurd h' (by simp)
    | some r =>
      rw [hs] at h'
      show (stepThread t s).bind (runs n) = _
      rw [stepThread_step hs]
      exact ih (t := { t with pc := r.1, l := r.2.1 }) h'

/-- The last two steps of a call. -/
theorem runs_select (t : Thread) (s : Stat) (h : t.pc = .l135) :
    runs 2 (t, s) = some ({ t with res := select t.c s, pc := .done }, { s with first := false }) := by
  have h1 : stepThread t s = some ({ t with res := select t.c s, pc := .l158 }, s) := by unfold stepThread; rw [h]
  show (stepThread t s).bind (runs 1) = _
  rw [h1]
  rfl

/-- The static variables after the first call. -/
def Stat.ready : Stat := { Stat.computed with first := false }

theorem runs_first (c : Nat) (g : Bool) (r : Option B64) :
    runs 1222 (⟨c, .l108, Loc.init g, r⟩, Stat.init) = some (⟨c, .done, endLoc, select c Stat.computed⟩, Stat.ready) := by
  have h := runs_iter (t := ⟨c, .l108, Loc.init g, r⟩) (s := Stat.init) (run_first g)
  rw [runs_add (m := 1220) (n := 2) h, runs_select _ _ rfl]
  rfl

theorem select_ready (c : Nat) : select c Stat.ready = select c Stat.computed := rfl

theorem runs_later (c : Nat) (g : Bool) (r : Option B64) {s : Stat} (hs : s.first = false) :
    runs 3 (⟨c, .l108, Loc.init g, r⟩, s) = some (⟨c, .done, Loc.init g, select c s⟩, s) := by
  have h : iter 1 (.l108, Loc.init g, s) = some (.l135, Loc.init g, s) := by
    show some ((if s.first then Pc.l505 else .l135), Loc.init g, s) = _
    rw [hs]; rfl
  rw [runs_add (m := 1) (n := 2) (runs_iter (t := ⟨c, .l108, Loc.init g, r⟩) h), runs_select _ _ rfl]
  congr 2
  rw [← hs]

/-! ### Once the constants are there -/

/-- A thread that has not begun a call since the constants are there, or is in a call that only reads them, or has ended one. -/
def Reads (s : Stat) (th0 : List Thread) (i : Nat) (t : Thread) : Prop :=
  th0[i]? = some t ∨ t.pc = .l108 ∨ t.pc = .l135 ∨ ((t.pc = .l158 ∨ t.pc = .done) ∧ t.res = select t.c s)

theorem next_settled {s : Stat} (hs : s.first = false) {th0 th : List Thread} (h0 : ∀ t ∈ th0, t.pc = .done)
    (h : ∀ i t, th[i]? = some t → Reads s th0 i t) {o : Op} {y : Sys} (hy : (⟨s, th⟩ : Sys).next o = some y) :
    y.s = s ∧ ∀ i t, y.th[i]? = some t → Reads s th0 i t := by
  have key : ∀ (i : Nat) (u : Thread), (u.pc = .l108 ∨ u.pc = .l135 ∨ ((u.pc = .l158 ∨ u.pc = .done) ∧ u.res = select u.c s)) →
      ∀ j t, (th.set i u)[j]? = some t → Reads s th0 j t := by
    intro i u hu j t hj
    by_cases hij : i = j
    · subst hij
      have hlt : i < th.length := by
        have := (List.getElem?_eq_some_iff.1 hj).1
        rwa [List.length_set] at this
      rw [List.getElem?_set_self hlt] at hj
      cases hj
      exact Or.inr hu
    · rw [List.getElem?_set_ne hij] at hj
      exact h j t hj
  cases o with
  | call i c g =>
    have hy' : (th[i]?).bind (fun t => if t.pc = .done then some (⟨s, th.set i ⟨c, .l108, Loc.init g, none⟩⟩ : Sys) else none) = some y := hy
    cases ht : th[i]? with
    | none => rw [ht] at hy'; exact absurd hy' (by simp)
    | some t =>
      rw [ht, Option.bind_some] at hy'
      split at hy'
      · cases hy'
        exact ⟨rfl, key i _ (Or.inl rfl)⟩
      · exact absurd hy' (by simp)
  | run i =>
    have hy' : (th[i]?).bind (fun t => (stepThread t s).bind fun r => some (⟨r.2, th.set i r.1⟩ : Sys)) = some y := hy
    cases ht : th[i]? with
    | none => rw [ht] at hy'; exact absurd hy' (by simp)
    | some t =>
      rw [ht, Option.bind_some] at hy'
      have hdone : t.pc = .done → False := by
        intro hd
        have : stepThread t s = none := by unfold stepThread; rw [hd]
        rw [this] at hy'; exact absurd hy' (by simp)
      rcases h i t ht with hr | hr | hr | ⟨hr | hr, hres⟩
      · exact (hdone (h0 t (List.mem_of_getElem? hr))).elim
      · have h1 : step t.pc t.l s = some (.l135, t.l, s) := by
          rw [hr]
          show some ((if s.first then Pc.l505 else .l135), t.l, s) = _
          rw [hs]; rfl
        rw [stepThread_step h1] at hy'
        cases hy'
        exact ⟨rfl, key i _ (Or.inr (Or.inl rfl))⟩
      · have h1 : stepThread t s = some ({ t with res := select t.c s, pc := .l158 }, s) := by unfold stepThread; rw [hr]
        rw [h1] at hy'
        cases hy'
        exact ⟨rfl, key i _ (Or.inr (Or.inr ⟨Or.inl rfl, rfl⟩))⟩
      · have h1 : stepThread t s = some ({ t with pc := .done }, { s with first := false }) := by unfold stepThread; rw [hr]
        rw [h1] at hy'
        cases hy'
        have e : { s with first := false } = s := by rw [← hs]
        exact ⟨e, key i _ (Or.inr (Or.inr ⟨Or.inr rfl, hres⟩))⟩
      · exact (hdone hr).elim

theorem exec_settled {s : Stat} (hs : s.first = false) {th0 : List Thread} (h0 : ∀ t ∈ th0, t.pc = .done) (ops : List Op) :
    ∀ {th : List Thread}, (∀ i t, th[i]? = some t → Reads s th0 i t) → ∀ {y : Sys}, (⟨s, th⟩ : Sys).exec ops = some y →
      y.s = s ∧ ∀ i t, y.th[i]? = some t → Reads s th0 i t := by
  induction ops with
  | nil => intro th h y hy; cases hy; exact ⟨rfl, h⟩
  | cons o ops ih =>
    intro th h y hy
    have hy' : ((⟨s, th⟩ : Sys).next o).bind (fun y => y.exec ops) = some y := hy
    cases hn : (⟨s, th⟩ : Sys).next o with
    | none => rw [hn] at hy'; exact absurd hy' (by simp)
    | some z =>
      rw [hn, Option.bind_some] at hy'
      obtain ⟨hz1, hz2⟩ := next_settled hs h0 h hn
      obtain ⟨zs, zth⟩ := z
      dsimp only at hz1 hz2
      subst hz1
      exact ih hz2 hy'

end QM.Machine
