import Verif.Win.Condition
import Verif.Condition.Lemmas

/-!
# C124: the condition of the Windows build
-/

namespace QM.WinCondition

open QM.Condition (Ev inside Proper inWait isSet pending Protocol proper_cons protocol_cons isSet_cons pending_isSet)

structure Inv (s : State) (h : List Ev) : Prop where
  inside : ∀ t, inside h t ↔ s.owner = some t ∧ ¬ (s.pc t = .lockWr ∨ s.pc t = .waitWr)
  has : ∀ t, s.pc t = .lockWr ∨ s.pc t = .waitWr ∨ s.pc t = .unRd ∨ s.pc t = .unWr ∨ s.pc t = .unPut → s.owner = some t
  hasIn : ∀ t b, s.pc t = .waitIn b → s.owner = some t
  hasNot : ∀ t, s.pc t = .lockGet ∨ s.pc t = .woken → s.owner ≠ some t
  away : ∀ t b, s.pc t = .asleep b → s.owner ≠ some t
  flag : ∀ t, s.owner = some t → ¬ (s.pc t = .lockWr ∨ s.pc t = .waitWr ∨ s.pc t = .unPut) → s.locked = true
  count : s.count = if s.owner = none then 0 else 1

theorem inv_init : Inv init [] := by
  constructor <;> simp [init, inside]

theorem release_eq {s : State} {t : Nat} (h : s.owner = some t) (hc : s.count = if s.owner = none then 0 else 1) :
    s.release t = { s with owner := none, count := 0 } := by
  rw [h] at hc
  simp at hc
  simp [State.release, h, hc]

theorem inv_step {s h e s'} (hs : Inv s h) (hp : Proper (e :: h)) (hn : Step s e s') : Inv s' (e :: h) := by
  obtain ⟨h2, h3, h3', h4, h4', h5, h6⟩ := hs
  cases hn <;> simp only [Proper] at hp
  case unPut t hpc =>
    rw [release_eq (h3 t (by simp [hpc])) h6]
    constructor <;> (try simp only [State.go, Function.update_apply, inside]) <;> grind
  case waitIn t timed hpc ho =>
    rw [release_eq ho h6]
    constructor <;> (try simp only [State.go, Function.update_apply, inside]) <;> grind
  all_goals constructor <;> (try simp only [State.go, State.take, Function.update_apply, inside]) <;> grind

theorem inv_reach {s h} (hr : Reach s h) (hp : Proper h) : Inv s h := by
  induction hr with
  | init => exact inv_init
  | step _ hn ih => exact inv_step (ih (proper_cons hp)) hp hn

/-- What the documented use adds, with one waiting thread. -/
structure PInv (w : Nat) (s : State) (h : List Ev) : Prop where
  pend : ∀ t, pending h t → inside h t ∧ (s.pc t = .idle ∨ s.pc t = .sig)
  notSet : ∀ t b, s.pc t = .waitIn b → ¬ isSet h
  waits : ∀ t b, s.pc t = .waitIn b ∨ s.pc t = .asleep b → t = w
  lost : ∀ b, s.pc w = .asleep b → isSet h → s.event = true ∨ ∃ u, pending h u

theorem pinv_step {w s h e s'} (hi : Inv s h) (hs : PInv w s h) (hp : Proper (e :: h)) (hq : Protocol (· = w) (e :: h)) (hn : Step s e s') :
    PInv w s' (e :: h) := by
  have hi' := inv_step hi hp hn
  obtain ⟨h2, h3, h3', h4, h4', -, h6⟩ := hi
  obtain ⟨g1, g2, g3, g4⟩ := hs
  have g5 : ∀ t, pending h t → isSet h := fun t ht => pending_isSet ht
  cases hn <;> simp only [Proper] at hp <;> simp only [Protocol] at hq
  case unPut t hpc =>
    rw [release_eq (h3 t (by simp [hpc])) h6]
    constructor <;> (try simp only [State.go, Function.update_apply, inside, pending, isSet_cons]) <;> grind
  case waitIn t timed hpc ho =>
    rw [release_eq ho h6]
    constructor <;> (try simp only [State.go, Function.update_apply, inside, pending, isSet_cons]) <;> grind
  case wake t timed hpc he =>
    have htw := g3 t timed (.inr hpc)
    constructor <;> (try simp only [State.go, Function.update_apply, inside, pending, isSet_cons]) <;> grind
  all_goals constructor <;> (try simp only [State.go, State.take, Function.update_apply, inside, pending, isSet_cons]) <;> grind

theorem pinv_reach {w s h} (hr : Reach s h) (hp : Proper h) (hq : Protocol (· = w) h) : PInv w s h := by
  induction hr with
  | init => constructor <;> simp [init, pending, isSet]
  | step hr hn ih =>
    exact pinv_step (inv_reach hr (proper_cons hp)) (ih (proper_cons hp) (protocol_cons hq)) hp hq hn

/-- **C124** Mutual exclusion: no two threads have the object locked at the same time. -/
theorem C124_mutual_exclusion {s h} (hr : Reach s h) (hp : Proper h) (t u : Nat) (ht : inside h t) (hu : inside h u) : t = u := by
  have hi := inv_reach hr hp
  have h1 := ((hi.inside t).mp ht).1
  have h2 := ((hi.inside u).mp hu).1
  rw [h1] at h2
  exact Option.some.inj h2

/-- **C124** `lock` and `wait` return only when nobody has the object, and then the calling thread has it: it is locked again when `wait`
returns. -/
theorem C124_acquire {s h} (t : Nat) (e : Ev) (he : e = .locked t ∨ e = .waited t) (hr : Reach s (e :: h)) (hp : Proper h) :
    (∀ u, ¬ inside h u) ∧ inside (e :: h) t := by
  cases hr with
  | step hr hn =>
    obtain ⟨h2, h3, -⟩ := inv_reach hr hp
    rcases he with rfl | rfl <;> cases hn <;> refine ⟨fun u hu => ?_, .inl rfl⟩ <;> grind

/-- **C124** While a thread sleeps in `wait` it does not have the object: others can lock it. -/
theorem C124_wait_unlocks {s h} (t : Nat) (hr : Reach s (.sleeps t :: h)) (hp : Proper h) :
    inside h t ∧ (∀ u, ¬ inside (.sleeps t :: h) u) ∧ s.owner = none := by
  have hp' : Proper (.sleeps t :: h) := hp
  have hx : inside h t ∧ s.owner = none := by
    cases hr with
    | step hr hn =>
      obtain ⟨h2, h3, h3', -, -, -, h6⟩ := inv_reach hr hp
      cases hn with
      | waitIn t timed hpc ho =>
        refine ⟨by grind, ?_⟩
        rw [release_eq ho h6]
        rfl
  refine ⟨hx.1, fun u hu => ?_, hx.2⟩
  have := ((inv_reach hr hp').inside u).mp hu
  rw [hx.2] at this
  cases this.1

/-- **C124** `unlock` always gives the object back: it is never ignored, and after it nobody has the object. -/
theorem C124_unlock {s h} (t : Nat) : (Proper h → ¬ Reach s (.ignored t :: h)) ∧
    (Proper h → Reach s (.unlocked t :: h) → inside h t ∧ s.owner = none ∧ ∀ u, ¬ inside (.unlocked t :: h) u) := by
  refine ⟨fun hp hr => ?_, fun hp hr => ?_⟩
  · cases hr with
    | step hr hn =>
      obtain ⟨h2, h3, -, -, -, h5, -⟩ := inv_reach hr hp
      cases hn
      grind
  · have hp' : Proper (.unlocked t :: h) := hp
    have hx : inside h t ∧ s.owner = none := by
      cases hr with
      | step hr hn =>
        obtain ⟨h2, h3, h3', -, -, -, h6⟩ := inv_reach hr hp
        cases hn with
        | unPut t hpc =>
          have ho := h3 t (by simp [hpc])
          refine ⟨by grind, ?_⟩
          rw [release_eq ho h6]
          rfl
    refine ⟨hx.1, hx.2, fun u hu => ?_⟩
    have := ((inv_reach hr hp').inside u).mp hu
    rw [hx.2] at this
    cases this.1

/-- **C124** Whatever the use, even `unlock` in a thread that never locked: it does not take the mutex of Windows away from the thread that has it. -/
theorem C124_foreign_unlock {s s'} (t u : Nat) (hn : Step s (.unlocked t) s') (hu : s.owner = some u) (htu : u ≠ t) : s'.owner = some u ∧ s'.count = s.count := by
  cases hn
  have : s.release t = s := if_neg (by rw [hu]; exact fun h => htu (Option.some.inj h))
  simp [State.go, this, hu]

/-- A thread that has the object while another one calls `unlock`. -/
example : ∃ s s', Step s (.unlocked 1) s' ∧ s.owner = some 0 ∧ (0 : Nat) ≠ 1 ∧ ∃ h, Reach s h := by
  have hr := Reach.step (.step (.step (.step (.step (.step .init (.callLock 0 rfl)) (.lockGet 0 rfl (.inl rfl))) (.lockWr 0 rfl)) (.callUnlock 1 rfl))
    (.unRdYes 1 rfl rfl)) (.unWr 1 rfl)
  exact ⟨_, _, .unPut 1 rfl, rfl, by decide, _, hr⟩

/-- **C124** No signal is lost: in the documented use, with one waiting thread `w` and any number of threads that set the data, the waiting thread is
asleep after the data have been set only while the thread that has set them still has the object locked and has not signalled yet; otherwise it
can go on. -/
theorem C124_no_lost_signal {s h} (w : Nat) (hr : Reach s h) (hp : Proper h) (hq : Protocol (· = w) h) {b : Bool} (ha : s.pc w = .asleep b) (hs : isSet h) :
    (∃ u, pending h u ∧ inside h u ∧ u ≠ w) ∨ ∃ s', Step s (.silent w) s' ∧ s'.pc w = .woken := by
  have hi := inv_reach hr hp
  have hpi := pinv_reach hr hp hq
  rcases hpi.lost b ha hs with he | ⟨u, hu⟩
  · exact .inr ⟨_, .wake w b ha he, by simp [State.go]⟩
  · refine .inl ⟨u, hu, (hpi.pend u hu).1, ?_⟩
    rintro rfl
    exact hi.away u b ha ((hi.inside u).mp (hpi.pend u hu).1).1

/-- **C124** A thread that waits without a time limit goes on only if there has been a signal: the step takes the signal away. There are no wake-ups
without a reason. -/
theorem C124_wake_needs_signal {s s' e t} (ha : s.pc t = .asleep false) (hn : Step s e s') (hm : s'.pc t ≠ .asleep false) :
    s.event = true ∧ s'.event = false := by
  have hr : ∀ u, (s.release u).pc = s.pc := fun u => by unfold State.release; split <;> rfl
  cases hn <;> (try simp only [State.go, State.take, Function.update_apply, hr] at hm ⊢) <;> grind

/-- **C124** Where there is a signal to wake a thread, somebody has given it. -/
theorem C124_no_spurious {s h} (hr : Reach s h) (he : s.event = true) : ∃ t, Ev.signalled t none ∈ h := by
  induction hr with
  | init => cases he
  | step hr hn ih =>
    cases hn <;> (try simp only [State.go, State.take, State.release] at he)
    case sig t _ => exact ⟨t, List.mem_cons_self⟩
    case unPut t _ =>
      have : ∃ t, Ev.signalled t none ∈ _ := ih (by split at he <;> exact he)
      exact this.imp fun t ht => List.mem_cons_of_mem _ ht
    case waitIn t _ _ _ =>
      have : ∃ t, Ev.signalled t none ∈ _ := ih (by split at he <;> exact he)
      exact this.imp fun t ht => List.mem_cons_of_mem _ ht
    case wake => cases he
    all_goals exact (ih he).imp fun t ht => List.mem_cons_of_mem _ ht

/-- **C124** No data race: no two threads are about to access the member of the object at the same time. -/
theorem C124_no_data_race {s h} (hr : Reach s h) (hp : Proper h) (t u : Nat) (ht : s.pc t = .lockWr ∨ s.pc t = .unRd ∨ s.pc t = .unWr ∨ s.pc t = .waitWr)
    (hu : s.pc u = .lockWr ∨ s.pc u = .unRd ∨ s.pc u = .unWr ∨ s.pc u = .waitWr) : t = u := by
  obtain ⟨-, h3, -⟩ := inv_reach hr hp
  have h1 := h3 t (by grind)
  have h2 := h3 u (by grind)
  rw [h1] at h2
  exact Option.some.inj h2

/-- **C124** No thread is stuck: if a thread is in a call and is not asleep, then some thread has the object or some thread that is in a call
and not asleep can take a step. -/
theorem C124_progress {s h} (hr : Reach s h) (hp : Proper h) (t : Nat) (ht : s.pc t ≠ .idle) (ha : ∀ b, s.pc t ≠ .asleep b) :
    (∃ u, inside h u) ∨ ∃ u e s', Step s e s' ∧ (∀ b, s.pc u ≠ .asleep b) ∧ s.pc u ≠ .idle ∧ s'.pc u ≠ s.pc u := by
  have hi := inv_reach hr hp
  cases ho : s.owner with
  | some u =>
    by_cases hg : s.pc u = .lockWr ∨ s.pc u = .waitWr
    · right
      rcases hg with hg | hg
      · exact ⟨u, _, _, .lockWr u hg, by simp [hg], by simp [hg], by simp [State.go, hg]⟩
      · exact ⟨u, _, _, .waitWr u hg, by simp [hg], by simp [hg], by simp [State.go, hg]⟩
    · exact .inl ⟨u, (hi.inside u).mpr ⟨ho, hg⟩⟩
  | none =>
    right
    have hh := hi.has t
    have hh' := hi.hasIn t
    rw [ho] at hh hh'
    cases hq : s.pc t
    case idle => exact absurd hq ht
    case asleep b => exact absurd hq (ha b)
    case lockGet => exact ⟨t, _, _, .lockGet t hq (.inl ho), by simp [hq], by simp [hq], by simp [State.go, hq]⟩
    case woken => exact ⟨t, _, _, .woken t hq (.inl ho), by simp [hq], by simp [hq], by simp [State.go, hq]⟩
    case sig => exact ⟨t, _, _, .sig t hq, by simp [hq], by simp [hq], by simp [State.go, hq]⟩
    case waitIn b => exact absurd (hh' b hq) (by simp)
    all_goals exact absurd (hh (by simp [hq])) (by simp)

/-- **C124** Time limits: for a positive number of microseconds the limit is at least a millisecond, never infinite and, from a millisecond on, less than a
millisecond too short. -/
theorem C124_limit (us : Int) (h : 0 < us) (h2 : us < 2147483648) :
    ∃ ms : Nat, limit us = some ms ∧ 1 ≤ ms ∧ (1000 ≤ us → ms * 1000 ≤ us ∧ us < ms * 1000 + 1000) ∧ (us < 1000 → ms = 1) := by
  have h3 : Int.tdiv us 1000 = us / 1000 := Int.tdiv_eq_ediv_of_nonneg (by omega)
  have h4 : us / 1000 % 4294967296 = us / 1000 := Int.emod_eq_of_lt (by omega) (by omega)
  obtain ⟨k, hk⟩ : ∃ k : Nat, us / 1000 = k := ⟨(us / 1000).toNat, by omega⟩
  unfold limit
  rw [if_neg (by omega : ¬us = 0), h3, h4, hk]
  simp only [Int.toNat_natCast]
  by_cases h5 : k = 0
  · subst h5
    have e : (if us > 0 ∧ 0 = 0 then 1 else 0) = 1 := if_pos ⟨h, rfl⟩
    rw [e]
    exact ⟨1, rfl, by omega, by omega, fun _ => rfl⟩
  · have e : (if us > 0 ∧ k = 0 then 1 else k) = k := if_neg fun hc => h5 hc.2
    rw [e, if_neg (by omega : ¬k = 4294967295)]
    exact ⟨k, rfl, by omega, by omega, by omega⟩

/-- **C124** A small negative time is no time, but from -1000 to -1999 microseconds it is for ever. -/
theorem C124_limit_violation (us : Int) (h : -2000 < us) (h2 : us < 0) : limit us = if us ≤ -1000 then none else some 0 := by
  have h3 : Int.tdiv us 1000 = if us ≤ -1000 then -1 else 0 := by
    have : Int.tdiv us 1000 = -((-us) / 1000) := by
      rw [← Int.tdiv_eq_ediv_of_nonneg (by omega), Int.neg_tdiv, Int.neg_neg]
    rw [this]
    split <;> omega
  have h4 : ¬ us > 0 := by omega
  unfold limit
  rw [if_neg (by omega : ¬us = 0), h3]
  split <;> simp [h4]

/-- **C124** A signal that nobody waits for is kept: thread 1 locks, waits and goes on although nobody signals after its call (in the pthreads build such a
signal has no effect). A wait must be repeated until the data are there. -/
theorem C124_old_signal_violation : ∃ s h h', Reach s (.waited 1 :: h ++ .callWait 1 :: h') ∧ (∀ t x, Ev.signalled t x ∉ h) ∧ Proper (.waited 1 :: h ++ .callWait 1 :: h') := by
  refine ⟨_, [.silent 1, .silent 1, .sleeps 1], [.locked 1, .silent 1, .callLock 1, .signalled 2 none, .callSignal 2],
    .step (.step (.step (.step (.step (.step (.step (.step (.step (.step .init (.callSignal 2 rfl)) (.sig 2 rfl)) (.callLock 1 rfl)) (.lockGet 1 rfl (.inl rfl))) (.lockWr 1 rfl))
      (.callWait 1 false rfl)) (.waitIn 1 false rfl rfl)) (.wake 1 false rfl rfl)) (.woken 1 rfl (.inl rfl))) (.waitWr 1 rfl), by simp, by simp [Proper, inside]⟩

/-- **C124** Two signals can become one: threads 1 and 2 sleep, thread 3 signals twice, thread 1 goes on and thread 2 sleeps on, with no signal
left. -/
theorem C124_merged_violation : ∃ s h h', Reach s (h ++ h') ∧ Proper (h ++ h') ∧ Ev.sleeps 1 ∈ h' ∧ Ev.sleeps 2 ∈ h' ∧
    h.filter (fun e => e = .signalled 3 none) = [.signalled 3 none, .signalled 3 none] ∧ s.pc 2 = .asleep false ∧ s.event = false := by
  refine ⟨_, [.waited 1, .silent 1, .silent 1, .signalled 3 none, .callSignal 3, .signalled 3 none, .callSignal 3],
    [.sleeps 2, .callWait 2, .locked 2, .silent 2, .callLock 2, .sleeps 1, .callWait 1, .locked 1, .silent 1, .callLock 1],
    .step (.step (.step (.step (.step (.step (.step (.step (.step (.step (.step (.step (.step (.step (.step (.step (.step .init
      (.callLock 1 rfl)) (.lockGet 1 rfl (.inl rfl))) (.lockWr 1 rfl)) (.callWait 1 false rfl)) (.waitIn 1 false rfl rfl))
      (.callLock 2 rfl)) (.lockGet 2 rfl (.inl rfl))) (.lockWr 2 rfl)) (.callWait 2 false rfl)) (.waitIn 2 false rfl rfl))
      (.callSignal 3 rfl)) (.sig 3 rfl)) (.callSignal 3 rfl)) (.sig 3 rfl)) (.wake 1 false rfl rfl)) (.woken 1 rfl (.inl rfl))) (.waitWr 1 rfl),
    by simp [Proper, inside], by simp, by simp, by decide, rfl, rfl⟩

example : ∃ s h, Reach s h ∧ Proper h ∧ Protocol (· = 1) h ∧ s.pc 1 = .asleep false ∧ isSet h ∧ (∀ u, ¬ pending h u) ∧ s.event = true := by
  refine ⟨_, [.signalled 3 none, .callSignal 3, .set 3, .locked 3, .silent 3, .callLock 3, .sleeps 1, .callWait 1, .locked 1, .silent 1, .callLock 1],
    .step (.step (.step (.step (.step (.step (.step (.step (.step (.step (.step .init (.callLock 1 rfl)) (.lockGet 1 rfl (.inl rfl))) (.lockWr 1 rfl)) (.callWait 1 false rfl))
      (.waitIn 1 false rfl rfl)) (.callLock 3 rfl)) (.lockGet 3 rfl (.inl rfl))) (.lockWr 3 rfl)) (.set 3 rfl)) (.callSignal 3 rfl)) (.sig 3 rfl),
    by simp [Proper, inside], by simp [Protocol, isSet, inside], rfl, by simp [isSet], by simp [pending], rfl⟩

example : limit 2500 = some 2 ∧ limit 3 = some 1 ∧ limit 0 = none ∧ limit (-1500) = none := by decide

end QM.WinCondition
