import Verif.Condition.Lemmas

/-!
# C76: what a condition guarantees, for any number of threads and any interleaving

For threads that use the object as documented (`Proper`), up to one waiting thread per condition for `C76_no_lost_signal`. The three last theorems
show what is not guaranteed otherwise.
-/

namespace QM.Condition

/-- **C76** Mutual exclusion: no two threads have the object locked at the same time. -/
theorem C76_mutual_exclusion {s h} (hr : Reach s h) (hp : Proper h) (t u : Nat) (ht : inside h t) (hu : inside h u) : t = u := by
  have hi := inv_reach hr hp
  have h1 := ((hi.inside t).mp ht).1
  have h2 := ((hi.inside u).mp hu).1
  rw [h1] at h2
  exact Option.some.inj h2

/-- **C76** The `pthread_mutex_t` is never unlocked or waited with by a thread that does not hold it (which is undefined). -/
theorem C76_no_undefined {s h} (hr : Reach s h) (hp : Proper h) : s.ub = false := (inv_reach hr hp).ub

/-- **C76** `lock` and `wait` return only when nobody has the object, and then the calling thread has it: it is locked again when `wait`
returns. -/
theorem C76_acquire {s h} (t : Nat) (e : Ev) (he : e = .locked t ∨ e = .waited t) (hr : Reach s (e :: h)) (hp : Proper h) :
    (∀ u, ¬ inside h u) ∧ inside (e :: h) t := by
  cases hr with
  | step hr hn =>
    obtain ⟨-, h2, h3, -⟩ := inv_reach hr hp
    rcases he with rfl | rfl <;> cases hn <;> refine ⟨fun u hu => ?_, .inl rfl⟩ <;> grind

/-- **C76** While a thread sleeps in `wait` it does not have the object: others can lock it. -/
theorem C76_wait_unlocks {s h} (t : Nat) (hr : Reach s (.sleeps t :: h)) (hp : Proper h) :
    inside h t ∧ (∀ u, ¬ inside (.sleeps t :: h) u) ∧ s.owner = none := by
  have hp' : Proper (.sleeps t :: h) := hp
  have hx : inside h t ∧ s.owner = none := by
    cases hr with
    | step hr hn =>
      obtain ⟨-, h2, h3, -⟩ := inv_reach hr hp
      cases hn
      exact ⟨by grind, rfl⟩
  refine ⟨hx.1, fun u hu => ?_, hx.2⟩
  have := ((inv_reach hr hp').inside u).mp hu
  rw [hx.2] at this
  cases this.1

/-- **C76** `unlock` always gives the object back: it is never ignored, and after it nobody has the object. -/
theorem C76_unlock {s h} (t : Nat) : (Proper h → ¬ Reach s (.ignored t :: h)) ∧
    (Proper h → Reach s (.unlocked t :: h) → inside h t ∧ ∀ u, ¬ inside (.unlocked t :: h) u) := by
  refine ⟨fun hp hr => ?_, fun hp hr => ?_⟩
  · cases hr with
    | step hr hn =>
      obtain ⟨-, h2, h3, -, h5, -⟩ := inv_reach hr hp
      cases hn
      grind
  · have hx : inside h t := by
      cases hr with
      | step hr hn =>
        obtain ⟨-, h2, h3, -⟩ := inv_reach hr hp
        cases hn <;> grind
    refine ⟨hx, fun u hu => ?_⟩
    cases hr with
    | step hr hn => exact hu.1 (C76_mutual_exclusion hr hp t u hx hu.2)

/-- **C76** If the signalling thread has the object locked, then signals happen only during `wait`: every other thread that is between its `lock` and
its `unlock` is in `wait`. -/
theorem C76_signal_during_wait {s h} (u : Nat) (x : Option Nat) (hr : Reach s (.signalled u x :: h)) (hp : Proper h) (hu : inside h u) (t : Nat)
    (htu : t ≠ u) (ht : inSection h t) : inWait h t := by
  cases hr with
  | step hr hn =>
    have hi := inv_reach hr hp
    rcases (hi.inSection t).mp ht with h1 | h1
    · exact absurd (C76_mutual_exclusion hr hp t u h1 hu) htu
    · exact (hi.inWait t).mpr (.inr h1)

/-- **C76** No signal is lost: in the documented use, with one waiting thread `w` and any number of threads that set the data, the waiting thread is
asleep after the data have been set only while the thread that has set them still has the object locked and has not signalled yet. -/
theorem C76_no_lost_signal {s h} (w : Nat) (hr : Reach s h) (hp : Proper h) (hq : Protocol (· = w) h) (ha : s.pc w = .asleep) (hs : isSet h) :
    ∃ u, pending h u ∧ inside h u ∧ u ≠ w := by
  have hi := inv_reach hr hp
  have hpi := pinv_reach hr hp hq
  obtain ⟨u, hu⟩ := hpi.lost ha hs
  refine ⟨u, hu, (hpi.pend u hu).1, ?_⟩
  rintro rfl
  exact hi.hasNot u (.inr (.inl ha)) ((hi.inside u).mp (hpi.pend u hu).1).1

/-- **C76** No thread is stuck: if a thread is in a call and is not asleep, then some thread has the object or some thread can take a step that is not
a wake-up without a signal. -/
theorem C76_progress {s h} (hr : Reach s h) (hp : Proper h) (t : Nat) (ht : s.pc t ≠ .idle) (ha : s.pc t ≠ .asleep) :
    (∃ u, inside h u) ∨ ∃ u e s', Step s e s' ∧ s.pc u ≠ .asleep ∧ s.pc u ≠ .idle ∧ s'.pc u ≠ s.pc u := by
  have hi := inv_reach hr hp
  cases ho : s.owner with
  | some u =>
    by_cases hg : s.pc u = .lockWr ∨ s.pc u = .waitWr
    · right
      rcases hg with hg | hg
      · exact ⟨u, _, _, .lockWr u hg, by simp [hg], by simp [hg], by simp [State.go, hg]⟩
      · exact ⟨u, _, _, .waitWr u hg, by simp [hg], by simp [hg], by simp [State.go, hg]⟩
    · exact .inl ⟨u, (hi.inside u).mpr ⟨ho, hg⟩⟩
  | none =>
    right
    have hh := hi.has t
    rw [ho] at hh
    cases hq : s.pc t
    case idle => exact absurd hq ht
    case asleep => exact absurd hq ha
    case lockGet => exact ⟨t, _, _, .lockGet t hq ho, by simp [hq], by simp [hq], by simp [State.go, hq]⟩
    case woken => exact ⟨t, _, _, .woken t hq ho, by simp [hq], by simp [hq], by simp [State.go, hq]⟩
    case sig =>
      by_cases hx : ∃ u, s.pc u = .asleep
      · obtain ⟨u, hu⟩ := hx
        have hut : t ≠ u := by rintro rfl; simp [hq] at hu
        exact ⟨t, _, _, .sigWake t u hq hu, by simp [hq], by simp [hq], by simp [State.go, hq, Function.update_apply, hut]⟩
      · exact ⟨t, _, _, .sigNone t hq (fun u hu => hx ⟨u, hu⟩), by simp [hq], by simp [hq], by simp [State.go, hq]⟩
    all_goals exact absurd (hh (by simp [hq])) (by simp)

/-- The thread is about to read or write `m_locked`. -/
def accesses (p : Pc) : Prop := p = .lockWr ∨ p = .unRd ∨ p = .unWr ∨ p = .waitWr

/-- **C76** No data race: no two threads are about to access the member of the object at the same time. -/
theorem C76_no_data_race {s h} (hr : Reach s h) (hp : Proper h) (t u : Nat) (ht : accesses (s.pc t)) (hu : accesses (s.pc u)) : t = u := by
  obtain ⟨-, -, h3, -⟩ := inv_reach hr hp
  have h1 := h3 t (by unfold accesses at ht; grind)
  have h2 := h3 u (by unfold accesses at hu; grind)
  rw [h1] at h2
  exact Option.some.inj h2

/-- Threads 1 and 2 wait, thread 3 sets the data and signals once. -/
theorem two_reach : ∃ s, Reach s [.unlocked 3, .silent 3, .silent 3, .callUnlock 3, .signalled 3 (some 1), .callSignal 3, .set 3, .locked 3, .silent 3, .callLock 3, .sleeps 2, .callWait 2, .locked 2, .silent 2, .callLock 2, .sleeps 1, .callWait 1, .locked 1, .silent 1, .callLock 1] ∧ s.pc 2 = .asleep ∧ ∀ t, t ≠ 2 → s.pc t = .idle ∨ s.pc t = .woken := by
  refine ⟨_, .step (.step (.step (.step (.step (.step (.step (.step (.step (.step (.step (.step (.step (.step (.step (.step (.step (.step (.step (.step .init (.callLock 1 rfl)) (.lockGet 1 rfl rfl)) (.lockWr 1 rfl)) (.callWait 1 rfl)) (.waitIn 1 rfl rfl)) (.callLock 2 rfl)) (.lockGet 2 rfl rfl)) (.lockWr 2 rfl)) (.callWait 2 rfl)) (.waitIn 2 rfl rfl)) (.callLock 3 rfl)) (.lockGet 3 rfl rfl)) (.lockWr 3 rfl)) (.set 3 rfl)) (.callSignal 3 rfl)) (.sigWake 3 1 rfl rfl)) (.callUnlock 3 rfl)) (.unRdYes 3 rfl rfl)) (.unWr 3 rfl)) (.unPut 3 rfl rfl), rfl, fun t ht => ?_⟩
  by_cases h1 : t = 1
  · subst h1
    exact .inr rfl
  · left
    by_cases h3 : t = 3
    · subst h3
      rfl
    · simp [State.go, init, Function.update_apply, h1, ht, h3]

/-- **C76** With two waiting threads the same use can leave one of them asleep for ever: the object can only wake one thread at a time, and has no way
to wake all. -/
theorem C76_two_waiters : ∃ s h, Reach s h ∧ Proper h ∧ Protocol (fun t => t = 1 ∨ t = 2) h ∧ isSet h ∧ s.pc 2 = .asleep ∧
    (∀ u, ¬ pending h u) ∧ ∀ u, ¬ inside h u := by
  obtain ⟨s, hr, ha, -⟩ := two_reach
  refine ⟨s, _, hr, ?_, ?_, ?_, ha, ?_, ?_⟩
  · simp [Proper, inside]
  · simp [Protocol, isSet, inside, pending]
  · simp [isSet]
  · simp [pending]
  · simp [inside]
    
/-- **C76** The check in `unlock` does not protect against a call by a thread that does not have the object: while another thread sleeps in `wait` the
object is unlocked, but the member still says that it is locked, and the mutex is unlocked although nobody holds it, which is
undefined. -/
theorem C76_stray_unlock : ∃ s h, Reach s h ∧ (∀ u, ¬ inside h u) ∧ s.ub = true := by
  refine ⟨_, [.unlocked 2, .silent 2, .silent 2, .callUnlock 2, .sleeps 1, .callWait 1, .locked 1, .silent 1, .callLock 1], .step (.step (.step (.step (.step (.step (.step (.step (.step .init (.callLock 1 rfl)) (.lockGet 1 rfl rfl)) (.lockWr 1 rfl)) (.callWait 1 rfl)) (.waitIn 1 rfl rfl)) (.callUnlock 2 rfl)) (.unRdYes 2 rfl rfl)) (.unWr 2 rfl)) (.unPutUb 2 rfl (by simp [State.go, init])), ?_, rfl⟩
  simp [inside]

example : ∃ s h, Reach s h ∧ Proper h ∧ Protocol (· = 1) h ∧ s.pc 1 = .asleep ∧ isSet h ∧ inSection h 1 ∧ inSection h 3 ∧ pending h 3 := by
  refine ⟨_, [.set 3, .locked 3, .silent 3, .callLock 3, .sleeps 1, .callWait 1, .locked 1, .silent 1, .callLock 1], .step (.step (.step (.step (.step (.step (.step (.step (.step .init (.callLock 1 rfl)) (.lockGet 1 rfl rfl)) (.lockWr 1 rfl)) (.callWait 1 rfl)) (.waitIn 1 rfl rfl)) (.callLock 3 rfl)) (.lockGet 3 rfl rfl)) (.lockWr 3 rfl)) (.set 3 rfl), ?_, ?_, rfl, ?_, ?_, ?_, ?_⟩
  · simp [Proper, inside]
  · simp [Protocol, isSet, inside]
  · simp [isSet]
  · simp [inSection]
  · simp [inSection]
  · simp [pending]

example : ∃ s h, Reach s h ∧ Proper h ∧ Protocol (· = 1) h ∧ h.head? = some (.waited 1) ∧ inside h 1 := by
  refine ⟨_, [.waited 1, .silent 1, .unlocked 3, .silent 3, .silent 3, .callUnlock 3, .signalled 3 (some 1), .callSignal 3, .set 3, .locked 3, .silent 3, .callLock 3, .sleeps 1, .callWait 1, .locked 1, .silent 1, .callLock 1], .step (.step (.step (.step (.step (.step (.step (.step (.step (.step (.step (.step (.step (.step (.step (.step (.step .init (.callLock 1 rfl)) (.lockGet 1 rfl rfl)) (.lockWr 1 rfl)) (.callWait 1 rfl)) (.waitIn 1 rfl rfl)) (.callLock 3 rfl)) (.lockGet 3 rfl rfl)) (.lockWr 3 rfl)) (.set 3 rfl)) (.callSignal 3 rfl)) (.sigWake 3 1 rfl rfl)) (.callUnlock 3 rfl)) (.unRdYes 3 rfl rfl)) (.unWr 3 rfl)) (.unPut 3 rfl rfl)) (.woken 1 rfl rfl)) (.waitWr 1 rfl), ?_, ?_, rfl, ?_⟩
  · simp [Proper, inside]
  · simp [Protocol, isSet, inside, pending]
  · simp [inside]

end QM.Condition
