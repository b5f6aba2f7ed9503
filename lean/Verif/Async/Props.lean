import Verif.Async.Inv
import Mathlib.Tactic.Linarith

namespace QM.Async

/-! ## C19 -/

/-- C19, counting: under every schedule without spurious wake-ups, the number of completed `performTask`s never
exceeds the number of `startTask`s nor falls below the number of returned `awaitTask`s; whenever the owner is
outside any call the three are equal. So the n-th `awaitTask` returns only after the n-th `performTask`, and
each `startTask` leads to exactly one. -/
theorem C19_exactly_once_partial {s : State} (h : Reach normal s) :
    s.awaited ≤ s.performed ∧ s.performed ≤ s.started ∧ s.started ≤ s.awaited + 1 ∧
      (s.o = .idle ∨ s.o = .gone → s.awaited = s.performed ∧ s.performed = s.started) := by
  have hi := inv_reach h
  obtain ⟨o, w, mt, md, lt, ld, it, fin, a, b, c⟩ := s
  unfold Inv at hi
  simp only at hi
  cases o <;> cases w <;> simp only [row] at hi <;> (try exact hi.elim) <;>
    obtain ⟨rfl, rfl, rfl, rfl, rfl, rfl, rfl, rfl⟩ := hi <;> simp

/-- C19: the step in which `awaitTask` returns happens only with the task performed. -/
theorem C19_await_after_perform_partial {s s' : State} (h : Reach normal s) (hs : s' ∈ steps normal s)
    (hret : s'.awaited = s.awaited + 1) : s.performed = s.started ∧ s.inTask = false := by
  have hi := inv_reach h
  obtain ⟨o, w, mt, md, lt, ld, it, fin, a, b, c⟩ := s
  unfold Inv at hi
  simp only at hi
  cases o <;> cases w <;> simp only [row] at hi <;> (try exact hi.elim) <;>
    obtain ⟨rfl, rfl, rfl, rfl, rfl, rfl, rfl, rfl⟩ := hi <;>
    simp [steps, ownerSteps, workerSteps, normal, State.unlockTodo, State.unlockDone, State.signalTodo,
      State.signalDone] at hs hret ⊢ <;>
    (try (rcases hs with rfl | rfl | rfl <;> simp at hret)) <;>
    (try (rcases hs with rfl | rfl <;> simp at hret)) <;>
    (try (subst hs; simp at hret))

/-- C19: no deadlock. In every reachable state some thread can make a step, unless the object has been
destroyed and the worker has ended. -/
theorem C19_no_deadlock_partial {s : State} (h : Reach normal s) :
    steps normal s ≠ [] ∨ (s.o = .gone ∧ s.w = .dead) := by
  have hi := inv_reach h
  obtain ⟨o, w, mt, md, lt, ld, it, fin, a, b, c⟩ := s
  unfold Inv at hi
  simp only at hi
  cases o <;> cases w <;> simp only [row] at hi <;> (try exact hi.elim) <;>
    obtain ⟨rfl, rfl, rfl, rfl, rfl, rfl, rfl, rfl⟩ := hi <;>
    simp [steps, ownerSteps, workerSteps, normal]

/-- C19: every step taken while the owner is inside a call decreases `rank`, which is at most 18. With
`C19_no_deadlock_partial`: under every schedule whatsoever, each `startTask`/`awaitTask` pair and the destructor
complete after at most 18 steps of the two threads (counting `performTask` as one): no wake-up is lost and there is
no livelock. -/
theorem C19_calls_complete_partial {s s' : State} (h : Reach normal s) (hs : s' ∈ steps normal s) (ho : s.o ≠ .idle) :
    rank s' < rank s ∧ rank s ≤ 18 := by
  have hi := inv_reach h
  obtain ⟨o, w, mt, md, lt, ld, it, fin, a, b, c⟩ := s
  unfold Inv at hi
  simp only at hi
  cases o <;> cases w <;> simp only [row] at hi <;> (try exact hi.elim) <;>
    obtain ⟨rfl, rfl, rfl, rfl, rfl, rfl, rfl, rfl⟩ := hi <;>
    simp [steps, ownerSteps, workerSteps, normal, State.unlockTodo, State.unlockDone, State.signalTodo,
      State.signalDone] at hs ho ⊢ <;>
    first
      | (rcases hs with rfl | rfl | rfl <;> simp [rank, row])
      | (rcases hs with rfl | rfl <;> simp [rank, row])
      | (subst hs; simp [rank, row])

/-- C19: no data race. Whenever a thread is about to read or write `m_inTask` or `m_finishing`, it holds the mutex
of `m_todo`; and no mutex is unlocked by a thread that does not hold it. -/
theorem C19_no_data_race_partial {s : State} (h : Reach normal s) :
    (s.o = .s3 ∨ s.o = .d1 → s.mt = some .owner) ∧
    (s.w = .check ∨ s.w = .p2 ∨ s.w = .f2 → s.mt = some .worker) ∧
    (s.o = .s5 ∨ s.o = .d3 → s.mt = some .owner ∧ s.lt = true) ∧
    (s.o = .ret ∨ s.o = .a1 → s.md = some .owner ∧ s.ld = true) ∧
    (s.w = .p4 ∨ s.w = .f4 → s.md = some .worker ∧ s.ld = true) ∧
    (s.w = .f5 → s.mt = some .worker ∧ s.lt = true) := by
  have hi := inv_reach h
  obtain ⟨o, w, mt, md, lt, ld, it, fin, a, b, c⟩ := s
  unfold Inv at hi
  simp only at hi
  cases o <;> cases w <;> simp only [row] at hi <;> (try exact hi.elim) <;>
    obtain ⟨rfl, rfl, rfl, rfl, rfl, rfl, rfl, rfl⟩ := hi <;> simp

/-- Follow a schedule: at each step take the successor with the given number. -/
def run (c : Config) : State → List Nat → Option State
  | s, [] => some s
  | s, i :: is => match (steps c s)[i]? with | none => none | some s' => run c s' is

theorem run_reach {c : Config} (is : List Nat) : ∀ {s s'}, Reach c s → run c s is = some s' → Reach c s' := by
  induction is with
  | nil => intro s s' h e; cases e; exact h
  | cons i is ih =>
    intro s s' h e
    unfold run at e
    split at e
    · cases e
    · rename_i s1 h1
      exact ih (Reach.step h (List.mem_of_getElem? h1)) e

/-- A non-trivial reachable state: one task started, performed and awaited. -/
example : ∃ s, Reach normal s ∧ s.o = .idle ∧ s.w = .waiting ∧ s.awaited = 1 ∧ s.performed = 1 :=
  ⟨_, run_reach (c := normal) [0, 0, 0, 0, 0, 0, 1, 1, 1, 0, 0, 0, 0, 0, 0, 0, 2] Reach.init rfl, by decide⟩

/-- With spurious wake-ups, which POSIX (and the Windows condition variables) allow, C19 is false: `awaitTask` waits
once without testing a predicate, so it can return although the task has not even been started by the worker. -/
theorem C19_violation_early_return :
    ∃ s, Reach ⟨true, false⟩ s ∧ s.o = .idle ∧ s.awaited = 1 ∧ s.performed = 0 :=
  ⟨_, run_reach (c := ⟨true, false⟩) [0, 0, 0, 0, 0, 0, 0, 0, 0, 0] Reach.init rfl, by decide⟩

/-- With a spurious wake-up the next `startTask` can even deadlock with the worker: each holds the mutex the other
wants, and no step is possible. -/
theorem C19_violation_deadlock :
    ∃ s, Reach ⟨true, false⟩ s ∧ steps ⟨true, false⟩ s = [] ∧ s.o = .s2 ∧ s.w = .p1 :=
  ⟨_, run_reach (c := ⟨true, false⟩) [0, 0, 0, 0, 0, 0, 0, 0, 0, 0, 0, 0, 1, 0, 0] Reach.init rfl, by decide⟩

/-- Destroying the object while a started task has not been awaited can deadlock, even without spurious
wake-ups. -/
theorem C19_violation_abandoned_task :
    ∃ s, Reach ⟨false, true⟩ s ∧ steps ⟨false, true⟩ s = [] ∧ s.o = .d0 ∧ s.w = .p1 :=
  ⟨_, run_reach (c := ⟨false, true⟩) [0, 0, 0, 0, 0, 0, 1, 1, 0, 0] Reach.init rfl, by decide⟩

/-! ## C20 -/

theorem normalise_spec (sec usec : Nat) :
    (normalise sec usec).1 * 1000000 + (normalise sec usec).2 = sec * 1000000 + usec ∧
      (normalise sec usec).2 ≤ 1000000 ∧ (0 < usec → 0 < (normalise sec usec).2) ∧
      sec ≤ (normalise sec usec).1 := by
  induction h : usec using Nat.strong_induction_on generalizing sec usec with
  | _ n ih =>
    subst h
    rw [normalise]
    split_ifs with hc
    · have := ih (usec - 1000000) (by omega) (sec + 1) (usec - 1000000) rfl
      refine ⟨by omega, this.2.1, fun _ => this.2.2.1 (by omega), by omega⟩
    · exact ⟨rfl, by simp only; omega, fun h => h, le_refl _⟩

/-- C20 (all but one microsecond of each second): the deadline is exactly `now + us`, and its nanosecond field is in
range unless the sum of the microseconds is a positive multiple of a million. -/
theorem C20_deadline_partial (sec usec us : Nat) (h : ¬ (1000000 ∣ usec + us) ∨ usec + us = 0) :
    (deadline sec usec us).1 * 1000000000 + (deadline sec usec us).2 =
      sec * 1000000000 + (usec + us) * 1000 ∧
    (deadline sec usec us).2 < 1000000000 := by
  obtain ⟨h1, h2, h3, h4⟩ := normalise_spec sec (usec + us)
  have hd : deadline sec usec us =
      ((normalise sec (usec + us)).1, (normalise sec (usec + us)).2 * 1000) := rfl
  rw [hd]
  revert h1 h2 h3 h4
  rcases normalise sec (usec + us) with ⟨q1, q2⟩
  intro h1 h2 h3 h4
  dsimp only at h1 h2 h3 h4 ⊢
  refine ⟨by clear h h3; nlinarith, ?_⟩
  by_contra hge
  have hq : q2 = 1000000 := by clear h h1; omega
  rcases h with h | h
  · exact h ⟨q1 + 1 - sec, by omega⟩
  · omega

example : deadline 5 999999 2500002 = (8, 500001000) := by
  simp [deadline, normalise]

/-- C20 is false of the code: when the sum is a multiple of a million the loop stops at 1000000 and
`tv_nsec` is 10^9, which `pthread_cond_timedwait` rejects (EINVAL): the wait does not wait. -/
theorem C20_violation (sec usec us : Nat) (h : 1000000 ∣ usec + us) (h0 : 0 < usec + us) :
    (deadline sec usec us).2 = 1000000000 := by
  obtain ⟨h1, h2, h3, h4⟩ := normalise_spec sec (usec + us)
  have h3 := h3 h0
  have hd : deadline sec usec us =
      ((normalise sec (usec + us)).1, (normalise sec (usec + us)).2 * 1000) := rfl
  rw [hd]
  revert h1 h2 h3 h4
  rcases normalise sec (usec + us) with ⟨q1, q2⟩
  intro h1 h2 h3 h4
  dsimp only at h1 h2 h3 h4 ⊢
  have hq : q2 = 1000000 := by omega
  rw [hq]

example : (deadline 5 400000 600000).2 = 1000000000 := by simp [deadline, normalise]

end QM.Async
