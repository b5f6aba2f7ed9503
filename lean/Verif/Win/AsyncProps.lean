import Verif.Win.AsyncTable

/-!
# C125: `AsynchronousTask` on Windows
-/

namespace QM.WinAsync

open QM.Async (Tid OPc WPc)

/-- The same with `k` more tasks done. -/
def State.more (s : State) (k : Nat) : State := { s with started := s.started + k, performed := s.performed + k, awaited := s.awaited + k }

theorem more_steps (s : State) (k : Nat) : steps false (s.more k) = (steps false s).map (·.more k) := by
  obtain ⟨o, w, mt, md, lt, ld, et, ed, it, fin, a, b, c⟩ := s
  have ho : ownerSteps false (State.more ⟨o, w, mt, md, lt, ld, et, ed, it, fin, a, b, c⟩ k) =
      (ownerSteps false ⟨o, w, mt, md, lt, ld, et, ed, it, fin, a, b, c⟩).map (·.more k) := by
    cases o <;> simp only [ownerSteps, State.more, State.unlockTodo, State.unlockDone] <;> (repeat' split) <;>
      simp_all [State.more, Nat.add_right_comm]
  have hw : workerSteps (State.more ⟨o, w, mt, md, lt, ld, et, ed, it, fin, a, b, c⟩ k) =
      (workerSteps ⟨o, w, mt, md, lt, ld, et, ed, it, fin, a, b, c⟩).map (·.more k) := by
    clear ho
    cases w <;> cases it <;> cases fin <;> simp only [workerSteps, State.more, State.unlockTodo, State.unlockDone] <;> (repeat' split) <;>
      simp_all [State.more, Nat.add_right_comm]
  unfold steps
  rw [ho, hw, List.map_append]

/-- A step leads from an entry to an entry, with one task more if an `awaitTask` has returned; while the owner is in a call the rank goes down. -/
def closedAt (e : State × Nat) : Bool :=
  (steps false e.1).all fun s' => table.any fun e' => decide (e'.1.more s'.awaited = s') && decide (s'.awaited ≤ 1) && (decide (e.1.o = .idle) || decide (e'.2 < e.2))

theorem table_closed : table.all closedAt = true := by decide +kernel

theorem table_init : table.any (fun e => decide (e.1 = init)) = true := by decide +kernel

/-- What is checked of each entry. -/
def good (s : State) : Bool :=
  decide (s.awaited = 0) && decide (s.performed ≤ s.started) && decide (s.started ≤ 1) &&
    (decide (s.o ≠ .idle ∧ s.o ≠ .gone) || decide (s.started = 0)) && (decide (s.o ≠ .a1) || (decide (s.performed = s.started) && decide (s.started = 1) && !s.inTask)) &&
    (decide (steps false s ≠ []) || decide (s.o = .gone ∧ s.w = .dead)) &&
    decide ((s.o = .s3 ∨ s.o = .d1 → s.mt = some .owner) ∧
    (s.w = .check ∨ s.w = .p2 ∨ s.w = .f2 → s.mt = some .worker) ∧
    (s.o = .s5 ∨ s.o = .d3 → s.mt = some .owner ∧ s.lt = true) ∧
    (s.o = .ret ∨ s.o = .a1 → s.md = some .owner ∧ s.ld = true) ∧
    (s.w = .p4 ∨ s.w = .f4 → s.md = some .worker ∧ s.ld = true) ∧
    (s.w = .f5 → s.mt = some .worker ∧ s.lt = true))

theorem table_good : table.all (fun e => good e.1 && decide (e.2 ≤ 22)) = true := by decide +kernel

/-- A reachable state is one of the table with the tasks done so far. -/
theorem reach_table {s} (hr : Reach false s) : ∃ e ∈ table, s = e.1.more s.awaited := by
  induction hr with
  | init =>
    obtain ⟨e, he, h⟩ := List.any_eq_true.1 table_init
    refine ⟨e, he, ?_⟩
    rw [of_decide_eq_true h]
    rfl
  | @step s s' _ hn ih =>
    obtain ⟨e, he, h⟩ := ih
    rw [h, more_steps, List.mem_map] at hn
    obtain ⟨t, ht, rfl⟩ := hn
    have hc := List.all_eq_true.1 (List.all_eq_true.1 table_closed e he) t ht
    obtain ⟨e', he', hc⟩ := List.any_eq_true.1 hc
    simp only [Bool.and_eq_true, decide_eq_true_eq] at hc
    refine ⟨e', he', ?_⟩
    have := hc.1.1
    generalize hk : t.awaited = k at this
    subst this
    have h0 : e'.1.awaited = 0 := by
      simpa [State.more] using hk
    simp only [State.more, h0, Nat.zero_add, Nat.add_assoc]

theorem good_of {e} (he : e ∈ table) : good e.1 = true ∧ e.2 ≤ 22 := by
  simpa using List.all_eq_true.1 table_good e he

/-- **C125** On Windows, under every schedule: every started task is performed at most once, and when the owner is not in a call exactly once and
awaited exactly once. -/
theorem C125_exactly_once {s} (hr : Reach false s) : s.awaited ≤ s.performed ∧ s.performed ≤ s.started ∧ s.started ≤ s.awaited + 1 ∧
    (s.o = .idle ∨ s.o = .gone → s.performed = s.started ∧ s.awaited = s.started) := by
  obtain ⟨e, he, h⟩ := reach_table hr
  have hg := (good_of he).1
  simp only [good, Bool.and_eq_true, Bool.or_eq_true, decide_eq_true_eq] at hg
  obtain ⟨⟨⟨⟨⟨⟨h0, h1⟩, h2⟩, h3⟩, -⟩, -⟩, -⟩ := hg
  rw [h]
  simp only [State.more]
  refine ⟨by omega, by omega, by omega, fun ho => ?_⟩
  rcases ho with ho | ho <;> simp only [ho, ne_eq, not_true_eq_false, false_and, and_false, false_or] at h3 <;> constructor <;> omega

/-- **C125** On Windows, under every schedule, when `awaitTask` is about to return, the task of the matching `startTask` has been performed. -/
theorem C125_await_after_perform {s} (hr : Reach false s) (h : s.o = .a1) :
    s.performed = s.started ∧ s.started = s.awaited + 1 ∧ s.inTask = false := by
  obtain ⟨e, he, hs⟩ := reach_table hr
  have hg := (good_of he).1
  simp only [good, Bool.and_eq_true, Bool.or_eq_true, decide_eq_true_eq] at hg
  obtain ⟨⟨⟨⟨⟨⟨h0, h1⟩, h2⟩, -⟩, h3⟩, -⟩, -⟩ := hg
  rw [hs] at h ⊢
  simp only [State.more] at h ⊢
  rcases h3 with h3 | h3
  · exact absurd h h3
  · obtain ⟨⟨h3, h4⟩, h5⟩ := h3
    exact ⟨by omega, by omega, by simpa using h5⟩

/-- **C125** On Windows no schedule ends in a deadlock: some thread can always go on, until the object has been destroyed, when the worker has ended. -/
theorem C125_no_deadlock {s} (hr : Reach false s) : steps false s ≠ [] ∨ s.o = .gone ∧ s.w = .dead := by
  obtain ⟨e, he, hs⟩ := reach_table hr
  have hg := (good_of he).1
  simp only [good, Bool.and_eq_true, Bool.or_eq_true, decide_eq_true_eq] at hg
  obtain ⟨⟨-, h⟩, -⟩ := hg
  rw [hs, more_steps]
  rcases h with h | h
  · left
    simpa using h
  · exact Or.inr h

/-- The steps from a state to the end of the call, under a schedule: the owner stays in the call after each of them. -/
inductive InCall : State → List State → Prop
  | nil {s} : InCall s []
  | cons {s s' l} : s.o ≠ .idle → s' ∈ steps false s → InCall s' l → InCall s (s' :: l)

theorem inCall_le : ∀ {l : List State} {s e k}, e ∈ table → s = State.more e.1 k → InCall s l → l.length ≤ e.2 := by
  intro l
  induction l with
  | nil => intros; exact Nat.zero_le _
  | cons s' l ih =>
    intro s e k he hs hc
    cases hc with
    | cons ho hn hc =>
    subst hs
    rw [more_steps, List.mem_map] at hn
    obtain ⟨t, ht, rfl⟩ := hn
    have hx := List.all_eq_true.1 (List.all_eq_true.1 table_closed e he) t ht
    obtain ⟨e', he', hx⟩ := List.any_eq_true.1 hx
    simp only [Bool.and_eq_true, Bool.or_eq_true, decide_eq_true_eq] at hx
    obtain ⟨⟨h1, -⟩, h2⟩ := hx
    have h3 : e'.2 < e.2 := by
      rcases h2 with h2 | h2
      · exact absurd h2 ho
      · exact h2
    have hm : t.more k = e'.1.more (t.awaited + k) :=
      (congrArg (·.more k) h1.symm).trans (by simp only [State.more, Nat.add_assoc])
    have := ih he' hm hc
    rw [List.length_cons]
    omega

/-- **C125** On Windows every call completes, under every schedule: the threads together make at most 22 steps until the owner is out of its call
of `startTask` and `awaitTask` or of the destructor, without any assumption that a waiting thread is not passed over. -/
theorem C125_calls_complete {s l} (hr : Reach false s) (hc : InCall s l) : l.length ≤ 22 := by
  obtain ⟨e, he, hs⟩ := reach_table hr
  exact Nat.le_trans (inCall_le he hs hc) (good_of he).2

/-- **C125** On Windows `m_inTask` and `m_finishing` are read and written only by a thread that has the mutex of `m_todo`, and every `unlock` is
by the thread that has the mutex, so that it gives the mutex back. -/
theorem C125_no_data_race {s} (hr : Reach false s) :
    (s.o = .s3 ∨ s.o = .d1 → s.mt = some .owner) ∧
    (s.w = .check ∨ s.w = .p2 ∨ s.w = .f2 → s.mt = some .worker) ∧
    (s.o = .s5 ∨ s.o = .d3 → s.mt = some .owner ∧ s.lt = true) ∧
    (s.o = .ret ∨ s.o = .a1 → s.md = some .owner ∧ s.ld = true) ∧
    (s.w = .p4 ∨ s.w = .f4 → s.md = some .worker ∧ s.ld = true) ∧
    (s.w = .f5 → s.mt = some .worker ∧ s.lt = true) := by
  obtain ⟨e, he, hs⟩ := reach_table hr
  have hg := (good_of he).1
  simp only [good, Bool.and_eq_true] at hg
  have := of_decide_eq_true hg.2
  rw [hs]
  exact this

/-- The schedule that takes the given choices. -/
def run (abandon : Bool) : List Nat → State → Option State
  | [], s => some s
  | k :: ks, s => ((steps abandon s)[k]?).bind (run abandon ks)

theorem run_reach {abandon} : ∀ {ks s s'}, Reach abandon s → run abandon ks s = some s' → Reach abandon s'
  | [], s, s', hr, h => by
    cases h
    exact hr
  | k :: ks, s, s', hr, h => by
    simp only [run, Option.bind_eq_some_iff] at h
    obtain ⟨t, ht, h⟩ := h
    exact run_reach (hr.step (List.mem_of_getElem? ht)) h

/-- **C125** violation: destroying an object whose task has been started and not awaited can block for ever, as on the other systems: the
destructor waits for the mutex of `m_todo`, which the worker has while it waits for the mutex of `m_done`, which the owner has. -/
theorem C125_abandoned_violation : ∃ s, Reach true s ∧ s.o = .d0 ∧ steps true s = [] := by
  refine ⟨⟨.d0, .p1, some .worker, some .owner, true, true, true, false, true, false, 1, 1, 0⟩, ?_, rfl, by decide⟩
  exact run_reach (ks := [0, 0, 0, 0, 0, 0, 1, 1, 0, 0]) Reach.init (by decide +kernel)

/-- A task is started, performed and awaited. -/
example : ∃ s, Reach false s ∧ s.o = .idle ∧ s.w = .waiting ∧ s.started = 1 ∧ s.performed = 1 ∧ s.awaited = 1 :=
  ⟨_, run_reach (ks := [0, 0, 0, 0, 0, 0, 0, 0, 0, 0, 0, 0, 0, 0, 0, 0, 0, 2]) (s' := ⟨.idle, .waiting, none, none, true, false, true, false, false, false, 1, 1, 1⟩)
    Reach.init (by decide +kernel), rfl, rfl, rfl, rfl, rfl⟩

end QM.WinAsync
