import Verif.Mutex.Lemmas

/-!
# C75: what a mutex guarantees, whatever the threads do and however they interleave

The full claim includes that the mutex is free of data races in the sense of C++; `C75_data_race_violation` shows that it is not: the checks
of `lock` and `unlock` read plain members while another thread writes them. The theorems are therefore about sequentially consistent
executions (each access to a member is one step and all threads see the same order).
-/

namespace QM.Mutex

/-- **C75** Mutual exclusion: at no time do two threads have the mutex, even if some threads unlock what they have not locked or lock
twice. -/
theorem C75_mutual_exclusion {z s h} (hr : Reach z s h) (t u : Nat) (ht : inside h t) (hu : inside h u) : t = u := by
  have hi := inv_reach hr
  have h1 := ((hi.inside t).mp ht).1
  have h2 := ((hi.inside u).mp hu).1
  rw [h1] at h2
  exact Option.some.inj h2

/-- **C75** The `pthread_mutex_t` is never unlocked by a thread that does not hold it (which is undefined), whatever the threads do. -/
theorem C75_no_undefined {z s h} (hr : Reach z s h) : s.ub = false := (inv_reach hr).ub

/-- What the return of a call tells. -/
theorem step_facts {s h e s'} (hi : Inv s h) (t : Nat) (hn : next s t = some (e, s')) :
    e.thread = t ∧ (e = .locked t → s.owner = some t ∧ (s.pc t).getting) ∧ (e = .tried t true → s.owner = some t ∧ (s.pc t).getting) ∧
      (e = .unlocked t → inside h t) ∧ (e = .saysNotLocked t ∨ e = .saysNotOwned t → ¬ inside h t) ∧ (e = .saysDeadlock t → inside h t) ∧
      (e = .tried t false → ∃ u, s.owner = some u) := by
  obtain ⟨h1, h2, h3, h4, h5, h6, h7, h8, h9, h10⟩ := hi
  have hl : s.locked = true → s.owner = some s.lockedBy := by
    intro hl
    cases ho : s.owner <;> grind
  unfold Pc.getting at *
  unfold next at hn
  cases hp : s.pc t <;> rw [hp] at hn <;> simp only [] at hn
  case idle => cases hn
  case tryGet =>
    split at hn
    · cases hn
      simp [Ev.thread]
    · cases hn
      rename_i hne
      simpa [Ev.thread] using Option.ne_none_iff_exists'.mp hne
  all_goals
    (try split at hn) <;> (try cases hn) <;> simp only [Ev.thread] <;> grind

/-- The last event of a history comes from a call or from a step. -/
theorem reach_cons {z s' e h} (hr : Reach z s' (e :: h)) :
    ∃ s, Reach z s h ∧ ((∃ t c, s.pc t = .idle ∧ call s t c = (e, s')) ∨ ∃ t, next s t = some (e, s')) := by
  cases hr with
  | call t c h1 h2 => exact ⟨_, h1, .inl ⟨t, c, h2, rfl⟩⟩
  | step t h1 h2 => exact ⟨_, h1, .inr ⟨t, h2⟩⟩

theorem reach_event {z s' e h} (hr : Reach z s' (e :: h)) (hc : ∀ t, e ≠ .callLock t ∧ e ≠ .callUnlock t ∧ e ≠ .callTry t) :
    ∃ s, Reach z s h ∧ next s e.thread = some (e, s') := by
  obtain ⟨s, h1, ⟨t, c, _, h2⟩ | ⟨t, h2⟩⟩ := reach_cons hr
  · exfalso
    cases c <;> simp only [call, Prod.mk.injEq] at h2 <;> have := hc t <;> grind
  · refine ⟨s, h1, ?_⟩
    rw [(step_facts (inv_reach h1) t h2).1]
    exact h2

/-- **C75** Whoever gets the mutex, by `lock` or by `trylock`, gets it when nobody has it. In particular a thread that locks what it
already has never returns from `lock`. -/
theorem C75_acquire {z s h} (t : Nat) (hr : Reach z s (.locked t :: h) ∨ Reach z s (.tried t true :: h)) : ∀ u, ¬ inside h u := by
  intro u hu
  rcases hr with hr | hr
  all_goals
    obtain ⟨s0, h1, h2⟩ := reach_event hr (by simp)
    have hi := inv_reach h1
    have hf := step_facts hi _ h2
    have hx := (hi.inside u).mp hu
    simp only [Ev.thread] at hf
  · have hy := hf.2.1 trivial
    rw [hy.1] at hx
    obtain ⟨hx, hx2⟩ := hx
    cases hx
    exact hx2 hy.2
  · have hy := hf.2.2.1 trivial
    rw [hy.1] at hx
    obtain ⟨hx, hx2⟩ := hx
    cases hx
    exact hx2 hy.2

/-- **C75** `unlock` gives the mutex back exactly when the calling thread has it; otherwise it says so and changes nothing: whoever has
the mutex keeps it. -/
theorem C75_unlock {z s h} (t : Nat) :
    (Reach z s (.unlocked t :: h) → inside h t ∧ ∀ u, ¬ inside (.unlocked t :: h) u) ∧
      (Reach z s (.saysNotLocked t :: h) → ¬ inside h t) ∧ (Reach z s (.saysNotOwned t :: h) → ¬ inside h t) := by
  refine ⟨fun hr => ?_, fun hr => ?_, fun hr => ?_⟩
  all_goals
    obtain ⟨s0, h1, h2⟩ := reach_event hr (by simp)
    have hf := step_facts (inv_reach h1) _ h2
    simp only [Ev.thread] at hf
  · have hx := hf.2.2.2.1 trivial
    refine ⟨hx, fun u hu => ?_⟩
    simp only [inside] at hu
    exact hu.1 (C75_mutual_exclusion h1 t u hx hu.2)
  · exact hf.2.2.2.2.1 (.inl trivial)
  · exact hf.2.2.2.2.1 (.inr trivial)

/-- **C75** The deadlock message is given only to a thread that locks what it already has; and such a thread, once it waits, has been
given the message. -/
theorem C75_deadlock_message {z s h} (t : Nat) :
    (Reach z s (.saysDeadlock t :: h) → inside h t) ∧
      (Reach z s h → inside h t → s.pc t ≠ .idle → next s t = none → latest h t = some (.saysDeadlock t)) := by
  refine ⟨fun hr => ?_, fun hr ht hp hn => ?_⟩
  · obtain ⟨s0, h1, h2⟩ := reach_event hr (by simp)
    exact (step_facts (inv_reach h1) _ h2).2.2.2.2.2.1 rfl
  · have hi := inv_reach hr
    apply hi.wait t _ ((hi.inside t).mp ht).1
    unfold next at hn
    cases hq : s.pc t <;> rw [hq] at hn <;> simp only [] at hn <;> grind

/-- **C75** `trylock` fails only if some other thread, or the caller itself, has the mutex or is about to return from the call that gave it to it. -/
theorem C75_trylock_false {z s h} (t : Nat) (hr : Reach z s (.tried t false :: h)) :
    ∃ u, inside h u ∨ ∃ e s', next s u = some (e, s') := by
  obtain ⟨s0, h1, h2⟩ := reach_event hr (by simp)
  have hi := inv_reach h1
  obtain ⟨u, hu⟩ := (step_facts hi _ h2).2.2.2.2.2.2 rfl
  refine ⟨u, ?_⟩
  by_cases hg : (s0.pc u).getting
  · right
    have hut : u ≠ t := by
      rintro rfl
      unfold next at h2
      rcases hg with hg | hg | hg | hg <;> simp [Ev.thread, hg] at h2
    have hs : s.pc u = s0.pc u := by
      simp only [Ev.thread] at h2
      unfold next at h2
      cases hp : s0.pc t <;> rw [hp] at h2 <;> simp only [] at h2 <;> (try split at h2) <;> cases h2
      simp [State.go, Function.update_apply, hut]
    rcases hg with hg | hg | hg | hg <;> exact ⟨_, _, by unfold next; rw [hs, hg]⟩
  · left
    exact (hi.inside u).mpr ⟨hu, hg⟩

/-- **C75** No thread waits unless some thread has the mutex or can go on: the mutex is never stuck while nobody has it. -/
theorem C75_progress {z s h} (hr : Reach z s h) (t : Nat) (ht : s.pc t ≠ .idle) :
    (∃ u, inside h u) ∨ ∃ u e s', next s u = some (e, s') := by
  have hi := inv_reach hr
  by_cases hn : ∃ e s', next s t = some (e, s')
  · exact .inr ⟨t, hn⟩
  · cases ho : s.owner with
    | none =>
      exfalso
      apply hn
      unfold next
      cases hp : s.pc t <;> simp only [ho] <;> first | exact absurd hp ht | (split <;> exact ⟨_, _, rfl⟩) | exact ⟨_, _, rfl⟩
    | some u =>
      by_cases hg : (s.pc u).getting
      · refine .inr ⟨u, ?_⟩
        rcases hg with hg | hg | hg | hg <;> exact ⟨_, _, by unfold next; rw [hg]⟩
      · exact .inl ⟨u, (hi.inside u).mpr ⟨ho, hg⟩⟩

/-- **C75** A thread that uses the mutex as it should is never given a message, whatever the other threads do, so that every one of its calls to `unlock` gives the mutex back. -/
theorem C75_no_message {z s h} (hr : Reach z s h) (t : Nat) (hp : Proper h t) : ∀ e ∈ h, e.thread = t → ¬ e.message := by
  suffices hs : (∀ e ∈ h, e.thread = t → ¬ e.message) ∧ (s.pc t = .unRd ∨ s.pc t = .unBy ∨ s.pc t = .unWr ∨ s.pc t = .unPut → inside h t) ∧
      (s.pc t = .lockRd ∨ s.pc t = .lockBy ∨ s.pc t = .lockGet → ¬ inside h t) from hs.1
  induction hr with
  | init => simp [init]
  | @call s h u c hr hi ih =>
    have hin := inv_reach hr
    have hpp : Proper h t := by cases c <;> simp only [call, Proper] at hp <;> grind
    obtain ⟨i1, i2, i3⟩ := ih hpp
    have hm : ¬ (call s u c).1.message := by cases c <;> simp [call, Ev.message]
    refine ⟨?_, ?_⟩
    · intro e he
      rcases List.mem_cons.mp he with rfl | he
      · exact fun _ => hm
      · exact i1 e he
    · cases c <;> simp only [call, State.go, Function.update_apply, inside, Proper] at * <;> grind
  | @step s h e s' u hr hn ih =>
    have hin := inv_reach hr
    have hf := step_facts hin u hn
    have hcall : e ≠ .callLock u ∧ e ≠ .callUnlock u := by
      unfold next at hn
      cases hq : s.pc u <;> rw [hq] at hn <;> simp only [] at hn <;> grind
    have hpp : Proper h t := by
      obtain ⟨h1, -⟩ := hf
      cases e <;> simp only [Proper, Ev.thread] at hp h1 <;> first | exact hp | exact hp.2
    obtain ⟨i1, i2, i3⟩ := ih hpp
    refine ⟨?_, ?_⟩
    · intro e' he
      rcases List.mem_cons.mp he with rfl | he
      · intro hth hm
        rw [hf.1] at hth
        subst hth
        have hd := hf.2.2.2.2.2.1
        have hu := hf.2.2.2.2.1
        unfold next at hn
        cases e' <;> simp only [Ev.message] at hm
        all_goals cases hq : s.pc u <;> rw [hq] at hn <;> simp only [] at hn <;> grind
      · exact i1 e' he
    · have hi2 := inv_next hin u hn
      obtain ⟨-, h2, h3, -⟩ := hi2
      obtain ⟨-, g2, g3, -⟩ := hin
      unfold Pc.getting at *
      unfold next at hn
      cases hq : s.pc u <;> rw [hq] at hn <;> simp only [] at hn <;> (try split at hn) <;> cases hn <;>
        simp only [State.go, Function.update_apply, inside] at * <;> grind

theorem scopes_get (bs : List Bool) : ∀ i c, (scopes bs)[i]? = some c → (i % 2 = 0 → c = .lock) ∧ (i % 2 = 1 → c = .unlock) := by
  induction bs with
  | nil => simp [scopes]
  | cons b bs ih =>
    intro i c
    cases b
    · exact ih i c
    · have hs : scopes (true :: bs) = .lock :: .unlock :: scopes bs := rfl
      rw [hs]
      rcases i with _ | _ | i
      · rintro ⟨⟩
        simp
      · rintro ⟨⟩
        simp
      · intro h
        have := ih i c h
        grind

theorem scopes_snoc {bs l c} (h : l ++ [c] <+: scopes bs) :
    l <+: scopes bs ∧ (l.length % 2 = 0 → c = .lock) ∧ (l.length % 2 = 1 → c = .unlock) := by
  refine ⟨(List.prefix_append l [c]).trans h, scopes_get bs l.length c ?_⟩
  obtain ⟨m, hm⟩ := h
  rw [← hm]
  simp

theorem callsOf_cons (e : Ev) (h : List Ev) (t : Nat) : ∃ m, callsOf (e :: h) t = callsOf h t ++ m := by
  cases e <;> simp only [callsOf] <;> first | exact ⟨[], (List.append_nil _).symm⟩ | (split <;> first | exact ⟨_, rfl⟩ | exact ⟨[], (List.append_nil _).symm⟩)

theorem scopes_facts {z s h} (hr : Reach z s h) (t : Nat) (bs : List Bool) (hp : callsOf h t <+: scopes bs) :
    Proper h t ∧
      ((callsOf h t).length % 2 = 0 → (s.pc t = .idle ∧ ¬ inside h t) ∨ (s.pc t = .unRd ∨ s.pc t = .unBy ∨ s.pc t = .unWr ∨ s.pc t = .unPut) ∧ inside h t) ∧
      ((callsOf h t).length % 2 = 1 → (s.pc t = .idle ∧ inside h t) ∨ (s.pc t = .lockRd ∨ s.pc t = .lockBy ∨ s.pc t = .lockGet ∨ s.pc t = .lockWrBy ∨ s.pc t = .lockWr) ∧ ¬ inside h t) := by
  induction hr with
  | init => simp [init, callsOf, Proper, inside]
  | @call s h u c hr hi ih =>
    have hpre : callsOf h t <+: scopes bs := by
      obtain ⟨m, hm⟩ := callsOf_cons (call s u c).1 h t
      rw [hm] at hp
      exact (List.prefix_append _ _).trans hp
    obtain ⟨i1, i2, i3⟩ := ih hpre
    by_cases hut : u = t
    · subst hut
      have hq : callsOf ((call s u c).1 :: h) u = callsOf h u ++ [c] := by cases c <;> simp [call, callsOf]
      rw [hq] at hp ⊢
      have hsn := (scopes_snoc hp).2
      rw [List.length_append, List.length_singleton]
      cases c <;> simp only [call, State.go, Function.update_apply, inside, Proper] <;> grind
    · have hq : callsOf ((call s u c).1 :: h) t = callsOf h t := by cases c <;> simp [call, callsOf, hut]
      rw [hq]
      have htu : ¬ t = u := fun h => hut h.symm
      cases c <;> simp only [call, State.go, Function.update_apply, inside, Proper] <;> grind
  | @step s h e s' u hr hn ih =>
    have hin := inv_reach hr
    have hi2 := inv_next hin u hn
    have hcall : callsOf (e :: h) t = callsOf h t ∧ (Proper (e :: h) t ↔ Proper h t) := by
      unfold next at hn
      cases hq : s.pc u <;> rw [hq] at hn <;> simp only [] at hn <;> (try split at hn) <;> cases hn <;> exact ⟨rfl, Iff.rfl⟩
    rw [hcall.1] at hp ⊢
    rw [hcall.2]
    obtain ⟨i1, i2, i3⟩ := ih hp
    refine ⟨i1, ?_⟩
    have hf := step_facts hin u hn
    obtain ⟨-, g2, g3, -, g5, g6, g7, g8, g9, -⟩ := hin
    have hl : s.locked = true → s.owner = some s.lockedBy := by
      intro hl
      cases ho : s.owner <;> grind
    unfold Pc.getting at *
    unfold next at hn
    cases hq : s.pc u <;> rw [hq] at hn <;> simp only [] at hn <;> (try split at hn) <;> cases hn <;>
      simp only [State.go, Function.update_apply, inside] at * <;> grind

/-- **C75** A thread that uses the mutex only through `MutexLocker` objects, one after the other, never gets a message, and whenever it is
outside its scopes and in no call it does not have the mutex: a scope always gives back what it took. A `MutexLocker` on a null pointer does
nothing. The other threads may do anything. -/
theorem C75_locker {z s h} (hr : Reach z s h) (t : Nat) (bs : List Bool) (hp : callsOf h t <+: scopes bs) :
    (∀ e ∈ h, e.thread = t → ¬ e.message) ∧
      (s.pc t = .idle → (inside h t ↔ (callsOf h t).length % 2 = 1)) ∧ scopes [false] = [] := by
  have hf := scopes_facts hr t bs hp
  refine ⟨C75_no_message hr t hf.1, fun hi => ?_, rfl⟩
  obtain ⟨-, h0, h1⟩ := hf
  rw [hi] at h0 h1
  rcases Nat.mod_two_eq_zero_or_one (callsOf h t).length with hm | hm
  · have := h0 hm
    simp [hm] at *
    exact this
  · have := h1 hm
    simp [hm] at *
    exact this

/-- Thread 0 has the `pthread_mutex_t` and is about to write `m_locked`, thread 1 has called `lock`. -/
theorem race_reach : ∃ s, Reach 0 s [.callLock 1, .silent 0, .silent 0, .silent 0, .callLock 0] ∧ s.pc 0 = .lockWr ∧ s.pc 1 = .lockRd :=
  ⟨_, .call 1 .lock (.step 0 (.step 0 (.step 0 (.call 0 .lock .init rfl) rfl) rfl) rfl) rfl, rfl, rfl⟩

/-- **C75** The mutex itself has a data race: two threads that do nothing but lock it properly can be about to write `m_locked` and to read it at
the same time, without synchronisation. -/
theorem C75_data_race_violation : ∃ s h, Reach 0 s h ∧ (∀ t, Proper h t) ∧ Race s := by
  obtain ⟨s, h1, h2, h3⟩ := race_reach
  refine ⟨s, _, h1, fun t => ?_, 0, 1, .lockedFlag, false, by decide, ?_, ?_⟩
  · simp [Proper, inside]
  · rw [h2]; rfl
  · rw [h3]; rfl

/-- Thread 3 takes the mutex, thread 5 tries, then unlocks what it does not have and is refused, then waits; thread 3 gives the mutex back and thread 5 gets it. -/
theorem example_reach : ∃ s, Reach 0 s [.locked 5, .silent 5, .silent 5, .unlocked 3, .silent 3, .silent 3, .silent 3, .callUnlock 3, .silent 5, .silent 5,
    .callLock 5, .saysNotOwned 5, .silent 5, .callUnlock 5, .tried 5 false, .callTry 5, .locked 3, .silent 3, .silent 3, .silent 3, .callLock 3] ∧ s.pc 5 = .idle :=
  ⟨_, .step 5 (.step 5 (.step 5 (.step 3 (.step 3 (.step 3 (.step 3 (.call 3 .unlock (.step 5 (.step 5 (.call 5 .lock (.step 5 (.step 5 (.call 5 .unlock
    (.step 5 (.call 5 .trylock (.step 3 (.step 3 (.step 3 (.step 3 (.call 3 .lock .init rfl) rfl) rfl) rfl) rfl) rfl) rfl) rfl) rfl) rfl) rfl) rfl) rfl) rfl) rfl) rfl) rfl) rfl)
    rfl) rfl) rfl, rfl⟩

example : ∃ s h, Reach 0 s h ∧ inside h 5 ∧ ¬ inside h 3 ∧ callsOf h 3 <+: scopes [true, false, true] ∧ ∃ e ∈ h, e.message := by
  obtain ⟨s, h1, -⟩ := example_reach
  refine ⟨s, _, h1, ?_, ?_, ?_, .saysNotOwned 5, ?_, trivial⟩
  · simp [inside]
  · simp [inside]
  · exact ⟨[.lock, .unlock], rfl⟩
  · simp

end QM.Mutex
