import Verif.Win.Mutex

/-!
# C123: the mutex of the Windows build

The full claim would be that the mutex behaves as the one of the pthreads build (C75). Proved is that it does for threads that never lock what
they have; for others it does not: `C123_trylock_violation`, `C123_leak_violation`.
-/

namespace QM.WinMutex

/-- The thread has the Windows mutex once more but its call has not returned yet. -/
def Pc.getting (p : Pc) : Prop := p = .lockWr ∨ p = .tryWr

instance (p : Pc) : Decidable p.getting := inferInstanceAs (Decidable (_ ∨ _))

structure Inv (s : State) (h : List Ev) : Prop where
  count : ∀ t, (if s.owner = some t then s.count else 0) + gave h t = got h t + if (s.pc t).getting then 1 else 0
  free : s.owner = none → s.count = 0
  held : ∀ t, s.owner = some t → 0 < s.count
  by_ : ∀ t, s.lockedBy = some t → s.owner = some t
  put : ∀ t, s.pc t = .lockWr ∨ s.pc t = .tryWr ∨ s.pc t = .unWr ∨ s.pc t = .unPut → s.owner = some t
  wr : ∀ t, s.pc t = .unWr → s.lockedBy = some t
  off : ∀ t, s.pc t = .unPut → s.lockedBy = none

theorem inv_init : Inv init [] := by
  constructor <;> simp [init, got, gave, Pc.getting]

theorem inv_call {s h} (hs : Inv s h) (t : Nat) (c : Call) (hi : s.pc t = .idle) : Inv (call s t c).2 ((call s t c).1 :: h) := by
  obtain ⟨h1, h2, h3, h4, h5, h6, h7⟩ := hs
  unfold Pc.getting at *
  cases c <;> constructor <;> simp only [call, State.go, Function.update_apply, got, gave, Pc.getting] <;> grind

theorem inv_next {s h e s'} (hs : Inv s h) (t : Nat) (hn : next s t = some (e, s')) : Inv s' (e :: h) := by
  obtain ⟨h1, h2, h3, h4, h5, h6, h7⟩ := hs
  unfold Pc.getting at *
  have g1 := h1 t
  have g5 := h5 t
  unfold next at hn
  cases hp : s.pc t <;> rw [hp] at hn <;> simp only [] at hn
  case idle => cases hn
  case unPut =>
    have ho := g5 (by simp [hp])
    have hc := h3 t ho
    cases hn
    unfold State.release
    rw [if_pos ho]
    by_cases h8 : s.count ≤ 1
    · rw [if_pos h8]
      constructor <;> simp only [State.go, Function.update_apply, got, gave, Pc.getting] <;> grind
    · rw [if_neg h8]
      constructor <;> simp only [State.go, Function.update_apply, got, gave, Pc.getting] <;> grind
  all_goals
    (try split at hn) <;> (try cases hn) <;> constructor <;>
      simp only [State.go, State.take, State.release, State.open, Function.update_apply, got, gave, Pc.getting] at * <;> grind

theorem inv_reach {s h} (hr : Reach s h) : Inv s h := by
  induction hr with
  | init => exact inv_init
  | step _ hn ih =>
    cases hn with
    | call t c hi => exact inv_call ih t c hi
    | next t hn => exact inv_next ih t hn

theorem owner_of_inside {s h} (hi : Inv s h) {t : Nat} (ht : inside h t) : s.owner = some t := by
  by_contra hn
  have := hi.count t
  rw [if_neg hn] at this
  unfold inside at ht
  omega

/-- **C123** Mutual exclusion: at no time do two threads have the mutex, even if some threads unlock what they have not locked or lock
twice. -/
theorem C123_mutual_exclusion {s h} (hr : Reach s h) (t u : Nat) (ht : inside h t) (hu : inside h u) : t = u := by
  have hi := inv_reach hr
  have h1 := owner_of_inside hi ht
  rw [owner_of_inside hi hu] at h1
  exact (Option.some.inj h1).symm

theorem reach_cons {s' e h} (hr : Reach s' (e :: h)) : ∃ s, Reach s h ∧ Step s e s' := by
  cases hr with
  | step h1 h2 => exact ⟨_, h1, h2⟩

/-- What the return of a call tells. -/
theorem step_facts {s h e s'} (hi : Inv s h) (t : Nat) (hn : next s t = some (e, s')) :
    e.thread = t ∧ (e = .locked t ∨ e = .tried t true → s.owner = some t ∧ (s.pc t).getting) ∧
      (e = .unlocked t → inside h t ∧ s.pc t = .unPut ∧ s' = (s.release t).go t .idle) ∧ (e = .saysNotOwned t → s.lockedBy ≠ some t ∧ s.pc t = .unRd) ∧
      (e = .saysDeadlock t → s.owner = some t ∧ s.pc t = .lockRd) ∧ (∀ u, e ≠ .callLock u ∧ e ≠ .callUnlock u ∧ e ≠ .callTry u) := by
  obtain ⟨h1, h2, h3, h4, h5, h6, h7⟩ := hi
  have g1 := h1 t
  have g5 := h5 t
  unfold Pc.getting at *
  unfold inside
  unfold next at hn
  cases hp : s.pc t <;> rw [hp] at hn <;> simp only [] at hn
  case idle => cases hn
  all_goals
    (try split at hn) <;> (try cases hn) <;> simp only [Ev.thread] <;> grind

theorem reach_event {s' e h} (hr : Reach s' (e :: h)) (hc : ∀ t, e ≠ .callLock t ∧ e ≠ .callUnlock t ∧ e ≠ .callTry t) :
    ∃ s, Reach s h ∧ next s e.thread = some (e, s') := by
  obtain ⟨s, h1, h2⟩ := reach_cons hr
  cases h2 with
  | call t c _ =>
    exfalso
    cases c <;> simp only [call] at hc <;> have := hc t <;> grind
  | next t h2 =>
    refine ⟨s, h1, ?_⟩
    rw [(step_facts (inv_reach h1) t h2).1]
    exact h2

/-- **C123** Whoever gets the mutex, by `lock` or by `trylock`, has it then, and no other thread has. -/
theorem C123_acquire {s h} (t : Nat) :
    (Reach s (.locked t :: h) → inside (.locked t :: h) t ∧ ∀ u, u ≠ t → ¬ inside h u) ∧
      (Reach s (.tried t true :: h) → inside (.tried t true :: h) t ∧ ∀ u, u ≠ t → ¬ inside h u) := by
  constructor <;> intro hr
  all_goals
    obtain ⟨s0, h1, h2⟩ := reach_event hr (by simp)
    have hi := inv_reach h1
    simp only [Ev.thread] at h2
    have hf := (step_facts hi t h2).2.1 (by simp)
    have hc := hi.count t
    have hp := hi.held t hf.1
    rw [if_pos hf.1, if_pos hf.2] at hc
    refine ⟨?_, fun u hu hin => ?_⟩
    · simp only [inside, got, gave, if_pos]
      omega
    · have := owner_of_inside hi hin
      rw [hf.1] at this
      exact hu (Option.some.inj this).symm

/-- **C123** `unlock` gives the mutex back only if the calling thread has it. -/
theorem C123_unlock {s h} (t : Nat) (hr : Reach s (.unlocked t :: h)) : inside h t := by
  obtain ⟨s0, h1, h2⟩ := reach_event hr (by simp)
  exact ((step_facts (inv_reach h1) _ h2).2.2.1 rfl).1

/-- **C123** No thread waits unless some thread has the mutex or can go on. -/
theorem C123_progress {s h} (hr : Reach s h) (t : Nat) (ht : s.pc t ≠ .idle) :
    (∃ u, inside h u) ∨ ∃ u e s', next s u = some (e, s') := by
  have hi := inv_reach hr
  by_cases hn : ∃ e s', next s t = some (e, s')
  · exact .inr ⟨t, hn⟩
  · cases ho : s.owner with
    | none =>
      exfalso
      apply hn
      have hopen : s.open t := .inl ho
      unfold next
      cases hp : s.pc t <;> simp only [if_pos hopen] <;> first | exact absurd hp ht | (split <;> exact ⟨_, _, rfl⟩) | exact ⟨_, _, rfl⟩
    | some u =>
      by_cases hg : (s.pc u).getting
      · refine .inr ⟨u, ?_⟩
        rcases hg with hg | hg <;> exact ⟨_, _, by unfold next; rw [hg]⟩
      · left
        refine ⟨u, ?_⟩
        have hc := hi.count u
        have hp := hi.held u ho
        rw [if_pos ho, if_neg hg] at hc
        unfold inside
        omega

theorem proper_facts {s h} (hr : Reach s h) (t : Nat) (hp : Proper h t) :
    (∀ e ∈ h, e.thread = t → ¬ e.message) ∧ (s.owner = some t → s.count = 1) ∧
      (s.pc t = .lockRd ∨ s.pc t = .lockGet ∨ s.pc t = .tryGet → s.owner ≠ some t) ∧
      (s.owner = some t → s.pc t = .idle ∨ s.pc t = .unRd → s.lockedBy = some t) ∧
      (s.pc t = .unRd → s.owner = some t) := by
  induction hr with
  | init => simp [init]
  | @step s h e s' hr hs ih =>
    have hin := inv_reach hr
    cases hs with
    | call u c hi =>
      have hpp : Proper h t := by cases c <;> simp only [call, Proper] at hp <;> grind
      obtain ⟨i1, i2, i3, i4, i5⟩ := ih hpp
      have hm : ¬ (call s u c).1.message := by cases c <;> simp [call, Ev.message]
      have hown : s.pc t = .idle → (inside h t ↔ s.owner = some t) := by
        intro hidle
        refine ⟨owner_of_inside hin, fun ho => ?_⟩
        have hc := hin.count t
        have hp := hin.held t ho
        rw [if_pos ho, hidle, if_neg (by simp [Pc.getting])] at hc
        unfold inside
        omega
      refine ⟨?_, ?_⟩
      · intro e he
        rcases List.mem_cons.mp he with rfl | he
        · exact fun _ => hm
        · exact i1 e he
      · cases c <;> simp only [call, State.go, Function.update_apply, Proper] at * <;> grind
    | next u hn =>
      have hf := step_facts hin u hn
      have hpp : Proper h t := by
        obtain ⟨h1, -⟩ := hf
        cases e <;> simp only [Proper, Ev.thread] at hp h1 <;> first | exact hp | exact hp.2
      obtain ⟨i1, i2, i3, i4, i5⟩ := ih hpp
      have hi2 := inv_next hin u hn
      refine ⟨?_, ?_⟩
      · intro e' he
        rcases List.mem_cons.mp he with rfl | he
        · intro hth hm
          rw [hf.1] at hth
          subst hth
          have hd := hf.2.2.2.2.1
          have hu := hf.2.2.2.1
          have hx := hf.1
          cases e' <;> simp only [Ev.message, Ev.thread] at hm hx
          · subst hx
            exact i3 (.inl (hd rfl).2) (hd rfl).1
          · subst hx
            have := hu rfl
            exact this.1 (i4 (i5 this.2) (.inr this.2))
        · exact i1 e' he
      · obtain ⟨-, h2, h3, h4, h5, h6, h7⟩ := hi2
        obtain ⟨-, g2, g3, g4, g5, g6, g7⟩ := hin
        have g5u := g5 u
        clear hf i1 hp hpp ih
        unfold next at hn
        cases hq : s.pc u <;> rw [hq] at hn <;> simp only [] at hn
        case idle => cases hn
        case unPut =>
          have ho := g5u (by simp [hq])
          cases hn
          unfold State.release
          rw [if_pos ho]
          by_cases h8 : s.count ≤ 1
          · rw [if_pos h8]
            simp only [State.go, Function.update_apply] at *
            grind
          · rw [if_neg h8]
            simp only [State.go, Function.update_apply] at *
            grind
        all_goals
          (try split at hn) <;> cases hn <;>
            simp only [State.go, State.take, State.open, Function.update_apply] at * <;> grind

/-- **C123** A thread that never locks what it has and never unlocks what it has not is never given a message, whatever the other threads do, and
every one of its calls to `unlock` makes the mutex free. -/
theorem C123_proper_partial {s h} (hr : Reach s h) (t : Nat) (hp : Proper h t) :
    (∀ e ∈ h, e.thread = t → ¬ e.message) ∧ got h t ≤ gave h t + 1 ∧ ∀ h', h = .unlocked t :: h' → s.owner = none ∧ ∀ u, ¬ inside h u := by
  obtain ⟨p1, p2, p3, p4, p5⟩ := proper_facts hr t hp
  have hi := inv_reach hr
  refine ⟨p1, ?_, ?_⟩
  · have hc := hi.count t
    by_cases h1 : s.owner = some t
    · rw [if_pos h1, p2 h1] at hc
      split at hc <;> omega
    · rw [if_neg h1] at hc
      split at hc <;> omega
  · rintro h' rfl
    obtain ⟨s0, h1, h2⟩ := reach_event hr (by simp)
    have hi0 := inv_reach h1
    simp only [Ev.thread] at h2
    have hf := (step_facts hi0 t h2).2.2.1 rfl
    have ho := hi0.put t (.inr (.inr (.inr hf.2.1)))
    have hc0 := (proper_facts h1 t hp).2.1 ho
    have hs : s.owner = none := by
      rw [hf.2.2]
      simp [State.release, State.go, ho, hc0]
    refine ⟨hs, fun u hu => ?_⟩
    have := owner_of_inside hi hu
    rw [hs] at this
    cases this

/-! ## Where it differs from the pthreads build -/

/-- **C123** `trylock` gives the mutex to a thread that has it already (the pthreads build refuses). -/
theorem C123_trylock_violation : ∃ s h, Reach s (.tried 0 true :: h) ∧ inside h 0 :=
  ⟨_, [.silent 0, .callTry 0, .locked 0, .silent 0, .silent 0, .callLock 0],
    .step (.step (.step (.step (.step (.step (.step .init (.call 0 .lock rfl)) (.next 0 rfl)) (.next 0 rfl)) (.next 0 rfl)) (.call 0 .trylock rfl)) (.next 0 rfl)) (.next 0 rfl),
    by simp [inside, got, gave]⟩

/-- A state in which thread `t` has the mutex once more than it can ever give back. -/
structure Stuck (t : Nat) (s : State) : Prop where
  owner : s.owner = some t
  count : 1 ≤ s.count
  more : s.pc t = .lockWr ∨ s.pc t = .tryWr ∨ s.pc t = .unWr ∨ s.pc t = .unPut ∨ s.lockedBy = some t → 2 ≤ s.count
  others : ∀ u, u ≠ t → s.pc u ≠ .lockWr ∧ s.pc u ≠ .tryWr ∧ s.pc u ≠ .unWr ∧ s.pc u ≠ .unPut ∧ s.lockedBy ≠ some u
  wr : s.pc t = .unWr → s.lockedBy = some t
  off : s.pc t = .unPut → s.lockedBy = none

theorem stuck_step {t s e s'} (hs : Stuck t s) (hn : Step s e s') : Stuck t s' ∧ ∀ u, u ≠ t → e ≠ .locked u ∧ e ≠ .tried u true := by
  obtain ⟨h1, h2, h3, h4, h5, h6⟩ := hs
  cases hn with
  | call u c hi =>
    have h4u := h4 u
    refine ⟨?_, by intro v _; cases c <;> simp [call]⟩
    cases c <;> constructor <;> simp only [call, State.go, Function.update_apply] <;> grind
  | next u hn =>
    have h4u := h4 u
    unfold next at hn
    cases hp : s.pc u <;> rw [hp] at hn <;> simp only [] at hn
    case idle => cases hn
    case unPut =>
      have hut : u = t := by
        by_contra hne
        exact (h4u hne).2.2.2.1 hp
      subst hut
      have hc : 2 ≤ s.count := h3 (by simp [hp])
      have hl := h6 hp
      cases hn
      unfold State.release
      rw [if_pos h1, if_neg (by omega)]
      refine ⟨?_, by simp⟩
      constructor <;> simp only [State.go, Function.update_apply] <;> grind
    all_goals
      (try split at hn) <;> cases hn <;> refine ⟨?_, by grind⟩ <;> constructor <;>
        simp only [State.go, State.take, State.open, Function.update_apply] at * <;> grind

theorem stuck_after {t s s' h} (hs : Stuck t s) (ha : After s s' h) : Stuck t s' ∧ ∀ u, u ≠ t → Ev.locked u ∉ h ∧ Ev.tried u true ∉ h := by
  induction ha with
  | here => exact ⟨hs, by simp⟩
  | step _ hn ih =>
    have h1 := stuck_step ih.1 hn
    refine ⟨h1.1, fun u hu => ?_⟩
    have h2 := h1.2 u hu
    have h3 := ih.2 u hu
    simp only [List.mem_cons, not_or]
    exact ⟨⟨h2.1.symm, h3.1⟩, h2.2.symm, h3.2⟩

/-- **C123** A thread that locks twice is not stopped (it only gets a message), and when it has unlocked twice, the second unlock has been refused: from
then on, whatever anybody does, no other thread ever gets the mutex. (In the pthreads build the second lock does not return.) -/
theorem C123_leak_violation : ∃ s h, Reach s h ∧ (∀ e ∈ h, e.thread = 0) ∧ s.pc 0 = .idle ∧
    h.filter (fun e => e = .callLock 0 ∨ e = .callUnlock 0) = [.callUnlock 0, .callUnlock 0, .callLock 0, .callLock 0] ∧
    ∀ s' h', After s s' h' → ∀ u, u ≠ 0 → Ev.locked u ∉ h' ∧ Ev.tried u true ∉ h' := by
  refine ⟨_, [.saysNotOwned 0, .callUnlock 0, .unlocked 0, .silent 0, .silent 0, .callUnlock 0, .locked 0, .silent 0, .saysDeadlock 0, .callLock 0,
      .locked 0, .silent 0, .silent 0, .callLock 0],
    .step (.step (.step (.step (.step (.step (.step (.step (.step (.step (.step (.step (.step (.step .init (.call 0 .lock rfl)) (.next 0 rfl)) (.next 0 rfl)) (.next 0 rfl))
      (.call 0 .lock rfl)) (.next 0 rfl)) (.next 0 rfl)) (.next 0 rfl)) (.call 0 .unlock rfl)) (.next 0 rfl)) (.next 0 rfl)) (.next 0 rfl))
      (.call 0 .unlock rfl)) (.next 0 rfl),
    by simp [Ev.thread], rfl, by decide, fun s' h' ha => (stuck_after ?_ ha).2⟩
  constructor
  · rfl
  · decide
  · decide
  · intro u hu
    simp [call, State.go, State.take, State.release, Function.update_apply, hu, init]
  · decide
  · decide

/-- Thread 3 takes the mutex, thread 5 tries in vain and waits; thread 3 gives the mutex back and thread 5 gets it. -/
example : ∃ s h, Reach s h ∧ inside h 5 ∧ ¬ inside h 3 ∧ Proper h 3 ∧ Proper h 5 ∧ Ev.tried 5 false ∈ h :=
  ⟨_, [.locked 5, .silent 5, .unlocked 3, .silent 3, .silent 3, .callUnlock 3, .silent 5, .callLock 5, .tried 5 false, .callTry 5, .locked 3, .silent 3, .silent 3, .callLock 3],
    .step (.step (.step (.step (.step (.step (.step (.step (.step (.step (.step (.step (.step (.step .init (.call 3 .lock rfl)) (.next 3 rfl)) (.next 3 rfl)) (.next 3 rfl))
      (.call 5 .trylock rfl)) (.next 5 rfl)) (.call 5 .lock rfl)) (.next 5 rfl)) (.call 3 .unlock rfl)) (.next 3 rfl)) (.next 3 rfl)) (.next 3 rfl)) (.next 5 rfl)) (.next 5 rfl),
    by simp [inside, got, gave], by simp [inside, got, gave], by simp [Proper, inside, got, gave], by simp [Proper, inside, got, gave], by simp⟩

end QM.WinMutex
