import Verif.Win.Unchecked
import Verif.Win.MutexProps

/-!
# C129: the mutex of the Windows build without thread checks
-/

namespace QM.WinMutex.Unchecked

open QM.WinMutex (Ev Call)

/-- The thread has the Windows mutex once more but its call has not returned yet. -/
def Pc.getting (p : Pc) : Prop := p = .lockRet ∨ p = .tryRet

instance (p : Pc) : Decidable p.getting := inferInstanceAs (Decidable (_ ∨ _))

structure Inv (s : State) (h : List Ev) : Prop where
  count : ∀ t, (if s.owner = some t then s.count else 0) = depth h t + if (s.pc t).getting then 1 else 0
  free : s.owner = none → s.count = 0
  held : ∀ t, s.owner = some t → 0 < s.count

theorem inv_reach {s h} (hr : Reach s h) : Inv s h := by
  induction hr with
  | init => constructor <;> simp [init, depth, Pc.getting]
  | call t c hr hi ih =>
    obtain ⟨h1, h2, h3⟩ := ih
    unfold Pc.getting at *
    cases c <;> constructor <;> simp only [call, State.go, Function.update_apply, depth, Pc.getting] <;> grind
  | @step s h e s' t hr hn ih =>
    obtain ⟨h1, h2, h3⟩ := ih
    have g1 := h1 t
    unfold Pc.getting at *
    unfold next at hn
    cases hp : s.pc t <;> rw [hp] at hn <;> simp only [] at hn
    case idle => cases hn
    case unPut =>
      cases hn
      unfold State.release
      by_cases ho : s.owner = some t
      · rw [if_pos ho]
        by_cases h8 : s.count ≤ 1
        · rw [if_pos h8]
          constructor <;> simp only [State.go, Function.update_apply, depth, Pc.getting] <;> grind
        · rw [if_neg h8]
          constructor <;> simp only [State.go, Function.update_apply, depth, Pc.getting] <;> grind
      · rw [if_neg ho]
        constructor <;> simp only [State.go, Function.update_apply, depth, Pc.getting] <;> grind
    all_goals
      (try split at hn) <;> cases hn <;> constructor <;>
        simp only [State.go, State.take, State.open, Function.update_apply, depth, Pc.getting] at * <;> grind

theorem owner_of_depth {s h} (hi : Inv s h) {t : Nat} (ht : 0 < depth h t) : s.owner = some t := by
  by_contra hn
  have := hi.count t
  rw [if_neg hn] at this
  omega

/-- **C129** Mutual exclusion without any condition on the calls: at no time do two threads have the mutex, even if threads lock several times or unlock what
they have not. -/
theorem C129_mutual_exclusion {s h} (hr : Reach s h) (t u : Nat) (ht : 0 < depth h t) (hu : 0 < depth h u) : t = u := by
  have hi := inv_reach hr
  have h1 := owner_of_depth hi ht
  rw [owner_of_depth hi hu] at h1
  exact (Option.some.inj h1).symm

/-- **C129** A thread waits in `lock` only while another one has the mutex or is being given it; it never waits for itself. -/
theorem C129_waits {s h} (hr : Reach s h) (t : Nat) (hp : s.pc t = .lockGet) (hn : next s t = none) :
    ∃ u, u ≠ t ∧ (0 < depth h u ∨ (s.pc u).getting) := by
  have hi := inv_reach hr
  unfold next at hn
  rw [hp] at hn
  simp only [] at hn
  split at hn
  · cases hn
  · rename_i ho
    cases hs : s.owner with
    | none => exact absurd (.inl hs) ho
    | some u =>
      refine ⟨u, fun h => ho (.inr (by rw [hs, h])), ?_⟩
      have hc := hi.count u
      have := hi.held u hs
      rw [if_pos hs] at hc
      by_cases hg : (s.pc u).getting
      · exact .inr hg
      · rw [if_neg hg] at hc
        exact .inl (by omega)

/-- **C129** `trylock` fails only then, too, so a thread that has the mutex always gets it once more. -/
theorem C129_trylock {s h} (t : Nat) (hr : Reach s (.tried t false :: h)) :
    ∃ s0, Reach s0 h ∧ ∃ u, u ≠ t ∧ (0 < depth h u ∨ (s0.pc u).getting) := by
  generalize hh : Ev.tried t false :: h = g at hr
  cases hr with
  | init => cases hh
  | call t' c h1 h2 => cases c <;> cases hh
  | @step s0 _ _ _ t' h1 h2 =>
    obtain ⟨rfl, rfl⟩ := List.cons.inj hh
    refine ⟨s0, h1, ?_⟩
    have hi := inv_reach h1
    unfold next at h2
    cases hp : s0.pc t' <;> rw [hp] at h2 <;> simp only [] at h2
    case idle => cases h2
    case tryGet =>
      split at h2
      · cases h2
      · rename_i ho
        cases h2
        cases hs : s0.owner with
        | none => exact absurd (.inl hs) ho
        | some u =>
          refine ⟨u, fun h => ho (.inr (by rw [hs, h])), ?_⟩
          have hc := hi.count u
          have := hi.held u hs
          rw [if_pos hs] at hc
          by_cases hg : (s0.pc u).getting
          · exact .inr hg
          · rw [if_neg hg] at hc
            exact .inl (by omega)
    all_goals (try split at h2) <;> cases h2

/-- **C129** As many calls of `unlock` as there were of `lock` make the mutex free: if nobody has it by the count of the calls and no call is under way, the
Windows mutex is free. -/
theorem C129_balanced {s h} (hr : Reach s h) (hd : ∀ t, depth h t = 0) (hp : ∀ t, s.pc t = .idle) : s.owner = none ∧ s.count = 0 := by
  have hi := inv_reach hr
  cases ho : s.owner with
  | none => exact ⟨rfl, hi.free ho⟩
  | some t =>
    have hc := hi.count t
    have := hi.held t ho
    rw [if_pos ho, hd, hp, if_neg (by simp [Pc.getting])] at hc
    omega

/-- **C129** No messages are ever printed. -/
theorem C129_no_message {s h} (hr : Reach s h) : ∀ e ∈ h, ¬ e.message := by
  induction hr with
  | init => simp
  | call t c _ _ ih =>
    intro e he
    rcases List.mem_cons.mp he with rfl | he
    · cases c <;> simp [call, Ev.message]
    · exact ih e he
  | @step s h e s' t _ hn ih =>
    intro e' he
    rcases List.mem_cons.mp he with rfl | he
    · unfold next at hn
      cases hp : s.pc t <;> rw [hp] at hn <;> simp only [] at hn
      case idle => cases hn
      all_goals (try split at hn) <;> cases hn <;> simp [Ev.message]
    · exact ih e' he

/-- **C129** The checks are not neutral: thread 0 locks twice and unlocks twice. Without the checks the mutex is free then; with them it is not. -/
theorem C129_checks_violation :
    (∃ s h, Reach s h ∧ h.filter (fun e => e ≠ .silent 0) = [.unlocked 0, .callUnlock 0, .unlocked 0, .callUnlock 0, .locked 0, .callLock 0, .locked 0, .callLock 0] ∧
        (∀ t, s.pc t = .idle) ∧ s.owner = none) ∧
      ∃ s h, QM.WinMutex.Reach s h ∧ h.filter (fun e => e ≠ .silent 0) =
          [.saysNotOwned 0, .callUnlock 0, .unlocked 0, .callUnlock 0, .locked 0, .saysDeadlock 0, .callLock 0, .locked 0, .callLock 0] ∧
        (∀ t, s.pc t = .idle) ∧ s.owner = some 0 := by
  constructor
  · refine ⟨_, _, .step 0 (.call 0 .unlock (.step 0 (.call 0 .unlock (.step 0 (.step 0 (.call 0 .lock (.step 0 (.step 0 (.call 0 .lock .init rfl) rfl) rfl) rfl)
      rfl) rfl) rfl) rfl) rfl) rfl, by decide, fun t => ?_, rfl⟩
    by_cases ht : t = 0 <;> simp [State.go, State.release, State.take, call, init, ht]
  · refine ⟨_, _,
      .step (.step (.step (.step (.step (.step (.step (.step (.step (.step (.step (.step (.step (.step .init (.call 0 .lock rfl)) (.next 0 rfl)) (.next 0 rfl)) (.next 0 rfl))
      (.call 0 .lock rfl)) (.next 0 rfl)) (.next 0 rfl)) (.next 0 rfl)) (.call 0 .unlock rfl)) (.next 0 rfl)) (.next 0 rfl)) (.next 0 rfl))
      (.call 0 .unlock rfl)) (.next 0 rfl), by decide, fun t => ?_, rfl⟩
    by_cases ht : t = 0 <;>
      simp [QM.WinMutex.State.go, QM.WinMutex.State.release, QM.WinMutex.State.take, QM.WinMutex.call, QM.WinMutex.init, ht]

/-- Thread 3 has the mutex twice and unlocks once; thread 5, which unlocks what it has not, tries in vain. -/
example : ∃ s h, Reach s h ∧ h.head? = some (.tried 5 false) ∧ depth h 3 = 1 ∧ depth h 5 = 0 :=
  ⟨_, _, .step 5 (.call 5 .trylock (.step 5 (.call 5 .unlock (.step 3 (.call 3 .unlock (.step 3 (.step 3 (.call 3 .trylock (.step 3 (.step 3 (.call 3 .lock .init
    rfl) rfl) rfl) rfl) rfl) rfl) rfl) rfl) rfl) rfl) rfl) rfl, rfl, by decide, by decide⟩

/-- Thread 5 waits for thread 3. -/
example : ∃ s h, Reach s h ∧ s.pc 5 = .lockGet ∧ next s 5 = none :=
  ⟨_, _, .call 5 .lock (.step 3 (.step 3 (.call 3 .lock .init rfl) rfl) rfl) rfl, rfl, rfl⟩

end QM.WinMutex.Unchecked
