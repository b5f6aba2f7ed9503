import Verif.Mutex.Spec

/-! # The invariant of the mutex -/

namespace QM.Mutex

/-- The thread has the `pthread_mutex_t` but its call has not returned yet. -/
def Pc.getting (p : Pc) : Prop := p = .lockWrBy ∨ p = .lockWr ∨ p = .tryWrBy ∨ p = .tryWr

structure Inv (s : State) (h : List Ev) : Prop where
  ub : s.ub = false
  inside : ∀ t, inside h t ↔ s.owner = some t ∧ ¬ (s.pc t).getting
  getting : ∀ t, (s.pc t).getting → s.owner = some t
  by_ : ∀ t, s.pc t = .lockWr ∨ s.pc t = .tryWr → s.lockedBy = t
  put : ∀ t, s.pc t = .unWr ∨ s.pc t = .unPut → s.owner = some t
  flag : ∀ t, s.owner = some t → ¬ (s.pc t).getting → s.pc t ≠ .unPut → s.locked = true ∧ s.lockedBy = t
  off : ∀ t, s.owner = some t → (s.pc t).getting ∨ s.pc t = .unPut → s.locked = false
  free : s.owner = none → s.locked = false
  other : ∀ t, s.pc t = .lockBy ∨ s.pc t = .unBy → s.owner ≠ some t → s.lockedBy ≠ t
  wait : ∀ t, s.pc t = .lockGet → s.owner = some t → latest h t = some (.saysDeadlock t)

theorem inv_init (z : Nat) : Inv (init z) [] := by
  constructor <;> simp [init, inside, Pc.getting]

theorem inv_call {s h} (hs : Inv s h) (t : Nat) (c : Call) (hi : s.pc t = .idle) : Inv (call s t c).2 ((call s t c).1 :: h) := by
  obtain ⟨h1, h2, h3, h4, h5, h6, h7, h8, h9, h10⟩ := hs
  unfold Pc.getting at *
  cases c <;> constructor <;> simp only [call, State.go, Function.update_apply, inside, latest, Ev.thread, Pc.getting] <;> grind

theorem inv_next {s h e s'} (hs : Inv s h) (t : Nat) (hn : next s t = some (e, s')) : Inv s' (e :: h) := by
  obtain ⟨h1, h2, h3, h4, h5, h6, h7, h8, h9, h10⟩ := hs
  unfold Pc.getting at *
  have hl : s.locked = true → s.owner = some s.lockedBy := by
    intro hl
    cases ho : s.owner <;> grind
  unfold next at hn
  cases hp : s.pc t <;> rw [hp] at hn <;> simp only [] at hn
  case idle => cases hn
  all_goals
    (try split at hn) <;> (try cases hn) <;> constructor <;>
      simp only [State.go, Function.update_apply, inside, latest, Ev.thread, Pc.getting] <;> grind

theorem inv_reach {z s h} (hr : Reach z s h) : Inv s h := by
  induction hr with
  | init => exact inv_init z
  | call t c _ hi ih => exact inv_call ih t c hi
  | step t _ hn ih => exact inv_next ih t hn

end QM.Mutex
