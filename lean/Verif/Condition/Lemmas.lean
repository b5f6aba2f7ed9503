import Verif.Condition.Spec

/-! # The invariant of the condition -/

namespace QM.Condition

structure Inv (s : State) (h : List Ev) : Prop where
  ub : s.ub = false
  inside : ∀ t, inside h t ↔ s.owner = some t ∧ ¬ (s.pc t = .lockWr ∨ s.pc t = .waitWr)
  has : ∀ t, s.pc t = .lockWr ∨ s.pc t = .waitWr ∨ s.pc t = .unRd ∨ s.pc t = .unWr ∨ s.pc t = .unPut ∨ s.pc t = .waitIn → s.owner = some t
  hasNot : ∀ t, s.pc t = .lockGet ∨ s.pc t = .asleep ∨ s.pc t = .woken → s.owner ≠ some t
  flag : ∀ t, s.owner = some t → ¬ (s.pc t = .lockWr ∨ s.pc t = .waitWr ∨ s.pc t = .unPut) → s.locked = true
  inWait : ∀ t, inWait h t ↔ s.pc t = .waitIn ∨ s.pc t = .asleep ∨ s.pc t = .woken ∨ s.pc t = .waitWr
  inSection : ∀ t, inSection h t ↔ QM.Condition.inside h t ∨ s.pc t = .asleep ∨ s.pc t = .woken ∨ s.pc t = .waitWr

theorem proper_cons {e h} (hp : Proper (e :: h)) : Proper h := by
  cases e <;> simp only [Proper] at hp <;> first | exact hp | exact hp.2

theorem inv_init : Inv init [] := by
  constructor <;> simp [init, inside, inWait, inSection]

theorem inv_step {s h e s'} (hs : Inv s h) (hp : Proper (e :: h)) (hn : Step s e s') : Inv s' (e :: h) := by
  obtain ⟨h1, h2, h3, h4, h5, h6, h7⟩ := hs
  cases hn <;> simp only [Proper] at hp <;> constructor <;>
    (try simp only [State.go, Function.update_apply, inside, inWait, inSection]) <;> grind

theorem inv_reach {s h} (hr : Reach s h) (hp : Proper h) : Inv s h := by
  induction hr with
  | init => exact inv_init
  | step _ hn ih => exact inv_step (ih (proper_cons hp)) hp hn

theorem protocol_cons {W e h} (hp : Protocol W (e :: h)) : Protocol W h := by
  cases e <;> simp only [Protocol] at hp <;> grind

theorem isSet_cons (e : Ev) (h : List Ev) : isSet (e :: h) ↔ (∃ t, e = .set t) ∨ isSet h := by
  simp only [isSet, List.mem_cons]
  grind

theorem pending_isSet {h t} (hp : pending h t) : isSet h := by
  induction h with
  | nil => exact hp.elim
  | cons e h ih =>
    rw [isSet_cons]
    cases e <;> simp only [pending] at hp <;> grind

/-- What the documented use adds, with one waiting thread. -/
structure PInv (w : Nat) (s : State) (h : List Ev) : Prop where
  pend : ∀ t, pending h t → inside h t ∧ (s.pc t = .idle ∨ s.pc t = .sig)
  notSet : ∀ t, s.pc t = .waitIn → ¬ isSet h
  waits : ∀ t, s.pc t = .waitIn ∨ s.pc t = .asleep → t = w
  lost : s.pc w = .asleep → isSet h → ∃ u, pending h u

theorem pinv_step {w s h e s'} (hi : Inv s h) (hs : PInv w s h) (hp : Proper (e :: h)) (hq : Protocol (· = w) (e :: h)) (hn : Step s e s') :
    PInv w s' (e :: h) := by
  have hi' := inv_step hi hp hn
  obtain ⟨-, h2, h3, h4, -, h6, -⟩ := hi
  obtain ⟨g1, g2, g3, g4⟩ := hs
  have g5 : ∀ t, pending h t → isSet h := fun t ht => pending_isSet ht
  cases hn <;> simp only [Proper] at hp <;> simp only [Protocol] at hq <;> constructor <;>
    (try simp only [State.go, Function.update_apply, inside, pending, isSet_cons]) <;> grind

theorem pinv_reach {w s h} (hr : Reach s h) (hp : Proper h) (hq : Protocol (· = w) h) : PInv w s h := by
  induction hr with
  | init => constructor <;> simp [init, pending, isSet]
  | step hr hn ih =>
    exact pinv_step (inv_reach hr (proper_cons hp)) (ih (proper_cons hp) (protocol_cons hq)) hp hq hn

end QM.Condition
