import Verif.Async.Model
import Mathlib.Tactic.NormNum

namespace QM.Async

/-- What is known of a reachable state from the two program points. -/
structure Row where
  mt : Option Tid
  md : Option Tid
  lt : Bool
  ld : Bool
  inTask : Bool
  finishing : Bool
  started : Nat
  performed : Nat
  rank : Nat

/-- The reachable pairs of program points. -/
def row : OPc → WPc → Option Row
  | .idle, .start => some ⟨none, none, false, false, false, false, 0, 0, 2⟩
  | .idle, .check => some ⟨some .worker, none, true, false, false, false, 0, 0, 1⟩
  | .idle, .waiting => some ⟨none, none, true, false, false, false, 0, 0, 0⟩
  | .s1, .start => some ⟨none, none, false, false, false, false, 0, 0, 18⟩
  | .s1, .check => some ⟨some .worker, none, true, false, false, false, 0, 0, 17⟩
  | .s1, .waiting => some ⟨none, none, true, false, false, false, 0, 0, 16⟩
  | .s2, .start => some ⟨none, some .owner, false, true, false, false, 0, 0, 17⟩
  | .s2, .check => some ⟨some .worker, some .owner, true, true, false, false, 0, 0, 16⟩
  | .s2, .waiting => some ⟨none, some .owner, true, true, false, false, 0, 0, 15⟩
  | .s3, .start => some ⟨some .owner, some .owner, true, true, false, false, 0, 0, 14⟩
  | .s3, .waiting => some ⟨some .owner, some .owner, true, true, false, false, 0, 0, 14⟩
  | .s4, .start => some ⟨some .owner, some .owner, true, true, true, false, 1, 0, 13⟩
  | .s4, .waiting => some ⟨some .owner, some .owner, true, true, true, false, 1, 0, 13⟩
  | .s5, .start => some ⟨some .owner, some .owner, true, true, true, false, 1, 0, 12⟩
  | .s5, .woken => some ⟨some .owner, some .owner, true, true, true, false, 1, 0, 12⟩
  | .ret, .start => some ⟨none, some .owner, false, true, true, false, 1, 0, 11⟩
  | .ret, .check => some ⟨some .worker, some .owner, true, true, true, false, 1, 0, 10⟩
  | .ret, .woken => some ⟨none, some .owner, false, true, true, false, 1, 0, 11⟩
  | .ret, .perform => some ⟨some .worker, some .owner, true, true, true, false, 1, 0, 9⟩
  | .ret, .p1 => some ⟨some .worker, some .owner, true, true, true, false, 1, 1, 8⟩
  | .waiting, .start => some ⟨none, none, false, true, true, false, 1, 0, 10⟩
  | .waiting, .check => some ⟨some .worker, none, true, true, true, false, 1, 0, 9⟩
  | .waiting, .woken => some ⟨none, none, false, true, true, false, 1, 0, 10⟩
  | .waiting, .perform => some ⟨some .worker, none, true, true, true, false, 1, 0, 8⟩
  | .waiting, .p1 => some ⟨some .worker, none, true, true, true, false, 1, 1, 7⟩
  | .waiting, .p2 => some ⟨some .worker, some .worker, true, true, true, false, 1, 1, 6⟩
  | .waiting, .p3 => some ⟨some .worker, some .worker, true, true, false, false, 1, 1, 5⟩
  | .woken, .check => some ⟨some .worker, none, true, false, false, false, 1, 1, 3⟩
  | .woken, .waiting => some ⟨none, none, true, false, false, false, 1, 1, 2⟩
  | .woken, .p4 => some ⟨some .worker, some .worker, true, true, false, false, 1, 1, 4⟩
  | .a1, .check => some ⟨some .worker, some .owner, true, true, false, false, 1, 1, 2⟩
  | .a1, .waiting => some ⟨none, some .owner, true, true, false, false, 1, 1, 1⟩
  | .d0, .start => some ⟨none, none, false, false, false, false, 0, 0, 14⟩
  | .d0, .check => some ⟨some .worker, none, true, false, false, false, 0, 0, 13⟩
  | .d0, .waiting => some ⟨none, none, true, false, false, false, 0, 0, 12⟩
  | .d1, .start => some ⟨some .owner, none, true, false, false, false, 0, 0, 11⟩
  | .d1, .waiting => some ⟨some .owner, none, true, false, false, false, 0, 0, 11⟩
  | .d2, .start => some ⟨some .owner, none, true, false, false, true, 0, 0, 10⟩
  | .d2, .waiting => some ⟨some .owner, none, true, false, false, true, 0, 0, 10⟩
  | .d3, .start => some ⟨some .owner, none, true, false, false, true, 0, 0, 9⟩
  | .d3, .woken => some ⟨some .owner, none, true, false, false, true, 0, 0, 9⟩
  | .d4, .start => some ⟨none, none, false, false, false, true, 0, 0, 8⟩
  | .d4, .check => some ⟨some .worker, none, true, false, false, true, 0, 0, 7⟩
  | .d4, .woken => some ⟨none, none, false, false, false, true, 0, 0, 8⟩
  | .d4, .f1 => some ⟨some .worker, none, true, false, false, true, 0, 0, 6⟩
  | .d4, .f2 => some ⟨some .worker, some .worker, true, true, false, true, 0, 0, 5⟩
  | .d4, .f3 => some ⟨some .worker, some .worker, true, true, false, true, 0, 0, 4⟩
  | .d4, .f4 => some ⟨some .worker, some .worker, true, true, false, true, 0, 0, 3⟩
  | .d4, .f5 => some ⟨some .worker, none, true, false, false, true, 0, 0, 2⟩
  | .d4, .dead => some ⟨none, none, false, false, false, true, 0, 0, 1⟩
  | .gone, .dead => some ⟨none, none, false, false, false, true, 0, 0, 0⟩
  | _, _ => none

/-- No spurious wake-ups, and every task is awaited. -/
def normal : Config := ⟨false, false⟩

/-- The invariant. -/
def Inv (s : State) : Prop :=
  match row s.o s.w with
  | none => False
  | some r => s.mt = r.mt ∧ s.md = r.md ∧ s.lt = r.lt ∧ s.ld = r.ld ∧ s.inTask = r.inTask ∧
      s.finishing = r.finishing ∧ s.started = s.awaited + r.started ∧ s.performed = s.awaited + r.performed

def rank (s : State) : Nat := match row s.o s.w with | none => 0 | some r => r.rank

theorem inv_step (s s' : State) (h : Inv s) (hs : s' ∈ steps normal s) : Inv s' := by
  obtain ⟨o, w, mt, md, lt, ld, it, fin, a, b, c⟩ := s
  unfold Inv at h
  simp only at h
  cases o <;> cases w <;> simp only [row] at h <;> try exact h.elim
  all_goals
    obtain ⟨rfl, rfl, rfl, rfl, rfl, rfl, rfl, rfl⟩ := h
    (simp [steps, ownerSteps, workerSteps, normal, State.unlockTodo, State.unlockDone, State.signalTodo,
      State.signalDone] at hs) <;>
    first
      | (rcases hs with rfl | rfl | rfl <;> simp [Inv, row] <;> omega)
      | (rcases hs with rfl | rfl | rfl <;> simp [Inv, row])
      | (rcases hs with rfl | rfl <;> simp [Inv, row] <;> omega)
      | (rcases hs with rfl | rfl <;> simp [Inv, row])
      | (subst hs; simp [Inv, row] <;> omega)
      | (subst hs; simp [Inv, row])

theorem inv_reach {s : State} (h : Reach normal s) : Inv s := by
  induction h with
  | init => simp [Inv, init, row]
  | step _ hs ih => exact inv_step _ _ ih hs

end QM.Async
