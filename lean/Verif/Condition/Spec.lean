import Verif.Condition.Model

/-! # What a user of a condition sees, in terms of the events alone -/

namespace QM.Condition

/-- Thread `t` has the object locked after the events `h` (latest first): it got it with `lock`, or again when `wait` returned, and has
neither given it back with `unlock` nor fallen asleep in `wait` since. -/
def inside : List Ev → Nat → Prop
  | [], _ => False
  | .locked u :: h, t => u = t ∨ inside h t
  | .waited u :: h, t => u = t ∨ inside h t
  | .unlocked u :: h, t => u ≠ t ∧ inside h t
  | .sleeps u :: h, t => u ≠ t ∧ inside h t
  | _ :: h, t => inside h t

/-- All threads use the object as its documentation says: they unlock and wait only what they have locked, and lock only what they have not. -/
def Proper : List Ev → Prop
  | [] => True
  | .callLock t :: h => ¬ inside h t ∧ Proper h
  | .callUnlock t :: h => inside h t ∧ Proper h
  | .callWait t :: h => inside h t ∧ Proper h
  | _ :: h => Proper h

/-- Thread `t` is between its call of `lock` and its call of `unlock`: it has the object, or it has called `wait` and has not returned yet. -/
def inSection : List Ev → Nat → Prop
  | [], _ => False
  | .locked u :: h, t => u = t ∨ inSection h t
  | .unlocked u :: h, t => u ≠ t ∧ inSection h t
  | _ :: h, t => inSection h t

/-- Thread `t` is in a call of `wait`. -/
def inWait : List Ev → Nat → Prop
  | [], _ => False
  | .callWait u :: h, t => u = t ∨ inWait h t
  | .waited u :: h, t => u ≠ t ∧ inWait h t
  | _ :: h, t => inWait h t

/-- The data have been set. -/
def isSet (h : List Ev) : Prop := ∃ t, .set t ∈ h

/-- Thread `t` has set the data and has not signalled since. -/
def pending : List Ev → Nat → Prop
  | [], _ => False
  | .set u :: h, t => u = t ∨ pending h t
  | .signalled u _ :: h, t => u ≠ t ∧ pending h t
  | _ :: h, t => pending h t

/-- The documented use, with the threads `W` as the waiting ones: the data are set by a thread that has the object locked, which signals
before it unlocks; a waiting thread tests the data between `lock` and `wait` and waits only if they are not set. -/
def Protocol (W : Nat → Prop) : List Ev → Prop
  | [] => True
  | .set t :: h => inside h t ∧ Protocol W h
  | .callUnlock t :: h => ¬ pending h t ∧ Protocol W h
  | .callWait t :: h => W t ∧ ¬ isSet h ∧ Protocol W h
  | _ :: h => Protocol W h

end QM.Condition
