import Verif.Mutex.Model

/-! # What a user of a mutex sees, in terms of the events alone -/

namespace QM.Mutex

/-- Thread `t` has the mutex after the events `h` (latest first): it got it with `lock` or `trylock` and has not given it back since. -/
def inside : List Ev → Nat → Prop
  | [], _ => False
  | .locked u :: h, t => u = t ∨ inside h t
  | .tried u true :: h, t => u = t ∨ inside h t
  | .unlocked u :: h, t => u ≠ t ∧ inside h t
  | _ :: h, t => inside h t

/-- The thread that an event belongs to. -/
def Ev.thread : Ev → Nat
  | .callLock t | .callUnlock t | .callTry t | .saysDeadlock t | .locked t | .unlocked t | .saysNotLocked t | .saysNotOwned t
  | .tried t _ | .silent t => t

/-- The event is an error message of the mutex. -/
def Ev.message : Ev → Prop
  | .saysDeadlock _ | .saysNotLocked _ | .saysNotOwned _ => True
  | _ => False

/-- The latest event of thread `t`. -/
def latest : List Ev → Nat → Option Ev
  | [], _ => none
  | e :: h, t => if e.thread = t then some e else latest h t

/-- Thread `t` uses the mutex as it should: it unlocks only what it has and locks only what it has not. A thread that uses the mutex
through `MutexLocker` objects, one at a time, does. -/
def Proper : List Ev → Nat → Prop
  | [], _ => True
  | .callLock u :: h, t => (u = t → ¬ inside h t) ∧ Proper h t
  | .callUnlock u :: h, t => (u = t → inside h t) ∧ Proper h t
  | _ :: h, t => Proper h t

/-- The calls that thread `t` has made, oldest first. -/
def callsOf : List Ev → Nat → List Call
  | [], _ => []
  | .callLock u :: h, t => if u = t then callsOf h t ++ [.lock] else callsOf h t
  | .callUnlock u :: h, t => if u = t then callsOf h t ++ [.unlock] else callsOf h t
  | .callTry u :: h, t => if u = t then callsOf h t ++ [.trylock] else callsOf h t
  | _ :: h, t => callsOf h t

/-- The calls made by a thread that creates and destroys `MutexLocker` objects, one after the other, on the mutex (`true`) or on a null
pointer (`false`). -/
def scopes (bs : List Bool) : List Call := bs.flatMap fun b => (locker b).1 ++ (locker b).2

/-- A member that is read (`false`) or written (`true`) by the next step of a thread, without any synchronisation. -/
inductive Member where
  | lockedFlag
  | lockedBy
deriving DecidableEq

/-- The access to a plain member that a thread is about to make. -/
def access : Pc → Option (Member × Bool)
  | .lockRd | .unRd => some (.lockedFlag, false)
  | .lockBy | .unBy => some (.lockedBy, false)
  | .lockWr | .tryWr | .unWr => some (.lockedFlag, true)
  | .lockWrBy | .tryWrBy => some (.lockedBy, true)
  | .idle | .lockGet | .unPut | .tryGet => none

/-- A data race: two threads are about to access the same member and at least one of them to write it. -/
def Race (s : State) : Prop :=
  ∃ t u m w, t ≠ u ∧ access (s.pc t) = some (m, true) ∧ access (s.pc u) = some (m, w)

end QM.Mutex
