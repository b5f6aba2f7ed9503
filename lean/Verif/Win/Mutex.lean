import Mathlib.Logic.Function.Basic

/-!
# Model of `Mutex` (thread/Thread.h:77-91, thread/Thread.cpp:101-188), Windows build with thread checks

Any number of threads, which call `lock`, `unlock` and `trylock` on one mutex in any order. Every access to the member `m_lockedBy` and every call
of the Windows API is a step; steps of different threads interleave in any way (sequential consistency).

A Windows mutex counts: a thread that holds it can take it again, and it is free after as many calls of `ReleaseMutex`. `ReleaseMutex` by a thread
that does not hold the mutex fails and has no effect. No thread ends while it holds the mutex.
-/

namespace QM.WinMutex

/-- Where a thread is: not in a call, or before the step described. -/
inductive Pc where
  | idle
  /-- `lock`: reads `m_lockedBy`, thread/Thread.cpp:126. -/
  | lockRd
  /-- `lock`: `WaitForSingleObject`, thread/Thread.cpp:133. -/
  | lockGet
  /-- `lock`: `m_lockedBy = tid`, thread/Thread.cpp:135. -/
  | lockWr
  /-- `unlock`: reads `m_lockedBy`, thread/Thread.cpp:147. -/
  | unRd
  /-- `unlock`: `m_lockedBy = -1`, thread/Thread.cpp:156. -/
  | unWr
  /-- `unlock`: `ReleaseMutex`, thread/Thread.cpp:158. -/
  | unPut
  /-- `trylock`: `WaitForSingleObject` with a time of 0, thread/Thread.cpp:167. -/
  | tryGet
  /-- `trylock`: `m_lockedBy = tid`, thread/Thread.cpp:175. -/
  | tryWr
deriving DecidableEq, Repr

/-- The mutex and the threads. `owner` and `count` are the state of the Windows mutex; `lockedBy` is `none` for -1, which is not the identifier of
a thread. -/
structure State where
  owner : Option Nat
  count : Nat
  lockedBy : Option Nat
  pc : Nat → Pc

/-- What can be seen of the calls: that they are made, that they return and what they print. -/
inductive Ev where
  | callLock (t : Nat)
  | callUnlock (t : Nat)
  | callTry (t : Nat)
  /-- "ERROR: Deadlock on mutex", thread/Thread.cpp:127. -/
  | saysDeadlock (t : Nat)
  /-- `lock` returns. -/
  | locked (t : Nat)
  /-- `unlock` returns, without a message. -/
  | unlocked (t : Nat)
  /-- `unlock` returns after "not owned by unlocking thread", thread/Thread.cpp:148. -/
  | saysNotOwned (t : Nat)
  /-- `trylock` returns. -/
  | tried (t : Nat) (ok : Bool)
  /-- A step that cannot be seen. -/
  | silent (t : Nat)
deriving DecidableEq, Repr

/-- `Mutex::Mutex`, thread/Thread.cpp:101-111. -/
def init : State := ⟨none, 0, none, fun _ => .idle⟩

/-- Thread `t` goes on to `p`. -/
def State.go (s : State) (t : Nat) (p : Pc) : State := { s with pc := Function.update s.pc t p }

/-- `WaitForSingleObject` can give the mutex to thread `t`: nobody has it, or `t` has. -/
def State.open (s : State) (t : Nat) : Prop := s.owner = none ∨ s.owner = some t

instance (s : State) (t : Nat) : Decidable (s.open t) := inferInstanceAs (Decidable (_ ∨ _))

/-- The mutex given to thread `t`. -/
def State.take (s : State) (t : Nat) : State := { s with owner := some t, count := s.count + 1 }

/-- `ReleaseMutex` by thread `t`. -/
def State.release (s : State) (t : Nat) : State :=
  if s.owner = some t then { s with owner := if s.count ≤ 1 then none else some t, count := s.count - 1 } else s

/-- The calls. -/
inductive Call where
  | lock
  | unlock
  | trylock
deriving DecidableEq, Repr

/-- Thread `t` makes a call. -/
def call (s : State) (t : Nat) : Call → Ev × State
  | .lock => (.callLock t, s.go t .lockRd)
  | .unlock => (.callUnlock t, s.go t .unRd)
  | .trylock => (.callTry t, s.go t .tryGet)

/-- The next step of thread `t` in its call; `none` if it is in no call or has to wait. -/
def next (s : State) (t : Nat) : Option (Ev × State) :=
  match s.pc t with
  | .idle => none
  -- Mutex::lock, thread/Thread.cpp:121-140
  | .lockRd => if s.lockedBy = some t then some (.saysDeadlock t, s.go t .lockGet) else some (.silent t, s.go t .lockGet)
  | .lockGet => if s.open t then some (.silent t, (s.take t).go t .lockWr) else none
  | .lockWr => some (.locked t, { s.go t .idle with lockedBy := some t })
  -- Mutex::unlock, thread/Thread.cpp:142-159
  | .unRd => if s.lockedBy ≠ some t then some (.saysNotOwned t, s.go t .idle) else some (.silent t, s.go t .unWr)
  | .unWr => some (.silent t, { s.go t .unPut with lockedBy := none })
  | .unPut => some (.unlocked t, (s.release t).go t .idle)
  -- Mutex::trylock, thread/Thread.cpp:161-188
  | .tryGet => if s.open t then some (.silent t, (s.take t).go t .tryWr) else some (.tried t false, s.go t .idle)
  | .tryWr => some (.tried t true, { s.go t .idle with lockedBy := some t })

/-- One event: a call or a step. -/
inductive Step : State → Ev → State → Prop
  | call {s} (t : Nat) (c : Call) : s.pc t = .idle → Step s (call s t c).1 (call s t c).2
  | next {s e s'} (t : Nat) : next s t = some (e, s') → Step s e s'

/-- The states that can be reached, with the events on the way, latest first. -/
inductive Reach : State → List Ev → Prop
  | init : Reach init []
  | step {s h e s'} : Reach s h → Step s e s' → Reach s' (e :: h)

/-- What can follow a state: the events, latest first, and the state after them. -/
inductive After (s : State) : State → List Ev → Prop
  | here : After s s []
  | step {s1 h e s2} : After s s1 h → Step s1 e s2 → After s s2 (e :: h)

/-! ## What a user of a mutex sees, in terms of the events alone -/

/-- How many times thread `t` got the mutex. -/
def got : List Ev → Nat → Nat
  | [], _ => 0
  | .locked u :: h, t => (if u = t then 1 else 0) + got h t
  | .tried u true :: h, t => (if u = t then 1 else 0) + got h t
  | _ :: h, t => got h t

/-- How many times thread `t` gave it back. -/
def gave : List Ev → Nat → Nat
  | [], _ => 0
  | .unlocked u :: h, t => (if u = t then 1 else 0) + gave h t
  | _ :: h, t => gave h t

/-- Thread `t` has the mutex after the events `h` (latest first): it got it more often than it gave it back. -/
def inside (h : List Ev) (t : Nat) : Prop := gave h t < got h t

/-- Thread `t` uses the mutex as it should: it unlocks only what it has and locks, or tries to lock, only what it has not. -/
def Proper : List Ev → Nat → Prop
  | [], _ => True
  | .callLock u :: h, t => (u = t → ¬ inside h t) ∧ Proper h t
  | .callTry u :: h, t => (u = t → ¬ inside h t) ∧ Proper h t
  | .callUnlock u :: h, t => (u = t → inside h t) ∧ Proper h t
  | _ :: h, t => Proper h t

/-- The thread that an event belongs to. -/
def Ev.thread : Ev → Nat
  | .callLock t | .callUnlock t | .callTry t | .saysDeadlock t | .locked t | .unlocked t | .saysNotOwned t | .tried t _ | .silent t => t

/-- The event is an error message of the mutex. -/
def Ev.message : Ev → Prop
  | .saysDeadlock _ | .saysNotOwned _ => True
  | _ => False

end QM.WinMutex
