import Mathlib.Logic.Function.Basic

/-!
# Model of `Mutex` and `MutexLocker` (thread/Thread.h, thread/Thread.cpp), pthreads build with thread checks

Any number of threads, which call `lock`, `unlock` and `trylock` on one mutex in any order. Every access to a member and every call of
the pthreads library is a step; steps of different threads interleave in any way (sequential consistency).

A `pthread_mutex_t` with default attributes: `pthread_mutex_lock` waits until nobody holds the mutex, also if the caller is the one that
holds it; unlocking a mutex that the caller does not hold is undefined, `ub`.
-/

namespace QM.Mutex

/-- Where a thread is: not in a call, or before the step described. -/
inductive Pc where
  | idle
  /-- `lock`: reads `m_locked`, thread/Thread.cpp:379. -/
  | lockRd
  /-- `lock`: reads `m_lockedBy`, thread/Thread.cpp:379. -/
  | lockBy
  /-- `lock`: `pthread_mutex_lock`, thread/Thread.cpp:386. -/
  | lockGet
  /-- `lock`: `m_lockedBy = tid`, thread/Thread.cpp:388. -/
  | lockWrBy
  /-- `lock`: `m_locked = true`, thread/Thread.cpp:389. -/
  | lockWr
  /-- `unlock`: reads `m_locked`, thread/Thread.cpp:401. -/
  | unRd
  /-- `unlock`: reads `m_lockedBy`, thread/Thread.cpp:404. -/
  | unBy
  /-- `unlock`: `m_locked = false`, thread/Thread.cpp:413. -/
  | unWr
  /-- `unlock`: `pthread_mutex_unlock`, thread/Thread.cpp:415. -/
  | unPut
  /-- `trylock`: `pthread_mutex_trylock`, thread/Thread.cpp:424. -/
  | tryGet
  /-- `trylock`: `m_lockedBy = tid`, thread/Thread.cpp:431. -/
  | tryWrBy
  /-- `trylock`: `m_locked = true`, thread/Thread.cpp:432. -/
  | tryWr
deriving DecidableEq, Repr

/-- The mutex and the threads, thread/Thread.h:77-91. `owner` is the state of the `pthread_mutex_t`. -/
structure State where
  owner : Option Nat
  lockedBy : Nat
  locked : Bool
  ub : Bool
  pc : Nat → Pc

/-- What can be seen of the calls: that they are made, that they return and what they print. -/
inductive Ev where
  | callLock (t : Nat)
  | callUnlock (t : Nat)
  | callTry (t : Nat)
  /-- "ERROR: Deadlock on mutex", thread/Thread.cpp:380. -/
  | saysDeadlock (t : Nat)
  /-- `lock` returns. -/
  | locked (t : Nat)
  /-- `unlock` returns, without a message. -/
  | unlocked (t : Nat)
  /-- `unlock` returns after "not locked in unlock", thread/Thread.cpp:402. -/
  | saysNotLocked (t : Nat)
  /-- `unlock` returns after "not owned by unlocking thread", thread/Thread.cpp:405. -/
  | saysNotOwned (t : Nat)
  /-- `trylock` returns. -/
  | tried (t : Nat) (ok : Bool)
  /-- A step that cannot be seen. -/
  | silent (t : Nat)
deriving DecidableEq, Repr

/-- `Mutex::Mutex`, thread/Thread.cpp:353-364. `zero` is the thread identifier 0. -/
def init (zero : Nat) : State := ⟨none, zero, false, false, fun _ => .idle⟩

/-- Thread `t` goes on to `p`. -/
def State.go (s : State) (t : Nat) (p : Pc) : State := { s with pc := Function.update s.pc t p }

/-- The calls that thread `t` can make. -/
inductive Call where
  | lock
  | unlock
  | trylock
deriving DecidableEq, Repr

/-- Thread `t` makes a call. -/
def call (s : State) (t : Nat) : Call → Ev × State
  | .lock => (.callLock t, s.go t .lockRd)
  | .unlock => (.callUnlock t, s.go t .unRd)
  | .trylock => (.callTry t, s.go t .tryGet)

/-- The next step of thread `t` in its call; `none` if it is in no call or has to wait. -/
def next (s : State) (t : Nat) : Option (Ev × State) :=
  match s.pc t with
  | .idle => none
  -- Mutex::lock, thread/Thread.cpp:374-394
  | .lockRd => if s.locked then some (.silent t, s.go t .lockBy) else some (.silent t, s.go t .lockGet)
  | .lockBy => if s.lockedBy = t then some (.saysDeadlock t, s.go t .lockGet) else some (.silent t, s.go t .lockGet)
  | .lockGet => if s.owner = none then some (.silent t, { s.go t .lockWrBy with owner := some t }) else none
  | .lockWrBy => some (.silent t, { s.go t .lockWr with lockedBy := t })
  | .lockWr => some (.locked t, { s.go t .idle with locked := true })
  -- Mutex::unlock, thread/Thread.cpp:396-416
  | .unRd => if s.locked then some (.silent t, s.go t .unBy) else some (.saysNotLocked t, s.go t .idle)
  | .unBy => if s.lockedBy ≠ t then some (.saysNotOwned t, s.go t .idle) else some (.silent t, s.go t .unWr)
  | .unWr => some (.silent t, { s.go t .unPut with locked := false })
  | .unPut => if s.owner = some t then some (.unlocked t, { s.go t .idle with owner := none })
      else some (.unlocked t, { s.go t .idle with ub := true })
  -- Mutex::trylock, thread/Thread.cpp:418-438
  | .tryGet => if s.owner = none then some (.silent t, { s.go t .tryWrBy with owner := some t }) else some (.tried t false, s.go t .idle)
  | .tryWrBy => some (.silent t, { s.go t .tryWr with lockedBy := t })
  | .tryWr => some (.tried t true, { s.go t .idle with locked := true })

/-- The states that can be reached, with the events on the way, latest first. -/
inductive Reach (zero : Nat) : State → List Ev → Prop
  | init : Reach zero (init zero) []
  | call {s h} (t : Nat) (c : Call) : Reach zero s h → s.pc t = .idle → Reach zero (call s t c).2 ((call s t c).1 :: h)
  | step {s h e s'} (t : Nat) : Reach zero s h → next s t = some (e, s') → Reach zero s' (e :: h)

/-- `MutexLocker` on a mutex or on a null pointer, thread/Thread.cpp:633-646: the calls made by the constructor and by the destructor. -/
def locker (nonNull : Bool) : List Call × List Call := if nonNull then ([.lock], [.unlock]) else ([], [])

end QM.Mutex
