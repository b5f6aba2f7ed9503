import Mathlib.Logic.Function.Basic

/-!
# Model of `Condition` (thread/Thread.h:104-149, thread/Thread.cpp:440-542), pthreads build

Any number of threads, which call `lock`, `unlock`, `wait` and `signal` on one object in any order. Every access to the member `m_locked` and
every call of the pthreads library is a step; steps of different threads interleave in any way (sequential consistency).

POSIX: `pthread_mutex_lock` waits until nobody holds the mutex; unlocking a mutex that the caller does not hold, and waiting with
a mutex that the caller does not hold, are undefined, `ub`. `pthread_cond_wait` gives back the mutex and falls asleep in one step; a sleeping
thread wakes because of a signal, without one (spurious wake-up), or because its deadline has passed; it then takes the mutex
again. `pthread_cond_signal` wakes one sleeping thread, any of them, if there is one. (POSIX allows it to wake more than one; this is the same as
a spurious wake-up of the others.)
-/

namespace QM.Condition

/-- Where a thread is: not in a call, or before the step described. -/
inductive Pc where
  | idle
  /-- `lock`: `pthread_mutex_lock`, thread/Thread.cpp:474. -/
  | lockGet
  /-- `lock`: `m_locked = true`, thread/Thread.cpp:475. -/
  | lockWr
  /-- `unlock`: reads `m_locked`, thread/Thread.cpp:484. -/
  | unRd
  /-- `unlock`: `m_locked = false`, thread/Thread.cpp:493. -/
  | unWr
  /-- `unlock`: `pthread_mutex_unlock`, thread/Thread.cpp:494. -/
  | unPut
  /-- `wait`: `pthread_cond_wait` or `pthread_cond_timedwait`, thread/Thread.cpp:505, 525. -/
  | waitIn
  /-- In `pthread_cond_wait`, asleep. -/
  | asleep
  /-- In `pthread_cond_wait`, woken, before it takes the mutex again. -/
  | woken
  /-- `wait`: `m_locked = true`, thread/Thread.cpp:532. -/
  | waitWr
  /-- `signal`: `pthread_cond_signal`, thread/Thread.cpp:541. -/
  | sig
deriving DecidableEq, Repr

/-- The object and the threads. `owner` is the state of the `pthread_mutex_t`; the state of the `pthread_cond_t` is the set of the
threads that are asleep. -/
structure State where
  owner : Option Nat
  locked : Bool
  ub : Bool
  pc : Nat → Pc

/-- What can be seen of the calls, and the moments at which the object takes effect. `set` is not an event of the object: the calling program
changes the data that the condition is about. -/
inductive Ev where
  | callLock (t : Nat)
  | callUnlock (t : Nat)
  | callWait (t : Nat)
  | callSignal (t : Nat)
  /-- `lock` returns. -/
  | locked (t : Nat)
  /-- `unlock` returns after `pthread_mutex_unlock`. -/
  | unlocked (t : Nat)
  /-- `unlock` returns without having done anything, thread/Thread.cpp:488. -/
  | ignored (t : Nat)
  /-- `pthread_cond_wait` has given back the mutex. -/
  | sleeps (t : Nat)
  /-- `wait` returns. -/
  | waited (t : Nat)
  /-- `signal` returns; the thread that it woke, if there was one. -/
  | signalled (t : Nat) (woke : Option Nat)
  | set (t : Nat)
  /-- A step that cannot be seen. -/
  | silent (t : Nat)
deriving DecidableEq, Repr

/-- `Condition::Condition`, thread/Thread.cpp:440-456. -/
def init : State := ⟨none, false, false, fun _ => .idle⟩

/-- Thread `t` goes on to `p`. -/
def State.go (s : State) (t : Nat) (p : Pc) : State := { s with pc := Function.update s.pc t p }

/-- The steps. -/
inductive Step : State → Ev → State → Prop
  | callLock {s} (t) : s.pc t = .idle → Step s (.callLock t) (s.go t .lockGet)
  | callUnlock {s} (t) : s.pc t = .idle → Step s (.callUnlock t) (s.go t .unRd)
  | callWait {s} (t) : s.pc t = .idle → Step s (.callWait t) (s.go t .waitIn)
  | callSignal {s} (t) : s.pc t = .idle → Step s (.callSignal t) (s.go t .sig)
  | set {s} (t) : s.pc t = .idle → Step s (.set t) s
  -- Condition::lock, thread/Thread.cpp:468-479
  | lockGet {s} (t) : s.pc t = .lockGet → s.owner = none → Step s (.silent t) { s.go t .lockWr with owner := some t }
  | lockWr {s} (t) : s.pc t = .lockWr → Step s (.locked t) { s.go t .idle with locked := true }
  -- Condition::unlock, thread/Thread.cpp:481-495
  | unRdNo {s} (t) : s.pc t = .unRd → s.locked = false → Step s (.ignored t) (s.go t .idle)
  | unRdYes {s} (t) : s.pc t = .unRd → s.locked = true → Step s (.silent t) (s.go t .unWr)
  | unWr {s} (t) : s.pc t = .unWr → Step s (.silent t) { s.go t .unPut with locked := false }
  | unPut {s} (t) : s.pc t = .unPut → s.owner = some t → Step s (.unlocked t) { s.go t .idle with owner := none }
  | unPutUb {s} (t) : s.pc t = .unPut → s.owner ≠ some t → Step s (.unlocked t) { s.go t .idle with ub := true }
  -- Condition::wait, thread/Thread.cpp:497-533
  | waitIn {s} (t) : s.pc t = .waitIn → s.owner = some t → Step s (.sleeps t) { s.go t .asleep with owner := none }
  | waitInUb {s} (t) : s.pc t = .waitIn → s.owner ≠ some t → Step s (.silent t) { s.go t .idle with ub := true }
  | wake {s} (t) : s.pc t = .asleep → Step s (.silent t) (s.go t .woken)
  | woken {s} (t) : s.pc t = .woken → s.owner = none → Step s (.silent t) { s.go t .waitWr with owner := some t }
  | waitWr {s} (t) : s.pc t = .waitWr → Step s (.waited t) { s.go t .idle with locked := true }
  -- Condition::signal, thread/Thread.cpp:535-542
  | sigWake {s} (t u) : s.pc t = .sig → s.pc u = .asleep → Step s (.signalled t (some u)) ((s.go t .idle).go u .woken)
  | sigNone {s} (t) : s.pc t = .sig → (∀ u, s.pc u ≠ .asleep) → Step s (.signalled t none) (s.go t .idle)

/-- The states that can be reached, with the events on the way, latest first. -/
inductive Reach : State → List Ev → Prop
  | init : Reach init []
  | step {s h e s'} : Reach s h → Step s e s' → Reach s' (e :: h)

end QM.Condition
