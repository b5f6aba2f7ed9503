import Verif.Mutex.Spec

/-!
# `Mutex` built with NO_THREAD_CHECKS, pthreads build (thread/Thread.cpp:353-438 without the lines between `#ifndef NO_THREAD_CHECKS` and `#endif`)

There are no members but the `pthread_mutex_t`: `lock` and `unlock` are one call of the pthreads library each. A call that has got the mutex returns in a
step of its own. As in `Verif/Mutex/Model.lean`, unlocking a mutex that the caller does not hold is undefined, `ub`.
-/

namespace QM.Mutex.Unchecked

open QM.Mutex (Ev Call)

/-- Where a thread is: not in a call, or before the step described. -/
inductive Pc where
  | idle
  /-- `lock`: `pthread_mutex_lock`, thread/Thread.cpp:386. -/
  | lockGet
  /-- `lock` has the mutex and returns, thread/Thread.cpp:394. -/
  | lockRet
  /-- `unlock`: `pthread_mutex_unlock`, thread/Thread.cpp:415. -/
  | unPut
  /-- `trylock`: `pthread_mutex_trylock`, thread/Thread.cpp:424. -/
  | tryGet
  /-- `trylock` has the mutex and returns, thread/Thread.cpp:437. -/
  | tryRet
deriving DecidableEq, Repr

/-- The mutex and the threads. -/
structure State where
  owner : Option Nat
  ub : Bool
  pc : Nat → Pc

/-- `Mutex::Mutex`, thread/Thread.cpp:353-364. -/
def init : State := ⟨none, false, fun _ => .idle⟩

/-- Thread `t` goes on to `p`. -/
def State.go (s : State) (t : Nat) (p : Pc) : State := { s with pc := Function.update s.pc t p }

/-- Thread `t` makes a call. -/
def call (s : State) (t : Nat) : Call → Ev × State
  | .lock => (.callLock t, s.go t .lockGet)
  | .unlock => (.callUnlock t, s.go t .unPut)
  | .trylock => (.callTry t, s.go t .tryGet)

/-- The next step of thread `t` in its call; `none` if it is in no call or has to wait. -/
def next (s : State) (t : Nat) : Option (Ev × State) :=
  match s.pc t with
  | .idle => none
  -- Mutex::lock, thread/Thread.cpp:374-394
  | .lockGet => if s.owner = none then some (.silent t, { s.go t .lockRet with owner := some t }) else none
  | .lockRet => some (.locked t, s.go t .idle)
  -- Mutex::unlock, thread/Thread.cpp:396-416
  | .unPut => if s.owner = some t then some (.unlocked t, { s.go t .idle with owner := none })
      else some (.unlocked t, { s.go t .idle with ub := true })
  -- Mutex::trylock, thread/Thread.cpp:418-438
  | .tryGet => if s.owner = none then some (.silent t, { s.go t .tryRet with owner := some t }) else some (.tried t false, s.go t .idle)
  | .tryRet => some (.tried t true, s.go t .idle)

/-- The states that can be reached, with the events on the way, latest first. -/
inductive Reach : State → List Ev → Prop
  | init : Reach init []
  | call {s h} (t : Nat) (c : Call) : Reach s h → s.pc t = .idle → Reach (call s t c).2 ((call s t c).1 :: h)
  | step {s h e s'} (t : Nat) : Reach s h → next s t = some (e, s') → Reach s' (e :: h)

/-- What a user sees of a history: the calls, the returns and the messages, without the silent steps in between. -/
def visible (h : List Ev) : List Ev := h.filter fun e => match e with
  | .silent _ => false
  | _ => true

end QM.Mutex.Unchecked
