import Verif.Win.Mutex

/-!
# `Mutex` built with NO_THREAD_CHECKS, Windows build (thread/Thread.cpp:101-188 without the lines between `#ifndef NO_THREAD_CHECKS` and `#endif`)

There are no members but the handle. What the Windows mutex does is as in `Verif/Win/Mutex.lean`: it counts, and `ReleaseMutex` by a thread that does not
hold it fails and has no effect. A call that has got the mutex returns in a step of its own.
-/

namespace QM.WinMutex.Unchecked

open QM.WinMutex (Ev Call)

/-- Where a thread is: not in a call, or before the step described. -/
inductive Pc where
  | idle
  /-- `lock`: `WaitForSingleObject`, thread/Thread.cpp:133. -/
  | lockGet
  /-- `lock` has the mutex and returns, thread/Thread.cpp:140. -/
  | lockRet
  /-- `unlock`: `ReleaseMutex`, thread/Thread.cpp:158. -/
  | unPut
  /-- `trylock`: `WaitForSingleObject` with a time of 0, thread/Thread.cpp:167. -/
  | tryGet
  /-- `trylock` has the mutex and returns, thread/Thread.cpp:186. -/
  | tryRet
deriving DecidableEq, Repr

/-- The Windows mutex and the threads. -/
structure State where
  owner : Option Nat
  count : Nat
  pc : Nat → Pc

/-- `Mutex::Mutex`, thread/Thread.cpp:101-111. -/
def init : State := ⟨none, 0, fun _ => .idle⟩

/-- Thread `t` goes on to `p`. -/
def State.go (s : State) (t : Nat) (p : Pc) : State := { s with pc := Function.update s.pc t p }

/-- `WaitForSingleObject` can give the mutex to thread `t`: nobody has it, or `t` has. -/
def State.open (s : State) (t : Nat) : Prop := s.owner = none ∨ s.owner = some t

instance (s : State) (t : Nat) : Decidable (s.open t) := inferInstanceAs (Decidable (_ ∨ _))

/-- The mutex given to thread `t`. -/
def State.take (s : State) (t : Nat) : State := { s with owner := some t, count := s.count + 1 }

/-- `ReleaseMutex` by thread `t`. -/
def State.release (s : State) (t : Nat) : State :=
  if s.owner = some t then { s with owner := if s.count ≤ 1 then none else some t, count := s.count - 1 } else s

/-- Thread `t` makes a call. -/
def call (s : State) (t : Nat) : Call → Ev × State
  | .lock => (.callLock t, s.go t .lockGet)
  | .unlock => (.callUnlock t, s.go t .unPut)
  | .trylock => (.callTry t, s.go t .tryGet)

/-- The next step of thread `t` in its call; `none` if it is in no call or has to wait. -/
def next (s : State) (t : Nat) : Option (Ev × State) :=
  match s.pc t with
  | .idle => none
  -- Mutex::lock, thread/Thread.cpp:121-140
  | .lockGet => if s.open t then some (.silent t, (s.take t).go t .lockRet) else none
  | .lockRet => some (.locked t, s.go t .idle)
  -- Mutex::unlock, thread/Thread.cpp:142-159
  | .unPut => some (.unlocked t, (s.release t).go t .idle)
  -- Mutex::trylock, thread/Thread.cpp:161-188
  | .tryGet => if s.open t then some (.silent t, (s.take t).go t .tryRet) else some (.tried t false, s.go t .idle)
  | .tryRet => some (.tried t true, s.go t .idle)

/-- The states that can be reached, with the events on the way, latest first. -/
inductive Reach : State → List Ev → Prop
  | init : Reach init []
  | call {s h} (t : Nat) (c : Call) : Reach s h → s.pc t = .idle → Reach (call s t c).2 ((call s t c).1 :: h)
  | step {s h e s'} (t : Nat) : Reach s h → next s t = some (e, s') → Reach s' (e :: h)

/-! ## What a user of a mutex sees, in terms of the events alone -/

/-- How many times thread `t` has to unlock before it has the mutex no more. Unlocking what one has not does not count. -/
def depth : List Ev → Nat → Nat
  | [], _ => 0
  | .locked u :: h, t => (if u = t then 1 else 0) + depth h t
  | .tried u true :: h, t => (if u = t then 1 else 0) + depth h t
  | .unlocked u :: h, t => depth h t - if u = t then 1 else 0
  | _ :: h, t => depth h t

end QM.WinMutex.Unchecked
