import Verif.Condition.Spec

/-!
# Model of `Condition` (thread/Thread.h:104-149, thread/Thread.cpp:184-273), Windows build

The events, and what a user sees in terms of them, are those of the pthreads build (`QM.Condition.Ev` and Verif/Condition/Spec.lean). Any number of
threads, which call `lock`, `unlock`, `wait` and `signal` on one object in any order; every access to the member `m_locked` and every call of the
Windows API is a step.

A Windows mutex counts (see Verif/Win/Mutex.lean). The event object is one that resets itself: `SetEvent` sets it until one waiting thread has been let
through, now or later; setting what is set changes nothing. `SignalObjectAndWait` gives the mutex back and then waits, in two steps; if the
calling thread does not have the mutex it fails at once. There are no wake-ups without a reason.
-/

namespace QM.WinCondition

open QM.Condition (Ev)

/-- Where a thread is: not in a call, or before the step described. -/
inductive Pc where
  | idle
  /-- `lock`: `WaitForSingleObject`, thread/Thread.cpp:213. -/
  | lockGet
  /-- `lock`: `m_locked = true`, thread/Thread.cpp:214. -/
  | lockWr
  /-- `unlock`: reads `m_locked`, thread/Thread.cpp:223. -/
  | unRd
  /-- `unlock`: `m_locked = false`, thread/Thread.cpp:232. -/
  | unWr
  /-- `unlock`: `ReleaseMutex`, thread/Thread.cpp:233. -/
  | unPut
  /-- `wait`: `SignalObjectAndWait`, thread/Thread.cpp:244, 255; with a time limit or without. -/
  | waitIn (timed : Bool)
  /-- In `SignalObjectAndWait`, the mutex given back. -/
  | asleep (timed : Bool)
  /-- `wait`: `WaitForSingleObject`, thread/Thread.cpp:245, 256. -/
  | woken
  /-- `wait`: `m_locked = true`, thread/Thread.cpp:263. -/
  | waitWr
  /-- `signal`: `SetEvent`, thread/Thread.cpp:272. -/
  | sig
deriving DecidableEq, Repr

/-- The object and the threads. `owner` and `count` are the state of the Windows mutex, `event` that of the event object. -/
structure State where
  owner : Option Nat
  count : Nat
  event : Bool
  locked : Bool
  pc : Nat → Pc

/-- `Condition::Condition`, thread/Thread.cpp:184-195. -/
def init : State := ⟨none, 0, false, false, fun _ => .idle⟩

/-- Thread `t` goes on to `p`. -/
def State.go (s : State) (t : Nat) (p : Pc) : State := { s with pc := Function.update s.pc t p }

/-- The mutex given to thread `t`. -/
def State.take (s : State) (t : Nat) : State := { s with owner := some t, count := s.count + 1 }

/-- `ReleaseMutex` by thread `t`; without effect if it does not have the mutex. -/
def State.release (s : State) (t : Nat) : State :=
  if s.owner = some t then { s with owner := if s.count ≤ 1 then none else some t, count := s.count - 1 } else s

/-- The steps. -/
inductive Step : State → Ev → State → Prop
  | callLock {s} (t) : s.pc t = .idle → Step s (.callLock t) (s.go t .lockGet)
  | callUnlock {s} (t) : s.pc t = .idle → Step s (.callUnlock t) (s.go t .unRd)
  | callWait {s} (t) (timed) : s.pc t = .idle → Step s (.callWait t) (s.go t (.waitIn timed))
  | callSignal {s} (t) : s.pc t = .idle → Step s (.callSignal t) (s.go t .sig)
  | set {s} (t) : s.pc t = .idle → Step s (.set t) s
  -- Condition::lock, thread/Thread.cpp:207-218
  | lockGet {s} (t) : s.pc t = .lockGet → s.owner = none ∨ s.owner = some t → Step s (.silent t) ((s.take t).go t .lockWr)
  | lockWr {s} (t) : s.pc t = .lockWr → Step s (.locked t) { s.go t .idle with locked := true }
  -- Condition::unlock, thread/Thread.cpp:220-234
  | unRdNo {s} (t) : s.pc t = .unRd → s.locked = false → Step s (.ignored t) (s.go t .idle)
  | unRdYes {s} (t) : s.pc t = .unRd → s.locked = true → Step s (.silent t) (s.go t .unWr)
  | unWr {s} (t) : s.pc t = .unWr → Step s (.silent t) { s.go t .unPut with locked := false }
  | unPut {s} (t) : s.pc t = .unPut → Step s (.unlocked t) ((s.release t).go t .idle)
  -- Condition::wait, thread/Thread.cpp:236-264
  | waitIn {s} (t timed) : s.pc t = .waitIn timed → s.owner = some t → Step s (.sleeps t) ((s.release t).go t (.asleep timed))
  | waitInFails {s} (t timed) : s.pc t = .waitIn timed → s.owner ≠ some t → Step s (.silent t) (s.go t .woken)
  | wake {s} (t timed) : s.pc t = .asleep timed → s.event = true → Step s (.silent t) { s.go t .woken with event := false }
  | timeout {s} (t) : s.pc t = .asleep true → Step s (.silent t) (s.go t .woken)
  | woken {s} (t) : s.pc t = .woken → s.owner = none ∨ s.owner = some t → Step s (.silent t) ((s.take t).go t .waitWr)
  | waitWr {s} (t) : s.pc t = .waitWr → Step s (.waited t) { s.go t .idle with locked := true }
  -- Condition::signal, thread/Thread.cpp:266-273
  | sig {s} (t) : s.pc t = .sig → Step s (.signalled t none) { s.go t .idle with event := true }

/-- The states that can be reached, with the events on the way, latest first. -/
inductive Reach : State → List Ev → Prop
  | init : Reach init []
  | step {s h e s'} : Reach s h → Step s e s' → Reach s' (e :: h)

/-- The time limit in milliseconds given to `SignalObjectAndWait`, thread/Thread.cpp:239-250; `none` is `INFINITE`, which is the greatest `DWORD`, 2³² − 1. The
quotient is rounded towards zero and converted to a `DWORD`. -/
def limit (us : Int) : Option Nat :=
  if us = 0 then none
  else
    let ms := (Int.tdiv us 1000 % 4294967296).toNat
    let ms := if us > 0 ∧ ms = 0 then 1 else ms
    if ms = 4294967295 then none else some ms

end QM.WinCondition
