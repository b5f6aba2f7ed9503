/-!
# Model of `AsynchronousTask` (thread/AsynchronousTask.h) and of `Condition` (thread/Thread.cpp)

An interleaving model of the two threads: the owner, which calls `startTask`, `awaitTask` and finally the
destructor, and the worker, which executes `run`. One transition is one lock, unlock, wait, signal, access to
`m_inTask`/`m_finishing`, or one complete `performTask`. Mutex and condition variable follow POSIX: `wait` releases
the mutex and starts waiting atomically; `signal` wakes a waiting thread and is lost if nobody waits; a
woken thread re-acquires the mutex before it continues. Spurious wake-ups, which POSIX allows, are an
option of the transition relation.
-/

namespace QM.Async

inductive Tid where
  | owner
  | worker
deriving DecidableEq, Repr

/-- Program points of the owner. -/
inductive OPc where
  /-- outside any call -/
  | idle
  /-- startTask, thread/AsynchronousTask.h:65-71: before `m_done.lock()` -/
  | s1
  /-- before `m_todo.lock()` -/
  | s2
  /-- before `m_inTask = true` -/
  | s3
  /-- before `m_todo.signal()` -/
  | s4
  /-- before `m_todo.unlock()` -/
  | s5
  /-- after startTask; before `m_done.wait()` of awaitTask, thread/AsynchronousTask.h:72-75 -/
  | ret
  /-- waiting on `m_done` -/
  | waiting
  /-- woken, before re-acquiring the mutex of `m_done` -/
  | woken
  /-- before `m_done.unlock()` -/
  | a1
  /-- destructor, thread/AsynchronousTask.h:48-54: before `m_todo.lock()` -/
  | d0
  /-- before `m_finishing = true` -/
  | d1
  /-- before `m_todo.signal()` -/
  | d2
  /-- before `m_todo.unlock()` -/
  | d3
  /-- before `wait()` (join) -/
  | d4
  /-- destroyed -/
  | gone
deriving DecidableEq, Repr

/-- Program points of the worker: `run`, thread/AsynchronousTask.h:80-101. -/
inductive WPc where
  /-- before `m_todo.lock()` -/
  | start
  /-- at the loop conditions -/
  | check
  /-- waiting on `m_todo` -/
  | waiting
  /-- woken, before re-acquiring the mutex of `m_todo` -/
  | woken
  /-- before `performTask()` -/
  | perform
  /-- before `m_done.lock()`, line 94 -/
  | p1
  /-- before `m_inTask = false` -/
  | p2
  /-- before `m_done.signal()` -/
  | p3
  /-- before `m_done.unlock()` -/
  | p4
  /-- finishing: before `m_done.lock()`, line 87 -/
  | f1
  | f2
  | f3
  | f4
  /-- before the final `m_todo.unlock()` -/
  | f5
  | dead
deriving DecidableEq, Repr

/-- Shared state. `mt`, `md`: holders of the mutexes of `m_todo` and `m_done`; `lt`, `ld`: the `m_locked` members
of the two `Condition` objects, thread/Thread.cpp:441-542. `started`, `performed`, `awaited` count `startTask` calls
(when they set `m_inTask`), completed `performTask` calls and `awaitTask` returns. -/
structure State where
  o : OPc
  w : WPc
  mt : Option Tid
  md : Option Tid
  lt : Bool
  ld : Bool
  inTask : Bool
  finishing : Bool
  started : Nat
  performed : Nat
  awaited : Nat
deriving DecidableEq, Repr

/-- After the constructor, thread/AsynchronousTask.h:40-46. -/
def init : State := ⟨.idle, .start, none, none, false, false, false, false, 0, 0, 0⟩

/-- `m_todo.unlock()`: Condition::unlock, thread/Thread.cpp:481-494, does nothing if `m_locked` is false. -/
def State.unlockTodo (s : State) : State := if s.lt then { s with mt := none, lt := false } else s

/-- `m_done.unlock()`. -/
def State.unlockDone (s : State) : State := if s.ld then { s with md := none, ld := false } else s

/-- `m_todo.signal()`: only the worker waits on `m_todo`. -/
def State.signalTodo (s : State) : State := if s.w = .waiting then { s with w := .woken } else s

/-- `m_done.signal()`: only the owner waits on `m_done`. -/
def State.signalDone (s : State) : State := if s.o = .waiting then { s with o := .woken } else s

/-- Options: may a thread wake up without a signal; may the owner destroy the object instead of awaiting a
started task. -/
structure Config where
  spurious : Bool
  abandon : Bool

/-- What the owner can do next. -/
def ownerSteps (c : Config) (s : State) : List State :=
  match s.o with
  | .idle => [{ s with o := .s1 }, { s with o := .d0 }]
  | .s1 => if s.md = none then [{ s with o := .s2, md := some .owner, ld := true }] else []
  | .s2 => if s.mt = none then [{ s with o := .s3, mt := some .owner, lt := true }] else []
  | .s3 => [{ s with o := .s4, inTask := true, started := s.started + 1 }]
  | .s4 => [{ s.signalTodo with o := .s5 }]
  | .s5 => [{ s.unlockTodo with o := .ret }]
  | .ret => { s with o := .waiting, md := none } :: (if c.abandon then [{ s with o := .d0 }] else [])
  | .waiting => if c.spurious then [{ s with o := .woken }] else []
  | .woken => if s.md = none then [{ s with o := .a1, md := some .owner, ld := true }] else []
  | .a1 => [{ s.unlockDone with o := .idle, awaited := s.awaited + 1 }]
  | .d0 => if s.mt = none then [{ s with o := .d1, mt := some .owner, lt := true }] else []
  | .d1 => [{ s with o := .d2, finishing := true }]
  | .d2 => [{ s.signalTodo with o := .d3 }]
  | .d3 => [{ s.unlockTodo with o := .d4 }]
  | .d4 => if s.w = .dead then [{ s with o := .gone }] else []
  | .gone => []

/-- What the worker can do next. -/
def workerSteps (c : Config) (s : State) : List State :=
  match s.w with
  | .start => if s.mt = none then [{ s with w := .check, mt := some .worker, lt := true }] else []
  | .check =>
    if s.inTask = false ∧ s.finishing = false then [{ s with w := .waiting, mt := none }]
    else if s.finishing then [{ s with w := .f1 }]
    else [{ s with w := .perform }]
  | .waiting => if c.spurious then [{ s with w := .woken }] else []
  | .woken => if s.mt = none then [{ s with w := .check, mt := some .worker, lt := true }] else []
  | .perform => [{ s with w := .p1, performed := s.performed + 1 }]
  | .p1 => if s.md = none then [{ s with w := .p2, md := some .worker, ld := true }] else []
  | .p2 => [{ s with w := .p3, inTask := false }]
  | .p3 => [{ s.signalDone with w := .p4 }]
  | .p4 => [{ s.unlockDone with w := .check }]
  | .f1 => if s.md = none then [{ s with w := .f2, md := some .worker, ld := true }] else []
  | .f2 => [{ s with w := .f3, inTask := false }]
  | .f3 => [{ s.signalDone with w := .f4 }]
  | .f4 => [{ s.unlockDone with w := .f5 }]
  | .f5 => [{ s.unlockTodo with w := .dead }]
  | .dead => []

/-- All possible next states, under any schedule. -/
def steps (c : Config) (s : State) : List State := ownerSteps c s ++ workerSteps c s

/-- States reachable under some schedule. -/
inductive Reach (c : Config) : State → Prop
  | init : Reach c init
  | step {s s'} : Reach c s → s' ∈ steps c s → Reach c s'

/-- `Condition::wait(us)` for `us ≠ 0`, thread/Thread.cpp:511-515: the normalisation loop. Arguments are
`now.tv_sec` and `now.tv_usec + us`. -/
def normalise (sec : Nat) (usec : Nat) : Nat × Nat :=
  if usec > 1000000 then normalise (sec + 1) (usec - 1000000) else (sec, usec)
termination_by usec
decreasing_by omega

/-- The deadline `(tv_sec, tv_nsec)` given to `pthread_cond_timedwait`, thread/Thread.cpp:507-523. -/
def deadline (nowSec nowUsec us : Nat) : Nat × Nat :=
  let (s, u) := normalise nowSec (nowUsec + us)
  (s, u * 1000)

end QM.Async
