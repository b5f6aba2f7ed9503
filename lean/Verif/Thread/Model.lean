import Mathlib.Logic.Function.Basic

/-!
# Model of `Thread` (thread/Thread.h:28-65, thread/Thread.cpp:279-351), pthreads build

One object of a class derived from `Thread`, used by one owner, which calls `start` and `wait` in any order and any number of times and finally destroys the
object. The threads that `start` creates run at their own pace. POSIX: `pthread_join` waits until the thread has ended; joining a thread
that has been joined already is undefined.

A failing `pthread_create` ends the process (thread/Thread.cpp:305-307) and is not a step.
-/

namespace QM.Thread

/-- A thread made by `pthread_create`. -/
inductive Run where
  | absent
  /-- Created, but `staticRun` has not called `run` yet. -/
  | created
  /-- In `run`. -/
  | running
  | ended
  | joined
deriving DecidableEq, Repr

/-- Where the owner is. -/
inductive Pc where
  | idle
  /-- In `pthread_join`, called by `wait`, thread/Thread.cpp:322. -/
  | waiting
  /-- In `pthread_join`, called by `~Thread`, thread/Thread.cpp:294. -/
  | destroying
  | gone
deriving DecidableEq, Repr

/-- The object, the owner and the threads. `m_id` is the number of a thread; `made` threads have been created so far. `alive`: the destructor of
the derived class has not begun, so that `run` is still there. -/
structure State where
  m_id : Nat
  m_extant : Bool
  pc : Pc
  alive : Bool
  made : Nat
  run : Nat → Run
  ub : Bool

inductive Ev where
  /-- `start` has created thread `k`. -/
  | started (k : Nat)
  /-- Thread `k` calls `run`. -/
  | begins (k : Nat)
  /-- `run` has returned in thread `k`. -/
  | ends (k : Nat)
  | callWait
  /-- `wait` returns. -/
  | waited
  /-- The destructor of the derived class begins. -/
  | callDestroy
  /-- `~Thread` has returned. -/
  | destroyed
deriving DecidableEq, Repr

/-- `Thread::Thread`, thread/Thread.cpp:279-286. -/
def init : State := ⟨0, false, .idle, true, 0, fun _ => .absent, false⟩

inductive Step : State → Ev → State → Prop
  -- Thread::start, thread/Thread.cpp:302-313
  | start {s} : s.pc = .idle →
      Step s (.started s.made) { s with m_id := s.made, m_extant := true, made := s.made + 1, run := Function.update s.run s.made .created }
  -- Thread::staticRun, thread/Thread.cpp:342-351
  | begin {s} (k) : s.run k = .created → Step s (.begins k) { s with run := Function.update s.run k .running }
  | end {s} (k) : s.run k = .running → Step s (.ends k) { s with run := Function.update s.run k .ended }
  -- Thread::wait, thread/Thread.cpp:315-329
  | callWait {s} : s.pc = .idle → s.m_extant = true → Step s .callWait { s with pc := .waiting }
  | waitNone {s} : s.pc = .idle → s.m_extant = false → Step s .waited s
  | waited {s} : s.pc = .waiting → s.run s.m_id = .ended →
      Step s .waited { s with pc := .idle, m_extant := false, run := Function.update s.run s.m_id .joined }
  | waitUb {s} : s.pc = .waiting → s.run s.m_id = .joined → Step s .waited { s with pc := .idle, m_extant := false, ub := true }
  -- the destructor of the derived class and Thread::~Thread, thread/Thread.cpp:288-299
  | destroy {s} : s.pc = .idle → Step s .callDestroy { s with pc := .destroying, alive := false }
  | destroyNone {s} : s.pc = .destroying → s.m_extant = false → Step s .destroyed { s with pc := .gone }
  | destroyed {s} : s.pc = .destroying → s.m_extant = true → s.run s.m_id = .ended →
      Step s .destroyed { s with pc := .gone, run := Function.update s.run s.m_id .joined }
  | destroyUb {s} : s.pc = .destroying → s.m_extant = true → s.run s.m_id = .joined → Step s .destroyed { s with pc := .gone, ub := true }

/-- The states that can be reached, with the events on the way, latest first. -/
inductive Reach : State → List Ev → Prop
  | init : Reach init []
  | step {s h e s'} : Reach s h → Step s e s' → Reach s' (e :: h)

end QM.Thread
