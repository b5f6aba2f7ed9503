import Verif.Async.Model

/-!
# Model of `AsynchronousTask` (thread/AsynchronousTask.h) on the `Condition` of the Windows build (thread/Thread.cpp:184-273)

As Verif/Async/Model.lean, with the same program points, but `signal` sets an event object, which stays set until a waiting thread has been let
through, and `wait` gives the mutex back and then waits for the event object, so that there are neither lost signals nor wake-ups without a
reason. No thread locks a mutex that it has, so that the counts of the Windows mutexes do not matter.
-/

namespace QM.WinAsync

open QM.Async (Tid OPc WPc)

/-- Shared state. `mt`, `md`: holders of the mutexes of `m_todo` and `m_done`; `lt`, `ld`: their `m_locked` members; `et`, `ed`: their event
objects. `started`, `performed`, `awaited` count `startTask` calls (when they set `m_inTask`), completed `performTask` calls and `awaitTask` returns. -/
structure State where
  o : OPc
  w : WPc
  mt : Option Tid
  md : Option Tid
  lt : Bool
  ld : Bool
  et : Bool
  ed : Bool
  inTask : Bool
  finishing : Bool
  started : Nat
  performed : Nat
  awaited : Nat
deriving DecidableEq, Repr

/-- After the constructor, thread/AsynchronousTask.h:40-46. -/
def init : State := ⟨.idle, .start, none, none, false, false, false, false, false, false, 0, 0, 0⟩

/-- `m_todo.unlock()`: Condition::unlock, thread/Thread.cpp:220-234, does nothing if `m_locked` is false. -/
def State.unlockTodo (s : State) : State := if s.lt then { s with mt := none, lt := false } else s

/-- `m_done.unlock()`. -/
def State.unlockDone (s : State) : State := if s.ld then { s with md := none, ld := false } else s

/-- What the owner can do next; `abandon`: it may destroy the object instead of awaiting a started task. -/
def ownerSteps (abandon : Bool) (s : State) : List State :=
  match s.o with
  | .idle => [{ s with o := .s1 }, { s with o := .d0 }]
  -- startTask, thread/AsynchronousTask.h:65-71
  | .s1 => if s.md = none then [{ s with o := .s2, md := some .owner, ld := true }] else []
  | .s2 => if s.mt = none then [{ s with o := .s3, mt := some .owner, lt := true }] else []
  | .s3 => [{ s with o := .s4, inTask := true, started := s.started + 1 }]
  | .s4 => [{ s with o := .s5, et := true }]
  | .s5 => [{ s.unlockTodo with o := .ret }]
  -- awaitTask, thread/AsynchronousTask.h:72-75
  | .ret => { s with o := .waiting, md := none } :: (if abandon then [{ s with o := .d0 }] else [])
  | .waiting => if s.ed then [{ s with o := .woken, ed := false }] else []
  | .woken => if s.md = none then [{ s with o := .a1, md := some .owner, ld := true }] else []
  | .a1 => [{ s.unlockDone with o := .idle, awaited := s.awaited + 1 }]
  -- ~AsynchronousTask, thread/AsynchronousTask.h:48-54
  | .d0 => if s.mt = none then [{ s with o := .d1, mt := some .owner, lt := true }] else []
  | .d1 => [{ s with o := .d2, finishing := true }]
  | .d2 => [{ s with o := .d3, et := true }]
  | .d3 => [{ s.unlockTodo with o := .d4 }]
  | .d4 => if s.w = .dead then [{ s with o := .gone }] else []
  | .gone => []

/-- What the worker can do next: `run`, thread/AsynchronousTask.h:80-101. -/
def workerSteps (s : State) : List State :=
  match s.w with
  | .start => if s.mt = none then [{ s with w := .check, mt := some .worker, lt := true }] else []
  | .check =>
    if s.inTask = false ∧ s.finishing = false then [{ s with w := .waiting, mt := none }]
    else if s.finishing then [{ s with w := .f1 }]
    else [{ s with w := .perform }]
  | .waiting => if s.et then [{ s with w := .woken, et := false }] else []
  | .woken => if s.mt = none then [{ s with w := .check, mt := some .worker, lt := true }] else []
  | .perform => [{ s with w := .p1, performed := s.performed + 1 }]
  | .p1 => if s.md = none then [{ s with w := .p2, md := some .worker, ld := true }] else []
  | .p2 => [{ s with w := .p3, inTask := false }]
  | .p3 => [{ s with w := .p4, ed := true }]
  | .p4 => [{ s.unlockDone with w := .check }]
  | .f1 => if s.md = none then [{ s with w := .f2, md := some .worker, ld := true }] else []
  | .f2 => [{ s with w := .f3, inTask := false }]
  | .f3 => [{ s with w := .f4, ed := true }]
  | .f4 => [{ s.unlockDone with w := .f5 }]
  | .f5 => [{ s.unlockTodo with w := .dead }]
  | .dead => []

/-- All possible next states, under any schedule. -/
def steps (abandon : Bool) (s : State) : List State := ownerSteps abandon s ++ workerSteps s

/-- States reachable under some schedule. -/
inductive Reach (abandon : Bool) : State → Prop
  | init : Reach abandon init
  | step {s s'} : Reach abandon s → s' ∈ steps abandon s → Reach abandon s'

end QM.WinAsync
