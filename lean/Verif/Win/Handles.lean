import Mathlib.Data.List.Perm.Basic
import Mathlib.Data.List.Nodup

/-!
# Model of the handles that the thread classes of the Windows build use (thread/Thread.cpp:26-273)

The system gives out handles (`CreateMutex`, `CreateEvent`, `CreateThread`), which are open until `CloseHandle`. A new handle is one that is not
open. `CloseHandle` and `WaitForSingleObject` of a handle that is not open are errors (`none`). What the objects do with mutexes, events and
threads otherwise is in the other files of this directory.
-/

namespace QM.WinHandles

/-- The objects that a program has. -/
inductive Obj where
  /-- `Mutex` with `m_mutex`. -/
  | mutex (h : Nat)
  /-- `Condition` with `m_mutex` and `m_condition`. -/
  | condition (hm he : Nat)
  /-- `Thread` with `m_id` and `m_extant`. -/
  | thread (id : Option Nat) (extant : Bool)
deriving DecidableEq, Repr

/-- The open handles, a bound for the handles given out so far, the objects, and how often threads have been started. -/
structure World where
  opened : List Nat
  next : Nat
  objs : List Obj
  starts : Nat
deriving DecidableEq, Repr

def World.empty : World := ⟨[], 0, [], 0⟩

/-- The system gives out a handle. -/
def World.create (w : World) : World := { w with opened := w.next :: w.opened, next := w.next + 1 }

/-- `CloseHandle`. -/
def World.close (h : Nat) (w : World) : Option World := if h ∈ w.opened then some { w with opened := w.opened.erase h } else none

/-- `WaitForSingleObject` with a handle of a thread, when it returns. -/
def World.await (h : Nat) (w : World) : Option World := if h ∈ w.opened then some w else none

/-- What a program can do; `i` is the place of an object in the list of objects. -/
inductive Op where
  | newMutex
  | newCondition
  | newThread
  | delete (i : Nat)
  | start (i : Nat)
  | wait (i : Nat)
deriving DecidableEq, Repr

/-- `Mutex::Mutex`, thread/Thread.cpp:101-111. -/
def newMutex (w : World) : World := { w.create with objs := .mutex w.next :: w.objs }

/-- `Condition::Condition`, thread/Thread.cpp:184-195. -/
def newCondition (w : World) : World := { w.create.create with objs := .condition w.next (w.next + 1) :: w.objs }

/-- `Thread::Thread`, thread/Thread.cpp:26-33; `m_id(0)`. -/
def newThread (w : World) : World := { w with objs := .thread none false :: w.objs }

/-- The destructors: `Mutex::~Mutex`, thread/Thread.cpp:113-119; `Condition::~Condition`, thread/Thread.cpp:197-205; `Thread::~Thread`,
thread/Thread.cpp:35-46. -/
def destroy (o : Obj) (w : World) : Option World :=
  match o with
  | .mutex h => w.close h
  | .condition hm he => (w.close he).bind (·.close hm)
  | .thread (some h) true => w.await h
  | .thread none true => none
  | .thread _ false => some w

/-- One operation. Operations on objects that are not there do nothing. -/
def step (op : Op) (w : World) : Option World :=
  match op with
  | .newMutex => some (newMutex w)
  | .newCondition => some (newCondition w)
  | .newThread => some (newThread w)
  | .delete i =>
    match w.objs[i]? with
    | some o => (destroy o w).map fun w' => { w' with objs := w.objs.eraseIdx i }
    | none => some w
  -- Thread::start, thread/Thread.cpp:48-61, when the system can create a thread
  | .start i =>
    match w.objs[i]? with
    | some (.thread _ _) => some { w.create with objs := w.objs.set i (.thread (some w.next) true), starts := w.starts + 1 }
    | _ => some w
  -- Thread::wait, thread/Thread.cpp:63-76
  | .wait i =>
    match w.objs[i]? with
    | some (.thread (some h) true) => (w.await h).map fun w' => { w' with objs := w.objs.set i (.thread (some h) false) }
    | some (.thread none true) => none
    | _ => some w

/-- A sequence of operations. -/
def run : List Op → World → Option World
  | [], w => some w
  | op :: ops, w => (step op w).bind (run ops)

end QM.WinHandles
