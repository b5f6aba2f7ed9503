import Verif.Win.Async

/-! # The states of an `AsynchronousTask` of the Windows build, up to the number of tasks done

Each with a bound for the steps to the end of the call that the owner is in. Generated; that the list is complete is proved in AsyncProps.lean. -/

namespace QM.WinAsync

/-- The states that can be reached before the first task has been awaited, with ranks. -/
def table : List (State × Nat) := [
  (⟨.a1, .check, some .worker, some .owner, true, true, false, false, false, false, 1, 1, 0⟩, 2),
  (⟨.a1, .check, some .worker, some .owner, true, true, true, false, false, false, 1, 1, 0⟩, 5),
  (⟨.a1, .waiting, none, some .owner, true, true, false, false, false, false, 1, 1, 0⟩, 1),
  (⟨.a1, .waiting, none, some .owner, true, true, true, false, false, false, 1, 1, 0⟩, 4),
  (⟨.a1, .woken, none, some .owner, true, true, false, false, false, false, 1, 1, 0⟩, 3),
  (⟨.d0, .check, some .worker, none, true, false, false, false, false, false, 0, 0, 0⟩, 14),
  (⟨.d0, .check, some .worker, none, true, false, true, false, false, false, 0, 0, 0⟩, 17),
  (⟨.d0, .start, none, none, false, false, false, false, false, false, 0, 0, 0⟩, 15),
  (⟨.d0, .waiting, none, none, true, false, false, false, false, false, 0, 0, 0⟩, 13),
  (⟨.d0, .waiting, none, none, true, false, true, false, false, false, 0, 0, 0⟩, 16),
  (⟨.d0, .woken, none, none, true, false, false, false, false, false, 0, 0, 0⟩, 15),
  (⟨.d1, .start, some .owner, none, true, false, false, false, false, false, 0, 0, 0⟩, 11),
  (⟨.d1, .waiting, some .owner, none, true, false, false, false, false, false, 0, 0, 0⟩, 12),
  (⟨.d1, .waiting, some .owner, none, true, false, true, false, false, false, 0, 0, 0⟩, 12),
  (⟨.d1, .woken, some .owner, none, true, false, false, false, false, false, 0, 0, 0⟩, 11),
  (⟨.d2, .start, some .owner, none, true, false, false, false, false, true, 0, 0, 0⟩, 10),
  (⟨.d2, .waiting, some .owner, none, true, false, false, false, false, true, 0, 0, 0⟩, 11),
  (⟨.d2, .waiting, some .owner, none, true, false, true, false, false, true, 0, 0, 0⟩, 11),
  (⟨.d2, .woken, some .owner, none, true, false, false, false, false, true, 0, 0, 0⟩, 10),
  (⟨.d3, .start, some .owner, none, true, false, true, false, false, true, 0, 0, 0⟩, 9),
  (⟨.d3, .waiting, some .owner, none, true, false, true, false, false, true, 0, 0, 0⟩, 10),
  (⟨.d3, .woken, some .owner, none, true, false, false, false, false, true, 0, 0, 0⟩, 9),
  (⟨.d3, .woken, some .owner, none, true, false, true, false, false, true, 0, 0, 0⟩, 9),
  (⟨.d4, .check, some .worker, none, true, false, false, false, false, true, 0, 0, 0⟩, 7),
  (⟨.d4, .check, some .worker, none, true, false, true, false, false, true, 0, 0, 0⟩, 7),
  (⟨.d4, .dead, none, none, false, false, false, true, false, true, 0, 0, 0⟩, 1),
  (⟨.d4, .dead, none, none, false, false, true, true, false, true, 0, 0, 0⟩, 1),
  (⟨.d4, .f1, some .worker, none, true, false, false, false, false, true, 0, 0, 0⟩, 6),
  (⟨.d4, .f1, some .worker, none, true, false, true, false, false, true, 0, 0, 0⟩, 6),
  (⟨.d4, .f2, some .worker, some .worker, true, true, false, false, false, true, 0, 0, 0⟩, 5),
  (⟨.d4, .f2, some .worker, some .worker, true, true, true, false, false, true, 0, 0, 0⟩, 5),
  (⟨.d4, .f3, some .worker, some .worker, true, true, false, false, false, true, 0, 0, 0⟩, 4),
  (⟨.d4, .f3, some .worker, some .worker, true, true, true, false, false, true, 0, 0, 0⟩, 4),
  (⟨.d4, .f4, some .worker, some .worker, true, true, false, true, false, true, 0, 0, 0⟩, 3),
  (⟨.d4, .f4, some .worker, some .worker, true, true, true, true, false, true, 0, 0, 0⟩, 3),
  (⟨.d4, .f5, some .worker, none, true, false, false, true, false, true, 0, 0, 0⟩, 2),
  (⟨.d4, .f5, some .worker, none, true, false, true, true, false, true, 0, 0, 0⟩, 2),
  (⟨.d4, .start, none, none, false, false, true, false, false, true, 0, 0, 0⟩, 8),
  (⟨.d4, .waiting, none, none, false, false, true, false, false, true, 0, 0, 0⟩, 9),
  (⟨.d4, .woken, none, none, false, false, false, false, false, true, 0, 0, 0⟩, 8),
  (⟨.d4, .woken, none, none, false, false, true, false, false, true, 0, 0, 0⟩, 8),
  (⟨.gone, .dead, none, none, false, false, false, true, false, true, 0, 0, 0⟩, 0),
  (⟨.gone, .dead, none, none, false, false, true, true, false, true, 0, 0, 0⟩, 0),
  (⟨.idle, .check, some .worker, none, true, false, false, false, false, false, 0, 0, 0⟩, 1),
  (⟨.idle, .check, some .worker, none, true, false, true, false, false, false, 0, 0, 0⟩, 4),
  (⟨.idle, .start, none, none, false, false, false, false, false, false, 0, 0, 0⟩, 2),
  (⟨.idle, .waiting, none, none, true, false, false, false, false, false, 0, 0, 0⟩, 0),
  (⟨.idle, .waiting, none, none, true, false, true, false, false, false, 0, 0, 0⟩, 3),
  (⟨.idle, .woken, none, none, true, false, false, false, false, false, 0, 0, 0⟩, 2),
  (⟨.ret, .check, some .worker, some .owner, true, true, false, false, true, false, 1, 0, 0⟩, 11),
  (⟨.ret, .check, some .worker, some .owner, true, true, true, false, true, false, 1, 0, 0⟩, 14),
  (⟨.ret, .p1, some .worker, some .owner, true, true, false, false, true, false, 1, 1, 0⟩, 9),
  (⟨.ret, .p1, some .worker, some .owner, true, true, true, false, true, false, 1, 1, 0⟩, 12),
  (⟨.ret, .perform, some .worker, some .owner, true, true, false, false, true, false, 1, 0, 0⟩, 10),
  (⟨.ret, .perform, some .worker, some .owner, true, true, true, false, true, false, 1, 0, 0⟩, 13),
  (⟨.ret, .start, none, some .owner, false, true, true, false, true, false, 1, 0, 0⟩, 15),
  (⟨.ret, .waiting, none, some .owner, false, true, true, false, true, false, 1, 0, 0⟩, 13),
  (⟨.ret, .woken, none, some .owner, false, true, false, false, true, false, 1, 0, 0⟩, 12),
  (⟨.ret, .woken, none, some .owner, false, true, true, false, true, false, 1, 0, 0⟩, 15),
  (⟨.s1, .check, some .worker, none, true, false, false, false, false, false, 0, 0, 0⟩, 19),
  (⟨.s1, .check, some .worker, none, true, false, true, false, false, false, 0, 0, 0⟩, 22),
  (⟨.s1, .start, none, none, false, false, false, false, false, false, 0, 0, 0⟩, 20),
  (⟨.s1, .waiting, none, none, true, false, false, false, false, false, 0, 0, 0⟩, 18),
  (⟨.s1, .waiting, none, none, true, false, true, false, false, false, 0, 0, 0⟩, 21),
  (⟨.s1, .woken, none, none, true, false, false, false, false, false, 0, 0, 0⟩, 20),
  (⟨.s2, .check, some .worker, some .owner, true, true, false, false, false, false, 0, 0, 0⟩, 18),
  (⟨.s2, .check, some .worker, some .owner, true, true, true, false, false, false, 0, 0, 0⟩, 21),
  (⟨.s2, .start, none, some .owner, false, true, false, false, false, false, 0, 0, 0⟩, 19),
  (⟨.s2, .waiting, none, some .owner, true, true, false, false, false, false, 0, 0, 0⟩, 17),
  (⟨.s2, .waiting, none, some .owner, true, true, true, false, false, false, 0, 0, 0⟩, 20),
  (⟨.s2, .woken, none, some .owner, true, true, false, false, false, false, 0, 0, 0⟩, 19),
  (⟨.s3, .start, some .owner, some .owner, true, true, false, false, false, false, 0, 0, 0⟩, 18),
  (⟨.s3, .waiting, some .owner, some .owner, true, true, false, false, false, false, 0, 0, 0⟩, 16),
  (⟨.s3, .waiting, some .owner, some .owner, true, true, true, false, false, false, 0, 0, 0⟩, 19),
  (⟨.s3, .woken, some .owner, some .owner, true, true, false, false, false, false, 0, 0, 0⟩, 18),
  (⟨.s4, .start, some .owner, some .owner, true, true, false, false, true, false, 1, 0, 0⟩, 17),
  (⟨.s4, .waiting, some .owner, some .owner, true, true, false, false, true, false, 1, 0, 0⟩, 15),
  (⟨.s4, .waiting, some .owner, some .owner, true, true, true, false, true, false, 1, 0, 0⟩, 18),
  (⟨.s4, .woken, some .owner, some .owner, true, true, false, false, true, false, 1, 0, 0⟩, 17),
  (⟨.s5, .start, some .owner, some .owner, true, true, true, false, true, false, 1, 0, 0⟩, 16),
  (⟨.s5, .waiting, some .owner, some .owner, true, true, true, false, true, false, 1, 0, 0⟩, 14),
  (⟨.s5, .woken, some .owner, some .owner, true, true, false, false, true, false, 1, 0, 0⟩, 13),
  (⟨.s5, .woken, some .owner, some .owner, true, true, true, false, true, false, 1, 0, 0⟩, 16),
  (⟨.waiting, .check, some .worker, none, true, true, false, false, true, false, 1, 0, 0⟩, 10),
  (⟨.waiting, .check, some .worker, none, true, false, false, true, false, false, 1, 1, 0⟩, 4),
  (⟨.waiting, .check, some .worker, none, true, true, true, false, true, false, 1, 0, 0⟩, 13),
  (⟨.waiting, .check, some .worker, none, true, false, true, true, false, false, 1, 1, 0⟩, 7),
  (⟨.waiting, .p1, some .worker, none, true, true, false, false, true, false, 1, 1, 0⟩, 8),
  (⟨.waiting, .p1, some .worker, none, true, true, true, false, true, false, 1, 1, 0⟩, 11),
  (⟨.waiting, .p2, some .worker, some .worker, true, true, false, false, true, false, 1, 1, 0⟩, 7),
  (⟨.waiting, .p2, some .worker, some .worker, true, true, true, false, true, false, 1, 1, 0⟩, 10),
  (⟨.waiting, .p3, some .worker, some .worker, true, true, false, false, false, false, 1, 1, 0⟩, 6),
  (⟨.waiting, .p3, some .worker, some .worker, true, true, true, false, false, false, 1, 1, 0⟩, 9),
  (⟨.waiting, .p4, some .worker, some .worker, true, true, false, true, false, false, 1, 1, 0⟩, 5),
  (⟨.waiting, .p4, some .worker, some .worker, true, true, true, true, false, false, 1, 1, 0⟩, 8),
  (⟨.waiting, .perform, some .worker, none, true, true, false, false, true, false, 1, 0, 0⟩, 9),
  (⟨.waiting, .perform, some .worker, none, true, true, true, false, true, false, 1, 0, 0⟩, 12),
  (⟨.waiting, .start, none, none, false, true, true, false, true, false, 1, 0, 0⟩, 14),
  (⟨.waiting, .waiting, none, none, true, false, false, true, false, false, 1, 1, 0⟩, 3),
  (⟨.waiting, .waiting, none, none, false, true, true, false, true, false, 1, 0, 0⟩, 12),
  (⟨.waiting, .waiting, none, none, true, false, true, true, false, false, 1, 1, 0⟩, 6),
  (⟨.waiting, .woken, none, none, false, true, false, false, true, false, 1, 0, 0⟩, 11),
  (⟨.waiting, .woken, none, none, true, false, false, true, false, false, 1, 1, 0⟩, 5),
  (⟨.waiting, .woken, none, none, false, true, true, false, true, false, 1, 0, 0⟩, 14),
  (⟨.woken, .check, some .worker, none, true, false, false, false, false, false, 1, 1, 0⟩, 3),
  (⟨.woken, .check, some .worker, none, true, false, true, false, false, false, 1, 1, 0⟩, 6),
  (⟨.woken, .p4, some .worker, some .worker, true, true, false, false, false, false, 1, 1, 0⟩, 4),
  (⟨.woken, .p4, some .worker, some .worker, true, true, true, false, false, false, 1, 1, 0⟩, 7),
  (⟨.woken, .waiting, none, none, true, false, false, false, false, false, 1, 1, 0⟩, 2),
  (⟨.woken, .waiting, none, none, true, false, true, false, false, false, 1, 1, 0⟩, 5),
  (⟨.woken, .woken, none, none, true, false, false, false, false, false, 1, 1, 0⟩, 4)]

end QM.WinAsync
