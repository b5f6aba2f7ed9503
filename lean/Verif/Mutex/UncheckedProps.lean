import Verif.Mutex.Unchecked
import Verif.Mutex.Props

/-!
# C128: the mutex built without thread checks
-/

namespace QM.Mutex.Unchecked

open QM.Mutex (Ev Call inside Proper)

theorem inside_visible (h : List Ev) (t : Nat) : inside (visible h) t ↔ inside h t := by
  induction h with
  | nil => rfl
  | cons e h ih =>
    cases e with
    | silent u => simpa [visible, inside] using ih
    | tried u b =>
      cases b <;> simp only [visible, List.filter_cons, if_true, inside] <;> first | exact or_congr_right ih | exact ih
    | _ => simp only [visible, List.filter_cons, if_true, inside] <;> first | exact or_congr_right ih | exact and_congr_right fun _ => ih | exact ih

theorem proper_visible (h : List Ev) (t : Nat) : Proper (visible h) t ↔ Proper h t := by
  induction h with
  | nil => rfl
  | cons e h ih =>
    have hi := inside_visible h t
    unfold visible at hi ih
    cases e with
    | silent u => simpa [visible, Proper] using ih
    | _ => simp only [visible, List.filter_cons, if_true, Proper, hi, ih]

theorem proper_tail {e : Ev} {h : List Ev} {t : Nat} (hp : Proper (e :: h) t) : Proper h t := by
  cases e <;> simp only [Proper] at hp <;> first | exact hp.2 | exact hp

theorem visible_cons_silent (t : Nat) (h : List Ev) : visible (.silent t :: h) = visible h := rfl

/-! ## The mutex without checks under proper use -/

/-- The thread has the mutex in the middle of a call. -/
def Pc.getting (p : Pc) : Prop := p = .lockRet ∨ p = .tryRet

structure Inv (s : State) (h : List Ev) : Prop where
  ub : s.ub = false
  inside : ∀ t, inside h t ↔ s.owner = some t ∧ ¬ (s.pc t).getting
  getting : ∀ t, (s.pc t).getting → s.owner = some t
  put : ∀ t, s.pc t = .unPut → s.owner = some t
  wait : ∀ t, s.pc t = .lockGet → s.owner ≠ some t

theorem inv_reach {s h} (hr : Reach s h) (hp : ∀ t, Proper h t) : Inv s h := by
  induction hr with
  | init => constructor <;> simp [init, inside, Pc.getting]
  | call t c hr hi ih =>
    obtain ⟨h1, h2, h3, h4, h5⟩ := ih fun u => proper_tail (hp u)
    have hpt := hp t
    unfold Pc.getting at *
    cases c <;> simp only [call, Proper] at hpt <;> constructor <;> simp only [call, State.go, Function.update_apply, QM.Mutex.inside, Pc.getting] <;> grind
  | @step s h e s' t hr hn ih =>
    obtain ⟨h1, h2, h3, h4, h5⟩ := ih fun u => proper_tail (hp u)
    have g3 := h3 t
    have g4 := h4 t
    unfold Pc.getting at *
    unfold next at hn
    cases hpc : s.pc t <;> rw [hpc] at hn <;> simp only [] at hn
    case idle => cases hn
    all_goals
      (try split at hn) <;> cases hn <;> constructor <;> simp only [State.go, Function.update_apply, QM.Mutex.inside, Pc.getting] <;> grind

/-- **C128** Under proper use the mutex without checks excludes threads from each other, and nothing undefined happens. -/
theorem C128_mutual_exclusion {s h} (hr : Reach s h) (hp : ∀ t, Proper h t) :
    s.ub = false ∧ ∀ t u, inside h t → inside h u → t = u := by
  have hi := inv_reach hr hp
  refine ⟨hi.ub, fun t u ht hu => ?_⟩
  have h1 := ((hi.inside t).mp ht).1
  rw [((hi.inside u).mp hu).1] at h1
  exact (Option.some.inj h1).symm

/-! ## Every history with checks is one without -/

/-- Where a thread of the build with checks is in the build without. -/
def absPc : QM.Mutex.Pc → Pc
  | .idle => .idle
  | .lockRd | .lockBy | .lockGet => .lockGet
  | .lockWrBy | .lockWr => .lockRet
  | .unRd | .unBy | .unWr | .unPut => .unPut
  | .tryGet => .tryGet
  | .tryWrBy | .tryWr => .tryRet

/-- The state of the build with checks seen without them. -/
def abs (s : QM.Mutex.State) : State := ⟨s.owner, s.ub, fun t => absPc (s.pc t)⟩

theorem abs_go (s : QM.Mutex.State) (t : Nat) (p : QM.Mutex.Pc) : (fun u => absPc (Function.update s.pc t p u)) = Function.update (fun u => absPc (s.pc u)) t (absPc p) := by
  funext u
  by_cases h : u = t
  · subst h; simp
  · simp [h]

theorem abs_same (s : QM.Mutex.State) (t : Nat) (p : QM.Mutex.Pc) (h : absPc p = absPc (s.pc t)) : (fun u => absPc (Function.update s.pc t p u)) = fun u => absPc (s.pc u) := by
  rw [abs_go, h]
  exact Function.update_eq_self t _

theorem state_eq {a b : State} (h1 : a.owner = b.owner) (h2 : a.ub = b.ub) (h3 : a.pc = b.pc) : a = b := by
  cases a; cases b
  simp_all

theorem next_abs {s s' e t} (hn : QM.Mutex.next s t = some (e, s')) (hm : ¬ e.message) :
    (e = .silent t ∧ abs s' = abs s) ∨ next (abs s) t = some (e, abs s') := by
  unfold QM.Mutex.next at hn
  cases hpc : s.pc t <;> rw [hpc] at hn <;> simp only [] at hn
  case idle => cases hn
  all_goals
    (try split at hn) <;> cases hn <;>
    first
      | exact absurd trivial hm
      | exact .inl ⟨rfl, state_eq rfl rfl (abs_same s t _ (by rw [hpc]; rfl))⟩
      | (right
         unfold next
         rw [show (abs s).pc t = _ from congrArg absPc hpc]
         dsimp only [absPc]
         try first
           | rw [if_pos (show (abs s).owner = none from ‹s.owner = none›)]
           | rw [if_pos (show (abs s).owner = some t from ‹s.owner = some t›)]
           | rw [if_neg (show ¬ (abs s).owner = none from ‹¬ s.owner = none›)]
           | rw [if_neg (show ¬ (abs s).owner = some t from ‹¬ s.owner = some t›)]
         exact congrArg some (Prod.ext (by rfl) (state_eq (by rfl) (by rfl) (by first | exact (abs_go s t .lockWrBy).symm | exact (abs_go s t .tryWrBy).symm | exact (abs_go s t .idle).symm))))

/-- The build with checks, seen without them, is the build without. -/
theorem reach_abs {z s h} (hr : QM.Mutex.Reach z s h) (hp : ∀ t, Proper h t) : ∃ h', Reach (abs s) h' ∧ visible h' = visible h := by
  induction hr with
  | init => exact ⟨[], .init, rfl⟩
  | @call s h t c hr hi ih =>
    obtain ⟨h', r1, r2⟩ := ih fun u => proper_tail (hp u)
    have r3 := Reach.call t c r1 (by simp [abs, hi, absPc])
    have r4 : abs (QM.Mutex.call s t c).2 = (call (abs s) t c).2 := by
      cases c
      · exact state_eq rfl rfl (abs_go s t .lockRd)
      · exact state_eq rfl rfl (abs_go s t .unRd)
      · exact state_eq rfl rfl (abs_go s t .tryGet)
    refine ⟨(call (abs s) t c).1 :: h', by rw [r4]; exact r3, ?_⟩
    · cases c <;> simp only [QM.Mutex.call, call, visible, List.filter_cons, if_true] <;> exact congrArg _ r2
  | @step s h e s' t hr hn ih =>
    obtain ⟨h', r1, r2⟩ := ih fun u => proper_tail (hp u)
    have hm : ¬ e.message := QM.Mutex.C75_no_message (.step t hr hn) _ (hp e.thread) e (by simp) rfl
    rcases next_abs hn hm with ⟨rfl, h2⟩ | h2
    · exact ⟨h', by rw [h2]; exact r1, by rw [visible_cons_silent]; exact r2⟩
    · refine ⟨e :: h', .step t r1 h2, ?_⟩
      unfold visible at *
      rw [List.filter_cons, List.filter_cons, r2]

/-! ## Every history without checks is one with them -/

/-- Where the build with checks waits while the build without is about to make a step. -/
def concPc : Pc → QM.Mutex.Pc
  | .idle => .idle
  | .lockGet => .lockRd
  | .lockRet => .lockWrBy
  | .unPut => .unRd
  | .tryGet => .tryGet
  | .tryRet => .tryWrBy

/-- The builds are in step. -/
structure Sim (u : State) (s : QM.Mutex.State) : Prop where
  owner : s.owner = u.owner
  pc : ∀ t, s.pc t = concPc (u.pc t)

theorem reach_conc {z u h} (hr : Reach u h) (hp : ∀ t, Proper h t) : ∃ s h', QM.Mutex.Reach z s h' ∧ visible h' = visible h ∧ Sim u s := by
  induction hr with
  | init => exact ⟨_, [], .init, rfl, rfl, fun _ => rfl⟩
  | @call u h t c hr hi ih =>
    obtain ⟨s, h', r1, r2, r3, r4⟩ := ih fun u => proper_tail (hp u)
    have hidle : s.pc t = .idle := by rw [r4, hi]; rfl
    refine ⟨_, _, .call t c r1 hidle, ?_, ?_, ?_⟩
    · cases c <;> simp only [QM.Mutex.call, call, visible, List.filter_cons, if_true] <;> exact congrArg _ r2
    · cases c <;> exact r3
    · intro v
      cases c <;> simp only [QM.Mutex.call, call, QM.Mutex.State.go, State.go, Function.update_apply] <;> split <;> first | rfl | exact r4 v
  | @step u h e u' t hr hn ih =>
    have hp' := fun u => proper_tail (hp u)
    obtain ⟨s, h', r1, r2, r3, r4⟩ := ih hp'
    have hU := inv_reach hr hp'
    have hI := QM.Mutex.inv_reach r1
    have h4 := r4 t
    unfold next at hn
    cases hpc : u.pc t <;> rw [hpc] at hn h4 <;> simp only [] at hn
    case idle => cases hn
    case lockGet =>
      split at hn
      case isFalse => cases hn
      case isTrue ho =>
        cases hn
        have hl := hI.free (by rw [r3, ho])
        have n1 : QM.Mutex.next s t = some (.silent t, s.go t .lockGet) := by simp [QM.Mutex.next, h4, concPc, hl]
        have n2 : QM.Mutex.next (s.go t .lockGet) t = some (.silent t, { (s.go t .lockGet).go t .lockWrBy with owner := some t }) := by
          simp [QM.Mutex.next, QM.Mutex.State.go, r3, ho]
        refine ⟨_, _, .step t (.step t r1 n1) n2, r2, rfl, fun v => ?_⟩
        simp only [QM.Mutex.State.go, State.go, Function.update_apply]
        split <;> first | rfl | exact r4 v
    case lockRet =>
      cases hn
      have n1 : QM.Mutex.next s t = some (.silent t, { s.go t .lockWr with lockedBy := t }) := by simp [QM.Mutex.next, h4, concPc]
      have n2 : QM.Mutex.next { s.go t .lockWr with lockedBy := t } t = some (.locked t, { ({ s.go t .lockWr with lockedBy := t } : QM.Mutex.State).go t .idle with locked := true }) := by
        simp [QM.Mutex.next, QM.Mutex.State.go]
      refine ⟨_, _, .step t (.step t r1 n1) n2, congrArg (List.cons _) r2, r3, fun v => ?_⟩
      simp only [QM.Mutex.State.go, State.go, Function.update_apply]
      split <;> first | rfl | exact r4 v
    case unPut =>
      have ho := hU.put t hpc
      rw [if_pos ho] at hn
      cases hn
      obtain ⟨f1, f2⟩ := hI.flag t (by rw [r3, ho]) (by simp [h4, concPc, QM.Mutex.Pc.getting]) (by simp [h4, concPc])
      have n1 : QM.Mutex.next s t = some (.silent t, s.go t .unBy) := by simp [QM.Mutex.next, h4, concPc, f1]
      have n2 : QM.Mutex.next (s.go t .unBy) t = some (.silent t, (s.go t .unBy).go t .unWr) := by simp [QM.Mutex.next, QM.Mutex.State.go, f2]
      have n3 : QM.Mutex.next ((s.go t .unBy).go t .unWr) t = some (.silent t, { ((s.go t .unBy).go t .unWr).go t .unPut with locked := false }) := by
        simp [QM.Mutex.next, QM.Mutex.State.go]
      have n4 : QM.Mutex.next { ((s.go t .unBy).go t .unWr).go t .unPut with locked := false } t =
          some (.unlocked t, { ({ ((s.go t .unBy).go t .unWr).go t .unPut with locked := false } : QM.Mutex.State).go t .idle with owner := none }) := by
        simp [QM.Mutex.next, QM.Mutex.State.go, r3, ho]
      refine ⟨_, _, .step t (.step t (.step t (.step t r1 n1) n2) n3) n4, congrArg (List.cons _) r2, rfl, fun v => ?_⟩
      simp only [QM.Mutex.State.go, State.go, Function.update_apply]
      split <;> first | rfl | exact r4 v
    case tryGet =>
      split at hn
      case isFalse ho =>
        cases hn
        have n1 : QM.Mutex.next s t = some (.tried t false, s.go t .idle) := by simp [QM.Mutex.next, h4, concPc, r3, ho]
        refine ⟨_, _, .step t r1 n1, congrArg (List.cons _) r2, r3, fun v => ?_⟩
        simp only [QM.Mutex.State.go, State.go, Function.update_apply]
        split <;> first | rfl | exact r4 v
      case isTrue ho =>
        cases hn
        have n1 : QM.Mutex.next s t = some (.silent t, { s.go t .tryWrBy with owner := some t }) := by simp [QM.Mutex.next, h4, concPc, r3, ho]
        refine ⟨_, _, .step t r1 n1, r2, rfl, fun v => ?_⟩
        simp only [QM.Mutex.State.go, State.go, Function.update_apply]
        split <;> first | rfl | exact r4 v
    case tryRet =>
      cases hn
      have n1 : QM.Mutex.next s t = some (.silent t, { s.go t .tryWr with lockedBy := t }) := by simp [QM.Mutex.next, h4, concPc]
      have n2 : QM.Mutex.next { s.go t .tryWr with lockedBy := t } t = some (.tried t true, { ({ s.go t .tryWr with lockedBy := t } : QM.Mutex.State).go t .idle with locked := true }) := by
        simp [QM.Mutex.next, QM.Mutex.State.go]
      refine ⟨_, _, .step t (.step t r1 n1) n2, congrArg (List.cons _) r2, r3, fun v => ?_⟩
      simp only [QM.Mutex.State.go, State.go, Function.update_apply]
      split <;> first | rfl | exact r4 v

/-- **C128** For programs that lock only what they have not and unlock only what they have, the builds with and without thread checks cannot be told apart: what the
threads can see, call by call and return by return, over any number of threads and any interleaving, is the same set of histories. -/
theorem C128_same (z : Nat) (v : List Ev) (hp : ∀ t, Proper v t) :
    (∃ s h, QM.Mutex.Reach z s h ∧ visible h = v) ↔ ∃ s h, Reach s h ∧ visible h = v := by
  constructor
  · rintro ⟨s, h, hr, rfl⟩
    obtain ⟨h', r1, r2⟩ := reach_abs hr fun t => (proper_visible h t).mp (hp t)
    exact ⟨_, h', r1, r2⟩
  · rintro ⟨s, h, hr, rfl⟩
    obtain ⟨s', h', r1, r2, -⟩ := reach_conc (z := z) hr fun t => (proper_visible h t).mp (hp t)
    exact ⟨s', h', r1, r2⟩

/-- Two threads, one of which tries in vain and then waits. -/
example : ∃ s h, Reach s h ∧ (∀ t, Proper h t) ∧ visible h = [.locked 5, .unlocked 3, .callUnlock 3, .callLock 5, .tried 5 false, .callTry 5, .locked 3, .callLock 3] := by
  refine ⟨_, _, .step 5 (.step 5 (.step 3 (.call 3 .unlock (.call 5 .lock (.step 5 (.call 5 .trylock (.step 3 (.step 3 (.call 3 .lock .init rfl) rfl) rfl) rfl) rfl) rfl) rfl)
    rfl) rfl) rfl, fun t => ?_, rfl⟩
  simp only [call, Proper, inside]
  grind

/-- **C128** Without the checks a thread that unlocks what another one has causes undefined behaviour; with them it never does (C75), it only gets a message. -/
theorem C128_foreign_unlock_violation : (∃ s h, Reach s h ∧ s.ub = true) ∧ ∀ z s h, QM.Mutex.Reach z s h → s.ub = false := by
  refine ⟨⟨_, _, .step 1 (.call 1 .unlock (.step 0 (.step 0 (.call 0 .lock .init rfl) rfl) rfl) rfl) rfl, rfl⟩, fun z s h hr => QM.Mutex.C75_no_undefined hr⟩

/-- What holds while thread `t` waits for itself. -/
structure Stuck (t : Nat) (s : State) (h : List Ev) : Prop where
  pc : s.pc t = .lockGet
  owner : s.owner = some t
  others : ∀ u, u ≠ t → ¬ inside h u ∧ ¬ (s.pc u).getting ∧ s.pc u ≠ .unPut

theorem stuck_reach {t s h1 h2} (hr : Reach s (h2 ++ .callLock t :: h1)) (hp : ∀ u, Proper h1 u) (ho : ∀ u, u ≠ t → Proper (h2 ++ .callLock t :: h1) u)
    (hi : inside h1 t) : Stuck t s (h2 ++ .callLock t :: h1) ∧ ∀ e ∈ h2, e.thread ≠ t := by
  induction h2 generalizing s with
  | nil =>
    refine ⟨?_, by simp⟩
    generalize hh : [] ++ Ev.callLock t :: h1 = h at hr
    cases hr with
    | init => simp at hh
    | @call s h u c hr hidle =>
      have hI : Inv s h := by
        refine inv_reach hr fun u => ?_
        cases c <;> simp only [call, List.nil_append, List.cons.injEq, reduceCtorEq, false_and] at hh
        rw [← hh.2]; exact hp u
      cases c <;> simp only [call, List.nil_append, List.cons.injEq, Ev.callLock.injEq, reduceCtorEq, false_and] at hh
      obtain ⟨rfl, rfl⟩ := hh
      obtain ⟨h1, h2, h3, h4, h5⟩ := hI
      unfold Pc.getting at *
      constructor <;> simp only [call, State.go, Function.update_apply, QM.Mutex.inside, Pc.getting] <;> grind
    | @step s h e s' u hr hn =>
      exfalso
      unfold next at hn
      cases hpc : s.pc u <;> rw [hpc] at hn <;> simp only [] at hn
      case idle => cases hn
      all_goals (try split at hn) <;> cases hn <;> simp at hh
  | cons e h2 ih =>
    rw [List.cons_append] at hr ho ⊢
    generalize hh : h2 ++ Ev.callLock t :: h1 = h at *
    have ho' := ho
    cases hr with
    | @call s h u c hr hidle =>
      obtain ⟨⟨i1, i2, i3⟩, i4⟩ := ih hr fun v hv => proper_tail (ho v hv)
      have hut : u ≠ t := by rintro rfl; rw [i1] at hidle; cases hidle
      have hpu := ho u hut
      have hi3 := i3 u hut
      unfold Pc.getting at *
      refine ⟨?_, fun e he => ?_⟩
      · cases c <;> simp only [call, Proper] at hpu <;> constructor <;> simp only [call, State.go, Function.update_apply, QM.Mutex.inside, Pc.getting] <;> grind
      · rcases List.mem_cons.mp he with rfl | he
        · cases c <;> exact hut
        · exact i4 e he
    | @step s h e s' u hr hn =>
      obtain ⟨⟨i1, i2, i3⟩, i4⟩ := ih hr fun v hv => proper_tail (ho v hv)
      have hut : u ≠ t := by rintro rfl; simp [next, i1, i2] at hn
      have hi3 := i3 u hut
      unfold Pc.getting at *
      unfold next at hn
      refine ⟨?_, fun e he => ?_⟩
      · cases hpc : s.pc u <;> rw [hpc] at hn <;> simp only [] at hn
        case idle => cases hn
        all_goals
          (try split at hn) <;> cases hn <;> constructor <;> simp only [State.go, Function.update_apply, QM.Mutex.inside, Pc.getting] <;> grind
      · rcases List.mem_cons.mp he with rfl | he
        · cases hpc : s.pc u <;> rw [hpc] at hn <;> simp only [] at hn
          case idle => cases hn
          all_goals (try split at hn) <;> cases hn <;> exact hut
        · exact i4 e he

/-- **C128** Without the checks a thread that locks what it has waits for ever and without a word: as long as the other threads behave, nothing of that thread
happens after the call, no message and no return. -/
theorem C128_silent_deadlock {t s h1 h2} (hr : Reach s (h2 ++ .callLock t :: h1)) (hp : ∀ u, Proper h1 u)
    (ho : ∀ u, u ≠ t → Proper (h2 ++ .callLock t :: h1) u) (hi : inside h1 t) : (∀ e ∈ h2, e.thread ≠ t) ∧ next s t = none := by
  obtain ⟨⟨i1, i2, -⟩, i3⟩ := stuck_reach hr hp ho hi
  exact ⟨i3, by simp [next, i1, i2]⟩

/-- Thread 3 locks twice, thread 5 tries in vain. -/
example : ∃ s, Reach s ([.tried 5 false, .callTry 5] ++ .callLock 3 :: [.locked 3, .silent 3, .callLock 3]) ∧
    (∀ u, Proper [.locked 3, .silent 3, .callLock 3] u) ∧ (∀ u, u ≠ 3 → Proper ([.tried 5 false, .callTry 5] ++ .callLock 3 :: [.locked 3, .silent 3, .callLock 3]) u) ∧
    inside [.locked 3, .silent 3, .callLock 3] 3 := by
  refine ⟨_, .step 5 (.call 5 .trylock (.call 3 .lock (.step 3 (.step 3 (.call 3 .lock .init rfl) rfl) rfl) rfl) rfl) rfl, fun u => ?_, fun u hu => ?_, ?_⟩ <;>
    simp only [Proper, inside, List.cons_append, List.nil_append] <;> grind

end QM.Mutex.Unchecked
