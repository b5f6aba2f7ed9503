import Verif.Win.Handles

/-!
# C126: handles in the Windows build
-/

namespace QM.WinHandles

/-- The handles that an object will close: one for a mutex, two for a condition, none for a thread. -/
def handles : Obj → List Nat
  | .mutex h => [h]
  | .condition hm he => [hm, he]
  | .thread _ _ => []

/-- How many mutexes and conditions there are. -/
def mutexes (l : List Obj) : Nat := l.countP fun o => match o with | .mutex _ => true | _ => false
def conditions (l : List Obj) : Nat := l.countP fun o => match o with | .condition _ _ => true | _ => false

structure Inv (w : World) (leaked : List Nat) : Prop where
  perm : w.opened.Perm (w.objs.flatMap handles ++ leaked)
  nodup : w.opened.Nodup
  fresh : ∀ h ∈ w.opened, h < w.next
  starts : leaked.length = w.starts
  thread : ∀ id e, Obj.thread id e ∈ w.objs → (e = true → id ≠ none) ∧ ∀ h, id = some h → h ∈ leaked

theorem length_handles (l : List Obj) : (l.flatMap handles).length = mutexes l + 2 * conditions l := by
  induction l with
  | nil => rfl
  | cons o l ih =>
    rw [List.flatMap_cons, List.length_append, ih]
    cases o <;> simp [handles, mutexes, conditions, List.countP_cons] <;> omega

theorem perm_erase {objs : List Obj} {i : Nat} {o : Obj} (ho : objs[i]? = some o) :
    (objs.flatMap handles).Perm (handles o ++ (objs.eraseIdx i).flatMap handles) := by
  obtain ⟨hi, rfl⟩ := List.getElem?_eq_some_iff.1 ho
  exact (List.getElem_cons_eraseIdx_perm hi).symm.flatMap_right handles

theorem perm_set {objs : List Obj} {i : Nat} {o o' : Obj} (ho : objs[i]? = some o) (h : handles o' = handles o) :
    ((objs.set i o').flatMap handles) = (objs.flatMap handles) := by
  induction objs generalizing i with
  | nil => simp at ho
  | cons a l ih =>
    cases i with
    | zero =>
      simp only [List.getElem?_cons_zero, Option.some.injEq] at ho
      subst ho
      simp [h]
    | succ i =>
      simp only [List.getElem?_cons_succ] at ho
      simp [ih ho]

theorem close_ok {w : World} {h : Nat} {rest : List Nat} (hp : w.opened.Perm (h :: rest)) :
    ∃ l, w.close h = some { w with opened := l } ∧ l.Perm rest := by
  refine ⟨w.opened.erase h, ?_, ?_⟩
  · rw [World.close, if_pos (hp.symm.subset (by simp))]
  · simpa using hp.erase h

theorem inv_step {w leaked op} (hi : Inv w leaked) : ∃ w' leaked', step op w = some w' ∧ Inv w' leaked' := by
  obtain ⟨h1, h2, h3, h4, h5⟩ := hi
  have hn : w.next ∉ w.opened := fun h => absurd (h3 _ h) (Nat.lt_irrefl _)
  cases op with
  | newMutex =>
    refine ⟨_, leaked, rfl, ?_, ?_, ?_, h4, ?_⟩
    · simpa [newMutex, World.create, handles] using h1
    · simp [newMutex, World.create, hn, h2]
    · intro h hh
      simp only [newMutex, World.create, List.mem_cons] at hh ⊢
      rcases hh with rfl | hh
      · omega
      · have := h3 h hh
        omega
    · intro id e hm
      exact h5 id e (by simpa [newMutex] using hm)
  | newCondition =>
    refine ⟨_, leaked, rfl, ?_, ?_, ?_, h4, ?_⟩
    · simp only [newCondition, World.create, handles, List.flatMap_cons, List.cons_append, List.nil_append]
      exact (List.Perm.swap _ _ _).trans ((h1.cons _).cons _)
    · have : w.next + 1 ∉ w.opened := fun h => by
        have := h3 _ h
        omega
      simp [newCondition, World.create, hn, h2, this]
    · intro h hh
      simp only [newCondition, World.create, List.mem_cons] at hh ⊢
      rcases hh with rfl | rfl | hh
      · omega
      · omega
      · have := h3 h hh
        omega
    · intro id e hm
      exact h5 id e (by simpa [newCondition] using hm)
  | newThread =>
    refine ⟨_, leaked, rfl, ?_, h2, h3, h4, ?_⟩
    · simpa [newThread, handles] using h1
    · intro id e hm
      simp only [newThread, List.mem_cons, Obj.thread.injEq] at hm
      rcases hm with ⟨rfl, rfl⟩ | hm
      · simp
      · exact h5 id e hm
  | delete i =>
    simp only [step]
    cases ho : w.objs[i]? with
    | none => exact ⟨w, leaked, rfl, h1, h2, h3, h4, h5⟩
    | some o =>
      have hp := h1.trans ((perm_erase ho).append_right leaked)
      have hsub : ∀ id e, Obj.thread id e ∈ w.objs.eraseIdx i → Obj.thread id e ∈ w.objs := fun id e h => List.mem_of_mem_eraseIdx h
      have key : ∀ l, l.Perm ((w.objs.eraseIdx i).flatMap handles ++ leaked) → l ⊆ w.opened → l.Nodup →
          Inv { w with opened := l, objs := w.objs.eraseIdx i } leaked := fun l hl hs hd =>
        ⟨hl, hd, fun h hh => h3 h (hs hh), h4, fun id e hm => h5 id e (hsub id e hm)⟩
      cases o with
      | mutex h =>
        obtain ⟨l, hl, hq⟩ := close_ok (h := h) hp
        have hd := (hp.nodup_iff.1 h2)
        refine ⟨_, leaked, by simp [destroy, hl], key l hq ?_ ?_⟩
        · intro x hx
          exact hp.symm.subset (List.mem_cons_of_mem _ (hq.subset hx))
        · exact hq.symm.nodup_iff.1 (List.nodup_cons.1 hd).2
      | condition hm he =>
        have hp' : w.opened.Perm (he :: hm :: ((w.objs.eraseIdx i).flatMap handles ++ leaked)) := hp.trans (List.Perm.swap _ _ _)
        obtain ⟨l, hl, hq⟩ := close_ok (h := he) hp'
        obtain ⟨l', hl', hq'⟩ := close_ok (w := { w with opened := l }) (h := hm) hq
        have hd := (hp.nodup_iff.1 h2)
        refine ⟨_, leaked, by simp [destroy, hl, hl'], key l' hq' ?_ ?_⟩
        · intro x hx
          exact hp.symm.subset (List.mem_cons_of_mem _ (List.mem_cons_of_mem _ (hq'.subset hx)))
        · exact hq'.symm.nodup_iff.1 (List.nodup_cons.1 (List.nodup_cons.1 hd).2).2
      | thread id e =>
        have ht := h5 id e (List.mem_of_getElem? ho)
        have hw : destroy (.thread id e) w = some w := by
          cases e with
          | false => cases id <;> rfl
          | true =>
            cases id with
            | none => exact absurd rfl (ht.1 rfl)
            | some h => exact if_pos (h1.symm.subset (List.mem_append_right _ (ht.2 h rfl)))
        exact ⟨_, leaked, by simp [hw], key w.opened hp (fun _ h => h) h2⟩
  | start i =>
    simp only [step]
    split
    · rename_i id e ho
      refine ⟨_, w.next :: leaked, rfl, ?_, ?_, ?_, ?_, ?_⟩
      · simp only [World.create]
        rw [perm_set ho (by rfl)]
        exact (h1.cons _).trans List.perm_middle.symm
      · simp [World.create, hn, h2]
      · intro h hh
        simp only [World.create, List.mem_cons] at hh ⊢
        rcases hh with rfl | hh
        · omega
        · have := h3 h hh
          omega
      · simp [h4]
      · intro id' e' hm
        rcases List.mem_or_eq_of_mem_set hm with hm | hm
        · exact ⟨(h5 id' e' hm).1, fun h hh => List.mem_cons_of_mem _ ((h5 id' e' hm).2 h hh)⟩
        · simp only [Obj.thread.injEq] at hm
          obtain ⟨rfl, rfl⟩ := hm
          simp
    · exact ⟨w, leaked, rfl, h1, h2, h3, h4, h5⟩
  | wait i =>
    simp only [step]
    split
    · rename_i h ho
      have ht := h5 _ _ (List.mem_of_getElem? ho)
      have hw : w.await h = some w := if_pos (h1.symm.subset (List.mem_append_right _ (ht.2 h rfl)))
      refine ⟨{ w with objs := w.objs.set i (.thread (some h) false) }, leaked, by simp [hw], ?_, h2, h3, h4, ?_⟩
      · rw [perm_set ho (by rfl)]
        exact h1
      · intro id' e' hm
        rcases List.mem_or_eq_of_mem_set hm with hm | hm
        · exact h5 id' e' hm
        · simp only [Obj.thread.injEq] at hm
          obtain ⟨rfl, rfl⟩ := hm
          exact ⟨by simp, ht.2⟩
    · rename_i ho
      exact absurd rfl ((h5 _ _ (List.mem_of_getElem? ho)).1 rfl)
    · exact ⟨w, leaked, rfl, h1, h2, h3, h4, h5⟩

theorem inv_run : ∀ (ops : List Op) {w leaked}, Inv w leaked → ∃ w' leaked', run ops w = some w' ∧ Inv w' leaked'
  | [], w, leaked, hi => ⟨w, leaked, rfl, hi⟩
  | op :: ops, w, leaked, hi => by
    obtain ⟨w', l', h, hi'⟩ := inv_step (op := op) hi
    obtain ⟨w'', l'', h', hi''⟩ := inv_run ops hi'
    exact ⟨w'', l'', by rw [run, h]; exact h', hi''⟩

/-- **C126** Whatever a program does with mutexes, conditions and threads, in whatever order and however often it starts a thread, no handle is closed
twice and no thread waits with a handle that is closed; and the open handles are one for each mutex, two for each condition and one for each
start of a thread there has ever been. -/
theorem C126_handles_partial (ops : List Op) : ∃ w, run ops World.empty = some w ∧ w.opened.Nodup ∧
    w.opened.length = mutexes w.objs + 2 * conditions w.objs + w.starts := by
  obtain ⟨w, l, h, hi⟩ := inv_run ops (w := World.empty) (leaked := []) ⟨by simp [World.empty], by simp [World.empty], by simp [World.empty], rfl, by simp [World.empty]⟩
  refine ⟨w, h, hi.nodup, ?_⟩
  rw [hi.perm.length_eq, List.length_append, length_handles, hi.starts]

/-- **C126** Mutexes and conditions give back what they have taken: a program that starts no thread and destroys all its objects has no open handle. -/
theorem C126_no_leak {ops w} (hr : run ops World.empty = some w) (hs : w.starts = 0) (ho : w.objs = []) : w.opened = [] := by
  obtain ⟨w', h, -, h'⟩ := C126_handles_partial ops
  rw [hr] at h
  cases h
  rw [hs, ho] at h'
  exact List.length_eq_zero_iff.1 h'

/-- What an `AsynchronousTask` does when it is made and destroyed, thread/AsynchronousTask.h:40-54: the base class, two conditions and a start; the
wait of its destructor, its members and the base class. -/
def task : List Op := [.newThread, .newCondition, .newCondition, .start 2, .wait 2, .delete 0, .delete 0, .delete 0]

theorem run_append (a b : List Op) (w : World) : run (a ++ b) w = (run a w).bind (run b) := by
  induction a generalizing w with
  | nil => rfl
  | cons op a ih =>
    simp only [List.cons_append, run]
    cases step op w with
    | none => rfl
    | some w' => exact ih w'

/-- **C126** violation: handles of threads are never closed. A program that makes and destroys `n` `AsynchronousTask`s has `n` open handles
and no object in the end. -/
theorem C126_task_violation (n : Nat) : ∃ w, run (List.replicate n task).flatten World.empty = some w ∧ w.objs = [] ∧ w.opened.length = n := by
  have key : ∃ w, run (List.replicate n task).flatten World.empty = some w ∧ w.objs = [] ∧ w.starts = n := by
    induction n with
    | zero => exact ⟨_, rfl, rfl, rfl⟩
    | succ n ih =>
      obtain ⟨w, h, h1, h2⟩ := ih
      rw [List.replicate_succ', List.flatten_append, run_append, h, Option.bind_some, List.flatten_singleton]
      obtain ⟨op, nx, ob, st⟩ := w
      subst h1 h2
      refine ⟨⟨(nx + 4) :: op, nx + 5, [], st + 1⟩, ?_, rfl, rfl⟩
      simp [task, run, step, newThread, newCondition, World.create, World.await, World.close, destroy, List.erase_cons]
      omega
  obtain ⟨w, h, h1, h2⟩ := key
  obtain ⟨w', h', -, h3⟩ := C126_handles_partial (List.replicate n task).flatten
  rw [h] at h'
  cases h'
  exact ⟨w, h, h1, by rw [h3, h1, h2]; simp [mutexes, conditions]⟩

/-- Two mutexes and a condition, one mutex destroyed; a thread started twice. -/
example : ∃ w, run [.newMutex, .newCondition, .newMutex, .delete 2, .newThread, .start 0, .start 0, .wait 0] World.empty = some w ∧
    w.opened.length = 5 ∧ w.starts = 2 ∧ mutexes w.objs = 1 ∧ conditions w.objs = 1 := ⟨_, rfl, rfl, rfl, rfl, rfl⟩

end QM.WinHandles
