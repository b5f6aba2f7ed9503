import Verif.Thread.Spec

/-!
# C77: starting, waiting for and destroying a thread object

The full claim is that when `wait` or the destructor returns, every thread that was started through the object has ended, for all histories of
calls; it holds if the owner waits between two starts (`_partial`) and fails otherwise (`C77_restart_violation`). A thread object that is destroyed
while its thread runs is another violation.
-/

namespace QM.Thread

structure Inv (s : State) (h : List Ev) : Prop where
  ub : s.ub = false
  fresh : ∀ k, s.made ≤ k ↔ s.run k = .absent
  started : ∀ k, .started k ∈ h ↔ s.run k ≠ .absent
  begins : ∀ k, .begins k ∈ h ↔ s.run k = .running ∨ s.run k = .ended ∨ s.run k = .joined
  ends : ∀ k, .ends k ∈ h ↔ s.run k = .ended ∨ s.run k = .joined
  countS : ∀ k, h.count (.started k) ≤ 1
  countB : ∀ k, h.count (.begins k) ≤ 1
  countE : ∀ k, h.count (.ends k) ≤ 1
  extant : s.m_extant = true → s.pc ≠ .gone → s.run s.m_id ≠ .absent ∧ s.run s.m_id ≠ .joined
  waiting : s.pc = .waiting → s.m_extant = true
  opened : open_ h ↔ s.m_extant = true
  gone : s.alive = false ↔ s.pc = .destroying ∨ s.pc = .gone

theorem inv_step {s h e s'} (hs : Inv s h) (hn : Step s e s') : Inv s' (e :: h) := by
  obtain ⟨h1, h2, h3, h4, h5, h6, h7, h8, h9, h10, h11, h12⟩ := hs
  have c1 : ∀ k, s.run k = .absent → h.count (.started k) = 0 := fun k hk => List.count_eq_zero.mpr (by grind)
  have c2 : ∀ k, s.run k = .absent ∨ s.run k = .created → h.count (.begins k) = 0 := fun k hk => List.count_eq_zero.mpr (by grind)
  have c3 : ∀ k, s.run k = .running → h.count (.ends k) = 0 := fun k hk => List.count_eq_zero.mpr (by grind)
  cases hn <;> constructor <;> (try simp only [Function.update_apply, open_, List.mem_cons, List.count_cons]) <;> grind

theorem inv_reach {s h} (hr : Reach s h) : Inv s h := by
  induction hr with
  | init => constructor <;> simp [init, open_]
  | step _ hn ih => exact inv_step ih hn

theorem one_cons {e h} (hp : OneAtATime (e :: h)) : OneAtATime h := by
  cases e <;> simp only [OneAtATime] at hp <;> first | exact hp | exact hp.2

theorem first_cons {e h} (hp : WaitsFirst (e :: h)) : WaitsFirst h := by
  cases e <;> simp only [WaitsFirst] at hp <;> first | exact hp | exact hp.2

/-- With one thread at a time, all threads but the latest have been joined, and the latest too unless the object says otherwise. -/
theorem one_reach {s h} (hr : Reach s h) (hp : OneAtATime h) :
    ∀ k, s.run k = .absent ∨ s.run k = .joined ∨ (s.m_extant = true ∧ s.m_id = k) := by
  induction hr with
  | init => simp [init]
  | @step s h e s' hr hn ih =>
    have hi := inv_reach hr
    have ih := ih (one_cons hp)
    obtain ⟨-, h2, -, -, -, -, -, -, h9, h10, h11, -⟩ := hi
    cases hn <;> simp only [OneAtATime] at hp <;> (try simp only [Function.update_apply]) <;> grind

/-- **C77** No thread is joined twice, whatever the owner does: `wait` may be called at any time, also before `start`, repeatedly, and before the
destructor. -/
theorem C77_no_double_join {s h} (hr : Reach s h) : s.ub = false := (inv_reach hr).ub

/-- **C77** Each `start` calls `run` at most once, in a thread of its own; `run` is called only by threads that were started. -/
theorem C77_run_once {s h} (hr : Reach s h) (k : Nat) :
    h.count (.started k) ≤ 1 ∧ h.count (.begins k) ≤ 1 ∧ h.count (.ends k) ≤ 1 ∧ (.ends k ∈ h → .begins k ∈ h) ∧ (.begins k ∈ h → .started k ∈ h) := by
  obtain ⟨-, -, h3, h4, h5, h6, h7, h8, -⟩ := inv_reach hr
  refine ⟨h6 k, h7 k, h8 k, ?_, ?_⟩
  · rw [h4, h5]
    exact .inr
  · rw [h3, h4]
    grind

/-- **C77** A thread that was started and has not ended can go on: `wait` and the destructor wait for nothing else. -/
theorem C77_progress {s h} (hr : Reach s h) (k : Nat) (hs : .started k ∈ h) (he : .ends k ∉ h) :
    (∃ s', Step s (.begins k) s') ∨ ∃ s', Step s (.ends k) s' := by
  obtain ⟨-, -, h3, h4, h5, -⟩ := inv_reach hr
  rw [h3] at hs
  rw [h5] at he
  cases hq : s.run k
  · exact absurd hq hs
  · exact .inl ⟨_, .begin k hq⟩
  · exact .inr ⟨_, .end k hq⟩
  · exact absurd (.inl hq) he
  · exact absurd (.inr hq) he

/-- **C77** `wait` and the destructor return at once if nothing was started since the last `wait`; otherwise they return if the thread started last has ended. -/
theorem C77_returns {s h} (hr : Reach s h) (hl : s.pc = .waiting ∨ s.pc = .destroying) (hk : ∀ k, .started k ∈ h → .ends k ∈ h) :
    (s.pc = .waiting → ∃ s', Step s .waited s') ∧ (s.pc = .destroying → ∃ s', Step s .destroyed s') := by
  obtain ⟨-, -, h3, h4, h5, -, -, -, h9, h10, -⟩ := inv_reach hr
  have hx : s.m_extant = true → s.run s.m_id = .ended := by
    intro he
    have h1 := h9 he (by rcases hl with h | h <;> simp [h])
    have h2 := (h5 _).mp (hk _ ((h3 s.m_id).mpr h1.1))
    grind
  refine ⟨fun hp => ⟨_, .waited hp (hx (h10 hp))⟩, fun hp => ?_⟩
  cases hm : s.m_extant
  · exact ⟨_, .destroyNone hp hm⟩
  · exact ⟨_, .destroyed hp hm (hx hm)⟩

/-- **C77** When `wait` or the destructor returns, every thread that was started through the object has ended, if the owner waits before it
starts the object again. Missing: the case that it does not, for which the claim is false, see `C77_restart_violation`. -/
theorem C77_all_ended_partial {s h} (e : Ev) (he : e = .waited ∨ e = .destroyed) (hr : Reach s (e :: h)) (hp : OneAtATime h) (k : Nat)
    (hk : .started k ∈ h) : .ends k ∈ h := by
  cases hr with
  | step hr hn =>
    have ho := one_reach hr hp k
    obtain ⟨-, -, h3, h4, h5, -, -, -, h9, h10, h11, -⟩ := inv_reach hr
    rw [h3] at hk
    rw [h5]
    rcases he with rfl | rfl <;> cases hn <;> grind

/-- **C77** If the owner also waits before it destroys the object, then no thread is in `run`, or about to call it, once the destruction of the
object has begun. Missing: the case that it does not, see `C77_destroy_violation`. -/
theorem C77_destroy_partial {s h} (hr : Reach s h) (hp : OneAtATime h) (hw : WaitsFirst h) (hd : s.alive = false) (k : Nat) :
    s.run k ≠ .created ∧ s.run k ≠ .running := by
  have hx : s.alive = false → s.m_extant = false := by
    clear hd
    induction hr with
    | init => simp [init]
    | @step s h e s' hr hn ih =>
      have hi := inv_reach hr
      have ih := ih (one_cons hp) (first_cons hw)
      obtain ⟨-, -, -, -, -, -, -, -, -, -, h11, h12⟩ := hi
      cases hn <;> simp only [WaitsFirst] at hw <;> grind
  have ho := one_reach hr hp k
  rw [hx hd] at ho
  grind

/-- Two starts, then `wait`: the second thread has ended, the first one has not begun. -/
theorem restart_reach : ∃ s, Reach s [.waited, .callWait, .ends 1, .begins 1, .started 1, .started 0] ∧ s.run 0 = .created ∧ s.pc = .idle :=
  ⟨_, .step (.step (.step (.step (.step (.step .init (.start rfl)) (.start rfl)) (.begin 1 rfl)) (.end 1 rfl)) (.callWait rfl rfl)) (.waited rfl rfl), rfl, rfl⟩

/-- **C77** If the object is started twice, `wait` and the destructor return while the first thread still runs: `start` forgets the thread that it
had started before, which is never waited for. -/
theorem C77_restart_violation : (∃ s h, Reach s (.waited :: h) ∧ .started 0 ∈ h ∧ .ends 0 ∉ h) ∧
    ∃ s h, Reach s (.begins 0 :: .destroyed :: h) ∧ WaitsFirst h := by
  obtain ⟨s, h1, h2, h3⟩ := restart_reach
  refine ⟨⟨s, _, h1, by simp, by simp⟩, ?_⟩
  exact ⟨_, _, .step (.step (.step (.step (.step (.step (.step (.step (.step .init (.start rfl)) (.start rfl)) (.begin 1 rfl)) (.end 1 rfl))
    (.callWait rfl rfl)) (.waited rfl rfl)) (.destroy rfl)) (.destroyNone rfl rfl)) (.begin 0 rfl), by simp [WaitsFirst, open_]⟩

/-- **C77** The destructor of `Thread` waits for the thread too late: a thread that was started can call `run` after the destruction of the derived
class has begun. -/
theorem C77_destroy_violation : ∃ s h, Reach s (.begins 0 :: .callDestroy :: h) ∧ OneAtATime h ∧ s.alive = false ∧ s.run 0 = .running := by
  exact ⟨_, _, .step (.step (.step .init (.start rfl)) (.destroy rfl)) (.begin 0 rfl), by simp [OneAtATime, open_], rfl, rfl⟩

/-- Two rounds of `start` and `wait`, an additional `wait`, and the end. -/
example : ∃ s h, Reach s (.destroyed :: h) ∧ OneAtATime h ∧ WaitsFirst h ∧ .started 1 ∈ h ∧ s.ub = false := by
  refine ⟨_, _, .step (.step (.step (.step (.step (.step (.step (.step (.step (.step (.step (.step (.step .init (.start rfl)) (.begin 0 rfl)) (.callWait rfl rfl))
    (.end 0 rfl)) (.waited rfl rfl)) (.waitNone rfl rfl)) (.start rfl)) (.begin 1 rfl)) (.end 1 rfl)) (.callWait rfl rfl)) (.waited rfl rfl)) (.destroy rfl))
    (.destroyNone rfl rfl), by simp [OneAtATime, open_], by simp [WaitsFirst, open_], by simp [init], rfl⟩

end QM.Thread
