import Mathlib.Tactic.FinCases
import Verif.Heap.PoolLemmas

/-!
# C113: any number of objects at a time
-/

namespace QM.Heap

variable (so : Sizes) (nb : Nat)

theorem program_of_obeys {A O Op S : Type} {c : Class A O Op} {valid : A → Prop} {l : Losses A S Op} (ob : c.Obeys valid l) (xs : List (PoolOp A Op)) (v : ∀ x ∈ xs, x.Valid valid) (h : Heap)
    (w : h.WF) : ∃ (objs : List (Option O)) (h' : Heap), c.program xs [] h = some (objs, h') ∧ h'.WF ∧ objs.map Option.isSome = (l.program xs []).1.map Option.isSome ∧
      ((∀ o ∈ objs, o = none) → ∃ lost : Blocks, h'.live = lost + h.live ∧ lost.map Prod.snd = (l.program xs []).2) := by
  obtain ⟨own, rel, hn, hs, hd⟩ := ob
  obtain ⟨objs, h', lost, e, w', g, i, z⟩ := program_ok hn hs hd xs v [] [] .nil h h.live w (by simp [ownAll])
  refine ⟨objs, h', e, w', ?_, fun none => ⟨lost, ?_, z⟩⟩
  · generalize (l.program xs []).1 = ss at g
    clear i e
    induction g with
    | nil => rfl
    | cons r _ ih =>
      rw [List.map_cons, List.map_cons, ih]
      cases r <;> rfl
  · have : ownAll own objs = 0 := by
      unfold ownAll
      clear i e g
      induction objs with
      | nil => rfl
      | cons o os ih =>
        rw [List.map_cons, List.sum_cons, ih fun o ho => none o (by simp [ho]), none o (by simp)]
        rfl
    rw [i, this, zero_add]

/-- **C113** A program may create any number of objects of all classes, call their methods in any order and destroy them when it likes: no block is released twice or used after its release, and blocks
of others are left alone. Once all objects are destroyed, exactly the blocks of the specification are lost. The full claim would be that none is lost; it fails, see `C113_violation`. -/
theorem C113_programs_partial (xs : List (PoolOp (Σ i : Kind, i.Args) (Σ i : Kind, i.Call))) (v : ∀ x ∈ xs, x.Valid libraryValid) (h : Heap) (w : h.WF) :
    ∃ (objs : List (Option (Σ i : Kind, i.Obj))) (h' : Heap), (library so nb).program xs [] h = some (objs, h') ∧ h'.WF ∧
      objs.map Option.isSome = ((libraryLosses so).program xs []).1.map Option.isSome ∧
      ((∀ o ∈ objs, o = none) → ∃ lost : Blocks, h'.live = lost + h.live ∧ lost.map Prod.snd = ((libraryLosses so).program xs []).2) :=
  program_of_obeys (library_obeys so nb) xs v h w

/-- A transform and a decimator used in turn; the transform is destroyed first. -/
example (h : Heap) (w : h.WF) : ∃ objs h', (library so nb).program [.create ⟨.fftReal, (8 : Nat)⟩, .create ⟨.decimator, (64 : Nat)⟩, .call 0 ⟨.fftReal, FftOp.forward []⟩,
    .destroy 0, .call 1 ⟨.decimator, ()⟩, .destroy 1] [] h = some (objs, h') ∧ objs.map Option.isSome = [false, false] ∧ h'.live = h.live := by
  obtain ⟨objs, h', e, -, m, l⟩ := C113_programs_partial so nb [.create ⟨.fftReal, (8 : Nat)⟩, .create ⟨.decimator, (64 : Nat)⟩, .call 0 ⟨.fftReal, FftOp.forward []⟩,
    .destroy 0, .call 1 ⟨.decimator, ()⟩, .destroy 1]
    (by repeat' first | exact List.forall_mem_nil _ | refine List.forall_mem_cons.2 ⟨trivial, ?_⟩) h w
  have m2 : objs.map Option.isSome = [false, false] := m
  obtain ⟨lost, i, z⟩ := l fun o ho => by
    have : o.isSome ∈ objs.map Option.isSome := List.mem_map_of_mem ho
    rw [m2] at this
    simpa using this
  have z' : lost.map Prod.snd = 0 := z.trans (show (0 : Multiset Nat) + (0 + (0 + (0 + (0 + (0 + 0))))) = 0 by simp)
  rw [Multiset.map_eq_zero] at z'
  exact ⟨objs, h', e, m2, by rw [i, z', zero_add]⟩

/-- Operations that lose nothing: objects of the classes that lose memory are not created, nor others for which the constructor throws and loses memory. -/
def Careful : PoolOp (Σ i : Kind, i.Args) (Σ i : Kind, i.Call) → Prop
  | .create ⟨.window, _⟩ => False
  | .create ⟨.constantQ, _⟩ => False
  | .create ⟨.tempoTrack, _⟩ => False
  | .create ⟨.segmenter, _⟩ => False
  | .create ⟨.chromagram, a⟩ => odd (Prod.snd (Prod.snd (α := Nat) (β := Nat × Nat) a)) = false
  | .create ⟨.key, a⟩ => odd (KeyArgs.N a) = false
  | .create ⟨.detectionFunction, n⟩ => odd n = false
  | .create ⟨.downBeat, a⟩ => 0 < DbArgs.factor a ∧ DbArgs.size a % 2 = 0
  | _ => True

/-- Kinds of objects that lose nothing once they exist. -/
def Kind.tidy : Kind → Bool
  | .window => false | .constantQ => false | .tempoTrack => false | .segmenter => false | _ => true

theorem init_tidy (a : Σ i : Kind, i.Args) (c : Careful (.create a)) : ((libraryLosses so).init a).2 = 0 ∧ ∀ s ∈ ((libraryLosses so).init a).1, s.1.tidy = true := by
  obtain ⟨i, a⟩ := a
  have key : i.tidy = true → ((lossesOf so i).init a).2 = 0 → ((libraryLosses so).init ⟨i, a⟩).2 = 0 ∧ ∀ s ∈ ((libraryLosses so).init ⟨i, a⟩).1, s.1.tidy = true := by
    refine fun ti h => ⟨h, fun s hs => ?_⟩
    obtain ⟨x, -, rfl⟩ := Option.map_eq_some_iff.1 hs
    exact ti
  have thr : ∀ (b : Bool) (lost : Multiset Nat), (b = true → lost = 0) → (if b then (none, lost) else (some (), 0) : Option Unit × Multiset Nat).2 = 0 := by
    intro b lost h
    cases b with
    | true => exact h rfl
    | false => rfl
  cases i with
  | window | constantQ | tempoTrack | segmenter => exact absurd c id
  | fft | decimator | decimatorB | dfProcess | peakPicking | framer | downBeat => exact key rfl rfl
  | fftReal | phaseVocoder | mfcc => exact key rfl (thr _ _ fun _ => rfl)
  | detectionFunction => exact key rfl (thr _ _ fun h => absurd (h.symm.trans c) (by simp))
  | chromagram => exact key rfl (thr _ _ fun h => absurd (h.symm.trans c) (by simp))
  | key => exact key rfl (thr _ _ fun h => absurd (h.symm.trans c) (by simp))

theorem next_tidy (x : Σ i : Kind, i.Call) (s : Σ i : Kind, i.State) (t : s.1.tidy = true) : ((libraryLosses so).next x s).2 = 0 ∧ ((libraryLosses so).next x s).1.1.tidy = true := by
  obtain ⟨j, x⟩ := x
  obtain ⟨i, s⟩ := s
  by_cases h : j = i
  · subst h
    have e : (libraryLosses so).next ⟨j, x⟩ ⟨j, s⟩ = (⟨j, ((lossesOf so j).next x s).1⟩, ((lossesOf so j).next x s).2) := dif_pos rfl
    rw [e]
    cases j with
    | window | constantQ | tempoTrack | segmenter => cases t
    | _ => exact ⟨rfl, rfl⟩
  · have e : (libraryLosses so).next ⟨j, x⟩ ⟨i, s⟩ = (⟨i, s⟩, 0) := dif_neg h
    rw [e]
    exact ⟨rfl, t⟩

theorem fin_tidy (s : Σ i : Kind, i.State) (t : s.1.tidy = true) : (libraryLosses so).fin s = 0 := by
  obtain ⟨i, s⟩ := s
  cases i with
  | window | constantQ | tempoTrack | segmenter => cases t
  | _ => rfl

theorem mem_of_join {S : Type} {ss : List (Option S)} {k : Nat} {s : S} (h : ss[k]?.join = some s) : some s ∈ ss := by
  rcases e : ss[k]? with _ | o
  · rw [e] at h; cases h
  · rw [e] at h
    replace h : o = some s := h
    subst h
    exact List.mem_of_getElem? e

theorem program_tidy (xs : List (PoolOp (Σ i : Kind, i.Args) (Σ i : Kind, i.Call))) (c : ∀ x ∈ xs, Careful x) (ss : List (Option (Σ i : Kind, i.State)))
    (t : ∀ o ∈ ss, ∀ s ∈ o, s.1.tidy = true) : ((libraryLosses so).program xs ss).2 = 0 := by
  induction xs generalizing ss with
  | nil => rfl
  | cons x xs ih =>
    have key : ((libraryLosses so).one x ss).2 = 0 ∧ ∀ o ∈ ((libraryLosses so).one x ss).1, ∀ s ∈ o, s.1.tidy = true := by
      cases x with
      | create a =>
        obtain ⟨i1, i2⟩ := init_tidy so a (c _ (by simp))
        refine ⟨i1, fun o ho s hs => ?_⟩
        rcases List.mem_append.1 ho with ho | ho
        · exact t o ho s hs
        · rw [List.mem_singleton] at ho
          subst ho
          exact i2 s hs
      | call k y =>
        rcases e : ss[k]?.join with _ | s
        · rw [Losses.call_none _ y e]
          exact ⟨rfl, t⟩
        · rw [Losses.call_some _ y e]
          obtain ⟨n1, n2⟩ := next_tidy so y s (t _ (mem_of_join e) s rfl)
          refine ⟨n1, fun o ho s' hs' => ?_⟩
          rcases List.mem_or_eq_of_mem_set ho with ho | rfl
          · exact t o ho s' hs'
          · obtain rfl := Option.some.inj hs'
            exact n2
      | destroy k =>
        rcases e : ss[k]?.join with _ | s
        · rw [Losses.destroy_none _ e]
          exact ⟨rfl, t⟩
        · rw [Losses.destroy_some _ e]
          refine ⟨fin_tidy so s (t _ (mem_of_join e) s rfl), fun o ho s' hs' => ?_⟩
          rcases List.mem_or_eq_of_mem_set ho with ho | rfl
          · exact t o ho s' hs'
          · cases hs'
    show ((libraryLosses so).one x ss).2 + ((libraryLosses so).program xs ((libraryLosses so).one x ss).1).2 = 0
    rw [key.1, ih (fun y hy => c y (by simp [hy])) _ key.2, add_zero]

theorem careful_valid (x : PoolOp (Σ i : Kind, i.Args) (Σ i : Kind, i.Call)) (c : Careful x) : x.Valid libraryValid := by
  cases x with
  | create a =>
    obtain ⟨i, a⟩ := a
    cases i with
    | downBeat => exact c
    | segmenter => exact absurd c id
    | _ => trivial
  | _ => trivial

/-- **C113** Programs that use no windows, constant-Q objects, tempo trackers and segmenters of their own, and no odd frame lengths where these lose memory, give back all memory, whatever objects
they use at a time and in which order. -/
theorem C113_careful (xs : List (PoolOp (Σ i : Kind, i.Args) (Σ i : Kind, i.Call))) (c : ∀ x ∈ xs, Careful x) (h : Heap) (w : h.WF) :
    ∃ (objs : List (Option (Σ i : Kind, i.Obj))) (h' : Heap), (library so nb).program xs [] h = some (objs, h') ∧ h'.WF ∧ ((∀ o ∈ objs, o = none) → h'.live = h.live) := by
  obtain ⟨objs, h', e, w', -, l⟩ := C113_programs_partial so nb xs (fun x hx => careful_valid x (c x hx)) h w
  refine ⟨objs, h', e, w', fun n => ?_⟩
  obtain ⟨lost, i, z⟩ := l n
  rw [program_tidy so xs c [] (by simp), Multiset.map_eq_zero] at z
  rw [i, z, zero_add]

/-- A chromagram and a key detector. -/
example (x : PoolOp (Σ i : Kind, i.Args) (Σ i : Kind, i.Call)) (hx : x ∈ [PoolOp.create ⟨.chromagram, ((12, 36, 4096) : Nat × Nat × Nat)⟩, .create ⟨.key, (⟨180, 16384, 8, 10, 10⟩ : KeyArgs)⟩,
    .call 1 ⟨.key, ((fun _ => 7, []) : (Nat → Nat) × List Nat)⟩, .call 0 ⟨.chromagram, ChromaOp.freq (fun _ => 7) []⟩, .destroy 0, .destroy 1]) : Careful x := by
  fin_cases hx <;> first | trivial | rfl

/-- **C113** Two windows, of which one is assigned to the other while a decimator works: the old table is lost for good. -/
theorem C113_violation (n m : Nat) (h : Heap) (w : h.WF) : ∃ (objs : List (Option (Σ i : Kind, i.Obj))) (h' : Heap) (lost : Blocks),
    (library so nb).program [.create ⟨.window, n⟩, .create ⟨.decimator, m⟩, .call 0 ⟨.window, WinOp.assign m⟩, .call 1 ⟨.decimator, ()⟩, .destroy 0, .destroy 1] [] h = some (objs, h') ∧
    objs.map Option.isSome = [false, false] ∧ h'.live = lost + h.live ∧ lost.map Prod.snd = {8 * n} := by
  obtain ⟨objs, h', e, -, m', l⟩ := C113_programs_partial so nb [.create ⟨.window, n⟩, .create ⟨.decimator, m⟩, .call 0 ⟨.window, WinOp.assign m⟩, .call 1 ⟨.decimator, ()⟩, .destroy 0, .destroy 1]
    (by repeat' first | exact List.forall_mem_nil _ | refine List.forall_mem_cons.2 ⟨trivial, ?_⟩) h w
  have m2 : objs.map Option.isSome = [false, false] := m'
  obtain ⟨lost, i, z⟩ := l fun o ho => by
    have : o.isSome ∈ objs.map Option.isSome := List.mem_map_of_mem ho
    rw [m2] at this
    simpa using this
  refine ⟨objs, h', lost, e, m2, i, z.trans ?_⟩
  show (0 : Multiset Nat) + (0 + ({8 * n} + (0 + (0 + (0 + 0))))) = _
  simp

end QM.Heap
