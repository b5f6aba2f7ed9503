import Verif.Heap.ObjectsLemmas
import Verif.Heap.Classes

/-!
# The analysis objects follow the specifications of what they lose
-/

namespace QM.Heap

variable (so : Sizes)

theorem keep_ok {O : Type} {f : O → M Unit} {own : O → Blocks} {good : O → Prop} {L : Multiset Nat} {o : O} (g : good o) (h : Tri [own o] (f o) (fun _ => True) (fun _ => own o) L) :
    Tri [own o] (keep f o) good own L :=
  Tri.sizes (by simp) (Tri.call (L' := 0) .zero h fun _ _ => Tri.ret g (by simp))

theorem some_ok {O : Type} {f : M O} {good : O → Prop} {own : O → Blocks} {b : Bool} (hb : b = false) (h : Tri [] f good own 0) :
    Tri [] (do let x ← f; pure (some x)) (fun o => match o with | none => b = true | some o => b = false ∧ good o) (fun o => o.elim 0 own) 0 :=
  Tri.call0P h fun _ g => Tri.ret ⟨hb, g⟩ (by simp)

theorem odd_eq (n : Nat) : odd n = true ↔ n % 2 = 1 := by simp [odd]
theorem odd_false (n : Nat) : odd n = false ↔ n % 2 = 0 := by simp [odd]

theorem Tri.noSizes {α : Type} {Γ : List Blocks} {f : M α} {G : α → Prop} {Q : α → Blocks} {b : Bool} (t : Tri Γ f G Q 0) : Tri Γ f G Q (if b then 0 else 0) := Tri.sizes (by simp) t

theorem fft_obeys : (fftClass so).Obeys (fun _ => True) noLosses :=
  obeys_of (Fft.own so) (fun _ => True) _ _ (fun n _ => (some_ok rfl (Fft.new_ok so n)).noSizes) (fun p x g => keep_ok (f := fun x : Fft => x.process p.1 p.2) g (x.process_ok so p.1 p.2)) (fun x _ => x.del_ok so)

theorem fftReal_obeys : (fftRealClass so).Obeys (fun _ => True) (oddThrows id) := by
  refine obeys_of (FftReal.own so) (fun _ => True) _ _ (fun n _ => ((FftReal.new_ok so n).post fun o g => ⟨?_, rfl⟩).noSizes)
      (fun p x _ => (FftReal.step_ok so p x).post fun _ _ => ⟨trivial, rfl⟩) (fun x _ => x.del_ok so)
  cases o with
  | none => exact (odd_eq n).2 g
  | some x => exact ⟨(odd_false n).2 g.1, trivial⟩

theorem decimator_obeys : (decimatorClass so).Obeys (fun _ => True) noLosses :=
  obeys_of (Dec.own so) (fun _ => True) _ _ (fun n _ => (some_ok rfl ((Dec.new_ok so n).post fun _ _ => ⟨trivial, rfl⟩)).noSizes) (fun _ x g => keep_ok g (x.process_ok so)) (fun x _ => x.del_ok so)

theorem decimatorB_obeys : (decimatorBClass so).Obeys (fun _ => True) noLosses :=
  obeys_of (DecB.own so) (fun _ => True) _ _ (fun a _ => (some_ok rfl (DecB.new_ok so a.1 a.2)).noSizes) (fun _ x g => keep_ok g (x.process_ok so)) (fun x _ => x.del_ok so)

theorem phaseVocoder_obeys : (phaseVocoderClass so).Obeys (fun _ => True) (oddThrows id) := by
  refine obeys_of (Pv.own so) (fun _ => True) _ _ (fun n _ => ((Pv.new_ok so n).post fun o g => ⟨?_, rfl⟩).noSizes) (fun t x g => keep_ok (f := fun x : Pv => x.process t) g (x.process_ok so t))
    (fun x _ => x.del_ok so)
  cases o with
  | none => exact (odd_eq n).2 g
  | some x => exact ⟨(odd_false n).2 g, trivial⟩

theorem detectionFunction_obeys : (detectionFunctionClass so).Obeys (fun _ => True) detectionFunctionLosses := by
  refine obeys_of (Df.own so) (fun _ => True) _ _ (fun n _ => ((Df.new_ok so n).sizes (by simp [odd])).post fun o g => ⟨?_, rfl⟩)
    (fun t x g => keep_ok (f := fun x : Df => x.process t) g (x.process_ok so t)) (fun x _ => x.del_ok so)
  cases o with
  | none => exact (odd_eq n).2 g
  | some x => exact ⟨(odd_false n).2 g, trivial⟩

theorem dfProcess_obeys : (dfProcessClass so).Obeys (fun _ => True) noLosses :=
  obeys_of (Dfp.own so) (fun _ => True) _ _ (fun a _ => (some_ok rfl (Dfp.new_ok so a.n a.ord a.pre a.post)).noSizes) (fun _ x g => keep_ok g (x.process_ok so)) (fun x _ => x.del_ok so)

theorem peakPicking_obeys : (peakPickingClass so).Obeys (fun _ => True) noLosses :=
  obeys_of (Pp.own so) (fun _ => True) _ _ (fun a _ => (some_ok rfl (Pp.new_ok so a.n a.ord a.pre a.post)).noSizes) (fun l x g => keep_ok (f := fun x : Pp => x.process l) g (x.process_ok so l))
    (fun x _ => x.del_ok so)

theorem framer_obeys : framerClass.Obeys (fun _ => True) noLosses :=
  obeys_of Fr.own (fun _ => True) _ _ (fun _ _ => (Tri.ret ⟨rfl, trivial⟩ (by simp [Fr.own, Fr.parts, Fr.new, ob])).noSizes) (fun a x _ => (x.configure_ok a.1 a.2).post fun _ _ => ⟨trivial, rfl⟩)
    (fun x _ => x.del_ok)

theorem mfcc_obeys : (mfccClass so).Obeys (fun _ => True) (oddThrows MfccArgs.n) := by
  refine obeys_of (Mfcc.own so) Mfcc.Good _ _ (fun a _ => ((Mfcc.new_ok so a.n a.nceps a.filters a.c0).post fun o g => ⟨?_, rfl⟩).noSizes)
    (fun t x g => keep_ok (f := fun x : Mfcc => x.process t) g (x.process_ok so g t)) (fun x g => x.del_ok so g)
  cases o with
  | none => exact (odd_eq a.n).2 g
  | some x => exact ⟨(odd_false a.n).2 g.1, g.2.1⟩

theorem downBeat_obeys : (downBeatClass so).Obeys (fun a => 0 < a.factor ∧ a.size % 2 = 0) noLosses := by
  refine obeys_of (Db.own so) Db.Good _ _ (fun a v => ((Db.new_ok so a.factor a.incr a.size v.1 v.2).post fun o g => ⟨?_, rfl⟩).noSizes) (fun op x g => x.step_ok so op g) (fun x _ => x.del_ok so)
  cases o with
  | none => exact absurd g id
  | some x => exact ⟨rfl, g⟩

theorem chromagram_obeys : (chromagramClass so).Obeys (fun _ => True) (chromagramLosses so) := by
  refine obeys_of (Chroma.own so) Chroma.Good _ _ (fun a _ => ((Chroma.new_ok so a.1 a.2.1 a.2.2).sizes (by simp [odd])).post fun o g => ⟨?_, rfl⟩) (fun op x g => ?_) (fun x _ => x.del_ok so)
  · cases o with
    | none => exact (odd_eq a.2.2).2 g
    | some x => exact ⟨(odd_false a.2.2).2 g.1, g.2.1⟩
  · cases op with
    | time w tmps => exact x.processTime_ok so g w tmps
    | freq w tmps => exact x.processFreq_ok so g w tmps

theorem key_obeys : (keyClass so).Obeys (fun _ => True) (keyLosses so) := by
  refine obeys_of (Key.own so) (fun x => x.chroma.Good) _ _ (fun a _ => ((Key.new_ok so a.K a.N a.dec a.cbs a.mws).sizes (by simp [odd])).post fun o g => ⟨?_, rfl⟩)
    (fun p x g => x.process_ok so g p.1 p.2) (fun x _ => x.del_ok so)
  cases o with
  | none => exact (odd_eq a.N).2 g
  | some x => exact ⟨(odd_false a.N).2 g.1, g.2⟩

theorem window_obeys : (windowClass so).Obeys (fun _ => True) windowLosses := by
  refine ⟨Win.own so, fun n x => x.n = n, fun n _ => ?_, fun op n x e => ?_, fun _ x _ => x.del_ok so⟩
  · refine (Tri.call0P (Win.new_ok so n) fun x g => Tri.ret (G := fun o => match o with | none => False | some x => x.n = n) (Q := fun o => o.elim 0 (Win.own so)) (a := some x) g (by simp)).post ?_
    intro o g
    cases o with
    | none => exact absurd g id
    | some x => exact ⟨g, rfl⟩
  · subst e
    cases op with
    | cut => exact keep_ok (own := Win.own so) (good := fun y => y.n = x.n) rfl (x.cut_ok so)
    | assign m => exact x.assign_ok so m

theorem constantQ_obeys : (constantQClass so).Obeys (fun _ => True) (constantQLosses (so.obj .sparseKernel)) := by
  refine ⟨Cq.own so, fun b x => x.sk.isSome = b, fun a _ => ?_, fun op b x e => ?_, fun _ x _ => x.del_ok so⟩
  · refine (Tri.call0P (Cq.new_ok so a.1 a.2) fun x g => Tri.ret (G := fun o => match o with | none => False | some x => x.sk.isSome = false) (Q := fun o => o.elim 0 (Cq.own so)) (a := some x)
      (by simp [g.2.2]) (by simp)).post ?_
    intro o g
    cases o with
    | none => exact absurd g id
    | some x => exact ⟨g, rfl⟩
  · subst e
    cases op with
    | process => exact keep_ok (own := Cq.own so) (good := fun y => y.sk.isSome = x.sk.isSome) rfl (x.process_ok so)
    | sparsekernel w tmps =>
      refine Tri.sizes ?_ ((x.sparsekernel_ok so w tmps).post fun y g => ⟨g.2.2, rfl⟩)
      cases x.sk <;> rfl

theorem lostFrames_eq (win : Nat) (fs : List TtFrame) : lostFrames win fs = Multiset.replicate (fs.filter (·.constant)).length (8 * win) := by
  induction fs with
  | nil => rfl
  | cons f fs ih =>
    rw [lostFrames, List.map_cons, List.sum_cons]
    change _ + lostFrames win fs = _
    rw [ih, TtFrame.lost, List.filter_cons]
    cases f.constant <;> simp [Multiset.replicate_succ, Multiset.singleton_add]

theorem tempoTrack_obeys : (tempoTrackClass so).Obeys (fun _ => True) tempoLosses := by
  refine ⟨Tt.own so, fun win x => x.win = win, fun a _ => ?_, fun fs win x e => ?_, fun _ x _ => x.del_ok so⟩
  · refine (Tri.call0P (Tt.new_ok so a.1 a.2.n a.2.ord a.2.pre a.2.post) fun x g => Tri.ret (G := fun o => match o with | none => False | some x => x.win = a.1)
      (Q := fun o => o.elim 0 (Tt.own so)) (a := some x) g (by simp)).post ?_
    intro o g
    cases o with
    | none => exact absurd g id
    | some x => exact ⟨g, rfl⟩
  · subst e
    exact keep_ok (f := fun x : Tt => x.process fs) (own := Tt.own so) (good := fun y => y.win = x.win) rfl (Tri.sizes (lostFrames_eq x.win fs).symm (x.process_ok so fs))

end QM.Heap
