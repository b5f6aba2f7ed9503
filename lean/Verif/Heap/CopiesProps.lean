import Verif.Heap.CopiesLemmas

/-!
# C114: copies of objects
-/

namespace QM.Heap

variable (so : Sizes) (nb : Nat)

/-- A block that is released. -/
macro "kill" : tactic => `(tactic| repeat' first
  | exact kills_free | (refine Kills.first kills_free (fun _ => ?_) <;> shr; done) | refine Kills.later (fun _ => ?_))
/-- A block that must be live. -/
macro "need" : tactic => `(tactic| repeat' first
  | exact needs_use | exact needs_free | exact Needs.first needs_use | exact Needs.first needs_free | refine Needs.later (by shr) (fun _ => ?_))

/-- Classes whose objects always have memory of their own and which have no copy constructor for it. -/
def Kind.shallow : Kind → Bool
  | .window => false | .framer => false | .decimatorB => false | .segmenter => false | _ => true

/-- **C114** The full claim would be that a copy of an object can be destroyed like any other object. It fails for all these classes, for every object in every state: if an object and a copy of it are
destroyed, memory is released twice, or used after its release. -/
theorem C114_shallow_violation (i : Kind) (hi : i.shallow = true) (o : i.Obj) (h : Heap) : copyLife so nb i o h = none := by
  cases i with
  | window | framer | decimatorB | segmenter => cases hi
  | fft =>
    refine bind_none fun p h1 e => ?_
    cases e
    exact double (p := Fft.d o) (by show Kills _ (Fft.del o); unfold Fft.del; kill) (by show Needs _ (Fft.del o); unfold Fft.del; need) _
  | fftReal =>
    refine twice_malloc (p := FftReal.d o) (k := fun p => { (o : FftReal) with self := p }) ?_ (fun q => ?_) h
    · show Kills _ (FftReal.del o); unfold FftReal.del; kill
    · show Needs _ (FftReal.del { (o : FftReal) with self := q }); unfold FftReal.del; need
  | constantQ =>
    refine twice_malloc (p := Cq.data o) (k := fun p => { (o : Cq) with self := p }) ?_ (fun q => ?_) h
    · show Kills _ (Cq.del o); unfold Cq.del; kill
    · show Needs _ (Cq.del { (o : Cq) with self := q }); unfold Cq.del; need
  | chromagram =>
    have s1 := shrinks_delWin (Chroma.window o)
    have s2 := (Chroma.fft o).shrinks
    have s3 := (Chroma.cq o).shrinks
    refine twice_malloc (p := Chroma.chroma o) (k := fun p => { (o : Chroma) with self := p }) ?_ (fun q => ?_) h
    · show Kills _ (Chroma.del o); unfold Chroma.del; kill
    · show Needs _ (Chroma.del { (o : Chroma) with self := q }); unfold Chroma.del; need
  | decimator =>
    refine twice_malloc (p := Dec.buf o) (k := fun p => { (o : Dec) with self := p }) ?_ (fun q => ?_) h
    · show Kills _ (Dec.del o); unfold Dec.del; kill
    · show Needs _ (Dec.del { (o : Dec) with self := q }); unfold Dec.del; need
  | phaseVocoder =>
    have s1 := (Pv.fft o).shrinks
    refine twice_malloc (p := Pv.unwrapped o) (k := fun p => { (o : Pv) with self := p }) ?_ (fun q => ?_) h
    · show Kills _ (Pv.del o); unfold Pv.del; kill
    · show Needs _ (Pv.del { (o : Pv) with self := q }); unfold Pv.del; need
  | detectionFunction =>
    have s1 := (Df.pv o).shrinks
    have s2 := (Df.window o).shrinks
    refine twice_malloc (p := Df.magHistory o) (k := fun p => { (o : Df) with self := p }) ?_ (fun q => ?_) h
    · show Kills _ (Df.del o); unfold Df.del; kill
    · show Needs _ (Df.del { (o : Df) with self := q }); unfold Df.del; need
  | dfProcess =>
    refine twice_malloc (p := Dfp.src o) (k := fun p => { (o : Dfp) with self := p }) ?_ (fun q => ?_) h
    · show Kills _ (Dfp.del o); unfold Dfp.del; kill
    · show Needs _ (Dfp.del { (o : Dfp) with self := q }); unfold Dfp.del; need
  | peakPicking =>
    have s1 := (Pp.smoothing o).shrinks
    refine twice_malloc (p := Pp.work o) (k := fun p => { (o : Pp) with self := p }) ?_ (fun q => ?_) h
    · show Kills _ (Pp.del o); unfold Pp.del; kill
    · show Needs _ (Pp.del { (o : Pp) with self := q }); unfold Pp.del; need
  | tempoTrack =>
    have s1 := (Tt.df o).shrinks
    have s2 := (Tt.rc o).shrinks
    have s3 := (Tt.framer o).shrinks
    refine twice_malloc (p := Tt.raw o) (k := fun p => { (o : Tt) with self := p }) ?_ (fun q => ?_) h
    · show Kills _ (Tt.del o); unfold Tt.del; kill
    · show Needs _ (Tt.del { (o : Tt) with self := q }); unfold Tt.del; need
  | mfcc =>
    have s1 := shrinks_freeRows (Mfcc.nceps o + 1) (Mfcc.dct o)
    have s2 := shrinks_freeRows (Mfcc.filters o) (Mfcc.weights o)
    have s3 := (Mfcc.window o).shrinks
    have s4 := (Mfcc.fft o).shrinks
    refine twice_malloc (p := Mfcc.ceps o) (k := fun p => { (o : Mfcc) with self := p }) ?_ (fun q => ?_) h
    · show Kills _ (Mfcc.del o); unfold Mfcc.del; kill
    · show Needs _ (Mfcc.del { (o : Mfcc) with self := q }); unfold Mfcc.del; need
  | downBeat =>
    have s1 := shrinks_delDec (Db.dec1 o)
    have s2 := shrinks_delDec (Db.dec2 o)
    have s3 := (Db.fft o).shrinks
    refine twice_malloc (p := Db.beatframe o) (k := fun p => { (o : Db) with self := p }) ?_ (fun q => ?_) h
    · show Kills _ (Db.del o); unfold Db.del; kill
    · show Needs _ (Db.del { (o : Db) with self := q }); unfold Db.del; need
  | key =>
    have s1 := (Key.chroma o).shrinks
    have s2 := (Key.decimator o).shrinks
    refine twice_malloc (p := Key.decimated o) (k := fun p => { (o : Key) with self := p }) ?_ (fun q => ?_) h
    · show Kills _ (Key.del o); unfold Key.del; kill
    · show Needs _ (Key.del { (o : Key) with self := q }); unfold Key.del; need

/-- A decimator that has just been created: alone it can be destroyed, and it is gone then (C111), with a copy it cannot. -/
example (h : Heap) (w : h.WF) : (∃ h', (do let o ← Dec.new so 64; o.del) h = some ((), h') ∧ h'.live = h.live) ∧ (do let o ← Dec.new so 64; copyLife so nb .decimator o) h = none := by
  constructor
  · obtain ⟨_, h', l, e, -, -, i, z⟩ := Tri.call0P (Dec.new_ok so 64) (fun o _ => o.del_ok so) h h.live w (by simp)
    rw [Multiset.map_eq_zero] at z
    exact ⟨h', e, by rw [i, z]; simp⟩
  · exact bind_none fun o h1 _ => C114_shallow_violation so nb .decimator rfl o h1

/-- **C114** A decimator of the second kind whose factor has been refused has no memory but that of the object, and copies of it do no harm; otherwise they do. -/
theorem C114_decimatorB_partial (n : Nat) (ok : Bool) (h : Heap) (w : h.WF) :
    (ok = false → ∃ h', (do let o ← DecB.new so n ok; copyLife so nb .decimatorB o) h = some ((), h') ∧ h'.live = h.live) ∧
    (ok = true → (do let o ← DecB.new so n ok; copyLife so nb .decimatorB o) h = none) := by
  refine ⟨?_, ?_⟩
  · rintro rfl
    have t : Tri [] (do let o ← DecB.new so n false; copyLife so nb .decimatorB o) (fun _ => True) (fun _ => 0) 0 := by
      refine Tri.assoc (Tri.alloc fun p => Tri.pureBind (Tri.assoc (Tri.alloc fun q => Tri.pureBind ?_)))
      show Tri _ (do DecB.del ⟨n, p, none, none⟩; DecB.del ⟨n, q, none, none⟩) _ _ _
      unfold DecB.del
      refine Tri.assoc (Tri.access (.succ .zero) (Tri.assoc (Tri.pureBind (Tri.assoc (Tri.pureBind (Tri.dealloc (.succ .zero) ?_))))))
      exact Tri.access .zero (Tri.pureBind (Tri.pureBind (Tri.bindPure (Tri.dealloc .zero (Tri.ret trivial rfl)))))
    obtain ⟨_, h', l, e, -, -, i, z⟩ := t h h.live w (by simp)
    rw [Multiset.map_eq_zero] at z
    exact ⟨h', e, by rw [i, z]; simp⟩
  · rintro rfl
    refine bind_none fun o h1 e => ?_
    obtain ⟨s, h2, -, e2⟩ := bind_eq e
    obtain ⟨aa, h3, -, e3⟩ := bind_eq e2
    obtain ⟨t, h4, -, e4⟩ := bind_eq e3
    cases e4
    refine twice_malloc (p := aa) (k := fun p => (⟨n, p, some aa, some t⟩ : DecB)) ?_ (fun q => ?_) _
    · show Kills _ (DecB.del ⟨n, s, some aa, some t⟩); unfold DecB.del; show Kills aa (do use s; free aa; del (some t); free s); kill
    · show Needs _ (DecB.del ⟨n, q, some aa, some t⟩); unfold DecB.del; show Needs aa (do use q; free aa; del (some t); free q); need

/-- **C114** A framer can be copied as long as it has not been configured. -/
theorem C114_framer_partial (h : Heap) : copyLife so nb .framer Fr.new h = some ((), h) ∧
    ∀ (x y : Fr) (n hop : Nat) (h1 : Heap), x.configure n hop h = some (y, h1) → copyLife so nb .framer y h1 = none := by
  refine ⟨rfl, fun x y n hop h1 e => ?_⟩
  obtain ⟨_, h2, -, e2⟩ := bind_eq e
  obtain ⟨f, h3, -, e3⟩ := bind_eq e2
  obtain ⟨_, h4, -, e4⟩ := bind_eq e3
  obtain ⟨s, h5, -, e5⟩ := bind_eq e4
  cases e5
  refine bind_none fun p h6 e => ?_
  cases e
  refine double (p := f) ?_ ?_ _
  · show Kills f (do free f; del (some s)); kill
  · show Needs f (do free f; del (some s)); need

/-- **C114** A segmenter cannot be copied while it has a window, a constant-Q object, a decimator or a transform. -/
theorem C114_segmenter_violation (x : Seg) (c : x.window.isSome ∨ x.constq.isSome ∨ x.decimator.isSome ∨ x.fft.isSome) (h : Heap) : copyLife so nb .segmenter x h = none := by
  have s1 : ∀ o, Shrinks (delCq o) := by
    intro o
    cases o with
    | none => exact Shrinks.ret _
    | some o => exact o.shrinks
  have s2 : ∀ o, Shrinks (delFft o) := by
    intro o
    cases o with
    | none => exact Shrinks.ret _
    | some o => exact o.shrinks
  have t1 := s1 x.constq
  have t2 := s2 x.fft
  have t3 := shrinks_delWin x.window
  have t4 := shrinks_delDec x.decimator
  rcases c with c | c | c | c <;> obtain ⟨y, hy⟩ := Option.isSome_iff_exists.1 c
  · refine twice_malloc (p := y.cache) (k := fun p => { x with self := p }) ?_ (fun q => ?_) h
    · show Kills _ x.del
      unfold Seg.del
      refine Kills.later fun _ => Kills.first ?_ fun _ => by shr
      rw [hy]; show Kills _ y.del; unfold Win.del; kill
    · show Needs _ (Seg.del { x with self := q })
      unfold Seg.del
      refine Needs.later (by shr) fun _ => Needs.first ?_
      dsimp only
      rw [hy]; show Needs _ y.del; unfold Win.del; need
  · refine twice_malloc (p := y.data) (k := fun p => { x with self := p }) ?_ (fun q => ?_) h
    · show Kills _ x.del
      unfold Seg.del
      refine Kills.later fun _ => Kills.later fun _ => Kills.first ?_ fun _ => by shr
      rw [hy]; show Kills _ y.del; unfold Cq.del; kill
    · show Needs _ (Seg.del { x with self := q })
      unfold Seg.del
      refine Needs.later (by shr) fun _ => Needs.later (by shr) fun _ => Needs.first ?_
      dsimp only
      rw [hy]; show Needs _ y.del; unfold Cq.del; need
  · refine twice_malloc (p := y.buf) (k := fun p => { x with self := p }) ?_ (fun q => ?_) h
    · show Kills _ x.del
      unfold Seg.del
      refine Kills.later fun _ => Kills.later fun _ => Kills.later fun _ => Kills.first ?_ fun _ => by shr
      rw [hy]; show Kills _ y.del; unfold Dec.del; kill
    · show Needs _ (Seg.del { x with self := q })
      unfold Seg.del
      refine Needs.later (by shr) fun _ => Needs.later (by shr) fun _ => Needs.later (by shr) fun _ => Needs.first ?_
      dsimp only
      rw [hy]; show Needs _ y.del; unfold Dec.del; need
  · refine twice_malloc (p := y.d) (k := fun p => { x with self := p }) ?_ (fun q => ?_) h
    · show Kills _ x.del
      unfold Seg.del
      refine Kills.later fun _ => Kills.later fun _ => Kills.later fun _ => Kills.later fun _ => Kills.first ?_ fun _ => by shr
      rw [hy]; show Kills _ y.del; unfold FftReal.del; kill
    · show Needs _ (Seg.del { x with self := q })
      unfold Seg.del
      refine Needs.later (by shr) fun _ => Needs.later (by shr) fun _ => Needs.later (by shr) fun _ => Needs.later (by shr) fun _ => Needs.first ?_
      dsimp only
      rw [hy]; show Needs _ y.del; unfold FftReal.del; need

example (f : FftReal) : (⟨⟨.constq, 5, 10, 12⟩, .constq, 36, [], 3, none, some f, none, none, none⟩ : Seg).fft.isSome := rfl

theorem steps_ok (ops : List WinOp) (x : Win) : Tri [x.own so] ((windowClass so).steps ops x) (fun y => y.n = sizeAfter x.n ops) (Win.own so) (windowLosses.rest ops x.n) := by
  induction ops generalizing x with
  | nil => exact Tri.ret rfl (by simp)
  | cons op ops ih =>
    cases op with
    | cut =>
      refine Tri.call .zero (keep_ok (f := Win.cut) (own := Win.own so) (good := fun y => y.n = x.n) rfl (x.cut_ok so)) fun y hy => ?_
      rw [show (windowLosses.next .cut x.n).1 = y.n from hy.symm]
      exact (ih y).post fun z hz => ⟨by rw [hz, hy]; rfl, rfl⟩
    | assign m =>
      refine Tri.call .zero (x.assign_ok so m) fun y hy => ?_
      rw [show (windowLosses.next (.assign m) x.n).1 = y.n from hy.symm]
      exact (ih y).post fun z hz => ⟨by rw [hz, hy]; rfl, rfl⟩

/-- **C114** Windows can be copied: original and copy can be used and destroyed independently, and nothing is lost except at assignments (C111). -/
theorem C114_window (n : Nat) (ops ops₁ ops₂ : List WinOp) (h : Heap) (w : h.WF) : ∃ (lost : Blocks) (h' : Heap), windowCopyLife so n ops ops₁ ops₂ h = some ((), h') ∧ h'.WF ∧
    h'.live = lost + h.live ∧ lost.map Prod.snd = windowLosses.rest ops n + windowLosses.rest ops₁ (sizeAfter n ops) + windowLosses.rest ops₂ (sizeAfter n ops) := by
  have hc : ∀ x : Win, Tri [x.own so] (copyOf so .window x) (fun y => Win.n y = x.n) (fun y => Win.own so y + x.own so) 0 := by
    intro x
    refine Tri.alloc fun p => Tri.alloc fun c => Tri.ret rfl ?_
    simp only [List.sum_cons, List.sum_nil, Win.own, Win.parts]
    abel
  have t : Tri [] (windowCopyLife so n ops ops₁ ops₂) (fun _ => True) (fun _ => 0)
      (windowLosses.rest ops n + (windowLosses.rest ops₁ (sizeAfter n ops) + windowLosses.rest ops₂ (sizeAfter n ops))) := by
    unfold windowCopyLife
    refine Tri.call0P (Win.new_ok so n) fun x hx => ?_
    subst hx
    refine Tri.call .zero (steps_ok so ops x) fun y hy => ?_
    rw [← hy]
    refine Tri.callP .zero (hc y) fun z hz => ?_
    refine Tri.same (Γ' := [y.own so, Win.own so z]) (by simp [add_comm]) ?_
    refine Tri.call .zero (steps_ok so ops₁ y) fun y' _ => ?_
    have hz' := steps_ok so ops₂ z
    rw [show Win.n z = y.n from hz] at hz'
    refine Tri.sizes (add_zero _).symm (Tri.call (L' := 0) (.succ .zero) hz' fun z' _ => ?_)
    refine Tri.callP (.succ .zero) (y'.del_ok so) fun _ _ => ?_
    refine Tri.same (Γ' := [z'.own so]) (by simp) (z'.del_ok so)
  obtain ⟨_, h', l, e, w', -, i, z⟩ := t h h.live w (by simp)
  exact ⟨l, h', e, w', by rw [i]; simp, by rw [z, add_assoc]⟩

/-- A window of 16 values is copied, and the copy is assigned a window of 32 values: the 128 bytes of its table are lost. -/
example (h : Heap) (w : h.WF) : ∃ (lost : Blocks) (h' : Heap), windowCopyLife so 16 [.cut] [.cut] [.assign 32, .cut] h = some ((), h') ∧ h'.WF ∧ h'.live = lost + h.live ∧
    lost.map Prod.snd = {128} := C114_window so 16 [.cut] [.cut] [.assign 32, .cut] h w

end QM.Heap
