import Verif.Heap.Objects
import Verif.Heap.SegmenterLemmas

/-!
# Memory of the analysis objects: one rule for each constructor, method and destructor
-/

namespace QM.Heap

/-- Finds an element of a list. -/
macro "htake" : tactic => `(tactic| with_reducible (repeat (first | exact Take.zero | apply Take.succ)))

/-- One allocation, release or access, of the block with that address. -/
macro "hstep" : tactic => `(tactic| with_reducible first
    | refine Tri.alloc fun _ => ?_
    | refine Tri.access (by htake) ?_
    | refine Tri.dealloc (by htake) ?_
    | refine Tri.delete (by htake) ?_)

/-- All that follow. -/
macro "hrun" : tactic => `(tactic| repeat hstep)

/-- Calls of a program that leaves the blocks as they are. -/
macro "hcall" t:term : tactic => `(tactic| refine Tri.callP (by htake) $t fun _ _ => ?_)

/-- The end of a program. -/
macro "hend" "[" l:Lean.Parser.Tactic.simpLemma,* "]" : tactic => `(tactic| (refine Tri.ret ?_ ?_ <;> first | trivial | (simp only [List.sum_cons, List.sum_nil, Option.elim, ob, $l,*]; try abel)))

variable (so : Sizes)

/-- Blocks of an `FFT`. -/
def Fft.parts (x : Fft) : List Blocks := [blk x.d (so.obj .fftD), blk x.planf (so.plan x.n), blk x.plani (so.plan x.n), blk x.kin (16 * x.n), blk x.kout (16 * x.n)]
def Fft.own (x : Fft) : Blocks := (x.parts so).sum

theorem Fft.new_ok (n : Nat) : Tri [] (Fft.new so n) (fun _ => True) (Fft.own so) 0 := by
  unfold Fft.new
  hrun
  hend [Fft.own, Fft.parts]

theorem Fft.process_ok (x : Fft) (inverse : Bool) (tmps : List Nat) : Tri [x.own so] (x.process inverse tmps) (fun _ => True) (fun _ => x.own so) 0 := by
  refine Tri.parts ?_
  unfold Fft.process Fft.parts
  hrun
  cases inverse
  · simp only [Bool.false_eq_true, if_false]
    hrun
    refine Tri.call0P (temps_ok tmps) fun _ _ => Tri.bindPure ?_
    hrun
    hend [Fft.own, Fft.parts]
  · simp only [if_true]
    hrun
    refine Tri.call0P (temps_ok tmps) fun _ _ => Tri.bindPure ?_
    hrun
    hend [Fft.own, Fft.parts]

theorem Fft.del_ok (x : Fft) : Tri [x.own so] x.del (fun _ => True) (fun _ => 0) 0 := by
  refine Tri.parts ?_
  unfold Fft.del Fft.parts
  hrun
  refine Tri.bindPure ?_
  hrun
  hend [Fft.own, Fft.parts]

/-! ### Real transforms -/

/-- Blocks of an `FFTReal`. -/
def FftReal.parts (x : FftReal) : List Blocks :=
  [blk x.self (so.obj .fftReal), blk x.d (so.obj .fftRealD), blk x.planf (so.planr x.n), blk x.plani (so.planr x.n), blk x.c (16 * x.n)]
def FftReal.own (x : FftReal) : Blocks := (x.parts so).sum

theorem FftReal.new_ok (n : Nat) : Tri [] (FftReal.new so n) (fun o => match o with | none => n % 2 = 1 | some x => n % 2 = 0 ∧ x.n = n) (fun o => o.elim 0 (FftReal.own so)) 0 := by
  unfold FftReal.new
  hrun
  by_cases e : n % 2 = 1
  · rw [if_pos e]
    hrun
    exact Tri.ret e (by simp)
  · rw [if_neg e]
    hrun
    exact Tri.ret ⟨by omega, rfl⟩ (by simp only [List.sum_cons, List.sum_nil, Option.elim, FftReal.own, FftReal.parts]; abel)

theorem FftReal.forward_ok (x : FftReal) (tmps : List Nat) : Tri [x.own so] (x.forward tmps) (fun _ => True) (fun _ => x.own so) 0 := by
  refine Tri.parts ?_
  unfold FftReal.forward FftReal.parts
  hrun
  refine Tri.call0P (temps_ok tmps) fun _ _ => Tri.bindPure ?_
  hrun
  hend [FftReal.own, FftReal.parts]

theorem FftReal.step_ok (op : FftOp) (x : FftReal) : Tri [x.own so] (FftReal.step op x) (fun y => y.n = x.n) (FftReal.own so) 0 := by
  cases op with
  | forward tmps =>
    unfold FftReal.step
    dsimp only
    hcall (x.forward_ok so tmps)
    exact Tri.ret rfl (by simp)
  | forwardMagnitude tmps =>
    unfold FftReal.step
    dsimp only
    hrun
    hcall (x.forward_ok so tmps)
    hrun
    exact Tri.ret rfl (by simp)
  | inverse tmps =>
    refine Tri.parts ?_
    unfold FftReal.step FftReal.parts
    dsimp only
    hrun
    refine Tri.call0P (temps_ok tmps) fun _ _ => ?_
    exact Tri.ret rfl (by simp only [List.sum_cons, List.sum_nil, FftReal.own, FftReal.parts]; abel)

theorem FftReal.del_ok (x : FftReal) : Tri [x.own so] x.del (fun _ => True) (fun _ => 0) 0 := by
  refine Tri.parts ?_
  unfold FftReal.del FftReal.parts
  hrun
  refine Tri.bindPure ?_
  hrun
  hend []

/-! ### Windows -/

/-- Blocks of a `Window`. -/
def Win.parts (x : Win) : List Blocks := [blk x.self (so.obj .window), blk x.cache (8 * x.n)]
def Win.own (x : Win) : Blocks := (x.parts so).sum

theorem Win.new_ok (n : Nat) : Tri [] (Win.new so n) (fun x => x.n = n) (Win.own so) 0 := by
  unfold Win.new
  hrun
  exact Tri.ret rfl (by simp only [List.sum_cons, List.sum_nil, Win.own, Win.parts]; abel)

theorem Win.cut_ok (x : Win) : Tri [x.own so] x.cut (fun _ => True) (fun _ => x.own so) 0 := by
  refine Tri.parts ?_
  unfold Win.cut Win.parts
  hrun
  refine Tri.bindPure ?_
  hrun
  hend [Win.own, Win.parts]

theorem Win.assign_ok (x : Win) (m : Nat) : Tri [x.own so] (Win.step (.assign m) x) (fun y => y.n = m) (Win.own so) {8 * x.n} := by
  refine Tri.parts ?_
  unfold Win.step Win.parts
  dsimp only
  hrun
  refine Tri.sizes (by simp) (Tri.forget (P := blk x.cache (8 * x.n)) (L := 0) (by htake) ?_)
  exact Tri.ret rfl (by simp only [List.sum_cons, List.sum_nil, Win.own, Win.parts]; abel)

theorem Win.del_ok (x : Win) : Tri [x.own so] x.del (fun _ => True) (fun _ => 0) 0 := by
  refine Tri.parts ?_
  unfold Win.del Win.parts
  hrun
  refine Tri.bindPure ?_
  hrun
  hend []

/-- Blocks of a pointer to a `Window`. -/
abbrev ownWin (x : Option Win) : Blocks := x.elim 0 (Win.own so)

theorem delWin_ok (x : Option Win) : Tri [ownWin so x] (delWin x) (fun _ => True) (fun _ => 0) 0 := by
  cases x with
  | none => exact Tri.ret trivial (by simp [ownWin])
  | some x => exact x.del_ok so

/-! ### Constant-Q transform -/

/-- Blocks of a `ConstantQ`. -/
def Cq.parts (x : Cq) : List Blocks := [blk x.self (so.obj .constantQ), blk x.data (8 * (2 * x.K)), ob x.sk (so.obj .sparseKernel)]
def Cq.own (x : Cq) : Blocks := (x.parts so).sum

theorem Cq.new_ok (K N : Nat) : Tri [] (Cq.new so K N) (fun x => x.K = K ∧ x.N = N ∧ x.sk = none) (Cq.own so) 0 := by
  unfold Cq.new
  hrun
  exact Tri.ret ⟨rfl, rfl, rfl⟩ (by simp only [List.sum_cons, List.sum_nil, Cq.own, Cq.parts, ob]; abel)

/-- Size of the block of a pointer that may be null. -/
def obSize (p : Option Nat) (s : Nat) : Multiset Nat := match p with
  | none => 0
  | some _ => {s}

theorem ob_sizes (p : Option Nat) (s : Nat) : (ob p s).map Prod.snd = obSize p s := by
  cases p <;> rfl

theorem Cq.sparsekernel_ok (x : Cq) (w : Nat → Nat) (tmps : List Nat) :
    Tri [x.own so] (x.sparsekernel so w tmps) (fun y => y.K = x.K ∧ y.N = x.N ∧ y.sk.isSome) (Cq.own so) (obSize x.sk (so.obj .sparseKernel)) := by
  refine Tri.parts ?_
  unfold Cq.sparsekernel Cq.parts
  hrun
  rename_i sk wr wi tr ti
  refine Tri.call0P (Fft.new_ok so x.N) fun fft _ => ?_
  refine Tri.same (Γ' := [[blk wr (8 * x.N), blk wi (8 * x.N), blk tr (8 * x.N), blk ti (8 * x.N), blk sk (so.obj .sparseKernel), fft.own so].sum, blk x.self (so.obj .constantQ),
    blk x.data (8 * (2 * x.K)), ob x.sk (so.obj .sparseKernel)]) (by simp only [List.sum_cons, List.sum_nil]; abel) ?_
  refine Tri.callP .zero (Tri.loop fun j _ => Tri.parts ?_) fun _ _ => ?_
  · hrun
    hcall (fft.process_ok so false tmps)
    hrun
    refine Tri.bindPure ?_
    hrun
    hend []
  · refine Tri.same (Γ' := [blk wr (8 * x.N), blk wi (8 * x.N), blk tr (8 * x.N), blk ti (8 * x.N), blk sk (so.obj .sparseKernel), fft.own so, blk x.self (so.obj .constantQ),
      blk x.data (8 * (2 * x.K)), ob x.sk (so.obj .sparseKernel)]) (by simp only [List.sum_cons, List.sum_nil]; abel) ?_
    hrun
    hcall (fft.del_ok so)
    refine Tri.sizes (by rw [ob_sizes]; simp) (Tri.forget (L := 0) (P := ob x.sk (so.obj .sparseKernel)) (by htake) ?_)
    exact Tri.ret ⟨rfl, rfl, rfl⟩ (by simp only [List.sum_cons, List.sum_nil, Cq.own, Cq.parts, ob]; abel)

theorem Cq.process_ok (x : Cq) : Tri [x.own so] x.process (fun _ => True) (fun _ => x.own so) 0 := by
  refine Tri.parts ?_
  unfold Cq.process Cq.parts
  hrun
  rcases x with ⟨K, N, self, data, sk⟩
  cases sk with
  | none =>
    dsimp only
    hend [Cq.own, Cq.parts]
  | some sk =>
    dsimp only [ob]
    refine Tri.bindPure ?_
    hrun
    hend [Cq.own, Cq.parts]

theorem Cq.del_ok (x : Cq) : Tri [x.own so] x.del (fun _ => True) (fun _ => 0) 0 := by
  refine Tri.parts ?_
  unfold Cq.del Cq.parts
  hrun
  refine Tri.bindPure ?_
  hrun
  hend []

/-! ### Chromagram -/

/-- Blocks of a `Chromagram`. -/
def Chroma.parts (x : Chroma) : List Blocks :=
  [blk x.self (so.obj .chromagram), blk x.chroma (8 * x.bpo), x.cq.own so, x.fft.own so, blk x.re (8 * x.fft.n), blk x.im (8 * x.fft.n), blk x.cqRe (8 * x.cq.K), blk x.cqIm (8 * x.cq.K),
    ownWin so x.window, ob x.buf (8 * x.fft.n)]
def Chroma.own (x : Chroma) : Blocks := (x.parts so).sum

/-- The flag tells whether there is a kernel, and the buffer is there if the window is. -/
structure Chroma.Good (x : Chroma) : Prop where
  gen : x.generated = x.cq.sk.isSome
  buf : x.window.isSome = x.buf.isSome

theorem Chroma.new_ok (bpo K N : Nat) :
    Tri [] (Chroma.new so bpo K N) (fun o => match o with | none => N % 2 = 1 | some x => N % 2 = 0 ∧ x.Good ∧ x.fft.n = N) (fun o => o.elim 0 (Chroma.own so))
      (if N % 2 = 1 then {8 * bpo, so.obj .constantQ, 8 * (2 * K)} else 0) := by
  unfold Chroma.new
  hrun
  rename_i self chroma
  refine Tri.call0P (Cq.new_ok so K N) fun cq ⟨hK, hN, hs⟩ => ?_
  refine Tri.call0P (FftReal.new_ok so N) fun o ho => ?_
  cases o with
  | none =>
    replace ho : N % 2 = 1 := ho
    dsimp only [Option.elim]
    rw [if_pos ho]
    hrun
    refine Tri.sizes ?_ (Tri.forget (P := blk chroma (8 * bpo)) (L := (cq.own so).map Prod.snd + 0) (by htake) (Tri.forget (P := cq.own so) (L := 0) (by htake) ?_))
    · simp [Cq.own, Cq.parts, hs, ob, hK]
      exact Multiset.cons_swap _ _ _
    · exact Tri.ret ho (by simp)
  | some fft =>
    replace ho : N % 2 = 0 ∧ fft.n = N := ho
    dsimp only [Option.elim]
    rw [if_neg (by omega)]
    hrun
    refine Tri.ret ⟨ho.1, ⟨by simp [hs], rfl⟩, ho.2⟩ ?_
    simp only [List.sum_cons, List.sum_nil, Option.elim, Chroma.own, Chroma.parts, ho.2, hK, ownWin, ob]
    abel

theorem Chroma.generate_ok (x : Chroma) (g : x.Good) (w : Nat → Nat) (tmps : List Nat) :
    Tri [x.own so] (x.generate so w tmps) (fun y => y.Good ∧ y.window = x.window ∧ y.generated = true ∧ y.fft = x.fft) (Chroma.own so) 0 := by
  unfold Chroma.generate
  by_cases e : x.generated = true
  · rw [if_pos e]
    exact Tri.ret ⟨g, rfl, e, rfl⟩ (by simp)
  · rw [if_neg e]
    have hs : x.cq.sk = none := by
      have h := g.gen
      cases hk : x.cq.sk with
      | none => rfl
      | some k => rw [hk] at h; exact absurd h e
    refine Tri.parts ?_
    unfold Chroma.parts
    have hq := x.cq.sparsekernel_ok so w tmps
    rw [hs] at hq
    refine Tri.callP (by htake) hq fun y ⟨hK, hN, hy⟩ => ?_
    refine Tri.ret ⟨⟨by simp [hy], g.buf⟩, rfl, rfl, rfl⟩ ?_
    simp only [List.sum_cons, List.sum_nil, Chroma.own, Chroma.parts, hK]
    abel

theorem Chroma.processFreq_ok (x : Chroma) (g : x.Good) (w : Nat → Nat) (tmps : List Nat) : Tri [x.own so] (x.processFreq so w tmps) Chroma.Good (Chroma.own so) 0 := by
  refine Tri.parts ?_
  unfold Chroma.processFreq Chroma.parts
  hrun
  refine Tri.same (Γ' := [x.own so]) (by simp [Chroma.own, Chroma.parts]) ?_
  refine Tri.callP .zero (x.generate_ok so g w tmps) fun y hy => Tri.parts ?_
  unfold Chroma.parts
  hrun
  hcall (y.cq.process_ok so)
  hrun
  refine Tri.ret hy.1 ?_
  simp only [List.sum_cons, List.sum_nil, Chroma.own, Chroma.parts]
  abel

theorem Chroma.window_ok (x : Chroma) (g : x.Good) : Tri [x.own so] (x.window! so) (fun y => y.Good ∧ y.window.isSome) (Chroma.own so) 0 := by
  unfold Chroma.window!
  rcases x with ⟨bpo, self, chroma, cq, fft, re, im, cqRe, cqIm, window, buf, generated⟩
  cases window with
  | some v => exact Tri.ret ⟨g, rfl⟩ (by simp)
  | none =>
    have hb : buf = none := by
      have := g.buf
      cases buf with
      | none => rfl
      | some b => simp at this
    subst hb
    dsimp only
    refine Tri.call0P (Win.new_ok so fft.n) fun v hv => ?_
    hrun
    refine Tri.ret ⟨⟨g.gen, rfl⟩, rfl⟩ ?_
    simp only [List.sum_cons, List.sum_nil, Chroma.own, Chroma.parts, ownWin, Option.elim, ob]
    abel

theorem Chroma.processTime_ok (x : Chroma) (g : x.Good) (w : Nat → Nat) (tmps : List Nat) : Tri [x.own so] (x.processTime so w tmps) Chroma.Good (Chroma.own so) 0 := by
  refine Tri.parts ?_
  unfold Chroma.processTime Chroma.parts
  hrun
  refine Tri.same (Γ' := [x.own so]) (by simp [Chroma.own, Chroma.parts]) ?_
  refine Tri.callP .zero (x.generate_ok so g w tmps) fun y hy => ?_
  refine Tri.callP .zero (y.window_ok so hy.1) fun z hz => Tri.parts ?_
  obtain ⟨gz, iz⟩ := hz
  rcases z with ⟨bpo, self, chroma, cq, fft, re, im, cqRe, cqIm, window, buf, generated⟩
  cases window with
  | none => simp at iz
  | some v =>
    cases buf with
    | none => exact absurd gz.buf (by simp)
    | some b =>
      unfold Chroma.parts
      dsimp only [deref, cutWin, ownWin, Option.elim, ob]
      hrun
      hcall (v.cut_ok so)
      hcall (fft.forward_ok so tmps)
      hrun
      refine Tri.same (Γ' := [Chroma.own so ⟨bpo, self, chroma, cq, fft, re, im, cqRe, cqIm, some v, some b, generated⟩]) ?_ (Chroma.processFreq_ok so _ gz w tmps)
      simp only [List.sum_cons, List.sum_nil, Chroma.own, Chroma.parts, ownWin, Option.elim, ob]
      abel

theorem Chroma.del_ok (x : Chroma) : Tri [x.own so] x.del (fun _ => True) (fun _ => 0) 0 := by
  refine Tri.parts ?_
  unfold Chroma.del Chroma.parts
  hrun
  hcall (delWin_ok so x.window)
  hrun
  hcall (x.fft.del_ok so)
  hcall (x.cq.del_ok so)
  hrun
  refine Tri.bindPure ?_
  hrun
  hend []

/-! ### Decimators -/

/-- Blocks of a `Decimator`. -/
def Dec.parts (x : Dec) : List Blocks := [blk x.self (so.obj .decimator), blk x.buf (8 * x.n)]
def Dec.own (x : Dec) : Blocks := (x.parts so).sum

theorem Dec.new_ok (n : Nat) : Tri [] (Dec.new so n) (fun x => x.n = n) (Dec.own so) 0 := by
  unfold Dec.new
  hrun
  exact Tri.ret rfl (by simp only [List.sum_cons, List.sum_nil, Dec.own, Dec.parts]; abel)

theorem Dec.process_ok (x : Dec) : Tri [x.own so] x.process (fun _ => True) (fun _ => x.own so) 0 := by
  refine Tri.parts ?_
  unfold Dec.process Dec.parts
  hrun
  refine Tri.bindPure ?_
  hrun
  hend [Dec.own, Dec.parts]

theorem Dec.del_ok (x : Dec) : Tri [x.own so] x.del (fun _ => True) (fun _ => 0) 0 := by
  refine Tri.parts ?_
  unfold Dec.del Dec.parts
  hrun
  refine Tri.bindPure ?_
  hrun
  hend []

/-- Blocks of a pointer to a `Decimator`. -/
abbrev ownDec (x : Option Dec) : Blocks := x.elim 0 (Dec.own so)

theorem delDec_ok (x : Option Dec) : Tri [ownDec so x] (delDec x) (fun _ => True) (fun _ => 0) 0 := by
  cases x with
  | none => exact Tri.ret trivial (by simp [ownDec])
  | some x => exact x.del_ok so

/-- Blocks of a `DecimatorB`. -/
def DecB.parts (x : DecB) : List Blocks := [blk x.self (so.obj .decimatorB), ob x.aa (8 * x.n), ob x.tmp (8 * x.n)]
def DecB.own (x : DecB) : Blocks := (x.parts so).sum

theorem DecB.new_ok (n : Nat) (ok : Bool) : Tri [] (DecB.new so n ok) (fun _ => True) (DecB.own so) 0 := by
  unfold DecB.new
  hrun
  cases ok with
  | false => hend [DecB.own, DecB.parts]
  | true =>
    rw [if_pos rfl]
    hrun
    hend [DecB.own, DecB.parts]

theorem DecB.process_ok (x : DecB) : Tri [x.own so] x.process (fun _ => True) (fun _ => x.own so) 0 := by
  rcases x with ⟨n, self, aa, tmp⟩
  refine Tri.parts ?_
  unfold DecB.process DecB.parts
  hrun
  cases aa with
  | none => hend [DecB.own, DecB.parts]
  | some aa =>
    cases tmp with
    | none => hend [DecB.own, DecB.parts]
    | some tmp =>
      dsimp only [ob]
      hrun
      refine Tri.bindPure ?_
      hrun
      hend [DecB.own, DecB.parts]

theorem DecB.del_ok (x : DecB) : Tri [x.own so] x.del (fun _ => True) (fun _ => 0) 0 := by
  refine Tri.parts ?_
  unfold DecB.del DecB.parts
  hrun
  refine Tri.bindPure ?_
  hrun
  hend []

/-! ### Phase vocoder and detection functions -/

/-- Blocks of a `PhaseVocoder`. -/
def Pv.parts (x : Pv) : List Blocks :=
  [blk x.self (so.obj .phaseVocoder), x.fft.own so, blk x.time (8 * x.fft.n), blk x.real (8 * x.fft.n), blk x.imag (8 * x.fft.n), blk x.phase (8 * (x.fft.n / 2 + 1)),
    blk x.unwrapped (8 * (x.fft.n / 2 + 1))]
def Pv.own (x : Pv) : Blocks := (x.parts so).sum

theorem Pv.new_ok (n : Nat) : Tri [] (Pv.new so n) (fun o => match o with | none => n % 2 = 1 | some _ => n % 2 = 0) (fun o => o.elim 0 (Pv.own so)) 0 := by
  unfold Pv.new
  hrun
  refine Tri.call0P (FftReal.new_ok so n) fun o ho => ?_
  cases o with
  | none =>
    dsimp only [Option.elim]
    hrun
    exact Tri.ret ho (by simp)
  | some fft =>
    replace ho : n % 2 = 0 ∧ fft.n = n := ho
    dsimp only [Option.elim]
    hrun
    refine Tri.ret ho.1 ?_
    simp only [List.sum_cons, List.sum_nil, Option.elim, Pv.own, Pv.parts, ho.2]
    abel

theorem Pv.process_ok (x : Pv) (t : Option (List Nat)) : Tri [x.own so] (x.process t) (fun _ => True) (fun _ => x.own so) 0 := by
  refine Tri.parts ?_
  unfold Pv.process Pv.parts
  hrun
  cases t with
  | none =>
    refine Tri.pureBind ?_
    hrun
    refine Tri.bindPure ?_
    hrun
    hend [Pv.own, Pv.parts]
  | some tmps =>
    refine Tri.assoc ?_
    hrun
    hcall (x.fft.forward_ok so tmps)
    hrun
    refine Tri.bindPure ?_
    hrun
    hend [Pv.own, Pv.parts]

theorem Pv.del_ok (x : Pv) : Tri [x.own so] x.del (fun _ => True) (fun _ => 0) 0 := by
  refine Tri.parts ?_
  unfold Pv.del Pv.parts
  hrun
  hcall (x.fft.del_ok so)
  refine Tri.bindPure ?_
  hrun
  hend []

/-- Blocks of a `DetectionFunction`. -/
def Df.parts (x : Df) : List Blocks :=
  [blk x.self (so.obj .detectionFunction), blk x.magHistory (8 * (x.n / 2 + 1)), blk x.phaseHistory (8 * (x.n / 2 + 1)), blk x.phaseHistoryOld (8 * (x.n / 2 + 1)),
    blk x.magPeaks (8 * (x.n / 2 + 1)), x.pv.own so, blk x.magnitude (8 * (x.n / 2 + 1)), blk x.thetaAngle (8 * (x.n / 2 + 1)), blk x.unwrapped (8 * (x.n / 2 + 1)), x.window.own so,
    blk x.windowed (8 * x.n)]
def Df.own (x : Df) : Blocks := (x.parts so).sum

theorem Df.new_ok (n : Nat) :
    Tri [] (Df.new so n) (fun o => match o with | none => n % 2 = 1 | some _ => n % 2 = 0) (fun o => o.elim 0 (Df.own so))
      (if n % 2 = 1 then Multiset.replicate 4 (8 * (n / 2 + 1)) else 0) := by
  unfold Df.new
  hrun
  rename_i a b c d
  refine Tri.call0P (Pv.new_ok so n) fun o ho => ?_
  cases o with
  | none =>
    replace ho : n % 2 = 1 := ho
    dsimp only [Option.elim]
    rw [if_pos ho]
    hrun
    refine Tri.sizes ?_ (Tri.forget (P := blk a (8 * (n / 2 + 1)) + blk b (8 * (n / 2 + 1)) + blk c (8 * (n / 2 + 1)) + blk d (8 * (n / 2 + 1))) (L := 0) .zero (Γ := [_])
      (Γ' := []) ?_ |>.same ?_)
    · simp [Multiset.replicate_succ]
    · exact Tri.ret ho (by simp)
    · simp only [List.sum_cons, List.sum_nil]
      abel
  | some pv =>
    replace ho : n % 2 = 0 := ho
    dsimp only [Option.elim]
    rw [if_neg (by omega)]
    hrun
    refine Tri.call0P (Win.new_ok so n) fun v hv => ?_
    hrun
    refine Tri.ret ho ?_
    simp only [List.sum_cons, List.sum_nil, Option.elim, Df.own, Df.parts]
    abel

theorem Df.process_ok (x : Df) (t : Option (List Nat)) : Tri [x.own so] (x.process t) (fun _ => True) (fun _ => x.own so) 0 := by
  refine Tri.parts ?_
  unfold Df.process Df.parts
  hrun
  cases t with
  | none =>
    refine Tri.pureBind ?_
    hcall (x.pv.process_ok so none)
    hrun
    refine Tri.bindPure ?_
    hrun
    hend [Df.own, Df.parts]
  | some tmps =>
    refine Tri.assoc ?_
    hcall (x.window.cut_ok so)
    hrun
    hcall (x.pv.process_ok so (some tmps))
    hrun
    refine Tri.bindPure ?_
    hrun
    hend [Df.own, Df.parts]

theorem Df.del_ok (x : Df) : Tri [x.own so] x.del (fun _ => True) (fun _ => 0) 0 := by
  refine Tri.parts ?_
  unfold Df.del Df.parts
  hrun
  hcall (x.pv.del_ok so)
  hrun
  hcall (x.window.del_ok so)
  refine Tri.bindPure ?_
  hrun
  hend []

/-! ### Smoothing and peak picking -/

/-- Blocks of a `DFProcess`. -/
def Dfp.parts (x : Dfp) : List Blocks :=
  [blk x.self (so.obj .dfProcess), blk x.src (8 * x.n), blk x.dst (8 * x.n), ob x.scratchIn 0, ob x.scratchOut 0, blk x.filt (so.obj .filtFilt)]
def Dfp.own (x : Dfp) : Blocks := (x.parts so).sum

theorem Dfp.new_ok (n ord pre post : Nat) : Tri [] (Dfp.new so n ord pre post) (fun _ => True) (Dfp.own so) 0 := by
  unfold Dfp.new
  hrun
  hend [Dfp.own, Dfp.parts]

theorem filtFilt_ok (p s ord length : Nat) : Tri [blk p s] (filtFilt p ord length) (fun _ => True) (fun _ => blk p s) 0 := by
  unfold filtFilt
  hrun
  by_cases e : length = 0
  · rw [if_pos e]
    hend []
  · rw [if_neg e]
    hrun
    refine Tri.bindPure ?_
    hrun
    hend []

theorem Dfp.process_ok (x : Dfp) : Tri [x.own so] x.process (fun _ => True) (fun _ => x.own so) 0 := by
  refine Tri.parts ?_
  unfold Dfp.process Dfp.parts
  hrun
  by_cases e : x.n = 0
  · rw [if_pos e]
    hend [Dfp.own, Dfp.parts]
  · rw [if_neg e]
    hrun
    hcall (filtFilt_ok x.filt _ x.ord x.n)
    hrun
    refine Tri.bindPure ?_
    hrun
    hend [Dfp.own, Dfp.parts]

theorem Dfp.del_ok (x : Dfp) : Tri [x.own so] x.del (fun _ => True) (fun _ => 0) 0 := by
  refine Tri.parts ?_
  unfold Dfp.del Dfp.parts
  hrun
  refine Tri.bindPure ?_
  hrun
  hend []

/-- Blocks of a `PeakPicking`. -/
def Pp.parts (x : Pp) : List Blocks := [blk x.self (so.obj .peakPicking), x.smoothing.own so, blk x.work (8 * x.smoothing.n)]
def Pp.own (x : Pp) : Blocks := (x.parts so).sum

theorem Dfp.new_n (n ord pre post : Nat) : Tri [] (Dfp.new so n ord pre post) (fun x => x.n = n) (Dfp.own so) 0 := by
  unfold Dfp.new
  hrun
  refine Tri.ret rfl ?_
  simp only [List.sum_cons, List.sum_nil, Dfp.own, Dfp.parts, ob]
  abel

theorem Pp.new_ok (n ord pre post : Nat) : Tri [] (Pp.new so n ord pre post) (fun _ => True) (Pp.own so) 0 := by
  unfold Pp.new
  hrun
  refine Tri.call0P (Dfp.new_n so n ord pre post) fun d hd => ?_
  hrun
  hend [Pp.own, Pp.parts, hd]

theorem Pp.process_ok (x : Pp) (len : Nat) : Tri [x.own so] (x.process len) (fun _ => True) (fun _ => x.own so) 0 := by
  refine Tri.parts ?_
  unfold Pp.process Pp.parts
  hrun
  by_cases e : len < 4
  · rw [if_pos e]
    hend [Pp.own, Pp.parts]
  · rw [if_neg e]
    hcall (x.smoothing.process_ok so)
    refine Tri.bindPure ?_
    hrun
    hend [Pp.own, Pp.parts]

theorem Pp.del_ok (x : Pp) : Tri [x.own so] x.del (fun _ => True) (fun _ => 0) 0 := by
  refine Tri.parts ?_
  unfold Pp.del Pp.parts
  hrun
  hcall (x.smoothing.del_ok so)
  refine Tri.bindPure ?_
  hrun
  hend []

/-! ### Frames -/

/-- Blocks of a `Framer`. -/
def Fr.parts (x : Fr) : List Blocks := [ob x.frame (8 * x.n), ob x.stride (8 * x.hop)]
def Fr.own (x : Fr) : Blocks := x.parts.sum

theorem Fr.configure_ok (x : Fr) (n hop : Nat) : Tri [x.own] (x.configure n hop) (fun y => y.n = n ∧ y.hop = hop) Fr.own 0 := by
  refine Tri.parts ?_
  unfold Fr.configure Fr.parts
  hrun
  refine Tri.ret ⟨rfl, rfl⟩ ?_
  simp only [List.sum_cons, List.sum_nil, Fr.own, Fr.parts, ob]
  abel

theorem Fr.del_ok (x : Fr) : Tri [x.own] x.del (fun _ => True) (fun _ => 0) 0 := by
  refine Tri.parts ?_
  unfold Fr.del Fr.parts
  hrun
  refine Tri.bindPure ?_
  hrun
  hend []

/-! ### Tempo -/

/-- Blocks of a `TempoTrack`. -/
def Tt.parts (x : Tt) : List Blocks :=
  [blk x.self (so.obj .tempoTrack), blk x.raw (8 * x.win), blk x.smooth (8 * x.win), blk x.acf (8 * x.win), blk x.scratch (8 * x.lag), blk x.rcf (8 * x.lag), x.framer.own, x.df.own so, x.rc.own so]
def Tt.own (x : Tt) : Blocks := (x.parts so).sum

theorem Tt.new_ok (win lag ord pre post : Nat) : Tri [] (Tt.new so win lag ord pre post) (fun x => x.win = win) (Tt.own so) 0 := by
  unfold Tt.new
  hrun
  refine Tri.call0P (((Fr.new.configure_ok win lag).same (Γ := []) (by simp [Fr.own, Fr.parts, Fr.new, ob]))) fun f hf => ?_
  refine Tri.call0P (Dfp.new_ok so win ord pre post) fun d hd => ?_
  refine Tri.call0P (Dfp.new_ok so lag ord pre post) fun r hr => ?_
  refine Tri.ret rfl ?_
  simp only [List.sum_cons, List.sum_nil, Tt.own, Tt.parts]
  abel

theorem Tt.tempoMM_ok (x : Tt) (four : Bool) : Tri [x.own so] (x.tempoMM four) (fun _ => True) (fun _ => x.own so) 0 := by
  refine Tri.parts ?_
  unfold Tt.tempoMM Tt.parts
  hrun
  hcall (x.rc.process_ok so)
  hrun
  refine Tri.bindPure ?_
  hrun
  hend [Tt.own, Tt.parts]

theorem Tt.findMeter_ok (x : Tt) : Tri [x.own so] x.findMeter (fun _ => True) (fun _ => x.own so) {8 * x.win} := by
  refine Tri.parts ?_
  unfold Tt.findMeter Tt.parts
  hrun
  refine Tri.bindPure ?_
  hrun
  refine Tri.sizes ?_ (Tri.forget .zero ?_ (L := 0))
  · simp [blk]
  · hend [Tt.own, Tt.parts]

/-- Sizes of the blocks that are lost in a frame. -/
def TtFrame.lost (win : Nat) (f : TtFrame) : Multiset Nat := if f.constant then {8 * win} else 0

theorem Tt.core_ok (x : Tt) (P : Blocks) : Tri [x.own so, P] (do
    use x.raw
    x.df.process
    use x.smooth
    use x.acf) (fun _ => True) (fun _ => x.own so + P) 0 := by
  refine Tri.same (Γ' := x.parts so ++ [P]) (by simp [Tt.own]) ?_
  unfold Tt.parts
  simp only [List.cons_append, List.nil_append]
  hrun
  hcall (x.df.process_ok so)
  hrun
  refine Tri.bindPure ?_
  hrun
  hend [Tt.own, Tt.parts]

theorem Tt.frame_ok (x : Tt) (PW s : Nat) (f : TtFrame) : Tri [x.own so + blk PW s] (x.frame PW f) (fun _ => True) (fun _ => x.own so + blk PW s) (f.lost x.win) := by
  refine Tri.same (Γ' := [blk PW s] ++ x.parts so) (by simp [Tt.own, add_comm]) ?_
  unfold Tt.frame Tt.parts
  simp only [List.cons_append, List.nil_append]
  hrun
  hcall (x.df.process_ok so)
  hrun
  refine Tri.same (Γ' := [x.own so, blk PW s]) (by simp only [List.sum_cons, List.sum_nil, Tt.own, Tt.parts]; abel) ?_
  hcall (x.tempoMM_ok so true)
  have h1 : Tri [x.own so] (if f.weighted then x.tempoMM f.four else pure ()) (fun _ => True) (fun _ => x.own so) 0 := by
    split
    · exact x.tempoMM_ok so f.four
    · exact Tri.ret trivial (by simp)
  have h2 : Tri [x.own so] (if f.constant then (do x.findMeter; x.tempoMM f.four) else pure ()) (fun _ => True) (fun _ => x.own so) (f.lost x.win) := by
    unfold TtFrame.lost
    split
    · exact Tri.sizes (by simp) (Tri.call .zero (x.findMeter_ok so) fun _ _ => (x.tempoMM_ok so f.four))
    · exact Tri.ret trivial (by simp)
  hcall h1
  refine Tri.sizes (by simp) (Tri.call (L' := 0) .zero h2 fun _ _ => ?_)
  hrun
  refine Tri.bindPure ?_
  hrun
  hend [Tt.own, Tt.parts]

/-- Sizes of the blocks that are lost in all frames. -/
def lostFrames (win : Nat) (fs : List TtFrame) : Multiset Nat := (fs.map (TtFrame.lost win)).sum

theorem Tt.frames_ok (x : Tt) (PW s : Nat) (fs : List TtFrame) :
    Tri [x.own so + blk PW s] (x.frames PW fs) (fun _ => True) (fun _ => x.own so + blk PW s) (lostFrames x.win fs) := by
  induction fs with
  | nil => exact Tri.ret trivial (by simp)
  | cons f fs ih => exact Tri.sizes (by simp [lostFrames]) (Tri.call .zero (x.frame_ok so PW s f) fun _ _ => ih)

theorem Tt.process_ok (x : Tt) (fs : List TtFrame) : Tri [x.own so] (x.process fs) (fun _ => True) (fun _ => x.own so) (lostFrames x.win fs) := by
  refine Tri.parts ?_
  unfold Tt.process Tt.parts
  hrun
  rename_i RW GW PW a b c
  refine Tri.same (Γ' := [x.own so + blk PW (8 * x.lag), blk RW (8 * x.lag), blk GW (8 * x.lag), blk a (8 * fs.length), blk b (8 * fs.length), blk c (8 * fs.length)])
    (by simp only [List.sum_cons, List.sum_nil, Tt.own, Tt.parts]; abel) ?_
  hrun
  refine Tri.sizes (by simp) (Tri.call (L' := 0) .zero (x.frames_ok so PW _ fs) fun _ _ => ?_)
  hrun
  refine Tri.same (Γ' := [x.own so, blk PW (8 * x.lag)]) (by simp only [List.sum_cons, List.sum_nil]; abel) ?_
  refine Tri.bindPure ?_
  hrun
  hend []

theorem Tt.del_ok (x : Tt) : Tri [x.own so] x.del (fun _ => True) (fun _ => 0) 0 := by
  refine Tri.parts ?_
  unfold Tt.del Tt.parts
  hrun
  hcall (x.df.del_ok so)
  hcall (x.rc.del_ok so)
  hcall x.framer.del_ok
  refine Tri.bindPure ?_
  hrun
  hend []

/-! ### Cepstral coefficients -/

/-- Blocks of an array of rows. -/
def Rows.blocks (n s : Nat) (r : Rows) : Blocks := Rows.own n s r.base fun i => r.rows.getD i 0

theorem Rows.of_eq {n : Nat} {r : Rows} (e : r.rows.length = n) : Rows.of n r.base (fun i => r.rows.getD i 0) = r := by
  rcases r with ⟨base, rows⟩
  unfold Rows.of
  congr 1
  subst e
  refine List.ext_getElem (by simp) fun i h1 h2 => ?_
  simp [List.getD, h2]

theorem Tri.allocRows (n s : Nat) : Tri [] (allocRows n s) (fun r => r.rows.length = n) (Rows.blocks n s) 0 := by
  intro h rest w e
  obtain ⟨base, f, h', e1, w1, l1⟩ := allocRows_ok n s w
  refine ⟨_, h', 0, e1, w1, by simp [Rows.of], ?_, rfl⟩
  rw [l1, e]
  have : Rows.blocks n s (Rows.of n base f) = Rows.own n s base f := by
    unfold Rows.blocks Rows.own Rows.of
    congr 1
    refine Finset.sum_congr rfl fun i hi => ?_
    rw [Finset.mem_range] at hi
    simp [List.getD, hi]
  rw [this]
  simp

theorem Tri.touchRows {n s : Nat} {r : Rows} (e : r.rows.length = n) : Tri [r.blocks n s] (touchRows n r) (fun _ => True) (fun _ => r.blocks n s) 0 := by
  intro h rest w l
  refine ⟨(), h, 0, ?_, w, trivial, by rw [l]; simp, rfl⟩
  have := touchRows_ok (n := n) (s := s) (base := r.base) (f := fun i => r.rows.getD i 0) (h := h) (by rw [l]; simp [Rows.blocks, Multiset.zero_le])
  rwa [Rows.of_eq e] at this

theorem Tri.freeRows {n s : Nat} {r : Rows} (e : r.rows.length = n) : Tri [r.blocks n s] (freeRows n r) (fun _ => True) (fun _ => 0) 0 := by
  intro h rest w l
  obtain ⟨h', e1, w1, l1⟩ := freeRows_ok (n := n) (s := s) (base := r.base) (f := fun i => r.rows.getD i 0) w (rest := rest) (by rw [l]; simp [Rows.blocks])
  rw [Rows.of_eq e] at e1
  exact ⟨(), h', 0, e1, w1, trivial, by rw [l1]; simp, rfl⟩

/-- Blocks of an `MFCC`. -/
def Mfcc.parts (x : Mfcc) : List Blocks :=
  [blk x.self (so.obj .mfcc), x.fft.own so, blk x.ceps (8 * (if x.c0 then x.nceps + 1 else x.nceps)), x.dct.blocks (x.nceps + 1) (8 * x.filters), x.weights.blocks x.filters (8 * x.n),
    x.window.own so, blk x.realOut (8 * x.n), blk x.imagOut (8 * x.n), blk x.earMag (8 * x.filters), blk x.fftMag (8 * (x.n / 2))]
def Mfcc.own (x : Mfcc) : Blocks := (x.parts so).sum

/-- The tables have as many rows as the object says. -/
structure Mfcc.Good (x : Mfcc) : Prop where
  dct : x.dct.rows.length = x.nceps + 1
  weights : x.weights.rows.length = x.filters

theorem Mfcc.new_ok (n nceps filters : Nat) (c0 : Bool) :
    Tri [] (Mfcc.new so n nceps filters c0) (fun o => match o with | none => n % 2 = 1 | some x => n % 2 = 0 ∧ x.Good ∧ x.n = n ∧ x.nceps = nceps ∧ x.filters = filters ∧ x.c0 = c0 ∧ x.fft.n = n ∧ x.window.n = n)
      (fun o => o.elim 0 (Mfcc.own so)) 0 := by
  unfold Mfcc.new
  hrun
  refine Tri.call0P (FftReal.new_ok so n) fun o ho => ?_
  cases o with
  | none =>
    dsimp only [Option.elim]
    hrun
    exact Tri.ret ho (by simp)
  | some fft =>
    replace ho : n % 2 = 0 ∧ fft.n = n := ho
    dsimp only [Option.elim]
    hrun
    refine Tri.call0P (Tri.allocRows (nceps + 1) (8 * filters)) fun dct hd => ?_
    refine Tri.call0P (Tri.allocRows filters (8 * n)) fun weights hw => ?_
    hrun
    hcall (Tri.touchRows hw)
    hcall (Tri.touchRows hd)
    refine Tri.call0P (Win.new_ok so n) fun v hv => ?_
    hrun
    refine Tri.ret ⟨ho.1, ⟨hd, hw⟩, rfl, rfl, rfl, rfl, ho.2, hv⟩ ?_
    simp only [List.sum_cons, List.sum_nil, Option.elim, Mfcc.own, Mfcc.parts]
    abel

theorem Mfcc.process_ok (x : Mfcc) (g : x.Good) (t : Option (List Nat)) : Tri [x.own so] (x.process t) (fun _ => True) (fun _ => x.own so) 0 := by
  refine Tri.parts ?_
  unfold Mfcc.process Mfcc.parts
  hrun
  cases t with
  | none =>
    refine Tri.pureBind ?_
    hrun
    hcall (Tri.touchRows g.weights)
    refine Tri.bindPure ?_
    hcall (Tri.touchRows g.dct)
    hend [Mfcc.own, Mfcc.parts]
  | some tmps =>
    refine Tri.assoc ?_
    hrun
    refine Tri.assoc ?_
    hrun
    refine Tri.assoc ?_
    hcall (x.window.cut_ok so)
    refine Tri.assoc ?_
    hcall (x.fft.forward_ok so tmps)
    refine Tri.assoc ?_
    hrun
    refine Tri.assoc ?_
    hrun
    hcall (Tri.touchRows g.weights)
    refine Tri.bindPure ?_
    hcall (Tri.touchRows g.dct)
    hend [Mfcc.own, Mfcc.parts]

theorem Mfcc.del_ok (x : Mfcc) (g : x.Good) : Tri [x.own so] x.del (fun _ => True) (fun _ => 0) 0 := by
  refine Tri.parts ?_
  unfold Mfcc.del Mfcc.parts
  hrun
  hcall (Tri.freeRows g.dct)
  hcall (Tri.freeRows g.weights)
  hrun
  hcall (x.window.del_ok so)
  hrun
  hcall (x.fft.del_ok so)
  refine Tri.bindPure ?_
  hrun
  hend []

/-! ### Downbeats -/

/-- Blocks of a `DownBeat`. -/
def Db.parts (x : Db) : List Blocks :=
  [blk x.self (so.obj .downBeat), ownDec so x.dec1, ownDec so x.dec2, ob x.buffer (4 * x.bufsiz), ob x.decbuf (4 * (x.incr / 8)), blk x.beatframe (8 * x.size), blk x.re (8 * x.size),
    blk x.im (8 * x.size), x.fft.own so]
def Db.own (x : Db) : Blocks := (x.parts so).sum

/-- The second decimator and its buffer come with the first, and there is a buffer if it has a size. -/
structure Db.Good (x : Db) : Prop where
  pos : 0 < x.factor
  dec : x.dec1 = none → x.dec2 = none
  decbuf : x.decbuf.isSome = x.dec2.isSome
  buffer : x.buffer = none → x.bufsiz = 0

theorem Db.new_ok (factor incr size : Nat) (hf : 0 < factor) (hs : size % 2 = 0) :
    Tri [] (Db.new so factor incr size) (fun o => match o with | none => False | some x => x.Good) (fun o => o.elim 0 (Db.own so)) 0 := by
  unfold Db.new
  hrun
  refine Tri.call0P (FftReal.new_ok so size) fun o ho => ?_
  cases o with
  | none =>
    replace ho : size % 2 = 1 := ho
    omega
  | some fft =>
    refine Tri.ret ⟨hf, fun _ => rfl, rfl, fun _ => rfl⟩ ?_
    simp only [List.sum_cons, List.sum_nil, Option.elim, Db.own, Db.parts, ob, ownDec]
    abel

theorem Db.makeDecimators_ok (x : Db) (g : x.Good) (hd : x.dec1 = none) :
    Tri [x.own so] (x.makeDecimators so) (fun y => y.Good ∧ y.factor = x.factor ∧ y.incr = x.incr ∧ y.buffer = x.buffer ∧ y.bufsiz = x.bufsiz ∧ y.fill = x.fill) (Db.own so) 0 := by
  rcases x with ⟨factor, incr, size, bufsiz, fill, self, dec1, dec2, buffer, decbuf, beatframe, re, im, fft⟩
  replace hd : dec1 = none := hd
  subst hd
  have h2 : dec2 = none := g.dec rfl
  subst h2
  have h3 : decbuf = none := by
    have h := g.decbuf
    cases decbuf with
    | none => rfl
    | some _ => simp at h
  subst h3
  unfold Db.makeDecimators
  dsimp only
  split
  · exact Tri.ret ⟨g, rfl, rfl, rfl, rfl, rfl⟩ (by simp)
  · refine Tri.parts ?_
    unfold Db.parts
    dsimp only
    split
    · refine Tri.call0P (Dec.new_ok so incr) fun d _ => ?_
      refine Tri.ret ⟨⟨g.pos, fun h => absurd h (by simp), rfl, g.buffer⟩, rfl, rfl, rfl, rfl, rfl⟩ ?_
      simp only [List.sum_cons, List.sum_nil, Option.elim, Db.own, Db.parts, ob, ownDec]
      abel
    · refine Tri.call0P (Dec.new_ok so incr) fun d _ => ?_
      refine Tri.call0P (Dec.new_ok so (incr / 8)) fun e _ => ?_
      hrun
      refine Tri.ret ⟨⟨g.pos, fun h => absurd h (by simp), rfl, g.buffer⟩, rfl, rfl, rfl, rfl, rfl⟩ ?_
      simp only [List.sum_cons, List.sum_nil, Option.elim, Db.own, Db.parts, ob, ownDec]
      abel

theorem Db.grow_ok (x : Db) (g : x.Good) :
    Tri [x.own so] x.grow (fun y => y.Good ∧ y.factor = x.factor ∧ y.incr = x.incr ∧ (x.incr / x.factor ≠ 0 → y.buffer.isSome)) (Db.own so) 0 := by
  unfold Db.grow
  split
  · refine Tri.parts ?_
    unfold Db.parts
    hrun
    refine Tri.ret ⟨⟨g.pos, g.dec, g.decbuf, fun h => absurd h (by simp)⟩, rfl, rfl, fun _ => rfl⟩ ?_
    simp only [List.sum_cons, List.sum_nil, Db.own, Db.parts, ob]
    abel
  · refine Tri.ret ⟨g, rfl, rfl, fun h => ?_⟩ (by simp)
    rcases e : x.buffer with _ | b
    · have := g.buffer e
      generalize x.incr / x.factor = q at *
      omega
    · rfl

theorem Db.push_ok (x : Db) (g : x.Good) : Tri [x.own so] (x.push so) Db.Good (Db.own so) 0 := by
  refine Tri.parts ?_
  unfold Db.push Db.parts
  hrun
  rw [if_neg (Nat.pos_iff_ne_zero.1 g.pos)]
  refine Tri.same (Γ' := [x.own so]) (by simp [Db.own, Db.parts]) ?_
  refine Tri.callP .zero (x.grow_ok so g) fun y ⟨gy, fy, iy, by'⟩ => ?_
  have hm : Tri [y.own so] (y.ready so) (fun z => z.Good ∧ z.factor = x.factor ∧ z.incr = x.incr ∧ z.buffer = y.buffer) (Db.own so) 0 := by
    unfold Db.ready
    split
    · rename_i hc
      refine (y.makeDecimators_ok so gy (Option.isNone_iff_eq_none.1 hc.1)).post fun z hz => ⟨⟨hz.1, by rw [hz.2.1, fy], by rw [hz.2.2.1, iy], hz.2.2.2.1⟩, rfl⟩
    · exact Tri.ret ⟨gy, fy, iy, rfl⟩ (by simp)
  refine Tri.callP .zero hm fun z ⟨gz, fz, iz, bz⟩ => ?_
  have hp : Tri [z.own so] z.decimate (fun _ => True) (fun _ => z.own so) 0 := by
    unfold Db.decimate
    rcases z with ⟨factor, incr, size, bufsiz, fill, self, dec1, dec2, buffer, decbuf, beatframe, re, im, fft⟩
    refine Tri.parts ?_
    unfold Db.parts
    dsimp only
    cases dec2 with
    | none =>
      cases dec1 with
      | none =>
        dsimp only
        hend [Db.own, Db.parts, ownDec]
      | some d =>
        dsimp only [ownDec, Option.elim]
        refine Tri.bindPure ?_
        hcall (d.process_ok so)
        hend [Db.own, Db.parts, ownDec]
    | some e =>
      cases dec1 with
      | none => exact absurd (gz.dec rfl) (by simp)
      | some d =>
        cases decbuf with
        | none => exact absurd gz.decbuf (by simp)
        | some b =>
          dsimp only [ownDec, Option.elim, deref, ob]
          hcall (d.process_ok so)
          hrun
          refine Tri.bindPure ?_
          hcall (e.process_ok so)
          hend [Db.own, Db.parts, ownDec]
  hcall hp
  have hb : Tri [z.own so] z.store (fun _ => True) (fun _ => z.own so) 0 := by
    unfold Db.store
    split
    · exact Tri.ret trivial (by simp)
    · rename_i hne
      rw [fz, iz] at hne
      have hs := by' hne
      rw [← bz] at hs
      rcases z with ⟨factor, incr, size, bufsiz, fill, self, dec1, dec2, buffer, decbuf, beatframe, re, im, fft⟩
      cases buffer with
      | none => simp at hs
      | some b =>
        refine Tri.parts ?_
        unfold Db.parts
        dsimp only [deref, ob]
        refine Tri.bindPure ?_
        hrun
        hend [Db.own, Db.parts]
  hcall hb
  exact Tri.ret ⟨gz.pos, gz.dec, gz.decbuf, gz.buffer⟩ (by simp [Db.own, Db.parts])

theorem Db.step_ok (op : DbOp) (x : Db) (g : x.Good) : Tri [x.own so] (Db.step so op x) Db.Good (Db.own so) 0 := by
  cases op with
  | push => exact x.push_ok so g
  | reset =>
    refine Tri.parts ?_
    unfold Db.step Db.parts
    dsimp only
    hrun
    refine Tri.ret ⟨g.pos, g.dec, g.decbuf, fun _ => rfl⟩ ?_
    simp only [List.sum_cons, List.sum_nil, Db.own, Db.parts, ob]
    abel
  | find tmps =>
    refine Tri.parts ?_
    unfold Db.step Db.parts
    dsimp only
    hrun
    hcall (x.fft.forward_ok so tmps)
    hrun
    refine Tri.ret g ?_
    simp only [List.sum_cons, List.sum_nil, Db.own, Db.parts]
    abel

theorem Db.del_ok (x : Db) : Tri [x.own so] x.del (fun _ => True) (fun _ => 0) 0 := by
  refine Tri.parts ?_
  unfold Db.del Db.parts
  hrun
  hcall (delDec_ok so x.dec1)
  hcall (delDec_ok so x.dec2)
  hrun
  hcall (x.fft.del_ok so)
  refine Tri.bindPure ?_
  hrun
  hend []

/-! ### Keys -/

/-- Blocks of a `GetKeyMode`. -/
def Key.parts (x : Key) : List Blocks :=
  [blk x.self (so.obj .getKeyMode), x.chroma.own so, blk x.decimated (8 * x.N), blk x.chromaBuffer (8 * (36 * x.cbs)), blk x.meanHpcp (8 * 36), blk x.majCorr (8 * 36), blk x.minCorr (8 * 36),
    blk x.majNorm (8 * 36), blk x.minNorm (8 * 36), blk x.median (4 * x.mws), blk x.sorted (4 * x.mws), x.decimator.own so, blk x.strengths (8 * 24)]
def Key.own (x : Key) : Blocks := (x.parts so).sum

theorem Key.new_ok (K N dec cbs mws : Nat) :
    Tri [] (Key.new so K N dec cbs mws) (fun o => match o with | none => N % 2 = 1 | some x => N % 2 = 0 ∧ x.chroma.Good) (fun o => o.elim 0 (Key.own so))
      (if N % 2 = 1 then {8 * 36, so.obj .constantQ, 8 * (2 * K)} else 0) := by
  unfold Key.new
  hrun
  refine Tri.sizes (by rw [add_zero]) (Tri.call0 (L' := 0) (Chroma.new_ok so 36 K N) fun o ho => ?_)
  cases o with
  | none =>
    dsimp only [Option.elim]
    hrun
    exact Tri.ret ho (by simp)
  | some c =>
    replace ho : N % 2 = 0 ∧ c.Good ∧ c.fft.n = N := ho
    dsimp only [Option.elim]
    hrun
    refine Tri.call0P (Dec.new_ok so (N * dec)) fun d _ => ?_
    hrun
    refine Tri.ret ⟨ho.1, ho.2.1⟩ ?_
    simp only [List.sum_cons, List.sum_nil, Option.elim, Key.own, Key.parts]
    abel

theorem Key.process_ok (x : Key) (g : x.chroma.Good) (w : Nat → Nat) (tmps : List Nat) : Tri [x.own so] (x.process so w tmps) (fun y => y.chroma.Good) (Key.own so) 0 := by
  refine Tri.parts ?_
  unfold Key.process Key.parts
  hrun
  hcall (x.decimator.process_ok so)
  hrun
  refine Tri.callP (by htake) (x.chroma.processTime_ok so g w tmps) fun c hc => ?_
  have hu : Tri [c.own so] (use c.chroma) (fun _ => True) (fun _ => c.own so) 0 := by
    refine Tri.parts ?_
    unfold Chroma.parts
    refine Tri.bindPure ?_
    hrun
    hend [Chroma.own, Chroma.parts]
  hcall hu
  hrun
  refine Tri.ret hc ?_
  simp only [List.sum_cons, List.sum_nil, Key.own, Key.parts]
  abel

theorem Key.del_ok (x : Key) : Tri [x.own so] x.del (fun _ => True) (fun _ => 0) 0 := by
  refine Tri.parts ?_
  unfold Key.del Key.parts
  hrun
  hcall (x.chroma.del_ok so)
  hcall (x.decimator.del_ok so)
  hrun
  refine Tri.bindPure ?_
  hrun
  hend []

end QM.Heap
