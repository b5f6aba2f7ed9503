import Verif.Heap.Objects

/-!
# The analysis objects as classes, and what they lose

`Losses` is a specification of the blocks of memory that objects of a class never release.
-/

namespace QM.Heap

variable (so : Sizes)

/-- A method that leaves the object as it is. -/
def keep {O : Type} (f : O → M Unit) (o : O) : M O := do
  f o
  pure o

/-! ### The classes -/

/-- `FFT`, with its method `process`. -/
def fftClass : Class Nat Fft (Bool × List Nat) := ⟨fun n => do let x ← Fft.new so n; pure (some x), fun p => keep fun x => x.process p.1 p.2, Fft.del⟩
/-- `FFTReal`. -/
def fftRealClass : Class Nat FftReal FftOp := ⟨FftReal.new so, FftReal.step, FftReal.del⟩
/-- `Window<double>`. -/
def windowClass : Class Nat Win WinOp := ⟨fun n => do let x ← Win.new so n; pure (some x), Win.step, Win.del⟩
/-- `ConstantQ` with numbers of bins and of samples. -/
def constantQClass : Class (Nat × Nat) Cq CqOp := ⟨fun a => do let x ← Cq.new so a.1 a.2; pure (some x), Cq.step so, Cq.del⟩
/-- `Chromagram` with bins per octave, number of bins and frame length. -/
def chromagramClass : Class (Nat × Nat × Nat) Chroma ChromaOp := ⟨fun a => Chroma.new so a.1 a.2.1 a.2.2, Chroma.step so, Chroma.del⟩
/-- `Decimator`. -/
def decimatorClass : Class Nat Dec Unit := ⟨fun n => do let x ← Dec.new so n; pure (some x), fun _ => keep Dec.process, Dec.del⟩
/-- `DecimatorB`; the flag tells whether the factor is accepted. -/
def decimatorBClass : Class (Nat × Bool) DecB Unit := ⟨fun a => do let x ← DecB.new so a.1 a.2; pure (some x), fun _ => keep DecB.process, DecB.del⟩
/-- `PhaseVocoder`. -/
def phaseVocoderClass : Class Nat Pv (Option (List Nat)) := ⟨Pv.new so, fun t => keep fun x => x.process t, Pv.del⟩
/-- `DetectionFunction`. -/
def detectionFunctionClass : Class Nat Df (Option (List Nat)) := ⟨Df.new so, fun t => keep fun x => x.process t, Df.del⟩
/-- Length, order of the filter, and the two ends of the median window. -/
structure DfpArgs where
  n : Nat
  ord : Nat
  pre : Nat
  post : Nat
/-- `DFProcess`. -/
def dfProcessClass : Class DfpArgs Dfp Unit := ⟨fun a => do let x ← Dfp.new so a.n a.ord a.pre a.post; pure (some x), fun _ => keep Dfp.process, Dfp.del⟩
/-- `PeakPicking`; the argument of `process` is the length of the detection function. -/
def peakPickingClass : Class DfpArgs Pp Nat := ⟨fun a => do let x ← Pp.new so a.n a.ord a.pre a.post; pure (some x), fun l => keep fun x => x.process l, Pp.del⟩
/-- `Framer`; the method is `configure`, the others allocate nothing. -/
def framerClass : Class Unit Fr (Nat × Nat) := ⟨fun _ => pure (some Fr.new), fun a x => x.configure a.1 a.2, Fr.del⟩
/-- `TempoTrack` with window and lag length. -/
def tempoTrackClass : Class (Nat × DfpArgs) Tt (List TtFrame) :=
  ⟨fun a => do let x ← Tt.new so a.1 a.2.n a.2.ord a.2.pre a.2.post; pure (some x), fun fs => keep fun x => x.process fs, Tt.del⟩
/-- Sizes of an `MFCC`. -/
structure MfccArgs where
  n : Nat
  nceps : Nat
  filters : Nat
  c0 : Bool
/-- `MFCC`. -/
def mfccClass : Class MfccArgs Mfcc (Option (List Nat)) := ⟨fun a => Mfcc.new so a.n a.nceps a.filters a.c0, fun t => keep fun x => x.process t, Mfcc.del⟩
/-- Sizes of a `DownBeat`. -/
structure DbArgs where
  factor : Nat
  incr : Nat
  size : Nat
/-- `DownBeat`. -/
def downBeatClass : Class DbArgs Db DbOp := ⟨fun a => Db.new so a.factor a.incr a.size, Db.step so, Db.del⟩
/-- Sizes of a `GetKeyMode`. -/
structure KeyArgs where
  K : Nat
  N : Nat
  dec : Nat
  cbs : Nat
  mws : Nat
/-- `GetKeyMode`. -/
def keyClass : Class KeyArgs Key ((Nat → Nat) × List Nat) := ⟨fun a => Key.new so a.K a.N a.dec a.cbs a.mws, fun p x => x.process so p.1 p.2, Key.del⟩

/-! ### What is lost -/

/-- Odd numbers. -/
def odd (n : Nat) : Bool := n % 2 = 1

/-- Nothing is lost, and no constructor throws. -/
def noLosses {A Op : Type} : Losses A Unit Op := Losses.throwing (fun _ => false) fun _ => 0
/-- Nothing is lost, and the constructor throws for odd lengths. -/
def oddThrows {A Op : Type} (n : A → Nat) : Losses A Unit Op := Losses.throwing (fun a => odd (n a)) fun _ => 0
/-- What a `DetectionFunction` loses: four arrays if the frame length is odd. -/
def detectionFunctionLosses : Losses Nat Unit (Option (List Nat)) := Losses.throwing odd fun n => Multiset.replicate 4 (8 * (n / 2 + 1))
/-- What a `Chromagram` loses: the array of chroma values and the constant-Q object if the frame length is odd. -/
def chromagramLosses : Losses (Nat × Nat × Nat) Unit ChromaOp := Losses.throwing (fun a => odd a.2.2) fun a => {8 * a.1, so.obj .constantQ, 8 * (2 * a.2.1)}
/-- What a `GetKeyMode` loses: the same for its chromagram. -/
def keyLosses : Losses KeyArgs Unit ((Nat → Nat) × List Nat) := Losses.throwing (fun a => odd a.N) fun a => {8 * 36, so.obj .constantQ, 8 * (2 * a.K)}
/-- What assignments to a window lose: the table it had before. -/
def windowLosses : Losses Nat Nat WinOp :=
  ⟨fun n => (some n, 0), fun op n => match op with | .cut => (n, 0) | .assign m => (m, {8 * n}), fun _ => 0⟩

/-- What a `ConstantQ` loses: from the second computation of the kernel on, the kernel it had before. The state tells whether there is one. -/
def constantQLosses (kernel : Nat) : Losses (Nat × Nat) Bool CqOp :=
  ⟨fun _ => (some false, 0), fun op b => match op with | .process => (b, 0) | .sparsekernel _ _ => (true, if b then {kernel} else 0), fun _ => 0⟩

/-- What a `TempoTrack` loses: in each frame where the tempo is found to be constant, an array as long as the window. The state is the length of the window. -/
def tempoLosses : Losses (Nat × DfpArgs) Nat (List TtFrame) :=
  ⟨fun a => (some a.1, 0), fun fs win => (win, Multiset.replicate (fs.filter (·.constant)).length (8 * win)), fun _ => 0⟩

end QM.Heap
