import Verif.Heap.Pool

/-!
# Copies of objects

Of the classes that are modelled only `Window` has a copy constructor of its own, base/Window.h:51; for the others, none of which forbids copies, the compiler makes one that copies pointers and not
what they point to.
-/

namespace QM.Heap

variable (so : Sizes)

/-- The copy constructor of each class. An `FFT` and a `Framer` are members or local variables, the others are copied with `new`. -/
def copyOf : ∀ i : Kind, i.Obj → M i.Obj
  | .fft, x => pure x
  | .fftReal, x => do let p ← malloc (so.obj .fftReal); pure { (x : FftReal) with self := p }
  | .window, x => do
    let p ← malloc (so.obj .window)
    let cache ← malloc (8 * Win.n x)
    pure (⟨Win.n x, p, cache⟩ : Win)
  | .constantQ, x => do let p ← malloc (so.obj .constantQ); pure { (x : Cq) with self := p }
  | .chromagram, x => do let p ← malloc (so.obj .chromagram); pure { (x : Chroma) with self := p }
  | .decimator, x => do let p ← malloc (so.obj .decimator); pure { (x : Dec) with self := p }
  | .decimatorB, x => do let p ← malloc (so.obj .decimatorB); pure { (x : DecB) with self := p }
  | .phaseVocoder, x => do let p ← malloc (so.obj .phaseVocoder); pure { (x : Pv) with self := p }
  | .detectionFunction, x => do let p ← malloc (so.obj .detectionFunction); pure { (x : Df) with self := p }
  | .dfProcess, x => do let p ← malloc (so.obj .dfProcess); pure { (x : Dfp) with self := p }
  | .peakPicking, x => do let p ← malloc (so.obj .peakPicking); pure { (x : Pp) with self := p }
  | .framer, x => pure x
  | .tempoTrack, x => do let p ← malloc (so.obj .tempoTrack); pure { (x : Tt) with self := p }
  | .mfcc, x => do let p ← malloc (so.obj .mfcc); pure { (x : Mfcc) with self := p }
  | .downBeat, x => do let p ← malloc (so.obj .downBeat); pure { (x : Db) with self := p }
  | .key, x => do let p ← malloc (so.obj .getKeyMode); pure { (x : Key) with self := p }
  | .segmenter, x => do let p ← malloc (so.obj .segmenter); pure { (x : Seg) with self := p }

/-- An object is copied, and both are destroyed. -/
def copyLife (nb : Nat) (i : Kind) (o : i.Obj) : M Unit := do
  let p ← copyOf so i o
  (classOf so nb i).del o
  (classOf so nb i).del p

/-- A window is created, used and copied; both are used further and destroyed. -/
def windowCopyLife (n : Nat) (ops ops₁ ops₂ : List WinOp) : M Unit := do
  let o ← Win.new so n
  let o ← (windowClass so).steps ops o
  let p ← copyOf so .window o
  let o ← (windowClass so).steps ops₁ o
  let p ← (windowClass so).steps ops₂ p
  Win.del o
  Win.del p

/-- The size of a window after assignments. -/
def sizeAfter (n : Nat) : List WinOp → Nat
  | [] => n
  | .cut :: l => sizeAfter n l
  | .assign m :: l => sizeAfter m l

end QM.Heap
