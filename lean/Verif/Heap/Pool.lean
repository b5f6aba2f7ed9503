import Verif.Heap.SegmenterObjectProps
import Verif.Heap.Classes

/-!
# Many objects at a time

A program that creates, uses and destroys any number of objects of all classes, in any order. The objects are numbered in the order of their creation. A call of a method of an object that does not
exist, has been destroyed, or belongs to another class is left out: no program can contain it, or it is an error of the program.

One method is carried out after another; nothing is said about calls that overlap in time.
-/

namespace QM.Heap

/-! ### Programs -/

/-- What a program can do. -/
inductive PoolOp (A Op : Type)
  | create (a : A)
  | call (k : Nat) (x : Op)
  | destroy (k : Nat)

/-- One operation on the objects of a class; an object that has been destroyed, or whose constructor has thrown, is `none`. -/
def Class.one {A O Op : Type} (c : Class A O Op) : PoolOp A Op → List (Option O) → M (List (Option O))
  | .create a, s => do
    let o ← c.new a
    pure (s ++ [o])
  | .call k x, s => match s[k]?.join with
    | none => pure s
    | some o => do
      let o ← c.step x o
      pure (s.set k (some o))
  | .destroy k, s => match s[k]?.join with
    | none => pure s
    | some o => do
      c.del o
      pure (s.set k none)

/-- A program. -/
def Class.program {A O Op : Type} (c : Class A O Op) : List (PoolOp A Op) → List (Option O) → M (List (Option O))
  | [], s => pure s
  | x :: xs, s => do
    let s ← c.one x s
    c.program xs s

/-- The same for the specification of what is lost: states and sizes of blocks. -/
def Losses.one {A S Op : Type} (l : Losses A S Op) : PoolOp A Op → List (Option S) → List (Option S) × Multiset Nat
  | .create a, s => (s ++ [(l.init a).1], (l.init a).2)
  | .call k x, s => match s[k]?.join with
    | none => (s, 0)
    | some o => (s.set k (some (l.next x o).1), (l.next x o).2)
  | .destroy k, s => match s[k]?.join with
    | none => (s, 0)
    | some o => (s.set k none, l.fin o)

/-- What a program loses. -/
def Losses.program {A S Op : Type} (l : Losses A S Op) : List (PoolOp A Op) → List (Option S) → List (Option S) × Multiset Nat
  | [], s => (s, 0)
  | x :: xs, s => ((l.program xs (l.one x s).1).1, (l.one x s).2 + (l.program xs (l.one x s).1).2)

/-- All objects are created with arguments that a class accepts. -/
def PoolOp.Valid {A Op : Type} (valid : A → Prop) : PoolOp A Op → Prop
  | .create a => valid a
  | _ => True

/-! ### Objects of several classes -/

/-- A family of classes as one class. -/
def Class.family {ι : Type} [DecidableEq ι] {A O Op : ι → Type} (c : ∀ i, Class (A i) (O i) (Op i)) : Class (Σ i, A i) (Σ i, O i) (Σ i, Op i) where
  new a := do
    let o ← (c a.1).new a.2
    pure (o.map (Sigma.mk a.1))
  step x o := if h : x.1 = o.1 then do
      let y ← (c o.1).step (h ▸ x.2) o.2
      pure ⟨o.1, y⟩
    else pure o
  del o := (c o.1).del o.2

/-- The same for the specifications. -/
def Losses.family {ι : Type} [DecidableEq ι] {A S Op : ι → Type} (l : ∀ i, Losses (A i) (S i) (Op i)) : Losses (Σ i, A i) (Σ i, S i) (Σ i, Op i) where
  init a := (((l a.1).init a.2).1.map (Sigma.mk a.1), ((l a.1).init a.2).2)
  next x s := if h : x.1 = s.1 then (⟨s.1, ((l s.1).next (h ▸ x.2) s.2).1⟩, ((l s.1).next (h ▸ x.2) s.2).2) else (s, 0)
  fin s := (l s.1).fin s.2

/-- The classes. -/
inductive Kind
  | fft | fftReal | window | constantQ | chromagram | decimator | decimatorB | phaseVocoder | detectionFunction | dfProcess | peakPicking | framer | tempoTrack | mfcc | downBeat | key | segmenter
deriving DecidableEq

/-- Arguments of the constructors. -/
def Kind.Args : Kind → Type
  | .fft => Nat | .fftReal => Nat | .window => Nat | .constantQ => Nat × Nat | .chromagram => Nat × Nat × Nat | .decimator => Nat | .decimatorB => Nat × Bool | .phaseVocoder => Nat
  | .detectionFunction => Nat | .dfProcess => DfpArgs | .peakPicking => DfpArgs | .framer => Unit | .tempoTrack => Nat × DfpArgs | .mfcc => MfccArgs | .downBeat => DbArgs | .key => KeyArgs
  | .segmenter => SegArgs

/-- Objects. -/
def Kind.Obj : Kind → Type
  | .fft => Fft | .fftReal => FftReal | .window => Win | .constantQ => Cq | .chromagram => Chroma | .decimator => Dec | .decimatorB => DecB | .phaseVocoder => Pv
  | .detectionFunction => Df | .dfProcess => Dfp | .peakPicking => Pp | .framer => Fr | .tempoTrack => Tt | .mfcc => Mfcc | .downBeat => Db | .key => Key | .segmenter => Seg

/-- Calls of methods. -/
def Kind.Call : Kind → Type
  | .fft => Bool × List Nat | .fftReal => FftOp | .window => WinOp | .constantQ => CqOp | .chromagram => ChromaOp | .decimator => Unit | .decimatorB => Unit | .phaseVocoder => Option (List Nat)
  | .detectionFunction => Option (List Nat) | .dfProcess => Unit | .peakPicking => Nat | .framer => Nat × Nat | .tempoTrack => List TtFrame | .mfcc => Option (List Nat) | .downBeat => DbOp
  | .key => (Nat → Nat) × List Nat | .segmenter => SegOp

/-- States of the specifications of what is lost. -/
def Kind.State : Kind → Type
  | .window => Nat | .constantQ => Bool | .tempoTrack => Nat | .segmenter => SegState | _ => Unit

variable (so : Sizes) (nb : Nat)

/-- The class of each kind. -/
def classOf : ∀ i : Kind, Class i.Args i.Obj i.Call
  | .fft => fftClass so | .fftReal => fftRealClass so | .window => windowClass so | .constantQ => constantQClass so | .chromagram => chromagramClass so | .decimator => decimatorClass so
  | .decimatorB => decimatorBClass so | .phaseVocoder => phaseVocoderClass so | .detectionFunction => detectionFunctionClass so | .dfProcess => dfProcessClass so
  | .peakPicking => peakPickingClass so | .framer => framerClass | .tempoTrack => tempoTrackClass so | .mfcc => mfccClass so | .downBeat => downBeatClass so | .key => keyClass so
  | .segmenter => segClass so nb

/-- What objects of each kind lose. -/
def lossesOf : ∀ i : Kind, Losses i.Args i.State i.Call
  | .fft => noLosses | .fftReal => oddThrows id | .window => windowLosses | .constantQ => constantQLosses (so.obj .sparseKernel) | .chromagram => chromagramLosses so | .decimator => noLosses
  | .decimatorB => noLosses | .phaseVocoder => oddThrows id | .detectionFunction => detectionFunctionLosses | .dfProcess => noLosses
  | .peakPicking => noLosses | .framer => noLosses | .tempoTrack => tempoLosses | .mfcc => oddThrows MfccArgs.n | .downBeat => noLosses | .key => keyLosses so
  | .segmenter => segLosses so

/-- Arguments for which the life of an object is known: the factor of a downbeat tracker is not zero and its beat frames have an even length; the histogram length of a segmenter is not zero. -/
def validOf : ∀ i : Kind, i.Args → Prop
  | .downBeat, a => 0 < DbArgs.factor a ∧ DbArgs.size a % 2 = 0
  | .segmenter, a => 0 < SegArgs.hist a
  | _, _ => True

/-- All the classes together. -/
def library : Class (Σ i : Kind, i.Args) (Σ i : Kind, i.Obj) (Σ i : Kind, i.Call) := Class.family (classOf so nb)

/-- What objects of the library lose. -/
def libraryLosses : Losses (Σ i : Kind, i.Args) (Σ i : Kind, i.State) (Σ i : Kind, i.Call) := Losses.family (lossesOf so)

/-- Arguments for which the lives of all objects are known. -/
def libraryValid (a : Σ i : Kind, i.Args) : Prop := validOf a.1 a.2

end QM.Heap
