import Verif.MathInt.Props
import Verif.MathReal.Props
import Verif.MathReal.LpProps
import Verif.MedianFilter.Props
import Verif.Filter.Props
import Verif.Filter.FirProps
import Verif.Framer.Props
import Verif.Decimator.Props
import Verif.Resampler.Props
import Verif.BlockAllocator.Props
import Verif.Async.Props
import Verif.Kiss.Props
import Verif.FFT.Props
import Verif.FFT.RealProps
import Verif.DCT.Props
import Verif.PhaseVocoder.Props
import Verif.Window.Props
import Verif.DetectionFunction.Props
import Verif.PolyFit.Props
import Verif.DFProcess.Props
import Verif.PeakPicking.Props
import Verif.KeyMode.Props
import Verif.KeyMode.AudioProps
import Verif.Distance.Props
import Verif.Correlation.Props
import Verif.Pitch.Props
import Verif.Pca.Props
import Verif.Hmm.Props
import Verif.Hmm.TrainProps
import Verif.Hmm.ViterbiProps
import Verif.Hmm.InitProps
import Verif.TempoTrackV2.Props
import Verif.TempoTrackV2.BeatsProps
import Verif.TempoTrack.Props
import Verif.DownBeat.BufferProps
import Verif.DownBeat.Props
import Verif.DownBeat.Object
import Verif.DownBeat.ObjectProps
import Verif.Segment.Props
import Verif.Segment.MeltProps
import Verif.Segment.Mpeg7Props
import Verif.ConstantQ.Props
import Verif.ConstantQ.KernelProps
import Verif.ConstantQ.ChromaProps
import Verif.Wavelet.Props
import Verif.DecimatorB.Props
import Verif.KissSize.Props
import Verif.BeatSpectrum.Props
import Verif.Tonal.ChangeProps
import Verif.Mfcc.Props
import Verif.Resampler.DesignProps
import Verif.Segment.PipelineProps
import Verif.Segment.ExtractProps
import Verif.Pca.ProjectProps
import Verif.Mutex.Props
import Verif.Condition.Props
import Verif.Thread.Props
import Verif.Decimator.ResponseProps
import Verif.Decimator.RoundedProps
import Verif.TempoTrackV2.FilterProps
import Verif.Hmm.EmProps
import Verif.Hmm.InvertProps
import Verif.Lapack.Props
import Verif.FFT.RoundedProps
import Verif.FFT.RoundedRealProps
import Verif.DecimatorB.ResponseProps
import Verif.DecimatorB.RoundedProps
import Verif.PhaseVocoder.RoundedProps
import Verif.Level.Props
import Verif.Filter.ZeroPhase
import Verif.Counting.Props
import Verif.Resampler.RoundedProps
import Verif.Filter.RoundedProps
import Verif.Filter.SteadyProps
import Verif.Pitch.RoundedProps
import Verif.ConstantQ.RoundedProps
import Verif.TempoTrackV2.PulseProps
import Verif.KeyMode.Robust
import Verif.KeyMode.RobustProps
import Verif.Nan.Props
import Verif.MathReal.Rounded
import Verif.MathReal.RoundedLemmas
import Verif.MathReal.RoundedProps
import Verif.KeyMode.TransposeProps
import Verif.Nan.AgreeProps
import Verif.DownBeat.Bars
import Verif.DownBeat.BarsProps
import Verif.Filter.NoFeedback
import Verif.PeakPicking.Events
import Verif.PeakPicking.EventsProps
import Verif.Common.Ext
import Verif.Hmm.Underflow
import Verif.Hmm.UnderflowLemmas
import Verif.Hmm.UnderflowProps
import Verif.Hmm.ConstantProps
import Verif.DetectionFunction.Noise
import Verif.DetectionFunction.NoiseProps
import Verif.Mfcc.Power
import Verif.Mfcc.PowerProps
import Verif.Common.Binary
import Verif.Machine.Model
import Verif.Machine.Run
import Verif.Machine.Lemmas
import Verif.Machine.Props
import Verif.Machine.RaceProps
import Verif.BlockSize.Props
import Verif.Heap.SegmenterProps
import Verif.Heap.ObjectsProps
import Verif.Heap.SegmenterObjectProps
import Verif.Heap.PoolProps
import Verif.Heap.CopiesProps
import Verif.Random.Props
import Verif.Random.FreshProps
import Verif.Wavelet.BankProps
import Verif.Distance.Rounded
import Verif.Distance.RoundedProps
import Verif.Forget.Detection
import Verif.Forget.Props
import Verif.Hmm.RoundedViterbi
import Verif.Hmm.RoundedViterbiProps
import Verif.Silence.Detection
import Verif.Silence.Stream
import Verif.Onsets.Props
import Verif.Win.MutexProps
import Verif.Win.ConditionProps
import Verif.Win.AsyncProps
import Verif.Win.HandlesProps
import Verif.Decimator.SingleProps
import Verif.Mutex.UncheckedProps
import Verif.Win.UncheckedProps
import Verif.Window.KaiserProps
import Verif.Wavelet.EnergyProps
import Verif.FFT.SignalProps
import Verif.DCT.RoundedProps
import Verif.DCT.UnitaryProps
import Verif.Correlation.RoundedProps
import Verif.Tonal.StabilityProps
import Verif.Smoothing.Props
import Verif.Pca.InvarianceProps
import Verif.PolyFit.EquivariantProps
