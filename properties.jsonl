{"id": "C01", "title": "Power-of-two helpers are exact", "statement": "MathUtilities::isPowerOfTwo(x) is true exactly when x is a positive power of two (1 included). nextPowerOfTwo(x) is the smallest power of two that is >= x, previousPowerOfTwo(x) the largest that is <= x (1 for x < 1), and nearestPowerOfTwo(x) is a power of two at least as close to x as any other, ties going upward; no signed overflow happens on the way.", "quantifier": "every C int x (the whole 32-bit range), with the exact threshold above which the functions overflow", "why_tests_cant": "The domain is 2^32 values and the failure sits at the very top of it; a test samples a handful of values.", "anchors": ["maths/MathUtilities.cpp:isPowerOfTwo", "maths/MathUtilities.cpp:nextPowerOfTwo", "maths/MathUtilities.cpp:previousPowerOfTwo", "maths/MathUtilities.cpp:nearestPowerOfTwo"]}
{"id": "C02", "title": "gcd and factorial return the mathematical value", "statement": "MathUtilities::gcd(a,b) returns the greatest common divisor of a and b for all non-negative a and positive b; gcd(a,0) is a division by zero. factorial(x) returns x! for x >= 0 (1 for x = 0) and 0 for negative x.", "quantifier": "all pairs of non-negative integers; all x", "why_tests_cant": "Infinitely many pairs; the recursion must terminate and stay inside the guard for all of them.", "anchors": ["maths/MathUtilities.cpp:gcd", "maths/MathUtilities.cpp:factorial"]}
{"id": "C03", "title": "princarg and mod wrap into one period", "statement": "MathUtilities::mod(x,y) for y > 0 lies in [0,y) and differs from x by an integer multiple of y. princarg(a) differs from a by an integer multiple of 2*pi and lies in the interval [-pi, pi) promised by the header.", "quantifier": "all reals x and y > 0, all angles", "why_tests_cant": "Boundary behaviour at exact multiples of the period is a measure-zero set that sampled tests miss; the documented half-open interval is decided there.", "anchors": ["maths/MathUtilities.cpp:mod", "maths/MathUtilities.cpp:princarg", "maths/MathUtilities.h"]}
{"id": "C04", "title": "Order and summary statistics are correct", "statement": "median returns the middle order statistic (mean of the two middle ones for even length, 0 for an empty vector) and leaves its argument alone; mean of a range is sum/count; getMax returns the largest value and the first index at which it occurs; getFrameMinMax returns the minimum and maximum of the block; none of them depends on the order of equal inputs in any other way.", "quantifier": "all vectors of all lengths (non-empty where the code requires it)", "why_tests_cant": "Universally quantified over vectors of any length; index arithmetic errors only show at particular lengths.", "anchors": ["maths/MathUtilities.cpp:median", "maths/MathUtilities.cpp:mean", "maths/MathUtilities.cpp:getMax", "maths/MathUtilities.cpp:getFrameMinMax", "maths/MathUtilities.cpp:sum"]}
{"id": "C05", "title": "circShift is a rotation", "statement": "MathUtilities::circShift(data, length, shift) rotates the block right by shift places: afterwards element (i+shift) mod length holds what element i held, for non-negative shift; the multiset of values is unchanged and shifting by length is the identity. A negative shift leaves the block alone and length 0 divides by zero.", "quantifier": "all blocks, all lengths, all shifts", "why_tests_cant": "Quantifies over all lengths and all shifts, including shift larger than length.", "anchors": ["maths/MathUtilities.cpp:circShift"]}
{"id": "C06", "title": "normalise really normalises", "statement": "normalise(data, NormaliseUnitSum) on a block whose sum is non-zero yields a block that sums to 1 and is proportional to the input; with NormaliseUnitMax the largest absolute value becomes 1; a block whose sum (or maximum) is zero is left unchanged; NormaliseNone never changes anything; the vector and array overloads agree.", "quantifier": "all vectors of all lengths, all three normalisation types", "why_tests_cant": "All lengths, sign patterns and the degenerate all-zero case; overload agreement is a universally quantified equation.", "anchors": ["maths/MathUtilities.cpp:normalise"]}
{"id": "C07", "title": "adaptiveThreshold subtracts the local mean and clips at zero", "statement": "adaptiveThreshold leaves the length unchanged and replaces each value x[i] by max(0, x[i] - mean of the values within 8 before and 7 after i, the window being cut off at the ends); every output is >= 0 and <= the positive part of the input when the input is non-negative; no element outside the vector is read.", "quantifier": "all vectors of all lengths including ones shorter than the window", "why_tests_cant": "The edge handling differs for every length below the window; tests use one long vector.", "anchors": ["maths/MathUtilities.cpp:adaptiveThreshold"]}
{"id": "C08", "title": "MedianFilter reports the percentile of the last N pushes", "statement": "After any sequence of push and reset calls, MedianFilter::get returns the order statistic at rank floor(size*percentile/100) (clamped to the valid range) of the last `size` values pushed, values before the start (or before the last reset) counting as zero and NaN counting as zero.", "quantifier": "every window size >= 1, every percentile, every history of push/reset calls", "why_tests_cant": "The internal sorted copy is updated incrementally; a wrong drop only shows after particular histories with duplicates.", "anchors": ["maths/MedianFilter.h:MedianFilter::push", "maths/MedianFilter.h:MedianFilter::get", "maths/MedianFilter.h:MedianFilter::reset", "maths/MedianFilter.h:MedianFilter::setPercentile"]}
{"id": "C09", "title": "MedianFilter::filter is delay compensated and length preserving", "statement": "The static filter(size, in) returns a vector of exactly the input length whose element i is the median (order statistic of rank size/2) of the `size` values in[i+size/2-size+1 .. i+size/2], positions before the start and past the end of the input counting as zero.", "quantifier": "all sizes >= 1 and all input vectors, including inputs shorter than the window", "why_tests_cant": "Relation between window and length has many edge cases (short inputs, even sizes).", "anchors": ["maths/MedianFilter.h:MedianFilter::filter"]}
{"id": "C10", "title": "Filter computes the difference equation regardless of chunking", "statement": "Filter::process, called with any sequence of block lengths, produces exactly the output of the linear difference equation y[n] = sum b[i] x[n-i] - sum_{i>=1} a[i] y[n-i] with zero initial conditions applied to the concatenated input; so output never depends on how the stream is cut into blocks, and reset() returns the object to its initial behaviour.", "quantifier": "all coefficient vectors accepted by the constructor, all inputs, all sequences of block lengths and resets", "why_tests_cant": "The implementation keeps a sliding window with a periodic rewind every 20 samples; a rewind bug shows only for particular orders and stream positions.", "anchors": ["dsp/signalconditioning/Filter.cpp:Filter::process", "dsp/signalconditioning/Filter.cpp:Filter::reset"]}
{"id": "C11", "title": "Filter constructor guard and memory safety", "statement": "The constructor throws exactly when both coefficient vectors are empty, or both are non-empty and differ in length (an empty a is an FIR filter); process never touches memory outside its internal buffers for any accepted filter.", "quantifier": "all accepted filters and all streams", "why_tests_cant": "Out-of-bounds writes depend on filter order and stream position; a sanitizer run sees only the orders it is given.", "anchors": ["dsp/signalconditioning/Filter.cpp:Filter::Filter", "dsp/signalconditioning/Filter.cpp:Filter::process"]}
{"id": "C12", "title": "FiltFilt output is a function of its input", "statement": "FiltFilt::process(src,dst,length) gives the zero-phase filtering of this src alone: calling it twice with the same block gives the same answer, whatever was processed before, and its result is the forward filter, reversed, forward filter, reversed, of the odd-reflected input.", "quantifier": "all filters, all blocks, all histories of earlier calls", "why_tests_cant": "History dependence needs a pair of calls with specific leftover state; tests use a fresh object.", "anchors": ["dsp/signalconditioning/FiltFilt.cpp:FiltFilt::process"]}
{"id": "C13", "title": "Framer cuts the source into overlapping zero-padded frames", "statement": "After configure(frameLength, hop) and setSource(src, n), the k-th getFrame call delivers samples k*hop ... k*hop+frameLength-1 of the source, zero where they are past the end; getMaxNoFrames() is ceil(n/hop), and every source sample of a source is delivered in some frame when hop <= frameLength.", "quantifier": "all frame lengths and hops, all source lengths, every number of getFrame calls up to the maximum", "why_tests_cant": "All combinations of frame length, hop and source length, in particular sources that end inside a frame.", "anchors": ["dsp/signalconditioning/Framer.cpp:Framer::getFrame", "dsp/signalconditioning/Framer.cpp:Framer::setSource", "dsp/signalconditioning/Framer.cpp:Framer::configure"]}
{"id": "C14", "title": "Decimator is a streaming anti-alias filter and downsampler", "statement": "Feeding consecutive blocks to Decimator::process yields, block after block, every factor-th sample of one continuous anti-alias filtered stream (order 7 recursive filter with the coefficients for that factor), so cutting the stream into blocks does not change the output; after resetFilter it behaves like a fresh object; each block yields exactly inLength/factor samples.", "quantifier": "all factors, all block sequences", "why_tests_cant": "Continuity across blocks is a statement about every history of blocks.", "anchors": ["dsp/rateconversion/Decimator.cpp:Decimator::process", "dsp/rateconversion/Decimator.cpp:Decimator::doAntiAlias", "dsp/rateconversion/Decimator.cpp:Decimator::resetFilter"]}
{"id": "C15", "title": "Resampler output does not depend on chunking", "statement": "The samples a Resampler returns over any sequence of process calls are a prefix of one fixed stream determined only by the rates, quality and the concatenated input; cutting the input differently can only change how many samples have been delivered so far, never their values.", "quantifier": "all coprime-or-not rate pairs, all prototype filters, all sequences of block lengths", "why_tests_cant": "Statement over all ways to cut a stream; polyphase bookkeeping bugs show for particular rate ratios and block sizes.", "anchors": ["dsp/rateconversion/Resampler.cpp:Resampler::process", "dsp/rateconversion/Resampler.cpp:Resampler::reconstructOne", "dsp/rateconversion/Resampler.cpp:Resampler::initialise"]}
{"id": "C16", "title": "Resampler implements the polyphase interpolation formula", "statement": "Every output sample of Resampler is scale times the inner product of the zero-stuffed input with the prototype filter taken at the output's position on the common (upsampled) grid: sample j uses exactly the taps whose index is congruent to the output phase, no tap is skipped or used twice.", "quantifier": "all rate pairs, all output indices", "why_tests_cant": "Phase tables are built by modular arithmetic; correctness is a number theoretic identity over all rate pairs.", "anchors": ["dsp/rateconversion/Resampler.cpp:Resampler::initialise", "dsp/rateconversion/Resampler.cpp:Resampler::reconstructOne"]}
{"id": "C17", "title": "Resampler never overruns its output or its buffer", "statement": "A process(src,dst,n) call returns at most ceil(n*targetRate/sourceRate) samples (the size the caller must allocate), never reads past the buffered input, and does not throw for any rate pair whose filter is at least as long as the output spacing.", "quantifier": "all rate pairs, all filter lengths, all histories of process calls", "why_tests_cant": "Buffer arithmetic over unbounded histories.", "anchors": ["dsp/rateconversion/Resampler.cpp:Resampler::process", "dsp/rateconversion/Resampler.cpp:Resampler::reconstructOne"]}
{"id": "C18", "title": "BlockAllocator never hands out the same memory twice", "statement": "For any sequence of allocate and free calls (each free naming a live allocation), two live allocations never overlap, every live allocation lies inside memory owned by the allocator, and a freed slot is reused only after it was freed.", "quantifier": "all element sizes, all well-formed histories of allocate/free", "why_tests_cant": "Aliasing depends on the whole history of allocations and frees across 512-element blocks.", "anchors": ["thread/BlockAllocator.h:BlockAllocator::allocate", "thread/BlockAllocator.h:BlockAllocator::deallocate"]}
{"id": "C19", "title": "AsynchronousTask: awaitTask returns after exactly one performTask per startTask", "statement": "If the owner alternates startTask and awaitTask, then under every interleaving of the owner and the worker thread each awaitTask returns only after the corresponding performTask has completed, each startTask leads to exactly one performTask, the wake-up signals are never lost and no reachable state is a deadlock.", "quantifier": "all interleavings of the owner and worker threads, all numbers of start/await rounds, with and without spurious wake-ups", "why_tests_cant": "Quantifies over schedules; a lost wake-up may need a one-in-a-million interleaving.", "anchors": ["thread/AsynchronousTask.h:AsynchronousTask::startTask", "thread/AsynchronousTask.h:AsynchronousTask::awaitTask", "thread/AsynchronousTask.h:AsynchronousTask::run"]}
{"id": "C20", "title": "Timed Condition wait passes a valid deadline", "statement": "Condition::wait(us) computes the absolute deadline now + us with a nanosecond field in [0, 999999999] as pthread_cond_timedwait requires.", "quantifier": "all current times and all timeouts", "why_tests_cant": "The faulty value occurs for exactly one microsecond value in a million.", "anchors": ["thread/Thread.cpp:Condition::wait"]}
{"id": "C21", "title": "FFT size factorisation is valid", "statement": "For every FFT size n >= 1 the stored factor list (p1,m1,p2,m2,...) has p_i * m_i = m_{i-1} with m_0 = n and last m = 1, so the radices multiply to n, each radix is 4 or a prime (or 1 for n = 1), and the list fits the 32-stage array for every int n.", "quantifier": "all n from 1 to INT_MAX", "why_tests_cant": "2^31 sizes; overflow of the fixed array would need the worst-case factorisation.", "anchors": ["ext/kissfft/kiss_fft.c:kf_factor"]}
{"id": "C22", "title": "FFT computes the discrete Fourier transform", "statement": "For every size n >= 1 and every complex input, the forward transform returns X[k] = sum_j x[j] exp(-2 pi i j k / n), and the inverse without scaling returns the conjugate-kernel sum.", "quantifier": "all sizes n (every mixture of radices 2,3,4,5 and generic), all inputs", "why_tests_cant": "Mixed-radix code has a separate butterfly per radix and its correctness for all n is a theorem about recursion, not a sample of sizes.", "anchors": ["ext/kissfft/kiss_fft.c:kf_work", "ext/kissfft/kiss_fft.c:kf_bfly2", "ext/kissfft/kiss_fft.c:kf_bfly3", "ext/kissfft/kiss_fft.c:kf_bfly4", "ext/kissfft/kiss_fft.c:kf_bfly5", "ext/kissfft/kiss_fft.c:kf_bfly_generic", "dsp/transforms/FFT.cpp:FFT::process"]}
{"id": "C23", "title": "FFT round trip", "statement": "FFT::process(true, process(false, x)) returns x for every size and every input (in exact arithmetic), in both orders.", "quantifier": "all sizes n >= 1, all complex vectors", "why_tests_cant": "Universally quantified equation over all sizes.", "anchors": ["dsp/transforms/FFT.cpp:FFT::process"]}
{"id": "C24", "title": "FFTReal::forward is the DFT with its conjugate half", "statement": "For every even n >= 2 and real input, FFTReal::forward fills all n output bins with the DFT: bin n-k is the conjugate of bin k and bins 0 and n/2 are real; forwardMagnitude gives the moduli of these bins. Odd sizes are rejected.", "quantifier": "all even sizes, all real inputs", "why_tests_cant": "All even sizes; the packed half-length transform must be un-mixed properly for each.", "anchors": ["dsp/transforms/FFT.cpp:FFTReal::forward", "ext/kissfft/tools/kiss_fftr.c:kiss_fftr"]}
{"id": "C25", "title": "FFTReal inverse undoes forward", "statement": "FFTReal::inverse(forward(x)) = x for every even n and real x; inverse reads only bins 0..n/2 of its input, and on any input equals the inverse DFT of the conjugate-symmetric extension of these bins (with the imaginary parts of bins 0 and n/2 ignored).", "quantifier": "all even sizes, all inputs", "why_tests_cant": "Universally quantified over sizes and data; independence from the upper half is a hyperproperty.", "anchors": ["dsp/transforms/FFT.cpp:FFTReal::inverse", "ext/kissfft/tools/kiss_fftr.c:kiss_fftri"]}
{"id": "C26", "title": "DCT is the DCT-II, invertible, and stateless between calls", "statement": "DCT::forward returns X[k] = 2 sum_j x[j] cos(pi (j+1/2) k / n) (the unitary variant scaled to preserve energy), DCT::inverse(forward(x)) = x and inverseUnitary(forwardUnitary(x)) = x, and the result of a call depends only on its argument, not on earlier calls on the same object.", "quantifier": "all n, all inputs, all histories of calls on one object", "why_tests_cant": "The work buffers are reused without being cleared between calls; only a proof over histories excludes leakage.", "anchors": ["dsp/transforms/DCT.cpp:DCT::forward", "dsp/transforms/DCT.cpp:DCT::inverse", "dsp/transforms/DCT.cpp:DCT::forwardUnitary"]}
{"id": "C27", "title": "Phase vocoder unwrapping is consistent", "statement": "After any sequence of process calls each returned unwrapped phase is congruent to the measured phase modulo 2 pi and lies within pi of (previous unwrapped phase + expected advance for that bin and hop); after reset the object behaves as a newly built one.", "quantifier": "all frame sequences, all bins, all hops", "why_tests_cant": "An invariant over unbounded histories.", "anchors": ["dsp/phasevocoder/PhaseVocoder.cpp:PhaseVocoder::unwrapPhases", "dsp/phasevocoder/PhaseVocoder.cpp:PhaseVocoder::reset"]}
{"id": "C28", "title": "Onset detection functions are well behaved", "statement": "After every history of frames DetectionFunction returns the documented value of the configured function (HFC, spectral difference, phase deviation, complex domain, broadband rise); the values are non-negative, vanish on silent frames (HFC, broadband), on repeated frames (spectral difference) and on stationary sinusoids (phase deviation, complex domain); adaptive whitening with a non-zero floor never divides by a value below its floor and yields magnitudes between 0 and 1.", "quantifier": "all frame histories and parameter settings in range", "why_tests_cant": "Invariants of running peak memory over all histories.", "anchors": ["dsp/onsets/DetectionFunction.cpp:DetectionFunction::HFC", "dsp/onsets/DetectionFunction.cpp:DetectionFunction::specDiff", "dsp/onsets/DetectionFunction.cpp:DetectionFunction::broadband", "dsp/onsets/DetectionFunction.cpp:DetectionFunction::whiten"]}
{"id": "C29", "title": "Peak picking reports genuine peaks in order", "statement": "PeakPicking's reported onsets are strictly increasing indices inside the detection function, exactly those at least two places from either end where the smoothed function is positive, strictly above both neighbours, and whose least-squares parabola over five points is curved more sharply than the first threshold or higher than the third; fewer than 4 samples give no onsets.", "quantifier": "all detection functions and threshold settings", "why_tests_cant": "For-all over signals; index errors are at the edges.", "anchors": ["dsp/onsets/PeakPicking.cpp:PeakPicking::process", "dsp/onsets/PeakPicking.cpp:PeakPicking::quadEval"]}
{"id": "C30", "title": "Key detection returns a key in range, median-smoothed over recent history", "statement": "GetKeyMode::process always returns a key in 1..24 and it is the (lower) median of the raw keys of the last min(calls, window) calls; the averaged chroma used for a call is the mean of the last min(calls, average length) chroma frames.", "quantifier": "all histories of process calls, all window lengths >= 1", "why_tests_cant": "Ring buffers with partial filling: a property of every history.", "anchors": ["dsp/keydetection/GetKeyMode.cpp:GetKeyMode::process"]}
{"id": "C31", "title": "Key profile correlations are true correlation coefficients", "statement": "The key strengths are the maxima over tuning variants of Pearson correlations between the mean chroma and shifted key profiles, each in [-1,1]; a zero-variance input gives 0 and never a division by zero.", "quantifier": "all chroma vectors", "why_tests_cant": "Range claim over all real vectors (Cauchy-Schwarz).", "anchors": ["dsp/keydetection/GetKeyMode.cpp:GetKeyMode::krumCorr", "dsp/keydetection/GetKeyMode.cpp:GetKeyMode::getKeyStrengths"]}
{"id": "C32", "title": "HMM forward-backward computes exact posteriors and likelihood", "statement": "For all model parameters and observation likelihoods for which the scaling never divides by zero, gamma[t][i] is the posterior probability of state i at time t, xi[t][i][j] that of the transition, computed as ratios of sums over all state paths, each gamma[t] and xi[t] sums to 1, and the returned log-likelihood is the log of the sum over all paths.", "quantifier": "all N, T, all non-negative parameters", "why_tests_cant": "Sums over exponentially many paths: exactness of the recursion is an induction on T.", "anchors": ["hmm/hmm.c:forward_backwards"]}
{"id": "C33", "title": "Baum-Welch re-estimation keeps probabilities stochastic", "statement": "After a re-estimation step the initial distribution and every transition row with non-zero expected occupancy are non-negative and sum to one.", "quantifier": "all N, T, posteriors produced by forward-backward", "why_tests_cant": "Invariant of every iteration for all data.", "anchors": ["hmm/hmm.c:baum_welch"]}
{"id": "C34", "title": "Viterbi decoding returns a most likely state path", "statement": "The state sequence written by viterbi_decode has length T, entries in 0..N-1, and its log-probability is at least that of every other state sequence.", "quantifier": "all models, all observation sequences, all competing paths", "why_tests_cant": "The claim ranges over N^T competing paths.", "anchors": ["hmm/hmm.c:viterbi_decode"]}
{"id": "C35", "title": "Tempo tracker beat-period path is optimal and in range", "statement": "TempoTrackV2::calculateBeatPeriod assigns to each 128-frame step a beat period in 0..127 such that the sequence maximises the product of weights, comb-filter outputs and transition weights over all sequences; every entry of the output vector is written inside its bounds and tempi are computed for each entry; inputs with fewer than two analysis frames leave the vector untouched.", "quantifier": "all detection functions", "why_tests_cant": "Optimality over all paths; index bounds over all lengths.", "anchors": ["dsp/tempotracking/TempoTrackV2.cpp:TempoTrackV2::viterbi_decode", "dsp/tempotracking/TempoTrackV2.cpp:TempoTrackV2::calculateBeatPeriod"]}
{"id": "C36", "title": "Beat tracking returns increasing beat positions inside the input", "statement": "TempoTrackV2::calculateBeats returns strictly increasing frame indices in [0, n) for any detection function of n frames and any non-negative beat periods of at least that length, terminates, and never reads outside its arrays.", "quantifier": "all detection functions, beat-period vectors and parameters", "why_tests_cant": "Back-tracking loop termination and memory safety for all inputs; the failing inputs are short ones.", "anchors": ["dsp/tempotracking/TempoTrackV2.cpp:TempoTrackV2::calculateBeats"]}
{"id": "C37", "title": "Classic tempo tracker beat placement terminates and is ordered", "statement": "TempoTrack's per-frame beat placement adds at least one beat per frame, terminates, spaces beats in a frame by exactly the rounded period, and the overall beat list is strictly increasing; tempo-change detection never looks back before the first frame.", "quantifier": "all period/alignment histories", "why_tests_cant": "Termination and ordering over all sequences of frames.", "anchors": ["dsp/tempotracking/TempoTrack.cpp:TempoTrack::beatPredict", "dsp/tempotracking/TempoTrack.cpp:TempoTrack::stepDetect", "dsp/tempotracking/TempoTrack.cpp:TempoTrack::constDetect", "dsp/tempotracking/TempoTrack.cpp:TempoTrack::process"]}
{"id": "C38", "title": "DownBeat audio buffering never overruns and is a concatenation", "statement": "After any number of pushAudioBlock calls the buffered audio is the concatenation of the decimated blocks, its length is calls * increment / factor, and no write goes outside the allocated buffer, for the documented factors; resetAudioBuffer empties it.", "quantifier": "all histories of push/reset, all increments, all factors", "why_tests_cant": "Geometric buffer growth over unbounded histories.", "anchors": ["dsp/tempotracking/DownBeat.cpp:DownBeat::pushAudioBlock", "dsp/tempotracking/DownBeat.cpp:DownBeat::makeDecimators", "dsp/tempotracking/DownBeat.cpp:DownBeat::getBufferedAudio", "dsp/tempotracking/DownBeat.cpp:DownBeat::resetAudioBuffer"]}
{"id": "C39", "title": "Downbeats are one residue class of beat indices", "statement": "findDownBeats reports exactly the beat indices congruent to some d modulo the bar length starting at d < bar length, where d maximises the mean spectral change into that beat; it never reads audio outside the supplied buffer; getBeatSD yields one value per beat less one as documented.", "quantifier": "all audio lengths, beat vectors and bar lengths", "why_tests_cant": "Memory safety for all beat positions, including beats past the end of the audio.", "anchors": ["dsp/tempotracking/DownBeat.cpp:DownBeat::findDownBeats", "dsp/tempotracking/DownBeat.cpp:DownBeat::getBeatSD"]}
{"id": "C40", "title": "PolyFit2 returns the least-squares polynomial", "statement": "When TPolyFit::PolyFit2 succeeds (does not return -1) on n >= 2 points, the coefficients minimise the sum of squared residuals over all polynomials with that many terms, and it reports failure exactly when the normal equations are singular.", "quantifier": "all point sets, all numbers of terms, all competing polynomials", "why_tests_cant": "Optimality against every other polynomial; elimination with full pivoting over all matrices.", "anchors": ["maths/Polyfit.h:TPolyFit::PolyFit2", "maths/Polyfit.h:TPolyFit::GaussJordan", "maths/Polyfit.h:TPolyFit::GaussJordan2", "maths/Polyfit.h:TPolyFit::Square"]}
{"id": "C41", "title": "Segmentation tiles the feature sequence", "statement": "The segmentation made from n cluster labels consists of contiguous segments from 0 to n*hop with no gaps or overlaps and positive length, neighbouring segments have different types, and expanding the segments gives back the label sequence; every type is a valid label of the documented range.", "quantifier": "all label sequences, hop sizes", "why_tests_cant": "Round trip over all label sequences.", "anchors": ["dsp/segmentation/ClusterMeltSegmenter.cpp:ClusterMeltSegmenter::makeSegmentation", "dsp/segmentation/segment.h"]}
{"id": "C42", "title": "Cluster labels are always valid", "statement": "cluster_melt writes for each histogram a label between 1 and the number of clusters, whatever the data, schedule or random initialisation, and stops after at most 20 + 5*(t-1) iterations.", "quantifier": "all histograms, schedules, random seeds", "why_tests_cant": "Ranges over random initial states and real data.", "anchors": ["dsp/segmentation/cluster_melt.c:cluster_melt"]}
{"id": "C43", "title": "State histograms count a sliding window", "statement": "create_histograms gives for each position i at least half a window from both ends the counts of each label in the window centred on i divided by their sum of squares, repeats the first/last complete histogram at the ends, and never writes outside h when every label is in range and the window is odd and not longer than the data.", "quantifier": "all label sequences, window lengths, numbers of labels", "why_tests_cant": "All lengths and edge cases.", "anchors": ["dsp/segmentation/cluster_segmenter.c:create_histograms"]}
{"id": "C44", "title": "Segmenter decimation factor choice is supported", "statement": "For every sample rate the segmenter's internal decimation factor is 1, 2, 4 or 8, is the smallest power of two not below the integer quotient samplerate/11025 (capped at 8), and the search loop terminates.", "quantifier": "all sample rates", "why_tests_cant": "All sample rates.", "anchors": ["dsp/segmentation/ClusterMeltSegmenter.cpp:ClusterMeltSegmenter::initialise"]}
{"id": "C45", "title": "ConstantQ transform writes only its own bins and its two interfaces agree", "statement": "ConstantQ::process (both overloads) computes for each bin the sparse kernel inner product with the spectrum, writes only the 2*K (or K) output values, and the interleaved and the split overload give the same result for the same spectrum.", "quantifier": "all sparse kernels, all spectra", "why_tests_cant": "Overload agreement is an equation over all inputs; the stray write is one element past the end and silent.", "anchors": ["dsp/chromagram/ConstantQ.cpp:ConstantQ::process"]}
{"id": "C46", "title": "Chroma folding sums octaves", "statement": "Chromagram and cq2chroma output for each pitch class the sum over octaves of the magnitudes of the bins of that class, so total magnitude is preserved and no bin is counted twice.", "quantifier": "all constant-Q vectors, bins per octave and octave counts", "why_tests_cant": "Index arithmetic over all sizes.", "anchors": ["dsp/chromagram/Chromagram.cpp:Chromagram::process", "dsp/segmentation/cluster_segmenter.c:cq2chroma"]}
{"id": "C47", "title": "Cosine distance is a bounded, symmetric, scale-invariant dissimilarity", "statement": "CosineDistance::distance is in [0,2] up to the documented regularisation, symmetric, invariant under positive scaling, zero for a positive multiple of the same non-zero vector, and 1 for vectors of different lengths.", "quantifier": "all pairs of vectors", "why_tests_cant": "Inequality over all real vectors.", "anchors": ["maths/CosineDistance.cpp:CosineDistance::distance"]}
{"id": "C48", "title": "KL divergence between distributions is symmetric when asked and non-negative", "statement": "distanceDistribution with symmetrised=true does not depend on argument order, is non-negative on probability vectors and zero on equal ones; distanceGaussian is symmetric.", "quantifier": "all vectors of equal length with positive entries", "why_tests_cant": "Inequality (Gibbs) over all distributions.", "anchors": ["maths/KLDivergence.cpp:KLDivergence::distanceDistribution", "maths/KLDivergence.cpp:KLDivergence::distanceGaussian"]}
{"id": "C49", "title": "Unbiased autocorrelation formula and positivity", "statement": "Correlation::doAutoUnBiased writes for each lag the mean product of the overlapping samples, or the small positive EPS when that is not positive, so all outputs are strictly positive; lag 0 is the mean energy, and no lag has a larger total product than lag 0.", "quantifier": "all blocks of all lengths", "why_tests_cant": "All lengths.", "anchors": ["maths/Correlation.cpp:Correlation::doAutoUnBiased"]}
{"id": "C50", "title": "Analysis windows are symmetric and bounded", "statement": "Each Window type of every length n has its documented shape, satisfies w[i] = w[n-i] for 0 < i < n (the windows are periodic, Bartlett included) and has values in [0,1]; KaiserWindow satisfies w[i] = w[n-1-i] with values in (0,1], SincWindow is symmetric about element n/2 with peak 1 there, and cut multiplies element by element, in place or not.", "quantifier": "all lengths, all window types, all indices", "why_tests_cant": "All lengths including the special-cased tiny ones.", "anchors": ["base/Window.h:Window::encache", "base/KaiserWindow.cpp:KaiserWindow::init", "base/SincWindow.cpp:SincWindow::init"]}
{"id": "C51", "title": "Pitch/frequency conversion round trip", "statement": "Pitch::getPitchForFrequency returns a pitch and cents offset with the offset in [-50,50) such that getFrequencyForPitch of them is the given frequency, for every positive frequency and concert-A.", "quantifier": "all positive frequencies and tunings", "why_tests_cant": "Rounding near pitch boundaries and below pitch 0.", "anchors": ["base/Pitch.cpp:Pitch::getPitchForFrequency", "base/Pitch.cpp:Pitch::getFrequencyForPitch"]}
{"id": "C52", "title": "Covariance matrix of PCA is symmetric positive semidefinite", "statement": "covcol centres each column of the data (column sums become zero) and returns a symmetric positive semidefinite scatter matrix of the centred data.", "quantifier": "all data matrices", "why_tests_cant": "Quadratic-form inequality over all vectors.", "anchors": ["maths/pca/pca.c:covcol"]}
{"id": "C53", "title": "Wavelet filter pairs are consistent", "statement": "For every supported wavelet type the low-pass and high-pass decomposition filters have equal, even length as asserted, and for the orthogonal families the high-pass filter is the alternating-sign reversal of the low-pass filter. Hence for those families the two filters are exactly orthogonal to one another at every even shift, and the low-pass filter is orthonormal to its own even shifts to the precision of the table; for every type the low-pass filter has gain sqrt 2 and the high-pass filter gain zero at frequency zero to that precision, and type names are distinct.", "quantifier": "every wavelet type in the enumeration, every coefficient", "why_tests_cant": "The table has thousands of literals; a test would need an independent copy.", "anchors": ["dsp/wavelet/Wavelet.cpp:Wavelet::createDecompositionFilters"]}
{"id": "C54", "title": "Lp and alpha norms, and unit-norm scaling", "statement": "getLpNorm(v,p) is the p-norm of v. normaliseLp(v,p,threshold) of a non-empty vector with p >= 1 and positive threshold returns a vector of the same length whose p-norm is exactly 1, whether or not the input's norm is below the threshold; above the threshold all elements are divided by one common factor. An empty vector or p = 0 is returned unchanged. getAlphaNorm lies between the smallest and the largest magnitude of the block.", "quantifier": "all vectors of all lengths, all integer exponents p >= 1, all positive thresholds", "why_tests_cant": "A universally quantified identity about vectors of any length; the fallback branch is taken only on near-silent input.", "anchors": ["maths/MathUtilities.cpp:getLpNorm", "maths/MathUtilities.cpp:normaliseLp", "maths/MathUtilities.cpp:getAlphaNorm"]}
{"id": "C55", "title": "One-off resample is latency compensated and exactly sized", "statement": "Resampler::resample(source, target, data, n) returns exactly ceil(n*target/source) samples; output i is the filter-weighted sum of the zero-extended data with the filter centred at time i/target, so the filter latency is completely removed, and none of its internal buffers is overrun.", "quantifier": "all positive rate pairs whose filter is at least as long as the output spacing, all data of all lengths", "why_tests_cant": "Padding and latency arithmetic with three different roundings-up, for all rate pairs and lengths.", "anchors": ["dsp/rateconversion/Resampler.cpp:Resampler::resample"]}
{"id": "C56", "title": "Detection function conditioning subtracts the local median", "statement": "DFProcess::process shifts and scales the block to minimum 0 and unit alpha norm, filters it with zero phase, and subtracts from every value the median of the values from winPre places before to winPost places after it (cut off at the ends of the block) and the offset delta, clamping at 0 if asked; every block that is long enough for the call is processed without reading outside it.", "quantifier": "all blocks, window extents, offsets and filters", "why_tests_cant": "The windows at the two ends of the block are handled by three separate loops; the cases depend on how the block length compares with the window extents.", "anchors": ["dsp/signalconditioning/DFProcess.cpp:DFProcess::process", "dsp/signalconditioning/DFProcess.cpp:DFProcess::medianFilter", "dsp/signalconditioning/DFProcess.cpp:DFProcess::removeDCNormalize"]}
{"id": "C57", "title": "Spectral difference of beats is a bounded divergence", "statement": "The value the downbeat tracker uses to compare the spectra of successive beats lies between 0 and log 2 for any two spectra of equal size without negative values, is 0 exactly if the parts compared have the same shape, and does not depend on the order of the two.", "quantifier": "all pairs of non-negative spectra of all sizes", "why_tests_cant": "An inequality over the reals for all vectors; rests on convexity of x log x.", "anchors": ["dsp/tempotracking/DownBeat.cpp:DownBeat::measureSpecDiff", "dsp/tempotracking/DownBeat.cpp:DownBeat::getBeatSD"]}
{"id": "C58", "title": "Histogram distance of the segmenter is a divergence", "statement": "kldist of two vectors without negative values is never negative, is 0 exactly if they are equal, and is symmetric, whether or not they are normalised.", "quantifier": "all pairs of non-negative vectors of all lengths", "why_tests_cant": "An inequality over the reals for all vectors.", "anchors": ["dsp/segmentation/cluster_melt.c:kldist"]}
{"id": "C59", "title": "Constant-Q kernel and transform of a frame", "statement": "For every configuration with positive sample rate, minimum frequency and bins per octave whose longest window has at most 2^30 samples, initialisation succeeds with a power-of-two transform length that holds the longest window, and making the sparse kernel reads and writes only inside its work arrays whatever they hold. The kernel holds exactly those bins of the Fourier transform of the Hamming-windowed sinusoid of each constant-Q bin whose magnitude is above the threshold, and refers only to bins that exist. With threshold zero the transform of the spectrum of a real frame is, for each bin, the conjugate of the inner product of the frame with that windowed sinusoid, less the contribution of frequency zero.", "quantifier": "every sample rate, frequency range and bins per octave, every threshold, every frame and every content of the work arrays", "why_tests_cant": "Tests use a few configurations and compare a few bins with a tolerance; buffer safety and the exact meaning of a bin must hold for every configuration and frame.", "anchors": ["dsp/chromagram/ConstantQ.cpp: ConstantQ::initialise, ConstantQ::sparsekernel, ConstantQ::process"]}
{"id": "C60", "title": "Power-of-two decimation is a stream of filter-and-halve steps", "statement": "DecimatorB with factor 2^k and a block length that is a multiple of it delivers, for every sequence of blocks, exactly the input stream lowpass filtered and halved in rate k times, with no trace of the block boundaries and every access inside its buffers whatever they held before. Other non-zero factors are refused: getFactor is 0 and process does nothing. The recursive filter is stable (outputs at most 18 times the largest input per stage), passes constants with gain 1 within 1e-14 and removes the alternating signal completely.", "quantifier": "all factors, block lengths, block sequences and buffer contents, all signals of all lengths", "why_tests_cant": "Filter state is carried across blocks and stages; stability and the limits hold for all signals and all times.", "anchors": ["dsp/rateconversion/DecimatorB.cpp:DecimatorB::initialise", "dsp/rateconversion/DecimatorB.cpp:DecimatorB::doAntiAlias", "dsp/rateconversion/DecimatorB.cpp:DecimatorB::doProcess", "dsp/rateconversion/DecimatorB.cpp:DecimatorB::process"]}
{"id": "C61", "title": "Beat spectrum is the normalised distance profile over lags", "statement": "BeatSpectrum::process returns one value per lag from 1 to half the number of frames, the total cosine distance of frames that far apart divided by the largest such total; all values lie in (0,1] and 1 occurs; ragged and empty matrices are processed without leaving them and an odd last frame has no influence.", "quantifier": "all feature matrices of all sizes, ragged ones included", "why_tests_cant": "All matrix shapes and contents.", "anchors": ["dsp/rhythm/BeatSpectrum.cpp:BeatSpectrum::process"]}
{"id": "C62", "title": "Tonal centroid is equivariant under transposition", "statement": "transform2TCS maps a chroma vector to its centroids on the circles of fifths, major thirds and minor thirds. Transposing by n semitones turns each centroid about the centre of its circle by n steps, so the magnitude of the tonal centroid is the same in every key. The transform is linear, and after normalizeL1 the magnitude is bounded by the radii of the circles. normalizeL1 makes the magnitudes add up to 1 or clears a vector that is practically zero.", "quantifier": "all chroma vectors, all transpositions", "why_tests_cant": "An equivariance law over all real vectors.", "anchors": ["dsp/tonal/TonalEstimator.cpp:TonalEstimator::transform2TCS", "dsp/tonal/TonalEstimator.h:ChromaVector::normalizeL1", "dsp/tonal/TonalEstimator.h:TCSVector::magnitude"]}
{"id": "C63", "title": "Harmonic change function is the distance of smoothed neighbours", "statement": "A sequence of tonal centroids gives back vector i at position i and zeros outside, stamped with i frame durations. ChangeDetectionFunction::process gives one value per frame, the Euclidean distance between the Gaussian-smoothed frames after and before it; it is 0 inside steady stretches and does not change when the whole piece is transposed.", "quantifier": "all sequences of tonal centroids of all lengths, all smoothing widths, all transpositions", "why_tests_cant": "All sequences; the code reads an uninitialised member, which a test does not notice.", "anchors": ["dsp/tonal/TCSgram.cpp:TCSGram::addTCSVector", "dsp/tonal/TCSgram.cpp:TCSGram::getTCSVector", "dsp/tonal/ChangeDetectionFunction.cpp:ChangeDetectionFunction::process", "dsp/tonal/ChangeDetectionFunction.cpp:ChangeDetectionFunction::setFilterWidth"]}
{"id": "C64", "title": "Mel cepstral coefficients of a frame", "statement": "MFCC::process writes exactly nceps values (one more with C0), the unitary cosine transform of the logarithms of forty triangular unit-area bands over the magnitude spectrum of the windowed frame, independent of earlier frames and buffer contents, and leaves the rest of the output alone. With bins at most 61 Hz apart and a sampling rate of at least twice the top edge, no band misses all bins. If every band sounds and no power is applied, changing the gain shifts C0 by a constant and leaves every other coefficient as it was; silence gives zeros.", "quantifier": "every even FFT size, sample rate, number of coefficients, window, frame, gain and call history", "why_tests_cant": "Real-valued identities for all spectra and configurations.", "anchors": ["dsp/mfcc/MFCC.cpp:MFCC::MFCC", "dsp/mfcc/MFCC.cpp:MFCC::process"]}
{"id": "C65", "title": "Next fast FFT size is the smallest 5-smooth size", "statement": "kiss_fft_next_fast_size(n) for n >= 1 returns the smallest number not below n with no prime factors other than 2, 3 and 5; it returns for every n up to 2^30, and returns exactly if such a number fits an int.", "quantifier": "all int arguments", "why_tests_cant": "Minimality and termination over the whole int range.", "anchors": ["ext/kissfft/kiss_fft.c:kiss_fft_next_fast_size"]}
{"id": "C66", "title": "Default-quality resampling works for all ordinary rates and keeps the original samples when upsampling", "statement": "For every pair of positive rates whose reduced source rate is at most 200001 and reduced target rate at most six million, a Resampler of default quality can be constructed: its prototype is a Kaiser-windowed sinc with an odd number of taps, symmetric, centre tap 1, no tap larger, of the length Kaiser's formula asks for (rounded up to odd, at most 200001). No sequence of process calls throws or leaves its buffers, the delivered stream does not depend on the block sizes, and the totals are within one sample of the exact ratio. When the target rate is not lower than the source rate the gain is 1 and every output sample at the time of an input sample equals that input sample exactly, both in streams (after the reported latency) and in the one-off resample; resampling to the same rate returns the data unchanged.", "quantifier": "all positive rates within those limits, all attenuations and bandwidths for the design, all data and all ways of cutting the input into blocks", "why_tests_cant": "The prototype depends on the pair of rates through real-valued formulas, an int conversion and a cap; tests cover a handful of rate pairs and compare with a tolerance.", "anchors": ["dsp/rateconversion/Resampler.cpp:Resampler::initialise", "dsp/rateconversion/Resampler.cpp:Resampler::resample", "base/KaiserWindow.cpp:KaiserWindow::parametersForTransitionWidth", "base/SincWindow.cpp:SincWindow::init"]}
{"id": "C67", "title": "Constant-Q features are normalised to unit rows and relative envelopes", "statement": "mpeg7_constq, given non-negative magnitudes in rows with one place more than there are coefficients, stays inside the rows; afterwards every row holds its decibel values divided by their Euclidean length, so the coefficients of a row have length one, and the last place holds that length divided by the greatest length of all rows, so it is in (0, 1] and reaches 1. A row that is 0 dB throughout is divided by zero, and rows without the extra place are overrun.", "quantifier": "all numbers of frames and coefficients, all non-negative magnitudes", "why_tests_cant": "Real-valued laws over all matrices; the failing inputs are isolated points.", "anchors": ["dsp/segmentation/cluster_segmenter.c:mpeg7_constq"]}
{"id": "C68", "title": "The structural segmenter turns features into labelled segments for every seed", "statement": "Given at least two feature vectors of equal length, at least as many as the histogram is long, ClusterMeltSegmenter::segment() succeeds for every outcome of rand and every content of freshly allocated memory, for supplied, cepstral, chroma and (with at least twenty coefficients) constant-Q features: the segments lie end to end from sample 0 to the end of the last frame, neighbours have different types, types are within 1..m, and the features and analysis objects are used up. Inside, the labels are exactly the documented chain of Markov model training, decoding, sliding histograms and clustering under the cooling schedule. With fewer vectors than the histogram is long nothing changes; rows shorter than the first, or fewer than twenty constant-Q coefficients, run outside the arrays.", "quantifier": "all features, all random numbers, all uninitialised memory, all numbers of states, clusters and histogram lengths", "why_tests_cant": "A test sees one random sequence and one file; success for every random outcome and absence of overruns in the whole chain cannot be sampled.", "anchors": ["dsp/segmentation/ClusterMeltSegmenter.cpp:ClusterMeltSegmenter::segment", "dsp/segmentation/ClusterMeltSegmenter.cpp:ClusterMeltSegmenter::setFeatures", "dsp/segmentation/cluster_segmenter.c:cluster_segment", "dsp/segmentation/cluster_segmenter.c:constq_segment"]}
{"id": "C69", "title": "Eigenvectors of a symmetric matrix are orthonormal and belong to a matrix as close as the convergence test allows", "statement": "For every symmetric matrix with at least one row, tred2 followed by tqli never divides by zero or leaves its arrays, whatever the two work arrays contain. tred2 leaves an orthonormal basis in which the matrix is tridiagonal. Unless tqli gives up after thirty iterations, its columns are orthonormal and are exactly the eigenvectors, for the eigenvalues in the array, of a symmetric matrix that differs in each element by at most a((1+4n e)^(31n)-1), where a bounds the elements and the convergence test neglects at most the fraction e; so the eigenvalues add up to that matrix's trace. Matrices with two rows finish after at most one iteration, and diagonal ones without any, with the eigenvalues in the order of the diagonal.", "quantifier": "all symmetric real matrices of all sizes, all contents of work arrays, all convergence tests", "why_tests_cant": "Orthonormality and backward error for every matrix and every number of rotations cannot be sampled.", "anchors": ["maths/pca/pca.c:tred2", "maths/pca/pca.c:tqli"]}
{"id": "C70", "title": "Projection on principal components gives centred uncorrelated scores", "statement": "pca_project on any data with at least one row and column and at most as many components as columns stays inside its arrays and, unless it exits for want of convergence, replaces the first columns by the products of the centred rows with orthonormal eigenvectors of the scatter matrix (up to the error of the convergence test); the new columns are centred, uncorrelated, have the eigenvalues as variances, and with all components the distances between rows are kept; further columns of wider rows stay. The components are those of greatest variance.", "quantifier": "all data matrices, numbers of components, contents of allocated memory and convergence tests", "why_tests_cant": "Holds for all matrices; the ordering of the components is wrong only for some data.", "anchors": ["maths/pca/pca.c:pca_project", "maths/pca/pca.c:covcol"]}
{"id": "C71", "title": "The structural segmenter computes its features from one continuous filtered stream and turns audio into segments", "statement": "After initialise at any positive rate, every call of extractFeatures with a block of getWindowsize() samples succeeds, whatever freshly allocated memory contains, and adds one vector: the mean over half-overlapping frames (the last one only if complete) of the constant-Q magnitudes or cepstra of the block after the decimation filter, whose state runs on from block to block, so the vectors are those of the whole stream cut into blocks. Constant-Q magnitudes are of frames under a Hamming window centred in the frame. Longer blocks are accepted too. Shorter blocks, and blocks before initialise or after segment(), are ignored. Initialising again makes the object as good as new. Construct, initialise, any sequence of at least two blocks (and as many as the histogram is long) and segment() together give segments that lie end to end over the whole duration, with neighbours of different type.", "quantifier": "all sampling rates, window and hop sizes, sequences of blocks, audio, contents of allocated memory, random numbers", "why_tests_cant": "Concerns every history of calls and the state carried between them; the failing cases need a block longer than the window, or a second initialise at another rate.", "anchors": ["dsp/segmentation/ClusterMeltSegmenter.cpp:ClusterMeltSegmenter::initialise", "dsp/segmentation/ClusterMeltSegmenter.cpp:ClusterMeltSegmenter::extractFeatures", "dsp/segmentation/ClusterMeltSegmenter.cpp:ClusterMeltSegmenter::extractFeaturesConstQ", "dsp/segmentation/ClusterMeltSegmenter.cpp:ClusterMeltSegmenter::extractFeaturesMFCC"]}
{"id": "C72", "title": "The chromagram of a frame depends on that frame only", "statement": "After any history of calls of the two overloads of Chromagram::process, a call with a frame of getFrameSize() samples succeeds and returns one value per class: the sum over the octaves of the magnitudes of the constant-Q transform of the Hamming-windowed, centred frame, normalised as configured. Giving the spectrum directly gives the same as giving the frame. Values are never negative; with unit-max normalisation they are at most 1 and 1 is reached unless all are 0; with unit-sum they add to 1 unless all are 0. Scaling the audio scales unnormalised values and leaves normalised ones unchanged; silence gives zeros. Chromagram::unityNormalise divides by zero after silence.", "quantifier": "all usable configurations, histories of calls, frames, contents of allocated memory", "why_tests_cant": "Concerns every history: the kernel, the window and the work arrays are made lazily and kept between calls; the law over all frames and configurations cannot be enumerated.", "anchors": ["dsp/chromagram/Chromagram.cpp:Chromagram::initialise", "dsp/chromagram/Chromagram.cpp:Chromagram::process", "dsp/chromagram/Chromagram.cpp:Chromagram::unityNormalise"]}
{"id": "C73", "title": "The key reported for audio follows the key profiles of one decimated stream", "statement": "For every usable GetKeyMode configuration and every sequence of blocks of getBlockSize() samples, each call of process returns a key from 1 to 24: the lower median of the last raw keys, each that of the mean of the last chroma frames, computed from the given blocks joined, anti-alias filtered as one stream and decimated. The keys do not depend on the level or polarity of the audio nor on the contents of new memory. getKeyStrengths gives the correlations of the same mean. Silence is reported as C minor, not as 0 'no key'. With overlapping blocks, which the documentation asks for, the filter runs over the joined blocks instead of the recording, so later audio leaks into earlier samples.", "quantifier": "all usable configurations, sequences of blocks, audio samples, levels, contents of allocated memory", "why_tests_cant": "Concerns every history of blocks and the state of filter, chroma buffer and median buffer; the leak with overlapping blocks is small and audible in no single test.", "anchors": ["dsp/keydetection/GetKeyMode.cpp:GetKeyMode::GetKeyMode", "dsp/keydetection/GetKeyMode.cpp:GetKeyMode::process", "dsp/keydetection/GetKeyMode.cpp:GetKeyMode::getKeyStrengths"]}
{"id": "C74", "title": "Downbeats found from audio depend on the beats of this call only", "statement": "For every DownBeat object made with a documented decimation factor and increment, after any history of pushed blocks, resets, changes of beats per bar and earlier searches: pushing a block succeeds and what is buffered is the end, since the last reset, of all pushed audio decimated as one stream; findDownBeats on any audio and any beats at positions not negative succeeds, appends to the caller's vector the beats of index d modulo the bar length, d being the first with the greatest mean spectral change, and keeps the spectral changes of these beats only, each the divergence of successive thresholded magnitude spectra and each between 0 and log 2. The frame is the least power of two that holds 1.3 s. If the spectrum does not change from beat to beat, the first beat is the first downbeat. Without audio nothing is added.", "quantifier": "all rates and documented factors and increments, all histories, audio and beat positions, contents of allocated memory", "why_tests_cant": "The frame, spectrum and FFT memory are reused between beats and calls and beats may lie outside the audio; only an invariant over all histories shows that nothing of an earlier beat, call or allocation gets in.", "anchors": ["dsp/tempotracking/DownBeat.cpp:DownBeat::DownBeat", "dsp/tempotracking/DownBeat.cpp:DownBeat::findDownBeats", "dsp/tempotracking/DownBeat.cpp:DownBeat::pushAudioBlock", "dsp/tempotracking/DownBeat.cpp:DownBeat::getBeatSD"]}
{"id": "C75", "title": "Mutex: mutual exclusion and owner-only unlock under every interleaving", "statement": "Whatever calls of lock, unlock and trylock any number of threads make on a Mutex, in any interleaving and with any misuse: no two threads have the mutex at the same time; unlock gives the mutex back exactly when the caller has it and otherwise says so and changes nothing; lock and a successful trylock return only when nobody has the mutex; the deadlock message is printed exactly for a thread that locks what it already has; the mutex is never stuck while nobody has it; a thread that uses only MutexLocker scopes (also on null pointers) never gets a message and always gives back what it took; and the checks themselves are free of data races.", "quantifier": "all numbers of threads, all sequences of calls of each thread, all interleavings of the single memory accesses and library calls", "why_tests_cant": "Quantifies over schedules at the level of single memory accesses; the wrong order of two assignments shows in one interleaving in millions.", "anchors": ["thread/Thread.cpp:Mutex::lock", "thread/Thread.cpp:Mutex::unlock", "thread/Thread.cpp:Mutex::trylock", "thread/Thread.cpp:MutexLocker::MutexLocker", "thread/Thread.cpp:MutexLocker::~MutexLocker"]}
{"id": "C76", "title": "Condition: mutual exclusion, no lost signal and no ignored unlock under every interleaving", "statement": "If all threads use a Condition as documented (unlock and wait only what they have locked), then in every interleaving, with spurious wake-ups and timeouts: no two threads have it locked; wait gives it back while it sleeps and has it again when it returns; unlock is never ignored; nothing undefined is done with the mutex; there is no data race on the object; a signal sent by a thread that has it locked finds every other thread between lock and unlock in wait; a waiting thread that tests the data before wait never stays asleep after they were set, except while the setting thread still has to signal; and no thread is stuck while nobody has the object.", "quantifier": "all numbers of threads, all sequences of calls that follow the documentation, all interleavings, spurious wake-ups and timeouts included; one waiting thread for the absence of lost signals", "why_tests_cant": "Quantifies over schedules; lost wake-ups need a rare interleaving.", "anchors": ["thread/Thread.cpp:Condition::lock", "thread/Thread.cpp:Condition::unlock", "thread/Thread.cpp:Condition::wait", "thread/Thread.cpp:Condition::signal", "thread/Thread.h:Condition"]}
{"id": "C77", "title": "Thread: start, wait and destroy over any history", "statement": "For every history of start, wait and destruction of a Thread object and every speed of the threads: each start calls run exactly once in its own thread, no thread is joined twice, wait may be called at any time and returns at once if nothing was started since the last wait, and when wait or the destructor returns every thread that was started through the object has ended, so that no thread runs in a destroyed object.", "quantifier": "all sequences of start and wait, all schedules of the threads", "why_tests_cant": "Quantifies over histories and schedules; a thread that outlives its object crashes only sometimes.", "anchors": ["thread/Thread.cpp:Thread::start", "thread/Thread.cpp:Thread::wait", "thread/Thread.cpp:Thread::~Thread", "thread/Thread.cpp:Thread::staticRun"]}
{"id": "C78", "title": "Decimator: stable, flat in the pass band, aliases a tenth", "statement": "For the factors 2, 4 and 8, however long the stream and however it is cut into blocks: input bounded by M gives output bounded by 3 M; a sinusoid comes out, after a transient that dies away geometrically, as the sinusoid of the filter's frequency response taken every factor-th sample; the gain is within 0.02 % of one up to four fifths of the new Nyquist frequency, never more than 1.0001, and at most 0.1003 from the new Nyquist frequency up, so that what folds down to a lower frequency has lost nine tenths of its amplitude.", "quantifier": "all real frequencies, amplitudes and phases, all bounded inputs, all lengths of the stream and sizes of blocks; exact arithmetic with the decimal coefficients of the source", "why_tests_cant": "The filter is recursive and of seventh order: a wrong digit of a coefficient can make it unstable only after a long time or let through one frequency only. A test takes finitely many frequencies and a finite time.", "anchors": ["dsp/rateconversion/Decimator.cpp:Decimator::initialise", "dsp/rateconversion/Decimator.cpp:Decimator::doAntiAlias", "dsp/rateconversion/Decimator.cpp:Decimator::process"]}
{"id": "C79", "title": "Training a hidden Markov model never makes it worse", "statement": "For every set of at least two observations that do not all agree in some direction, every number of states, whatever the random numbers and the memory hold: initialising and training never divides by zero, takes the logarithm of zero or inverts a singular matrix; every iteration leaves a model with positive probabilities that sum to one and a positive definite covariance, and the likelihood of the observations under the model, summed over all state paths, is never lower after an iteration than before.", "quantifier": "all observations, numbers of states and dimensions, all start models, all iterations, contents of allocated memory; exact arithmetic, exact matrix inversion", "why_tests_cant": "Monotone likelihood is the defining property of the training and depends on the order in which covariance and means are re-estimated; a test sees finitely many data sets, on most of which a wrong update also goes up.", "anchors": ["hmm/hmm.c:hmm_init", "hmm/hmm.c:hmm_train", "hmm/hmm.c:baum_welch", "hmm/hmm.c:forward_backwards", "hmm/hmm.c:loggauss"]}
{"id": "C80", "title": "Covariance inversion: inverse, determinant, singular matrices reported", "statement": "For every nonsingular covariance matrix, with the LAPACK bundled in the repository, the inversion gives the inverse matrix and the absolute value of the determinant, whatever the arrays held before; a singular matrix is reported.", "quantifier": "all dimensions and matrices, contents of the arrays", "why_tests_cant": "Pivoting depends on the matrix; row and column order mistakes cancel on symmetric matrices; the error path depends on how the library reports.", "anchors": ["hmm/hmm.c:invert"]}
{"id": "C81", "title": "Bundled LAPACK: LU factors and inverse of any matrix", "statement": "For every square matrix the bundled dgetrf_ succeeds and leaves a unit lower and an upper triangle whose product is the matrix with the row exchanges that the pivots list; no multiplier exceeds 1 in absolute value and info is 0 exactly for nonsingular matrices, otherwise the number of the first zero pivot. dgetri_ then replaces the factors of a nonsingular matrix by its inverse, for every block size and every work array of at least the minimal size, whatever it holds, and reports a singular matrix while leaving the factors in place.", "quantifier": "all dimensions (so all numbers of blocks and remainders of the unrolled loops), matrices, block sizes, work array sizes and contents", "why_tests_cant": "Blocked code runs only from dimension 65 on, unrolled loops differ by remainder, and pivoting depends on the values; the block size depends on the work array.", "anchors": ["ext/clapack/src/dgetrf.c:dgetrf_", "ext/clapack/src/dgetf2.c:dgetf2_", "ext/clapack/src/dgetri.c:dgetri_", "ext/clapack/src/dtrtri.c:dtrtri_", "ext/clapack/src/dlaswp.c:dlaswp_", "ext/cblas/src/dtrsm.c:dtrsm_"]}
{"id": "C82", "title": "Decimation in double precision: rounding errors never build up", "statement": "Computed in double precision, the output of Decimator differs from the output in exact arithmetic by at most 1e-7 of the largest input sample, at any time of an arbitrarily long stream, and no intermediate value overflows or comes near to it (input peak between 2^-1000 and 2^1000).", "quantifier": "all factors, streams of any length, block sizes, inputs, and all ways to round that are off by at most half a unit in the last place", "why_tests_cant": "The filter is recursive with poles close to the unit circle: an error made once is fed back forever. A test sees finitely many samples and compares with a tolerance.", "anchors": ["dsp/rateconversion/Decimator.cpp:doAntiAlias", "dsp/rateconversion/Decimator.cpp:process"]}
{"id": "C83", "title": "FFT in double precision: errors grow only with the sum of the radices", "statement": "Computed in double precision with a C library whose cos and sin are within one unit in the last place, FFT of every size n from 1 to INT_MAX, on an object with any history, returns every bin of the discrete Fourier transform within 510 r 2^-53 times the sum of the sizes of the inputs, r being the sum of the prime factors (with 4) of n: for n = 2^k within about 1e-13 k of that sum. Transforming forth and back returns the input within three times that. Nothing overflows for inputs whose sum is at most 2^1000 and no access is out of bounds.", "quantifier": "all sizes, inputs, both directions, all histories of the object, contents of the buffers, and all ways to round that are off by at most half a unit in the last place, and libraries of that accuracy", "why_tests_cant": "There are as many paths as factorisations, and the worst input for each is not known; a test compares some sizes and inputs with a tolerance chosen by experience.", "anchors": ["ext/kissfft/kiss_fft.c:kiss_fft", "ext/kissfft/kiss_fft.c:kiss_fft_alloc", "ext/kissfft/kiss_fft.c:kf_work", "dsp/transforms/FFT.cpp:FFT::process"]}
{"id": "C84", "title": "Real FFT in double precision: small errors, exact symmetry", "statement": "Computed in double precision with a C library whose cos and sin are within one unit in the last place, FFTReal of every even size n up to INT_MAX, on an object with any history, returns all n bins of the discrete Fourier transform within 1800 r 2^-53 times the sum of the sizes of the inputs, r being the sum of the prime factors (with 4) of n/2; bin n-k is exactly the conjugate of bin k and bins 0 and n/2 are exactly real. The magnitudes are within 1810 r 2^-53 of that sum (plus 2^-530), and the square root never gets a negative argument. The inverse of any bins is within 1310 r 2^-53 times their mean size, and forth and back returns the input within 4500 r 2^-53 of its size.", "quantifier": "all even sizes, inputs, histories of the object, contents of the buffers, and all ways to round that are off by at most half a unit in the last place, and libraries of that accuracy", "why_tests_cant": "The packing of two real samples into one complex one and the unmixing afterwards add errors that depend on size, bin and input; tests use a tolerance and a few sizes.", "anchors": ["dsp/transforms/FFT.cpp:FFTReal::forward", "dsp/transforms/FFT.cpp:FFTReal::forwardMagnitude", "dsp/transforms/FFT.cpp:FFTReal::inverse", "ext/kissfft/tools/kiss_fftr.c:kiss_fftr", "ext/kissfft/tools/kiss_fftr.c:kiss_fftri"]}
{"id": "C85", "title": "Decimation by powers of two: frequency response and aliasing", "statement": "Every halving stage of DecimatorB is a sixth order Butterworth lowpass with its cutoff at the new Nyquist frequency: the squared gain at w radians per sample is 1/(1+tan(w/2)^12) to within 1e-13. So no frequency is amplified by more than 0.001 %, frequencies up to half the final Nyquist frequency are kept to within 0.002 % a stage, and everything above the final Nyquist frequency is attenuated by 3 dB at least (28 dB from 4/3 and 45 dB from 3/2 of a stage's cutoff; at the cutoff itself it is no more than 3 dB). A sinusoid in gives the sinusoid of the product of the stage responses out, plus a transient that dies away and does not depend on block size or number of blocks; input within M gives output within 2^k M.", "quantifier": "all frequencies, phases, amplitudes, numbers of stages, block sizes and stream lengths", "why_tests_cant": "A frequency response is a statement about infinitely many frequencies and about the limit of an infinite stream; the cascade of stages has to be composed for every number of them.", "anchors": ["dsp/rateconversion/DecimatorB.cpp:DecimatorB::initialise", "dsp/rateconversion/DecimatorB.cpp:DecimatorB::doAntiAlias", "dsp/rateconversion/DecimatorB.cpp:DecimatorB::doProcess"]}
{"id": "C86", "title": "Decimation by powers of two in double precision: rounding errors never build up", "statement": "Computed in double precision, the output of DecimatorB with factor 2^k differs from the output in exact arithmetic by at most k 2.1^k 32000 2^-53 times the largest input sample, at any time of an arbitrarily long stream, and nothing overflows (input peak at least 2^-1000, 2.1^k times the peak at most 2^1000).", "quantifier": "all factors, streams of any length, block sizes, inputs, contents of the buffers, and all ways to round that are off by at most half a unit in the last place", "why_tests_cant": "The filters are recursive and in cascade: an error made once is fed back forever and passed on to every later stage. A test sees finitely many samples.", "anchors": ["dsp/rateconversion/DecimatorB.cpp:DecimatorB::doAntiAlias", "dsp/rateconversion/DecimatorB.cpp:DecimatorB::process"]}
{"id": "C87", "title": "Phases in double precision: mod, princarg and phase unwrapping", "statement": "Computed in double precision, mod(x, y) is x less a whole number of periods up to 4 units of rounding of |x|+|y| and leaves the period by no more than 6 of them (it does reach the excluded end: mod(-2^-60, 1) is 1); princarg(a) is a less whole turns, off by at most (8|a|+100)/2^53, and is at most pi plus that in size. The unwrapped phase the phase vocoder returns for a bin N frames after reset is the measured phase plus a whole number of turns, off by at most 27 (N+1)(N+2)/2^53 times the expected advance per frame plus 5, and lies within half a turn of the previous one plus the expected advance, up to rounding.", "quantifier": "all arguments of realistic size, frame sizes, hops, bins, sequences of up to 2^40 frames, and all ways to round that are off by at most half a unit in the last place", "why_tests_cant": "The unwrapped phase accumulates over the whole stream, so its error grows with the length of the recording, and a floor of a rounded quotient can be off by one turn anywhere.", "anchors": ["maths/MathUtilities.cpp:MathUtilities::mod", "maths/MathUtilities.cpp:MathUtilities::princarg", "dsp/phasevocoder/PhaseVocoder.cpp:PhaseVocoder::unwrapPhases", "dsp/phasevocoder/PhaseVocoder.cpp:PhaseVocoder::reset"]}
{"id": "C88", "title": "Loudness does not change onsets and beats", "statement": "Playing a recording louder or softer does not change where its onsets are. Without whitening, every detection function scales with the signal (high frequency content, spectral difference, complex domain) or does not change (phase deviation, broadband); conditioning, peak picking, beat placement of TempoTrackV2 on given beat periods, and beats and tempi of TempoTrack are exactly the same for a detection function at any positive level. For the types that look at magnitudes only, inverting the polarity changes nothing either. With whitening the level matters: its floor is absolute.", "quantifier": "all configurations, recordings of any length, levels, and all states of the objects", "why_tests_cant": "Thresholds are everywhere in these algorithms, and one absolute constant among them would make the result depend on the level of some recordings only.", "anchors": ["dsp/onsets/DetectionFunction.cpp:DetectionFunction::processTimeDomain", "dsp/signalconditioning/DFProcess.cpp:DFProcess::process", "dsp/onsets/PeakPicking.cpp:PeakPicking::process", "dsp/tempotracking/TempoTrackV2.cpp:TempoTrackV2::calculateBeats", "dsp/tempotracking/TempoTrack.cpp:TempoTrack::process"]}
{"id": "C89", "title": "Zero-phase filtering delays nothing", "statement": "FiltFilt with a non-recursive filter of any length and coefficients: every output value is the symmetric weighting of its neighbourhood by the autocorrelation of the coefficients, so the reversed block gives the reversed output, sums of blocks give sums of outputs, a sinusoid of any frequency keeps its phase and is scaled by the squared gain of the filter at its frequency, and straight lines come out as straight lines, exactly and up to both ends of the block. All of it whatever the object has processed before.", "quantifier": "all coefficients, blocks of any length, frequencies, phases and histories of the object", "why_tests_cant": "Symmetry is a statement about two runs on all inputs, and the edges depend on how the padding, the transient of each pass and the cut at the end fit together for each filter and block length.", "anchors": ["dsp/signalconditioning/FiltFilt.cpp:FiltFilt::process", "dsp/signalconditioning/Filter.cpp:Filter::process", "dsp/signalconditioning/Filter.cpp:Filter::reset"]}
{"id": "C90", "title": "Sizes and indices computed through doubles are exact", "statement": "Where the library computes a number of samples, a filter length, a latency or a transform factorisation through doubles (the ceilings of quotients in Resampler, the floor of a square root in the FFT, the midpoint of the key history), the result is the exact integer for all rates, lengths and sizes an int can hold as long as products stay below 2^53, with any rounding to nearest. MathUtilities::round returns whole numbers up to 2^51 unchanged, takes halves away from zero and moves nothing by more than half a unit up to rounding; it is not always the nearest whole number (the double below 0.5 goes to 1).", "quantifier": "all sample rates, filter lengths, block lengths, transform sizes, arguments, and all ways to round to the nearest double", "why_tests_cant": "A quotient that is rounded across a whole number gives one sample too many or too few for some combination of rates and lengths only; there are about 2^80 combinations.", "anchors": ["dsp/rateconversion/Resampler.cpp:Resampler::initialise", "dsp/rateconversion/Resampler.cpp:Resampler::process", "dsp/rateconversion/Resampler.cpp:Resampler::resample", "ext/kissfft/kiss_fft.c:kf_factor", "dsp/keydetection/GetKeyMode.cpp:GetKeyMode::process", "maths/MathUtilities.cpp:MathUtilities::round"]}
{"id": "C91", "title": "Resampling in double precision: errors stay bounded, blocks do not matter", "statement": "Computed in double precision, the Resampler delivers as many samples in every call as in exact arithmetic, and every sample of a stream of any length is within 5n+3 units of rounding of the largest possible output (n coefficients per phase) of the exact one; nothing overflows and no call fails. However the stream is cut into blocks, the samples are the same bit for bit. The one-shot resample is within the same bound.", "quantifier": "all pairs of rates, coefficients, gains, streams of any length, block sizes, and all ways to round to the nearest double", "why_tests_cant": "The buffer, the phase and the read position are carried from block to block, so both drift of the errors and dependence on blocks show after arbitrarily long streams and for some pairs of rates only.", "anchors": ["dsp/rateconversion/Resampler.cpp:Resampler::reconstructOne", "dsp/rateconversion/Resampler.cpp:Resampler::process", "dsp/rateconversion/Resampler.cpp:Resampler::resample"]}
{"id": "C92", "title": "Filtering in double precision: the same bits in any blocks, errors never build up in stable filters", "statement": "Computed in double precision, Filter evaluates its difference equation in one fixed order: cutting the stream into other blocks, or reusing a filter after reset, gives the same output bit for bit. In a stable filter the output stays within G(5m+3) units of rounding (m coefficients, G the sum of the magnitudes of the impulse response) of the exact output at any time of an arbitrarily long stream, the unit being the largest possible intermediate value; nothing overflows. Every filter whose coefficients fed back sum to less than one in magnitude is stable.", "quantifier": "all coefficients, streams of any length, block sizes, histories before a reset, and all ways to round that are off by at most half a unit in the last place", "why_tests_cant": "An error made once is fed back forever, and the buffer is rewound at positions that depend on everything processed before.", "anchors": ["dsp/signalconditioning/Filter.cpp:Filter::process", "dsp/signalconditioning/Filter.cpp:Filter::reset"]}
{"id": "C93", "title": "Zero-phase filtering with recursive filters: right up to the ends, not from call to call", "statement": "FiltFilt with any stable recursive filter: a sinusoid of any frequency, phase, amplitude and length comes out unshifted and scaled by the squared gain of the filter, up to an error that dies out geometrically away from both ends of the block, with one constant for the filter. What earlier calls leave in the object dies out geometrically from the start of the next block, whatever that block is; but from call to call it can grow: with some stable filter, silent blocks after one non-zero sample come out louder and louder without bound. The beat tracker's smoothing of its detection function obeys the same law and leaves a constant level unchanged.", "quantifier": "all stable filters, frequencies, phases, amplitudes, block lengths and histories of the object", "why_tests_cant": "The response of a recursive filter never ends, so neither the effect of the ends nor that of earlier calls is over after any number of samples or calls a test looks at.", "anchors": ["dsp/signalconditioning/FiltFilt.cpp:FiltFilt::process", "dsp/signalconditioning/Filter.cpp:Filter::process", "dsp/tempotracking/TempoTrackV2.cpp:TempoTrackV2::filter_df"]}
{"id": "C94", "title": "Pitches survive the way to a frequency and back in single precision", "statement": "Computed in single precision, the frequency of a MIDI pitch 0 to 127 detuned by up to half a semitone is within two parts in a million of concertA*2^((pitch-69)/12), and converting it back gives exactly the same pitch, with the cents within a hundredth of those put in (detuning up to 49.9 cents), for every concert A from 1 Hz to 2^20 Hz.", "quantifier": "all MIDI pitches, detunings and concert pitches, all ways to round that are off by at most half a unit in the last place, and all C libraries whose log and powf are off by at most one unit in the last place", "why_tests_cant": "The pitch is found by truncating a rounded logarithm: whether an error tips a pitch over to its neighbour depends on the last bits of every operand, for every pitch, detuning and concert pitch.", "anchors": ["base/Pitch.cpp:Pitch::getFrequencyForPitch", "base/Pitch.cpp:Pitch::getPitchForFrequency"]}
{"id": "C95", "title": "Sizes of the constant-Q transform and of the chromagram survive rounding", "statement": "Computed in double precision: the quality factor is accurate to 25 units in the last place per bin in an octave; the window of every bin fits the block that is transformed, starting at its beginning or later and not reaching beyond its end; and a chromagram adds up exactly as many octaves as its range was extended to, the constant-Q transform below it having that number times the bins per octave, or one bin more. The extended range ends at the requested one or less than an octave above it, up to rounding.", "quantifier": "all sample rates, frequency ranges up to 60 octaves, 2 to 2^20 bins per octave, all ways to round to nearest, and all C libraries whose log and pow are off by at most one unit in the last place", "why_tests_cant": "The sizes are quotients of rounded logarithms rounded up: one unit in the last place decides about a bin, an octave or a sample beyond the end of an array, at isolated configurations only.", "anchors": ["dsp/chromagram/ConstantQ.cpp:ConstantQ::initialise", "dsp/chromagram/ConstantQ.cpp:ConstantQ::sparsekernel", "dsp/chromagram/Chromagram.cpp:Chromagram::initialise", "dsp/chromagram/Chromagram.cpp:Chromagram::process"]}
{"id": "C96", "title": "A regular pulse is tracked exactly, through tempo changes and noise", "statement": "Give the beat tracker's dynamic programme a detection function with equal peaks, each as far from the one before as the beat period in force there (which may change from frame to frame), silence before the first peak and elsewhere values less than (1-alpha) times the peaks, the last peak lying in the last beat period. Then from the first peak on the beats returned are the peaks, no more and no fewer, except that a peak at frame 0 is never a beat. Before the first peak there are further beats, each two periods before the next, as far back as there is room: the silent lead-in is filled at half the tempo.", "quantifier": "all pulse trains of two or more peaks, all sequences of periods, all noise below the bound, all alpha between 0 and 1 and all tightness other than 0", "why_tests_cant": "The beats come out of a global optimisation with back links over the whole input; that no noise within the bound and no sequence of tempo changes anywhere moves any beat cannot be sampled.", "anchors": ["dsp/tempotracking/TempoTrackV2.cpp:TempoTrackV2::calculateBeats", "dsp/tempotracking/TempoTrackV2.cpp:TempoTrackV2::get_max_ind"]}
{"id": "C97", "title": "Key detection tolerates deviations from the key profiles", "statement": "Whenever the averaged chroma correlates by more than 0.975 with the profile of a major or minor key, at any of the 36 tunings, the key detector reports that key, whatever else the chroma contains. If this holds after more than half of the calls in the median window the returned key is that key, and it holds for the average as soon as it holds for every chroma frame that the two windows reach. The bound cannot be lowered to 0.973: some chroma correlates by more than that with C major and is reported as another key.", "quantifier": "all chroma vectors, all 24 keys and 36 tunings, all histories of calls and all window lengths", "why_tests_cant": "A claim about every real chroma vector near a profile and about every history of calls; tests try a few recordings.", "anchors": ["dsp/keydetection/GetKeyMode.cpp:GetKeyMode::process", "dsp/keydetection/GetKeyMode.cpp:GetKeyMode::krumCorr"]}
{"id": "C98", "title": "One bad value does not spoil later results", "statement": "A sample that is not a number (NaN), or a silent stretch, affects only the results computed from it: later, correct input gives correct results again. It holds for filters without feedback (an output is NaN exactly if one of the inputs it is computed from is) and for anything after a reset. It fails elsewhere: a filter with feedback gives NaN from the first NaN input to the next reset; onset picking gives no onsets for a silent block or one with a NaN and none for any block afterwards, because the smoothing filter is not reset between blocks; decimation by a factor other than 1 gives NaN for ever; and key detection, which decimates first, reports C minor for ever.", "quantifier": "all filters, all histories of calls and resets, all blocks and all later input", "why_tests_cant": "The effect appears arbitrarily long after the bad value and depends on state that no accessor shows; tests use clean input on fresh objects.", "anchors": ["dsp/signalconditioning/Filter.cpp:Filter::process", "dsp/signalconditioning/FiltFilt.cpp:FiltFilt::process", "dsp/signalconditioning/DFProcess.cpp:DFProcess::removeDCNormalize", "dsp/onsets/PeakPicking.cpp:PeakPicking::process", "dsp/rateconversion/Decimator.cpp:Decimator::process", "dsp/rateconversion/Decimator.cpp:Decimator::resetFilter", "dsp/keydetection/GetKeyMode.cpp:GetKeyMode::process"]}
{"id": "C99", "title": "Statistics, rounding and normalisation in double precision", "statement": "In double precision the median of a block lies between its two middle elements; the mean is off by at most six units in the last place of the sum of the magnitudes and lies between the least and the greatest element; rounding gives the nearest integer; normalising to unit maximum gives values in [-1, 1] with at least one of magnitude exactly 1, keeps order and zeros and does nothing the second time; normalising non-negative values to unit sum gives a sum within (4n+1)/2^53 of one. Two parts fail: the mean of 0.1, 0.1 and 0.1 is not 0.1 (so it is above all elements or below them), and rounding fails for the largest double below one half, which becomes 1, and for odd integers above 2^52.", "quantifier": "all blocks of doubles (up to 2^40 values for the bounds), all roundings to nearest; round: every double below 2^52", "why_tests_cant": "There are 2^64 doubles and the failures are at single ones; error bounds must hold for every order of magnitudes.", "anchors": ["maths/MathUtilities.cpp:MathUtilities::round", "maths/MathUtilities.cpp:MathUtilities::median", "maths/MathUtilities.cpp:MathUtilities::sum", "maths/MathUtilities.cpp:MathUtilities::mean", "maths/MathUtilities.cpp:MathUtilities::normalise"]}
{"id": "C100", "title": "Key detection follows transpositions", "statement": "Transposing the music by whole semitones, that is, rotating every chroma frame by three bins per semitone, rotates the 24 key strengths by as many semitones within major and within minor keys, exactly, after every history of calls. The raw key moves by the same number of semitones unless two keys of one mode share the first place, and so does the key returned if the transposition does not carry some of the keys in the median window round from B to C and not others, or if one key has the majority in that window. Otherwise it does not: the median is taken of key numbers, and music in B, C and C sharp major is reported in C sharp, while the same music in A, B flat and B is reported in B flat.", "quantifier": "all histories of chroma frames, all transpositions, all window lengths", "why_tests_cant": "A law that relates pairs of runs for every real chroma history and each transposition; tests compare a few recordings.", "anchors": ["dsp/keydetection/GetKeyMode.cpp:GetKeyMode::process", "dsp/keydetection/GetKeyMode.cpp:GetKeyMode::getKeyStrengths", "dsp/keydetection/GetKeyMode.cpp:GetKeyMode::krumCorr"]}
{"id": "C101", "title": "Downbeats are found where the sound changes, at any polarity", "statement": "If the sound stays the same within the bars and its spectrum changes shape at one bar line at least, or if every spectral change at a bar line exceeds those inside the bars, the downbeats returned are exactly the beats at the bar lines, whatever was done with the object before. Inverting the audio changes neither the downbeats nor the spectral changes reported. Multiplying it by any other factor does the same as dividing the small constant added to the spectra by that factor; so the level is not quite without effect: every spectral change tends to zero as the audio gets quieter.", "quantifier": "all audio, all beat positions, all bar lengths and positions of the bar lines, all histories of the object, all gains", "why_tests_cant": "Correctness on a class of inputs of any length and content, and laws that relate pairs of runs; tests try some recordings.", "anchors": ["dsp/tempotracking/DownBeat.cpp:DownBeat::findDownBeats", "dsp/tempotracking/DownBeat.cpp:DownBeat::measureSpecDiff"]}
{"id": "C102", "title": "Separate events in a detection function are reported, each once, at their frames", "statement": "If a detection function is a level with events on it that are well apart, and the smoothing filter has no feedback and spreads an event into a single hump, then the onsets added are exactly the frames of those events whose height relative to the norm of the block passes the thresholds, in increasing order and each once, whatever blocks were processed before. On a level of zero every event above a bound that does not depend on the block is reported. The level itself matters: on a level that is high enough no event is reported, however separate the events are.", "quantifier": "all levels, all event heights and positions that are well apart, all block lengths, window sizes, thresholds and non-recursive single-hump filters, all earlier blocks", "why_tests_cant": "End-to-end correctness of smoothing, thresholding and peak picking on a class of blocks of any length after any history; tests try some blocks.", "anchors": ["dsp/onsets/PeakPicking.cpp:PeakPicking::process", "dsp/onsets/PeakPicking.cpp:PeakPicking::quadEval", "dsp/signalconditioning/DFProcess.cpp:DFProcess::process", "dsp/signalconditioning/DFProcess.cpp:DFProcess::removeDCNormalize"]}
{"id": "C103", "title": "Training a hidden Markov model survives observations that fit no state", "statement": "When the probability of an observation underflows to zero in every state, training must not ruin the model. If some state keeps a positive probability for every observation, an iteration computes exact posteriors and re-estimates the model from them, with numbers as results (except the mean of a state never occupied). If an observation other than the last underflows everywhere, training stops and leaves the model as it was. The last observation is not protected: the log-likelihood is then minus infinity rather than NaN, the guard misses it, every parameter of the model becomes NaN, and decoding puts every observation in state 0. For a feature that is zero in 2000 or more observations and one in the last, this happens for every seed.", "quantifier": "all numbers of states, features and observations, all observations, all models, all values of the uninitialised log-likelihoods, all seeds, all roundings of exp that underflow below -746 and not above -700", "why_tests_cant": "What infinities and NaN do along recursions of any length; the failing case needs long input with an outlier at one place, which tests are unlikely to contain.", "anchors": ["hmm/hmm.c:hmm_train", "hmm/hmm.c:forward_backwards", "hmm/hmm.c:baum_welch", "hmm/hmm.c:viterbi_decode", "hmm/hmm.c:hmm_init"]}
{"id": "C104", "title": "A feature that never changes does not spoil the segmentation", "statement": "A feature with the same value in all observations carries no information and should make no difference to training and decoding a hidden Markov model. Observations that are the same in all features (silence) are all put in one state. But one constant feature is enough for that, whatever the other features are: the covariance is singular, its determinant 0 makes every probability infinite, training gives up and leaves the random initial model, and decoding puts every observation in state 0. This holds for every seed and every number of observations from two.", "quantifier": "all numbers of states, features and observations (at least two), all observations with a constant feature, all seeds, all values of the uninitialised log-likelihoods and work arrays", "why_tests_cant": "The result comes from how infinities and NaN pass through recursions of any length and through an ignored error code of LAPACK; tests with random features never meet it.", "anchors": ["hmm/hmm.c:hmm_train", "hmm/hmm.c:viterbi_decode", "hmm/hmm.c:loggauss", "hmm/hmm.c:invert", "hmm/hmm.c:hmm_init"]}
{"id": "C105", "title": "Inaudible noise does not change detection functions much", "statement": "If every bin of every spectrum given to a detection function changes by at most epsilon, its value changes by an amount that vanishes with epsilon. This holds for high-frequency content and spectral difference, after any history, with and without whitening, and for phase deviation and the complex domain as long as the spectra concerned are not silent in any bin. Bins that are silent break it: phase deviation of silence jumps from 0 to its greatest possible value; the complex domain value of a steady sound two frames after silence jumps from 0 to its greatest possible value; and an attack after exact digital silence is not seen by broadband rise at all, although it is seen in every bin if there is any noise in the silence.", "quantifier": "all configurations, all histories of calls in the time and frequency domain, all pairs of histories that differ by at most epsilon, all epsilon, all levels", "why_tests_cant": "Continuity in every argument at every history is not a finite set of cases, and the failing cases need exact zeros.", "anchors": ["dsp/onsets/DetectionFunction.cpp:processTimeDomain", "dsp/onsets/DetectionFunction.cpp:processFrequencyDomain", "dsp/onsets/DetectionFunction.cpp:phaseDev", "dsp/onsets/DetectionFunction.cpp:complexSD", "dsp/onsets/DetectionFunction.cpp:broadband", "dsp/onsets/DetectionFunction.cpp:whiten"]}
{"id": "C106", "title": "Cepstral coefficients are numbers at every level", "statement": "The coefficients MFCC::process writes are numbers for every spectrum. This holds for every natural number as power, and for every positive power as long as each band is silent or has an output of at least 1. With a power that is not an integer a single band with an output between 0 and 1 makes every coefficient NaN, because the logarithm is negative; so every sound that is not silent gives nothing but NaN when it is played softly enough. Without a power the coefficients of a fading sound do not approach those of silence, which are 0: the first one falls below every bound.", "quantifier": "all configurations, all histories of the object, all spectra, all powers, all gains", "why_tests_cant": "Whether the logarithm is negative depends on the level of forty bands of each frame; tests at one level see only one side.", "anchors": ["dsp/mfcc/MFCC.cpp:process", "dsp/mfcc/MFCC.h:MFCCConfig"]}
{"id": "C107", "title": "The machine constants of the matrix routines are those of double precision", "statement": "The bundled linear algebra finds out the parameters of double precision by experiment at its first call and keeps them. Whatever calls have come before, of whatever threads, as long as no two overlap, every call ends and gives the right number for its letter: 53 bits, base 2, relative precision 2^-53, least and greatest exponent -1021 and 1024, least normal number and safe minimum 2^-1022, greatest number (2^53 - 1) * 2^971. These numbers mean what the documentation says: no double is larger than the greatest one, the reciprocal of anything at least as large as the safe minimum does not overflow, and a normal result is wrong by at most the relative precision.", "quantifier": "all sequences of calls that do not overlap, all letters, all contents of uninitialised variables, all doubles", "why_tests_cant": "The constants come out of loops that depend on the last bit of rounding and on gradual underflow, and a variable that is not static is read by later calls; a test sees one order of calls on one compiler.", "anchors": ["ext/cblas/src/dlamch.c:dlamch_", "ext/cblas/src/dlamch.c:dlamc1_", "ext/cblas/src/dlamch.c:dlamc2_", "ext/clapack/src/pow_di.c:pow_di", "ext/clapack/src/dgetf2.c:dgetf2_"]}
{"id": "C108", "title": "Segmentations in several threads at once do not disturb each other", "statement": "Programs may compute structural segmentations in several threads at once. They share the machine constants of the matrix routines. Once one inversion has ended before any other starts, all later ones may overlap in any number and any interleaving, and every one has the right constants. If the first two overlap this fails: there is an interleaving after which the safe minimum is infinite for every inversion of every thread for the rest of the program, and the multipliers of the factorisation then differ in their last bit. Without rounding the safe minimum has no influence on inverse and determinant.", "quantifier": "all numbers of threads, all interleavings, all letters, all matrices, all contents of uninitialised variables", "why_tests_cant": "The wrong interleaving has a window of a few microseconds at the first use in a process; a test would have to hit it.", "anchors": ["ext/cblas/src/dlamch.c:dlamch_", "ext/cblas/src/dlamch.c:dlamc2_", "ext/clapack/src/dgetf2.c:dgetf2_", "hmm/hmm.c:invert"]}
{"id": "C109", "title": "Block sizes of matrix inversions in several threads", "statement": "The routines that invert covariance matrices ask which block size to use, and the answer is computed in variables that all threads share. A call that no other overlaps gives the documented answer, whatever is left in the variables. If calls of several threads overlap, in any interleaving of single loads and stores, every answer is the documented one or 1 (no blocks), so that an inversion stays inside its work array and, without rounding, still gives the right inverse and determinant. The answers do depend on the interleaving, though, so that the last bits of results may.", "quantifier": "all numbers of threads, all histories and interleavings of their loads and stores, all matrices, all contents of fresh arrays", "why_tests_cant": "The number of interleavings of single loads and stores is astronomical and tests see few of them; harmful ones might need three threads in one window.", "anchors": ["ext/clapack/src/ilaenv.c:ilaenv_", "ext/clapack/src/s_copy.c:s_copy", "ext/clapack/src/s_cmp.c:s_cmp", "ext/clapack/src/dgetri.c:dgetri_", "hmm/hmm.c:invert"]}
{"id": "C110", "title": "Memory of structural segmentations", "statement": "A segmentation of features into recurring sections never releases a block of memory twice, never uses one that has been released and never touches blocks of others, whatever was done before. It does not release everything that it allocates, though: each call loses the initial probabilities of its model and the pivots of every matrix inversion, exactly 8 bytes for each state and 4 bytes for each entry of the covariance matrix for each training pass and once more, so that a program which segments many recordings needs more memory than any bound.", "quantifier": "all sequences of calls, all numbers of frames, features, states, clusters and training passes, all outcomes of the passes, all heaps", "why_tests_cant": "Leaks and double releases change no result; tests that look at results pass, and how much is lost depends on how many passes the training needs.", "anchors": ["hmm/hmm.c:hmm_init", "hmm/hmm.c:hmm_close", "hmm/hmm.c:hmm_train", "hmm/hmm.c:invert", "hmm/hmm.c:viterbi_decode", "dsp/segmentation/cluster_melt.c:cluster_melt", "dsp/segmentation/cluster_segmenter.c:cluster_segment", "dsp/segmentation/cluster_segmenter.c:constq_segment", "maths/pca/pca.c:pca_project"]}
{"id": "C111", "title": "Memory of analysis objects", "statement": "An analysis object that is created, used in any way and destroyed never releases a block of memory twice, never uses one that has been released and never touches blocks of others. Transforms, decimators, phase vocoders, detection functions, smoothing, peak picking, framers, cepstral coefficients, downbeat trackers, chromagrams and key detectors also give back everything they have allocated. The exceptions are: a window loses its old table when another is assigned to it, a constant-Q object its kernel when it is computed again, the tempo tracker an array as long as its window in each frame where it looks for the metre, and detection functions and chromagrams for frames of odd length some arrays when their constructors throw; in these cases exactly those blocks are lost.", "quantifier": "all sizes, all sequences of method calls, all heaps with other blocks", "why_tests_cant": "Leaks and double releases change no result, and they depend on the order of calls, e.g. whether something that is made when it is first needed has been made before.", "anchors": ["dsp/transforms/FFT.cpp", "base/Window.h:Window", "dsp/chromagram/ConstantQ.cpp", "dsp/chromagram/Chromagram.cpp", "dsp/rateconversion/Decimator.cpp", "dsp/rateconversion/DecimatorB.cpp", "dsp/phasevocoder/PhaseVocoder.cpp", "dsp/onsets/DetectionFunction.cpp", "dsp/signalconditioning/DFProcess.cpp", "dsp/signalconditioning/FiltFilt.cpp", "dsp/onsets/PeakPicking.cpp", "dsp/signalconditioning/Framer.cpp", "dsp/tempotracking/TempoTrack.cpp", "dsp/mfcc/MFCC.cpp", "dsp/tempotracking/DownBeat.cpp", "dsp/keydetection/GetKeyMode.cpp"]}
{"id": "C112", "title": "Memory of the structural segmenter", "statement": "A structural segmenter, used in any order of initialisation, extraction of features, setting of features and segmentation, never releases a block twice, never uses a released one and never follows a null pointer. It gives back everything if it works with constant-Q or chroma features, is initialised once and nothing is segmented. Otherwise it loses exactly: the objects that a further initialisation replaces (after a segmentation the transform, else also the constant-Q object and the decimator), the object for cepstral coefficients if no segmentation follows, and what the segmentation loses by itself.", "quantifier": "all parameters with a positive histogram length, all sequences of method calls, all numbers of samples and features, all heaps with other blocks", "why_tests_cant": "What is lost depends on the order of calls and on which objects exist at the time; results do not change.", "anchors": ["dsp/segmentation/ClusterMeltSegmenter.cpp:initialise", "dsp/segmentation/ClusterMeltSegmenter.cpp:extractFeatures", "dsp/segmentation/ClusterMeltSegmenter.cpp:segment", "dsp/segmentation/ClusterMeltSegmenter.cpp:~ClusterMeltSegmenter", "dsp/segmentation/ClusterMeltSegmenter.cpp:setFeatures"]}
{"id": "C113", "title": "Memory of programs with many objects", "statement": "A program that creates any number of analysis objects of all classes, calls their methods in any order and destroys them at any time never releases a block twice, never uses a released one and never touches blocks that belong to others. Once all its objects are destroyed, exactly the blocks are lost that the single objects lose in their lives (C111, C112); nothing is lost if it creates no windows, constant-Q objects, tempo trackers and segmenters of its own and no detection functions, chromagrams and key detectors with odd frame lengths.", "quantifier": "all finite sequences of creations, method calls and destructions, all mixtures of 17 classes, all constructor arguments with a positive decimation factor, even beat frames and a positive histogram length, all heaps with other blocks", "why_tests_cant": "The interleavings of calls on many objects cannot be enumerated, and a lost or doubly released block changes no result.", "anchors": ["dsp/transforms/FFT.cpp:FFTReal", "base/Window.h:Window", "dsp/chromagram/Chromagram.cpp:Chromagram", "dsp/onsets/DetectionFunction.cpp:DetectionFunction", "dsp/keydetection/GetKeyMode.cpp:GetKeyMode", "dsp/tempotracking/TempoTrack.cpp:TempoTrack", "dsp/segmentation/ClusterMeltSegmenter.cpp:ClusterMeltSegmenter"]}
{"id": "C114", "title": "Copies of analysis objects", "statement": "A window can be copied: original and copy can be used and destroyed independently. The other classes can be copied too, as far as the compiler is concerned, but destroying an object and a copy of it releases memory twice or uses released memory, whatever state the object is in; exceptions are framers that have not been configured and decimators of the second kind with a refused factor, which have no memory of their own. A segmenter cannot be copied once it has a window, a constant-Q object, a decimator or a transform.", "quantifier": "all objects of 17 classes in all states, all heaps; for windows all sizes and all sequences of operations before and after the copy", "why_tests_cant": "A double release is undefined behaviour: a test may pass by luck, and there are as many states of objects as histories.", "anchors": ["base/Window.h:Window", "dsp/transforms/FFT.h:FFTReal", "dsp/chromagram/Chromagram.h:Chromagram", "dsp/signalconditioning/Framer.h:Framer", "dsp/rateconversion/DecimatorB.h:DecimatorB", "dsp/segmentation/ClusterMeltSegmenter.h:ClusterMeltSegmenter"]}
{"id": "C115", "title": "Structural segmentation and the random number generator of the program", "statement": "A structural segmentation seeds the C library's generator with the current second. So its result does not depend on what the program did with the generator before: in one second, with the same features and the same contents of fresh memory, the result is the same, namely the one with the numbers of the freshly seeded generator, which are used in a fixed order, N*L + N*(N+1) + k*N of them for N states, L features and k clusters. With too few features the generator is left alone. The promise of a library not to disturb its caller is broken: after a segmentation nothing depends any more on the seed that the program has chosen, and with one and the same seed the next number depends on the time of day. If several threads use the generator, the segmentation still succeeds under every schedule with numbers in the range of rand, but two threads that segment the same features in the same second can get different models, although one after the other they would get the same.", "quantifier": "all generators, seconds, states of the generator, features of all four kinds, numbers of states and clusters, memory contents; all programs before and after; all numbers of threads, programs of threads and schedules", "why_tests_cant": "A test runs in one second with one C library and sees neither the caller's later random numbers nor the schedules of threads.", "anchors": ["hmm/hmm.c:hmm_init", "dsp/segmentation/cluster_melt.c:cluster_melt", "dsp/segmentation/cluster_segmenter.c:cluster_segment", "dsp/segmentation/ClusterMeltSegmenter.cpp:segment"]}
{"id": "C116", "title": "Structural segmentation does not depend on what freshly allocated memory contains", "statement": "segment() allocates the copy of the features, the labels, the chroma vectors and all the arrays of the hidden Markov model and of the clustering with new and malloc and does not clear them; three variables of the training are not initialised either. For features of every kind and any two contents of this memory it gives the same segments, or fails in both cases. Together with C115: run in the same second on the same features, two segmentations give the same segments, whatever is in memory and whatever state the random number generator is in.", "quantifier": "all features, sizes and parameters, all four kinds of features, all random numbers, all pairs of memory contents of the allocated sizes, all generators and generator states, and all functions for the matrix inverse and the principal components", "why_tests_cant": "A test sees the memory that the allocator happens to return, mostly zeros in a fresh process, and would not notice that an element is read before it is written.", "anchors": ["dsp/segmentation/ClusterMeltSegmenter.cpp: ClusterMeltSegmenter::segment", "dsp/segmentation/cluster_segmenter.c: cluster_segment, constq_segment, create_histograms", "dsp/segmentation/cluster_melt.c: cluster_melt", "hmm/hmm.c: hmm_init, hmm_train, viterbi_decode"]}
{"id": "C117", "title": "Wavelet filters reconstruct every signal", "statement": "For each of the 43 wavelets, orthogonal or biorthogonal, the two decomposition filters belong together: a signal that is decomposed with them into two bands of half the rate and put together again, with the reconstruction filters that follow from them, comes back, delayed by the length of a filter less one, up to 4e-8 of its level (6e-6 for the Meyer wavelet and 2.7e-5 for the Daubechies wavelet of order 40). In decompositions into k levels the delay is 2^k - 1 times as long and the error at most (8^k - 1)/7 times as large.", "quantifier": "all wavelet types, all signals over all integers, bounded by any level, all positions, and all numbers of levels", "why_tests_cant": "A test can try some signals; that aliasing cancels and every signal comes back is a statement about all of them, and a wrong digit in one of 1000 literals shows only in the fifth or later figure.", "anchors": ["dsp/wavelet/Wavelet.cpp: Wavelet::createDecompositionFilters"]}
{"id": "C118", "title": "Cosine distances in double precision", "statement": "Computed with rounding after every operation, the cosine distance of two feature vectors is symmetric to the last bit, differs from the exact one by at most 22 units of 2^-53 for each element, and so leaves the range from 0 to 2 by no more than that. The distance of a vector to itself is exactly 0 when its sum of squares is at least 2^-12; a quieter vector can be far from itself.", "quantifier": "all pairs of vectors of equal length up to 2^40 whose sums of squares lie between 2^-500 and 2^500, and every way of rounding to nearest (symmetry: all vectors and any rounding)", "why_tests_cant": "Rounding errors depend on every element of the vectors; that no vector gives a larger error, and that the distance of every vector to itself is the double 0 and not a small number, cannot be found by trying vectors.", "anchors": ["maths/CosineDistance.cpp: CosineDistance::distance"]}
{"id": "C119", "title": "Analyses forget what was heard long ago", "statement": "Two objects that have heard different things and then the same give the same results again: detection functions without whitening after none, one or two common frames, depending on the type; the key detector after as many frames as its chroma average and its median are long, less one; filters without feedback after as many samples as they have coefficients, less one. Where the memory is not finite it fades: whitened spectra and the high frequency content computed from them differ by the relaxation coefficient to the power of the number of common frames times the loudest magnitude of the past over the floor; outputs of decimators within M by at most 6M, and fifty times less after every 1250 samples.", "quantifier": "all configurations, all pairs of histories of any lengths, all common continuations", "why_tests_cant": "It compares all pairs of pasts. A test can run a few pasts; a buffer that is never cleared or an index that wraps wrongly shows only for others.", "anchors": ["dsp/onsets/DetectionFunction.cpp: DetectionFunction::processFrequencyDomain, DetectionFunction::processTimeDomain, DetectionFunction::whiten", "dsp/keydetection/GetKeyMode.cpp: GetKeyMode::process", "dsp/signalconditioning/Filter.cpp: Filter::process", "dsp/rateconversion/Decimator.cpp: Decimator::process"]}
{"id": "C120", "title": "Decoding in double precision finds a nearly best state sequence", "statement": "In double precision, viterbi_decode returns a sequence of states, one per observation, whose joint probability with the observations is the greatest of all sequences up to the factor exp(18 T^2 L / 2^53), where T is the number of observations and L bounds the logarithms involved (probabilities that are zero are allowed). A sequence that is better than every other one by more than that factor is the one returned.", "quantifier": "all numbers of states, up to 2^40 observations, all models with probabilities that are zero or have a logarithm of size at most L, all observation log-probabilities up to L, all ways of breaking ties in rounding, all libraries whose log is within one unit in the last place", "why_tests_cant": "Rounding could make one wrong comparison early in the recursion change the whole path; the claim bounds the damage over all sequences, of which there are N^T, for every model. A test can neither list them nor hit the unlucky rounding.", "anchors": ["hmm/hmm.c: viterbi_decode"]}
{"id": "C121", "title": "Leading silence only delays results", "statement": "Silence before the first sound has no effect but delay. Detection functions of every type, with or without whitening (relaxation coefficient at most one), return zero during the silence and afterwards what an object that has not heard it returns. Filters and decimators turn zeros into as many zeros and leave the rest of the output as it is. A resampler turns k periods of silence (source rate over the greatest common divisor) into k periods of the target rate, streaming or in one go, and the other samples are unchanged. A framer gives one more frame per hop of silence; the others are unchanged.", "quantifier": "all configurations, all lengths of silence, all signals after it, all ways of cutting the stream into blocks", "why_tests_cant": "It compares runs of any two lengths over all signals and all block sizes. A test tries a few; an index or a history that is wrongly initialised shows only for some.", "anchors": ["dsp/onsets/DetectionFunction.cpp: DetectionFunction::initialise, DetectionFunction::processFrequencyDomain, DetectionFunction::processTimeDomain, DetectionFunction::whiten", "dsp/signalconditioning/Filter.cpp: Filter::process", "dsp/rateconversion/Decimator.cpp: Decimator::process", "dsp/rateconversion/Resampler.cpp: Resampler::process, Resampler::resample", "dsp/signalconditioning/Framer.cpp: Framer::getFrame"]}
{"id": "C122", "title": "Sounds in silence are found where they are", "statement": "Audio is cut into frames, turned into high frequency content without whitening and handed to a peak picker with a smoothing filter that does not feed back. A frame has a value other than zero exactly when a sample other than its first (where the window is zero) is not zero. If the frames in which something is heard are far enough apart, about equally loud and not too near either end, exactly these frames are reported as onsets, in order, each once. The value of a frame with a single click is the click's size times the window there times a constant.", "quantifier": "all audio, frame sizes, hops, numbers of frames, filters with a falling autocorrelation, thresholds and window sizes; all earlier use of the detection function and the peak picker", "why_tests_cant": "The whole chain from samples to onsets over all signals of a class: a test hears some clicks at some places. An off by one frame, a window that cancels a sound or a threshold that misses one shows only for particular places.", "anchors": ["dsp/signalconditioning/Framer.cpp: Framer::getFrame, Framer::setSource", "dsp/onsets/DetectionFunction.cpp: DetectionFunction::processTimeDomain, DetectionFunction::HFC", "dsp/phasevocoder/PhaseVocoder.cpp: PhaseVocoder::processTimeDomain", "dsp/onsets/PeakPicking.cpp: PeakPicking::process, PeakPicking::quadEval"]}
{"id": "C123", "title": "The mutex of the Windows build", "statement": "On Windows, whatever calls of lock, unlock and trylock any number of threads make in whatever order: no two threads have the mutex; whoever gets it by lock or trylock has it alone; unlock gives it back only for the thread that has it; some thread can always go on unless some thread has the mutex. A thread that does not lock what it has is never given a message, whatever the others do. As on other systems, trylock refuses a thread that has the mutex, and after as many unlocks as locks the mutex is free (both are violated: trylock succeeds, and after lock, lock, unlock, unlock no other thread ever gets the mutex).", "quantifier": "all numbers of threads, all sequences of calls, all interleavings of their steps", "why_tests_cant": "It ranges over all schedules, and it needs a Windows build. A test sees the schedules of one machine.", "anchors": ["thread/Thread.cpp: Mutex::lock, Mutex::unlock, Mutex::trylock (Windows)", "thread/Thread.h: Mutex"]}
{"id": "C124", "title": "The condition of the Windows build", "statement": "On Windows, for any number of threads that lock and unlock in pairs: no two threads have the object; lock and wait return only when nobody has it; while a thread sleeps in wait others can lock; unlock is never ignored; in the documented use no signal is lost; a thread goes on only after a signal or its time limit, so there are no wake-ups without a reason; the member is never accessed by two threads at once; nobody is stuck. Time limits are at least a millisecond and less than a millisecond more than asked for. A signal that nobody waits for has no effect, every signal wakes a thread as long as one sleeps and a negative time is no time (all three are violated: signals are kept, two become one, and from -1999 to -1000 microseconds the wait is for ever).", "quantifier": "all numbers of threads, all sequences of calls, all interleavings, all times of the type int", "why_tests_cant": "It ranges over all schedules and needs a Windows build; lost signals are rare.", "anchors": ["thread/Thread.cpp: Condition::lock, Condition::unlock, Condition::wait, Condition::signal (Windows)", "thread/Thread.h: Condition"]}
{"id": "C125", "title": "Asynchronous tasks on Windows", "statement": "On Windows every task that is started is performed exactly once, and when awaitTask returns it has been performed; no schedule of the two threads ends in a deadlock; every call is over after at most 22 steps of the two threads together, however they are scheduled; the members are accessed only under the lock. Destroying an object whose task has been started and not awaited is safe as well (violated: it can block for ever).", "quantifier": "all interleavings of the two threads, all numbers of tasks", "why_tests_cant": "It ranges over all schedules and any number of tasks, and it needs a Windows build.", "anchors": ["thread/AsynchronousTask.h: AsynchronousTask", "thread/Thread.cpp: Condition (Windows)"]}
{"id": "C126", "title": "Handles of the Windows build", "statement": "Whatever a Windows program does with mutexes, conditions and threads, in whatever order and however often it starts a thread: no handle is closed twice, no wait uses a closed handle, and the open handles are one for each mutex, two for each condition and one for each start of a thread there has ever been. So mutexes and conditions give back what they took. When all objects are destroyed no handle is open (violated for threads: n asynchronous tasks made and destroyed leave n open handles).", "quantifier": "all sequences of constructions, destructions, starts and waits", "why_tests_cant": "It ranges over all histories; leaked handles show in no result.", "anchors": ["thread/Thread.cpp: Thread::start, Thread::wait, Thread::~Thread, Mutex::Mutex, Mutex::~Mutex, Condition::Condition, Condition::~Condition (Windows)", "thread/AsynchronousTask.h: AsynchronousTask"]}
{"id": "C127", "title": "The single-precision interfaces of the decimators", "statement": "A decimator that is called with float buffers filters in double precision all the same. Whatever the history of calls with float and with double buffers to one object, its state and the samples of the double calls are those that the double interface alone would have given, and the float calls give these samples rounded to float and write nothing else. A stream of float blocks is within 3 parts in 10^7 of the peak of the exact decimator, however long it is. The two decimators in cascade of the downbeat tracker, with floats between them, are within 2 parts in 10^6 of the peak of the exact cascade. A decimator by 2^k through either interface, or both in turn, is within its error in double precision and one rounding to float of the exact one.", "quantifier": "all histories of calls to either interface, all input, block lengths and buffers; for the bounds all factors 2, 4, 8 (16, 32, 64 for the cascade; every power of two for the decimator by powers of two), all streams of any length with a peak between 2^-100 and 2^100 and every rounding within half a unit", "why_tests_cant": "Whether rounding feeds back into a recursive filter shows only in long streams and particular signals. A test compares a few seconds of a few signals, and never all interleavings of the two interfaces.", "anchors": ["dsp/rateconversion/Decimator.cpp: Decimator::process, Decimator::doAntiAlias", "dsp/rateconversion/DecimatorB.cpp: DecimatorB::process", "dsp/tempotracking/DownBeat.cpp: DownBeat::pushAudioBlock, DownBeat::makeDecimators"]}
{"id": "C128", "title": "The mutex built without thread checks", "statement": "For programs in which no thread locks what it has or unlocks what it has not, building with NO_THREAD_CHECKS changes nothing that can be seen: the histories of calls, returns and results that are possible are exactly those of the build with checks, and threads exclude each other. Without the checks, unlocking what another thread has is undefined behaviour, which the checks prevent in every program; and a thread that locks what it has waits for ever without a message, whatever the other threads properly do.", "quantifier": "all numbers of threads, all sequences of calls by each and all interleavings of their steps", "why_tests_cant": "That two builds allow the same interleavings is a statement about sets of schedules; a test run shows one schedule of one build.", "anchors": ["thread/Thread.cpp: Mutex::Mutex, Mutex::lock, Mutex::unlock, Mutex::trylock (pthreads branch, NO_THREAD_CHECKS)", "thread/Thread.h: Mutex"]}
{"id": "C129", "title": "The Windows mutex built without thread checks", "statement": "Built with NO_THREAD_CHECKS, the mutex of the Windows build is a recursive mutex, whatever the threads do: at no time do two threads have it; a thread waits, or trylock fails, only while another thread has the mutex or is being given it; unlocking what one has not changes nothing; and after as many unlocks as locks the mutex is free. With the checks this last is false: a thread that locks twice and unlocks twice keeps it.", "quantifier": "all numbers of threads, all sequences of calls by each, proper or not, and all interleavings of their steps", "why_tests_cant": "Mutual exclusion and the absence of needless waiting range over all schedules, and the mistake in counting shows only for programs that lock recursively.", "anchors": ["thread/Thread.cpp: Mutex::Mutex, Mutex::lock, Mutex::unlock, Mutex::trylock (Windows branch, NO_THREAD_CHECKS)", "thread/Thread.h: Mutex"]}
{"id": "C130", "title": "Kaiser windows by specification", "statement": "A Kaiser window that is asked for by attenuation and positive transition width (or bandwidth and sample rate, of which only the ratio counts) has the least length that Kaiser's estimate allows, is symmetric, has values above 0 and up to 1 and rises to the middle. A narrower transition or more attenuation never gives a shorter window, and of two windows of the same length the one for more attenuation is nowhere greater. A transition width that is not positive never gives values.", "quantifier": "all real attenuations, transition widths, bandwidths and sample rates for which the length fits an int, all places of the window", "why_tests_cant": "The parameters are real numbers and the formulas change at 21 and 50 dB; tests sample a few designs and miss that the lengths go down at one of these borders.", "anchors": ["base/KaiserWindow.h: KaiserWindow::byTransitionWidth, KaiserWindow::byBandwidth, KaiserWindow::parametersForBandwidth", "base/KaiserWindow.cpp: KaiserWindow::parametersForTransitionWidth, KaiserWindow::init, bessel0"]}
{"id": "C131", "title": "Orthogonal wavelets keep energy", "statement": "When a signal is split with the two filters of a Haar, Daubechies, Symlet, Coiflet or Meyer wavelet and every other sample of each band is kept, the bands have together the energy of the signal, up to 4 in 100 million (27 in a million for Daubechies 40, 6 in a million for Meyer), and no band has more. Over k levels the factor is between (1 - e)^k and (1 + e)^k. For the biorthogonal wavelets this is not so.", "quantifier": "all orthogonal wavelet types, all signals of finite support over the integers, any number of levels", "why_tests_cant": "Energy is a quadratic form in unboundedly many samples; a test checks it for a few signals and a tolerance wide enough to hide a wrong digit in a filter.", "anchors": ["dsp/wavelet/Wavelet.cpp: Wavelet::createDecompositionFilters", "dsp/wavelet/Wavelet.h: Wavelet::Type"]}
{"id": "C132", "title": "What the Fourier transforms do to energies, rotations, convolutions and tones", "statement": "The output of FFT::process has n times the energy of the input (for the inverse one n-th of it), and so have the magnitudes of FFTReal::forwardMagnitude, where the bins between the first and the middle one count twice in a half spectrum. Rotating a frame by any number of samples leaves all magnitudes as they are. Multiplying two spectra bin by bin and transforming back gives the circular convolution of the frames. A cosine of m whole periods in the frame has magnitude |A| n / 2 in bin m and its mirror image and zero elsewhere, whatever its phase.", "quantifier": "all sizes up to INT_MAX, all objects with any history, all frames, rotations, amplitudes and phases, every bin", "why_tests_cant": "The claims are identities over all real frames of every size; a test compares a few frames of a few sizes within a tolerance.", "anchors": ["dsp/transforms/FFT.cpp: FFT::process", "dsp/transforms/FFT.cpp: FFTReal::forwardMagnitude"]}
{"id": "C133", "title": "The cosine transform in double precision", "statement": "In double precision DCT::forward returns twice the DCT-II and DCT::inverse the DCT-III divided by n, each value off by at most a fixed multiple of r/2^53 times the size of the input (for the inverse: times its mean size), where r is the sum of the radices of 2n; no call overruns a buffer and nothing past the n-th output changes. The object keeps rounding residue of earlier inverse transforms in the work area which forward takes to be zero: it adds at most a fixed multiple of r/2^53 times the size of the largest earlier inverse input to later forward transforms and does not accumulate however many calls there are, and inverse transforms are not affected by history at all. Inverse after forward, on any two objects, returns the input within the sum of these bounds.", "quantifier": "all sizes n with 4n up to INT_MAX, all histories of forward and inverse calls, all inputs with sum of magnitudes up to 2^980, every rounding that is accurate to half a unit in the last place and every libm accurate to a unit", "why_tests_cant": "The bound has to hold after every sequence of calls on the object and for every frame; a test sees a few sequences on one machine's libm, and the residue that one call leaves for the next is far below its tolerance.", "anchors": ["dsp/transforms/DCT.cpp: DCT::forward", "dsp/transforms/DCT.cpp: DCT::inverse"]}
{"id": "C134", "title": "The unitary cosine transforms in double precision", "statement": "In double precision DCT::forwardUnitary returns the unitary DCT-II and DCT::inverseUnitary its inverse, each value off by at most a fixed multiple of r/2^53 times sqrt(2/n) times the size of the input, where r is the sum of the radices of 2n; forwardUnitary adds a bounded residue of earlier inverse transforms as in C133, inverseUnitary does not depend on history. inverseUnitary after forwardUnitary, on any two objects of the same size, returns the input within a fixed multiple of r/2^53 times its size. The bounds of C133 hold when unitary transforms are among the calls made before.", "quantifier": "all sizes n with 4n up to INT_MAX, all histories of the four transforms, all inputs up to a size at which nothing overflows, every rounding accurate to half a unit in the last place and every libm accurate to a unit", "why_tests_cant": "The scale factors are themselves rounded square roots and every frame and history is affected; a test sees a few frames and sizes on one machine.", "anchors": ["dsp/transforms/DCT.cpp: DCT::forwardUnitary", "dsp/transforms/DCT.cpp: DCT::inverseUnitary", "dsp/transforms/DCT.cpp: DCT::DCT"]}
{"id": "C135", "title": "The autocorrelation in double precision", "statement": "In double precision every value of Correlation::doAutoUnBiased is positive. It is either within 8/2^53 times the energy of the block of the mean product of the overlapping samples, or the floor 2.2204e-16, and the latter only where that mean product is not above this bound. The bound does not grow with the length of the block. At lag zero the value is never the floor: it is the mean energy within 8n/2^53 of itself.", "quantifier": "all blocks of up to 2^40 samples whose energy lies between 2^-1000 and 2^1000, every lag, every rounding accurate to half a unit in the last place", "why_tests_cant": "Rounding can move a mean product across zero, where the output jumps to the floor; which lags that affects has to be bounded for every block, and a test sees a few.", "anchors": ["maths/Correlation.cpp: Correlation::doAutoUnBiased"]}
{"id": "C136", "title": "Small changes of the chroma change harmony features little", "statement": "If two chroma vectors differ by D in sum, transform2TCS gives tonal centroids at most 1.61 D apart, and exactly the radius of the three circles times D apart when they differ in one pitch class. If two chromagrams of the same length differ by at most D in every frame, each value of ChangeDetectionFunction::process changes by at most twice that distance times the sum of the smoothing kernel, however long the chromagrams are.", "quantifier": "all pairs of chroma vectors, all pairs of chromagrams of the same length, all smoothing widths", "why_tests_cant": "A bound on the effect of every disturbance of every chromagram; a test tries a few. The code also reads an uninitialised member, which a test does not notice.", "anchors": ["dsp/tonal/TonalEstimator.cpp: TonalEstimator::transform2TCS", "dsp/tonal/ChangeDetectionFunction.cpp: ChangeDetectionFunction::process"]}
{"id": "C137", "title": "Small changes of a curve change its smoothed and thresholded versions little", "statement": "If two curves of the same length differ by at most e everywhere, MedianFilter::filter of any size gives curves that differ by at most e everywhere, MedianFilter objects of the same size and percentile that were fed the curves report values that differ by at most e, and MathUtilities::adaptiveThreshold gives curves that differ by at most 2e everywhere. A constant added to a whole curve does not change what adaptiveThreshold gives. A curve that is nowhere above another one is nowhere above it after median filtering.", "quantifier": "all pairs of curves of all lengths, every size of the median filter, every disturbance", "why_tests_cant": "A median can jump to a different sample when the input changes; that it never jumps further than the input moved is a statement about all pairs of curves.", "anchors": ["maths/MedianFilter.h: MedianFilter::filter", "maths/MedianFilter.h: MedianFilter::push", "maths/MathUtilities.cpp: MathUtilities::adaptiveThreshold"]}
{"id": "C138", "title": "Principal components do not depend on offsets of the features or on the order of the rows", "statement": "Adding a constant to each column of the data does not change what pca_project gives. Rearranging the rows rearranges the rows of the result in the same way and changes nothing else: in particular whether the analysis gives up for want of convergence does not depend on the order of the rows. The contents of the memory allocated for the covariance matrix and the means do not matter.", "quantifier": "all data matrices with at least one row and column, all offsets, all permutations of the rows, all numbers of components, every convergence test", "why_tests_cant": "Relates the results for all pairs of data that differ by offsets or by the order of rows, through an iteration whose number of steps depends on the data.", "anchors": ["maths/pca/pca.c: pca_project", "maths/pca/pca.c: covcol"]}
{"id": "C139", "title": "The fitted polynomial follows the data", "statement": "Scaling the values passed to PolyFit2 and adding to them the values of a polynomial of the fitted degree scales the coefficients and adds those of the polynomial, and a fit is made in the one case exactly if it is in the other. Values that lie on a polynomial of the fitted degree give back that polynomial. The order of the points does not matter.", "quantifier": "all points, values and degrees, all scale factors, all added polynomials, all permutations of the points", "why_tests_cant": "Relates the results for all pairs of data sets; elimination with pivoting takes different paths for them.", "anchors": ["maths/Polyfit.h: TPolyFit::PolyFit2"]}
