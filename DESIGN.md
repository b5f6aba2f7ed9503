# Formal model of qm-dsp in Lean 4: design

The source is `/repo` (C++/C), read as text. The model is in `lean/Verif/`, one folder per
component: `Model.lean` (code, function by function, with file:line citations), `Spec.lean`
(small independent specification, when the property is not already plain mathematics),
`Lemmas.lean` (helpers) and `Props.lean` (the property theorems and, beside each, an `example`
showing its hypotheses are met by a concrete non-trivial case).

## Trusted base

* Lean 4.33.0's kernel. Every property theorem depends on at most `propext`, `Classical.choice`,
  `Quot.sound`. No own axioms, no `sorry`, no `native_decide`, no `bv_decide`.
* Faithfulness of the model to the source: the code is not executed, so this rests on reading. Each
  definition cites file and lines.
* **Floating point is modelled in C82 to C84, C86, C87, C90 to C92, C94, C95 and C99 only.** Elsewhere `double`/`float` are modelled by an exact field: a type
  variable `α` (any commutative ring / ordered field, as needed), `ℚ` for evaluated examples, or `ℝ`/`ℂ`
  where `sin`, `cos`, `sqrt`, `log`, `exp` occur. Rounding, overflow to infinity and signed zeros are outside the
  model; NaN is modelled only where the code tests for it (MedianFilter) and in C98. Division by zero is an
  explicit outcome (`none`/error) wherever the code can reach it and the property depends on it.
  The theorems on rounding hold for every function `fl` that is off by at most half a unit in the last place (`Double.Rounds`,
  IEEE rounding to nearest is an instance), and assume one rounding per operation in the order of the source (no
  contraction to fused multiply-add, no extended registers); products with powers of two and negations are taken as exact where the
  definition says so; `cos` and `sin` of the C library are any functions within `2^-52` (`Kiss.Libm`).
* C `int` is modelled by `Int`/`Nat` with explicit overflow or out-of-range outcomes where the
  property is about them; otherwise unbounded, said so at the definition.
* Memory: arrays are lists or functions with explicit bounds checks (`Option`/`Except` results,
  `none` = out-of-bounds access or other undefined behaviour) where the property is about memory
  safety.
* Libraries not modelled: system or vendor LAPACK/BLAS in place of the bundled one, `rand`
  (a parameter), the pthread and Windows implementations (modelled as an abstract lock/condition-variable
  semantics with arbitrary scheduling and, where stated, spurious wake-ups), `malloc` failure.

## Plan per property

| id | modelled | proof |
|----|----------|-------|
| C01 | the four functions on 32-bit ints with overflow outcome | loop invariants, `Nat` bit lemmas; negation witness for overflow |
| C02 | gcd recursion with fuel-free well-founded recursion; factorial loop | equals `Nat.gcd`, `Nat.factorial` |
| C03 | mod, princarg over an ordered field with floor | floor arithmetic; witness that the documented interval fails at pi |
| C04 | median (sort), mean, sum, getMax, getFrameMinMax | induction on the list; sorted permutation spec |
| C05 | circShift loops on lists | induction on shift |
| C06 | normalise both overloads | list sums |
| C07 | adaptiveThreshold on lists with checked reads | direct |
| C08, C09 | MedianFilter ring + sorted array | refinement: sorted copy = insertion sort of last N pushes |
| C10, C11 | Filter with its sliding buffers and offset rewind, checked memory | refinement to the difference equation, any chunking; witness for order 0 overflow |
| C12 | FiltFilt on top of C10's Filter | witness of history dependence; closed form of first call (partial) |
| C13 | Framer state machine | refinement to slices |
| C14 | Decimator, transposed direct-form II filter | refinement to a single stream, induction over blocks |
| C15-C17 | Resampler phase table, buffer, process | refinement to one ideal polyphase stream |
| C18 | BlockAllocator free list + block list | invariant by induction over operations |
| C19 | AsynchronousTask as a two-thread transition system | inductive invariant over all interleavings |
| C20 | Condition::wait deadline arithmetic | arithmetic + witness |
| C21-C23 | kissfft: kf_factor, kf_work with every butterfly, over ℂ | recursion on the factor list; DFT orthogonality |
| C24, C25 | kiss_fftr / kiss_fftri packing, FFTReal | algebra over ℂ on top of C22 |
| C26 | DCT on top of the 4n real FFT, with reused buffers | trigonometric sums |
| C27 | PhaseVocoder unwrapping | princarg facts + induction over frames |
| C28 | DetectionFunction kernels | inequalities, induction over frames |
| C29 | PeakPicking::quadEval with polynomial fit as a parameter | list induction |
| C30, C31 | GetKeyMode buffers, krumCorr | refinement to "last N", Cauchy-Schwarz |
| C32-C34 | hmm.c forward_backwards, baum_welch, viterbi_decode | path sums by induction on T; optimality by induction |
| C35-C37 | TempoTrackV2 Viterbi and back-tracking, TempoTrack beat placement | optimality, order, termination; OOB witnesses |
| C38, C39 | DownBeat buffer and index logic | invariant by induction |
| C40 | Polyfit: Square, GaussJordan(2), PolyFit2 | elimination invariant over a field, least squares |
| C41-C44 | segmentation: makeSegmentation, cluster_melt assignment, create_histograms, factor choice | induction |
| C45, C46 | ConstantQ::process, Chromagram folding | witness for the stray write; sums |
| C47-C49 | CosineDistance, KLDivergence, Correlation | inequalities |
| C50 | Window / KaiserWindow / SincWindow tables | trigonometry |
| C51 | Pitch | logs over ℝ |
| C52 | covcol | finite sums |
| C53 | Wavelet tables | kernel decision over the full finite table |
| C54 | getLpNorm, normaliseLp, getAlphaNorm over ℝ | `rpow` algebra |
| C55 | Resampler::resample: construction, zero padding, two process calls, trimming | reduces to C15-C17 |
| C56 | DFProcess::process: normalise, FiltFilt, median subtraction | window arithmetic; witnesses for short and silent blocks |
| C57 | DownBeat::measureSpecDiff | Jensen-Shannon inequality |
| C58 | cluster_melt kldist | Jensen-Shannon inequality |
| C59 | ConstantQ::initialise, sparsekernel, process(FFT) | DFT orthogonality (Parseval); checked memory with arbitrary initial contents |
| C60 | DecimatorB, including its buffers and filter states | refinement to k filter-and-halve steps; stability by a six-step contraction |
| C61 | BeatSpectrum::process | loop invariants |
| C62, C63 | TonalEstimator, ChromaVector, TCSVector, TCSGram, ChangeDetectionFunction | centroids as complex numbers; witness for the uninitialised member |
| C64 | MFCC: constructor (bands, cosine matrix), both process functions on top of Window and FFTReal | refinement to formulas; orthogonality of the cosine transform |
| C65 | kiss_fft_next_fast_size on ints with overflow and non-termination outcomes | well-founded recursion; prime factors |
| C66 | Kaiser parameters and the prototype designed by Resampler::initialise over the reals, composed with the C15–C17, C55 model | real analysis of sinc zeros, ceilings, symmetric windows; instances of C15–C17, C55 |
| C67 | mpeg7_constq over the reals (log10, sqrt), division by zero and overrun as failures | row-filling lemmas, maximum by induction |
| C68 | cluster_segment, constq_segment and ClusterMeltSegmenter::segment; rand, matrix inversion and pca_project are parameters | composition of C33, C34, C41–C43, C46, C67 |
| C69 | tred2 and tqli over the reals; the test `fabs(e)+dd == dd` is an arbitrary predicate that accepts 0 and accepts v only if v ≤ ε·dd; exit is a separate outcome | Householder reflections and Givens rotations as pure mathematics (House, QL), loop invariants refining the code to them, accumulated error bound by induction over sweeps |
| C70 | pca_project on top of covcol, tred2, tqli | composition of C52 and C69; the claim about greatest variance fails (eigenvalues are not sorted): C70_variance_violation |
| C71 | ClusterMeltSegmenter constructor, initialise, extractFeatures for both kinds of features on top of Decimator, ConstantQ, FFT, Window and MFCC; contents of allocated memory are parameters, `decout` values never written are a separate value | induction over the calls; composition with C68. Fails for longer blocks with a decimator (C71_unwritten_violation), for the position of the window (C71_window_violation) and for a second initialise (C71_stale_decimator_violation) |
| C72 | The Chromagram object: constructor, lazy kernel and window, both `process` overloads, `unityNormalise`; on top of the models of ConstantQ, FFT, Window and normalisation | invariant over all reachable states, then composition with C24, C45, C46, C59 and C06. |
| C73 | GetKeyMode constructor, block and hop size, `process` from the audio on, on top of Decimator (C14), Chromagram (C72) and the key part (C30, C31) | invariant over the calls; linearity and uniqueness of the filter for the level; a click for the overlap deviation. |
| C74 | The DownBeat object: constructor, frame size, real FFT, `findDownBeats`, `getBeatSD`, `setBeatsPerBar` over any history | simulation of the search on kept memory by the search of C39 on fresh memory; invariant over the calls |
| C75 | `Mutex`, `MutexLocker` with any number of threads; every access to a member and every pthreads call is a step; sequential consistency | invariant over reachable states; statements in terms of the visible events; data race in the checks by witness |
| C76 | `Condition` with any number of threads, spurious wake-ups and timeouts | invariant over reachable states for documented use; lost-signal freedom by a second invariant on the protocol; two witnesses for other use |
| C77 | `Thread`: start, wait, destructor, with threads that run at their own pace | invariant over reachable states; two violations by witness |
| C78 | Decimator filters for factors 2, 4, 8 as exact rationals; frequency response over the complex numbers | a polynomial multiple of the denominator with one dominant coefficient (checked in integers by the kernel) gives stability and the decay of the transient; gain bounds are signs of polynomials in cos ω, checked by subdivision in integers and proved sound (`Common/IntPoly`, `Common/Stable`) |
| C79 | `hmm_init`, `hmm_train` over the reals, likelihood as the sum over all paths with Mathlib's matrix inverse and determinant | expectation maximisation: Gibbs' inequality for paths, initial and transition probabilities; `log det` against trace for the covariance; weighted means; invariant over the iterations |
| C80 | `invert` on top of the model of the bundled LAPACK (C81) | determinant of a permuted LU factorisation; the check for singular matrices is dead code (proved for every singular matrix) |
| C81 | the bundled BLAS and LAPACK routines that `invert` reaches, with unrolled loops, blocks, offsets into one array and checked accesses; block sizes, the work array and the safe minimum are parameters | loop invariants for the partially eliminated matrix (L U plus the remainder), for the partially inverted triangle and for the solved columns; permutations as products of transpositions |
| C82 | `Decimator` with a rounding after every operation (`fl` off by half a unit in the last place, within the range of a double); rounding to nearest is an instance | the rounding errors of all statements enter the difference equation as a disturbance; bounded by a certified bound of the impulse response of the recursive part; all memories bounded by induction over time |
| C83 | `kiss_fft` and `FFT` with a rounding after every operation; `cos`, `sin` of the C library as functions within one unit in the last place; literal for pi rounded | every butterfly of the rounded program stays near the exact butterfly on the same input (error in units of a scale that bounds all intermediate results); errors of the levels add up by induction over the factors, weighted by the radix; lengths of buffers are kept for any input, so any history is allowed |
| C84 | `kiss_fftr`, `kiss_fftri` and `FFTReal` with a rounding after every operation, on the model of C83 | the half-size transform is near by C83 at any history; mixing and unmixing of bins `k` and `n/2-k` add a bounded multiple of their sizes; conjugate bins are copies, so symmetry is exact; the modulus by squeezing the computed square between the squares of the bounds |
| C85 | `DecimatorB` in exact arithmetic with the decimal coefficients, on the model of C60; every stage as a function of its whole input signal | the stages are linear difference equations with a kernel-checked certificate of stability; squared gain as a polynomial in the cosine, bounds by kernel-checked bisection; the transient of one stage dies away in the next (split into a finite part and a small rest) |
| C86 | `DecimatorB` with a rounding after every operation, as in C82 | each stage as in C82 with its own certificate, then induction over the stages: the error so far is at most doubled and a new one is added |
| C87 | `MathUtilities::mod`, `princarg` and the phases of `PhaseVocoder` with a rounding after every operation | the floor of a rounded quotient is off by a whole period or nothing; the phase recurrence of a bin is followed over the frames with an invariant on size and drift |
| C88 | the models of C28, C29, C56, `TempoTrackV2::calculateBeats` and C37 on a signal or detection function times a constant | a simulation: every loop of the scaled run is the image of the loop of the unscaled run; the value of each detection function type from its specification; whitening: counterexample |
| C89 | `FiltFilt::process` with a non-recursive filter, in any state | both passes are sums over the coefficients; margins of three times the order hide their transients, so the output is a double sum over the reflected block, from which symmetry, linearity, lines and sinusoids follow |
| C90 | `Resampler`'s sizes, `kf_factor`'s square root, `MathUtilities::round` with a rounding after every operation on doubles | rounding to nearest keeps doubles and is monotone; a quotient of ints is further from a whole number than its rounding error; then the rounded programs equal the exact ones |
| C91 | `Resampler` with a rounding after every operation on samples and sizes | sizes are exact by C90, so the rounded run makes the same moves as the exact one; each sample is a rounded dot product |
| C92 | `Filter` with a rounding after every operation | the buffers hold the last inputs and outputs, so the output solves a rounded difference equation, which has one solution; the difference to the exact one is the impulse response applied to local errors |
| C93 | `FiltFilt::process` in any state and `filter_df`, with a recursive filter | subtract the steady state; what is left obeys the difference equation and is confined to the ends; a profile that decays slower than the impulse response is kept by each pass; growth: a concrete filter, induction over the calls |
| C94 | `Pitch::getFrequencyForPitch` and `getPitchForFrequency` with a rounding to `float` or `double` after every operation | error analysis operation by operation, then the truncation lands on the pitch or the one below and the cents tell which |
| C95 | `ConstantQ::initialise`, the window lengths of `sparsekernel` and `Chromagram::initialise` with a rounding after every operation | rounding to nearest is monotone, and the longest window is computed by the same operations as the length of the transform; for the octaves, error analysis of the logarithms: the error is less than one half of a bin |
| C96 | `calculateBeats` of C36, with the weights of the code | induction over the peaks: the score at a peak is greater than at all frames before it, so the only best predecessor is at the distance with weight one; in silence all candidates are zero and the first, two periods back, is taken |
| C97 | Model and specification of C30/C31 (KeyMode). The distinct profiles correlate by at most 0.9 (integer table, kernel evaluation); Cauchy-Schwarz with the sum of two normalised profiles shows that no chroma is within 0.975 of both; the chroma vectors close to a profile form a convex cone, so means of close frames are close; counting in the sorted window gives the median. |
| C98 | `Nan/Num` adds NaN to the reals (absorbing in arithmetic, false in comparisons, result of division by zero); `Nan/Filter` and `Nan/Model` are the code of Filter, FiltFilt, DFProcess, PeakPicking, Decimator and GetKeyMode on these values. Invariant: the buffers hold the last inputs and outputs since the reset; the set of NaN outputs follows by induction over calls. The failures are theorems about every continuation from every history. On numbers the filters, the decimator and the key detector are proved equal to the models of C10 to C12, C14 and C30 (`Nan/AgreeProps`). |
| C99 | `MathReal/Rounded`: the functions with a rounding after every operation. Monotonicity of rounding to nearest and closure of the doubles under doubling (median, unit maximum); error of a rounded sum (mean, unit sum); case distinction on the exponent for round. Ties-to-even is defined and shown to exist for the counterexamples. |
| C100 | From C30, C31 and C97. Rotating all frames rotates the mean chroma, hence (C31) the 72 correlations; the first place moves with them when it is unique up to the semitone; lower medians commute with maps that are monotone on the window. A three-frame history of exact profiles is the counterexample for the wrap-around. |
| C101 | From C39, C57 and C74. Equal samples give equal spectra and zero divergence, different shapes a positive one (C57), and the mean change is then greatest at the bar lines. A gain multiplies the thresholded spectra, and cancels in the normalised ones if the constant is divided by it; the limit at zero by continuity of x log x. Three silent or pulsed beats as example. |
| C102 | From C29, C56 and the zero-phase filtering results. Without feedback smoothing is a double sum over the coefficients, so an event becomes its height times the autocorrelation of the coefficients; less than half of each threshold window is not zero, so every median is zero; strict maxima are then the events themselves and the best-fitting parabola has a closed form. The norm is taken before the minimum is subtracted, which gives the level violation. One event in 40 frames as example, found on level 0 and not on level 100. |
| C103 | Second model of training and decoding over doubles with infinities and NaN (Verif/Common/Ext.lean), finite results exact, exp a parameter. For finite positive sums it is shown equal to the closed forms of C32 and C33; zero in all states gives 1/0 and 0 times infinity, and NaN spreads by induction forwards and backwards. The concrete family uses the closed form of hmm_init (C33). |
| C104 | The model with infinities and NaN of C103, with invert as modelled for C80 (which keeps the factors of a singular matrix and returns determinant 0). The log density is plus infinity; forward recursion gives infinity times zero; Viterbi compares equal infinities and keeps state 0. |
| C105 | From the values of C28 after every history. The whitening peak is a maximum of convex combinations, so 1-Lipschitz over the history; directions of numbers away from 0 are Lipschitz; the deviation is a product of directions; Jordan's inequality takes it back to angles. Violations: flat spectra, for all configurations and levels. |
| C106 | The end of process modelled again over doubles with infinities and NaN, with the pow of C as a function of base and power. Where all values are numbers it agrees with C64; one NaN band reaches all forty-term sums. |
| C107 | Double precision modelled bit for bit: a finite double is an integer number of units 2^-1074, and rounding is shown to give the nearest double. A call is a machine that does one statement at a time; its loops are followed by stating their variables after every iteration, the 1220 steps of the first call are composed from these, and histories go by induction. |
| C108 | The machine of C107 with any number of threads and one shared set of static variables, stepping in any order. Invariant once the constants are there: calls only read. The race is one interleaving, followed to its end with the lemmas of C107; afterwards the invariant keeps the wrong value. The two branches of the factorisation are shown equal over a field. |
| C109 | ilaenv_ as a tree of single loads and stores of its static variables; s_cmp reads the character that differs twice, as in the source. Any number of threads step in any order. Invariant: for every variable a finite set of values it can have once written, and each call reads only what has been written. The result is combined with the theorems of C81, which hold for all block sizes. |
| C110 | A heap is a multiset of live blocks; malloc, free and use are operations on it, undefined for blocks that are not live. The functions are modelled with all their allocations and releases and with uses of the blocks; values are left out, and the number of passes and the outcome of each are arbitrary. Executed symbolically with loop rules for allocation and release; the lost blocks are computed exactly. |
| C111 | The heap of C110 with rules for programs (`Tri`: which blocks a program needs, which it leaves, the sizes of those it loses; calls, loops, framing). Constructor, methods and destructor of each class as such programs, one rule proved for each; objects have the blocks `own`, and a life is an induction over the calls. `Class.Clean` and `Class.Loses` state the claim for all lives of all objects of a class; losses are given by small state machines. Vectors of the standard library are left out. |
| C112 | The object with its five pointers as programs on the heap of C110 and C111, its methods built from those of the objects it holds; dereferences of null pointers are undefined. What is lost is a state machine with the sizes of the objects held, refined by the programs; proved with the rules of C111 and the result of C110 for the segmentation itself. |
| C113 | The classes of C111 and C112 are one class whose objects carry their kind; a program is a list of operations on numbered objects. The specification of losses is put together in the same way. Proved by a frame rule: each operation needs only the blocks of its own object, so the invariant is that the heap consists of the blocks of the live objects, those lost and those of others. |
| C114 | Copy constructors as programs on the heap: the one that Window has, and for the others the implicit one, which copies pointers. A destructor kills a block if the block is not live whenever it ends, and needs it if it is undefined when the block is not live; both are shown by following the destructors. Windows are done with the rules of C111. |
| C115 | Code that uses the generator is a tree of calls of srand and rand; hmm_init, cluster_melt and everything above are written so, with the calls in their order. A compositional relation 'draws n numbers and computes g of them' connects them with the models of C33, C40 and C68, in which the numbers are parameters. Running alone and running in threads are two interpretations of the tree. The witnesses use the generator printed in the C standard. |
| C116 | Two runs of the model of C68 side by side, with a relation that says on which positions two arrays agree (Common/Agree.lean): every function keeps 'agrees on what has been written', and reads only from there (Hmm/Fresh.lean, Segment/Fresh.lean). Theorems in Random/FreshProps.lean, both without assuming that the run succeeds. |
| C117 | The table of C53. The filter bank is a specification (Wavelet/Bank.lean): decimated bands, zeros in between, reconstruction filters with alternating signs. Aliasing cancels algebraically for any two filters; the taps that are left are cross-correlations of the two filters, and their distance from a pure delay is decided by the kernel for all types. Levels by induction, with bounds on the gains of the filters decided in the same way. |
| C118 | A second model of the function with a rounding after every operation (Distance/Rounded.lean). Sums by the bounds of Common/DoubleSum.lean with the Cauchy-Schwarz inequality, then the product, the square root, the constant 1e-20, the quotient and the difference one after the other. The distance to itself: the rounded square root of the rounded square of a double is that double, and 1e-20 is less than half a unit in the last place. |
| C119 | The models and invariants of C28, C30, C10 and C14/C78. Values of detection functions are determined by the frames they name; whitening is a contraction of the running peaks; the median and the mean are determined by the last raw keys and frames; the difference of two decimator outputs satisfies the homogeneous difference equation and dies out by the certificate of C78. The key theorem is about chroma frames, not about audio. |
| C120 | The model of C34 with an arbitrary addition in the place of the exact one (Hmm/RoundedViterbi.lean; with exact addition it is that model, by definition). Rounded addition is monotone, so the recursion still finds the best sequence in rounded scores; rounded scores are near exact scores by induction over time. The observation log-probabilities are taken as computed: the rounding inside loggauss is not part of the claim. |
| C121 | From the specifications of C28, C10, C14, C16, C55 and C13: the running peak of silence is the floor, which is what a fresh peak becomes; the difference equation and the polyphase formula commute with delays. Exact arithmetic: the phase of a bin that is exactly zero is 0, the sign of a zero is not modelled. |
| C122 | Composition of C13 (frames), C28 (value of a frame) and C102 (events on a level background), plus: the discrete Fourier transform of a real frame whose lower half is zero is zero (conjugate symmetry and inversion), and the window vanishes only at its first point. Exact arithmetic. |
| C123 | Transition system in which every access to m_lockedBy and every call of the system is a step; a Windows mutex has an owner and a count. Invariant over reachable states; statements in terms of visible events; the two violations by a witness and an invariant from there on. |
| C124 | Transition system with the events of C76; the condition is a Windows mutex and an event object that resets itself. The same specification as C76; invariants over reachable states; witnesses for what is different from C76. |
| C125 | The program of C19 on the condition of C124. A table of 111 states up to the number of tasks done, proved closed under all steps by the kernel; steps commute with adding tasks, so that the table covers all histories. Each state has a rank that goes down with every step in a call. |
| C126 | The open handles of the system and the objects with the handles they keep; closing or awaiting a handle that is not open is an error. Invariant: the open handles are a permutation of those of the objects and those of the starts. |
| C127 | The float overload is the double one (C82, C86) with a rounding where a sample is stored; that storing rounded values is storing and then rounding is an induction over the loop, without conditions. The bounds add one rounding to C82; the second stage of the cascade magnifies what goes into it at most three times (certificate of C78, applied to the difference of two streams). |
| C128 | A second transition system with only the pthreads calls. Both inclusions of histories by simulation: from the build with checks by forgetting the steps on its members (messages are excluded by C75), to it by making these steps at once when the pthreads call is made, which the invariant of C75 allows. The deadlock by an invariant over what follows the second lock. |
| C129 | A transition system with only the Windows calls; an invariant that ties the count of the Windows mutex to the number of locks less unlocks in the history. The difference to the build with checks by two runs. |
| C130 | The table of C50 with the parameters of C66. Tapering by comparing two products of polynomials with nonnegative coefficients term by term (Chebyshev's sum inequality). Lengths for more attenuation go down at 21 dB, where the estimate changes: violation by witness, the rest of the claim is proved. |
| C131 | The table of C53 and the bands of C117. Energies as sums over all integers; splitting by sign gives a term for all shifts and one with alternating signs, and the mirrored high-pass filter cancels the second and the odd shifts of the first. The even shifts are autocorrelations of the filter, whose distance from a unit impulse is decided by the kernel for all types; a shifted product of the signal is at most its energy. Levels by induction. Biorthogonal types: violation by witness. |
| C132 | Corollaries of C22 and C24 about the calls themselves: Parseval from the inversion theorem, rotation and convolution by re-indexing sums modulo n, tones by sums of powers of a root of unity. Exact arithmetic; rounding is C83 and C84. |
| C133 | The code of C26 with every operation rounded, running on the rounded real FFT of C84. The invariant over histories is that the even entries of the doubled time buffer are at most what one inverse transform of the largest size leaves; forward bounds their effect by linearity. The *_id theorems show that without rounding it is the model of C26. |
| C134 | C133 with the two scale factors: relative errors of n * sqrt(2/n) and sqrt(2) computed in doubles, of one division or multiplication by each, and the effect of errors in the input of a linear transform. The invariant of C133 is extended to histories of all four calls. |
| C135 | The code of C49 with every operation rounded; the rounded sum of products against the energy of the block, which bounds the products at every lag, then the rounded quotient, then the comparison with zero. |
| C136 | On the model of C62 and C63: the norm of a difference of centroids on each circle, and the triangle inequality through the smoothing and the distance of neighbours. The change function is covered once the unset frame duration has a value; as the code stands the read is undefined behaviour, proved. |
| C137 | On the models of C07 and C09: counting the elements up to a bound shows that an order statistic moves no further than the elements; the mean of a window likewise, and clipping at zero brings values no further apart. |
| C138 | On the model of C52, C69 and C70: the centred data and the scatter matrix are the same, or rearranged, so the eigenvectors are literally the same and the projection acts row by row. Exact arithmetic. |
| C139 | From C40: the least-squares polynomial is unique, and the sum of squared residuals scales with the square of the factor and does not depend on the order. Exact arithmetic. |

## What is modelled and what is not

| source | modelled | not modelled |
|--------|----------|--------------|
| base/Pitch | all | |
| base/Window, KaiserWindow, SincWindow | all | |
| dsp/chromagram | ConstantQ and Chromagram processing, kernel construction, chroma folding | accessor one-liners |
| dsp/keydetection | GetKeyMode: constructor, process from the audio on, krumCorr, getKeyStrengths | printing |
| dsp/mfcc | all | |
| dsp/onsets | DetectionFunction (all types), PeakPicking | |
| dsp/phasevocoder | all | |
| dsp/rateconversion | Decimator, DecimatorB, both with their float overloads, Resampler | |
| dsp/rhythm, dsp/tonal, dsp/wavelet | all | printing |
| dsp/segmentation | makeSegmentation, factor choice, histograms, cluster_melt, kldist, mpeg7_constq, cluster_segment, constq_segment, segment, initialise, extractFeatures | stream output operators |
| dsp/signalconditioning | Filter, FiltFilt, Framer, DFProcess | |
| dsp/tempotracking | TempoTrackV2, TempoTrack, DownBeat | file output in debug branches |
| dsp/transforms, ext/kissfft | kiss_fft, kiss_fftr, next_fast_size, FFT, FFTReal, DCT | fixed-point and SIMD builds, the command-line tools |
| hmm | forward_backwards, baum_welch, viterbi_decode, hmm_train loop, hmm_init, invert | printing |
| ext/clapack, ext/cblas | dgetrf, dgetf2, dlaswp, dgetri, dtrtri, dtrti2 and the BLAS variants they and hmm.c call, dlamch with pow_di and lsame, ilaenv with s_copy and s_cmp | the printed warning of dlamch, ilaenv for other names and other ISPEC than 1 and 2, argument errors, variants that are not called; the build with ATLAS or vecLib |
| maths | MathUtilities, MedianFilter, Polyfit, CosineDistance, KLDivergence, Correlation, covcol, tred2, tqli, pca_project | — |
| thread | BlockAllocator, AsynchronousTask, Mutex, MutexLocker, Condition, Thread (pthreads and Windows branches; Mutex with and without NO_THREAD_CHECKS, which concerns no other class) | the unthreaded branch (which aborts); weak memory |
