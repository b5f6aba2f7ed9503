{
 "claims": [
  {
   "property": "C01",
   "status": "partial",
   "theorems": [
    "QM.MathInt.C01_isPowerOfTwo_iff",
    "QM.MathInt.C01_nextPowerOfTwo_least",
    "QM.MathInt.C01_nextPowerOfTwo_overflow_iff",
    "QM.MathInt.C01_violation",
    "QM.MathInt.C01_previousPowerOfTwo_greatest",
    "QM.MathInt.C01_nearestPowerOfTwo_partial"
   ],
   "note": "isPowerOfTwo, nextPowerOfTwo, previousPowerOfTwo are proved at full strength on the non-overflowing range; C01_violation shows nextPowerOfTwo overflows for x > 2^30, so the property as stated (no overflow for any int) is false."
  },
  {
   "property": "C02",
   "status": "proved",
   "theorems": [
    "QM.MathInt.C02_gcd_correct",
    "QM.MathInt.C02_gcd_zero",
    "QM.MathInt.C02_factorial"
   ],
   "note": "gcd over all non-negative a and positive b, division by zero for b = 0, factorial for every int."
  },
  {
   "property": "C03",
   "status": "partial",
   "theorems": [
    "QM.MathReal.C03_mod_range",
    "QM.MathReal.C03_princarg_partial",
    "QM.MathReal.C03_princarg_violation"
   ],
   "note": "mod proved in full. princarg is proved congruent and in (-pi, pi]; the documented interval [-pi, pi) is refuted by C03_princarg_violation."
  },
  {
   "property": "C04",
   "status": "proved",
   "theorems": [
    "QM.MathReal.C04_median",
    "QM.MathReal.C04_mean",
    "QM.MathReal.C04_meanRange",
    "QM.MathReal.C04_getMax",
    "QM.MathReal.C04_getFrameMinMax"
   ],
   "note": ""
  },
  {
   "property": "C05",
   "status": "proved",
   "theorems": [
    "QM.MathReal.C05_circShift_rotates",
    "QM.MathReal.C05_circShift_negative",
    "QM.MathReal.C05_circShift_empty"
   ],
   "note": ""
  },
  {
   "property": "C06",
   "status": "proved",
   "theorems": [
    "QM.MathReal.C06_unitSum",
    "QM.MathReal.C06_unitMax",
    "QM.MathReal.C06_overloads"
   ],
   "note": ""
  },
  {
   "property": "C07",
   "status": "proved",
   "theorems": [
    "QM.MathReal.C07_adaptiveThreshold",
    "QM.MathReal.C07_adaptiveThreshold_bounds"
   ],
   "note": ""
  },
  {
   "property": "C08",
   "status": "proved",
   "theorems": [
    "QM.MedianFilter.C08_get",
    "QM.MedianFilter.C08_reset"
   ],
   "note": ""
  },
  {
   "property": "C09",
   "status": "proved",
   "theorems": [
    "QM.MedianFilter.C09_filter"
   ],
   "note": ""
  },
  {
   "property": "C10",
   "status": "proved",
   "theorems": [
    "QM.Filter.C10_difference_equation",
    "QM.Filter.C10_chunk_independent",
    "QM.Filter.C10_reset"
   ],
   "note": "All filters accepted by the constructor except the order-0 IIR filter (one a and one b coefficient), which overruns its buffer (C11_violation)."
  },
  {
   "property": "C11",
   "status": "partial",
   "theorems": [
    "QM.Filter.C11_new_guard",
    "QM.Filter.C11_memory_safe_partial",
    "QM.Filter.C11_violation"
   ],
   "note": "Constructor guard proved exactly. Memory safety proved for every accepted filter except IIR order 0, where C11_violation exhibits an out-of-bounds write at the 21st sample."
  },
  {
   "property": "C12",
   "status": "partial",
   "theorems": [
    "QM.Filter.C12_memory_safe",
    "QM.Filter.C12_fir_history_independent",
    "QM.Filter.C12_first_call_partial",
    "QM.Filter.C12_violation"
   ],
   "note": "Proved at full strength for FIR filters (C12_fir_history_independent) and for the first call for every filter; C12_violation refutes it for recursive filters: the filter is not reset before the forward pass."
  },
  {
   "property": "C13",
   "status": "proved",
   "theorems": [
    "QM.Framer.C13_fresh",
    "QM.Framer.C13_maxFrames",
    "QM.Framer.C13_frames",
    "QM.Framer.C13_coverage",
    "QM.Framer.C13_past_end",
    "QM.Framer.C13_zero_hop"
   ],
   "note": ""
  },
  {
   "property": "C14",
   "status": "proved",
   "theorems": [
    "QM.Decimator.C14_stream",
    "QM.Decimator.C14_every_fth",
    "QM.Decimator.C14_reset",
    "QM.Decimator.C14_dc_gain",
    "QM.Decimator.C14_zero"
   ],
   "note": "The factors 2, 4, 8 use the filter tables; factor 1 copies; other factors run the identity filter as the code does. float overloads are the same code and not modelled separately."
  },
  {
   "property": "C15",
   "status": "proved",
   "theorems": [
    "QM.Resampler.C15_one_stream",
    "QM.Resampler.C15_chunk_independence"
   ],
   "note": "all positive rates, all prototypes with length >= source/gcd; the prototype (Kaiser-windowed sinc) is a parameter"
  },
  {
   "property": "C16",
   "status": "proved",
   "theorems": [
    "QM.Resampler.C16_polyphase_stream"
   ],
   "note": "as C15"
  },
  {
   "property": "C17",
   "status": "proved",
   "theorems": [
    "QM.Resampler.C17_delivery",
    "QM.Resampler.C17_violation"
   ],
   "note": "no-throw needs length >= source/gcd, as the property says; C17_violation shows it is needed"
  },
  {
   "property": "C18",
   "status": "partial",
   "theorems": [
    "QM.BlockAllocator.C18_live_disjoint_partial",
    "QM.BlockAllocator.C18_allocate_partial",
    "QM.BlockAllocator.C18_deallocate_partial",
    "QM.BlockAllocator.C18_write_partial",
    "QM.BlockAllocator.C18_violation",
    "QM.BlockAllocator.C18_violation_size_zero"
   ],
   "note": "holds while the number of blocks never exceeds 1024 (524288 elements live at once) and the element size is positive; C18_violation (reallocation of the block vector deletes all live memory at element 524289) and C18_violation_size_zero show the full statement is false of the code"
  },
  {
   "property": "C19",
   "status": "partial",
   "theorems": [
    "QM.Async.C19_exactly_once_partial",
    "QM.Async.C19_await_after_perform_partial",
    "QM.Async.C19_no_deadlock_partial",
    "QM.Async.C19_calls_complete_partial",
    "QM.Async.C19_no_data_race_partial",
    "QM.Async.C19_violation_early_return",
    "QM.Async.C19_violation_deadlock",
    "QM.Async.C19_violation_abandoned_task"
   ],
   "note": "Proved for every interleaving without spurious wake-ups and with every started task awaited; refuted (C19_violation_*) when the condition variable wakes spuriously (early return, deadlock) or the object is destroyed with a task pending."
  },
  {
   "property": "C20",
   "status": "partial",
   "theorems": [
    "QM.Async.C20_deadline_partial",
    "QM.Async.C20_violation"
   ],
   "note": "Exact and in range unless the microsecond sum is a positive multiple of 10^6, where C20_violation proves tv_nsec = 10^9."
  },
  {
   "property": "C21",
   "status": "proved",
   "theorems": [
    "QM.Kiss.C21_factorisation"
   ],
   "note": "kf_factor for every int size."
  },
  {
   "property": "C22",
   "status": "proved",
   "theorems": [
    "QM.FFT.C22_construct",
    "QM.FFT.C22_process",
    "QM.Kiss.C22_kiss_fft",
    "QM.Kiss.C22_kiss_fft_in_place"
   ],
   "note": "Full mixed-radix algorithm (all butterflies, kf_work recursion, twiddle tables) over exact complex arithmetic; object histories included."
  },
  {
   "property": "C23",
   "status": "proved",
   "theorems": [
    "QM.FFT.C23_round_trip"
   ],
   "note": "Both orders, any history."
  },
  {
   "property": "C24",
   "status": "proved",
   "theorems": [
    "QM.FFT.C24_odd_rejected",
    "QM.FFT.C24_even_accepted",
    "QM.FFT.C24_forward",
    "QM.FFT.C24_magnitude"
   ],
   "note": "FFTReal construction, forward and forwardMagnitude over every history of calls, all even sizes up to INT_MAX, complex/real exact arithmetic."
  },
  {
   "property": "C25",
   "status": "proved",
   "theorems": [
    "QM.FFT.C25_inverse",
    "QM.FFT.C25_round_trip"
   ],
   "note": "FFTReal inverse as inverse DFT of the conjugate-symmetric extension of bins 0..n/2, and exact round trip."
  },
  {
   "property": "C26",
   "status": "proved",
   "theorems": [
    "QM.DCT.C26_construct",
    "QM.DCT.C26_forward",
    "QM.DCT.C26_forwardUnitary",
    "QM.DCT.C26_inverse",
    "QM.DCT.C26_round_trip",
    "QM.DCT.C26_round_trip'",
    "QM.DCT.C26_unitary_round_trip",
    "QM.DCT.C26_stateless"
   ],
   "note": "All four transforms over every history of calls, sizes 1 <= n with 4n <= INT_MAX, real arithmetic; formulas, both round trips, energy, statelessness."
  },
  {
   "property": "C27",
   "status": "proved",
   "theorems": [
    "QM.PhaseVocoder.C27_construct",
    "QM.PhaseVocoder.C27_frequency",
    "QM.PhaseVocoder.C27_time",
    "QM.PhaseVocoder.C27_reset"
   ],
   "note": "Construction, both process functions and reset over every history; atan2 is Complex.arg; phases are real numbers."
  },
  {
   "property": "C28",
   "status": "proved",
   "theorems": [
    "QM.DetectionFunction.C28_construct",
    "QM.DetectionFunction.C28_frequency_value",
    "QM.DetectionFunction.C28_time_value",
    "QM.DetectionFunction.C28_nonneg",
    "QM.DetectionFunction.C28_silent",
    "QM.DetectionFunction.C28_silent_samples",
    "QM.DetectionFunction.C28_repeat",
    "QM.DetectionFunction.C28_stationary",
    "QM.DetectionFunction.C28_whitened",
    "QM.DetectionFunction.C28_zero_floor_violation"
   ],
   "note": "Value of every detection function after every history, non-negativity, silence, repetition, stationarity, whitened magnitudes in [0,1] at every reachable state. A whitening floor of exactly 0 is kept, not replaced by the default, and then a silent frame computes 0/0 (C28_zero_floor_violation)."
  },
  {
   "property": "C29",
   "status": "partial",
   "theorems": [
    "QM.PeakPicking.C29_quadEval",
    "QM.PeakPicking.C29_short",
    "QM.PeakPicking.C29_process",
    "QM.PeakPicking.C29_first_call_partial",
    "QM.PeakPicking.C29_short_block_violation"
   ],
   "note": "Peak selection proved for every smoothed function and any picker state; whole call proved for a first call on a non-silent block longer than the window reach (C12, C56 restrictions); short blocks read out of bounds (proved)."
  },
  {
   "property": "C30",
   "status": "proved",
   "theorems": [
    "QM.KeyMode.C30_history",
    "QM.KeyMode.C30_raw_unique",
    "QM.KeyMode.C30_sizes",
    "QM.KeyMode.C30_zero_average_violation",
    "QM.KeyMode.C30_zero_median_violation"
   ],
   "note": "From the chroma frame on (decimation and chromagram are other components); window lengths at least 1, i.e. positive configured durations; zero durations write out of bounds (proved)."
  },
  {
   "property": "C31",
   "status": "proved",
   "theorems": [
    "QM.KeyMode.C31_range",
    "QM.KeyMode.C31_constant",
    "QM.KeyMode.C31_affine",
    "QM.KeyMode.C31_transpose",
    "QM.KeyMode.C31_strengths",
    "QM.KeyMode.C31_silence_key",
    "QM.KeyMode.C31_recognises"
   ],
   "note": "Correlations, strengths, transposition, recognition of all 72 profile tunings. Silence is reported as C minor (proved)."
  },
  {
   "property": "C32",
   "status": "proved",
   "theorems": [
    "QM.Hmm.C32_posteriors",
    "QM.Hmm.C32_distributions",
    "QM.Hmm.C32_defined"
   ],
   "note": "forward-backward equals the sum over all state paths, and the scaling leaves it unchanged, for every model that gives the observations positive probability"
  },
  {
   "property": "C33",
   "status": "proved",
   "theorems": [
    "QM.Hmm.C33_hmm_init",
    "QM.Hmm.C33_hmm_init_one",
    "QM.Hmm.C33_stochastic",
    "QM.Hmm.C33_means",
    "QM.Hmm.C33_covariance",
    "QM.Hmm.C33_training",
    "QM.Hmm.C33_uninitialised",
    "QM.Hmm.C33_init"
   ],
   "note": "re-estimation keeps rows stochastic and covariances symmetric; the mean of a state with zero total occupancy is 0/0 in the code and is modelled as an undefined entry"
  },
  {
   "property": "C34",
   "status": "proved",
   "theorems": [
    "QM.Hmm.C34_viterbi_decode",
    "QM.Hmm.C34_gauss",
    "QM.Hmm.C34_optimal",
    "QM.Hmm.C34_empty"
   ],
   "note": "log probabilities in the reals with minus infinity; N = 0 or T = 0 reads outside the tables (C34_empty)"
  },
  {
   "property": "C35",
   "status": "proved",
   "theorems": [
    "QM.TempoTrackV2.C35_filter_df",
    "QM.TempoTrackV2.C35_comb",
    "QM.TempoTrackV2.C35_periods",
    "QM.TempoTrackV2.C35_short"
   ],
   "note": "The output vector must be at least as long as the detection function, as the callers in /repo make it; the input tempo must be non-zero and the increment non-zero."
  },
  {
   "property": "C36",
   "status": "partial",
   "theorems": [
    "QM.TempoTrackV2.C36_beats_partial",
    "QM.TempoTrackV2.C36_empty",
    "QM.TempoTrackV2.C36_violation",
    "QM.TempoTrackV2.C36_best",
    "QM.TempoTrackV2.C36_weights",
    "QM.TempoTrackV2.C36_tracker"
   ],
   "note": "Beats are positive, strictly increasing and in range when the last beat period is at most the number of values; C36_violation shows that otherwise the search reads before the score vector. Frame 0 is never output."
  },
  {
   "property": "C37",
   "status": "partial",
   "theorems": [
    "QM.TempoTrack.C37_beats",
    "QM.TempoTrack.C37_safe_partial",
    "QM.TempoTrack.C37_meter_overrun",
    "QM.TempoTrack.C37_no_progress",
    "QM.TempoTrack.C37_second_call",
    "QM.TempoTrack.C37_silence"
   ],
   "note": "C37_safe_partial needs a window of at least four lags plus three, not of the form 6q+2: otherwise findMeter and tempoMM read past the autocorrelation (C37_meter_overrun). Shown false otherwise: a silent frame after a 4/4 metre has been found makes beat placement loop forever (C37_silence, C37_no_progress), and a second call of process on the same tracker writes before the frame buffer (C37_second_call). Ordering and spacing are proved for every completed run."
  },
  {
   "property": "C38",
   "status": "proved",
   "theorems": [
    "QM.DownBeat.C38_buffer",
    "QM.DownBeat.C38_reset",
    "QM.DownBeat.C38_zero_factor",
    "QM.DownBeat.C38_factor_twelve"
   ],
   "note": "Also shown: factor 0 divides by zero, and factor 12 (undocumented) writes past the buffer. Resetting the buffer does not reset the decimators, so the stream is continuous across resets."
  },
  {
   "property": "C39",
   "status": "partial",
   "theorems": [
    "QM.DownBeat.C39_downbeats_partial",
    "QM.DownBeat.C39_no_audio",
    "QM.DownBeat.C39_beatSD_count"
   ],
   "note": "Full control logic proved for any audio/beats/frame size; the FFT magnitude and Hann window enter as parameters (FFT itself is C24). The documented count of spectral changes (beats less one) is false: there are beats less two (C39_beatSD_count)."
  },
  {
   "property": "C40",
   "status": "proved",
   "theorems": [
    "QM.PolyFit.C40_failure",
    "QM.PolyFit.C40_least_squares",
    "QM.PolyFit.C40_correlation",
    "QM.PolyFit.C40_rejected"
   ],
   "note": "Full pivoting elimination, normal equations, optimality and uniqueness, failure exactly when there are fewer distinct abscissae than terms, correlation index."
  },
  {
   "property": "C41",
   "status": "partial",
   "theorems": [
    "QM.Segment.C41_documented_range",
    "QM.Segment.C41_makeSegmentation",
    "QM.Segment.C41_empty",
    "QM.Segment.C41_types"
   ],
   "note": "Tiling, types and round trip proved in full; the documented range of types {0..nsegtypes-1} is violated (labels are 1..nsegtypes): C41_documented_range."
  },
  {
   "property": "C42",
   "status": "proved",
   "theorems": [
    "QM.Segment.C42_clusterMelt",
    "QM.Segment.C42_no_clusters",
    "QM.Segment.C42_bestLabel"
   ],
   "note": "For arbitrary arithmetic (so including NaN and infinities), any random numbers and any fresh memory; needs at least one cluster (C42_no_clusters)."
  },
  {
   "property": "C43",
   "status": "proved",
   "theorems": [
    "QM.Segment.C43_createHistograms",
    "QM.Segment.C43_counts",
    "QM.Segment.C43_label_outside"
   ],
   "note": "Exact counts; the window is 2*(hlen/2)+1 labels. C43_label_outside shows what a label outside the states does."
  },
  {
   "property": "C44",
   "status": "proved",
   "theorems": [
    "QM.Segment.C44_decimationFactor"
   ],
   "note": "Any integer sample rate, both internal rates."
  },
  {
   "property": "C45",
   "status": "partial",
   "theorems": [
    "QM.ConstantQ.C45_split",
    "QM.ConstantQ.C45_interleaved_overrun",
    "QM.ConstantQ.C45_interleaved_partial",
    "QM.ConstantQ.C45_overloads_differ",
    "QM.ConstantQ.C45_no_kernel"
   ],
   "note": "Split overload proved in full. The interleaved overload writes one value past its array on every call and uses the neighbouring bin (both proved), so the agreement claim is false of the code; what it computes given room is C45_interleaved_partial."
  },
  {
   "property": "C46",
   "status": "proved",
   "theorems": [
    "QM.ConstantQ.C46_whole_octaves",
    "QM.ConstantQ.C46_spectrum",
    "QM.ConstantQ.C46_foldOctaves",
    "QM.ConstantQ.C46_total_magnitude",
    "QM.ConstantQ.C46_chromagram",
    "QM.Segment.C46_cq2chroma",
    "QM.Segment.C46_total"
   ],
   "note": "Exact arithmetic."
  },
  {
   "property": "C47",
   "status": "proved",
   "theorems": [
    "QM.Distance.C47_value",
    "QM.Distance.C47_lengths",
    "QM.Distance.C47_symmetric",
    "QM.Distance.C47_range",
    "QM.Distance.C47_regularisation",
    "QM.Distance.C47_scaling",
    "QM.Distance.C47_parallel"
   ],
   "note": "Value, symmetry, range, scaling and parallel vectors, all up to the regularisation constant, which is stated exactly."
  },
  {
   "property": "C48",
   "status": "partial",
   "theorems": [
    "QM.Distance.C48_value",
    "QM.Distance.C48_symmetric",
    "QM.Distance.C48_nonneg",
    "QM.Distance.C48_one_sided_bound",
    "QM.Distance.C48_gaussian_value",
    "QM.Distance.C48_gaussian_nonneg",
    "QM.Distance.C48_gaussian_asymmetry",
    "QM.Distance.C48_gaussian_violation"
   ],
   "note": "The symmetrised distribution divergence is symmetric, non-negative and zero on equal vectors; distanceGaussian is not symmetric in general, shown by a witness."
  },
  {
   "property": "C49",
   "status": "proved",
   "theorems": [
    "QM.Correlation.C49_value",
    "QM.Correlation.C49_positive",
    "QM.Correlation.C49_lag_zero",
    "QM.Correlation.C49_lag_zero_not_greatest",
    "QM.Correlation.C49_short_block"
   ],
   "note": "Exact value at every lag, positivity, energy bound; a witness shows the unbiased value at another lag can exceed lag 0."
  },
  {
   "property": "C50",
   "status": "partial",
   "theorems": [
    "QM.Window.C50_window_shape",
    "QM.Window.C50_window_symmetric",
    "QM.Window.C50_window_bounded",
    "QM.Window.C50_cut",
    "QM.Window.C50_cut_in_place",
    "QM.Window.C50_window_data",
    "QM.Window.C50_kaiser_partial",
    "QM.Window.C50_kaiser_one_violation",
    "QM.Window.C50_sinc"
   ],
   "note": "All window types, Kaiser (length >= 2) and sinc; a Kaiser window of length 1 divides 0 by 0 (C50_kaiser_one_violation)."
  },
  {
   "property": "C51",
   "status": "partial",
   "theorems": [
    "QM.Pitch.C51_round_trip",
    "QM.Pitch.C51_cents_partial",
    "QM.Pitch.C51_recovers_partial",
    "QM.Pitch.C51_low_violation"
   ],
   "note": "Round trip exact for every positive frequency; the cents range holds from MIDI pitch 0 up and is violated below, shown by a witness."
  },
  {
   "property": "C52",
   "status": "proved",
   "theorems": [
    "QM.Pca.C52_wide",
    "QM.Pca.C52_value",
    "QM.Pca.C52_centred",
    "QM.Pca.C52_psd",
    "QM.Pca.C52_no_rows_violation"
   ],
   "note": "Exact value for every n >= 1; n = 0 divides zero by zero."
  },
  {
   "property": "C53",
   "status": "proved",
   "theorems": [
    "QM.Wavelet.C53_lengths",
    "QM.Wavelet.C53_mirror",
    "QM.Wavelet.C53_cross_orthogonal",
    "QM.Wavelet.C53_gain",
    "QM.Wavelet.C53_orthonormal",
    "QM.Wavelet.C53_names"
   ],
   "note": "Decimal literals exact; the table is checked in full by the kernel, the exact orthogonality is derived for every shift."
  },
  {
   "property": "C54",
   "status": "proved",
   "theorems": [
    "QM.MathReal.C54_getLpNorm",
    "QM.MathReal.C54_normaliseLp_unit",
    "QM.MathReal.C54_normaliseLp_scale",
    "QM.MathReal.C54_normaliseLp_skip",
    "QM.MathReal.C54_getAlphaNorm_bounds"
   ],
   "note": "exact real arithmetic"
  },
  {
   "property": "C55",
   "status": "proved",
   "theorems": [
    "QM.Resampler.C55_one_off"
   ],
   "note": "prototype filter is a parameter"
  },
  {
   "property": "C56",
   "status": "partial",
   "theorems": [
    "QM.DFProcess.C56_threshold_partial",
    "QM.DFProcess.C56_short_block_violation",
    "QM.DFProcess.C56_forward_window_violation",
    "QM.DFProcess.C56_exact_window_violation",
    "QM.DFProcess.C56_process_partial",
    "QM.DFProcess.C56_silence_violation"
   ],
   "note": "Proved when winPre+winPost is less than the block length or winPost is 0; shorter blocks read out of bounds (proved), equal length leaves a value out of one window (witness), silence divides 0 by 0 (proved). Process composition for the first call (FiltFilt keeps state, see C12)."
  },
  {
   "property": "C57",
   "status": "proved",
   "theorems": [
    "QM.DownBeat.C57_range",
    "QM.DownBeat.C57_zero",
    "QM.DownBeat.C57_symmetric"
   ],
   "note": "Over the reals with the exact logarithm and any positive eps."
  },
  {
   "property": "C58",
   "status": "proved",
   "theorems": [
    "QM.Segment.C58_nonneg",
    "QM.Segment.C58_zero",
    "QM.Segment.C58_symmetric"
   ],
   "note": "Over the reals with the exact logarithm."
  },
  {
   "property": "C59",
   "status": "proved",
   "theorems": [
    "QM.ConstantQ.C59_initialise",
    "QM.ConstantQ.C59_sparsekernel",
    "QM.ConstantQ.C59_valid",
    "QM.ConstantQ.C59_bin",
    "QM.ConstantQ.C59_inner_product",
    "QM.ConstantQ.C59_constantQ"
   ],
   "note": "Over the reals: the discrete Fourier transform, window and frequencies are exact."
  },
  {
   "property": "C60",
   "status": "proved",
   "theorems": [
    "QM.DecimatorB.C60_stream",
    "QM.DecimatorB.C60_determined",
    "QM.DecimatorB.C60_refused",
    "QM.DecimatorB.C60_zero",
    "QM.DecimatorB.C60_stable",
    "QM.DecimatorB.C60_bounded",
    "QM.DecimatorB.C60_dc",
    "QM.DecimatorB.C60_nyquist"
   ],
   "note": "A factor of 0 is divided by before it is refused (C60_zero)."
  },
  {
   "property": "C61",
   "status": "proved",
   "theorems": [
    "QM.BeatSpectrum.C61_value",
    "QM.BeatSpectrum.C61_range",
    "QM.BeatSpectrum.C61_last_frame"
   ],
   "note": "Exact real arithmetic; exp and sqrt as in the cosine distance of C47."
  },
  {
   "property": "C62",
   "status": "proved",
   "theorems": [
    "QM.Tonal.C62_transform",
    "QM.Tonal.C62_short",
    "QM.Tonal.C62_transpose",
    "QM.Tonal.C62_magnitude_transposition",
    "QM.Tonal.C62_linear",
    "QM.Tonal.C62_clear",
    "QM.Tonal.C62_normalizeL1",
    "QM.Tonal.C62_bounded"
   ],
   "note": "A chroma vector with fewer than 12 elements is read past its end (C62_short)."
  },
  {
   "property": "C63",
   "status": "partial",
   "theorems": [
    "QM.Tonal.C63_sequence",
    "QM.Tonal.C63_uninitialised",
    "QM.Tonal.C63_kernel",
    "QM.Tonal.C63_negative_width",
    "QM.Tonal.C63_change_partial",
    "QM.Tonal.C63_violation",
    "QM.Tonal.C63_empty",
    "QM.Tonal.C63_steady",
    "QM.Tonal.C63_transposition"
   ],
   "note": "As the code stands process() reads the uninitialised frame duration of its local TCSGram for every non-empty input (C63_violation). C63_change_partial proves the value if that read yields some number; the other theorems are unconditional."
  },
  {
   "property": "C64",
   "status": "proved",
   "theorems": [
    "QM.Mfcc.C64_make",
    "QM.Mfcc.C64_spectrum",
    "QM.Mfcc.C64_frame",
    "QM.Mfcc.C64_room_for_c0",
    "QM.Mfcc.C64_edges",
    "QM.Mfcc.C64_band",
    "QM.Mfcc.C64_above_nyquist",
    "QM.Mfcc.C64_bands_cover",
    "QM.Mfcc.C64_gain",
    "QM.Mfcc.C64_gain_invariant",
    "QM.Mfcc.C64_silence",
    "QM.Mfcc.C64_energy"
   ],
   "note": "pow with logpower other than 1 is an arbitrary function. A band starting above half the sampling rate is always silent (C64_above_nyquist), so gain invariance needs all bands to sound. The return value is nceps even when nceps+1 values are written (C64_room_for_c0)."
  },
  {
   "property": "C65",
   "status": "proved",
   "theorems": [
    "QM.KissSize.C65_least",
    "QM.KissSize.C65_returns_iff",
    "QM.KissSize.C65_total",
    "QM.KissSize.C65_zero_diverges",
    "QM.KissSize.C65_negative"
   ],
   "note": "n = 0 never returns (C65_zero_diverges); negative n is handed back (C65_negative)."
  },
  {
   "property": "C66",
   "status": "proved",
   "theorems": [
    "QM.Resampler.C66_prototype",
    "QM.Resampler.C66_shape",
    "QM.Resampler.C66_default_delivery",
    "QM.Resampler.C66_default_chunks",
    "QM.Resampler.C66_original_samples",
    "QM.Resampler.C66_stream_original",
    "QM.Resampler.C66_identity"
   ],
   "note": "Reals instead of doubles: the zeros of the sinc are exact. Rates whose reduced source rate exceeds 200001 are excluded because the tap cap makes process throw (see C17_violation)."
  },
  {
   "property": "C67",
   "status": "proved",
   "theorems": [
    "QM.Segment.C67_mpeg7",
    "QM.Segment.C67_normalised",
    "QM.Segment.C67_zero_row",
    "QM.Segment.C67_no_room"
   ],
   "note": "mpeg7_constq over the reals with log10; the extra column, unit rows, relative envelopes, and both failing cases."
  },
  {
   "property": "C68",
   "status": "proved",
   "theorems": [
    "QM.Segment.C68_stages",
    "QM.Segment.C68_too_few",
    "QM.Segment.C68_given",
    "QM.Segment.C68_into",
    "QM.Segment.C68_mfcc",
    "QM.Segment.C68_chroma",
    "QM.Segment.C68_constq",
    "QM.Segment.C68_constq_overrun",
    "QM.Segment.C68_ragged"
   ],
   "note": "rand, the matrix inversion (positive determinant) and the projection on principal components are parameters; feature extraction from audio is not part of the model."
  },
  {
   "property": "C69",
   "status": "proved",
   "theorems": [
    "QM.Pca.C69_tridiagonal",
    "QM.Pca.C69_eigen",
    "QM.Pca.C69_eigen_exact",
    "QM.Pca.C69_spectral",
    "QM.Pca.C69_two",
    "QM.Pca.C69_diagonal",
    "QM.Pca.C69_empty"
   ],
   "note": "The arithmetic is exact; whether thirty iterations suffice is proved for two rows and for diagonal matrices only, otherwise the exit is an allowed outcome."
  },
  {
   "property": "C70",
   "status": "partial",
   "theorems": [
    "QM.Pca.C70_project_partial",
    "QM.Pca.C70_uncorrelated",
    "QM.Pca.C70_centred",
    "QM.Pca.C70_isometry",
    "QM.Pca.C70_reversed",
    "QM.Pca.C70_too_many",
    "QM.Pca.C70_variance_violation"
   ],
   "note": "Missing: the components are those of greatest variance. False, the eigenvalues are not sorted: C70_variance_violation. More components than columns read outside the array: C70_too_many."
  },
  {
   "property": "C71",
   "status": "partial",
   "theorems": [
    "QM.Segment.C71_window_size",
    "QM.Segment.C71_initialise_constq",
    "QM.Segment.C71_initialise_mfcc",
    "QM.Segment.C71_call_constq_partial",
    "QM.Segment.C71_call_mfcc_partial",
    "QM.Segment.C71_unwritten_violation",
    "QM.Segment.C71_unwritten_mfcc_violation",
    "QM.Segment.C71_ignored",
    "QM.Segment.C71_after_segment",
    "QM.Segment.C71_samples",
    "QM.Segment.C71_features_constq_partial",
    "QM.Segment.C71_features_mfcc",
    "QM.Segment.C71_segments_mfcc",
    "QM.Segment.C71_segments_chroma_partial",
    "QM.Segment.C71_segments_constq_partial",
    "QM.Segment.C71_window_violation",
    "QM.Segment.C71_stale_decimator_violation"
   ],
   "note": "Features and segments from audio for blocks of the required size, all histories. The code violates the rest: C71_unwritten_violation, C71_window_violation, C71_stale_decimator_violation."
  },
  {
   "property": "C72",
   "status": "proved",
   "theorems": [
    "QM.ConstantQ.C72_construct",
    "QM.ConstantQ.C72_time",
    "QM.ConstantQ.C72_freq",
    "QM.ConstantQ.C72_overloads_agree",
    "QM.ConstantQ.C72_level",
    "QM.ConstantQ.C72_values",
    "QM.ConstantQ.C72_silence",
    "QM.ConstantQ.C72_unityNormalise"
   ],
   "note": "exact arithmetic; frame size at least 2 and at most 2^30; getK/kabs etc. over reals"
  },
  {
   "property": "C73",
   "status": "partial",
   "theorems": [
    "QM.KeyMode.C73_keys",
    "QM.KeyMode.C73_determined",
    "QM.KeyMode.C73_level",
    "QM.KeyMode.C73_strengths",
    "QM.KeyMode.C73_silence",
    "QM.KeyMode.C73_zero_violation",
    "QM.KeyMode.C73_overlap_violation"
   ],
   "note": "all blocks, histories and levels proved in exact arithmetic; C73_overlap_violation proves that overlapping blocks are filtered joined instead of the recording, C73_silence that silence is reported as C minor"
  },
  {
   "property": "C74",
   "status": "proved",
   "theorems": [
    "QM.DownBeat.C74_construct",
    "QM.DownBeat.C74_push",
    "QM.DownBeat.C74_downbeats",
    "QM.DownBeat.C74_steady",
    "QM.DownBeat.C74_no_audio"
   ],
   "note": "Samples and spectra are exact reals; log and the windows are the real functions."
  },
  {
   "property": "C75",
   "status": "partial",
   "theorems": [
    "QM.Mutex.C75_mutual_exclusion",
    "QM.Mutex.C75_no_undefined",
    "QM.Mutex.C75_acquire",
    "QM.Mutex.C75_unlock",
    "QM.Mutex.C75_deadlock_message",
    "QM.Mutex.C75_trylock_false",
    "QM.Mutex.C75_progress",
    "QM.Mutex.C75_no_message",
    "QM.Mutex.C75_locker",
    "QM.Mutex.C75_data_race_violation"
   ],
   "note": "All clauses but the last are proved for sequentially consistent executions, with any misuse. The last clause is false: C75_data_race_violation shows that the checks in lock and unlock read plain members while another thread writes them."
  },
  {
   "property": "C76",
   "status": "proved",
   "theorems": [
    "QM.Condition.C76_mutual_exclusion",
    "QM.Condition.C76_no_undefined",
    "QM.Condition.C76_acquire",
    "QM.Condition.C76_wait_unlocks",
    "QM.Condition.C76_unlock",
    "QM.Condition.C76_signal_during_wait",
    "QM.Condition.C76_no_lost_signal",
    "QM.Condition.C76_progress",
    "QM.Condition.C76_no_data_race",
    "QM.Condition.C76_two_waiters",
    "QM.Condition.C76_stray_unlock"
   ],
   "note": "For documented use. C76_two_waiters and C76_stray_unlock show what happens otherwise: one signal wakes one of two waiting threads only, and the check in unlock does not detect a stray call while a thread sleeps in wait."
  },
  {
   "property": "C77",
   "status": "partial",
   "theorems": [
    "QM.Thread.C77_no_double_join",
    "QM.Thread.C77_run_once",
    "QM.Thread.C77_progress",
    "QM.Thread.C77_returns",
    "QM.Thread.C77_all_ended_partial",
    "QM.Thread.C77_destroy_partial",
    "QM.Thread.C77_restart_violation",
    "QM.Thread.C77_destroy_violation"
   ],
   "note": "Proved for owners that wait between two starts (and, for the last clause, before destruction). C77_restart_violation and C77_destroy_violation show that the claim is false otherwise."
  },
  {
   "property": "C78",
   "status": "proved",
   "theorems": [
    "QM.Decimator.C78_no_gain",
    "QM.Decimator.C78_stopband",
    "QM.Decimator.C78_passband",
    "QM.Decimator.C78_bounded",
    "QM.Decimator.C78_sinusoid",
    "QM.Decimator.C78_alias"
   ],
   "note": ""
  },
  {
   "property": "C79",
   "status": "proved",
   "theorems": [
    "QM.Hmm.C79_iteration",
    "QM.Hmm.C79_training",
    "QM.Hmm.C79_init_train"
   ],
   "note": ""
  },
  {
   "property": "C80",
   "status": "partial",
   "theorems": [
    "QM.Hmm.C80_invert",
    "QM.Hmm.C80_inverts",
    "QM.Hmm.C80_training",
    "QM.Hmm.C80_singular_violation"
   ],
   "note": "the inverse and determinant are proved for every nonsingular matrix with the bundled LAPACK (C80_invert, C80_training); C80_singular_violation shows for every singular matrix that it is not reported: the return value of dgetrf_ overwrites info, and the test is for a negative value"
  },
  {
   "property": "C81",
   "status": "proved",
   "theorems": [
    "QM.Lapack.C81_factors",
    "QM.Lapack.C81_inverse",
    "QM.Lapack.C81_singular"
   ],
   "note": "any dimension, block size and work array; exact arithmetic"
  },
  {
   "property": "C82",
   "status": "proved",
   "theorems": [
    "QM.Decimator.C82_rounding"
   ],
   "note": "Assumption: each operation is rounded by itself with an error of at most half a unit in the last place (IEEE double, any rounding to nearest)."
  },
  {
   "property": "C83",
   "status": "proved",
   "theorems": [
    "QM.FFT.C83_construct",
    "QM.FFT.C83_process",
    "QM.FFT.C83_round_trip",
    "QM.Kiss.C83_fft_rounding",
    "QM.Kiss.C83_power_of_two"
   ],
   "note": "Double precision by a rounding after every operation; constants are not optimal; assumptions on rounding and library in DESIGN.md."
  },
  {
   "property": "C84",
   "status": "proved",
   "theorems": [
    "QM.FFT.C84_construct",
    "QM.FFT.C84_odd",
    "QM.FFT.C84_forward",
    "QM.FFT.C84_magnitude",
    "QM.FFT.C84_inverse",
    "QM.FFT.C84_round_trip"
   ],
   "note": "errors are bounded relative to the sum of the sizes of the inputs plus n 2^-1022, which is at most 2^1000 (2^500 for magnitudes)"
  },
  {
   "property": "C85",
   "status": "proved",
   "theorems": [
    "QM.DecimatorB.C85_butterworth",
    "QM.DecimatorB.C85_no_gain",
    "QM.DecimatorB.C85_stopband",
    "QM.DecimatorB.C85_passband",
    "QM.DecimatorB.C85_total_le",
    "QM.DecimatorB.C85_alias",
    "QM.DecimatorB.C85_kept",
    "QM.DecimatorB.C85_bounded",
    "QM.DecimatorB.C85_sinusoid"
   ],
   "note": "Exact arithmetic with the decimal coefficients of the source."
  },
  {
   "property": "C86",
   "status": "proved",
   "theorems": [
    "QM.DecimatorB.C86_rounding"
   ],
   "note": "Every operation rounded separately, constants rounded; input within the middle of the range of a double."
  },
  {
   "property": "C87",
   "status": "proved",
   "theorems": [
    "QM.PhaseVocoder.C87_mod",
    "QM.PhaseVocoder.C87_mod_end",
    "QM.PhaseVocoder.C87_princarg",
    "QM.PhaseVocoder.C87_unwrap",
    "QM.PhaseVocoder.C87_advance"
   ],
   "note": "Doubles are reals with a rounding fl after each operation, assumed off by at most half a unit in the last place. The measured phases are inputs of the theorem (atan2 is not modelled in rounded arithmetic)."
  },
  {
   "property": "C88",
   "status": "proved",
   "theorems": [
    "QM.Level.C88_value",
    "QM.Level.C88_function",
    "QM.Level.C88_conditioning",
    "QM.Level.C88_onsets",
    "QM.Level.C88_recording",
    "QM.Level.C88_whitened_violation",
    "QM.Level.C88_beats",
    "QM.Level.C88_classic"
   ],
   "note": "The conditioned frame's autocorrelation enters TempoTrack as any function of the conditioned frame. TempoTrackV2::calculateBeatPeriod adds an absolute EPS and is not claimed. Doubles are exact reals."
  },
  {
   "property": "C89",
   "status": "proved",
   "theorems": [
    "QM.Filter.C89_kernel",
    "QM.Filter.C89_interior",
    "QM.Filter.C89_reversed",
    "QM.Filter.C89_superposition",
    "QM.Filter.C89_lines",
    "QM.Filter.C89_sinusoid"
   ],
   "note": "Non-recursive filters. Recursive filters keep state between calls (C12_violation) and have infinite transients."
  },
  {
   "property": "C90",
   "status": "proved",
   "theorems": [
    "QM.Counting.C90_ceil",
    "QM.Counting.C90_resampler",
    "QM.Counting.C90_process",
    "QM.Counting.C90_resample",
    "QM.Counting.C90_factor",
    "QM.Counting.C90_midpoint",
    "QM.Counting.C90_round",
    "QM.Counting.C90_round_violation"
   ],
   "note": "Rounding to nearest with any rule for ties; no overflow of the exponent. C90_round_violation shows that round is not always the nearest whole number, as the statement says."
  },
  {
   "property": "C91",
   "status": "proved",
   "theorems": [
    "QM.Resampler.Rounded.C91_stream",
    "QM.Resampler.Rounded.C91_chunking",
    "QM.Resampler.Rounded.C91_resample"
   ],
   "note": "sample values and sizes with any rounding to nearest; coefficients and gain are parameters"
  },
  {
   "property": "C92",
   "status": "proved",
   "theorems": [
    "QM.Filter.Rounded.C92_difference_equation",
    "QM.Filter.Rounded.C92_bit_for_bit",
    "QM.Filter.Rounded.C92_error",
    "QM.Filter.Rounded.C92_stable"
   ],
   "note": "for denominators of order at least one, as in C10; the error bound is in terms of a bound on the impulse response, given for feedback coefficients summing to less than one"
  },
  {
   "property": "C93",
   "status": "proved",
   "theorems": [
    "QM.Filter.C93_stable",
    "QM.Filter.C93_sinusoid",
    "QM.Filter.C93_sinusoid_after",
    "QM.Filter.C93_history",
    "QM.Filter.C93_growth",
    "QM.Filter.C93_beats_sinusoid",
    "QM.Filter.C93_beats_level"
   ],
   "note": "exact real arithmetic; stability is a hypothesis on the impulse response, proved for feedback coefficients summing to less than one"
  },
  {
   "property": "C94",
   "status": "proved",
   "theorems": [
    "QM.Pitch.Rounded.C94_frequency",
    "QM.Pitch.Rounded.C94_round_trip"
   ],
   "note": "log and powf of the C library may be off by up to one unit in the last place."
  },
  {
   "property": "C95",
   "status": "proved",
   "theorems": [
    "QM.ConstantQ.Rounded.C95_quality",
    "QM.ConstantQ.Rounded.C95_windows_fit",
    "QM.ConstantQ.Rounded.C95_octaves"
   ],
   "note": "log and pow of the C library may be off by up to one unit in the last place; pow is exact for whole exponents and never below one."
  },
  {
   "property": "C96",
   "status": "proved",
   "theorems": [
    "QM.TempoTrackV2.C96_pulse",
    "QM.TempoTrackV2.C96_steady"
   ],
   "note": "For whole beat periods, as calculateBeatPeriod delivers them (C35)."
  },
  {
   "property": "C97",
   "status": "proved",
   "theorems": [
    "QM.KeyMode.C97_robust",
    "QM.KeyMode.C97_majority",
    "QM.KeyMode.C97_frames",
    "QM.KeyMode.C97_sharp"
   ],
   "note": "C97_robust, C97_majority, C97_frames for all chroma vectors and histories; C97_sharp shows that 0.973 would be too low. Real arithmetic."
  },
  {
   "property": "C98",
   "status": "partial",
   "theorems": [
    "QM.Nan.C98_filter_agrees",
    "QM.Nan.C98_decimator_agrees",
    "QM.Nan.C98_key_agrees",
    "QM.Nan.C98_key_new",
    "QM.Nan.C98_fir",
    "QM.Nan.C98_iir",
    "QM.Nan.C98_onsets_violation",
    "QM.Nan.C98_onsets_partial",
    "QM.Nan.C98_decimator_violation",
    "QM.Nan.C98_decimator_reset",
    "QM.Nan.C98_decimator_numbers",
    "QM.Nan.C98_key_violation"
   ],
   "note": "Proved for filters without feedback, for everything after a reset and as long as no block is silent or contains NaN. The code violates the property for recursive filters, onset picking, decimation and key detection: the violations are proved for every history and every continuation."
  },
  {
   "property": "C99",
   "status": "partial",
   "theorems": [
    "QM.MathReal.Rounded.C99_round_partial",
    "QM.MathReal.Rounded.C99_round_violation",
    "QM.MathReal.Rounded.C99_median",
    "QM.MathReal.Rounded.C99_mean",
    "QM.MathReal.Rounded.C99_mean_violation",
    "QM.MathReal.Rounded.C99_unitMax",
    "QM.MathReal.Rounded.C99_unitSum"
   ],
   "note": "Proved except where the code violates the statement: the mean can leave the range of the data, and round is wrong for the largest double below one half and for odd integers above 2^52 (both proved with witnesses)."
  },
  {
   "property": "C100",
   "status": "partial",
   "theorems": [
    "QM.KeyMode.C100_strengths",
    "QM.KeyMode.C100_key_partial",
    "QM.KeyMode.C100_single",
    "QM.KeyMode.C100_median_violation"
   ],
   "note": "Strengths for every history; the key under conditions on ties and wrap-around that C100_median_violation shows to be needed."
  },
  {
   "property": "C101",
   "status": "partial",
   "theorems": [
    "QM.DownBeat.C101_margin",
    "QM.DownBeat.C101_bars",
    "QM.DownBeat.C101_level_partial",
    "QM.DownBeat.C101_polarity",
    "QM.DownBeat.C101_quiet",
    "QM.DownBeat.C101_level_violation"
   ],
   "note": "The downbeats are the bar lines for music that changes only, or most, at the bar lines; exact for inverted audio. Independence of the level is refuted (C101_level_violation), with the exact dependence in C101_level_partial."
  },
  {
   "property": "C102",
   "status": "partial",
   "theorems": [
    "QM.PeakPicking.C102_events",
    "QM.PeakPicking.C102_spaced_partial",
    "QM.PeakPicking.C102_level_violation"
   ],
   "note": "Exact for any level in terms of the norm of the block; proved that a high level suppresses all events (the norm is taken before the level is removed), so independence of the level is false. Filters with feedback are not covered."
  },
  {
   "property": "C103",
   "status": "partial",
   "theorems": [
    "QM.Hmm.Under.C103_finite_partial",
    "QM.Hmm.Under.C103_stops",
    "QM.Hmm.Under.C103_last_violation",
    "QM.Hmm.Under.C103_click_violation"
   ],
   "note": "Proved that an underflow in any observation but the last leaves the model alone and that without underflow the step is exact; the full statement is false: an underflow in the last observation makes the model NaN (C103_last_violation, C103_click_violation). Rounding other than in exp is not modelled here."
  },
  {
   "property": "C104",
   "status": "partial",
   "theorems": [
    "QM.Hmm.Under.C104_singular",
    "QM.Hmm.Under.C104_constant_violation",
    "QM.Hmm.Under.C104_silence_partial",
    "QM.Hmm.Under.C104_invert"
   ],
   "note": "Proved as stated: identical observations go to one state, and one constant feature has the same effect whatever the others are (violation, for every seed). Finite results are exact, so in doubles it needs a feature whose mean is computed exactly, such as zero."
  },
  {
   "property": "C105",
   "status": "partial",
   "theorems": [
    "QM.DetectionFunction.C105_samples",
    "QM.DetectionFunction.C105_hfc",
    "QM.DetectionFunction.C105_specDiff",
    "QM.DetectionFunction.C105_complex_partial",
    "QM.DetectionFunction.C105_phase_partial",
    "QM.DetectionFunction.C105_phase_violation",
    "QM.DetectionFunction.C105_complex_violation",
    "QM.DetectionFunction.C105_broadband_violation"
   ],
   "note": "Bounds proved for every configuration and history; phase deviation and complex domain need bins that are not silent, because the code violates the claim otherwise (three violations, each for all levels). Broadband counts bins above a threshold and has no bound."
  },
  {
   "property": "C106",
   "status": "partial",
   "theorems": [
    "QM.Mfcc.C106_integer_partial",
    "QM.Mfcc.C106_loud_partial",
    "QM.Mfcc.C106_quiet_violation",
    "QM.Mfcc.C106_soft_violation",
    "QM.Mfcc.C106_fade_violation"
   ],
   "note": "Proved for natural powers and for loud or silent bands; for other powers the code violates the claim (C106_quiet_violation, C106_soft_violation), and the values jump at silence (C106_fade_violation)."
  },
  {
   "property": "C107",
   "status": "proved",
   "theorems": [
    "QM.Machine.C107_constants",
    "QM.Machine.C107_ends",
    "QM.Machine.C107_rmax",
    "QM.Machine.C107_safe",
    "QM.Machine.C107_safe_sharp",
    "QM.Machine.C107_eps"
   ],
   "note": "Double precision is modelled bit for bit, with one zero only."
  },
  {
   "property": "C108",
   "status": "partial",
   "theorems": [
    "QM.Machine.C108_settled_partial",
    "QM.Machine.C108_warm",
    "QM.Machine.C108_race_violation",
    "QM.Machine.C108_factors_violation",
    "QM.Machine.C108_invert_partial"
   ],
   "note": "Proved for programs in which one call has ended before others start. Violated otherwise: C108_race_violation and C108_factors_violation. A step of the model is one statement; by the C standard the race is undefined behaviour already."
  },
  {
   "property": "C109",
   "status": "partial",
   "theorems": [
    "QM.BlockSize.C109_alone",
    "QM.BlockSize.C109_answers_partial",
    "QM.BlockSize.C109_violation",
    "QM.BlockSize.C109_invert_partial"
   ],
   "note": "Violated in full: C109_violation, overlapping calls can be told 1 instead of 64. Proved: C109_alone, C109_answers_partial (any interleaving gives 1 or the documented answer), C109_invert_partial (harmless without rounding)."
  },
  {
   "property": "C110",
   "status": "partial",
   "theorems": [
    "QM.Heap.C110_calls_partial",
    "QM.Heap.C110_violation",
    "QM.Heap.C110_unbounded"
   ],
   "note": "Full statement (everything is released) is violated: C110_violation gives the exact number of bytes lost per call, C110_unbounded that the loss has no bound. C110_calls_partial proves the rest: no double release, no use after release, other blocks untouched."
  },
  {
   "property": "C111",
   "status": "partial",
   "theorems": [
    "QM.Heap.C111_transforms",
    "QM.Heap.C111_decimators",
    "QM.Heap.C111_phaseVocoder",
    "QM.Heap.C111_detectionFunction_partial",
    "QM.Heap.C111_peaks",
    "QM.Heap.C111_framer",
    "QM.Heap.C111_mfcc",
    "QM.Heap.C111_downBeat",
    "QM.Heap.C111_chromagram_partial",
    "QM.Heap.C111_key_partial",
    "QM.Heap.C111_window_violation",
    "QM.Heap.C111_constantQ_violation",
    "QM.Heap.C111_tempoTrack_violation",
    "QM.Heap.C111_detectionFunction_violation",
    "QM.Heap.C111_chromagram_violation"
   ],
   "note": "Proved for all classes: no double release, no use after release, exact losses; clean for all but the listed exceptions, which are proved violations (C111_*_violation)."
  },
  {
   "property": "C112",
   "status": "partial",
   "theorems": [
    "QM.Heap.C112_life_partial",
    "QM.Heap.C112_clean",
    "QM.Heap.C112_mfcc_violation",
    "QM.Heap.C112_again_violation"
   ],
   "note": "Exact losses for every history; clean for a single initialisation without segmentation; the full claim is refuted by C112_mfcc_violation and C112_again_violation."
  },
  {
   "property": "C113",
   "status": "partial",
   "theorems": [
    "QM.Heap.C113_programs_partial",
    "QM.Heap.C113_careful",
    "QM.Heap.C113_violation"
   ],
   "note": "C113_programs_partial gives for every program what is lost exactly; the full claim that nothing is lost fails (C113_violation); C113_careful says which programs lose nothing."
  },
  {
   "property": "C114",
   "status": "partial",
   "theorems": [
    "QM.Heap.C114_shallow_violation",
    "QM.Heap.C114_decimatorB_partial",
    "QM.Heap.C114_framer_partial",
    "QM.Heap.C114_segmenter_violation",
    "QM.Heap.C114_window"
   ],
   "note": "Windows can be copied (C114_window). For the other classes the claim fails for every object (C114_shallow_violation, C114_segmenter_violation); the exceptions are C114_framer_partial and C114_decimatorB_partial."
  },
  {
   "property": "C115",
   "status": "partial",
   "theorems": [
    "QM.Random.C115_alone",
    "QM.Random.C115_same_second",
    "QM.Random.C115_too_few",
    "QM.Random.C115_forgets_violation",
    "QM.Random.C115_threads",
    "QM.Random.C115_threads_given",
    "QM.Random.C115_seed_violation",
    "QM.Random.C115_threads_violation"
   ],
   "note": "The caller's random sequence is disturbed (C115_forgets_violation, C115_seed_violation) and concurrent segmentations are not reproducible (C115_threads_violation). Calls of rand are taken as atomic."
  },
  {
   "property": "C116",
   "status": "proved",
   "theorems": [
    "QM.Random.C116_memory",
    "QM.Random.C116_reproducible"
   ],
   "note": "For memory of the sizes that are allocated; rows of cepstral coefficients have at most ncoeff entries, as extractFeatures makes them."
  },
  {
   "property": "C117",
   "status": "proved",
   "theorems": [
    "QM.Wavelet.C117_reconstruct",
    "QM.Wavelet.C117_levels",
    "QM.Wavelet.C117_delay"
   ],
   "note": "Literals are taken as exact decimal numbers and the filter bank computes exactly."
  },
  {
   "property": "C118",
   "status": "proved",
   "theorems": [
    "QM.Distance.C118_lengths",
    "QM.Distance.C118_symmetric",
    "QM.Distance.C118_error",
    "QM.Distance.C118_range",
    "QM.Distance.C118_self",
    "QM.Distance.C118_quiet"
   ],
   "note": "Exponents without an upper limit in the theorem about the distance to itself; overflow is excluded by the bounds on the sums of squares."
  },
  {
   "property": "C119",
   "status": "proved",
   "theorems": [
    "QM.DetectionFunction.C119_detection",
    "QM.DetectionFunction.C119_detection_time",
    "QM.DetectionFunction.C119_whitening",
    "QM.DetectionFunction.C119_whitened_hfc",
    "QM.DetectionFunction.C119_key",
    "QM.DetectionFunction.C119_filter",
    "QM.DetectionFunction.C119_decimator"
   ],
   "note": "Keys: about chroma frames given to the key detector; the audio before them passes the decimator, whose memory fades."
  },
  {
   "property": "C120",
   "status": "proved",
   "theorems": [
    "QM.Hmm.C120_near",
    "QM.Hmm.C120_clear"
   ],
   "note": "Any addition that rounds to nearest and any log within one unit in the last place; the observation log-probabilities are inputs."
  },
  {
   "property": "C121",
   "status": "proved",
   "theorems": [
    "QM.DetectionFunction.C121_detection",
    "QM.DetectionFunction.C121_detection_time",
    "QM.DetectionFunction.C121_detection_silent",
    "QM.C121_filter",
    "QM.C121_decimator",
    "QM.C121_resample",
    "QM.C121_stream",
    "QM.C121_frames"
   ],
   "note": "All five parts in exact arithmetic; detection functions for relaxation coefficients up to 1 if whitening is on."
  },
  {
   "property": "C122",
   "status": "proved",
   "theorems": [
    "QM.DetectionFunction.C122_value",
    "QM.DetectionFunction.C122_onsets",
    "QM.DetectionFunction.C122_click"
   ],
   "note": "Exact arithmetic; high frequency content without whitening; the smoothing filter of the peak picker does not feed back."
  },
  {
   "property": "C123",
   "status": "partial",
   "theorems": [
    "QM.WinMutex.C123_mutual_exclusion",
    "QM.WinMutex.C123_acquire",
    "QM.WinMutex.C123_unlock",
    "QM.WinMutex.C123_progress",
    "QM.WinMutex.C123_proper_partial",
    "QM.WinMutex.C123_trylock_violation",
    "QM.WinMutex.C123_leak_violation"
   ],
   "note": "The two violations are proved: trylock by the holder succeeds, and locking twice loses the mutex."
  },
  {
   "property": "C124",
   "status": "partial",
   "theorems": [
    "QM.WinCondition.C124_mutual_exclusion",
    "QM.WinCondition.C124_acquire",
    "QM.WinCondition.C124_wait_unlocks",
    "QM.WinCondition.C124_unlock",
    "QM.WinCondition.C124_foreign_unlock",
    "QM.WinCondition.C124_no_lost_signal",
    "QM.WinCondition.C124_wake_needs_signal",
    "QM.WinCondition.C124_no_spurious",
    "QM.WinCondition.C124_no_data_race",
    "QM.WinCondition.C124_progress",
    "QM.WinCondition.C124_limit",
    "QM.WinCondition.C124_limit_violation",
    "QM.WinCondition.C124_old_signal_violation",
    "QM.WinCondition.C124_merged_violation"
   ],
   "note": "Violations proved: signals are kept when nobody waits, two signals can become one, and times from -1999 to -1000 microseconds wait for ever."
  },
  {
   "property": "C125",
   "status": "partial",
   "theorems": [
    "QM.WinAsync.C125_exactly_once",
    "QM.WinAsync.C125_await_after_perform",
    "QM.WinAsync.C125_no_deadlock",
    "QM.WinAsync.C125_calls_complete",
    "QM.WinAsync.C125_no_data_race",
    "QM.WinAsync.C125_abandoned_violation"
   ],
   "note": "Full for documented use; abandoning a started task can block for ever, proved."
  },
  {
   "property": "C126",
   "status": "partial",
   "theorems": [
    "QM.WinHandles.C126_handles_partial",
    "QM.WinHandles.C126_no_leak",
    "QM.WinHandles.C126_task_violation"
   ],
   "note": "Violation proved: handles of threads are never closed."
  },
  {
   "property": "C127",
   "status": "proved",
   "theorems": [
    "QM.Decimator.C127_mixed",
    "QM.Decimator.C127_single",
    "QM.Decimator.C127_cascade",
    "QM.Decimator.C127_power_of_two",
    "QM.Decimator.C127_power_of_two_bound"
   ],
   "note": "Each operation is rounded by itself; factor 1, which only copies, is in C14. Roundings are any with the error of round to nearest."
  },
  {
   "property": "C128",
   "status": "proved",
   "theorems": [
    "QM.Mutex.Unchecked.C128_mutual_exclusion",
    "QM.Mutex.Unchecked.C128_same",
    "QM.Mutex.Unchecked.C128_foreign_unlock_violation",
    "QM.Mutex.Unchecked.C128_silent_deadlock"
   ],
   "note": "Builds with and without NO_THREAD_CHECKS have the same histories under proper use; violations outside it."
  },
  {
   "property": "C129",
   "status": "proved",
   "theorems": [
    "QM.WinMutex.Unchecked.C129_mutual_exclusion",
    "QM.WinMutex.Unchecked.C129_waits",
    "QM.WinMutex.Unchecked.C129_trylock",
    "QM.WinMutex.Unchecked.C129_balanced",
    "QM.WinMutex.Unchecked.C129_no_message",
    "QM.WinMutex.Unchecked.C129_checks_violation"
   ],
   "note": "Recursive mutex, in all histories; C129_checks_violation shows the difference to the build with checks."
  },
  {
   "property": "C130",
   "status": "partial",
   "theorems": [
    "QM.Window.C130_window",
    "QM.Window.C130_monotone_partial",
    "QM.Window.C130_monotone_violation",
    "QM.Window.C130_bandwidth",
    "QM.Window.C130_not_positive"
   ],
   "note": "All but the lengths across 21 dB, where the claim is false: C130_monotone_violation."
  },
  {
   "property": "C131",
   "status": "proved",
   "theorems": [
    "QM.Wavelet.C131_energy",
    "QM.Wavelet.C131_levels",
    "QM.Wavelet.C131_band",
    "QM.Wavelet.C131_biorthogonal_violation"
   ],
   "note": "Exact arithmetic on the printed coefficients; the split into bands is a specification, the library only supplies the filters. The biorthogonal types are excluded, with a witness that they do not keep energy."
  },
  {
   "property": "C132",
   "status": "proved",
   "theorems": [
    "QM.FFT.C132_energy",
    "QM.FFT.C132_magnitudes",
    "QM.FFT.C132_rotation",
    "QM.FFT.C132_convolution",
    "QM.FFT.C132_tone"
   ],
   "note": "Exact arithmetic; rounding errors of the transforms are C83 and C84."
  },
  {
   "property": "C133",
   "status": "proved",
   "theorems": [
    "QM.DCT.C133_construct",
    "QM.DCT.C133_forward",
    "QM.DCT.C133_inverse",
    "QM.DCT.C133_round_trip"
   ],
   "note": "Inputs are bounded so that nothing overflows; the unitary variants and histories that contain them are C134."
  },
  {
   "property": "C134",
   "status": "proved",
   "theorems": [
    "QM.DCT.C134_construct",
    "QM.DCT.C134_forwardUnitary",
    "QM.DCT.C134_inverseUnitary",
    "QM.DCT.C134_history",
    "QM.DCT.C134_round_trip"
   ],
   "note": "Inputs are bounded so that nothing overflows."
  },
  {
   "property": "C135",
   "status": "proved",
   "theorems": [
    "QM.Correlation.C135_value",
    "QM.Correlation.C135_positive",
    "QM.Correlation.C135_lag_zero"
   ],
   "note": "Silent blocks, whose products underflow, are left to the exact model of C49."
  },
  {
   "property": "C136",
   "status": "partial",
   "theorems": [
    "QM.Tonal.C136_centroid",
    "QM.Tonal.C136_centroid_tight",
    "QM.Tonal.C136_change_partial",
    "QM.Tonal.C136_chromagram_partial",
    "QM.Tonal.C136_violation"
   ],
   "note": "proved for the tonal centroids; for the change function once the frame duration of the temporary sequence is set (to any value), since as the code stands process reads that uninitialised member (C136_violation)"
  },
  {
   "property": "C137",
   "status": "proved",
   "theorems": [
    "QM.Smoothing.C137_threshold",
    "QM.Smoothing.C137_threshold_offset",
    "QM.Smoothing.C137_median",
    "QM.Smoothing.C137_median_monotone",
    "QM.Smoothing.C137_object"
   ],
   "note": "for real-valued curves; the threshold's window and the filter's ends are those of the code"
  },
  {
   "property": "C138",
   "status": "proved",
   "theorems": [
    "QM.Pca.C138_offset",
    "QM.Pca.C138_rows"
   ],
   "note": "in exact arithmetic; the two analyses start with the same contents of the arrays for eigenvalues and intermediate results"
  },
  {
   "property": "C139",
   "status": "proved",
   "theorems": [
    "QM.PolyFit.C139_follow",
    "QM.PolyFit.C139_exact",
    "QM.PolyFit.C139_order"
   ],
   "note": "in exact arithmetic"
  }
 ]
}