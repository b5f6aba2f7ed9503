import Verif.Heap.ClassesLemmas

/-!
# C111: analysis objects and their memory

The life of an object: `new`, any sequence of calls of its methods, `delete`. `Class.Clean`: whatever else is in the heap, the life runs without a double release or an access to memory that has been
released, and afterwards the heap has exactly the same blocks as before. `Class.Loses`: the same, except that blocks with the sizes of a given list are never released.
-/

namespace QM.Heap

variable (so : Sizes)

/-! ### Classes that give everything back -/

/-- **C111** Transforms give back their memory, for every length; for odd lengths `FFTReal` throws and nothing remains. -/
theorem C111_transforms : (fftClass so).Clean (fun _ => True) ∧ (fftRealClass so).Clean (fun _ => True) := ⟨(fft_obeys so).clean _ fun _ _ => ⟨trivial, fun _ => rfl⟩, (fftReal_obeys so).clean _ fun _ _ => ⟨trivial, fun _ => rfl⟩⟩

example (h : Heap) (w : h.WF) : ∃ h', (fftRealClass so).life 1024 [.forward [], .inverse [64], .forwardMagnitude [], .forward []] h = some ((), h') ∧ h'.WF ∧ h'.live = h.live :=
  (C111_transforms so).2 _ _ _ trivial w

/-- **C111** Decimators give back their memory, for every length and factor. -/
theorem C111_decimators : (decimatorClass so).Clean (fun _ => True) ∧ (decimatorBClass so).Clean (fun _ => True) := ⟨(decimator_obeys so).clean _ fun _ _ => ⟨trivial, fun _ => rfl⟩, (decimatorB_obeys so).clean _ fun _ _ => ⟨trivial, fun _ => rfl⟩⟩

example (h : Heap) (w : h.WF) : ∃ h', (decimatorBClass so).life (1024, false) [(), ()] h = some ((), h') ∧ h'.WF ∧ h'.live = h.live :=
  (C111_decimators so).2 _ _ _ trivial w

/-- **C111** Phase vocoders give back their memory, for every frame length and any mixture of frames in the time and frequency domain. -/
theorem C111_phaseVocoder : (phaseVocoderClass so).Clean (fun _ => True) := (phaseVocoder_obeys so).clean _ fun _ _ => ⟨trivial, fun _ => rfl⟩

example (h : Heap) (w : h.WF) : ∃ h', (phaseVocoderClass so).life 7 [some [], none] h = some ((), h') ∧ h'.WF ∧ h'.live = h.live := C111_phaseVocoder so _ _ _ trivial w

/-- **C111** Detection functions with an even frame length give back their memory. -/
theorem C111_detectionFunction_partial : (detectionFunctionClass so).Clean (fun n => n % 2 = 0) := (detectionFunction_obeys so).clean _ fun n v => ⟨trivial, fun t => absurd ((odd_eq n).1 t) (by omega)⟩

example (h : Heap) (w : h.WF) : ∃ h', (detectionFunctionClass so).life 1024 [some [], none, some [8]] h = some ((), h') ∧ h'.WF ∧ h'.live = h.live :=
  C111_detectionFunction_partial so _ _ _ (by norm_num) w

/-- **C111** Smoothing and peak picking give back their memory, for every length and order, including the arrays that each call needs. -/
theorem C111_peaks : (dfProcessClass so).Clean (fun _ => True) ∧ (peakPickingClass so).Clean (fun _ => True) := ⟨(dfProcess_obeys so).clean _ fun _ _ => ⟨trivial, fun _ => rfl⟩, (peakPicking_obeys so).clean _ fun _ _ => ⟨trivial, fun _ => rfl⟩⟩

example (h : Heap) (w : h.WF) : ∃ h', (peakPickingClass so).life ⟨500, 2, 7, 8⟩ [500, 3, 400] h = some ((), h') ∧ h'.WF ∧ h'.live = h.live := (C111_peaks so).2 _ _ _ trivial w

/-- **C111** Framers give back their memory, however often they are configured. -/
theorem C111_framer : framerClass.Clean (fun _ => True) := framer_obeys.clean _ fun _ _ => ⟨trivial, fun _ => rfl⟩

example (h : Heap) (w : h.WF) : ∃ h', framerClass.life () [(1024, 512), (2048, 100), (0, 1)] h = some ((), h') ∧ h'.WF ∧ h'.live = h.live := C111_framer _ _ _ trivial w

/-- **C111** Objects for cepstral coefficients give back their memory, all rows of their tables included. -/
theorem C111_mfcc : (mfccClass so).Clean (fun _ => True) := (mfcc_obeys so).clean _ fun _ _ => ⟨trivial, fun _ => rfl⟩

example (h : Heap) (w : h.WF) : ∃ h', (mfccClass so).life ⟨2048, 19, 40, true⟩ [some [], none] h = some ((), h') ∧ h'.WF ∧ h'.live = h.live := C111_mfcc so _ _ _ trivial w

/-- **C111** Downbeat trackers give back their memory, whatever audio has been pushed, if the decimation factor is not zero and the beat frames have an even length. -/
theorem C111_downBeat : (downBeatClass so).Clean (fun a => 0 < a.factor ∧ a.size % 2 = 0) := (downBeat_obeys so).clean _ fun _ v => ⟨v, fun _ => rfl⟩

example (h : Heap) (w : h.WF) : ∃ h', (downBeatClass so).life ⟨16, 512, 2048⟩ [.push, .push, .find [], .reset, .push] h = some ((), h') ∧ h'.WF ∧ h'.live = h.live :=
  C111_downBeat so _ _ _ ⟨by norm_num, by norm_num⟩ w

/-- **C111** Chromagrams with an even frame length give back their memory, in whatever order frames of both domains come; the kernel, the window and the buffer are made once. -/
theorem C111_chromagram_partial : (chromagramClass so).Clean (fun a => a.2.2 % 2 = 0) := (chromagram_obeys so).clean _ fun a v => ⟨trivial, fun t => absurd ((odd_eq a.2.2).1 t) (by omega)⟩

example (h : Heap) (w : h.WF) : ∃ h', (chromagramClass so).life (12, 36, 4096) [.freq (fun _ => 7) [], .time (fun _ => 7) [], .time (fun _ => 7) [9]] h = some ((), h') ∧ h'.WF ∧ h'.live = h.live :=
  C111_chromagram_partial so _ _ _ (by norm_num) w

/-- **C111** Key detectors with an even frame length give back their memory. -/
theorem C111_key_partial : (keyClass so).Clean (fun a => a.N % 2 = 0) := (key_obeys so).clean _ fun a v => ⟨trivial, fun t => absurd ((odd_eq a.N).1 t) (by omega)⟩

example (h : Heap) (w : h.WF) : ∃ h', (keyClass so).life ⟨180, 16384, 8, 10, 10⟩ [(fun _ => 7, []), (fun _ => 7, [])] h = some ((), h') ∧ h'.WF ∧ h'.live = h.live :=
  C111_key_partial so _ _ _ (by norm_num) w

/-! ### Classes that lose memory, and what they lose -/

/-- **C111** A window loses the table of its old values at each assignment and nothing else. -/
theorem C111_window_violation : (windowClass so).Loses (fun _ => True) windowLosses := (window_obeys so).loses

/-- A window of 1024 values to which a window of 2048 values is assigned twice: the first table and one of the others are lost. -/
example (h : Heap) (w : h.WF) : ∃ lost h', (windowClass so).life 1024 [.cut, .assign 2048, .assign 2048, .cut] h = some ((), h') ∧ h'.WF ∧ h'.live = lost + h.live ∧
    lost.map Prod.snd = {8192, 16384} := C111_window_violation so _ _ _ trivial w

/-- **C111** A `ConstantQ` loses its kernel each time the kernel is computed anew, and nothing else. -/
theorem C111_constantQ_violation : (constantQClass so).Loses (fun _ => True) (constantQLosses (so.obj .sparseKernel)) := (constantQ_obeys so).loses

example (h : Heap) (w : h.WF) : ∃ lost h', (constantQClass so).life (36, 1024) [.sparsekernel (fun _ => 5) [], .process, .sparsekernel (fun _ => 5) [], .process] h = some ((), h') ∧ h'.WF ∧
    h'.live = lost + h.live ∧ lost.map Prod.snd = {so.obj .sparseKernel} := by
  have := C111_constantQ_violation so (36, 1024) [.sparsekernel (fun _ => 5) [], .process, .sparsekernel (fun _ => 5) [], .process] h trivial w
  simpa [Losses.total, Losses.rest, constantQLosses] using this

/-- **C111** A `TempoTrack` loses an array as long as its window in each frame where it looks for the metre, and nothing else. -/
theorem C111_tempoTrack_violation : (tempoTrackClass so).Loses (fun _ => True) tempoLosses := (tempoTrack_obeys so).loses

/-- With the window of 512 values that the library uses, each such frame loses 4096 bytes. -/
example (h : Heap) (w : h.WF) : ∃ lost h', (tempoTrackClass so).life (512, ⟨128, 2, 7, 8⟩) [[⟨false, false, true, 40⟩, ⟨true, true, true, 41⟩], [⟨true, true, false, 42⟩]] h = some ((), h') ∧ h'.WF ∧
    h'.live = lost + h.live ∧ lost.map Prod.snd = {4096, 4096} := C111_tempoTrack_violation so _ _ _ trivial w

/-- **C111** A detection function for frames of odd length cannot be created: the exception loses the four arrays for the history that have been made before. -/
theorem C111_detectionFunction_violation (n : Nat) (o : n % 2 = 1) (ops : List (Option (List Nat))) (h : Heap) (w : h.WF) :
    ∃ (lost : Blocks) (h' : Heap), (detectionFunctionClass so).life n ops h = some ((), h') ∧ h'.WF ∧ h'.live = lost + h.live ∧ lost.map Prod.snd = Multiset.replicate 4 (8 * (n / 2 + 1)) := by
  obtain ⟨r, h', lost, e, w', g, l, s⟩ := Df.new_ok so n h h.live w (by simp)
  rw [if_pos o] at s
  cases r with
  | some x =>
    replace g : n % 2 = 0 := g
    omega
  | none => exact ⟨lost, h', step e rfl, w', by rw [l]; simp, s⟩

example (h : Heap) (w : h.WF) : ∃ (lost : Blocks) (h' : Heap), (detectionFunctionClass so).life 1023 [] h = some ((), h') ∧ h'.WF ∧ h'.live = lost + h.live ∧
    lost.map Prod.snd = Multiset.replicate 4 4096 := C111_detectionFunction_violation so 1023 (by norm_num) _ _ w

/-- **C111** A chromagram for frames of odd length cannot be created: the exception loses the array of chroma values and the whole constant-Q object. -/
theorem C111_chromagram_violation (bpo K N : Nat) (o : N % 2 = 1) (ops : List ChromaOp) (h : Heap) (w : h.WF) :
    ∃ (lost : Blocks) (h' : Heap), (chromagramClass so).life (bpo, K, N) ops h = some ((), h') ∧ h'.WF ∧ h'.live = lost + h.live ∧
      lost.map Prod.snd = {8 * bpo, so.obj .constantQ, 8 * (2 * K)} := by
  obtain ⟨r, h', lost, e, w', g, l, s⟩ := Chroma.new_ok so bpo K N h h.live w (by simp)
  rw [if_pos o] at s
  cases r with
  | some x =>
    replace g : N % 2 = 0 ∧ x.Good ∧ x.fft.n = N := g
    omega
  | none => exact ⟨lost, h', step e rfl, w', by rw [l]; simp, s⟩

example (h : Heap) (w : h.WF) : ∃ (lost : Blocks) (h' : Heap), (chromagramClass so).life (12, 3, 1) [] h = some ((), h') ∧ h'.WF ∧ h'.live = lost + h.live ∧
    lost.map Prod.snd = {96, so.obj .constantQ, 48} := C111_chromagram_violation so 12 3 1 (by norm_num) _ _ w

end QM.Heap
