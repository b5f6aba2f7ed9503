import Verif.DownBeat.Object
import Verif.DownBeat.Props
import Verif.DownBeat.BufferProps
import Verif.FFT.RealProps
import Verif.MathInt.Props

/-! # C74: the downbeat finder over any history, from audio to downbeats -/

namespace QM.DownBeat

open Finset QM.DFT QM.MathReal

/-! ## Specification -/

/-- The magnitudes of the first half of the discrete Fourier transform of a frame of `n` samples. -/
noncomputable def spectrumMag (n : Nat) (f : List ℝ) : List ℝ := (List.range (n / 2)).map (fun k => ‖dft false n (fun j => ((f.getD j 0 : ℝ) : ℂ)) k‖)

/-- What is computed, for `bpb` beats per bar, a decimation factor, an increment and a frame of `n` samples: raised cosine windows, magnitudes of the
Fourier transform, natural logarithms. -/
noncomputable def reference (bpb : Int) (factor increment n : Nat) : Finder ℝ where
  bpb := bpb
  factor := factor
  increment := increment
  frameSize := n
  hann := fun j len => 0.5 * (1 - Real.cos (2 * Real.pi * ((j : ℝ) / (len : ℝ))))
  mag := spectrumMag n
  eps := 2.2204e-16
  lg := Real.log

/-- The arrays made by the constructor have the right lengths. -/
structure ObjMem.Sized (n : Nat) (m : ObjMem) : Prop where
  frame : m.frame.length = n
  re : m.re.length = n
  im : m.im.length = n

/-- The states an object can be in: the constructor, then any calls. `ops` are the blocks pushed and the resets, `bpb` the last number of beats per bar set. -/
inductive Reach (rate : ℝ) (factor increment n : Nat) (junk : Nat → ℝ) : Obj → List (Op ℝ) → Int → Prop
  | make {m s} : m.Sized n → Obj.make rate factor increment m = some s → Reach rate factor increment n junk s [] 0
  | push {s s' ops bpb audio} : Reach rate factor increment n junk s ops bpb → audio.length = increment → s.push junk audio = some s' →
      Reach rate factor increment n junk s' (ops ++ [Op.push audio]) bpb
  | reset {s ops bpb} : Reach rate factor increment n junk s ops bpb → Reach rate factor increment n junk s.reset (ops ++ [Op.reset]) bpb
  | bpb {s ops bpb b} : Reach rate factor increment n junk s ops bpb → Reach rate factor increment n junk (s.setBeatsPerBar b) ops b
  | find {s s' ops bpb audio beats db db'} : Reach rate factor increment n junk s ops bpb → (∀ b ∈ beats, 0 ≤ b) → 0 ≤ bpb → s.find audio beats db = some (s', db') →
      Reach rate factor increment n junk s' ops bpb

/-! ## Lemmas -/

structure ObjOk (factor increment n : Nat) (junk : Nat → ℝ) (s : Obj) (ops : List (Op ℝ)) (bpb : Int) : Prop where
  buf : run junk (DownBeat.new factor increment) ops = some s.buf
  blocks : ∀ b ∈ pushed ops, b.length = increment
  factor : s.buf.factor = factor
  increment : s.buf.increment = increment
  bpb : s.bpb = bpb
  frameSize : s.frameSize = n
  frame : s.frame.length = n
  re : s.re.length = n
  im : s.im.length = n
  fft : FFT.RReach n s.fft

theorem magnitudes_ok {n : Nat} (h0 : n % 2 = 0) (h1 : 2 ≤ n) (h2 : n ≤ 2 ^ 30) {fft : FFT.RD} (hf : FFT.RReach n fft) {frame re im spec : List ℝ}
    (l1 : frame.length = n) (l2 : re.length = n) (l3 : im.length = n) (l4 : spec.length = n / 2) :
    ∃ fft' re' im', magnitudes n fft frame re im spec = some (fft', re', im', spectrumMag n frame) ∧ FFT.RReach n fft' ∧ re'.length = n ∧ im'.length = n := by
  obtain ⟨d', ro', io', e1, r, a1, a2, a3, _⟩ := FFT.C24_forward n h0 h1 (by omega) hf frame re im (by omega) (by omega) (by omega)
  obtain ⟨out, e2, g⟩ := fill_part (L := n / 2) (new := fun k => ‖dft false n (fun j => ((frame.getD j 0 : ℝ) : ℂ)) k‖) (f := fun j spec => do
      let a ← ro'[j]?
      let b ← io'[j]?
      wr spec j (Real.sqrt (a * a + b * b))) (holds_of_length l4 0) (by
    intro k ys hk _
    obtain ⟨a, b, q1, q2, q3⟩ := a3 k (by omega)
    rw [bind_ok q1, bind_ok q2, ← q3, Complex.norm_eq_sqrt_sq_add_sq, sq, sq])
  have : out = spectrumMag n frame := by
    refine List.ext_getElem? fun k => ?_
    unfold spectrumMag
    by_cases hk : k < n / 2
    · rw [g.2 k hk, List.getElem?_map, List.getElem?_range hk]
      rfl
    · rw [List.getElem?_eq_none (by rw [g.1]; omega), List.getElem?_eq_none (by simp; omega)]
  subst this
  refine ⟨d', ro', io', ?_, r, by omega, by omega⟩
  unfold magnitudes
  rw [bind_ok e1]
  dsimp only
  rw [bind_ok e2]
  rfl

structure WorkOk (factor increment n : Nat) (junk : Nat → ℝ) (s : List ℝ × List ℝ × List ℝ) (w : Work) (ops : List (Op ℝ)) (bpb : Int) : Prop where
  obj : ObjOk factor increment n junk w.obj ops bpb
  frame : w.obj.frame = s.1
  old : w.oldspec = s.2.1
  sd : w.obj.sd = s.2.2
  lold : w.oldspec.length = n / 2
  lnew : w.newspec.length = n / 2

theorem loop_keeps {α : Type} {n : Nat} {f : Nat → α → Option α} {a a' : α} {P : α → Prop} (h : loop n f a = some a') (h0 : P a)
    (hstep : ∀ i a a', f i a = some a' → P a → P a') : P a' := by
  induction n generalizing a' with
  | zero => cases h; exact h0
  | succ n ih =>
    rw [loop] at h
    obtain ⟨a1, h1, h2⟩ := Option.bind_eq_some_iff.mp h
    exact hstep n a1 a' h2 (ih h1)

theorem wr_keeps {α : Type} {xs ys : List α} {i : Nat} {v : α} (h : wr xs i v = some ys) : ys.length = xs.length := by
  unfold wr at h
  split_ifs at h
  cases h
  simp

theorem fillFrame_length {p : Finder ℝ} {audio frame out : List ℝ} {a b : Nat} (h : fillFrame p audio a b frame = some out) : out.length = frame.length := by
  unfold fillFrame at h
  obtain ⟨f1, h1, h2⟩ := Option.bind_eq_some_iff.mp h
  have l1 : f1.length = frame.length := loop_keeps (P := fun f => f.length = frame.length) h1 rfl (fun i x y hx hp => by
    obtain ⟨v, _, hx⟩ := Option.bind_eq_some_iff.mp hx
    rw [wr_keeps hx, hp])
  exact loop_keeps (P := fun f => f.length = frame.length) h2 l1 (fun i x y hx hp => by rw [wr_keeps hx, hp])

theorem step_sim {factor increment n : Nat} {junk : Nat → ℝ} (h0 : n % 2 = 0) (h1 : 2 ≤ n) (h2 : n ≤ 2 ^ 30) {audio beats : List ℝ} {i : Nat}
    {s s' : List ℝ × List ℝ × List ℝ} {w : Work} {ops : List (Op ℝ)} {bpb : Int} (h : WorkOk factor increment n junk s w ops bpb)
    (hs : beatStep (reference bpb factor increment n) audio beats i s = some s') :
    ∃ w', Work.step audio beats i w = some w' ∧ WorkOk factor increment n junk s' w' ops bpb := by
  obtain ⟨ok, hfr, hold, hsd, lold, lnew⟩ := h
  unfold beatStep at hs
  obtain ⟨b, e1, hs⟩ := Option.bind_eq_some_iff.mp hs
  obtain ⟨b', e2, hs⟩ := Option.bind_eq_some_iff.mp hs
  obtain ⟨e, e3, hs⟩ := Option.bind_eq_some_iff.mp hs
  obtain ⟨frame, e4, hs⟩ := Option.bind_eq_some_iff.mp hs
  obtain ⟨newspec, e5, hs⟩ := Option.bind_eq_some_iff.mp hs
  have hE : extent w.obj.finder audio.length b b' = some e := by
    rw [← e3]
    unfold extent Obj.finder reference
    dsimp only
    rw [ok.factor, ok.increment]
  have hF : fillFrame w.obj.finder audio e.1 e.2 w.obj.frame = some frame := by
    rw [← e4, hfr]
    unfold fillFrame Obj.finder reference hann
    dsimp only
    rw [ok.frameSize]
  have hfl : frame.length = n := by rw [fillFrame_length hF, ok.frame]
  obtain ⟨fft', re', im', e6, r6, l6, l6'⟩ := magnitudes_ok h0 h1 h2 ok.fft hfl ok.re ok.im lnew
  have e5' : adaptiveThreshold (spectrumMag n frame) = some newspec := e5
  obtain ⟨o, q1, q2, _⟩ := C07_adaptiveThreshold (spectrumMag n frame)
  obtain rfl := Option.some.inj (e5'.symm.trans q1)
  have lsp : newspec.length = n / 2 := by rw [q2]; simp [spectrumMag]
  have hrec : record w.obj.finder i w.oldspec newspec w.obj.sd = some s'.2.2 ∧ s'.1 = frame ∧ s'.2.1 = newspec := by
    unfold record
    by_cases hi : i > 0
    · rw [if_pos hi] at hs ⊢
      obtain ⟨d, e7, hs⟩ := Option.bind_eq_some_iff.mp hs
      cases hs
      have : measureSpecDiff w.obj.finder w.oldspec newspec = some d := by
        rw [← e7, hold]
        rfl
      rw [bind_ok this, hsd]
      exact ⟨rfl, rfl, rfl⟩
    · rw [if_neg hi] at hs ⊢
      cases hs
      rw [hsd]
      exact ⟨rfl, rfl, rfl⟩
  obtain ⟨hr, f1, f2⟩ := hrec
  obtain ⟨out, e8, g⟩ := fill_part (L := n / 2) (new := fun k => newspec.getD k 0) (f := fun j o => do
      let v ← newspec[j]?
      wr o j v) (holds_of_length lold 0) (by
    intro k ys hk _
    rw [bind_ok (get_getD newspec k 0 (by omega))])
  have hout : out = newspec := by
    refine List.ext_getElem? fun k => ?_
    by_cases hk : k < n / 2
    · rw [g.2 k hk, get_getD newspec k 0 (by omega)]
    · rw [List.getElem?_eq_none (by rw [g.1]; omega), List.getElem?_eq_none (by omega)]
  subst hout
  refine ⟨⟨{ w.obj with frame := frame, re := re', im := im', fft := fft', sd := s'.2.2 }, out, out⟩, ?_, ?_⟩
  · unfold Work.step
    rw [bind_ok e1, bind_ok e2, bind_ok hE]
    dsimp only
    rw [bind_ok hF, bind_ok (show magnitudes w.obj.frameSize w.obj.fft frame w.obj.re w.obj.im w.newspec = _ by rw [ok.frameSize]; exact e6)]
    dsimp only
    rw [bind_ok e5', bind_ok hr, bind_ok (show loop (w.obj.frameSize / 2) _ w.oldspec = _ by rw [ok.frameSize]; exact e8)]
    rfl
  · exact ⟨⟨ok.buf, ok.blocks, ok.factor, ok.increment, ok.bpb, ok.frameSize, hfl, l6, l6', r6⟩, f1.symm, f2.symm, rfl, lsp, lsp⟩

theorem loop_sim {α β : Type} {n : Nat} {f : Nat → α → Option α} {g : Nat → β → Option β} {a a' : α} {b : β} {P : α → β → Prop} (h : loop n f a = some a')
    (h0 : P a b) (hstep : ∀ i a a' b, f i a = some a' → P a b → ∃ b', g i b = some b' ∧ P a' b') : ∃ b', loop n g b = some b' ∧ P a' b' := by
  induction n generalizing a' with
  | zero => cases h; exact ⟨b, rfl, h0⟩
  | succ n ih =>
    rw [loop] at h
    obtain ⟨a1, h1, h2⟩ := Option.bind_eq_some_iff.mp h
    obtain ⟨b1, e1, p1⟩ := ih h1
    obtain ⟨b2, e2, p2⟩ := hstep n a1 a' b1 h2 p1
    exact ⟨b2, by rw [loop, e1]; exact e2, p2⟩

/-- The whole function is the one of C39 with the reference window and spectrum. -/
theorem find_sim {factor increment n : Nat} {junk : Nat → ℝ} (h0 : n % 2 = 0) (h1 : 2 ≤ n) (h2 : n ≤ 2 ^ 30) {audio beats sd : List ℝ} {db0 db : List Nat}
    {s : Obj} {ops : List (Op ℝ)} {bpb : Int} (h : ObjOk factor increment n junk s ops bpb)
    (hf : findDownBeats (reference bpb factor increment n) s.frame audio beats = some (db, sd)) :
    ∃ s', s.find audio beats db0 = some (s', db0 ++ db) ∧ s'.sd = sd ∧ ObjOk factor increment n junk s' ops bpb := by
  unfold findDownBeats at hf
  unfold Obj.find
  by_cases ha : audio.length = 0
  · rw [if_pos ha] at hf ⊢
    cases hf
    exact ⟨{ s with sd := [] }, by rw [List.append_nil], rfl, ⟨h.buf, h.blocks, h.factor, h.increment, h.bpb, h.frameSize, h.frame, h.re, h.im, h.fft⟩⟩
  · rw [if_neg ha] at hf ⊢
    obtain ⟨r, e1, hf⟩ := Option.bind_eq_some_iff.mp hf
    obtain ⟨w, e2, ok⟩ := loop_sim (g := Work.step audio beats) (P := fun s w => WorkOk factor increment n junk s w ops bpb)
      (b := ⟨{ s with sd := [] }, List.replicate (s.frameSize / 2) 0, List.replicate (s.frameSize / 2) 0⟩) e1 (by
        refine ⟨⟨h.buf, h.blocks, h.factor, h.increment, h.bpb, h.frameSize, h.frame, h.re, h.im, h.fft⟩, rfl, ?_, rfl, ?_, ?_⟩
        · show List.replicate (s.frameSize / 2) 0 = List.replicate (n / 2) (0 : ℝ)
          rw [h.frameSize]
        · show (List.replicate (s.frameSize / 2) (0 : ℝ)).length = _
          rw [h.frameSize, List.length_replicate]
        · show (List.replicate (s.frameSize / 2) (0 : ℝ)).length = _
          rw [h.frameSize, List.length_replicate])
      (fun i a a' b hs hw => step_sim h0 h1 h2 hw hs)
    rw [bind_ok e2]
    dsimp only at hf ⊢
    rw [show (reference bpb factor increment n).bpb = s.bpb from h.bpb.symm] at hf
    by_cases ht : (if s.bpb = 0 then 4 else s.bpb) < 0
    · rw [if_pos ht] at hf; cases hf
    · rw [if_neg ht] at hf ⊢
      obtain ⟨c, e3, hf⟩ := Option.bind_eq_some_iff.mp hf
      obtain ⟨m, e4, hf⟩ := Option.bind_eq_some_iff.mp hf
      cases hf
      rw [ok.sd, bind_ok e3, bind_ok e4]
      exact ⟨w.obj, rfl, ok.sd, ok.obj⟩

theorem reference_ok {bpb : Int} {factor increment n : Nat} : (∀ f, ((reference bpb factor increment n).mag f).length = (reference bpb factor increment n).frameSize / 2) ∧
    0 < (reference bpb factor increment n).eps := by
  refine ⟨fun f => ?_, ?_⟩
  · show (spectrumMag n f).length = n / 2
    simp [spectrumMag]
  · show (0 : ℝ) < 2.2204e-16
    norm_num

theorem run_append {K : Type} [Field K] (junk : Nat → K) (s : Buf K) (a b : List (Op K)) : run junk s (a ++ b) = (run junk s a).bind (fun s => run junk s b) := by
  induction a generalizing s with
  | nil => rfl
  | cons op a ih =>
    cases op with
    | push x =>
      show (pushAudioBlock junk s x).bind (fun s => run junk s (a ++ b)) = ((pushAudioBlock junk s x).bind (fun s => run junk s a)).bind _
      rw [Option.bind_assoc]
      congr 1
      funext s
      exact ih s
    | reset => exact ih _

theorem pushed_append {K : Type} (a b : List (Op K)) : pushed (a ++ b) = pushed a ++ pushed b := by
  induction a with
  | nil => rfl
  | cons op a ih => cases op <;> simp [pushed, ih]

section
variable {rate : ℝ} {factor increment n : Nat} {junk : Nat → ℝ}

/-- What can be said of a frame size chosen by the constructor. -/
structure FrameSize (rate : ℝ) (factor n : Nat) : Prop where
  hrate : 0 ≤ rate
  two : 2 ≤ n
  big : n ≤ 2 ^ 30
  least : IsLeast {p : Int | MathInt.IsPow2 p ∧ 2 ≤ p ∧ ⌊rate / (factor : ℝ) * 1.3⌋ ≤ p} n

theorem FrameSize.even (h : FrameSize rate factor n) : n % 2 = 0 := by
  obtain ⟨k, hk⟩ := h.least.1.1
  have := h.two
  cases k with
  | zero => rw [pow_zero] at hk; omega
  | succ k => rw [pow_succ] at hk; omega

theorem make_size (hr : 0 ≤ rate) (hf : 0 < factor) (hb : ⌊rate / (factor : ℝ) * 1.3⌋ ≤ 2 ^ 30) :
    ∃ p n : Nat, FrameSize rate factor n ∧ MathInt.nextPowerOfTwo ⌊rate / (factor : ℝ) * 1.3⌋ = some p ∧ (if (p : Int) < 2 then 2 else (p : Int).toNat) = n := by
  have hx : 0 ≤ ⌊rate / (factor : ℝ) * 1.3⌋ := Int.floor_nonneg.mpr (by positivity)
  generalize hX : ⌊rate / (factor : ℝ) * 1.3⌋ = x at *
  obtain ⟨P, hP⟩ : ∃ P, MathInt.nextPowerOfTwo x = some P := by
    rw [← Option.ne_none_iff_exists']
    intro h
    have := (MathInt.C01_nextPowerOfTwo_overflow_iff x ⟨by omega, by omega⟩).mp h
    omega
  have hl := MathInt.C01_nextPowerOfTwo_least x P hP
  have hpos : 0 < P := by
    obtain ⟨k, hk⟩ := hl.1.1
    rw [hk]
    positivity
  have hle : P ≤ 2 ^ 30 := hl.2 ⟨⟨30, rfl⟩, hb⟩
  lift P to Nat using hpos.le
  subst hX
  by_cases h2 : (P : Int) < 2
  · refine ⟨P, 2, ⟨hr, le_refl 2, by norm_num, ⟨⟨1, by norm_num⟩, le_refl _, ?_⟩, fun q hq => hq.2.1⟩, hP, if_pos h2⟩
    have := hl.1.2
    push_cast
    omega
  · refine ⟨P, P, ⟨hr, by omega, by exact_mod_cast hle, ⟨hl.1.1, by omega, hl.1.2⟩, fun q hq => hl.2 ⟨hq.1, hq.2.2⟩⟩, hP, ?_⟩
    rw [if_neg h2]
    omega

theorem find_ok (hn : FrameSize rate factor n) {s : Obj} {ops : List (Op ℝ)} {bpb : Int} (h : ObjOk factor increment n junk s ops bpb)
    (audio beats : List ℝ) (hb : ∀ b ∈ beats, 0 ≤ b) (hbpb : 0 ≤ bpb) (db0 : List Nat) :
    ∃ s' db sd, s.find audio beats db0 = some (s', db0 ++ db) ∧ s'.sd = sd ∧ ObjOk factor increment n junk s' ops bpb ∧
      findDownBeats (reference bpb factor increment n) s.frame audio beats = some (db, sd) := by
  obtain ⟨db, sd, e⟩ : ∃ db sd, findDownBeats (reference bpb factor increment n) s.frame audio beats = some (db, sd) := by
    by_cases ha : audio = []
    · rw [ha]; exact ⟨[], [], rfl⟩
    · obtain ⟨db, sd, e, _⟩ := C39_downbeats_partial (reference bpb factor increment n) s.frame audio beats ha hb h.frame reference_ok.1 reference_ok.2 hbpb
      exact ⟨db, sd, e⟩
  obtain ⟨s', q1, q2, q3⟩ := find_sim hn.even hn.two hn.big (db0 := db0) h e
  exact ⟨s', db, sd, q1, q2, q3, e⟩

theorem push_run (hd : Documented factor increment) {s : Obj} {ops : List (Op ℝ)} {bpb : Int} (h : ObjOk factor increment n junk s ops bpb) {audio : List ℝ}
    (ha : audio.length = increment) : ∃ s', s.push junk audio = some s' ∧ ObjOk factor increment n junk s' (ops ++ [Op.push audio]) bpb := by
  have hb : ∀ b ∈ pushed (ops ++ [Op.push audio]), b.length = increment := by
    intro b hb
    rw [pushed_append] at hb
    rcases List.mem_append.mp hb with hb | hb
    · exact h.blocks b hb
    · rw [List.mem_singleton.mp hb]; exact ha
  obtain ⟨b', _, _, e1, e2, _⟩ := run_ok hd junk (ops ++ [Op.push audio]) hb _ [] [] 0 0 (new_inv factor increment) (by simp)
  have e : pushAudioBlock junk s.buf audio = some b' := by
    rw [run_append, h.buf, Option.bind_some] at e1
    obtain ⟨b2, q1, q2⟩ := Option.bind_eq_some_iff.mp e1
    cases q2
    exact q1
  refine ⟨{ s with buf := b' }, ?_, ⟨e1, hb, e2.stage.1, e2.stage.2.1, h.bpb, h.frameSize, h.frame, h.re, h.im, h.fft⟩⟩
  unfold Obj.push
  rw [bind_ok e]
  rfl

theorem reset_run {s : Obj} {ops : List (Op ℝ)} {bpb : Int} (h : ObjOk factor increment n junk s ops bpb) :
    ObjOk factor increment n junk s.reset (ops ++ [Op.reset]) bpb := by
  refine ⟨?_, ?_, h.factor, h.increment, h.bpb, h.frameSize, h.frame, h.re, h.im, h.fft⟩
  · rw [run_append, h.buf]
    rfl
  · intro b hb
    rw [pushed_append] at hb
    rcases List.mem_append.mp hb with hb | hb
    · exact h.blocks b hb
    · cases hb

theorem make_run (hn : FrameSize rate factor n) (hf : 0 < factor) {m : ObjMem} (hm : m.Sized n) :
    ∃ s, Obj.make rate factor increment m = some s ∧ ObjOk factor increment n junk s [] 0 := by
  have hb : ⌊rate / (factor : ℝ) * 1.3⌋ ≤ 2 ^ 30 := by
    have h1 := hn.least.1.2.2
    have h2 := hn.big
    have : (n : Int) ≤ 2 ^ 30 := by exact_mod_cast h2
    omega
  obtain ⟨p, n', hn', e1, e2⟩ := make_size hn.hrate hf hb
  obtain rfl : n' = n := by
    have := hn'.least.unique hn.least
    exact_mod_cast this
  obtain ⟨fft, e3, r⟩ := FFT.C24_even_accepted n' m.u hn.even hn.two (by have := hn.big; omega)
  refine ⟨⟨DownBeat.new factor increment, 0, n', m.frame, m.re, m.im, fft, []⟩, ?_, ⟨rfl, (fun b hb => by cases hb), rfl, rfl, rfl, rfl, hm.frame, hm.re, hm.im, r⟩⟩
  unfold Obj.make
  rw [if_neg (by have := hn.hrate; rintro (h | h) <;> [omega; linarith]), bind_ok e1]
  dsimp only
  rw [e2, bind_ok e3]
  rfl

theorem Documented.pos {f inc : Nat} (h : Documented f inc) : 0 < f := by
  have := h.factor
  omega

theorem reach_run (hn : FrameSize rate factor n) (hd : Documented factor increment) {s : Obj} {ops : List (Op ℝ)} {bpb : Int}
    (h : Reach rate factor increment n junk s ops bpb) : ObjOk factor increment n junk s ops bpb := by
  induction h with
  | make hm e =>
    obtain ⟨s, e', ok⟩ := make_run (increment := increment) (junk := junk) hn hd.pos hm
    obtain rfl := Option.some.inj (e.symm.trans e')
    exact ok
  | push _ ha e ih =>
    obtain ⟨s, e', ok⟩ := push_run hd ih ha
    obtain rfl := Option.some.inj (e.symm.trans e')
    exact ok
  | reset _ ih => exact reset_run ih
  | bpb _ ih => exact ⟨ih.buf, ih.blocks, ih.factor, ih.increment, rfl, ih.frameSize, ih.frame, ih.re, ih.im, ih.fft⟩
  | find _ hb hbpb e ih =>
    obtain ⟨s, db, sd, e', _, ok, _⟩ := find_ok hn ih _ _ hb hbpb _
    rw [e] at e'
    obtain rfl := (Prod.mk.inj (Option.some.inj e')).1
    exact ok

/-! ## The theorems -/

/-- **C74** Every configuration with a sampling rate that is not negative and a frame of at most 2^30 samples can be constructed. The frame is the least power
of two that has 1.3 seconds of the decimated audio, and at least 2. -/
theorem C74_construct (hr : 0 ≤ rate) (hf : 0 < factor) (hb : ⌊rate / (factor : ℝ) * 1.3⌋ ≤ 2 ^ 30) :
    ∃ n : Nat, FrameSize rate factor n ∧ ∀ m : ObjMem, m.Sized n → ∃ s, Obj.make rate factor increment m = some s ∧ Reach rate factor increment n junk s [] 0 := by
  obtain ⟨_, n, hn, _⟩ := make_size hr hf hb
  refine ⟨n, hn, fun m hm => ?_⟩
  obtain ⟨s, e, _⟩ := make_run (increment := increment) (junk := junk) hn hf hm
  exact ⟨s, e, .make hm e⟩

/-- **C74** After any history, a block of audio can be pushed. What is buffered is the end of the audio pushed so far, decimated as one stream: the part
since the last reset. -/
theorem C74_push (hn : FrameSize rate factor n) (hd : Documented factor increment) {s : Obj} {ops : List (Op ℝ)} {bpb : Int}
    (h : Reach rate factor increment n junk s ops bpb) :
    (∀ audio : List ℝ, audio.length = increment → ∃ s', s.push junk audio = some s' ∧ Reach rate factor increment n junk s' (ops ++ [Op.push audio]) bpb) ∧
    ∃ out, Decimated factor (pushed ops).flatten out ∧ out.length = (pushed ops).length * (increment / factor) ∧
      getBufferedAudio s.buf = out.drop (out.length - since ops * (increment / factor)) := by
  have ok := reach_run hn hd h
  refine ⟨fun audio ha => ?_, ?_⟩
  · obtain ⟨s', e, _⟩ := push_run hd ok ha
    exact ⟨s', e, .push h ha e⟩
  · obtain ⟨b, out, e1, e2, e3, _, e5⟩ := C38_buffer factor increment hd junk ops ok.blocks
    obtain rfl := Option.some.inj (e1.symm.trans ok.buf)
    exact ⟨out, e2, e3, e5⟩

/-- **C74** After any history, for any audio and any beats at positions that are not negative: the call succeeds and adds to the vector of the caller, in
ascending order, the beats with index congruent to some `d` modulo the length of the bar, `d` being the first with the greatest mean spectral
change into its beats. The spectral changes kept are those of these beats only, whatever was done before, each the divergence of the magnitude spectra of
successive beats, between 0 and log 2. -/
theorem C74_downbeats (hn : FrameSize rate factor n) (hd : Documented factor increment) {s : Obj} {ops : List (Op ℝ)} {bpb : Int}
    (h : Reach rate factor increment n junk s ops bpb) (audio beats : List ℝ) (ha : audio ≠ []) (hb : ∀ b ∈ beats, 0 ≤ b) (hbpb : 0 ≤ bpb) (db0 : List Nat) :
    ∃ s' db, s.find audio beats db0 = some (s', db0 ++ db) ∧ Reach rate factor increment n junk s' ops bpb ∧
      AreChanges (reference bpb factor increment n) audio beats s'.sd ∧ s'.sd.length = beats.length - 2 ∧ (∀ v ∈ s'.sd, 0 ≤ v ∧ v ≤ Real.log 2) ∧
      ∃ ts d : Nat, (ts : Int) = (if bpb = 0 then 4 else bpb) ∧ d < ts ∧ db.Pairwise (· < ·) ∧ (∀ k, k ∈ db ↔ k < beats.length ∧ k % ts = d) ∧
        (∀ e, e < ts → meanChange s'.sd ts e ≤ meanChange s'.sd ts d) ∧ ∀ e, e < d → meanChange s'.sd ts e < meanChange s'.sd ts d := by
  have ok := reach_run hn hd h
  obtain ⟨s', db, sd, e, rfl, _, e2⟩ := find_ok hn ok audio beats hb hbpb db0
  obtain ⟨db', sd', e3, c1, c2, c3⟩ := C39_downbeats_partial (reference bpb factor increment n) s.frame audio beats ha hb ok.frame reference_ok.1 reference_ok.2 hbpb
  obtain ⟨rfl, rfl⟩ := Prod.mk.inj (Option.some.inj (e2.symm.trans e3))
  refine ⟨s', db, e, .find h hb hbpb e, c1, c2, fun v hv => ?_, c3⟩
  obtain ⟨k, hk, rfl⟩ := List.getElem_of_mem hv
  obtain ⟨o, nw, q1, q2, q3⟩ := c1 k hk
  obtain ⟨o', r1, r2, r3⟩ := spectrumOf_ok (reference bpb factor increment n) audio beats k reference_ok.1
  obtain ⟨n', t1, t2, t3⟩ := spectrumOf_ok (reference bpb factor increment n) audio beats (k + 1) reference_ok.1
  obtain rfl := Option.some.inj (q1.symm.trans r1)
  obtain rfl := Option.some.inj (q2.symm.trans t1)
  obtain ⟨d, w1, w2, w3⟩ := C57_range (reference bpb factor increment n) rfl reference_ok.2 o nw (by rw [t2, r2]) r3 t3
  rw [measureSpecDiff_ok _ _ _ (by rw [t2, r2]) (fun j hj => (normalised_pos reference_ok.2 r3 hj).ne') (fun j hj => (normalised_pos reference_ok.2 t3 hj).ne')] at w1
  rw [List.getElem?_eq_getElem hk, Option.some.injEq] at q3
  rw [q3, Option.some.inj w1]
  exact ⟨w2, w3⟩

/-- **C74** The same sound in every beat: if the spectrum is the same from each beat to the next, no change is found and the first beat is taken as the
first downbeat. -/
theorem C74_steady (hn : FrameSize rate factor n) (hd : Documented factor increment) {s : Obj} {ops : List (Op ℝ)} {bpb : Int}
    (h : Reach rate factor increment n junk s ops bpb) (audio beats : List ℝ) (ha : audio ≠ []) (hb : ∀ b ∈ beats, 0 ≤ b) (hbpb : 0 ≤ bpb)
    (hsame : ∀ i, i + 2 < beats.length → spectrumOf (reference bpb factor increment n) audio beats (i + 1) = spectrumOf (reference bpb factor increment n) audio beats i) :
    ∃ s' db, s.find audio beats [] = some (s', db) ∧ (∀ v ∈ s'.sd, v = 0) ∧ ∃ ts : Nat, (ts : Int) = (if bpb = 0 then 4 else bpb) ∧ db.Pairwise (· < ·) ∧
      ∀ k, k ∈ db ↔ k < beats.length ∧ k % ts = 0 := by
  obtain ⟨s', db, e, _, c1, c2, _, ts, d, t1, t2, t3, t4, t5, t6⟩ := C74_downbeats hn hd h audio beats ha hb hbpb []
  have hz : ∀ v ∈ s'.sd, v = 0 := by
    intro v hv
    obtain ⟨k, hk, rfl⟩ := List.getElem_of_mem hv
    obtain ⟨o, nw, q1, q2, q3⟩ := c1 k hk
    rw [hsame k (by omega), q1] at q2
    obtain rfl := Option.some.inj q2
    obtain ⟨o', r1, r2, r3⟩ := spectrumOf_ok (reference bpb factor increment n) audio beats k reference_ok.1
    obtain rfl := Option.some.inj (q1.symm.trans r1)
    have := (C57_zero (reference bpb factor increment n) rfl reference_ok.2 o o rfl r3 r3).mpr (fun _ _ => rfl)
    rw [measureSpecDiff_ok _ _ _ rfl (fun j hj => (normalised_pos reference_ok.2 r3 hj).ne') (fun j hj => (normalised_pos reference_ok.2 r3 hj).ne')] at this
    rw [List.getElem?_eq_getElem hk, Option.some.injEq] at q3
    rw [q3]
    exact Option.some.inj this
  have hm : ∀ b, meanChange s'.sd ts b = 0 := by
    intro b
    unfold meanChange
    rw [sum_eq_zero, zero_div]
    intro k _
    rw [List.getD_eq_getElem?_getD]
    cases hk : s'.sd[k - 1]? with
    | none => rfl
    | some v => exact hz v (List.mem_of_getElem? hk)
  have hd0 : d = 0 := by
    by_contra hne
    have := t6 0 (by omega)
    rw [hm, hm] at this
    exact lt_irrefl _ this
  subst hd0
  exact ⟨s', db, e, hz, ts, t1, t3, t4⟩

/-- **C74** Without audio nothing is added, and no spectral changes are kept. -/
theorem C74_no_audio (s : Obj) (beats : List ℝ) (db0 : List Nat) : ∃ s', s.find [] beats db0 = some (s', db0) ∧ ∀ out, s'.getBeatSD out = out :=
  ⟨{ s with sd := [] }, rfl, fun out => List.append_nil out⟩

end

/-! A concrete history: 10 samples per second, blocks of 4, factor 2; two blocks, three beats per bar, then the downbeats among four beats. -/

example : ∃ n s s' db, FrameSize 10 2 n ∧ Reach 10 2 4 n (fun _ => 7) s [Op.push [1, 2, 3, 4], Op.push [5, 6, 7, 9]] 3 ∧
    s.find [1, 2, 3, 4] [0, 1, 2, 3] [] = some (s', db) ∧ s'.sd.length = 2 := by
  have hd : Documented 2 4 := ⟨by omega, by decide⟩
  obtain ⟨n, hn, H⟩ := C74_construct (rate := 10) (factor := 2) (increment := 4) (junk := fun _ => 7) (by norm_num) (by norm_num)
    (by norm_num)
  obtain ⟨s0, _, r0⟩ := H ⟨.replicate n 9, .replicate n 9, .replicate n 9, 9⟩ ⟨by simp, by simp, by simp⟩
  obtain ⟨s1, _, r1⟩ := (C74_push hn hd r0).1 [1, 2, 3, 4] rfl
  obtain ⟨s2, _, r2⟩ := (C74_push hn hd r1).1 [5, 6, 7, 9] rfl
  have r3 := Reach.bpb (b := 3) r2
  obtain ⟨s', db, e, _, _, l, _⟩ := C74_downbeats hn hd r3 [1, 2, 3, 4] [0, 1, 2, 3] (by simp) (by intro b hb; fin_cases hb <;> norm_num) (by norm_num) []
  exact ⟨n, _, s', _, hn, r3, e, l⟩

end QM.DownBeat
