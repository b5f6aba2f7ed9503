import Verif.KeyMode.AudioSpec
import Verif.KeyMode.Props

/-! # C73: key detection from audio -/

namespace QM.KeyMode

open QM.ConstantQ

theorem quality36_le : quality 36 ≤ 52 := by
  have h : (1 + 1 / 52 : ℝ) ≤ (2 : ℝ) ^ ((1 : ℝ) / (36 : ℕ)) := by
    refine le_of_pow_le_pow_left₀ (n := 36) (by norm_num) (by positivity) ?_
    rw [← Real.rpow_natCast ((2 : ℝ) ^ ((1 : ℝ) / (36 : ℕ))), ← Real.rpow_mul (by norm_num)]
    norm_num
  unfold quality
  rw [div_le_iff₀ (by linarith)]
  linarith

theorem quality36_gt : 1 < quality 36 := by
  have h : (2 : ℝ) ^ ((1 : ℝ) / (36 : ℕ)) < 2 := by
    calc (2 : ℝ) ^ ((1 : ℝ) / (36 : ℕ)) < (2 : ℝ) ^ (1 : ℝ) := Real.rpow_lt_rpow_of_exponent_lt (by norm_num) (by norm_num)
      _ = 2 := Real.rpow_one 2
  have h1 : (1 : ℝ) < (2 : ℝ) ^ ((1 : ℝ) / (36 : ℕ)) := Real.one_lt_rpow (by norm_num) (by norm_num)
  unfold quality
  rw [lt_div_iff₀ (by linarith)]
  linarith

variable {cfg : Config}

theorem fmin_bounds (h : 0 < cfg.tuning) : cfg.tuning / 4 ≤ cfg.chroma.fmin ∧ cfg.chroma.fmin ≤ cfg.tuning ∧ cfg.chroma.fmax = cfg.chroma.fmin * 2 ^ (4 : ℝ) := by
  have e : cfg.chroma.fmin = cfg.tuning * (2 : ℝ) ^ ((-7 / 4 : ℝ)) := by
    show Pitch.getFrequencyForPitch 48 0 cfg.tuning = _
    unfold Pitch.getFrequencyForPitch
    norm_num
  have e2 : cfg.chroma.fmax = cfg.tuning * (2 : ℝ) ^ ((9 / 4 : ℝ)) := by
    show Pitch.getFrequencyForPitch 96 0 cfg.tuning = _
    unfold Pitch.getFrequencyForPitch
    norm_num
  refine ⟨?_, ?_, ?_⟩
  · rw [e, div_eq_mul_inv]
    refine mul_le_mul_of_nonneg_left ?_ h.le
    calc (4 : ℝ)⁻¹ = (2 : ℝ) ^ (-2 : ℝ) := by rw [Real.rpow_neg (by norm_num)]; norm_num
      _ ≤ _ := Real.rpow_le_rpow_of_exponent_le (by norm_num) (by norm_num)
  · rw [e]
    refine mul_le_of_le_one_right h.le ?_
    exact Real.rpow_le_one_of_one_le_of_nonpos (by norm_num) (by norm_num)
  · rw [e, e2, mul_assoc, ← Real.rpow_add (by norm_num)]
    norm_num

theorem usable_fine (h : cfg.Usable) : cfg.chroma.Fine ∧ 1 < quality 36 * cfg.chroma.fs / cfg.chroma.fmin := by
  obtain ⟨b1, b2, b3⟩ := fmin_bounds h.tuning
  have h0 : 0 < cfg.chroma.fmin := by have := h.tuning; linarith
  have hfs : 0 < cfg.chroma.fs := lt_of_lt_of_le h.tuning h.low
  have hq := quality36_le
  have hq' := quality36_gt
  refine ⟨⟨hfs, h0, ?_, ?_, ?_⟩, ?_⟩
  · rw [b3]
    exact le_mul_of_one_le_right h0.le (Real.one_le_rpow (by norm_num) (by norm_num))
  · show 0 < 36
    norm_num
  · refine Int.ceil_le.mpr ?_
    show quality 36 * _ / _ ≤ _
    rw [div_le_iff₀ h0]
    have h1 : quality 36 * cfg.chroma.fs ≤ 52 * cfg.chroma.fs := mul_le_mul_of_nonneg_right hq hfs.le
    have h2 := h.high
    push_cast
    nlinarith
  · rw [lt_div_iff₀ h0, one_mul]
    have := h.low
    nlinarith

/-- The frame size and the number of bins of a usable configuration. -/
theorem usable_sizes (h : cfg.Usable) :
    ∃ N : Nat, chromaInitialise cfg.chroma.fs cfg.chroma.fmin cfg.chroma.fmax cfg.chroma.bpo = some (quality 36, 144, N) ∧ 2 ≤ N ∧
      IsLeast {p : Int | MathInt.IsPow2 p ∧ ⌈quality 36 * cfg.chroma.fs / cfg.chroma.fmin⌉ ≤ p} N := by
  obtain ⟨hf, hl⟩ := usable_fine h
  obtain ⟨uK, N, e, h2, hu, hN, _⟩ := C72_construct hf hl
  have : uK = 144 := by
    have hb : cfg.chroma.bpo = 36 := rfl
    have hlog : Real.log (cfg.chroma.fmax / cfg.chroma.fmin) / Real.log 2 = (4 : Int) := by
      rw [(fmin_bounds h.tuning).2.2, mul_div_cancel_left₀ _ hf.fmin.ne', Real.log_rpow (by norm_num), mul_div_cancel_right₀ _ (Real.log_pos (by norm_num)).ne']
      norm_num
    rw [hlog, Int.ceil_intCast, hb] at hu
    push_cast at hu
    omega
  subst this
  exact ⟨N, e, h2, hN⟩

/-- What holds after the audio `xs`, `y` when filtered. -/
structure AudioOk (cfg : Config) (N cs ms : Nat) (s : Audio) (xs y : List ℝ) (n : Nat) (raws : List Nat) : Prop where
  hcfg : s.cfg = cfg
  chroma : ChromaReach cfg.chroma N 144 s.chroma
  dec : Decimator.Running (N * cfg.factor) cfg.factor s.dec xs y
  buf : s.buf.length = N
  len : xs.length = n * (N * cfg.factor)
  km : Good cs ms ((List.range n).map (frameChroma cfg N y)) raws s.km
  raw : ∀ j, j < n → RawKey (meanChroma cs ((List.range (j + 1)).map (frameChroma cfg N y))) (raws.getD j 0) ∧ 1 ≤ raws.getD j 0 ∧ raws.getD j 0 ≤ 24

theorem frameChroma_congr (N : Nat) (y y' : List ℝ) (j : Nat) (h : ∀ i, i < N → y.getD (j * (N * cfg.factor) + cfg.factor * i) 0 = y'.getD (j * (N * cfg.factor) + cfg.factor * i) 0) :
    frameChroma cfg N y j = frameChroma cfg N y' j := by
  unfold frameChroma
  congr 1
  funext k
  unfold centredSpectrum DFT.dft
  refine Finset.sum_congr rfl fun n hn => ?_
  have : 0 < N := by have := Finset.mem_range.mp hn; omega
  beta_reduce
  rw [h _ (Nat.mod_lt _ this)]

theorem running_length {L f : Nat} {s : Decimator.State ℝ} {xs y : List ℝ} (h : Decimator.Running L f s xs y) : y.length = xs.length := by
  by_cases h1 : f = 1
  · rw [h.hone h1]
  · exact (h.hd h1).1

theorem frames_append {N n : Nat} (hN : 0 < N) (hf : 0 < cfg.factor) (y z : List ℝ) (hy : y.length = n * (N * cfg.factor)) (m : Nat) (hm : m ≤ n) :
    (List.range m).map (frameChroma cfg N (y ++ z)) = (List.range m).map (frameChroma cfg N y) := by
  refine List.map_congr_left fun j hj => frameChroma_congr N _ _ j fun i hi => ?_
  have hj := List.mem_range.mp hj
  have h1 : cfg.factor * i < N * cfg.factor := by
    rw [mul_comm N]
    exact Nat.mul_lt_mul_of_pos_left hi hf
  have h2 : (j + 1) * (N * cfg.factor) ≤ n * (N * cfg.factor) := Nat.mul_le_mul_right _ (by omega)
  rw [add_mul, one_mul] at h2
  simp only [List.getD_eq_getElem?_getD]
  rw [List.getElem?_append_left (by omega)]

theorem audio_step (h : cfg.Usable) {N cs ms : Nat} (hi : chromaInitialise cfg.chroma.fs cfg.chroma.fmin cfg.chroma.fmax cfg.chroma.bpo = some (quality 36, 144, N))
    (h2 : 2 ≤ N) (hcs : 0 < cs) (hms : 0 < ms) {s : Audio} {xs y : List ℝ} {n : Nat} {raws : List Nat} (ok : AudioOk cfg N cs ms s xs y n raws)
    {m : KernelMem} (hm : m.Sized N) (pcm : List ℝ) (hl : pcm.length = N * cfg.factor) :
    ∃ s' key z raw, Audio.process m s pcm = some (s', key) ∧ AudioOk cfg N cs ms s' (xs ++ pcm) (y ++ z) (n + 1) (raws ++ [raw]) ∧
      1 ≤ key ∧ key ≤ 24 ∧ IsKey cfg N cs ms (y ++ z) (n + 1) key ∧
      Holds 36 (fun k => pearson 36 (meanChroma cs ((List.range (n + 1)).map (frameChroma cfg N (y ++ z)))) (keyProfile majTab k)) s'.km.maj ∧
      Holds 36 (fun k => pearson 36 (meanChroma cs ((List.range (n + 1)).map (frameChroma cfg N (y ++ z)))) (keyProfile minTab k)) s'.km.min := by
  obtain ⟨hfine, _⟩ := usable_fine h
  have hdiv : N * cfg.factor / cfg.factor = N := Nat.mul_div_cancel N h.factor
  obtain ⟨d, out, z, e1, l1, l2, run', hz⟩ := Decimator.process_spec (N * cfg.factor) cfg.factor h.factor s.dec xs y ok.dec pcm s.buf hl (by rw [hdiv, ok.buf])
  rw [hdiv] at l1 hz
  have hylen : y.length = n * (N * cfg.factor) := by rw [running_length ok.dec, ok.len]
  obtain ⟨c, e2, reach', hc⟩ := C72_time hfine hi h2 ok.chroma hm out l1
  have hc' : c.chroma = frameChroma cfg N (y ++ z) n := by
    rw [hc]
    unfold frameChroma
    rw [show 144 / cfg.chroma.bpo = 4 by show 144 / 36 = 4; norm_num]
    congr 1
    funext k
    unfold centredSpectrum DFT.dft
    refine Finset.sum_congr rfl fun t _ => ?_
    have ht : (t + N / 2) % N < N := Nat.mod_lt _ (by omega)
    have hget : out.getD ((t + N / 2) % N) 0 = (y ++ z).getD (n * (N * cfg.factor) + cfg.factor * ((t + N / 2) % N)) 0 := by
      simp only [List.getD_eq_getElem?_getD]
      rw [hz _ ht, List.getElem?_append_right (by omega), hylen, Nat.add_sub_cancel_left]
    beta_reduce
    rw [hget]
  have hpre := frames_append (cfg := cfg) (by omega) h.factor y z hylen
  have hlen36 : c.chroma.length = 36 := by rw [hc]; exact (C72_values _ _ _).1
  obtain ⟨km', raw, key, p1, p2, p3, p4, p5, p6, p7, p8⟩ := process_ok hcs hms ok.km c.chroma hlen36
  have hh : (List.range n).map (frameChroma cfg N y) ++ [c.chroma] = (List.range (n + 1)).map (frameChroma cfg N (y ++ z)) := by
    rw [List.range_succ, List.map_append, hpre n (le_refl n), hc']
    rfl
  rw [hh] at p2 p3 p7 p8
  have hrl : raws.length = n := by rw [ok.km.rlen]; simp
  have hall : ∀ j, j < n + 1 → RawKey (meanChroma cs ((List.range (j + 1)).map (frameChroma cfg N (y ++ z)))) ((raws ++ [raw]).getD j 0) ∧
      1 ≤ (raws ++ [raw]).getD j 0 ∧ (raws ++ [raw]).getD j 0 ≤ 24 := by
    intro j hj
    by_cases he : j = n
    · rw [he]
      have : (raws ++ [raw]).getD n 0 = raw := by rw [← hrl]; exact getD_append_self raws raw 0
      rw [this]
      exact ⟨p3, p4, p5⟩
    · rw [getD_append_left _ _ _ _ (by omega), hpre (j + 1) (by omega)]
      exact ok.raw j (by omega)
  have hdrop : n + 1 - ms = (raws ++ [raw]).length - ms := by simp [hrl]
  rw [show ((List.range n).map (frameChroma cfg N y)).length = n by simp] at p6
  have hkey : 1 ≤ key ∧ key ≤ 24 := by
    obtain ⟨l, q1, _, q3⟩ := p6
    have hmem : key ∈ (raws ++ [raw]).drop (n + 1 - ms) := q1.subset (List.mem_of_getElem? q3)
    obtain ⟨j, hj, e⟩ := List.getElem_of_mem (List.mem_of_mem_drop hmem)
    have := (hall j (by simp [hrl] at hj; omega)).2
    have hg := get_getD (raws ++ [raw]) j 0 hj
    rw [List.getElem?_eq_getElem hj, e, Option.some.injEq] at hg
    rw [← hg] at this
    exact this
  refine ⟨{ s with dec := d, buf := out, chroma := c, km := km' }, key, z, raw, ?_, ?_, hkey.1, hkey.2, ⟨raws ++ [raw], by simp [hrl], fun j hj => (hall j hj).1, p6⟩, p7, p8⟩
  · unfold Audio.process
    rw [bind_ok e1, bind_ok e2, bind_ok p1]
    rfl
  · exact ⟨ok.hcfg, reach', run', l1, by rw [List.length_append, ok.len, hl, add_mul, one_mul], p2, hall⟩

theorem isKey_append {N cs ms n k key : Nat} (hN : 0 < N) (hf : 0 < cfg.factor) (y z : List ℝ) (hy : y.length = n * (N * cfg.factor)) (hk : k ≤ n) :
    IsKey cfg N cs ms (y ++ z) k key ↔ IsKey cfg N cs ms y k key := by
  unfold IsKey
  refine exists_congr fun raws => and_congr_right fun _ => and_congr_left fun _ => forall_congr' fun j => forall_congr' fun hj => ?_
  rw [frames_append hN hf y z hy (j + 1) (by omega)]

theorem audio_run (h : cfg.Usable) {N cs ms : Nat} (hi : chromaInitialise cfg.chroma.fs cfg.chroma.fmin cfg.chroma.fmax cfg.chroma.bpo = some (quality 36, 144, N))
    (h2 : 2 ≤ N) (hcs : 0 < cs) (hms : 0 < ms) (calls : List (KernelMem × List ℝ)) (hc : ∀ c ∈ calls, c.1.Sized N ∧ c.2.length = N * cfg.factor)
    {s : Audio} {xs y : List ℝ} {n : Nat} {raws : List Nat} (ok : AudioOk cfg N cs ms s xs y n raws) :
    ∃ s' keys z raws', Audio.run s calls = some (s', keys) ∧ AudioOk cfg N cs ms s' (xs ++ (calls.map Prod.snd).flatten) (y ++ z) (n + calls.length) raws' ∧
      keys.length = calls.length ∧ ∀ j, j < calls.length → 1 ≤ keys.getD j 0 ∧ keys.getD j 0 ≤ 24 ∧ IsKey cfg N cs ms (y ++ z) (n + j + 1) (keys.getD j 0) := by
  induction calls generalizing s xs y n raws with
  | nil => exact ⟨s, [], [], raws, rfl, by simpa using ok, rfl, fun j hj => absurd hj (by simp)⟩
  | cons c rest ih =>
    obtain ⟨hc1, hc2⟩ := hc c (by simp)
    obtain ⟨s1, key, z, raw, e1, ok1, k1, k2, k3, _⟩ := audio_step h hi h2 hcs hms ok hc1 c.2 hc2
    obtain ⟨s2, keys, z2, raws', e2, ok2, l2, hk⟩ := ih (fun c hc' => hc c (by simp [hc'])) ok1
    have hy1 : (y ++ z).length = (n + 1) * (N * cfg.factor) := by rw [running_length ok1.dec, ok1.len]
    refine ⟨s2, key :: keys, z ++ z2, raws', ?_, ?_, by simp [l2], fun j hj => ?_⟩
    · rw [Audio.run, bind_ok e1]
      dsimp only
      rw [bind_ok e2]
      rfl
    · rw [List.length_cons, List.map_cons, List.flatten_cons, ← List.append_assoc, ← List.append_assoc,
        show n + (rest.length + 1) = n + 1 + rest.length by omega]
      exact ok2
    · rw [← List.append_assoc]
      cases j with
      | zero =>
        exact ⟨k1, k2, (isKey_append (by omega) h.factor (y ++ z) z2 hy1 (by omega)).mpr k3⟩
      | succ j =>
        have := hk j (by simp at hj; omega)
        rw [show n + 1 + j + 1 = n + (j + 1) + 1 by omega] at this
        exact this

theorem audio_make (h : cfg.Usable) {N : Nat} (hi : chromaInitialise cfg.chroma.fs cfg.chroma.fmin cfg.chroma.fmax cfg.chroma.bpo = some (quality 36, 144, N))
    (h2 : 2 ≤ N) {m : ChromaMem} (hm : m.Sized N 144 36) (u : ℝ) (buf : List ℝ) (hb : buf.length = N) :
    ∃ s, Audio.make cfg m u buf = some s ∧ s.blockSize = N * cfg.factor ∧ s.hopSize = N / cfg.overlap * cfg.factor ∧
      0 < (bufSize cfg.hpcpAverage cfg.chroma.fs N).toNat ∧ 0 < (bufSize cfg.medianAverage cfg.chroma.fs N).toNat ∧
      AudioOk cfg N (bufSize cfg.hpcpAverage cfg.chroma.fs N).toNat (bufSize cfg.medianAverage cfg.chroma.fs N).toNat s [] [] 0 [] := by
  obtain ⟨hfine, _⟩ := usable_fine h
  obtain ⟨c, e1, ok⟩ := ConstantQ.make_ok hfine hi h2 (m := m) hm
  have hcN : c.N = N := ok.hN
  have hc1 := (C30_sizes cfg.hpcpAverage cfg.chroma.fs N hfine.fs (by omega)).mpr h.hpcp
  have hc2 := (C30_sizes cfg.medianAverage cfg.chroma.fs N hfine.fs (by omega)).mpr h.median
  obtain ⟨km, e2, good⟩ := make_ok (bufSize cfg.hpcpAverage cfg.chroma.fs N).toNat (bufSize cfg.medianAverage cfg.chroma.fs N).toNat u
  obtain ⟨d, e3⟩ : ∃ d : Decimator.State ℝ, Decimator.new (N * cfg.factor) cfg.factor = some d := by
    unfold Decimator.new
    rw [if_neg (by have := h.factor; omega)]
    exact ⟨_, rfl⟩
  refine ⟨⟨cfg, c, N / cfg.overlap, d, buf, km⟩, ?_, ?_, rfl, by omega, by omega, ?_⟩
  · unfold Audio.make
    rw [if_neg (by have := h.factor; have := h.overlap; omega), bind_ok e1]
    dsimp only
    rw [hcN, if_neg (by omega), bind_ok e2, bind_ok e3]
    rfl
  · show c.N * cfg.factor = _
    rw [hcN]
  · exact ⟨rfl, .make hm e1, Decimator.new_running _ _ _ e3, hb, by simp, good, fun j hj => absurd hj (by omega)⟩

/-! ## The theorems -/

/-- **C73** For every usable configuration, whatever new memory holds: the object can be made, blocks are of the least power of two covering the longest
kernel times the decimation factor, and for every sequence of blocks each call returns a key from 1 to 24. That key is the lower median of the raw
keys of the last `ms` calls, each that of the mean of the last `cs` chroma frames, computed from one continuous stream: the given blocks joined, through the
anti-aliasing filter, every `factor`-th sample kept. -/
theorem C73_keys (h : cfg.Usable) : ∃ N : Nat, 2 ≤ N ∧
    IsLeast {p : Int | MathInt.IsPow2 p ∧ ⌈quality 36 * cfg.chroma.fs / cfg.chroma.fmin⌉ ≤ p} N ∧
    ∀ (m : ChromaMem) (u : ℝ) (buf : List ℝ) (calls : List (KernelMem × List ℝ)), m.Sized N 144 36 → buf.length = N →
      (∀ c ∈ calls, c.1.Sized N ∧ c.2.length = N * cfg.factor) →
      ∃ s s' keys y, Audio.make cfg m u buf = some s ∧ s.blockSize = N * cfg.factor ∧ s.hopSize = N / cfg.overlap * cfg.factor ∧
        Audio.run s calls = some (s', keys) ∧ keys.length = calls.length ∧ Filtered cfg.factor (calls.map Prod.snd).flatten y ∧
        ∀ j, j < calls.length → 1 ≤ keys.getD j 0 ∧ keys.getD j 0 ≤ 24 ∧
          IsKey cfg N ⌈cfg.hpcpAverage * cfg.chroma.fs / N⌉.toNat ⌈cfg.medianAverage * cfg.chroma.fs / N⌉.toNat y (j + 1) (keys.getD j 0) := by
  obtain ⟨N, hi, h2, hN⟩ := usable_sizes h
  refine ⟨N, h2, hN, fun m u buf calls hm hb hc => ?_⟩
  obtain ⟨s, e1, b1, b2, hcs, hms, ok⟩ := audio_make h hi h2 hm u buf hb
  obtain ⟨s', keys, z, raws, e2, ok', l, hk⟩ := audio_run h hi h2 hcs hms calls hc ok
  simp only [List.nil_append, Nat.zero_add] at ok' hk
  exact ⟨s, s', keys, z, e1, b1, b2, e2, l, ⟨ok'.dec.hd, ok'.dec.hone⟩, hk⟩

/-- **C73** The answer is determined by the audio: there is only one key for each call, and only one filtered stream. -/
theorem C73_determined (N cs ms n : Nat) (y : List ℝ) (k1 k2 : Nat) (h1 : IsKey cfg N cs ms y n k1) (h2 : IsKey cfg N cs ms y n k2) : k1 = k2 := by
  obtain ⟨r1, l1, q1, s1, p1, o1, g1⟩ := h1
  obtain ⟨r2, l2, q2, s2, p2, o2, g2⟩ := h2
  have hr : r1 = r2 := by
    refine List.ext_getElem (by omega) fun j a b => ?_
    have := C30_raw_unique _ _ _ (q1 j (by omega)) (q2 j (by omega))
    rw [List.getD_eq_getElem _ _ a, List.getD_eq_getElem _ _ b] at this
    exact this
  subst hr
  have : s1 = s2 := (p1.trans p2.symm).eq_of_pairwise (fun a b _ _ h1 h2 => le_antisymm h1 h2) o1 o2
  subst this
  exact Option.some.inj (g1.symm.trans g2)

theorem filtered_unique {f : Nat} {x y z : List ℝ} (hy : Filtered f x y) (hz : Filtered f x z) : y = z := by
  by_cases h1 : f = 1
  · rw [hy.2 h1, hz.2 h1]
  · exact Filter.diffEq_unique _ _ _ _ _ (hy.1 h1) (hz.1 h1)

theorem getD_map_mul (c : ℝ) (l : List ℝ) (i : Nat) : (l.map (c * ·)).getD i 0 = c * l.getD i 0 := by
  simp only [List.getD_eq_getElem?_getD, List.getElem?_map]
  cases l[i]? <;> simp

theorem filtered_smul {f : Nat} {x y : List ℝ} (c : ℝ) (h : Filtered f x y) : Filtered f (x.map (c * ·)) (y.map (c * ·)) := by
  have hd : ∀ (l : List ℝ) n i, Filter.delayed (l.map (c * ·)) n i = c * Filter.delayed l n i := fun l n i => by
    unfold Filter.delayed
    split_ifs
    · exact getD_map_mul c l _
    · simp
  refine ⟨fun h1 => ⟨by simpa using (h.1 h1).1, fun n hn => ?_⟩, fun h1 => by rw [h.2 h1]⟩
  rw [List.length_map] at hn
  rw [getD_map_mul, (h.1 h1).2 n hn, mul_sub, Finset.mul_sum, Finset.mul_sum]
  congr 1 <;> refine Finset.sum_congr rfl fun i _ => ?_ <;> rw [hd] <;> ring

theorem frameChroma_smul (N : Nat) (y : List ℝ) (c : ℝ) (hc : c ≠ 0) : frameChroma cfg N (y.map (c * ·)) = frameChroma cfg N y := by
  funext j
  unfold frameChroma
  have : (fun i => (y.map (c * ·)).getD (j * (N * cfg.factor) + cfg.factor * i) 0) = fun i => c * y.getD (j * (N * cfg.factor) + cfg.factor * i) 0 := by
    funext i
    exact getD_map_mul c y _
  rw [this]
  exact (C72_level N 4 _ c hc).2 (fun e => by cases e)

/-- **C73** The level of the recording, and its polarity, do not matter: multiplying all the audio by the same `c ≠ 0` gives the same keys; nor does what new
memory holds. -/
theorem C73_level (h : cfg.Usable) : ∃ N : Nat, 2 ≤ N ∧
    ∀ (m m' : ChromaMem) (u u' : ℝ) (buf buf' : List ℝ) (calls calls' : List (KernelMem × List ℝ)) (c : ℝ), c ≠ 0 → m.Sized N 144 36 → m'.Sized N 144 36 →
      buf.length = N → buf'.length = N → (∀ c ∈ calls, c.1.Sized N ∧ c.2.length = N * cfg.factor) → (∀ c ∈ calls', c.1.Sized N) →
      calls'.map Prod.snd = calls.map (fun b => b.2.map (c * ·)) →
      ∃ s s' t t' keys, Audio.make cfg m u buf = some s ∧ Audio.run s calls = some (t, keys) ∧
        Audio.make cfg m' u' buf' = some s' ∧ Audio.run s' calls' = some (t', keys) := by
  obtain ⟨N, h2, _, H⟩ := C73_keys h
  refine ⟨N, h2, fun m m' u u' buf buf' calls calls' c hc hm hm' hb hb' hcalls hcalls' hsame => ?_⟩
  obtain ⟨s, t, keys, y, e1, _, _, e2, l, hf, hk⟩ := H m u buf calls hm hb hcalls
  have hlen : calls'.length = calls.length := by simpa using congrArg List.length hsame
  obtain ⟨s', t', keys', y', e1', _, _, e2', l', hf', hk'⟩ := H m' u' buf' calls' hm' hb' (fun b hb => ⟨hcalls' b hb, by
    have : b.2 ∈ calls'.map Prod.snd := List.mem_map_of_mem hb
    rw [hsame] at this
    obtain ⟨d, hd, e⟩ := List.mem_map.mp this
    rw [← e, List.length_map]
    exact (hcalls d hd).2⟩)
  have hy : y' = y.map (c * ·) := by
    refine filtered_unique hf' ?_
    rw [hsame]
    have := filtered_smul c hf
    rw [List.map_flatten, List.map_map] at this
    exact this
  have : keys' = keys := by
    refine List.ext_getElem (by omega) fun j a b => ?_
    have k1 := (hk j (by omega)).2.2
    have k2 := (hk' j (by omega)).2.2
    rw [hy] at k2
    unfold IsKey at k2
    rw [frameChroma_smul N y c hc] at k2
    have := C73_determined _ _ _ _ _ _ _ k2 k1
    rw [List.getD_eq_getElem _ _ a, List.getD_eq_getElem _ _ b] at this
    exact this
  rw [this] at e2'
  exact ⟨s, s', t, t', keys, e1, e2, e1', e2'⟩

/-- **C73** The key strengths after any positive number of blocks: for each key the greatest of the three correlations of its profile with the mean of the
last `cs` chroma frames. -/
theorem C73_strengths (h : cfg.Usable) : ∃ N : Nat, 2 ≤ N ∧
    ∀ (m : ChromaMem) (u : ℝ) (buf : List ℝ) (calls : List (KernelMem × List ℝ)) (last : KernelMem × List ℝ), m.Sized N 144 36 → buf.length = N →
      (∀ c ∈ calls ++ [last], c.1.Sized N ∧ c.2.length = N * cfg.factor) →
      ∃ s t t' keys key y a, Audio.make cfg m u buf = some s ∧ Audio.run s calls = some (t, keys) ∧ Audio.process last.1 t last.2 = some (t', key) ∧
        Filtered cfg.factor ((calls ++ [last]).map Prod.snd).flatten y ∧ getKeyStrengths t'.km = some a ∧ a.length = 24 ∧
        ∀ x, x = meanChroma ⌈cfg.hpcpAverage * cfg.chroma.fs / N⌉.toNat ((List.range (calls.length + 1)).map (frameChroma cfg N y)) → ∀ j, j < 12 →
          a[j]? = some (max (max (pearson 36 x (keyProfile majTab (3 * j))) (pearson 36 x (keyProfile majTab (3 * j + 1)))) (pearson 36 x (keyProfile majTab (3 * j + 2)))) ∧
          a[12 + j]? = some (max (max (pearson 36 x (keyProfile minTab (3 * j))) (pearson 36 x (keyProfile minTab (3 * j + 1)))) (pearson 36 x (keyProfile minTab (3 * j + 2)))) := by
  obtain ⟨N, hi, h2, _⟩ := usable_sizes h
  refine ⟨N, h2, fun m u buf calls last hm hb hc => ?_⟩
  obtain ⟨s, e1, _, _, hcs, hms, ok⟩ := audio_make h hi h2 hm u buf hb
  obtain ⟨t, keys, y, raws, e2, ok', l, _⟩ := audio_run h hi h2 hcs hms calls (fun c hc' => hc c (by simp [hc'])) ok
  simp only [List.nil_append, Nat.zero_add] at ok'
  obtain ⟨l1, l2⟩ := hc last (by simp)
  obtain ⟨t', key, z, raw, e3, ok3, _, _, _, g1, g2⟩ := audio_step h hi h2 hcs hms ok' l1 last.2 l2
  obtain ⟨a, q1, q2, q3⟩ := strengths_ok t'.km _ _ g1 g2 ok3.km.strengths
  refine ⟨s, t, t', keys, key, y ++ z, a, e1, e2, e3, ?_, q1, q2, ?_⟩
  · rw [List.map_append, List.flatten_append, List.map_singleton, List.flatten_singleton]
    exact ⟨ok3.dec.hd, ok3.dec.hone⟩
  · rintro x rfl
    exact q3

theorem diffEq_zero {b a x y : List ℝ} (h : Filter.DiffEq b a x y) {m : Nat} (hm : m ≤ x.length) (hx : ∀ n, n < m → x.getD n 0 = 0) :
    ∀ n, n < m → y.getD n 0 = 0 := by
  intro n
  induction n using Nat.strong_induction_on with
  | _ n ih =>
    intro hn
    rw [h.2 n (by omega), Finset.sum_eq_zero, Finset.sum_eq_zero, sub_zero]
    · intro i _
      unfold Filter.delayed
      split_ifs
      · rw [ih _ (by omega) (by omega), mul_zero]
      · rw [mul_zero]
    · intro i _
      unfold Filter.delayed
      split_ifs
      · rw [hx _ (by omega), mul_zero]
      · rw [mul_zero]

theorem filtered_silent {f : Nat} {x y : List ℝ} (h : Filtered f x y) (hx : ∀ v ∈ x, v = 0) (n : Nat) : y.getD n 0 = 0 := by
  have hx' : ∀ n, x.getD n 0 = 0 := fun n => by
    rw [List.getD_eq_getElem?_getD]
    cases e : x[n]? with
    | none => rfl
    | some v => exact hx v (List.mem_of_getElem? e)
  by_cases h1 : f = 1
  · rw [h.2 h1]; exact hx' n
  · by_cases hn : n < x.length
    · exact diffEq_zero (h.1 h1) (le_refl _) (fun n _ => hx' n) n hn
    · rw [List.getD_eq_getElem?_getD, List.getElem?_eq_none (by rw [(h.1 h1).1]; omega)]
      rfl

/-- **C73** Silence is reported as key 13, C minor, at every call; the documentation has 0 for "no key detected". -/
theorem C73_silence (h : cfg.Usable) : ∃ N : Nat, 2 ≤ N ∧
    ∀ (m : ChromaMem) (u : ℝ) (buf : List ℝ) (calls : List (KernelMem × List ℝ)), m.Sized N 144 36 → buf.length = N →
      (∀ c ∈ calls, c.1.Sized N ∧ c.2 = List.replicate (N * cfg.factor) 0) →
      ∃ s s', Audio.make cfg m u buf = some s ∧ Audio.run s calls = some (s', List.replicate calls.length 13) := by
  obtain ⟨N, h2, _, H⟩ := C73_keys h
  refine ⟨N, h2, fun m u buf calls hm hb hc => ?_⟩
  obtain ⟨s, s', keys, y, e1, _, _, e2, l, hf, hk⟩ := H m u buf calls hm hb (fun c hc' => ⟨(hc c hc').1, by rw [(hc c hc').2]; simp⟩)
  have hy : ∀ n, y.getD n 0 = 0 := filtered_silent hf fun v hv => by
    obtain ⟨b, hb, hv⟩ := List.mem_flatten.mp hv
    obtain ⟨c, hc', rfl⟩ := List.mem_map.mp hb
    rw [(hc c hc').2] at hv
    exact List.eq_of_mem_replicate hv
  have hfr : ∀ j, ∀ v ∈ frameChroma cfg N y j, v = 0 := by
    intro j
    unfold frameChroma
    rw [show (fun i => y.getD (j * (N * cfg.factor) + cfg.factor * i) 0) = fun _ => 0 from funext fun i => hy _]
    exact C72_silence N 4
  have hmean : ∀ cs n k, meanChroma cs ((List.range n).map (frameChroma cfg N y)) k = 0 := by
    intro cs n k
    unfold meanChroma
    rw [List.sum_eq_zero, zero_div]
    intro v hv
    obtain ⟨f, hf', rfl⟩ := List.mem_map.mp hv
    obtain ⟨j, _, rfl⟩ := List.mem_map.mp (List.mem_of_mem_drop hf')
    rw [List.getD_eq_getElem?_getD]
    cases e : (frameChroma cfg N y j)[k]? with
    | none => rfl
    | some v => exact hfr j v (List.mem_of_getElem? e)
  have : keys = List.replicate calls.length 13 := by
    refine List.eq_replicate_iff.mpr ⟨l, fun key hkey => ?_⟩
    obtain ⟨j, hj, e⟩ := List.getElem_of_mem hkey
    obtain ⟨_, _, raws, r1, r2, s1, p1, _, g1⟩ := hk j (by omega)
    rw [List.getD_eq_getElem _ _ hj, e] at g1
    have hmem := List.mem_of_mem_drop (p1.subset (List.mem_of_getElem? g1))
    obtain ⟨i, hi, e'⟩ := List.getElem_of_mem hmem
    have := C30_raw_unique _ _ _ (r2 i (by omega)) (C31_silence_key _ 0 fun k _ => hmean _ _ k)
    rw [List.getD_eq_getElem _ _ hi, e'] at this
    exact this
  rw [this] at e2
  exact ⟨s, s', e1, e2⟩

/-- **C73** A factor of zero is a division by zero in the constructor. -/
theorem C73_zero_violation (m : ChromaMem) (u : ℝ) (buf : List ℝ) (h : cfg.factor = 0 ∨ cfg.overlap = 0) : Audio.make cfg m u buf = none := by
  unfold Audio.make
  rw [if_pos h]

/-- The recording of the next theorem: one click, at time `L - 1`. -/
noncomputable def click (L : Nat) (n : Nat) : ℝ := if n + 1 = L then 1 else 0

/-- **C73** With overlapping blocks, as the documentation asks for, the filter runs over the joined blocks and not over the recording: after a first block that
ends in a click, the first decimated sample of the next block, which starts half a block earlier than the first ended, is not zero although
the recording is silent up to that time and the filtered recording is zero there. -/
theorem C73_overlap_violation (N : Nat) (hN : 2 ≤ N) (y y' : List ℝ)
    (h : Filtered 8 ((List.range (N * 8)).map (click (N * 8)) ++ (List.range (N * 8)).map (fun i => click (N * 8) (N / 2 * 8 + i))) y)
    (h' : Filtered 8 ((List.range (N / 2 * 8 + N * 8)).map (click (N * 8))) y') :
    y.getD (1 * (N * 8) + 8 * 0) 0 ≠ 0 ∧ y'.getD (N / 2 * 8) 0 = 0 := by
  have hg : ∀ (f : Nat → ℝ) n m, m < n → ((List.range n).map f).getD m 0 = f m := fun f n m hm => by
    simp [List.getD_eq_getElem?_getD, hm]
  constructor
  · have hd := h.1 (by norm_num)
    generalize hx : (List.range (N * 8)).map (click (N * 8)) ++ (List.range (N * 8)).map (fun i => click (N * 8) (N / 2 * 8 + i)) = x at hd
    have hlen : x.length = N * 8 + N * 8 := by rw [← hx]; simp
    have hx1 : ∀ n, n < N * 8 → x.getD n 0 = click (N * 8) n := fun n hn => by
      rw [← hx, Filter.getD_append_left _ _ _ (by simpa using hn), hg _ _ _ hn]
    have hx2 : x.getD (N * 8) 0 = 0 := by
      rw [← hx, List.getD_eq_getElem?_getD, List.getElem?_append_right (by simp), ← List.getD_eq_getElem?_getD]
      rw [show N * 8 - ((List.range (N * 8)).map (click (N * 8))).length = 0 by simp, hg _ _ _ (by omega)]
      unfold click
      rw [if_neg (by omega)]
    have hxz : ∀ n, n < N * 8 - 1 → x.getD n 0 = 0 := fun n hn => by
      rw [hx1 n (by omega)]
      unfold click
      rw [if_neg (by omega)]
    have hxone : x.getD (N * 8 - 1) 0 = 1 := by
      rw [hx1 _ (by omega)]
      unfold click
      rw [if_pos (by omega)]
    have hyz := diffEq_zero hd (m := N * 8 - 1) (by omega) hxz
    have hbl : (Decimator.bOf 8 : List ℝ).length = 8 := rfl
    have hal : (Decimator.aOf 8 : List ℝ).length = 8 := rfl
    have hy1 : y.getD (N * 8 - 1) 0 = (Decimator.bOf 8 : List ℝ).getD 0 0 := by
      rw [hd.2 _ (by omega), Finset.sum_eq_single 0, Finset.sum_eq_zero, sub_zero]
      · unfold Filter.delayed
        rw [if_pos (by omega), Nat.sub_zero, hxone, mul_one]
      · intro i _
        unfold Filter.delayed
        split_ifs
        · rw [hyz _ (by omega), mul_zero]
        · rw [mul_zero]
      · intro i _ hi
        unfold Filter.delayed
        split_ifs
        · rw [hxz _ (by omega), mul_zero]
        · rw [mul_zero]
      · intro hc
        exact absurd (Finset.mem_range.mpr (by rw [hbl]; norm_num)) hc
    have hy2 : y.getD (N * 8) 0 = (Decimator.bOf 8 : List ℝ).getD 1 0 - (Decimator.aOf 8 : List ℝ).getD 1 0 * (Decimator.bOf 8 : List ℝ).getD 0 0 := by
      rw [hd.2 _ (by omega), Finset.sum_eq_single 1, Finset.sum_eq_single 0]
      · unfold Filter.delayed
        rw [if_pos (by omega), hxone, mul_one, if_pos (by omega), Nat.zero_add, hy1]
      · intro i _ hi
        unfold Filter.delayed
        split_ifs
        · rw [hyz _ (by omega), mul_zero]
        · rw [mul_zero]
      · intro hc
        exact absurd (Finset.mem_range.mpr (by rw [hal]; norm_num)) hc
      · intro i _ hi
        unfold Filter.delayed
        split_ifs
        · by_cases h0 : i = 0
          · rw [h0, Nat.sub_zero, hx2, mul_zero]
          · rw [hxz _ (by omega), mul_zero]
        · rw [mul_zero]
      · intro hc
        exact absurd (Finset.mem_range.mpr (by rw [hbl]; norm_num)) hc
    rw [show 1 * (N * 8) + 8 * 0 = N * 8 by omega, hy2]
    norm_num [Decimator.bOf, Decimator.aOf, Decimator.coeffs]
  · have hd := h'.1 (by norm_num)
    refine diffEq_zero hd (m := N / 2 * 8 + 1) (by simp; omega) (fun n hn => ?_) _ (by omega)
    rw [hg _ _ _ (by omega)]
    unfold click
    rw [if_neg (by omega)]

/-! ## A concrete configuration: the defaults for audio at 44100 samples per second -/

/-- The defaults, dsp/keydetection/GetKeyMode.h:31-38. -/
noncomputable def defaults : Config := ⟨44100, 440, 10, 10, 1, 8⟩

theorem defaults_usable : defaults.Usable := by
  have hfs : defaults.chroma.fs = 5512.5 := by
    unfold Config.chroma defaults
    norm_num
  refine ⟨?_, ?_, ?_, ?_, ?_, ?_, ?_⟩ <;> (try rw [hfs]) <;> unfold defaults <;> norm_num

example : ∃ (N : Nat) (s s' : Audio) (k : Nat), Audio.make defaults ⟨.replicate N 9, .replicate N 9, .replicate 144 9, .replicate 144 9, .replicate 36 9, 9⟩ 9 (.replicate N 9) = some s ∧
    Audio.run s [(⟨.replicate N 9, .replicate N 9, .replicate N 9, .replicate N 9, 9, 9, .replicate N 9⟩, (List.range (N * 8)).map (click 5))] = some (s', [k]) ∧ 1 ≤ k ∧ k ≤ 24 := by
  obtain ⟨N, _, _, H⟩ := C73_keys defaults_usable
  obtain ⟨s, s', keys, y, e1, _, _, e2, l, _, hk⟩ := H ⟨.replicate N 9, .replicate N 9, .replicate 144 9, .replicate 144 9, .replicate 36 9, 9⟩ 9 (.replicate N 9)
    [(⟨.replicate N 9, .replicate N 9, .replicate N 9, .replicate N 9, 9, 9, .replicate N 9⟩, (List.range (N * 8)).map (click 5))]
    ⟨by simp, by simp, by simp, by simp, by simp⟩ (by simp) (fun c hc => by
      rw [List.mem_singleton.mp hc]
      exact ⟨⟨by simp, by simp, by simp, by simp, by simp⟩, by rw [List.length_map, List.length_range]; rfl⟩)
  match keys, l, e2, hk with
  | [k], _, e2, hk => exact ⟨N, s, s', k, e1, e2, (hk 0 (by simp)).1, (hk 0 (by simp)).2.1⟩

end QM.KeyMode
