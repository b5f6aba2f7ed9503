import Verif.Forget.Detection
import Verif.KeyMode.Props
import Verif.Decimator.ResponseProps
import Verif.Filter.NoFeedback

/-!
# What was heard long ago does not matter
-/

/-! ## C119: detection functions -/

namespace QM.DetectionFunction

/-- **C119** Without whitening (phase deviation: with it, too) a detection function compares the current frame with none, one or two frames
before it; two objects that agree on these give the same value, whatever else they have heard. -/
theorem C119_detection (c : Config) (h : Valid c) (hw : c.whiten = false ∨ c.ty = .phaseDev) {zs zs' : List (Nat → ℂ)} {d d' : DF} (hr : Reach c zs d)
    (hr' : Reach c zs' d') (hp : zs.take c.ty.past = zs'.take c.ty.past) (reals imags : List ℝ) (h1 : c.frame / 2 + 1 ≤ reals.length)
    (h2 : c.frame / 2 + 1 ≤ imags.length) :
    ∃ e e' v, processFreq d reals imags = some (e, v) ∧ processFreq d' reals imags = some (e', v) := by
  obtain ⟨e, v, a1, a2⟩ := C28_frequency_value c h hr reals imags h1 h2
  obtain ⟨e', v', b1, b2⟩ := C28_frequency_value c h hr' reals imags h1 h2
  obtain rfl := value_recent hw hp a2 b2
  exact ⟨e, e', v, a1, b1⟩

/-- **C119** The same for frames of samples. -/
theorem C119_detection_time (c : Config) (h : Valid c) (hw : c.whiten = false ∨ c.ty = .phaseDev) {zs zs' : List (Nat → ℂ)} {d d' : DF} (hr : Reach c zs d)
    (hr' : Reach c zs' d') (hp : zs.take c.ty.past = zs'.take c.ty.past) (samples : List ℝ) (h1 : c.frame ≤ samples.length) :
    ∃ e e' v, processTime d samples = some (e, v) ∧ processTime d' samples = some (e', v) := by
  obtain ⟨e, v, a1, a2⟩ := C28_time_value c h hr samples h1
  obtain ⟨e', v', b1, b2⟩ := C28_time_value c h hr' samples h1
  obtain rfl := value_recent hw hp a2 b2
  exact ⟨e, e', v, a1, b1⟩

/-- **C119** With whitening the past dies out geometrically: after `n` common frames the whitened spectra (`getSpectrumMagnitude`) of the next
one differ by at most the relaxation coefficient to the power of `n + 1` times the loudest magnitude of the past over the floor. -/
theorem C119_whitening (c : Config) (h : Valid c) (hw : c.whiten = true) (hr1 : c.relax ≤ 1) (P : ℝ) (hP : c.floorVal ≤ P) {ts zs zs' : List (Nat → ℂ)}
    {d d' : DF} (hr : Reach c (ts ++ zs) d) (hr' : Reach c (ts ++ zs') d') (hz : ∀ w ∈ zs, ∀ k, ‖w k‖ ≤ P) (hz' : ∀ w ∈ zs', ∀ k, ‖w k‖ ≤ P)
    (reals imags : List ℝ) (h1 : c.frame / 2 + 1 ≤ reals.length) (h2 : c.frame / 2 + 1 ≤ imags.length) :
    ∃ e e' v v', processFreq d reals imags = some (e, v) ∧ processFreq d' reals imags = some (e', v') ∧
      ∀ k, k ≤ c.frame / 2 → ∃ x x', e.magnitude[k]? = some x ∧ e'.magnitude[k]? = some x' ∧ |x - x'| ≤ c.relax ^ (ts.length + 1) * (P / c.floorVal) := by
  obtain ⟨e, v, a1, _, _, a4⟩ := freq_ok h.pos h.safe (reach_ok h hr) reals imags h1 h2
  obtain ⟨e', v', b1, _, _, b4⟩ := freq_ok h.pos h.safe (reach_ok h hr') reals imags h1 h2
  refine ⟨e, e', v, v', a1, b1, fun k hk => ⟨_, _, a4.2 k (by omega), b4.2 k (by omega), ?_⟩⟩
  exact mag_near c hw hr1 (h.safe hw) k P hP _ ts zs zs' (fun w hm => hz w hm k) (fun w hm => hz' w hm k)

/-- **C119** So do the values of the high frequency content. -/
theorem C119_whitened_hfc (c : Config) (h : Valid c) (hty : c.ty = .hfc) (hw : c.whiten = true) (hr1 : c.relax ≤ 1) (P : ℝ) (hP : c.floorVal ≤ P)
    {ts zs zs' : List (Nat → ℂ)} {d d' : DF} (hr : Reach c (ts ++ zs) d) (hr' : Reach c (ts ++ zs') d') (hz : ∀ w ∈ zs, ∀ k, ‖w k‖ ≤ P)
    (hz' : ∀ w ∈ zs', ∀ k, ‖w k‖ ≤ P) (reals imags : List ℝ) (h1 : c.frame / 2 + 1 ≤ reals.length) (h2 : c.frame / 2 + 1 ≤ imags.length) :
    ∃ e e' v v', processFreq d reals imags = some (e, v) ∧ processFreq d' reals imags = some (e', v') ∧
      |v - v'| ≤ (c.frame / 2 + 1 : ℕ) ^ 2 * (c.relax ^ (ts.length + 1) * (P / c.floorVal)) := by
  obtain ⟨e, v, a1, a2⟩ := C28_frequency_value c h hr reals imags h1 h2
  obtain ⟨e', v', b1, b2⟩ := C28_frequency_value c h hr' reals imags h1 h2
  refine ⟨e, e', v, v', a1, b1, ?_⟩
  unfold IsValue at a2 b2
  simp only [hty] at a2 b2
  rw [a2, b2, ← Finset.sum_sub_distrib]
  refine (Finset.abs_sum_le_sum_abs _ _).trans ?_
  have hb : 0 ≤ c.relax ^ (ts.length + 1) * (P / c.floorVal) :=
    mul_nonneg (pow_nonneg (relax_nonneg c) _) (div_nonneg ((h.safe hw).le.trans hP) (h.safe hw).le)
  calc _ ≤ ∑ k ∈ Finset.range (c.frame / 2 + 1), ((c.frame / 2 + 1 : ℕ) : ℝ) * (c.relax ^ (ts.length + 1) * (P / c.floorVal)) := by
        refine Finset.sum_le_sum fun k hk => ?_
        rw [← mul_sub, abs_mul, abs_of_nonneg (by positivity)]
        refine mul_le_mul ?_ (mag_near c hw hr1 (h.safe hw) k P hP _ ts zs zs' (fun w hm => hz w hm k) (fun w hm => hz' w hm k)) (abs_nonneg _) (by positivity)
        have := Finset.mem_range.mp hk
        exact_mod_cast this
    _ = _ := by
        rw [Finset.sum_const, Finset.card_range, nsmul_eq_mul]
        ring

/-- Objects that have heard given spectra exist, so there are always two with a common recent past. -/
theorem reach_any (c : Config) (h : Valid c) (ls : List (List ℝ × List ℝ)) (hl : ∀ l ∈ ls, c.frame / 2 + 1 ≤ l.1.length ∧ c.frame / 2 + 1 ≤ l.2.length) :
    ∃ d, Reach c (ls.map fun l => ofSplit l.1 l.2) d := by
  induction ls with
  | nil =>
    obtain ⟨d, _, hr⟩ := C28_construct c h 0 0
    exact ⟨d, hr⟩
  | cons l ls ih =>
    obtain ⟨d, hr⟩ := ih (fun m hm => hl m (List.mem_cons_of_mem _ hm))
    obtain ⟨a, b⟩ := hl l List.mem_cons_self
    obtain ⟨d', v, e, _⟩ := C28_frequency_value c h hr l.1 l.2 a b
    exact ⟨d', .freq hr a b e⟩

/-- Complex domain function of frames of 4 samples: one object has heard two frames, the other five, the last two the same. -/
example : ∃ d d' e e' v, processFreq d [1, 2, 3] [4, 5, 6] = some (e, v) ∧ processFreq d' [1, 2, 3] [4, 5, 6] = some (e', v) ∧
    Reach ⟨2, 4, .complexSD, 3, false, -1, -1⟩ [ofSplit [1, 0, 0] [0, 1, 0], ofSplit [0, 0, 7] [0, 0, 0]] d ∧
    Reach ⟨2, 4, .complexSD, 3, false, -1, -1⟩ [ofSplit [1, 0, 0] [0, 1, 0], ofSplit [0, 0, 7] [0, 0, 0], ofSplit [9, 9, 9] [9, 9, 9], ofSplit [0, 0, 0] [1, 1, 1],
      ofSplit [1, 2, 4] [1, 2, 4]] d' := by
  have hv : Valid ⟨2, 4, .complexSD, 3, false, -1, -1⟩ := ⟨rfl, by norm_num, by norm_num, fun h => by simp at h⟩
  obtain ⟨d, hd⟩ := reach_any _ hv [([1, 0, 0], [0, 1, 0]), ([0, 0, 7], [0, 0, 0])] (by simp)
  obtain ⟨d', hd'⟩ := reach_any _ hv [([1, 0, 0], [0, 1, 0]), ([0, 0, 7], [0, 0, 0]), ([9, 9, 9], [9, 9, 9]), ([0, 0, 0], [1, 1, 1]), ([1, 2, 4], [1, 2, 4])] (by simp)
  obtain ⟨e, e', v, h1, h2⟩ := C119_detection _ hv (.inl rfl) hd hd' rfl [1, 2, 3] [4, 5, 6] (by simp) (by simp)
  exact ⟨d, d', e, e', v, h1, h2, hd, hd'⟩

/-- The default relaxation coefficient meets the condition. -/
example : exampleConfig.relax ≤ 1 ∧ exampleConfig.floorVal ≤ 1 ∧ exampleConfig.whiten = true := by
  norm_num [exampleConfig, Config.relax, Config.floorVal]

end QM.DetectionFunction

/-! ## C119: keys -/

namespace QM.KeyMode

theorem median_unique {l : List Nat} {a b : Nat} (ha : IsLowerMedian l a) (hb : IsLowerMedian l b) : a = b := by
  obtain ⟨s, p1, o1, g1⟩ := ha
  obtain ⟨t, p2, o2, g2⟩ := hb
  have : s = t := (p1.trans p2.symm).eq_of_pairwise (fun a b _ _ h1 h2 => le_antisymm h1 h2) o1 o2
  subst this
  exact Option.some.inj (g1.symm.trans g2)

/-- The mean depends on the last `cs` frames. -/
theorem meanChroma_recent (cs : Nat) (a b t : List (List ℝ)) (ht : cs ≤ t.length) : meanChroma cs (a ++ t) = meanChroma cs (b ++ t) := by
  funext k
  unfold meanChroma
  have hd : ∀ c : List (List ℝ), (c ++ t).drop ((c ++ t).length - cs) = t.drop (t.length - cs) := fun c => by
    rw [List.length_append, List.drop_append, List.drop_eq_nil_of_le (by omega), List.nil_append]
    congr 1
    omega
  have hl : ∀ c : List (List ℝ), min (c ++ t).length cs = cs := fun c => by rw [List.length_append]; omega
  rw [hd a, hd b, hl a, hl b]

theorem take_recent (o r : List (List ℝ)) (x : List ℝ) (ms j : Nat) (h : ms ≤ r.length + 1) :
    (o ++ r ++ [x]).take (o.length + r.length + 1 - ms + j + 1) = o ++ (r ++ [x]).take (r.length + 1 - ms + j + 1) := by
  rw [List.append_assoc, List.take_append, List.take_of_length_le (by omega)]
  congr 2
  omega

/-- **C119** The key reported depends on the last `cs + ms - 1` frames, `cs` the length of the chroma average and `ms` that of the median:
two detectors that agree on these report the same key, whatever they have heard before. -/
theorem C119_key (cs ms : Nat) (hcs : 0 < cs) (hms : 0 < ms) (u u' : ℝ) (old old' recent : List (List ℝ)) (frame : List ℝ) (ho : ∀ f ∈ old, f.length = 36)
    (ho' : ∀ f ∈ old', f.length = 36) (hh : ∀ f ∈ recent, f.length = 36) (hf : frame.length = 36) (hlen : cs + ms ≤ recent.length + 2) :
    ∃ s0 s s1 s0' s' s1' key, make cs ms u = some s0 ∧ run s0 (old ++ recent) = some s ∧ process s frame = some (s1, key) ∧
      make cs ms u' = some s0' ∧ run s0' (old' ++ recent) = some s' ∧ process s' frame = some (s1', key) := by
  obtain ⟨s0, s, s1, key, raws, a1, a2, a3, _, _, a6, a7, a8⟩ := C30_history cs ms hcs hms u (old ++ recent) frame
    (fun f hm => (List.mem_append.mp hm).elim (ho f) (hh f)) hf
  obtain ⟨s0', s', s1', key', raws', b1, b2, b3, _, _, b6, b7, b8⟩ := C30_history cs ms hcs hms u' (old' ++ recent) frame
    (fun f hm => (List.mem_append.mp hm).elim (ho' f) (hh f)) hf
  have e : raws.drop ((old ++ recent).length + 1 - ms) = raws'.drop ((old' ++ recent).length + 1 - ms) := by
    rw [List.length_append] at a6 b6 ⊢
    rw [List.length_append]
    refine List.ext_getElem (by simp only [List.length_drop]; omega) fun j h1 h2 => ?_
    simp only [List.length_drop] at h1 h2
    rw [List.getElem_drop, List.getElem_drop]
    have c1 := a7 (old.length + recent.length + 1 - ms + j) (by rw [List.length_append]; omega)
    have c2 := b7 (old'.length + recent.length + 1 - ms + j) (by rw [List.length_append]; omega)
    rw [List.getD_eq_getElem _ _ (by omega)] at c1 c2
    rw [take_recent old recent frame _ _ (by omega), meanChroma_recent cs old old' _ (by rw [List.length_take, List.length_append, List.length_singleton]; omega)] at c1
    rw [take_recent old' recent frame _ _ (by omega)] at c2
    exact C30_raw_unique _ _ _ c1 c2
  rw [e] at a8
  obtain rfl := median_unique a8 b8
  exact ⟨s0, s, s1, s0', s', s1', key, a1, a2, a3, b1, b2, b3⟩

example : ∃ s0 s s1 s0' s' s1' key, make 2 2 0 = some s0 ∧ run s0 ([List.replicate 36 1, List.replicate 36 5] ++ [List.range 36 |>.map (↑), List.replicate 36 2]) = some s ∧
    process s (List.replicate 36 3) = some (s1, key) ∧ make 2 2 7 = some s0' ∧ run s0' ([] ++ [List.range 36 |>.map (↑), List.replicate 36 2]) = some s' ∧
    process s' (List.replicate 36 3) = some (s1', key) :=
  C119_key 2 2 (by decide) (by decide) 0 7 _ _ _ _ (by simp) (by simp) (by simp) (by simp) (by simp)

end QM.KeyMode

/-! ## C119: filters without feedback -/

namespace QM.Filter

/-- **C119** The output of a filter without feedback depends on the last samples only, as many as it has coefficients. -/
theorem C119_filter {R : Type} [CommRing R] (b a : List R) (ha : NoFeedback a) (s : State R) (h : new b a = .ok s) (bs cs : List (List R)) :
    ∃ s1 o1 s2 o2, run s (blocks bs) = some (s1, o1) ∧ run s (blocks cs) = some (s2, o2) ∧
      ∀ n m, b.length ≤ n + 1 → b.length ≤ m + 1 → n < bs.flatten.length → m < cs.flatten.length →
        (∀ i < b.length, bs.flatten[n - i]? = cs.flatten[m - i]?) → o1.flatten[n]? = o2.flatten[m]? := by
  obtain ⟨s1, o1, e1, _, d1⟩ := C10_difference_equation b a s h ha.1 bs
  obtain ⟨s2, o2, e2, _, d2⟩ := C10_difference_equation b a s h ha.1 cs
  refine ⟨s1, o1, s2, o2, e1, e2, fun n m hn hm hn' hm' hi => ?_⟩
  have d1 := diffEq_noFeedback ha d1
  have d2 := diffEq_noFeedback ha d2
  rw [get_getD _ _ 0 (d1.1 ▸ hn'), get_getD _ _ 0 (d2.1 ▸ hm'), d1.2 n hn', d2.2 m hm']
  simp only [List.length_nil, Nat.zero_sub, Finset.range_zero, Finset.sum_empty, sub_zero]
  congr 1
  refine Finset.sum_congr rfl fun i hib => ?_
  have hib := Finset.mem_range.mp hib
  unfold delayed
  rw [if_pos (by omega), if_pos (by omega), List.getD_eq_getElem?_getD (l := bs.flatten), List.getD_eq_getElem?_getD (l := cs.flatten), hi i hib]

end QM.Filter

/-! ## C119: decimation -/

namespace QM.Stable

theorem cv_shift {R : Type} [CommRing R] (p : List ℤ) (u : ℕ → R) (L n : ℕ) (hn : p.length ≤ n) : cv p (fun k => u (L + k)) n = cv p u (L + n) := by
  induction p generalizing n with
  | nil => rfl
  | cons a p ih =>
    rw [List.length_cons] at hn
    obtain ⟨m, rfl⟩ : ∃ m, n = m + 1 := ⟨n - 1, by omega⟩
    rw [cv, cv, cv_sh, cv_sh, ← Nat.add_assoc]
    show _ + cv p (fun k => u (L + k)) m = _ + cv p u (L + m)
    rw [ih m (by omega)]

end QM.Stable

namespace QM.Decimator

open QM.Stable QM.Filter QM.IntPoly

/-- **C119** What a decimator has been given dies out geometrically: two of them that are given the same from some call on, their input being
within `M`, give outputs that differ by at most `6 M`, and fifty times less after every 1250 samples of input. -/
theorem C119_decimator (q f : Nat) (hf : f = 2 ∨ f = 4 ∨ f = 8) (hq : 0 < q) (s : State ℝ) (h : new (f * q) f = some s)
    (old old' recent : List (List ℝ × List ℝ)) (ho : ∀ c ∈ old, c.1.length = f * q ∧ c.2.length = q) (ho' : ∀ c ∈ old', c.1.length = f * q ∧ c.2.length = q)
    (hc : ∀ c ∈ recent, c.1.length = f * q ∧ c.2.length = q) (M : ℝ) (hM : 0 ≤ M) (hx : ∀ c ∈ old ++ old' ++ recent, ∀ v ∈ c.1, |v| ≤ M) :
    ∃ t outs t' outs', run s (old ++ recent) = some (t, outs) ∧ run s (old' ++ recent) = some (t', outs') ∧
      ∀ m < recent.length * q, ∃ v v', outs.flatten[old.length * q + m]? = some v ∧ outs'.flatten[old'.length * q + m]? = some v' ∧
        |v - v'| ≤ 6 * M * (1 / 50) ^ (f * m / 1250) := by
  have hf0 : 0 < f := by rcases hf with rfl | rfl | rfl <;> norm_num
  have hf1 : f ≠ 1 := by rcases hf with rfl | rfl | rfl <;> norm_num
  have hall : ∀ o : List (List ℝ × List ℝ), (∀ c ∈ o, c.1.length = f * q ∧ c.2.length = q) → ∀ c ∈ o ++ recent, c.1.length = f * q ∧ c.2.length = q :=
    fun o h c hm => (List.mem_append.mp hm).elim (h c) (hc c)
  obtain ⟨t, outs, y, e1, e2, -, e4, e5⟩ := C14_every_fth q f hf0 hq s h (old ++ recent) (hall old ho)
  obtain ⟨t', outs', y', g1, g2, -, g4, g5⟩ := C14_every_fth q f hf0 hq s h (old' ++ recent) (hall old' ho')
  refine ⟨t, outs, t', outs', e1, g1, fun m hm => ?_⟩
  have hd := e2 hf1
  have hd' := g2 hf1
  rw [List.length_append] at e4 e5 g4 g5
  have hflat : ∀ o : List (List ℝ × List ℝ), (∀ c ∈ o, c.1.length = f * q ∧ c.2.length = q) → (o.map Prod.fst).flatten.length = f * q * o.length := by
    intro o ho
    induction o with
    | nil => simp
    | cons c o ih =>
      rw [List.map_cons, List.flatten_cons, List.length_append, ih (fun d hd => ho d (List.mem_cons_of_mem _ hd)), (ho c List.mem_cons_self).1, List.length_cons]
      ring
  rw [List.map_append, List.flatten_append] at hd hd'
  set r := (recent.map Prod.fst).flatten with hr
  have hrl : r.length = f * q * recent.length := hflat recent hc
  have hol := hflat old ho
  have hol' := hflat old' ho'
  set xo := (old.map Prod.fst).flatten with hxo
  set xo' := (old'.map Prod.fst).flatten with hxo'
  have hbound : ∀ l : List ℝ, (∀ v ∈ l, |v| ≤ M) → ∀ n, |delayed l n 0| ≤ M := by
    intro l hl n
    rw [delayed_zero, List.getD_eq_getElem?_getD]
    cases hg : l[n]? with
    | none => simpa using hM
    | some w => exact hl w (List.mem_of_getElem? hg)
  have hmem : ∀ o : List (List ℝ × List ℝ), (∀ c ∈ o, c ∈ old ++ old' ++ recent) → ∀ v ∈ (o.map Prod.fst).flatten, |v| ≤ M := by
    intro o ho v hv
    rw [List.mem_flatten] at hv
    obtain ⟨l, hl, hv⟩ := hv
    obtain ⟨c, hc, rfl⟩ := List.mem_map.mp hl
    exact hx c (ho c hc) v hv
  have hX : ∀ v ∈ xo ++ r, |v| ≤ M := fun v hv => (List.mem_append.mp hv).elim (hmem old (fun c h => by simp [h]) v) (hmem recent (fun c h => by simp [h]) v)
  have hX' : ∀ v ∈ xo' ++ r, |v| ≤ M := fun v hv => (List.mem_append.mp hv).elim (hmem old' (fun c h => by simp [h]) v) (hmem recent (fun c h => by simp [h]) v)
  obtain ⟨p0, ps, c1, c2, c3, c4, c5, c6⟩ := cert_sound _ _ _ _ _ _ (cert_ok f hf) (by norm_num)
  have hD : (0 : ℝ) < ((p0 - l1 ps : ℤ) : ℝ) := by exact_mod_cast sub_pos.mpr c2
  have hc3 : ((50 : ℤ) : ℝ) * (l1 ps : ℝ) ≤ p0 := by exact_mod_cast c3
  have hG : ((l1 (mul (certQ f) (intB f)) : ℤ) : ℝ) ≤ 3 * ((p0 - l1 ps : ℤ) : ℝ) := by exact_mod_cast c4
  have hy : ∀ x y : List ℝ, DiffEq (bOf f) (aOf f) x y → (∀ v ∈ x, |v| ≤ M) → ∀ n < x.length, |delayed y n 0| ≤ 3 * M := by
    intro x y hd hx n hn
    have hb := bounded (intA f) (intB f) (certQ f) ps p0 c1 c2 (fun n => delayed x n 0) (fun n => delayed y n 0) x.length (link f hf x y hd) M (hbound x hx) n hn
    have : ((p0 - l1 ps : ℤ) : ℝ) * |delayed y n 0| ≤ ((p0 - l1 ps : ℤ) : ℝ) * (3 * M) := by
      refine hb.trans ?_
      have := mul_le_mul_of_nonneg_right hG hM
      linarith
    exact le_of_mul_le_mul_left this hD
  have hm2 : f * m < r.length := by
    rw [hrl, Nat.mul_assoc, Nat.mul_comm q]
    exact Nat.mul_lt_mul_of_pos_left hm hf0
  have hdec := decay (intA f) (certQ f) ps p0 c1 c2 (1 / 50) (by push_cast at hc3; linarith) (by norm_num)
    (fun n => delayed y (xo.length + n) 0 - delayed y' (xo'.length + n) 0) r.length (max (intA f).length (intB f).length) 1250 c5 c6
    (by
      intro n hn hn2
      rw [cv_sub, cv_shift _ (fun k => delayed y k 0) _ _ (by omega), cv_shift _ (fun k => delayed y' k 0) _ _ (by omega),
        link f hf _ y hd _ (by rw [List.length_append]; omega), link f hf _ y' hd' _ (by rw [List.length_append]; omega),
        ← cv_shift _ (fun k => delayed (xo ++ r) k 0) _ _ (by omega), ← cv_shift _ (fun k => delayed (xo' ++ r) k 0) _ _ (by omega), sub_eq_zero]
      refine cv_local _ _ _ _ fun k _ _ => ?_
      rw [delayed_zero, delayed_zero, List.getD_eq_getElem?_getD, List.getD_eq_getElem?_getD, List.getElem?_append_right (by omega),
        List.getElem?_append_right (by omega), Nat.add_sub_cancel_left, Nat.add_sub_cancel_left])
    (6 * M)
    (by
      intro n hn
      refine (abs_sub _ _).trans ?_
      have := hy _ y hd hX (xo.length + n) (by rw [List.length_append]; omega)
      have := hy _ y' hd' hX' (xo'.length + n) (by rw [List.length_append]; omega)
      linarith) (f * m) hm2
  have i1 : f * (old.length * q + m) = xo.length + f * m := by rw [hol]; ring
  have i2 : f * (old'.length * q + m) = xo'.length + f * m := by rw [hol']; ring
  refine ⟨_, _, ?_, ?_, hdec⟩
  · rw [e5 _ (by rw [Nat.add_mul]; omega), i1, delayed_zero]
    exact get_getD _ _ 0 (by rw [hd.1, List.length_append]; omega)
  · rw [g5 _ (by rw [Nat.add_mul]; omega), i2, delayed_zero]
    exact get_getD _ _ 0 (by rw [hd'.1, List.length_append]; omega)

/-- One decimator that has heard a loud block before and one that is new. -/
example : ∃ s : State ℝ, new (2 * 2) 2 = some s ∧ (∀ c ∈ [(([9, -9, 9, 9], [0, 0]) : List ℝ × List ℝ)], c.1.length = 2 * 2 ∧ c.2.length = 2) ∧
    (∀ c ∈ [(([9, -9, 9, 9], [0, 0]) : List ℝ × List ℝ)] ++ [] ++ [(([1, -1, 1, -1], [0, 0]) : List ℝ × List ℝ)], ∀ v ∈ c.1, |v| ≤ 9) := by
  refine ⟨_, rfl, by simp, ?_⟩
  intro c hc v hv
  simp only [List.append_nil, List.cons_append, List.nil_append, List.mem_cons, List.not_mem_nil, or_false] at hc
  rcases hc with rfl | rfl <;> simp at hv <;> rw [abs_le] <;> constructor <;> rcases hv with h | h | h | h <;> linarith

end QM.Decimator
