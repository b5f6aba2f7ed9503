import Verif.DownBeat.Buffer
import Verif.Decimator.Props
import Verif.Common.Sum

/-! # C38: the audio buffer of `DownBeat` -/

namespace QM.DownBeat

open QM.Filter
open QM.Decimator (bOf aOf Running gather)

variable {K : Type} [Field K]

/-! ## Specification -/

/-- Every `f`th value, beginning with the first. -/
def every (f : Nat) (y : List K) : List K := (List.range (y.length / f)).map (fun i => y.getD (f * i) 0)

/-- `y` is the response of the order 7 anti-aliasing filter for the factor `f` to `x`. -/
def Response (f : Nat) (x y : List K) : Prop := DiffEq (bOf f) (aOf f) x y

/-- `out` is `x` decimated by `f`: unchanged for 1, through one filter up to 8, through the filter for 8 and the one for the remaining
factor above. -/
def Decimated (f : Nat) (x out : List K) : Prop :=
  if f = 1 then out = x
  else if f ≤ 8 then ∃ y, Response f x y ∧ out = every f y
  else ∃ y1 y2, Response 8 x y1 ∧ Response (f / 8) (every 8 y1) y2 ∧ out = every (f / 8) y2

/-- All blocks pushed, in order. -/
def pushed : List (Op K) → List (List K)
  | [] => []
  | Op.push a :: ops => a :: pushed ops
  | Op.reset :: ops => pushed ops

/-- The number of blocks pushed since the last reset. -/
def since (ops : List (Op K)) : Nat :=
  ops.foldl (fun k op => match op with
    | Op.push _ => k + 1
    | Op.reset => 0) 0

/-! ## Decimation of one block -/

theorem every_length (f : Nat) (y : List K) : (every f y).length = y.length / f := by simp [every]

theorem every_get {f : Nat} {y : List K} {i : Nat} (h : i < y.length / f) : (every f y)[i]? = some (y.getD (f * i) 0) := by
  unfold every
  rw [List.getElem?_map, List.getElem?_range h]
  rfl

theorem every_append {f : Nat} (hf : 0 < f) (y z : List K) (h : f ∣ y.length) : every f (y ++ z) = every f y ++ every f z := by
  obtain ⟨c, hc⟩ := h
  have e1 : (y ++ z).length / f = c + z.length / f := by
    rw [List.length_append, hc, Nat.mul_add_div hf]
  have e2 : y.length / f = c := by rw [hc, Nat.mul_div_cancel_left _ hf]
  apply List.ext_getElem?
  intro i
  by_cases h1 : i < c
  · rw [every_get (by rw [e1]; exact Nat.lt_of_lt_of_le h1 (Nat.le_add_right _ _)), List.getElem?_append_left (by rw [every_length, e2]; omega), every_get (by rw [e2]; omega)]
    congr 1
    have : f * i < y.length := by rw [hc]; exact Nat.mul_lt_mul_of_pos_left h1 hf
    rw [List.getD_eq_getElem?_getD, List.getD_eq_getElem?_getD, List.getElem?_append_left this]
  · by_cases h2 : i < c + z.length / f
    · rw [every_get (by rw [e1]; omega), List.getElem?_append_right (by rw [every_length, e2]; omega), every_length, e2, every_get (by omega)]
      congr 1
      have h3 : f * i = y.length + f * (i - c) := by
        rw [hc, ← Nat.mul_add]; congr 1; omega
      rw [List.getD_eq_getElem?_getD, List.getD_eq_getElem?_getD, List.getElem?_append_right (by omega), h3]
      congr 2
      omega
    · rw [List.getElem?_eq_none (by rw [every_length, e1]; omega), List.getElem?_eq_none (by rw [List.length_append, every_length, every_length, e2]; omega)]

/-- `Decimator::process` into a block with room to spare. -/
theorem process_long (L f : Nat) (hf : 0 < f) (s : Decimator.State K) (xs ys : List K) (h : Running L f s xs ys) (src dst : List K)
    (hs : src.length = L) (hdst : L / f ≤ dst.length) :
    ∃ s' y, Decimator.process s src dst = some (s', every f y ++ dst.drop (L / f)) ∧ y.length = L ∧ Running L f s' (xs ++ src) (ys ++ y) := by
  obtain ⟨s', o0, y, h1, h2, h3, h4, h5⟩ := Decimator.process_spec L f hf s xs ys h src (dst.take (L / f)) hs (by rw [List.length_take]; omega)
  refine ⟨s', y, ?_, h3, h4⟩
  have heo : o0 = every f y := by
    apply List.ext_getElem?
    intro i
    by_cases hi : i < L / f
    · rw [h5 i hi, every_get (by rw [h3]; exact hi)]
      have hlt : f * i < y.length := by
        rw [h3]
        calc f * i < f * (L / f) := Nat.mul_lt_mul_of_pos_left hi hf
          _ ≤ L := Nat.mul_div_le L f
      rw [List.getD_eq_getElem?_getD, List.getElem?_eq_getElem hlt]; rfl
    · rw [List.getElem?_eq_none (by omega), List.getElem?_eq_none (by rw [every_length, h3]; omega)]
  -- the loop writes the same values
  have key : ∀ (n : Nat) (g : Nat → Option K) (d t d' : List K), loop n (fun i dst => do
      let v ← g i
      wr dst i v) d = some d' → loop n (fun i dst => do
      let v ← g i
      wr dst i v) (d ++ t) = some (d' ++ t) := by
    intro n g d t
    induction n with
    | zero => intro d' h; cases h; rfl
    | succ n ih =>
      intro d' h
      rw [loop] at h ⊢
      cases hx : loop n (fun i dst => do
        let v ← g i
        wr dst i v) d with
      | none => rw [hx] at h; cases h
      | some d1 =>
        rw [hx] at h
        rw [ih d1 hx]
        simp only [Option.bind_some] at h ⊢
        cases hg : g n with
        | none => rw [hg] at h; cases h
        | some v =>
          rw [hg] at h
          simp only [Option.bind_eq_bind, Option.bind_some] at h ⊢
          unfold wr at h ⊢
          by_cases hn : n < d1.length
          · rw [if_pos hn] at h
            cases h
            rw [if_pos (by rw [List.length_append]; omega), List.set_append_left _ _ hn]
          · rw [if_neg hn] at h; cases h
  have hsplit : dst = dst.take (L / f) ++ dst.drop (L / f) := (List.take_append_drop _ _).symm
  rw [← heo]
  rw [hsplit]
  generalize dst.drop (L / f) = t
  have hdrop : (dst.take (L / f) ++ t).drop (L / f) = t := by
    rw [List.drop_append_of_le_length (by rw [List.length_take]; omega)]
    simp
  rw [hdrop]
  generalize dst.take (L / f) = d at h1
  unfold Decimator.process at h1 ⊢
  by_cases hone : s.decFactor = 1
  · rw [if_pos hone] at h1 ⊢
    cases hx : loop s.outputLength (fun i dst => do
      let v ← src[i]?
      wr dst i v) d with
    | none => rw [hx] at h1; cases h1
    | some d1 =>
      rw [hx] at h1
      rw [key _ _ _ t _ hx]
      cases h1
      rfl
  · rw [if_neg hone] at h1 ⊢
    by_cases hsl : src.length < s.inputLength
    · rw [if_pos hsl] at h1; cases h1
    · rw [if_neg hsl] at h1 ⊢
      rcases hda : Decimator.doAntiAlias s (src.take s.inputLength) with ⟨s1, db⟩
      rw [hda] at h1
      dsimp only at h1 ⊢
      cases hx : loop s.outputLength (fun i dst => do
        let v ← db[s.decFactor * i]?
        wr dst i v) d with
      | none => rw [hx] at h1; cases h1
      | some d1 =>
        rw [hx] at h1
        rw [key _ _ _ t _ hx]
        cases h1
        rfl

/-! ## The stage before the buffer -/

/-- The documented factors, and increments that are multiples of the factor. -/
structure Documented (f inc : Nat) : Prop where
  factor : f = 1 ∨ f = 2 ∨ f = 4 ∨ f = 8 ∨ f = 16 ∨ f = 32 ∨ f = 64
  multiple : f ∣ inc

/-- The decimators after `x` has been turned into `out`. -/
def Stage (f inc : Nat) (s : Buf K) (x out : List K) : Prop :=
  s.factor = f ∧ s.increment = inc ∧ inc ∣ x.length ∧
  if f = 1 then s.dec1 = none ∧ s.dec2 = none ∧ out = x
  else if f ≤ 8 then s.dec2 = none ∧ ((s.dec1 = none ∧ x = [] ∧ out = []) ∨
    ∃ d1 y, s.dec1 = some d1 ∧ Running inc f d1 x y ∧ y.length = x.length ∧ out = every f y)
  else ((s.dec1 = none ∧ s.dec2 = none ∧ x = [] ∧ out = []) ∨
    ∃ d1 d2 y1 y2, s.dec1 = some d1 ∧ s.dec2 = some d2 ∧ s.decbuf.length = inc / 8 ∧ Running inc 8 d1 x y1 ∧ y1.length = x.length ∧
      Running (inc / 8) (f / 8) d2 (every 8 y1) y2 ∧ y2.length = (every 8 y1).length ∧ out = every (f / 8) y2)

theorem Stage.decimated {f inc : Nat} {s : Buf K} {x out : List K} (h : Stage f inc s x out) (hd : Documented f inc) : Decimated f x out := by
  obtain ⟨_, _, _, h⟩ := h
  unfold Decimated
  by_cases h1 : f = 1
  · rw [if_pos h1] at h ⊢; exact h.2.2
  · rw [if_neg h1] at h ⊢
    by_cases h8 : f ≤ 8
    · rw [if_pos h8] at h ⊢
      rcases h.2 with ⟨_, rfl, rfl⟩ | ⟨d1, y, _, h2, _, h3⟩
      · exact ⟨[], ⟨rfl, by simp⟩, by simp [every]⟩
      · exact ⟨y, h2.hd h1, h3⟩
    · rw [if_neg h8] at h ⊢
      rcases h with ⟨_, _, rfl, rfl⟩ | ⟨d1, d2, y1, y2, _, _, _, h2, _, h3, _, h4⟩
      · exact ⟨[], [], ⟨rfl, by simp⟩, by rw [show every 8 ([] : List K) = [] by simp [every]]; exact ⟨rfl, by simp⟩, by simp [every]⟩
      · exact ⟨y1, y2, h2.hd (by decide), h3.hd (by have := hd.factor; omega), h4⟩

theorem new_some {L f : Nat} (hf : 0 < f) : ∃ d, Decimator.new (K := K) L f = some d ∧ Running L f d [] [] := by
  have : ∃ d, Decimator.new (K := K) L f = some d := by
    unfold Decimator.new
    rw [if_neg (by omega)]
    exact ⟨_, rfl⟩
  obtain ⟨d, hd⟩ := this
  exact ⟨d, hd, Decimator.new_running L f d hd⟩

/-- One block through `ensure` and `decimate`. -/
theorem stage_step {f inc : Nat} (hd : Documented f inc) (junk : Nat → K) (s : Buf K) (x out audio : List K) (h : Stage f inc s x out)
    (ha : audio.length = inc) :
    ∃ s1, ensure junk s = some s1 ∧ s1.buffer = s.buffer ∧ s1.buffill = s.buffill ∧ s1.factor = f ∧ s1.increment = inc ∧
      ∀ dst : List K, inc / f ≤ dst.length → ∃ s2 o, decimate s1 audio dst = some (s2, o ++ dst.drop (inc / f)) ∧ o.length = inc / f ∧
        Stage f inc s2 (x ++ audio) (out ++ o) := by
  obtain ⟨hf, hi, hx, h⟩ := h
  have hfpos : 0 < f := by have := hd.factor; omega
  have hdx : inc ∣ (x ++ audio).length := by rw [List.length_append, ha]; exact Dvd.dvd.add hx (dvd_refl inc)
  by_cases h1 : f = 1
  · rw [if_pos h1] at h
    obtain ⟨e1, e2, e3⟩ := h
    refine ⟨s, ?_, rfl, rfl, hf, hi, ?_⟩
    · unfold ensure
      rw [if_neg (by omega)]
    · intro dst hdst
      subst h1
      rw [Nat.div_one] at hdst
      obtain ⟨d, g1, g2, g3⟩ := gather s.increment (fun i => audio[i]?) dst (by omega) (by intro i hi'; simp; omega)
      refine ⟨s, audio, ?_, by rw [Nat.div_one]; exact ha, hf, hi, hdx, ?_⟩
      · unfold decimate
        rw [e1, e2]
        dsimp only
        rw [bind_ok g1]
        have hdd : d = audio ++ dst.drop (inc / 1) := by
          apply List.ext_getElem?
          intro i
          rw [g3, hi]
          by_cases hlt : i < inc
          · rw [if_pos hlt, List.getElem?_append_left (by omega)]
          · rw [if_neg hlt, List.getElem?_append_right (by omega), List.getElem?_drop, ha, Nat.div_one]
            congr 1; omega
        rw [hdd]; rfl
      · rw [if_pos rfl]; exact ⟨e1, e2, by rw [e3]⟩
  · rw [if_neg h1] at h
    by_cases h8 : f ≤ 8
    · rw [if_pos h8] at h
      obtain ⟨e2, h⟩ := h
      -- the decimator exists after `ensure`
      have hens : ∃ s1 d1 y, ensure junk s = some s1 ∧ s1.buffer = s.buffer ∧ s1.buffill = s.buffill ∧ s1.factor = f ∧ s1.increment = inc ∧
          s1.dec1 = some d1 ∧ s1.dec2 = none ∧ Running inc f d1 x y ∧ y.length = x.length ∧ out = every f y := by
        rcases h with ⟨e1, rfl, rfl⟩ | ⟨d1, y, e1, h2, h3, h4⟩
        · obtain ⟨d, hd1, hd2⟩ := new_some (K := K) (L := inc) hfpos
          refine ⟨{ s with dec1 := some d }, d, [], ?_, rfl, rfl, hf, hi, rfl, e2, hd2, rfl, by simp [every]⟩
          unfold ensure makeDecimators
          rw [if_pos ⟨by rw [e1]; rfl, by omega⟩, if_neg (by omega), if_pos (by omega), hi, hf, hd1]
          rfl
        · refine ⟨s, d1, y, ?_, rfl, rfl, hf, hi, e1, e2, h2, h3, h4⟩
          unfold ensure
          rw [if_neg (by rw [e1]; simp)]
      obtain ⟨s1, d1, y, g1, g2, g3, g4, g5, g6, g7, g8, g9, g10⟩ := hens
      refine ⟨s1, g1, g2, g3, g4, g5, ?_⟩
      intro dst hdst
      obtain ⟨d', y', p1, p2, p3⟩ := process_long inc f hfpos d1 x y g8 audio dst ha hdst
      refine ⟨{ s1 with dec1 := some d' }, every f y', ?_, by rw [every_length, p2], g4, g5, hdx, ?_⟩
      · unfold decimate
        rw [g6, g7]
        dsimp only
        rw [bind_ok p1]
        rfl
      · rw [if_neg h1, if_pos h8]
        refine ⟨g7, Or.inr ⟨d', y ++ y', rfl, p3, ?_, ?_⟩⟩
        · rw [List.length_append, List.length_append, g9, p2, ha]
        · rw [every_append hfpos y y' (by rw [g9]; exact dvd_trans hd.multiple hx), g10]
    · rw [if_neg h8] at h
      have hf8 : 0 < f / 8 := by omega
      have h88 : 8 ∣ f := by have := hd.factor; omega
      have hdiv : (8 : Nat) ∣ inc := dvd_trans h88 hd.multiple
      have hdd : inc / f = (inc / 8) / (f / 8) := by
        obtain ⟨c, rfl⟩ := h88
        rw [Nat.mul_div_cancel_left _ (by decide), Nat.div_div_eq_div_mul]
      have hfd : f / 8 ∣ inc / 8 := by
        obtain ⟨c, rfl⟩ := h88
        obtain ⟨e, he⟩ := hd.multiple
        rw [Nat.mul_div_cancel_left _ (by decide), he, Nat.mul_assoc, Nat.mul_div_cancel_left _ (by decide)]
        exact dvd_mul_right c e
      have hens : ∃ s1 d1 d2 y1 y2, ensure junk s = some s1 ∧ s1.buffer = s.buffer ∧ s1.buffill = s.buffill ∧ s1.factor = f ∧
          s1.increment = inc ∧ s1.dec1 = some d1 ∧ s1.dec2 = some d2 ∧ s1.decbuf.length = inc / 8 ∧ Running inc 8 d1 x y1 ∧
          y1.length = x.length ∧ Running (inc / 8) (f / 8) d2 (every 8 y1) y2 ∧ y2.length = (every 8 y1).length ∧ out = every (f / 8) y2 := by
        rcases h with ⟨e1, e2, rfl, rfl⟩ | ⟨d1, d2, y1, y2, e1, e2, h2, h3, h4, h5, h6, h7⟩
        · obtain ⟨d1, q1, q2⟩ := new_some (K := K) (L := inc) (f := 8) (by decide)
          obtain ⟨d2, r1, r2⟩ := new_some (K := K) (L := inc / 8) (f := f / 8) hf8
          refine ⟨{ s with dec1 := some d1, dec2 := some d2, decbuf := (List.range (inc / 8)).map junk }, d1, d2, [], [], ?_, rfl, rfl, hf, hi,
            rfl, rfl, by simp, q2, rfl, by simpa [every] using r2, by simp [every], by simp [every]⟩
          unfold ensure makeDecimators
          rw [if_pos ⟨by rw [e1]; rfl, by omega⟩, if_neg (by omega), if_neg (by omega), hi, hf, q1, bind_ok rfl, r1]
          rfl
        · refine ⟨s, d1, d2, y1, y2, ?_, rfl, rfl, hf, hi, e1, e2, h2, h3, h4, h5, h6, h7⟩
          unfold ensure
          rw [if_neg (by rw [e1]; simp)]
      obtain ⟨s1, d1, d2, y1, y2, g1, g2, g3, g4, g5, g6, g7, g8, g9, g10, g11, g12, g13⟩ := hens
      refine ⟨s1, g1, g2, g3, g4, g5, ?_⟩
      intro dst hdst
      obtain ⟨d1', y1', p1, p2, p3⟩ := process_long inc 8 (by decide) d1 x y1 g9 audio s1.decbuf ha (by omega)
      have hdb : s1.decbuf.drop (inc / 8) = [] := by rw [List.drop_eq_nil_iff]; omega
      rw [hdb, List.append_nil] at p1
      have hl8 : (every 8 y1').length = inc / 8 := by rw [every_length, p2]
      obtain ⟨d2', y2', r1, r2, r3⟩ := process_long (inc / 8) (f / 8) hf8 d2 _ y2 g11 (every 8 y1') dst hl8 (by rw [← hdd]; exact hdst)
      have hy1 : 8 ∣ y1.length := by rw [g10]; exact dvd_trans hdiv hx
      refine ⟨{ s1 with dec1 := some d1', dec2 := some d2', decbuf := every 8 y1' }, every (f / 8) y2', ?_, by rw [every_length, r2, hdd],
        g4, g5, hdx, ?_⟩
      · unfold decimate
        rw [g6, g7]
        dsimp only
        rw [bind_ok p1]
        dsimp only
        rw [bind_ok r1, hdd]
        rfl
      · rw [if_neg h1, if_neg h8]
        refine Or.inr ⟨d1', d2', y1 ++ y1', y2 ++ y2', rfl, rfl, hl8, p3, ?_, ?_, ?_, ?_⟩
        · rw [List.length_append, List.length_append, g10, p2, ha]
        · rw [every_append (by decide) y1 y1' hy1]; exact r3
        · rw [every_append (by decide) y1 y1' hy1, List.length_append, List.length_append, g12, r2, hl8]
        · rw [every_append hf8 y2 y2', g13]
          rw [g12, every_length, g10]
          obtain ⟨c, hc⟩ := hx
          obtain ⟨e, he⟩ := hfd
          obtain ⟨q, hq⟩ := hdiv
          rw [hc]
          have : inc * c / 8 = inc / 8 * c := by
            rw [hq, Nat.mul_assoc, Nat.mul_div_cancel_left _ (by decide), Nat.mul_div_cancel_left _ (by decide)]
          rw [this, he, Nat.mul_assoc]
          exact dvd_mul_right _ _

/-! ## The buffer -/

/-- The state after `x` has been pushed in all, decimated to `out`, with `k` samples of it discarded by resets. -/
structure Inv (f inc : Nat) (s : Buf K) (x out : List K) (k : Nat) : Prop where
  stage : Stage f inc s x out
  le : k ≤ out.length
  fill : s.buffill = out.length - k
  room : s.buffill ≤ s.buffer.length
  size : s.buffer.length = 0 ∨ inc * 16 ≤ s.buffer.length
  content : s.buffer.take s.buffill = out.drop k

theorem Stage.of_eq {f inc : Nat} {s t : Buf K} {x out : List K} (h : Stage f inc s x out) (h1 : t.factor = s.factor)
    (h2 : t.increment = s.increment) (h3 : t.dec1 = s.dec1) (h4 : t.dec2 = s.dec2) (h5 : t.decbuf = s.decbuf) : Stage f inc t x out := by
  unfold Stage at h ⊢
  rw [h1, h2, h3, h4, h5]; exact h

theorem push_ok {f inc : Nat} (hd : Documented f inc) (junk : Nat → K) (s : Buf K) (x out audio : List K) (k : Nat)
    (h : Inv f inc s x out k) (ha : audio.length = inc) :
    ∃ s' o, pushAudioBlock junk s audio = some s' ∧ o.length = inc / f ∧ Inv f inc s' (x ++ audio) (out ++ o) k := by
  have hfpos : 0 < f := by have := hd.factor; omega
  have hf := h.stage.1
  have hi := h.stage.2.1
  have hdivle : inc / f ≤ inc := Nat.div_le_self _ _
  -- growing
  have hg : (grow junk s).buffill = s.buffill ∧ s.buffill + inc / f ≤ (grow junk s).buffer.length ∧ (inc * 16 ≤ (grow junk s).buffer.length ∨ (grow junk s).buffer.length = 0) ∧
      (grow junk s).buffer.take s.buffill = out.drop k ∧ Stage f inc (grow junk s) x out := by
    unfold grow
    rw [hf, hi]
    by_cases hc : s.buffill + inc / f > s.buffer.length
    · rw [if_pos hc]
      refine ⟨rfl, ?_, ?_, ?_, h.stage.of_eq hf.symm hi.symm rfl rfl rfl⟩
      · dsimp only
        rw [List.length_append, List.length_map, List.length_range]
        have := h.room
        rcases h.size with h0 | h0
        · rw [if_pos h0]; omega
        · by_cases h00 : s.buffer.length = 0
          · rw [if_pos h00]; omega
          · rw [if_neg h00]; omega
      · dsimp only
        rw [List.length_append, List.length_map, List.length_range]
        rcases h.size with h0 | h0
        · rw [if_pos h0]; omega
        · by_cases h00 : s.buffer.length = 0
          · rw [if_pos h00]; omega
          · rw [if_neg h00]; omega
      · dsimp only
        rw [List.take_append_of_le_length h.room]
        exact h.content
    · rw [if_neg hc]
      exact ⟨rfl, by omega, h.size.symm, h.content, h.stage⟩
  obtain ⟨g1, g2, g3, g4, g5⟩ := hg
  obtain ⟨s1, e1, e2, e3, e4, e5, e6⟩ := stage_step hd junk (grow junk s) x out audio g5 ha
  obtain ⟨s2, o, p1, p2, p3⟩ := e6 (s1.buffer.drop s1.buffill) (by rw [List.length_drop, e2, e3, g1]; omega)
  refine ⟨{ s2 with buffer := s1.buffer.take s1.buffill ++ (o ++ (s1.buffer.drop s1.buffill).drop (inc / f)), buffill := s1.buffill + inc / f },
    o, ?_, p2, ?_⟩
  · unfold pushAudioBlock
    rw [if_neg (by omega), bind_ok e1, bind_ok p1, e4, e5]
    rfl
  · have hb1 : s1.buffill = s.buffill := e3.trans g1
    have htk : (s1.buffer.take s1.buffill).length = s.buffill := by
      rw [List.length_take, hb1, e2]; omega
    have hlen : (s1.buffer.take s1.buffill ++ (o ++ (s1.buffer.drop s1.buffill).drop (inc / f))).length = s1.buffer.length := by
      rw [List.length_append, htk, List.length_append, p2, List.length_drop, List.length_drop, hb1, e2]; omega
    have hle := h.le
    have hfill := h.fill
    exact
      { stage := p3.of_eq rfl rfl rfl rfl rfl
        le := by rw [List.length_append]; omega
        fill := by
          show s1.buffill + inc / f = _
          rw [List.length_append, p2]; omega
        room := by
          show s1.buffill + inc / f ≤ _
          dsimp only
          rw [hlen, e2, hb1]; exact g2
        size := by
          dsimp only
          rw [hlen, e2]; exact g3.symm
        content := by
          show (s1.buffer.take s1.buffill ++ (o ++ (s1.buffer.drop s1.buffill).drop (inc / f))).take (s1.buffill + inc / f) = _
          rw [← List.append_assoc, List.take_append_of_le_length (by rw [List.length_append, htk, p2, hb1]), List.take_of_length_le (by rw [List.length_append, htk, p2, hb1])]
          rw [hb1, e2, g4, List.drop_append_of_le_length h.le] }

theorem reset_ok {f inc : Nat} {s : Buf K} {x out : List K} {k : Nat} (h : Inv f inc s x out k) :
    Inv f inc (resetAudioBuffer s) x out out.length :=
  { stage := h.stage.of_eq rfl rfl rfl rfl rfl
    le := le_refl _
    fill := by simp [resetAudioBuffer]
    room := by simp [resetAudioBuffer]
    size := Or.inl rfl
    content := by simp [resetAudioBuffer] }

theorem run_ok {f inc : Nat} (hd : Documented f inc) (junk : Nat → K) (ops : List (Op K)) (hops : ∀ b ∈ pushed ops, b.length = inc) :
    ∀ (s : Buf K) (x out : List K) (k c : Nat), Inv f inc s x out k → out.length = k + c * (inc / f) →
    ∃ s' out' k', run junk s ops = some s' ∧ Inv f inc s' (x ++ (pushed ops).flatten) out' k' ∧
      out'.length = out.length + (pushed ops).length * (inc / f) ∧
      out'.length = k' + (ops.foldl (fun k op => match op with
    | Op.push _ => k + 1
    | Op.reset => 0) c) * (inc / f) := by
  induction ops with
  | nil =>
    intro s x out k c h hc
    exact ⟨s, out, k, rfl, by simpa [pushed] using h, by simp [pushed], hc⟩
  | cons op ops ih =>
    intro s x out k c h hc
    cases op with
    | push a =>
      obtain ⟨s1, o, h1, h2, h3⟩ := push_ok hd junk s x out a k h (hops a (by simp [pushed]))
      obtain ⟨s2, out', k', e1, e2, e3, e4⟩ := ih (fun b hb => hops b (by simp [pushed, hb])) s1 _ _ k (c + 1) h3
        (by rw [List.length_append, h2, hc]; ring)
      refine ⟨s2, out', k', ?_, ?_, ?_, e4⟩
      · rw [run, bind_ok h1, e1]
      · simpa [pushed] using e2
      · rw [e3, List.length_append, h2]; simp only [pushed, List.length_cons]; ring
    | reset =>
      obtain ⟨s2, out', k', e1, e2, e3, e4⟩ := ih hops (resetAudioBuffer s) x out _ 0 (reset_ok h) (by simp)
      exact ⟨s2, out', k', e1, e2, e3, e4⟩

theorem new_inv (f inc : Nat) : Inv f inc (new f inc : Buf K) [] [] 0 :=
    { stage := by
        refine ⟨rfl, rfl, by simp, ?_⟩
        by_cases h1 : f = 1
        · rw [if_pos h1]; exact ⟨rfl, rfl, rfl⟩
        · rw [if_neg h1]
          by_cases h8 : f ≤ 8
          · rw [if_pos h8]; exact ⟨rfl, Or.inl ⟨rfl, rfl, rfl⟩⟩
          · rw [if_neg h8]; exact Or.inl ⟨rfl, rfl, rfl, rfl⟩
      le := le_refl _, fill := rfl, room := le_refl _, size := Or.inl rfl, content := rfl }

/-- C38: for the documented factors, any sequence of blocks and resets keeps inside the allocated memory. The whole of the audio pushed
so far, decimated as one stream, is `out`: as many samples as there were blocks, times the increment over the factor. The buffered audio
is the end of it, the blocks since the last reset. -/
theorem C38_buffer (f inc : Nat) (hd : Documented f inc) (junk : Nat → K) (ops : List (Op K)) (hops : ∀ b ∈ pushed ops, b.length = inc) :
    ∃ s out, run junk (new f inc) ops = some s ∧ Decimated f (pushed ops).flatten out ∧ out.length = (pushed ops).length * (inc / f) ∧
      (getBufferedAudio s).length = since ops * (inc / f) ∧ getBufferedAudio s = out.drop (out.length - since ops * (inc / f)) := by
  have h0 : Inv f inc (new f inc : Buf K) [] [] 0 := new_inv f inc
  obtain ⟨s, out, k, e1, e2, e3, e4⟩ := run_ok hd junk ops hops (new f inc) [] [] 0 0 h0 (by simp)
  have hk : k = out.length - since ops * (inc / f) := by unfold since; omega
  refine ⟨s, out, e1, by simpa using e2.stage.decimated hd, by simpa using e3, ?_, ?_⟩
  · unfold getBufferedAudio
    rw [e2.content, List.length_drop]
    unfold since; omega
  · unfold getBufferedAudio
    rw [e2.content, hk]

/-- C38: after a reset nothing is buffered. -/
theorem C38_reset (s : Buf K) : getBufferedAudio (resetAudioBuffer s) = [] := by simp [getBufferedAudio, resetAudioBuffer]

/-- C38, outside the documented factors: a factor of zero divides by zero. -/
theorem C38_zero_factor (inc : Nat) (junk : Nat → K) (audio : List K) : pushAudioBlock junk (new 0 inc) audio = none := rfl

/-- Two blocks of two, a reset, and a third; factor 1. -/
example : (run (fun _ => (0 : ℚ)) (new 1 2) [Op.push [1, 2], Op.push [3, 4], Op.reset, Op.push [5, 6]]).map getBufferedAudio = some [5, 6] := by
  decide +kernel

example : Documented 16 512 := ⟨by omega, by decide⟩

/-- C38, an undocumented factor: with factor 12 and blocks of 24 the second decimator, of factor 1, gives three values for every two
counted, and in the end writes past the buffer. -/
theorem C38_factor_twelve :
    (run (fun _ => (0 : ℚ)) (new 12 24) (List.replicate 192 (Op.push (List.replicate 24 0)))).isNone = true := by
  decide +kernel

end QM.DownBeat
