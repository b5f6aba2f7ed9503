import Verif.Segment.Extract
import Verif.Segment.ExtractSpec
import Verif.Segment.PipelineProps
import Verif.ConstantQ.KernelProps
import Verif.Mfcc.Props
import Verif.Decimator.Props

/-! # Lemmas for the extraction of features -/

namespace QM.Segment

open Finset QM.DFT QM.Decimator

/-! ## Frames -/

theorem lt_frameCount {n p : Nat} (hn : 2 ≤ n) (k : Nat) : k < frameCount n p ↔ k = 0 ∨ k * (n / 2) + n < p := by
  unfold frameCount
  have hh : 0 < n / 2 := by omega
  rcases Nat.eq_zero_or_pos k with rfl | hk
  · simp
  · rw [show k < 1 + (p - n - 1) / (n / 2) ↔ k ≤ (p - n - 1) / (n / 2) by omega, Nat.le_div_iff_mul_le hh]
    have : 0 < k * (n / 2) := Nat.mul_pos hk hh
    omega

theorem frameCount_pos (n p : Nat) : 0 < frameCount n p := Nat.add_pos_left one_pos _

theorem frameCount_le {n p : Nat} : frameCount n p ≤ p + 1 := by
  unfold frameCount
  have := Nat.div_le_self (p - n - 1) (n / 2)
  omega

theorem frames_ok {σ : Type} {n p : Nat} (hn : 2 ≤ n) (step : Nat → Nat → σ → Option σ) (P : Nat → σ → Prop)
    (hstep : ∀ k s, k < frameCount n p → P k s → ∃ s', step k (k * (n / 2)) s = some s' ∧ P (k + 1) s') :
    ∀ (m fuel k : Nat) (s : σ), k + m = frameCount n p → m < fuel → P k s →
      ∃ s', frames n p step fuel (k * (n / 2)) k s = some (s', frameCount n p) ∧ P (frameCount n p) s'
  | 0, 0, _, _, _, h, _ => absurd h (by omega)
  | 0, fuel + 1, k, s, hk, _, hP => by
    have hk' : k = frameCount n p := by omega
    have h0 : ¬ k < frameCount n p := by omega
    rw [lt_frameCount hn] at h0
    refine ⟨s, ?_, by rw [← hk']; exact hP⟩
    have hpos : 0 < k * (n / 2) := Nat.mul_pos (by omega) (by omega)
    rw [frames, ← hk']
    split_ifs with h1 h2
    · rfl
    · rfl
    · omega
  | m + 1, 0, _, _, _, h, _ => absurd h (by omega)
  | m + 1, fuel + 1, k, s, hk, hf, hP => by
    have hlt : k < frameCount n p := by omega
    obtain ⟨s1, e1, hP1⟩ := hstep k s hlt hP
    obtain ⟨s2, e2, hP2⟩ := frames_ok hn step P hstep m fuel (k + 1) s1 (by omega) (by omega) hP1
    refine ⟨s2, ?_, hP2⟩
    rw [lt_frameCount hn] at hlt
    have hpos : k ≠ 0 → 0 < k * (n / 2) := fun h => Nat.mul_pos (by omega) (by omega)
    have hz : k = 0 → k * (n / 2) = 0 := fun h => by rw [h, Nat.zero_mul]
    rw [frames, if_neg (by omega), if_neg (by omega), bind_ok e1, show k * (n / 2) + n / 2 = (k + 1) * (n / 2) by rw [Nat.succ_mul]]
    exact e2

/-- A frame that fails makes the whole fail. -/
theorem frames_none {σ : Type} {n p : Nat} (hn : 2 ≤ n) (step : Nat → Nat → σ → Option σ) (P : σ → Prop) (hP : ∀ k o s s', P s → step k o s = some s' → P s')
    (b : Nat) (hb : b < frameCount n p) (hbad : ∀ s, P s → step b (b * (n / 2)) s = none) :
    ∀ (m fuel k : Nat) (s : σ), k + m = b → P s → frames n p step fuel (k * (n / 2)) k s = none
  | _, 0, _, _, _, _ => rfl
  | m, fuel + 1, k, s, hk, hs => by
    have hlt : k < frameCount n p := by omega
    rw [lt_frameCount hn] at hlt
    have hpos : k ≠ 0 → 0 < k * (n / 2) := fun h => Nat.mul_pos (by omega) (by omega)
    have hz : k = 0 → k * (n / 2) = 0 := fun h => by rw [h, Nat.zero_mul]
    rw [frames, if_neg (by omega), if_neg (by omega)]
    cases m with
    | zero =>
      obtain rfl : k = b := by omega
      rw [hbad s hs]; rfl
    | succ m =>
      cases e : step k (k * (n / 2)) s with
      | none => rfl
      | some s1 =>
        rw [Option.bind_eq_bind, Option.bind_some, show k * (n / 2) + n / 2 = (k + 1) * (n / 2) by rw [Nat.succ_mul]]
        exact frames_none hn step P hP b hb hbad m fuel (k + 1) s1 (by omega) (hP _ _ _ _ hs e)

theorem fillFrame_ok {n p : Nat} {src : List (Option ℝ)} {x : Nat → ℝ} {k : Nat}
    (hsrc : ∀ i, i < reach n p → src[i]? = some (some (x i))) (hk : k < frameCount n p) {frame : List ℝ} (hf : frame.length = n) :
    ∃ f, fillFrame n (k * (n / 2)) p src frame = some f ∧ Holds n (frameAt n p x k) f := by
  refine fill_part (new := frameAt n p x k) (f := fun i (frame : List ℝ) =>
    if k * (n / 2) + i < p then do
      let v ← src[k * (n / 2) + i]?
      let v ← v
      wr frame i v
    else wr frame i 0) (holds_of_length hf 0) (fun i ys hi hp => ?_)
  unfold frameAt
  by_cases h : k * (n / 2) + i < p
  · have hr : k * (n / 2) + i < reach n p := by
      unfold reach
      have := Nat.mul_le_mul_right (n / 2) (show k ≤ frameCount n p - 1 by omega)
      omega
    rw [if_pos h, if_pos h, bind_ok (hsrc _ hr)]
    rfl
  · rw [if_neg h, if_neg h]

theorem fillFrame_none {n p o i : Nat} {src : List (Option ℝ)} (hi : i < n) (h : o + i < p) (hs : src[o + i]? = some none) (frame : List ℝ) :
    fillFrame n o p src frame = none := by
  refine PolyFit.loop_none_at n i _ _ hi (fun ys => ?_)
  rw [if_pos h, bind_ok hs]
  rfl

/-- The last frame of a signal that is not written as far as the frames reach. -/
theorem fillFrame_unwritten {n p a : Nat} (hn : 2 ≤ n) {src : List (Option ℝ)} (hs : ∀ i, a ≤ i → i < p → src[i]? = some none) (hr : a < reach n p) (frame : List ℝ) :
    fillFrame n ((frameCount n p - 1) * (n / 2)) p src frame = none := by
  have hc := frameCount_pos n p
  have hl : frameCount n p - 1 = 0 ∨ (frameCount n p - 1) * (n / 2) + n < p := (lt_frameCount hn _).mp (by omega)
  unfold reach at hr
  set o := (frameCount n p - 1) * (n / 2) with ho
  have hz : frameCount n p - 1 = 0 → o = 0 := fun h => by rw [ho, h, Nat.zero_mul]
  have hle : o ≤ min p (o + n) - 1 := by omega
  refine fillFrame_none (i := min p (o + n) - 1 - o) (by omega) (by omega) ?_ frame
  rw [Nat.add_sub_cancel' hle]
  exact hs _ (by omega) (by omega)

theorem divideBy_ok {m count : Nat} (hc : count ≠ 0) {g : Nat → ℝ} {v : List ℝ} (h : Holds m g v) :
    ∃ v', divideBy m count v = some v' ∧ Holds m (fun j => g j / count) v' := by
  unfold divideBy
  rw [if_neg hc]
  refine fill_part (new := fun j => g j / (count : ℝ)) (f := fun i (v : List ℝ) => do
    let x ← v[i]?
    wr v i (x / (count : ℝ))) h (fun i ys hi hp => ?_)
  rw [bind_ok (hp.get hi)]

/-! ## The signal -/

/-- The decimator for factor `f` and blocks of `L` samples after the stream `xs`, of which `ys` is the filtered version; for factor 1 there is none. -/
def DecOk (L f : Nat) (dec : Option (Decimator.State ℝ)) (xs ys : List ℝ) : Prop :=
  (f = 1 ∧ dec = none ∧ ys = xs) ∨ (f ≠ 1 ∧ ∃ d, dec = some d ∧ Running L f d xs ys)

/-- The samples that the decimator takes notice of. -/
def heard (L f : Nat) (blk : List ℝ) : List ℝ := if f = 1 then blk else blk.take L

/-- The number of values in the decimated signal. -/
def written (L f n : Nat) : Nat := if f = 1 then n else L / f

theorem source_ok {L f : Nat} (hf : 0 < f) {dec : Option (Decimator.State ℝ)} {xs ys : List ℝ} (h : DecOk L f dec xs ys) (blk : List ℝ) (hb : L ≤ blk.length) :
    ∃ dec' src y, source dec blk = some (dec', blk.length / f, src) ∧ y.length = (heard L f blk).length ∧ DecOk L f dec' (xs ++ heard L f blk) (ys ++ y) ∧
      (∀ i, i < written L f blk.length → src[i]? = some (some (y.getD (f * i) 0))) ∧
      (∀ i, written L f blk.length ≤ i → i < blk.length / f → src[i]? = some none) := by
  rcases h with ⟨h1, rfl, rfl⟩ | ⟨h1, d, rfl, hr⟩
  · subst h1
    refine ⟨none, blk.map some, blk, ?_, by rw [heard, if_pos rfl], Or.inl ⟨rfl, rfl, by rw [heard, if_pos rfl]⟩, ?_, ?_⟩
    · unfold source
      rw [Nat.div_one]
    · intro i hi
      rw [written, if_pos rfl] at hi
      rw [Nat.one_mul, List.getElem?_map, get_getD blk i 0 hi]
      rfl
    · intro i hi hi'
      rw [written, if_pos rfl] at hi
      rw [Nat.div_one] at hi'
      omega
  · have hdiv : L / f ≤ blk.length / f := Nat.div_le_div_right hb
    obtain ⟨d', out, y, e1, e2, e3, e4, e5⟩ := process_spec L f hf d xs ys hr (blk.take L) (List.replicate d.outputLength 0)
      (by rw [List.length_take]; omega) (by rw [List.length_replicate, hr.hO])
    have e1' : process d blk (List.replicate d.outputLength 0) = some (d', out) := by
      rw [← e1]
      unfold process
      have hd : ¬ d.decFactor = 1 := by rw [hr.hf]; exact h1
      have hl : ¬ blk.length < d.inputLength := by rw [hr.hL]; omega
      have hl' : ¬ (blk.take L).length < d.inputLength := by rw [hr.hL, List.length_take]; omega
      rw [if_neg hd, if_neg hd, if_neg hl, if_neg hl', hr.hL, List.take_take, min_self]
    refine ⟨some d', out.map some ++ List.replicate (blk.length / f - L / f) none, y, ?_, ?_, Or.inr ⟨h1, d', rfl, ?_⟩, ?_, ?_⟩
    · unfold source
      dsimp only
      rw [hr.hf, hr.hO, if_neg (by omega), ← hr.hO, bind_ok e1']
      rfl
    · rw [e3, heard, if_neg h1, List.length_take]; omega
    · rw [heard, if_neg h1]; exact e4
    · intro i hi
      rw [written, if_neg h1] at hi
      rw [List.getElem?_append_left (by rw [List.length_map]; omega), List.getElem?_map, e5 i hi]
      have : f * i < y.length := by
        rw [e3]
        calc f * i < f * (L / f) := Nat.mul_lt_mul_of_pos_left hi hf
          _ ≤ L := Nat.mul_div_le L f
      rw [get_getD y (f * i) 0 this]
      rfl
    · intro i hi hi'
      rw [written, if_neg h1] at hi
      rw [List.getElem?_append_right (by rw [List.length_map]; omega), List.length_map, List.getElem?_replicate, if_pos (by omega)]

end QM.Segment
