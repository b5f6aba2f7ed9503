import Verif.Nan.StreamLemmas
import Verif.Nan.KeyLemmas
import Verif.Nan.OkLemmas

/-!
# C98: one value that is not a number

A sample that is NaN, or a silent block given to the onset picker, must not spoil the results for later, correct input.
-/

namespace QM.Nan

open QM.Filter (State)

/-! ## Filters -/

/-- The histories of a `Filter`: the inputs and outputs since it was made or last reset. -/
inductive Since (b a : List ℝ) : State Num → List Num → List Num → Prop where
  | new {s} (h : newFilter b a = some s) : Since b a s [] []
  | reset {s xs ys} (h : Since b a s xs ys) : Since b a (resetFilter s) [] []
  | call {s xs ys blk s' out} (h : Since b a s xs ys) (e : filter s blk = some (s', out)) : Since b a s' (xs ++ blk) (ys ++ out)

theorem since_inv {b a : List ℝ} (hb : 1 ≤ b.length) (ha : a = [] ∨ (a.length = b.length ∧ 2 ≤ b.length)) {s : State Num} {xs ys : List Num}
    (h : Since b a s xs ys) : Inv b a s xs ys ∧ (a = [] → FirRel b.length xs ys) ∧ (a ≠ [] → IirRel xs ys) := by
  induction h with
  | new h =>
    obtain ⟨s', e, hi⟩ := newFilter_inv b a hb ha
    rw [h, Option.some.injEq] at e
    subst e
    exact ⟨hi, fun _ => ⟨rfl, by simp⟩, fun _ => ⟨rfl, by simp⟩⟩
  | reset _ ih => exact ⟨reset_inv b a _ _ _ ih.1, fun _ => ⟨rfl, by simp⟩, fun _ => ⟨rfl, by simp⟩⟩
  | @call s xs ys blk s' out _ e ih =>
    obtain ⟨s1, e1, e2⟩ := filter_spec b a blk s xs ys ih.1
    rw [e, Option.some.injEq, Prod.mk.injEq] at e1
    obtain ⟨rfl, rfl⟩ := e1
    refine ⟨e2, fun h => ?_, fun h => ?_⟩
    · subst h; exact firRel_outs b blk xs ys (ih.2.1 rfl)
    · have : 2 ≤ a.length := by
        rcases ha with ha | ha
        · exact absurd ha h
        · omega
      exact iirRel_outs b a this hb blk xs ys (ih.2.2 h)

/-- **C98** A filter without feedback forgets a NaN: an output is NaN exactly if one of the last inputs, as many as there are coefficients, is NaN. -/
theorem C98_fir {b : List ℝ} (hb : 1 ≤ b.length) {s : State Num} {xs ys : List Num} (h : Since b [] s xs ys) :
    ys.length = xs.length ∧ (∀ n, n < xs.length → (ys[n]? = some .nan ↔ ∃ m, m ≤ n ∧ n < m + b.length ∧ xs[m]? = some .nan)) ∧
      ∀ blk, ∃ r, filter s blk = some r := by
  obtain ⟨h1, h2, _⟩ := since_inv hb (Or.inl rfl) h
  obtain ⟨h3, h4⟩ := h2 rfl
  refine ⟨h3, h4, fun blk => ?_⟩
  obtain ⟨s', e, _⟩ := filter_spec b [] blk s xs ys h1
  exact ⟨_, e⟩

/-- **C98** A filter with feedback never forgets a NaN: every output from the first NaN input to the next reset is NaN, and no other. -/
theorem C98_iir {b a : List ℝ} (hab : a.length = b.length) (ha : 2 ≤ a.length) {s : State Num} {xs ys : List Num} (h : Since b a s xs ys) :
    ys.length = xs.length ∧ (∀ n, n < xs.length → (ys[n]? = some .nan ↔ ∃ m, m ≤ n ∧ xs[m]? = some .nan)) ∧
      ∀ blk, ∃ r, filter s blk = some r := by
  obtain ⟨h1, _, h2⟩ := since_inv (by omega) (Or.inr ⟨hab, by omega⟩) h
  obtain ⟨h3, h4⟩ := h2 (by rintro rfl; simp at ha)
  refine ⟨h3, h4, fun blk => ?_⟩
  obtain ⟨s', e, _⟩ := filter_spec b a blk s xs ys h1
  exact ⟨_, e⟩

/-- A recursive filter that was given a NaN: the histories of C98 exist for every sequence of blocks. -/
example : ∃ s ys, Since [1, 0] [1, -1 / 2] s [.val 1, .nan, .val 1, .val 2] ys ∧ ys[3]? = some .nan := by
  obtain ⟨s, h, hi⟩ := newFilter_inv [1, 0] [1, -1 / 2] (by simp) (Or.inr ⟨rfl, by simp⟩)
  obtain ⟨s1, e, _⟩ := filter_spec _ _ [.val 1, .nan, .val 1, .val 2] s _ _ hi
  have hS := (Since.new h).call e
  refine ⟨s1, _, hS, ?_⟩
  exact ((C98_iir (b := [1, 0]) (a := [1, -1 / 2]) rfl (by simp) hS).2.1 3 (by simp)).mpr ⟨1, by omega, rfl⟩

/-! ## Onsets -/

/-- The histories of a `PeakPicking` with a smoothing filter with coefficients `b`, `a`. -/
inductive Picks (b a : List ℝ) : Picker → Prop where
  | new {pre post alpha delta qa qc f} (h : newFilter b a = some f) : Picks b a ⟨pre, post, alpha, delta, qa, qc, f⟩
  | call {p p' src onsets work onsets'} (h : Picks b a p) (e : pick p src onsets = some (p', work, onsets')) : Picks b a p'

/-- Calls one after another on the same object, each with an empty vector of onsets: the blocks as they are overwritten and the onsets. -/
noncomputable def runPick (p : Picker) : List (List Num) → Option (List (List Num × List Nat))
  | [] => some []
  | src :: later => do
    let r ← pick p src []
    let rs ← runPick r.1 later
    pure ((r.2.1, r.2.2) :: rs)

theorem picks_inv {b a : List ℝ} (hb : 1 ≤ b.length) (ha : a = [] ∨ (a.length = b.length ∧ 2 ≤ b.length)) {p : Picker} (h : Picks b a p) :
    ∃ xs ys, Inv b a p.filter xs ys := by
  induction h with
  | new h =>
    obtain ⟨s', e, hi⟩ := newFilter_inv b a hb ha
    rw [h, Option.some.injEq] at e
    subst e
    exact ⟨_, _, hi⟩
  | @call p p' src onsets work onsets' _ e ih =>
    unfold pick at e
    split at e
    · rw [Option.some.injEq, Prod.mk.injEq] at e
      rw [← e.1]; exact ih
    · obtain ⟨⟨f, filtered⟩, e1, e2⟩ := Option.bind_eq_some_iff.mp e
      obtain ⟨w, _, e3⟩ := Option.bind_eq_some_iff.mp e2
      simp only [pure, Option.some.injEq, Prod.mk.injEq] at e3
      rw [← e3.1]
      exact filtfilt_inv ih e1

theorem removeDC_nan (alpha : Nat) {src : List Num} (h : .nan ∈ src) : .nan ∈ removeDCNormalize alpha src := by
  unfold removeDCNormalize
  exact List.mem_map.mpr ⟨.nan, h, by simp⟩

theorem removeDC_silent {alpha : Nat} (ha : alpha ≠ 0) (n : Nat) (hn : n ≠ 0) : .nan ∈ removeDCNormalize alpha (List.replicate n 0) := by
  have hnorm : alphaNorm (List.replicate n 0) alpha = .val 0 := by
    have hs : ∀ k, (List.replicate k (0 : Num)).foldl (fun (a x : Num) => a + x.map (fun x => |x| ^ (alpha : ℝ))) 0 = .val 0 := by
      intro k
      induction k with
      | zero => rfl
      | succ k ih =>
        rw [List.replicate_succ, List.foldl_cons]
        have : (0 : Num) + (0 : Num).map (fun x => |x| ^ (alpha : ℝ)) = 0 := by
          simp [Num.zero_eq, ha]
        rw [this, ih]
    unfold alphaNorm
    rw [hs, List.length_replicate]
    have h0 : (Num.val 0 / Num.val (n : ℝ)) = .val 0 := by
      show Num.div _ _ = _
      simp [Num.div, hn]
    rw [h0, Num.map_val]
    simp [ha]
  unfold removeDCNormalize
  rw [hnorm]
  exact List.mem_map.mpr ⟨0, List.mem_replicate.mpr ⟨hn, rfl⟩, by simp⟩

theorem median_nan (n : Nat) (hn : n ≠ 0) : median (List.replicate n .nan) = some .nan := by
  unfold median
  rw [dif_neg, if_pos (fun x hx => (List.mem_replicate.mp hx).2)]
  rintro ⟨r, hr⟩
  obtain ⟨k, rfl⟩ := Nat.exists_eq_succ_of_ne_zero hn
  cases r with
  | nil => simp at hr
  | cons x r => simp [List.replicate_succ] at hr

theorem medianFilter_nan (pre post : Nat) (delta : ℝ) (n : Nat) (hn : 2 ≤ n) :
    medianFilter pre post delta (List.replicate n .nan) = some (List.replicate n .nan) := by
  unfold medianFilter
  have key : ∀ l : List Nat, (∀ i ∈ l, i < n) → (l.mapM fun i => do
      let v ← (List.replicate n Num.nan)[i]?
      let w := window pre post (List.replicate n Num.nan).length i
      let m ← median (((List.replicate n Num.nan).drop w.1).take w.2)
      pure (v - m - .val delta)) = some (List.replicate l.length .nan) := by
    intro l
    induction l with
    | nil => intro _; rfl
    | cons i l ih =>
      intro hl
      have hi : i < n := hl i (by simp)
      have hw : ∃ k, k ≠ 0 ∧ ((List.replicate n Num.nan).drop (window pre post (List.replicate n Num.nan).length i).1).take
          (window pre post (List.replicate n Num.nan).length i).2 = List.replicate k .nan := by
        refine ⟨min (window pre post n i).2 (n - (window pre post n i).1), ?_, ?_⟩
        · unfold window
          split
          · dsimp only; omega
          · split
            · dsimp only; omega
            · dsimp only; omega
        · rw [List.length_replicate, List.drop_replicate, List.take_replicate]
      obtain ⟨k, hk, hw⟩ := hw
      rw [List.mapM_cons]
      dsimp only
      rw [hw, median_nan k hk, List.getElem?_replicate, if_pos hi]
      have := ih (fun j hj => hl j (by simp [hj]))
      dsimp only at this
      simp only [Option.bind_eq_bind, Option.bind_some, Option.pure_def]
      simp only [Option.bind_eq_bind, Option.pure_def] at this
      rw [this]
      simp [List.replicate_succ]
  have := key (List.range (List.replicate n Num.nan).length) (by simp)
  rw [List.length_range, List.length_replicate] at this
  rw [List.length_replicate]
  exact this

theorem candidates_nan (n : Nat) : candidates (List.replicate n .nan) = [] := by
  unfold candidates
  rw [List.filterMap_eq_nil_iff]
  intro t _
  have h : (List.replicate n Num.nan).getD (t + 2) .nan = .nan := by
    rw [List.getD_eq_getElem?_getD, List.getElem?_replicate]
    split <;> rfl
  rw [if_neg]
  dsimp only
  rw [h]
  simp

theorem pick_bad {b a : List ℝ} (ha : 2 ≤ a.length) {p : Picker} {src : List Num} (hs : 4 ≤ src.length)
    (h : Poisoned b a p.filter ∨ ((∃ xs ys, Inv b a p.filter xs ys) ∧ .nan ∈ removeDCNormalize p.alpha src)) (onsets : List Nat) :
    ∃ f, pick p src onsets = some ({ p with filter := f }, List.replicate src.length .nan, onsets) ∧ Poisoned b a f := by
  have hl : (removeDCNormalize p.alpha src).length = src.length := by simp [removeDCNormalize]
  obtain ⟨f, e, hp⟩ := filtfilt_bad ha (src := removeDCNormalize p.alpha src) (by omega) h
  refine ⟨f, ?_, hp⟩
  unfold pick
  rw [if_neg (by omega), bind_ok e]
  dsimp only
  rw [hl, bind_ok (medianFilter_nan _ _ _ _ (by omega)), candidates_nan]
  simp

/-- **C98** (violation) Onset picking never recovers. After any calls, a block that is silent or that contains a NaN gives no onsets and is overwritten by NaN, and so is every
later block, whatever it contains: the smoothing filter is not reset before a block. -/
theorem C98_onsets_violation {b a : List ℝ} (hab : a.length = b.length) (ha : 2 ≤ a.length) {p : Picker} (h : Picks b a p) (halpha : p.alpha ≠ 0) (len : Nat) (hlen : 4 ≤ len)
    (bad : List Num) (hbad : bad.length = len) (hb : bad = List.replicate len 0 ∨ .nan ∈ bad) (later : List (List Num)) (hl : ∀ blk ∈ later, blk.length = len) :
    runPick p (bad :: later) = some (List.replicate (later.length + 1) (List.replicate len .nan, [])) := by
  have hinv := picks_inv (by omega) (Or.inr ⟨hab, by omega⟩) h
  have hrun : ∀ (l : List (List Num)), (∀ blk ∈ l, blk.length = len) → ∀ p : Picker, Poisoned b a p.filter →
      runPick p l = some (List.replicate l.length (List.replicate len .nan, [])) := by
    intro l
    induction l with
    | nil => intro _ p _; rfl
    | cons blk l ih =>
      intro hl p hp
      obtain ⟨f, e1, e2⟩ := pick_bad ha (src := blk) (by rw [hl blk (by simp)]; exact hlen) (Or.inl hp) []
      unfold runPick
      rw [bind_ok e1, bind_ok (ih (fun x hx => hl x (by simp [hx])) _ e2), hl blk (by simp)]
      rfl
  have hn : .nan ∈ removeDCNormalize p.alpha bad := by
    rcases hb with rfl | hb
    · exact removeDC_silent halpha len (by omega)
    · exact removeDC_nan _ hb
  obtain ⟨f, e1, e2⟩ := pick_bad ha (src := bad) (by omega) (Or.inr ⟨hinv, hn⟩) []
  unfold runPick
  rw [bind_ok e1, bind_ok (hrun later hl _ e2), hbad]
  rfl

/-- A new onset picker with the default filter of order 2, a silent block and then a block with a clear peak. -/
example : ∃ p : Picker, runPick p [List.replicate 20 0, (List.range 20).map fun i => if i = 10 then .val 5 else .val 1] =
    some [(List.replicate 20 .nan, []), (List.replicate 20 .nan, [])] := by
  obtain ⟨f, e, _⟩ := newFilter_inv [0.1600, 0.3200, 0.1600] [1.0000, -0.5949, 0.2348] (by simp) (Or.inr ⟨rfl, by simp⟩)
  refine ⟨⟨8, 7, 9, 0, 0, 0, f⟩, ?_⟩
  exact C98_onsets_violation (b := [0.1600, 0.3200, 0.1600]) (a := [1.0000, -0.5949, 0.2348]) rfl (by simp) (.new e) (by simp) 20 (by omega) _ (by simp) (Or.inl rfl) _ (by simp)

/-- **C98** (partial) As long as no block contains a NaN or is silent, the onset picker overwrites the blocks with numbers: NaN comes only from the blocks of
C98_onsets_violation. -/
theorem C98_onsets_partial {b a : List ℝ} (hab : a.length = b.length) (ha : 2 ≤ a.length) (pre post alpha : Nat) (delta qa qc : ℝ) (blocks : List (List Num))
    (hn : ∀ blk ∈ blocks, .nan ∉ blk ∧ ∃ x ∈ blk, x ≠ 0) :
    ∃ f outs, newFilter b a = some f ∧ runPick ⟨pre, post, alpha, delta, qa, qc, f⟩ blocks = some outs ∧ outs.length = blocks.length ∧ ∀ o ∈ outs, .nan ∉ o.1 := by
  obtain ⟨f, e, hi⟩ := newFilter_inv b a (by omega) (Or.inr ⟨hab, by omega⟩)
  have key : ∀ (l : List (List Num)), (∀ blk ∈ l, .nan ∉ blk ∧ ∃ x ∈ blk, x ≠ 0) → ∀ p : Picker, OkF b a p.filter →
      ∃ outs, runPick p l = some outs ∧ outs.length = l.length ∧ ∀ o ∈ outs, .nan ∉ o.1 := by
    intro l
    induction l with
    | nil => intro _ p _; exact ⟨[], rfl, rfl, by simp⟩
    | cons blk l ih =>
      intro hl p hp
      obtain ⟨h1, h2⟩ := hl blk (by simp)
      obtain ⟨f, work, on, e1, _, e3, e4⟩ := pick_ok hp (fun x hx h => h1 (h ▸ hx)) h2 []
      obtain ⟨outs, r1, r2, r3⟩ := ih (fun x hx => hl x (by simp [hx])) { p with filter := f } e4
      refine ⟨(work, on) :: outs, ?_, by simp [r2], fun o ho => ?_⟩
      · unfold runPick
        rw [bind_ok e1]
        dsimp only
        rw [bind_ok r1]
        rfl
      · rcases List.mem_cons.mp ho with rfl | ho
        · exact fun h => e3 _ h rfl
        · exact r3 o ho
  obtain ⟨outs, h1, h2, h3⟩ := key blocks hn ⟨pre, post, alpha, delta, qa, qc, f⟩ ⟨[], [], hi, by simp [AllOk], by simp [AllOk]⟩
  exact ⟨f, outs, e, h1, h2, h3⟩

/-! ## Decimation -/

/-- The histories of a `Decimator`. -/
inductive Decs (inLength factor : Nat) : Decimator.State Num → Prop where
  | new {s} (h : newDecimator inLength factor = some s) : Decs inLength factor s
  | reset {s} (h : Decs inLength factor s) : Decs inLength factor (resetDecimator s)
  | call {s src dst s' out} (h : Decs inLength factor s) (e : decimate s src dst = some (s', out)) : Decs inLength factor s'

/-- Calls one after another on the same object, each with a destination of the output length. -/
noncomputable def runDec (s : Decimator.State Num) : List (List Num) → Option (List (List Num))
  | [] => some []
  | src :: later => do
    let r ← decimate s src (List.replicate s.outputLength 0)
    let rs ← runDec r.1 later
    pure (r.2 :: rs)

theorem decs_frame {inLength factor : Nat} {s : Decimator.State Num} (h : Decs inLength factor s) :
    0 < factor ∧ s.inputLength = inLength ∧ s.decFactor = factor ∧ s.outputLength = inLength / factor ∧
      s.b = (Decimator.coeffs factor).1.map (fun q : ℚ => .val (q : ℝ)) ∧ s.a = (Decimator.coeffs factor).2.map (fun q : ℚ => .val (q : ℝ)) := by
  induction h with
  | new h =>
    unfold newDecimator at h
    split at h
    · cases h
    · rw [Option.some.injEq] at h
      subst h
      exact ⟨by omega, rfl, rfl, rfl, rfl, rfl⟩
  | reset _ ih => exact ih
  | call _ e ih =>
    obtain ⟨h1, h2, h3, h4, h5⟩ := decimate_frame e
    rw [h1, h2, h3, h4, h5]
    exact ih

/-- **C98** (violation) A decimator never recovers by itself: with a factor other than 1, after a block with a NaN all samples of all later blocks are NaN. -/
theorem C98_decimator_violation {inLength factor : Nat} (hf : factor ≠ 1) {s : Decimator.State Num} (h : Decs inLength factor s) (bad : List Num) (hbad : bad.length = inLength)
    (hn : .nan ∈ bad) (later : List (List Num)) (hl : ∀ blk ∈ later, blk.length = inLength) :
    ∃ first, runDec s (bad :: later) = some (first :: List.replicate later.length (List.replicate (inLength / factor) .nan)) := by
  obtain ⟨h0, h1, h2, h3, _⟩ := decs_frame h
  obtain ⟨d, e1, _, _⟩ := decimate_some s bad (List.replicate s.outputLength 0) (by rw [h2]; exact hf) (by omega) (by rw [h1, h2, h3]) (by simp) (by omega)
  have hp : PoisonedD (doAntiAlias s (bad.take s.inputLength)).1 :=
    ⟨by rw [(doAlias_frame _ s).2.2.1, h2]; exact hf, doAlias_nan _ s (by rw [List.take_of_length_le (by omega)]; exact hn)⟩
  have hrun : ∀ (l : List (List Num)), (∀ blk ∈ l, blk.length = inLength) → ∀ s, Decs inLength factor s → PoisonedD s →
      runDec s l = some (List.replicate l.length (List.replicate (inLength / factor) .nan)) := by
    intro l
    induction l with
    | nil => intro _ s _ _; rfl
    | cons blk l ih =>
      intro hl s hs hp
      obtain ⟨_, g1, g2, g3, _⟩ := decs_frame hs
      obtain ⟨s', e1, e2⟩ := decimate_poisoned s blk (List.replicate s.outputLength 0) hp (by rw [g1, hl blk (by simp)]) (by rw [g1, g2, g3]) (by simp) (by omega)
      unfold runDec
      rw [bind_ok e1, bind_ok (ih (fun x hx => hl x (by simp [hx])) _ (hs.call e1) e2), g3]
      rfl
  refine ⟨d, ?_⟩
  unfold runDec
  rw [bind_ok e1, bind_ok (hrun later hl _ (h.call e1) hp)]
  rfl

/-- **C98** Resetting a decimator makes it a new one, whatever samples it was given. -/
theorem C98_decimator_reset {inLength factor : Nat} {s : Decimator.State Num} (h : Decs inLength factor s) : newDecimator inLength factor = some (resetDecimator s) := by
  obtain ⟨h0, h1, h2, h3, h4, h5⟩ := decs_frame h
  unfold newDecimator
  rw [if_neg (by omega)]
  simp only [resetDecimator, h1, h2, h3, h4, h5]

/-- **C98** After a reset a decimator that is given numbers gives numbers, whatever samples it was given before. -/
theorem C98_decimator_numbers {inLength factor : Nat} {s : Decimator.State Num} (h : Decs inLength factor s) (blocks outs : List (List Num)) (hn : ∀ blk ∈ blocks, .nan ∉ blk)
    (e : runDec (resetDecimator s) blocks = some outs) : ∀ o ∈ outs, .nan ∉ o := by
  have hval : ∀ l : List ℚ, AllOk (l.map (fun q : ℚ => .val (q : ℝ))) := by
    intro l x hx
    obtain ⟨q, _, rfl⟩ := List.mem_map.mp hx
    exact Num.val_ne_nan _
  obtain ⟨_, _, _, _, h4, h5⟩ := decs_frame h
  have h0 : OkD (resetDecimator s) := ⟨by show AllOk s.a; rw [h5]; exact hval _, by show AllOk s.b; rw [h4]; exact hval _, Num.val_ne_nan 0, Num.val_ne_nan 0, Num.val_ne_nan 0,
    Num.val_ne_nan 0, Num.val_ne_nan 0, Num.val_ne_nan 0, Num.val_ne_nan 0⟩
  have key : ∀ (l : List (List Num)), (∀ blk ∈ l, .nan ∉ blk) → ∀ (s : Decimator.State Num) (outs : List (List Num)), OkD s → runDec s l = some outs → ∀ o ∈ outs, .nan ∉ o := by
    intro l
    induction l with
    | nil =>
      intro _ s outs _ e
      have : outs = [] := by simpa [runDec] using e.symm
      rw [this]; simp
    | cons blk l ih =>
      intro hl s outs hs e
      unfold runDec at e
      obtain ⟨⟨s', out⟩, e1, e⟩ := Option.bind_eq_some_iff.mp e
      obtain ⟨rs, e2, e⟩ := Option.bind_eq_some_iff.mp e
      simp only [pure, Option.some.injEq] at e
      obtain ⟨g1, g2⟩ := decimate_ok hs (fun x hx h => hl blk (by simp) (h ▸ hx)) (by
        intro x hx
        rw [(List.mem_replicate.mp hx).2]; exact Num.val_ne_nan 0) e1
      rw [← e]
      intro o ho
      rcases List.mem_cons.mp ho with rfl | ho
      · exact fun h => g1 _ h rfl
      · exact ih (fun x hx => hl x (by simp [hx])) s' rs g2 e2 o ho
  exact key blocks hn _ _ h0 e

/-- A decimator by 2 that was given a NaN: the third block is still NaN. -/
example : ∃ s out, newDecimator 4 2 = some s ∧ runDec s [[.val 1, .nan, .val 1, .val 1], [0, 0, 0, 0], [.val 1, .val 2, .val 3, .val 4]] = some out ∧ out[2]? = some [.nan, .nan] := by
  obtain ⟨s, hs⟩ : ∃ s, newDecimator 4 2 = some s := ⟨_, rfl⟩
  obtain ⟨d, e⟩ := C98_decimator_violation (by omega) (.new hs) [.val 1, .nan, .val 1, .val 1] rfl (by simp) [[0, 0, 0, 0], [.val 1, .val 2, .val 3, .val 4]] (by simp)
  exact ⟨s, _, hs, e, rfl⟩

/-! ## Keys -/

/-- The profiles with their mean removed, dsp/keydetection/GetKeyMode.cpp:119-125. -/
noncomputable def centred (tab : List Int) : List Num := (KeyMode.profile tab).map fun v => .val (v - MathReal.mean (KeyMode.profile tab))

/-- The constructor, dsp/keydetection/GetKeyMode.cpp:104-141, for buffers of `cs` frames and `ms` keys; `u` is the content of uninitialised memory. -/
noncomputable def newKey (cs ms : Nat) (u : Num) : Key :=
  ⟨⟨cs, ms, 0, 0, 0, [], [], [], [], [], [], List.replicate ms 0, List.replicate ms 0, []⟩, List.replicate (36 * cs) 0, List.replicate 36 u, centred KeyMode.majTab,
    centred KeyMode.minTab, List.replicate 36 u, List.replicate 36 u⟩

/-- The histories of a `GetKeyMode` with frames of `n` decimated samples. -/
inductive Keys (chromagram : List Num → List Num) (cs ms n factor : Nat) : Decimator.State Num × List Num × Key → Prop where
  | new {d buf u} (h : newDecimator (n * factor) factor = some d) (hb : buf.length = n) : Keys chromagram cs ms n factor (d, buf, newKey cs ms u)
  | call {s pcm s' key} (h : Keys chromagram cs ms n factor s) (e : detect chromagram s pcm = some (s', key)) : Keys chromagram cs ms n factor s'

/-- Calls one after another on the same object: the keys. -/
noncomputable def runKey (chromagram : List Num → List Num) (s : Decimator.State Num × List Num × Key) : List (List Num) → Option (List Nat)
  | [] => some []
  | pcm :: later => do
    let r ← detect chromagram s pcm
    let rs ← runKey chromagram r.1 later
    pure (r.2 :: rs)

theorem keys_shape {chromagram : List Num → List Num} {cs ms n factor : Nat} (hcs : 0 < cs) {s : Decimator.State Num × List Num × Key} (h : Keys chromagram cs ms n factor s) :
    Decs (n * factor) factor s.1 ∧ s.2.1.length = n ∧ Shape cs ms s.2.2 := by
  induction h with
  | new h hb =>
    exact ⟨.new h, hb, ⟨rfl, rfl, hcs, by simp [newKey], Or.inr rfl, by simp [newKey], by simp [newKey], by simp [newKey, centred, KeyMode.profile, KeyMode.majTab],
      by simp [newKey, centred, KeyMode.profile, KeyMode.minTab], by simp [newKey], by simp [newKey], by simp [newKey], by simp [newKey], by simp [newKey]⟩⟩
  | @call s pcm s' key _ e ih =>
    obtain ⟨h1, h2, h3⟩ := ih
    unfold detect at e
    obtain ⟨⟨d, buf⟩, e1, e2⟩ := Option.bind_eq_some_iff.mp e
    obtain ⟨⟨k, key'⟩, e3, e4⟩ := Option.bind_eq_some_iff.mp e2
    simp only [pure, Option.some.injEq, Prod.mk.injEq] at e4
    rw [← e4.1]
    exact ⟨h1.call e1, by rw [decimate_length e1]; exact h2, process_shape h3 e3⟩

/-- **C98** (violation) Key detection never recovers: after any calls, once one sample is NaN, all keys from some call on are 13 (C minor), whatever is played. The decimation
factor is not 1 and the chromagram of a frame of NaN contains a NaN. -/
theorem C98_key_violation {chromagram : List Num → List Num} {cs ms n factor : Nat} (hcs : 0 < cs) (hms : 0 < ms) (hf : factor ≠ 1)
    (hc : ∀ d, (chromagram d).length = 36) (hcn : .nan ∈ chromagram (List.replicate n .nan)) {s s1 : Decimator.State Num × List Num × Key}
    (h : Keys chromagram cs ms n factor s) (bad : List Num) (hbad : bad.length = n * factor) (hn : .nan ∈ bad) {key : Nat} (e : detect chromagram s bad = some (s1, key))
    (later : List (List Num)) (hl : ∀ pcm ∈ later, pcm.length = n * factor) :
    ∃ keys, runKey chromagram s1 later = some keys ∧ keys.length = later.length ∧ ∀ i, ms ≤ i + 1 → i < keys.length → keys[i]? = some 13 := by
  have hk := h.call e
  obtain ⟨g1, g2, g3⟩ := keys_shape hcs h
  obtain ⟨f0, f1, f2, f3, _⟩ := decs_frame g1
  have hp : PoisonedD s1.1 := by
    obtain ⟨d, e1, _, _⟩ := decimate_some s.1 bad s.2.1 (by rw [f2]; exact hf) (by omega) (by rw [f1, f2, f3]) (by rw [f3, g2, Nat.mul_div_cancel _ f0]) (by omega)
    unfold detect at e
    rw [bind_ok e1] at e
    obtain ⟨⟨k, key'⟩, _, e4⟩ := Option.bind_eq_some_iff.mp e
    simp only [pure, Option.some.injEq, Prod.mk.injEq] at e4
    rw [← e4.1]
    exact ⟨by rw [(doAlias_frame _ s.1).2.2.1, f2]; exact hf, doAlias_nan _ s.1 (by rw [List.take_of_length_le (by omega)]; exact hn)⟩
  have hrun : ∀ (l : List (List Num)), (∀ pcm ∈ l, pcm.length = n * factor) → ∀ j s, Keys chromagram cs ms n factor s → PoisonedD s.1 → Tail13 j s.2.2 →
      ∃ keys, runKey chromagram s l = some keys ∧ keys.length = l.length ∧ ∀ i, ms ≤ j + i + 1 → i < keys.length → keys[i]? = some 13 := by
    intro l
    induction l with
    | nil => intro _ j s _ _ _; exact ⟨[], rfl, rfl, by simp⟩
    | cons pcm l ih =>
      intro hl j s hs hp ht
      obtain ⟨g1, g2, g3⟩ := keys_shape hcs hs
      obtain ⟨f0, f1, f2, f3, _⟩ := decs_frame g1
      rw [Nat.mul_div_cancel _ f0] at f3
      obtain ⟨d', e1, e2⟩ := decimate_poisoned s.1 pcm s.2.1 hp (by rw [f1, hl pcm (by simp)]) (by rw [f1, f2, f3, Nat.mul_div_cancel _ f0]) (by rw [f3, g2]) (by omega)
      rw [f3] at e1
      obtain ⟨k', key, e3, e4, e5, e6⟩ := process_nan hms g3 (chromagram (List.replicate n .nan)) (hc _) hcn j ht
      have hd : detect chromagram s pcm = some ((d', List.replicate n .nan, k'), key) := by
        unfold detect
        rw [bind_ok e1]
        dsimp only
        rw [bind_ok e3]
        rfl
      obtain ⟨keys, r1, r2, r3⟩ := ih (fun x hx => hl x (by simp [hx])) (j + 1) _ (hs.call hd) e2 e5
      refine ⟨key :: keys, ?_, by simp [r2], fun i hi hil => ?_⟩
      · unfold runKey
        rw [bind_ok hd]
        dsimp only
        rw [bind_ok r1]
        rfl
      · cases i with
        | zero => rw [List.getElem?_cons_zero, e6 (by omega)]
        | succ i => rw [List.getElem?_cons_succ]; exact r3 i (by omega) (by simpa using hil)
  obtain ⟨keys, r1, r2, r3⟩ := hrun later hl 0 s1 hk hp (by intro t ht; omega)
  exact ⟨keys, r1, r2, fun i hi hil => r3 i (by omega) hil⟩

/-- A new key detector with decimation by 2 and a chromagram that is NaN for blocks with a NaN: the first sample is NaN. -/
example : ∃ (chromagram : List Num → List Num) (s s1 : Decimator.State Num × List Num × Key) (key : Nat), Keys chromagram 3 2 4 2 s ∧
    (∀ d, (chromagram d).length = 36) ∧ .nan ∈ chromagram (List.replicate 4 .nan) ∧ detect chromagram s (.nan :: List.replicate 7 (.val 1)) = some (s1, key) := by
  classical
  obtain ⟨d, hd⟩ : ∃ d, newDecimator (4 * 2) 2 = some d := ⟨_, rfl⟩
  obtain ⟨f0, f1, f2, f3, _⟩ := decs_frame (.new hd)
  obtain ⟨chromagram, hch⟩ : ∃ c : List Num → List Num, c = fun l => if .nan ∈ l then List.replicate 36 .nan else List.replicate 36 (.val 1) := ⟨_, rfl⟩
  have hk : Keys chromagram 3 2 4 2 (d, List.replicate 4 0, newKey 3 2 0) := .new hd (by simp)
  have hp := (keys_shape (by omega) hk).2.2
  obtain ⟨out, e1, e2, e3⟩ := decimate_some d (.nan :: List.replicate 7 (.val 1)) (List.replicate 4 0) (by omega) (by rw [f1]; simp) (by rw [f1, f2, f3]) (by rw [f3]; simp) (by omega)
  have hout : .nan ∈ out := by
    have h0 := e3 0 (by rw [f3]; decide)
    rw [f1, Nat.mul_zero, List.take_of_length_le (by simp)] at h0
    have : (doAntiAlias d (.nan :: List.replicate 7 (.val 1))).2[0]? = some (antiAliasStep d .nan).2 := rfl
    rw [this, (alias_poisoned d .nan (Or.inr rfl)).1] at h0
    exact List.mem_of_getElem? h0
  obtain ⟨k', key, e4, _⟩ := process_nan (by omega) hp (chromagram out) (by rw [hch]; dsimp only; split <;> simp) (by rw [hch]; dsimp only; rw [if_pos hout]; simp) 0 (by intro t ht; omega)
  refine ⟨chromagram, _, ((doAntiAlias d ((.nan :: List.replicate 7 (.val 1)).take d.inputLength)).1, out, k'), key, hk, fun d => by rw [hch]; dsimp only; split <;> simp, by rw [hch]; simp, ?_⟩
  unfold detect
  rw [bind_ok e1]
  dsimp only
  rw [bind_ok e4]
  rfl

end QM.Nan
