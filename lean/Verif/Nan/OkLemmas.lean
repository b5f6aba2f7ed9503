import Verif.Nan.StreamLemmas
import Verif.Nan.KeyLemmas
import Verif.MathReal.Props

/-! Numbers in, numbers out. -/

namespace QM.Nan

open QM.Filter (State)

/-- No element is NaN. -/
def AllOk (l : List Num) : Prop := ∀ x ∈ l, x ≠ .nan

theorem loop_pred {S : Type} (P : S → Prop) {f : Nat → S → Option S} (hf : ∀ i a b, P a → f i a = some b → P b) :
    ∀ (n : Nat) (s t : S), P s → loop n f s = some t → P t := by
  intro n
  induction n with
  | zero =>
    intro s t hp h
    have : s = t := by simpa [loop] using h
    rw [← this]; exact hp
  | succ n ih =>
    intro s t hp h
    obtain ⟨u, h1, h2⟩ := Option.bind_eq_some_iff.mp h
    exact hf n u t (ih s u hp h1) h2

theorem wr_ok {l l' : List Num} {i : Nat} {v : Num} (hl : AllOk l) (hv : v ≠ .nan) (h : wr l i v = some l') : AllOk l' := by
  by_cases hi : i < l.length
  · rw [wr_some _ hi, Option.some.injEq] at h
    subst h
    intro x hx
    rcases List.mem_or_eq_of_mem_set hx with h | h
    · exact hl x h
    · rw [h]; exact hv
  · rw [wr_none _ (by omega)] at h; cases h

theorem sub_ok {x y : Num} (hx : x ≠ .nan) (hy : y ≠ .nan) : x - y ≠ .nan := by
  cases x <;> cases y <;> simp_all

theorem add_ok {x y : Num} (hx : x ≠ .nan) (hy : y ≠ .nan) : x + y ≠ .nan := by
  cases x <;> cases y <;> simp_all

theorem mul_ok {x y : Num} (hx : x ≠ .nan) (hy : y ≠ .nan) : x * y ≠ .nan := by
  cases x <;> cases y <;> simp_all

theorem get_ok {l : List Num} (hl : AllOk l) {i : Nat} {v : Num} (h : l[i]? = some v) : v ≠ .nan := hl v (List.mem_of_getElem? h)

theorem extend_ok {nFact : Nat} {src ext : List Num} (h : AllOk src) (e : extend nFact src = some ext) : AllOk ext := by
  unfold extend at e
  dsimp only at e
  obtain ⟨s0, e0, e⟩ := Option.bind_eq_some_iff.mp e
  obtain ⟨sN, eN, e⟩ := Option.bind_eq_some_iff.mp e
  obtain ⟨c1, e1, e⟩ := Option.bind_eq_some_iff.mp e
  obtain ⟨c2, e2, e⟩ := Option.bind_eq_some_iff.mp e
  have h0 := mul_ok (Num.val_ne_nan 2) (get_ok h e0)
  have hN := mul_ok (Num.val_ne_nan 2) (get_ok h eN)
  refine loop_pred AllOk (fun i a b ha hb => ?_) _ _ _ (loop_pred AllOk (fun i a b ha hb => ?_) _ _ _ (loop_pred AllOk (fun i a b ha hb => ?_) _ _ _ ?_ e1) e2) e
  · obtain ⟨v, hv, hb⟩ := Option.bind_eq_some_iff.mp hb
    exact wr_ok ha (get_ok h hv) hb
  · split at hb
    · obtain ⟨v, hv, hb⟩ := Option.bind_eq_some_iff.mp hb
      exact wr_ok ha (sub_ok hN (get_ok h hv)) hb
    · rw [Option.some.injEq] at hb; rw [← hb]; exact ha
  · split at hb
    · obtain ⟨v, hv, hb⟩ := Option.bind_eq_some_iff.mp hb
      exact wr_ok ha (sub_ok h0 (get_ok h hv)) hb
    · rw [Option.some.injEq] at hb; rw [← hb]; exact ha
  · intro x hx
    rw [(List.mem_replicate.mp hx).2]; exact Num.val_ne_nan 0

/-- A filter whose memory holds numbers. -/
def OkF (b a : List ℝ) (s : State Num) : Prop := ∃ xs ys, Inv b a s xs ys ∧ AllOk xs ∧ AllOk ys

theorem outs_ok (b a : List ℝ) (blk xs ys : List Num) (hb : AllOk blk) (hx : AllOk xs) (hy : AllOk ys) : AllOk (outs b a xs ys blk) := by
  induction blk generalizing xs ys with
  | nil => intro x hx; simp [outs] at hx
  | cons x blk ih =>
    have hn := next_ok b a xs ys x (hb x (by simp)) hx hy
    have app : ∀ {l : List Num} {v : Num}, AllOk l → v ≠ .nan → AllOk (l ++ [v]) := by
      intro l v hl hv w hw
      rcases List.mem_append.mp hw with h | h
      · exact hl w h
      · rw [List.mem_singleton.mp h]; exact hv
    intro v hv
    rw [outs, List.mem_cons] at hv
    rcases hv with rfl | hv
    · exact hn
    · exact ih _ _ (fun w hw => hb w (by simp [hw])) (app hx (hb x (by simp))) (app hy hn) v hv

theorem filter_ok {b a : List ℝ} {s : State Num} {blk : List Num} (h : OkF b a s) (hb : AllOk blk) :
    ∃ s' out, filter s blk = some (s', out) ∧ out.length = blk.length ∧ AllOk out ∧ OkF b a s' := by
  obtain ⟨xs, ys, hi, hx, hy⟩ := h
  obtain ⟨s1, e1, e2⟩ := filter_spec b a blk s xs ys hi
  have ho := outs_ok b a blk xs ys hb hx hy
  refine ⟨s1, _, e1, outs_length _ _ _ _ _, ho, _, _, e2, fun w hw => ?_, fun w hw => ?_⟩
  · rcases List.mem_append.mp hw with h | h
    · exact hx w h
    · exact hb w h
  · rcases List.mem_append.mp hw with h | h
    · exact hy w h
    · exact ho w h

theorem reset_ok {b a : List ℝ} {s : State Num} (h : OkF b a s) : OkF b a (resetFilter s) := by
  obtain ⟨xs, ys, hi, _⟩ := h
  exact ⟨[], [], reset_inv b a s xs ys hi, by simp [AllOk], by simp [AllOk]⟩

theorem filtfilt_ok {b a : List ℝ} {s : State Num} {src : List Num} (h : OkF b a s) (hs : AllOk src) :
    ∃ s' out, filtfilt s src = some (s', out) ∧ out.length = src.length ∧ AllOk out ∧ OkF b a s' := by
  unfold filtfilt
  by_cases h0 : src.length = 0
  · rw [if_pos h0]
    exact ⟨s, [], rfl, by simp [h0], by simp [AllOk], h⟩
  · rw [if_neg h0]
    obtain ⟨ext, e1, e2, _⟩ := extend_spec (3 * (s.sz - 1)) src (by omega)
    have he := extend_ok hs e1
    obtain ⟨s1, o1, f1, f2, f3, f4⟩ := filter_ok h he
    have hr : AllOk o1.reverse := fun x hx => f3 x (List.mem_reverse.mp hx)
    obtain ⟨s2, o2, g1, g2, g3, g4⟩ := filter_ok (reset_ok f4) hr
    refine ⟨s2, (o2.reverse.drop (3 * (s.sz - 1))).take src.length, ?_, ?_, fun x hx => ?_, g4⟩
    · dsimp only
      rw [bind_ok e1, bind_ok f1]
      dsimp only
      rw [bind_ok g1]
    · rw [List.length_take, List.length_drop, List.length_reverse, g2, List.length_reverse, f2, e2]; omega
    · exact g3 x (List.mem_reverse.mp (List.mem_of_mem_drop (List.mem_of_mem_take hx)))

theorem ok_map {l : List Num} (h : AllOk l) : ∃ r : List ℝ, l = r.map .val := by
  induction l with
  | nil => exact ⟨[], rfl⟩
  | cons x l ih =>
    obtain ⟨r, rfl⟩ := ih fun y hy => h y (by simp [hy])
    cases x with
    | nan => exact absurd rfl (h _ (by simp))
    | val x => exact ⟨x :: r, rfl⟩

theorem frameMin_ok {l : List Num} (h : AllOk l) : frameMin l ≠ .nan := by
  have key : ∀ (l : List Num) (m : Num), AllOk l → m ≠ .nan → l.foldl (fun m temp => if temp.lt m then temp else m) m ≠ .nan := by
    intro l
    induction l with
    | nil => intro m _ hm; exact hm
    | cons x l ih =>
      intro m hl hm
      rw [List.foldl_cons]
      refine ih _ (fun y hy => hl y (by simp [hy])) ?_
      split
      · exact hl x (by simp)
      · exact hm
  cases l with
  | nil => exact Num.val_ne_nan 0
  | cons x l => exact key _ _ h (h x (by simp))

theorem norm_ok (alpha : Nat) {r : List ℝ} (hr : ∃ x ∈ r, x ≠ 0) : ∃ v : ℝ, v ≠ 0 ∧ alphaNorm (r.map .val) alpha = .val v := by
  have hs : ∀ (r : List ℝ) (c : ℝ), (r.map Num.val).foldl (fun (a x : Num) => a + x.map (fun x => |x| ^ (alpha : ℝ))) (.val c) =
      .val (c + (r.map fun x => |x| ^ (alpha : ℝ)).sum) := by
    intro r
    induction r with
    | nil => intro c; simp
    | cons x r ih =>
      intro c
      rw [List.map_cons, List.foldl_cons, Num.map_val, Num.val_add, ih, List.map_cons, List.sum_cons, add_assoc]
  have hpos : ∀ r : List ℝ, (∃ x ∈ r, x ≠ 0) → 0 < (r.map fun x => |x| ^ (alpha : ℝ)).sum := by
    have hnn : ∀ r : List ℝ, 0 ≤ (r.map fun x => |x| ^ (alpha : ℝ)).sum := by
      intro r
      apply List.sum_nonneg
      intro x hx
      obtain ⟨y, _, rfl⟩ := List.mem_map.mp hx
      exact Real.rpow_nonneg (abs_nonneg y) _
    intro r
    induction r with
    | nil => rintro ⟨x, hx, _⟩; simp at hx
    | cons y r ih =>
      rintro ⟨x, hx, hx0⟩
      rw [List.map_cons, List.sum_cons]
      rcases List.mem_cons.mp hx with rfl | hx
      · have := Real.rpow_pos_of_pos (abs_pos.mpr hx0) (alpha : ℝ)
        have := hnn r
        linarith
      · have := ih ⟨x, hx, hx0⟩
        have := Real.rpow_nonneg (abs_nonneg y) (alpha : ℝ)
        linarith
  have hlen : (r.length : ℝ) ≠ 0 := by
    obtain ⟨x, hx, _⟩ := hr
    have := List.length_pos_of_mem hx
    positivity
  have hlen' : (0 : ℝ) < r.length := lt_of_le_of_ne (Nat.cast_nonneg _) (Ne.symm hlen)
  refine ⟨((r.map fun x => |x| ^ (alpha : ℝ)).sum / r.length) ^ ((1 : ℝ) / alpha), (Real.rpow_pos_of_pos (div_pos (hpos r hr) hlen') _).ne', ?_⟩
  unfold alphaNorm
  rw [Num.zero_eq, hs, zero_add, List.length_map]
  have : Num.val ((r.map fun x => |x| ^ (alpha : ℝ)).sum) / Num.val (r.length : ℝ) = .val ((r.map fun x => |x| ^ (alpha : ℝ)).sum / r.length) := by
    show Num.div _ _ = _
    simp only [Num.div]
    rw [if_neg hlen]
  rw [this, Num.map_val]

theorem removeDC_ok (alpha : Nat) {src : List Num} (h : AllOk src) (h0 : ∃ x ∈ src, x ≠ 0) : AllOk (removeDCNormalize alpha src) := by
  obtain ⟨r, rfl⟩ := ok_map h
  obtain ⟨v, hv, hn⟩ := norm_ok alpha (r := r) (by
    obtain ⟨x, hx, hx0⟩ := h0
    obtain ⟨y, hy, rfl⟩ := List.mem_map.mp hx
    exact ⟨y, hy, fun h => hx0 (by rw [h]; rfl)⟩)
  intro x hx
  unfold removeDCNormalize at hx
  obtain ⟨y, hy, rfl⟩ := List.mem_map.mp hx
  rw [hn]
  have := sub_ok (h y hy) (frameMin_ok h)
  obtain ⟨q, hq⟩ := (Num.ok_iff _).mp this
  rw [hq]
  show Num.div _ _ ≠ _
  simp only [Num.div]
  rw [if_neg hv]
  exact Num.val_ne_nan _

theorem median_real (r : List ℝ) : ∃ m, MathReal.median r = some m := by
  have hl : (r.mergeSort (fun a b => decide (a ≤ b))).length = r.length := List.length_mergeSort _
  unfold MathReal.median
  by_cases h0 : r.length = 0
  · rw [if_pos h0]; exact ⟨0, rfl⟩
  · rw [if_neg h0]
    dsimp only
    have h1 : r.length / 2 < (r.mergeSort (fun a b => decide (a ≤ b))).length := by omega
    have h2 : r.length / 2 - 1 < (r.mergeSort (fun a b => decide (a ≤ b))).length := by omega
    rw [List.getElem?_eq_getElem h1, List.getElem?_eq_getElem h2]
    split
    · exact ⟨_, rfl⟩
    · exact ⟨_, rfl⟩

theorem median_ok {l : List Num} (h : AllOk l) : ∃ m, median l = some m ∧ m ≠ .nan := by
  have hr := ok_map h
  unfold median
  rw [dif_pos hr]
  obtain ⟨m, hm⟩ := median_real hr.choose
  exact ⟨.val m, by rw [hm]; rfl, Num.val_ne_nan m⟩

theorem medianFilter_ok (pre post : Nat) (delta : ℝ) {src : List Num} (h : AllOk src) :
    ∃ out, medianFilter pre post delta src = some out ∧ out.length = src.length ∧ AllOk out := by
  have key : ∀ l : List Nat, (∀ i ∈ l, i < src.length) → ∃ out, (l.mapM fun i => do
      let v ← src[i]?
      let w := window pre post src.length i
      let m ← median ((src.drop w.1).take w.2)
      pure (v - m - .val delta)) = some out ∧ out.length = l.length ∧ AllOk out := by
    intro l
    induction l with
    | nil => intro _; exact ⟨[], rfl, rfl, by simp [AllOk]⟩
    | cons i l ih =>
      intro hl
      have hi : i < src.length := hl i (by simp)
      obtain ⟨out, h1, h2, h3⟩ := ih fun j hj => hl j (by simp [hj])
      obtain ⟨m, m1, m2⟩ := median_ok (l := (src.drop (window pre post src.length i).1).take (window pre post src.length i).2)
        fun x hx => h x (List.mem_of_mem_drop (List.mem_of_mem_take hx))
      refine ⟨(src[i] - m - .val delta) :: out, ?_, by simp [h2], fun x hx => ?_⟩
      · rw [List.mapM_cons, List.getElem?_eq_getElem hi, bind_ok (a := src[i] - m - .val delta), bind_ok h1]
        · rfl
        · rw [bind_ok (a := src[i]) rfl]
          dsimp only
          rw [bind_ok m1]
          rfl
      · rcases List.mem_cons.mp hx with rfl | hx
        · exact sub_ok (sub_ok (h _ (List.getElem_mem hi)) m2) (Num.val_ne_nan _)
        · exact h3 x hx
  obtain ⟨out, h1, h2, h3⟩ := key (List.range src.length) (by simp)
  exact ⟨out, h1, by simpa using h2, h3⟩

open Classical in
theorem pick_ok {b a : List ℝ} {p : Picker} {src : List Num} (hp : OkF b a p.filter) (hs : AllOk src) (h0 : ∃ x ∈ src, x ≠ 0) (onsets : List Nat) :
    ∃ f work onsets', pick p src onsets = some ({ p with filter := f }, work, onsets') ∧ work.length = src.length ∧ AllOk work ∧ OkF b a f := by
  unfold pick
  by_cases h4 : src.length < 4
  · rw [if_pos h4]
    exact ⟨p.filter, src, onsets, rfl, rfl, hs, hp⟩
  · rw [if_neg h4]
    obtain ⟨f, o, e1, e2, e3, e4⟩ := filtfilt_ok hp (removeDC_ok p.alpha hs h0)
    obtain ⟨w, w1, w2, w3⟩ := medianFilter_ok p.pre p.post p.delta e3
    refine ⟨f, w, onsets ++ (candidates w).filter fun m => accepted p.a p.c w m, ?_, ?_, w3, e4⟩
    · rw [bind_ok e1]
      dsimp only
      rw [bind_ok w1]
      rfl
    · rw [w2, e2]; simp [removeDCNormalize]

/-! ## Decimation -/

/-- A decimator whose memory and coefficients are numbers. -/
structure OkD (s : Decimator.State Num) : Prop where
  a : AllOk s.a
  b : AllOk s.b
  o1 : s.o1 ≠ .nan
  o2 : s.o2 ≠ .nan
  o3 : s.o3 ≠ .nan
  o4 : s.o4 ≠ .nan
  o5 : s.o5 ≠ .nan
  o6 : s.o6 ≠ .nan
  o7 : s.o7 ≠ .nan

theorem getD_ok {l : List Num} (h : AllOk l) (i : Nat) : l.getD i 0 ≠ .nan := by
  rw [List.getD_eq_getElem?_getD]
  cases e : l[i]? with
  | none => exact Num.val_ne_nan 0
  | some v => exact get_ok h e

theorem alias_ok {s : Decimator.State Num} (h : OkD s) {x : Num} (hx : x ≠ .nan) : (antiAliasStep s x).2 ≠ .nan ∧ OkD (antiAliasStep s x).1 := by
  have ha := getD_ok h.a
  have hb := getD_ok h.b
  have ho : (antiAliasStep s x).2 ≠ .nan := add_ok (mul_ok hx (hb 0)) h.o1
  have hstep : ∀ i (o : Num), o ≠ .nan → x * s.b.getD i 0 - (antiAliasStep s x).2 * s.a.getD i 0 + o ≠ .nan := fun i o h =>
    add_ok (sub_ok (mul_ok hx (hb i)) (mul_ok ho (ha i))) h
  exact ⟨ho, h.a, h.b, hstep 1 _ h.o2, hstep 2 _ h.o3, hstep 3 _ h.o4, hstep 4 _ h.o5, hstep 5 _ h.o6, hstep 6 _ h.o7,
    sub_ok (mul_ok hx (hb 7)) (mul_ok ho (ha 7))⟩

theorem doAlias_ok (xs : List Num) {s : Decimator.State Num} (h : OkD s) (hx : AllOk xs) : AllOk (doAntiAlias s xs).2 ∧ OkD (doAntiAlias s xs).1 := by
  induction xs generalizing s with
  | nil => exact ⟨by simp [doAntiAlias, AllOk], h⟩
  | cons x xs ih =>
    obtain ⟨h1, h2⟩ := alias_ok h (hx x (by simp))
    obtain ⟨h3, h4⟩ := ih h2 fun y hy => hx y (by simp [hy])
    refine ⟨fun y hy => ?_, h4⟩
    rcases List.mem_cons.mp hy with rfl | hy
    · exact h1
    · exact h3 y hy

theorem decimate_ok {s s' : Decimator.State Num} {src dst out : List Num} (h : OkD s) (hs : AllOk src) (hd : AllOk dst) (e : decimate s src dst = some (s', out)) :
    AllOk out ∧ OkD s' := by
  unfold decimate at e
  split at e
  · obtain ⟨d, h1, h2⟩ := Option.bind_eq_some_iff.mp e
    simp only [Option.some.injEq, Prod.mk.injEq] at h2
    rw [← h2.1, ← h2.2]
    refine ⟨loop_pred AllOk (fun i a b ha hb => ?_) _ _ _ hd h1, h⟩
    obtain ⟨v, hv, hb⟩ := Option.bind_eq_some_iff.mp hb
    exact wr_ok ha (get_ok hs hv) hb
  · split at e
    · cases e
    · dsimp only at e
      obtain ⟨d, h1, h2⟩ := Option.bind_eq_some_iff.mp e
      simp only [Option.some.injEq, Prod.mk.injEq] at h2
      rw [← h2.1, ← h2.2]
      obtain ⟨g1, g2⟩ := doAlias_ok (src.take s.inputLength) h fun x hx => hs x (List.mem_of_mem_take hx)
      refine ⟨loop_pred AllOk (fun i a b ha hb => ?_) _ _ _ hd h1, g2⟩
      obtain ⟨v, hv, hb⟩ := Option.bind_eq_some_iff.mp hb
      exact wr_ok ha (get_ok g1 hv) hb

end QM.Nan
