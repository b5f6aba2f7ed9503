import Verif.Filter.Rounded

namespace QM.Filter.Rounded

open QM QM.Filter QM.Double

variable (fl : ℝ → ℝ)

theorem dot_spec (c buf : List ℝ) (coff off n : Nat) (cf bf : Nat → ℝ)
    (hc : ∀ i, i < n → c[i + coff]? = some (cf i)) (hb : ∀ i, i < n → buf[i + off]? = some (bf i)) :
    dot fl c buf coff off n = some (flSum fl (fun i => fl (cf i * bf i)) n) := by
  have := loop_inv n (fun i (sum : ℝ) => do
    let x ← c[i + coff]?
    let y ← buf[i + off]?
    some (fl (sum + fl (x * y)))) 0 (fun k s => s = flSum fl (fun i => fl (cf i * bf i)) k) (by simp [flSum]) ?_
  · obtain ⟨s, h1, h2⟩ := this
    unfold dot; rw [h1, h2]
  · rintro i s hi rfl
    refine ⟨_, ?_, rfl⟩
    simp [hc i hi, hb i hi, flSum]

/-- Value the rounded difference equation demands next. -/
noncomputable def nextOut (b a xs ys : List ℝ) (x : ℝ) : ℝ :=
  if a = [] then flSum fl (fun i => fl (b.getD i 0 * hist (xs ++ [x]) i)) b.length
  else fl (flSum fl (fun i => fl (b.getD i 0 * hist (xs ++ [x]) i)) b.length - flSum fl (fun i => fl (a.getD (i + 1) 0 * hist ys i)) (a.length - 1))

theorem step_spec (b a : List ℝ) (s : State ℝ) (xs ys : List ℝ) (x : ℝ) (h : Inv b a s xs ys) :
    ∃ s', step fl s x = some (s', nextOut fl b a xs ys x) ∧ Inv b a s' (xs ++ [x]) (ys ++ [nextOut fl b a xs ys x]) := by
  obtain ⟨hb, ha, hsz, hpos, hfir, hiir, hbl, hob, hbuf⟩ := h
  obtain ⟨b1, o1, b2, e1, e2, e3, e4, e5⟩ := slide b.length hpos s.bufb s.offb xs x hbl hob hbuf
  have hbs : dot fl s.b b2 0 o1 s.sz = some (flSum fl (fun i => fl (b.getD i 0 * hist (xs ++ [x]) i)) b.length) := by
    rw [hsz, hb]
    apply dot_spec
    · intro i hi; simp [hi]
    · exact e5
  unfold step
  rw [hsz] at hbs ⊢
  simp only [e1, e2, hbs, Option.bind_eq_bind, Option.bind_some]
  by_cases hf : a = []
  · rw [if_pos (hfir.mpr hf)]
    have hno : nextOut fl b a xs ys x = flSum fl (fun i => fl (b.getD i 0 * hist (xs ++ [x]) i)) b.length := by
      simp [nextOut, hf]
    rw [hno]
    exact ⟨_, rfl, ⟨hb, ha, rfl, hpos, hfir, fun hne => absurd hf hne, e3, e4, e5⟩⟩
  · rw [if_neg (by rw [hfir]; exact hf)]
    obtain ⟨i1, i2, i3, i4, i5⟩ := hiir hf
    have has : dot fl s.a s.bufa 1 s.offa (b.length - 1) = some (flSum fl (fun i => fl (a.getD (i + 1) 0 * hist ys i)) (a.length - 1)) := by
      rw [ha, i1]
      apply dot_spec
      · intro i hi
        have : i + 1 < a.length := by omega
        simp [this]
      · exact i5
    obtain ⟨a1, p1, a2, f1, f2, f3, f4, f5⟩ := slide (b.length - 1) (by omega) s.bufa s.offa ys
      (nextOut fl b a xs ys x) (by omega) i4 i5
    simp only [has, f1, Option.bind_some]
    have : fl (flSum fl (fun i => fl (b.getD i 0 * hist (xs ++ [x]) i)) b.length - flSum fl (fun i => fl (a.getD (i + 1) 0 * hist ys i)) (a.length - 1))
        = nextOut fl b a xs ys x := by rw [nextOut, if_neg hf]
    rw [this]
    simp only [f2, Option.bind_some]
    exact ⟨_, rfl, ⟨hb, ha, rfl, hpos, hfir, fun _ => ⟨i1, i2, f3, f4, f5⟩, e3, e4, e5⟩⟩

theorem flSum_congr {t u : ℕ → ℝ} {n : ℕ} (h : ∀ k < n, t k = u k) : flSum fl t n = flSum fl u n := by
  induction n with
  | zero => rfl
  | succ n ih => rw [flSum, flSum, ih (fun k hk => h k (by omega)), h n (by omega)]

theorem diffEq_snoc (b a xs ys : List ℝ) (x : ℝ) (h : DiffEqR fl b a xs ys) : DiffEqR fl b a (xs ++ [x]) (ys ++ [nextOut fl b a xs ys x]) := by
  obtain ⟨h1, h2⟩ := h
  refine ⟨by simp [h1], ?_⟩
  intro n hn
  simp only [List.length_append, List.length_singleton] at hn
  by_cases hlt : n < xs.length
  · rw [getD_append_left _ _ _ (by omega), h2 n hlt]
    have e1 : flSum fl (fun i => fl (b.getD i 0 * delayed (xs ++ [x]) n i)) b.length = flSum fl (fun i => fl (b.getD i 0 * delayed xs n i)) b.length :=
      flSum_congr fl (fun i _ => by rw [delayed_append _ _ _ _ hlt])
    have e2 : flSum fl (fun i => fl (a.getD (i + 1) 0 * delayed (ys ++ [nextOut fl b a xs ys x]) n (i + 1))) (a.length - 1)
        = flSum fl (fun i => fl (a.getD (i + 1) 0 * delayed ys n (i + 1))) (a.length - 1) :=
      flSum_congr fl (fun i _ => by rw [delayed_append _ _ _ _ (by omega)])
    rw [e1, e2]
  · have hn' : n = xs.length := by omega
    subst hn'
    have : (ys ++ [nextOut fl b a xs ys x]).getD xs.length 0 = nextOut fl b a xs ys x := by
      rw [← h1]; simp [List.getD_eq_getElem?_getD]
    rw [this]
    have e1 : flSum fl (fun i => fl (b.getD i 0 * delayed (xs ++ [x]) xs.length i)) b.length = flSum fl (fun i => fl (b.getD i 0 * hist (xs ++ [x]) i)) b.length :=
      flSum_congr fl (fun i _ => by rw [hist_eq_delayed])
    have e2 : flSum fl (fun i => fl (a.getD (i + 1) 0 * delayed (ys ++ [nextOut fl b a xs ys x]) xs.length (i + 1))) (a.length - 1)
        = flSum fl (fun i => fl (a.getD (i + 1) 0 * hist ys i)) (a.length - 1) :=
      flSum_congr fl (fun i _ => by rw [hist_eq_delayed_succ ys (nextOut fl b a xs ys x) i, ← h1])
    rw [e1, e2, nextOut]

theorem process_spec (b a : List ℝ) (blk : List ℝ) (s : State ℝ) (xs ys : List ℝ) (h : Inv b a s xs ys) (hd : DiffEqR fl b a xs ys) :
    ∃ s' out, process fl s blk = some (s', out) ∧ Inv b a s' (xs ++ blk) (ys ++ out) ∧ out.length = blk.length ∧ DiffEqR fl b a (xs ++ blk) (ys ++ out) := by
  induction blk generalizing s xs ys with
  | nil => exact ⟨s, [], rfl, by simpa using h, rfl, by simpa using hd⟩
  | cons x blk ih =>
    obtain ⟨s1, h1, h2⟩ := step_spec fl b a s xs ys x h
    obtain ⟨s2, out, h3, h4, h5, h6⟩ := ih s1 _ _ h2 (diffEq_snoc fl b a xs ys x hd)
    refine ⟨s2, nextOut fl b a xs ys x :: out, ?_, ?_, by simp [h5], ?_⟩
    · rw [process, h1]
      simp only [Option.bind_eq_bind, Option.bind_some, h3]
    · simpa using h4
    · simpa using h6

theorem run_blocks_spec (b a : List ℝ) (bs : List (List ℝ)) (s : State ℝ) (xs ys : List ℝ) (h : Inv b a s xs ys) (hd : DiffEqR fl b a xs ys) :
    ∃ s' outs, run fl s (blocks bs) = some (s', outs) ∧ Inv b a s' (xs ++ bs.flatten) (ys ++ outs.flatten) ∧
      outs.map List.length = bs.map List.length ∧ DiffEqR fl b a (xs ++ bs.flatten) (ys ++ outs.flatten) := by
  induction bs generalizing s xs ys with
  | nil => exact ⟨s, [], rfl, by simpa using h, rfl, by simpa using hd⟩
  | cons blk bs ih =>
    obtain ⟨s1, out, h1, h2, h3, h4⟩ := process_spec fl b a blk s xs ys h hd
    obtain ⟨s2, outs, h5, h6, h7, h8⟩ := ih s1 _ _ h2 h4
    refine ⟨s2, out :: outs, ?_, by simpa using h6, by simp [h3, h7], by simpa using h8⟩
    show run fl s (.process blk :: blocks bs) = _
    rw [run, h1]
    simp only [Option.bind_eq_bind, Option.bind_some, h5]

/-- Any history of calls leaves the object in a good state. -/
theorem run_inv (b a : List ℝ) (ops : List (Op ℝ)) (s : State ℝ) (xs ys : List ℝ) (h : Inv b a s xs ys) (hd : DiffEqR fl b a xs ys) :
    ∃ s' outs xs' ys', run fl s ops = some (s', outs) ∧ Inv b a s' xs' ys' ∧ DiffEqR fl b a xs' ys' := by
  induction ops generalizing s xs ys with
  | nil => exact ⟨s, [], xs, ys, rfl, h, hd⟩
  | cons op ops ih =>
    cases op with
    | process blk =>
      obtain ⟨s1, out, h1, h2, h3, h4⟩ := process_spec fl b a blk s xs ys h hd
      obtain ⟨s2, outs, xs', ys', h5, h6, h7⟩ := ih s1 _ _ h2 h4
      refine ⟨s2, out :: outs, xs', ys', ?_, h6, h7⟩
      rw [run, h1]
      simp only [Option.bind_eq_bind, Option.bind_some, h5]
    | reset =>
      exact ih (reset s) [] [] (reset_inv b a s xs ys h) ⟨rfl, by simp⟩

/-- The rounded difference equation has one solution. -/
theorem diffEq_unique (b a x y z : List ℝ) (hy : DiffEqR fl b a x y) (hz : DiffEqR fl b a x z) : y = z := by
  have key : ∀ n, n < x.length → y.getD n 0 = z.getD n 0 := by
    intro n
    induction n using Nat.strong_induction_on with
    | _ n ih =>
      intro hn
      rw [hy.2 n hn, hz.2 n hn]
      have e2 : flSum fl (fun i => fl (a.getD (i + 1) 0 * delayed y n (i + 1))) (a.length - 1)
          = flSum fl (fun i => fl (a.getD (i + 1) 0 * delayed z n (i + 1))) (a.length - 1) := by
        refine flSum_congr fl (fun i _ => ?_)
        unfold delayed
        by_cases h : i + 1 ≤ n
        · rw [if_pos h, if_pos h, ih (n - (i + 1)) (by omega) (by omega)]
        · rw [if_neg h, if_neg h]
      rw [e2]
  apply List.ext_getElem (by rw [hy.1, hz.1])
  intro n h1 h2
  have := key n (by rw [← hy.1]; exact h1)
  simpa [List.getD_eq_getElem?_getD, h1, h2] using this

end QM.Filter.Rounded
