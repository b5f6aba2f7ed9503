import Verif.Nan.KeyLemmas

/-! On numbers the models of `Verif.Nan` are those used for the other claims: lemmas. -/

namespace QM.Nan

/-- The same filter with coefficients and memory seen as doubles that may be NaN. -/
def liftF (s : Filter.State ℝ) : Filter.State Num :=
  ⟨s.fir, s.sz, s.a.map .val, s.b.map .val, s.bufa.map .val, s.bufb.map .val, s.offa, s.offb⟩

/-- The same decimator. -/
def liftD (s : Decimator.State ℝ) : Decimator.State Num :=
  ⟨s.inputLength, s.outputLength, s.decFactor, s.b.map .val, s.a.map .val, .val s.o1, .val s.o2, .val s.o3, .val s.o4, .val s.o5, .val s.o6, .val s.o7⟩

/-- The same key detector. -/
def liftK (s : KeyMode.KM) : Key :=
  ⟨⟨s.cs, s.ms, s.idx, s.cfill, s.mfill, [], [], [], [], [], [], s.med, s.sorted, []⟩, s.chroma.map .val, s.mean.map .val, s.majNorm.map .val,
    s.minNorm.map .val, s.maj.map .val, s.min.map .val⟩

theorem loop_map {α β : Type} (g : α → β) (n : Nat) (f : Nat → α → Option α) (f' : Nat → β → Option β) (s : α)
    (h : ∀ i s, i < n → f' i (g s) = (f i s).map g) : loop n f' (g s) = (loop n f s).map g := by
  induction n with
  | zero => rfl
  | succ n ih =>
    unfold loop
    rw [ih fun i s hi => h i s (by omega)]
    cases loop n f s with
    | none => rfl
    | some t => exact h n t (by omega)

theorem wr_map {α β : Type} (g : α → β) (l : List α) (i : Nat) (v : α) : wr (l.map g) i (g v) = (wr l i v).map (List.map g) := by
  unfold wr
  rw [List.length_map]
  split <;> simp

theorem moveBack_val (cnt : Nat) (buf : List ℝ) : moveBack cnt (buf.map .val) = (Filter.moveBack cnt buf).map (List.map .val) := by
  unfold moveBack Filter.moveBack
  refine loop_map (List.map Num.val) _ _ _ _ fun i s _ => ?_
  dsimp only
  rw [List.getElem?_map]
  cases s[cnt - 1 - i]? with
  | none => rfl
  | some v => exact wr_map Num.val _ _ _

theorem dot_val (c buf : List ℝ) (coff off n : Nat) : dot (c.map .val) (buf.map .val) coff off n = (Filter.dot c buf coff off n).map .val := by
  unfold dot Filter.dot
  refine loop_map Num.val _ _ _ 0 fun i s _ => ?_
  rw [List.getElem?_map, List.getElem?_map]
  cases c[i + coff]? with
  | none => rfl
  | some x => cases buf[i + off]? <;> rfl

theorem makeRoom_val (cnt : Nat) (buf : List ℝ) (off : Nat) :
    makeRoom cnt (buf.map .val) off = (Filter.makeRoom cnt buf off).map fun r => (r.1.map .val, r.2) := by
  unfold makeRoom Filter.makeRoom
  split
  · rfl
  · rw [moveBack_val, Option.map_map, Option.map_map]
    rfl

theorem step_val (s : Filter.State ℝ) (x : ℝ) : filterStep (liftF s) (.val x) = (Filter.step s x).map fun r => (liftF r.1, .val r.2) := by
  unfold filterStep Filter.step
  simp only [liftF, makeRoom_val]
  cases Filter.makeRoom (s.sz - 1) s.bufb s.offb with
  | none => rfl
  | some r =>
    simp only [Option.map_some, Option.bind_eq_bind, Option.bind_some]
    rw [wr_map]
    cases wr r.1 r.2 x with
    | none => rfl
    | some bufb =>
      simp only [Option.map_some, Option.bind_some]
      rw [dot_val]
      cases Filter.dot s.b bufb 0 r.2 s.sz with
      | none => rfl
      | some bs =>
        simp only [Option.map_some, Option.bind_some]
        split
        · rfl
        · rw [dot_val]
          cases Filter.dot s.a s.bufa 1 s.offa (s.sz - 1) with
          | none => rfl
          | some as =>
            simp only [Option.map_some, Option.bind_some]
            cases Filter.makeRoom (s.sz - 1 - 1) s.bufa s.offa with
            | none => rfl
            | some q =>
              simp only [Option.map_some, Option.bind_some, Num.val_sub]
              rw [wr_map]
              cases wr q.1 q.2 (bs - as) <;> rfl

theorem filter_val (xs : List ℝ) (s : Filter.State ℝ) : filter (liftF s) (xs.map .val) = (Filter.process s xs).map fun r => (liftF r.1, r.2.map .val) := by
  induction xs generalizing s with
  | nil => rfl
  | cons x xs ih =>
    rw [List.map_cons]
    unfold filter Filter.process
    rw [step_val]
    cases Filter.step s x with
    | none => rfl
    | some r =>
      simp only [Option.map_some, Option.bind_eq_bind, Option.bind_some]
      rw [ih]
      cases Filter.process r.1 xs <;> rfl

theorem reset_val (s : Filter.State ℝ) : resetFilter (liftF s) = liftF (Filter.reset s) := by
  unfold resetFilter Filter.reset liftF
  cases s.fir <;> simp [Num.zero_eq]

theorem extend_val (nFact : Nat) (src : List ℝ) : extend nFact (src.map .val) = (Filter.extend nFact src).map (List.map .val) := by
  unfold extend Filter.extend
  simp only [List.length_map, List.getElem?_map]
  cases src[0]? with
  | none => rfl
  | some s0 =>
    simp only [Option.map_some, Option.bind_eq_bind, Option.bind_some]
    cases src[src.length - 1]? with
    | none => rfl
    | some sN =>
      simp only [Option.map_some, Option.bind_some]
      have h0 : List.replicate (src.length + 2 * nFact) (0 : Num) = (List.replicate (src.length + 2 * nFact) (0 : ℝ)).map .val := by
        rw [List.map_replicate]; rfl
      rw [h0, loop_map (List.map Num.val) nFact (fun index sc => if nFact - index < src.length then (src[nFact - index]?).bind fun v =>
        wr sc index (2 * s0 - v) else some sc) _ _ fun i s _ => ?_]
      · cases loop nFact (fun index sc => if nFact - index < src.length then (src[nFact - index]?).bind fun v =>
          wr sc index (2 * s0 - v) else some sc) (List.replicate (src.length + 2 * nFact) (0 : ℝ)) with
        | none => rfl
        | some sc =>
          simp only [Option.map_some, Option.bind_some]
          rw [loop_map (List.map Num.val) nFact (fun i sc => if i + 1 < src.length then (src[src.length - 2 - i]?).bind fun v =>
            wr sc (src.length + 2 * nFact - nFact + i) (2 * sN - v) else some sc) _ _ fun i s _ => ?_]
          · cases loop nFact (fun i sc => if i + 1 < src.length then (src[src.length - 2 - i]?).bind fun v =>
              wr sc (src.length + 2 * nFact - nFact + i) (2 * sN - v) else some sc) sc with
            | none => rfl
            | some sc2 =>
              simp only [Option.map_some, Option.bind_some]
              refine loop_map (List.map Num.val) _ _ _ _ fun i s _ => ?_
              cases src[i]? with
              | none => rfl
              | some v => exact wr_map Num.val _ _ _
          · split
            · cases src[src.length - 2 - i]? with
              | none => rfl
              | some v => exact wr_map Num.val _ _ (2 * sN - v)
            · rfl
      · split
        · cases src[nFact - i]? with
          | none => rfl
          | some v => exact wr_map Num.val _ _ (2 * s0 - v)
        · rfl

theorem filtfilt_val (s : Filter.State ℝ) (src : List ℝ) :
    filtfilt (liftF s) (src.map .val) = (Filter.filtfilt s src).map fun r => (liftF r.1, r.2.map .val) := by
  unfold filtfilt Filter.filtfilt
  rw [List.length_map]
  split
  · rfl
  · dsimp only
    rw [show (liftF s).sz = s.sz from rfl, extend_val]
    cases Filter.extend (3 * (s.sz - 1)) src with
    | none => rfl
    | some ext =>
      simp only [Option.map_some, Option.bind_eq_bind, Option.bind_some]
      rw [filter_val]
      cases Filter.process s ext with
      | none => rfl
      | some r =>
        simp only [Option.map_some, Option.bind_some]
        rw [reset_val, ← List.map_reverse, filter_val]
        cases Filter.process (Filter.reset r.1) r.2.reverse with
        | none => rfl
        | some q => simp [List.map_take, List.map_drop]

/-! ## Decimation -/

theorem getD_val (l : List ℝ) (i : Nat) : (l.map Num.val).getD i 0 = .val (l.getD i 0) := by
  rw [List.getD_eq_getElem?_getD, List.getElem?_map, List.getD_eq_getElem?_getD]
  cases l[i]? <;> rfl

theorem alias_val (xs : List ℝ) (s : Decimator.State ℝ) :
    doAntiAlias (liftD s) (xs.map .val) = (liftD (Decimator.doAntiAlias s xs).1, (Decimator.doAntiAlias s xs).2.map .val) := by
  induction xs generalizing s with
  | nil => rfl
  | cons x xs ih =>
    have h : antiAliasStep (liftD s) (.val x) = (liftD (Decimator.antiAliasStep s x).1, .val (Decimator.antiAliasStep s x).2) := by
      unfold antiAliasStep Decimator.antiAliasStep liftD
      simp only [getD_val, Num.val_add, Num.val_mul, Num.val_sub]
    rw [List.map_cons]
    unfold doAntiAlias Decimator.doAntiAlias
    rw [h]
    dsimp only
    rw [ih]
    rfl

theorem decimate_val (s : Decimator.State ℝ) (src dst : List ℝ) :
    decimate (liftD s) (src.map .val) (dst.map .val) = (Decimator.process s src dst).map fun r => (liftD r.1, r.2.map .val) := by
  unfold decimate Decimator.process
  have hl : ∀ (n k : Nat) (l : List ℝ), loop n (fun i dst => do
      let v ← (l.map Num.val)[k * i]?
      wr dst i v) (dst.map .val) = (loop n (fun i dst => do
      let v ← l[k * i]?
      wr dst i v) dst).map (List.map Num.val) := fun n k l => by
    refine loop_map (List.map Num.val) _ _ _ _ fun i s _ => ?_
    rw [List.getElem?_map]
    cases l[k * i]? with
    | none => rfl
    | some v => exact wr_map Num.val _ _ _
  rw [show (liftD s).decFactor = s.decFactor from rfl, show (liftD s).outputLength = s.outputLength from rfl,
    show (liftD s).inputLength = s.inputLength from rfl, List.length_map]
  split
  · have := hl s.outputLength 1 src
    simp only [one_mul] at this
    rw [this]
    cases loop s.outputLength (fun i dst => do
      let v ← src[i]?
      wr dst i v) dst <;> rfl
  · split
    · rfl
    · rw [← List.map_take, alias_val]
      dsimp only
      rw [hl]
      cases loop s.outputLength (fun i dst => do
        let v ← (Decimator.doAntiAlias s (src.take s.inputLength)).2[s.decFactor * i]?
        wr dst i v) dst <;> rfl

/-! ## Keys -/

theorem rdI_map {α β : Type} (g : α → β) (l : List α) (i : Int) : rdI (l.map g) i = (rdI l i).map g := by
  unfold rdI
  split <;> simp

theorem div_val (x y : ℝ) (hy : y ≠ 0) : Num.val x / Num.val y = .val (x / y) := by
  show Num.div (.val x) (.val y) = _
  simp [Num.div, hy]

theorem krum_val (data prof : List ℝ) (shift : Int) (length : Nat) :
    krumCorr (data.map .val) (prof.map .val) shift length = (KeyMode.krumCorr data prof shift length).map .val := by
  unfold krumCorr KeyMode.krumCorr
  have e : loop length (fun i (s : Num × Num × Num) => do
      let k := ((i : Int) - shift + length).tmod length
      let d ← (data.map Num.val)[i]?
      let p ← rdI (prof.map Num.val) k
      pure (s.1 + d * p, s.2.1 + d * d, s.2.2 + p * p)) (0, 0, 0) = (loop length (fun i (s : ℝ × ℝ × ℝ) => do
      let k := ((i : Int) - shift + length).tmod length
      let d ← data[i]?
      let p ← rdI prof k
      pure (s.1 + d * p, s.2.1 + d * d, s.2.2 + p * p)) (0, 0, 0)).map fun r => (Num.val r.1, Num.val r.2.1, Num.val r.2.2) := by
    refine loop_map (fun r : ℝ × ℝ × ℝ => (Num.val r.1, Num.val r.2.1, Num.val r.2.2)) length _ _ (0, 0, 0) fun i s _ => ?_
    dsimp only
    rw [List.getElem?_map, rdI_map]
    cases data[i]? with
    | none => rfl
    | some d => cases rdI prof (((i : Int) - shift + length).tmod length) <;> rfl
  rw [e]
  cases loop length (fun i (s : ℝ × ℝ × ℝ) => do
      let k := ((i : Int) - shift + length).tmod length
      let d ← data[i]?
      let p ← rdI prof k
      pure (s.1 + d * p, s.2.1 + d * d, s.2.2 + p * p)) (0, 0, 0) with
  | none => rfl
  | some s =>
    simp only [Option.map_some, Option.bind_eq_bind, Option.bind_some, Num.val_mul, Num.map_val, gt_iff_lt]
    have he : Num.lt 0 (.val (Real.sqrt (s.2.1 * s.2.2))) ↔ 0 < Real.sqrt (s.2.1 * s.2.2) := Iff.rfl
    by_cases h : 0 < Real.sqrt (s.2.1 * s.2.2)
    · rw [if_pos h]
      refine (if_pos (he.mpr h)).trans ?_
      rw [div_val _ _ h.ne']
      rfl
    · rw [if_neg h]
      exact if_neg (fun q => h (he.mp q))

theorem getMax_val (data : List ℝ) : getMax (data.map .val) = (MathReal.getMax data).map fun r => (r.1, Num.val r.2) := by
  have key : ∀ (l : List ℝ) (i idx : Nat) (m : ℝ), ((l.map Num.val).foldl (fun (s : Nat × Nat × Num) temp =>
      if s.2.2.lt temp then (s.1 + 1, s.1, temp) else (s.1 + 1, s.2.1, s.2.2)) (i, idx, .val m)).2 =
      ((MathReal.getMaxLoop l i idx m).1, .val (MathReal.getMaxLoop l i idx m).2) := by
    intro l
    induction l with
    | nil => intro i idx m; rfl
    | cons x l ih =>
      intro i idx m
      rw [List.map_cons, List.foldl_cons]
      unfold MathReal.getMaxLoop
      dsimp only
      have he : (Num.val m).lt (.val x) ↔ x > m := Iff.rfl
      by_cases h : x > m
      · rw [if_pos h, if_pos (he.mpr h)]; exact ih _ _ _
      · rw [if_neg h, if_neg (fun q => h (he.mp q))]; exact ih _ _ _
  cases data with
  | nil => rfl
  | cons d0 rest =>
    exact congrArg some (key (d0 :: rest) 0 0 d0)

theorem rawKey_val (maj min : List ℝ) : rawKey (maj.map .val) (min.map .val) = KeyMode.rawKey maj min := by
  unfold rawKey KeyMode.rawKey
  rw [getMax_val, getMax_val]
  cases MathReal.getMax maj with
  | none => rfl
  | some M =>
    cases MathReal.getMax min with
    | none => rfl
    | some m =>
      simp only [Option.map_some, Option.bind_eq_bind, Option.bind_some]
      have he : (Num.val m.2).lt (.val M.2) ↔ M.2 > m.2 := Iff.rfl
      by_cases h : M.2 > m.2
      · rw [if_pos h, if_pos (he.mpr h)]
      · rw [if_neg h, if_neg (fun q => h (he.mp q))]

theorem foldl_val (l : List ℝ) (x : ℝ) : (l.map Num.val).foldl (· + ·) (.val x) = .val (l.foldl (· + ·) x) := by
  induction l generalizing x with
  | nil => rfl
  | cons y l ih => rw [List.map_cons, List.foldl_cons, List.foldl_cons, Num.val_add, ih]

theorem average_val (s : KeyMode.KM) (hcs : 0 < s.cs) (hm : s.mean.length = 36) (frame : List ℝ) :
    average (liftK s) (frame.map .val) = (KeyMode.average s frame).map fun r => (r.1.map .val, r.2.1, r.2.2.1, r.2.2.2.map .val) := by
  unfold average KeyMode.average
  have e1 : loop 36 (fun j (c : List Num) => do
      let v ← (frame.map Num.val)[j]?
      wr c ((liftK s).ints.idx * 36 + j) v) (liftK s).chroma = (loop 36 (fun j (c : List ℝ) => do
      let v ← frame[j]?
      wr c (s.idx * 36 + j) v) s.chroma).map (List.map Num.val) := by
    refine loop_map (List.map Num.val) _ _ _ _ fun i c _ => ?_
    rw [List.getElem?_map]
    cases frame[i]? with
    | none => rfl
    | some v => exact wr_map Num.val _ _ _
  rw [e1]
  cases loop 36 (fun j (c : List ℝ) => do
      let v ← frame[j]?
      wr c (s.idx * 36 + j) v) s.chroma with
  | none => rfl
  | some chroma =>
    simp only [Option.map_some, Option.bind_eq_bind, Option.bind_some]
    rw [show (liftK s).ints.idx = s.idx from rfl, show (liftK s).ints.cs = s.cs from rfl, show (liftK s).ints.cfill = s.cfill from rfl]
    have hc : (if s.cfill ≥ s.cs then s.cs else s.cfill + 1) ≠ 0 := by split <;> omega
    generalize hcf : (if s.cfill ≥ s.cs then s.cs else s.cfill + 1) = cfill at *
    rw [if_neg hc]
    have e2 : loop 36 (fun k (m : List Num) => (loop cfill (fun j (acc : Num) => ((chroma.map Num.val)[k + j * 36]?).bind fun v => pure (acc + v)) 0).bind
        fun v => wr m k (v / .val cfill)) (liftK s).mean = (loop 36 (fun k (m : List ℝ) => (loop cfill (fun j (acc : ℝ) =>
          (chroma[k + j * 36]?).bind fun v => pure (acc + v)) 0).bind fun v => wr m k (v / cfill)) s.mean).map (List.map Num.val) := by
      refine loop_map (List.map Num.val) _ _ _ _ fun k m _ => ?_
      have : loop cfill (fun j (acc : Num) => ((chroma.map Num.val)[k + j * 36]?).bind fun v => pure (acc + v)) 0 =
          (loop cfill (fun j (acc : ℝ) => (chroma[k + j * 36]?).bind fun v => pure (acc + v)) 0).map Num.val := by
        refine loop_map Num.val _ _ _ 0 fun j a _ => ?_
        rw [List.getElem?_map]
        cases chroma[k + j * 36]? <;> rfl
      rw [this]
      cases loop cfill (fun j (acc : ℝ) => (chroma[k + j * 36]?).bind fun v => pure (acc + v)) 0 with
      | none => rfl
      | some v =>
        simp only [Option.map_some, Option.bind_some]
        rw [div_val _ _ (by exact_mod_cast hc)]
        exact wr_map Num.val _ _ _
    rw [e2]
    cases hl : loop 36 (fun k (m : List ℝ) => (loop cfill (fun j (acc : ℝ) =>
        (chroma[k + j * 36]?).bind fun v => pure (acc + v)) 0).bind fun v => wr m k (v / cfill)) s.mean with
    | none => rfl
    | some mean =>
      have hml : mean.length = 36 := by
        rw [← hm]
        exact loop_len List.length (fun k m m' h => bind_wr_len h) 36 _ _ hl
      simp only [Option.map_some, Option.bind_some]
      have hmean : (mean.map Num.val).foldl (· + ·) 0 / Num.val (mean.map Num.val).length = .val (MathReal.mean mean) := by
        rw [show (0 : Num) = .val 0 from rfl, foldl_val, List.length_map, div_val _ _ (by rw [hml]; norm_num)]
        unfold MathReal.mean MathReal.sum
        rw [if_neg (by omega)]
      rw [hmean]
      have e3 : loop 36 (fun k (m : List Num) => (m[k]?).bind fun v => wr m k (v - .val (MathReal.mean mean))) (mean.map .val) =
          (loop 36 (fun k (m : List ℝ) => (m[k]?).bind fun v => wr m k (v - MathReal.mean mean)) mean).map (List.map Num.val) := by
        refine loop_map (List.map Num.val) _ _ _ _ fun k m _ => ?_
        rw [List.getElem?_map]
        cases m[k]? with
        | none => rfl
        | some v => exact wr_map Num.val _ _ (v - _)
      rw [e3]
      cases loop 36 (fun k (m : List ℝ) => (m[k]?).bind fun v => wr m k (v - MathReal.mean mean)) mean <;> rfl

theorem processKey_val (s : KeyMode.KM) (hcs : 0 < s.cs) (hm : s.mean.length = 36) (frame : List ℝ) :
    processKey (liftK s) (frame.map .val) = (KeyMode.process s frame).map fun r => (liftK r.1, r.2) := by
  unfold processKey KeyMode.process
  rw [average_val s hcs hm]
  cases KeyMode.average s frame with
  | none => rfl
  | some r =>
    obtain ⟨chroma, idx, cfill, mean⟩ := r
    simp only [Option.map_some, Option.bind_eq_bind, Option.bind_some]
    have hk : ∀ prof a : List ℝ, loop 36 (fun k (a : List Num) => (krumCorr (mean.map .val) (prof.map .val) ((k : Int) - 2) 36).bind fun c => wr a k c) (a.map .val) =
        (loop 36 (fun k (a : List ℝ) => (KeyMode.krumCorr mean prof ((k : Int) - 2) 36).bind fun c => wr a k c) a).map (List.map Num.val) := fun prof a => by
      refine loop_map (List.map Num.val) _ _ _ _ fun k a _ => ?_
      rw [krum_val]
      cases KeyMode.krumCorr mean prof ((k : Int) - 2) 36 with
      | none => rfl
      | some c => exact wr_map Num.val _ _ _
    rw [show (liftK s).majNorm = s.majNorm.map .val from rfl, show (liftK s).minNorm = s.minNorm.map .val from rfl,
      show (liftK s).maj = s.maj.map .val from rfl, show (liftK s).min = s.min.map .val from rfl, hk, hk]
    cases loop 36 (fun k (a : List ℝ) => (KeyMode.krumCorr mean s.majNorm ((k : Int) - 2) 36).bind fun c => wr a k c) s.maj with
    | none => rfl
    | some maj =>
      simp only [Option.map_some, Option.bind_some]
      cases loop 36 (fun k (a : List ℝ) => (KeyMode.krumCorr mean s.minNorm ((k : Int) - 2) 36).bind fun c => wr a k c) s.min with
      | none => rfl
      | some min =>
        simp only [Option.map_some, Option.bind_some]
        rw [rawKey_val]
        cases KeyMode.rawKey maj min with
        | none => rfl
        | some key =>
          simp only [Option.bind_some]
          rw [show KeyMode.medianKey (liftK s).ints key = KeyMode.medianKey s key from rfl]
          cases KeyMode.medianKey s key <;> rfl

end QM.Nan
