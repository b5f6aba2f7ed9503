import Verif.Nan.Model
import Verif.Common.Sum

/-! Key detection and decimation with NaN. -/

namespace QM.Nan

/-! ## Decimation -/

theorem alias_poisoned (s : Decimator.State Num) (x : Num) (h : s.o1 = .nan ∨ x = .nan) :
    (antiAliasStep s x).2 = .nan ∧ (antiAliasStep s x).1.o1 = .nan := by
  have ho : (antiAliasStep s x).2 = .nan := by
    unfold antiAliasStep
    dsimp only
    rcases h with h | h <;> rw [h] <;> simp
  refine ⟨ho, ?_⟩
  have : (antiAliasStep s x).1.o1 = x * s.b.getD 1 0 - (antiAliasStep s x).2 * s.a.getD 1 0 + s.o2 := rfl
  rw [this, ho]
  simp

theorem alias_frame (s : Decimator.State Num) (x : Num) :
    (antiAliasStep s x).1.inputLength = s.inputLength ∧ (antiAliasStep s x).1.outputLength = s.outputLength ∧
      (antiAliasStep s x).1.decFactor = s.decFactor ∧ (antiAliasStep s x).1.a = s.a ∧ (antiAliasStep s x).1.b = s.b := ⟨rfl, rfl, rfl, rfl, rfl⟩

theorem doAlias_frame (xs : List Num) (s : Decimator.State Num) :
    (doAntiAlias s xs).1.inputLength = s.inputLength ∧ (doAntiAlias s xs).1.outputLength = s.outputLength ∧
      (doAntiAlias s xs).1.decFactor = s.decFactor ∧ (doAntiAlias s xs).1.a = s.a ∧ (doAntiAlias s xs).1.b = s.b ∧
      (doAntiAlias s xs).2.length = xs.length := by
  induction xs generalizing s with
  | nil => exact ⟨rfl, rfl, rfl, rfl, rfl, rfl⟩
  | cons x xs ih =>
    obtain ⟨h1, h2, h3, h4, h5, h6⟩ := ih (antiAliasStep s x).1
    obtain ⟨g1, g2, g3, g4, g5⟩ := alias_frame s x
    exact ⟨h1.trans g1, h2.trans g2, h3.trans g3, h4.trans g4, h5.trans g5, by simp [doAntiAlias, h6]⟩

theorem doAlias_poisoned (xs : List Num) (s : Decimator.State Num) (h : s.o1 = .nan) :
    (doAntiAlias s xs).1.o1 = .nan ∧ (doAntiAlias s xs).2 = List.replicate xs.length .nan := by
  induction xs generalizing s with
  | nil => exact ⟨h, rfl⟩
  | cons x xs ih =>
    obtain ⟨g1, g2⟩ := alias_poisoned s x (Or.inl h)
    obtain ⟨h1, h2⟩ := ih _ g2
    refine ⟨h1, ?_⟩
    show (antiAliasStep s x).2 :: (doAntiAlias (antiAliasStep s x).1 xs).2 = _
    rw [g1, h2]
    rfl

theorem doAlias_nan (xs : List Num) (s : Decimator.State Num) (h : .nan ∈ xs) : (doAntiAlias s xs).1.o1 = .nan := by
  induction xs generalizing s with
  | nil => simp at h
  | cons x xs ih =>
    show (doAntiAlias (antiAliasStep s x).1 xs).1.o1 = .nan
    rcases List.mem_cons.mp h with h | h
    · exact (doAlias_poisoned xs _ (alias_poisoned s x (Or.inr h.symm)).2).1
    · exact ih _ h

theorem pick_loop {f : Nat → Num} {n : Nat} {g : Nat → List Num → Option (List Num)} {dst : List Num} (hd : n ≤ dst.length)
    (hg : ∀ i d, i < n → g i d = wr d i (f i)) :
    ∃ d, loop n g dst = some d ∧ d.length = dst.length ∧ (∀ i, i < n → d[i]? = some (f i)) ∧ ∀ i, n ≤ i → d[i]? = dst[i]? := by
  obtain ⟨d, h1, h2, h3, h4⟩ := loop_inv n g dst (fun k d => d.length = dst.length ∧ (∀ i, i < k → d[i]? = some (f i)) ∧ ∀ i, k ≤ i → d[i]? = dst[i]?)
    ⟨rfl, by simp, fun i _ => rfl⟩ (by
      rintro i d hi ⟨hl, hv, hr⟩
      refine ⟨d.set i (f i), by rw [hg i d hi]; exact wr_some _ (by omega), by simp [hl], fun j hj => ?_, fun j hj => ?_⟩
      · by_cases he : j = i
        · subst he; rw [List.getElem?_set_self (by omega)]
        · rw [List.getElem?_set_ne (Ne.symm he)]; exact hv j (by omega)
      · rw [List.getElem?_set_ne (by omega)]; exact hr j (by omega))
  exact ⟨d, h1, h2, h3, h4⟩

/-- A decimator with NaN in its memory. -/
def PoisonedD (s : Decimator.State Num) : Prop := s.decFactor ≠ 1 ∧ s.o1 = .nan

theorem decimate_frame {s s' : Decimator.State Num} {src dst out : List Num} (e : decimate s src dst = some (s', out)) :
    s'.inputLength = s.inputLength ∧ s'.outputLength = s.outputLength ∧ s'.decFactor = s.decFactor ∧ s'.a = s.a ∧ s'.b = s.b := by
  unfold decimate at e
  split at e
  · cases h : loop s.outputLength (fun i dst => do
      let v ← src[i]?
      wr dst i v) dst with
    | none => rw [h] at e; cases e
    | some d =>
      rw [bind_ok h, Option.some.injEq, Prod.mk.injEq] at e
      rw [← e.1]; exact ⟨rfl, rfl, rfl, rfl, rfl⟩
  · split at e
    · cases e
    · dsimp only at e
      obtain ⟨d, _, hd⟩ := Option.bind_eq_some_iff.mp e
      simp only [Option.some.injEq, Prod.mk.injEq] at hd
      rw [← hd.1]
      obtain ⟨h1, h2, h3, h4, h5, _⟩ := doAlias_frame (src.take s.inputLength) s
      exact ⟨h1, h2, h3, h4, h5⟩

theorem decimate_some (s : Decimator.State Num) (src dst : List Num) (h1 : s.decFactor ≠ 1) (h2 : s.inputLength ≤ src.length)
    (h3 : s.outputLength = s.inputLength / s.decFactor) (h4 : s.outputLength ≤ dst.length) (h5 : 0 < s.decFactor) :
    ∃ d, decimate s src dst = some ((doAntiAlias s (src.take s.inputLength)).1, d) ∧ d.length = dst.length ∧
      ∀ i, i < s.outputLength → d[i]? = (doAntiAlias s (src.take s.inputLength)).2[s.decFactor * i]? := by
  have hlen : (doAntiAlias s (src.take s.inputLength)).2.length = s.inputLength := by
    rw [(doAlias_frame _ s).2.2.2.2.2, List.length_take]; omega
  have hin : ∀ i, i < s.outputLength → s.decFactor * i < s.inputLength := by
    intro i hi
    rw [h3] at hi
    have := Nat.div_mul_le_self s.inputLength s.decFactor
    calc s.decFactor * i < s.decFactor * (s.inputLength / s.decFactor) := Nat.mul_lt_mul_of_pos_left hi h5
      _ ≤ s.inputLength := by rw [Nat.mul_comm]; exact this
  obtain ⟨d, e1, e2, e3, _⟩ := pick_loop (f := fun i => (doAntiAlias s (src.take s.inputLength)).2.getD (s.decFactor * i) 0) (n := s.outputLength)
    (g := fun i dst => do
        let v ← (doAntiAlias s (src.take s.inputLength)).2[s.decFactor * i]?
        wr dst i v) h4 (by
      intro i d hi
      have := hin i hi
      rw [← hlen] at this
      simp [this])
  refine ⟨d, ?_, e2, fun i hi => ?_⟩
  · unfold decimate
    rw [if_neg h1, if_neg (by omega)]
    dsimp only
    rw [bind_ok e1]
  · have := hin i hi
    rw [← hlen] at this
    rw [e3 i hi]
    simp [this]

theorem decimate_poisoned (s : Decimator.State Num) (src dst : List Num) (h : PoisonedD s) (h2 : s.inputLength ≤ src.length)
    (h3 : s.outputLength = s.inputLength / s.decFactor) (h4 : s.outputLength = dst.length) (h5 : 0 < s.decFactor) :
    ∃ s', decimate s src dst = some (s', List.replicate s.outputLength .nan) ∧ PoisonedD s' := by
  obtain ⟨d, e1, e2, e3⟩ := decimate_some s src dst h.1 h2 h3 h4.le h5
  obtain ⟨p1, p2⟩ := doAlias_poisoned (src.take s.inputLength) s h.2
  have hf := doAlias_frame (src.take s.inputLength) s
  refine ⟨_, ?_, by rw [hf.2.2.1]; exact h.1, p1⟩
  rw [e1]
  congr 2
  apply List.ext_getElem?
  intro i
  by_cases hi : i < s.outputLength
  · rw [e3 i hi, p2, List.getElem?_replicate, List.getElem?_replicate, if_pos hi, if_pos]
    rw [List.length_take]
    rw [h3] at hi
    have := Nat.div_mul_le_self s.inputLength s.decFactor
    calc s.decFactor * i < s.decFactor * (s.inputLength / s.decFactor) := Nat.mul_lt_mul_of_pos_left hi h5
      _ ≤ min s.inputLength src.length := by rw [Nat.mul_comm]; omega
  · rw [List.getElem?_eq_none (by omega), List.getElem?_replicate, if_neg hi]

theorem loop_len {S : Type} (m : S → Nat) {f : Nat → S → Option S} (hf : ∀ i a b, f i a = some b → m b = m a) :
    ∀ (n : Nat) (s t : S), loop n f s = some t → m t = m s := by
  intro n
  induction n with
  | zero =>
    intro s t h
    have : s = t := by simpa [loop] using h
    rw [this]
  | succ n ih =>
    intro s t h
    obtain ⟨u, h1, h2⟩ := Option.bind_eq_some_iff.mp h
    rw [hf n u t h2, ih s u h1]

theorem wr_len {α : Type} {l l' : List α} {i : Nat} {v : α} (h : wr l i v = some l') : l'.length = l.length := by
  by_cases hi : i < l.length
  · rw [wr_some _ hi, Option.some.injEq] at h; subst h; simp
  · rw [wr_none _ (by omega)] at h; cases h

theorem bind_wr_len {α β : Type} {o : Option β} {g : β → α} {l l' : List α} {i : Nat} (h : (o.bind fun v => wr l i (g v)) = some l') : l'.length = l.length := by
  obtain ⟨v, _, hv⟩ := Option.bind_eq_some_iff.mp h
  exact wr_len hv

theorem decimate_length {s s' : Decimator.State Num} {src dst out : List Num} (e : decimate s src dst = some (s', out)) : out.length = dst.length := by
  unfold decimate at e
  split at e
  · obtain ⟨d, h, hd⟩ := Option.bind_eq_some_iff.mp e
    simp only [Option.some.injEq, Prod.mk.injEq] at hd
    rw [← hd.2]
    exact loop_len List.length (fun i a b h => bind_wr_len (g := id) h) _ _ _ h
  · split at e
    · cases e
    · dsimp only at e
      obtain ⟨d, h, hd⟩ := Option.bind_eq_some_iff.mp e
      simp only [Option.some.injEq, Prod.mk.injEq] at hd
      rw [← hd.2]
      exact loop_len List.length (fun i a b h => bind_wr_len (g := id) h) _ _ _ h

/-! ## Keys -/

theorem krum_nan (data prof : List Num) (shift : Int) (hd : data.length = 36) (hp : prof.length = 36) (hs : -2 ≤ shift) (hs2 : shift ≤ 36)
    (hn : ∀ x ∈ data, x = .nan) : krumCorr data prof shift 36 = some 0 := by
  have hnan : ∀ i, i < 36 → data[i]? = some .nan := by
    intro i hi
    have h : i < data.length := by omega
    rw [List.getElem?_eq_getElem h, hn _ (List.getElem_mem h)]
  obtain ⟨s, h1, h2⟩ := loop_inv 36 (fun i (s : Num × Num × Num) => do
    let k := ((i : Int) - shift + (36 : Nat)).tmod (36 : Nat)
    let d ← data[i]?
    let p ← rdI prof k
    pure (s.1 + d * p, s.2.1 + d * d, s.2.2 + p * p)) (0, 0, 0) (fun i s => 0 < i → s.2.1 = .nan) (by simp) (by
    intro i s hi _
    have hk0 : 0 ≤ ((i : Int) - shift + (36 : Nat)).tmod (36 : Nat) := Int.tmod_nonneg _ (by omega)
    have hk1 : ((i : Int) - shift + (36 : Nat)).tmod (36 : Nat) < 36 := Int.tmod_lt_of_pos _ (by omega)
    obtain ⟨k, hk⟩ := Int.eq_ofNat_of_zero_le hk0
    have hkl : k < prof.length := by omega
    dsimp only
    rw [hnan i hi, hk, bind_ok (a := Num.nan) rfl]
    rw [show rdI prof (k : Int) = some prof[k] by rw [rdI_natCast, List.getElem?_eq_getElem hkl], bind_ok (a := prof[k]) rfl]
    exact ⟨_, rfl, fun _ => by simp⟩)
  unfold krumCorr
  rw [bind_ok h1]
  dsimp only
  rw [h2 (by omega)]
  simp

theorem getMax_zero : getMax (List.replicate 36 (0 : Num)) = some (0, 0) := by
  have key : ∀ n m : Nat, ((List.replicate n (0 : Num)).foldl (fun (s : Nat × Nat × Num) temp =>
      if s.2.2.lt temp then (s.1 + 1, s.1, temp) else (s.1 + 1, s.2.1, s.2.2)) (m, 0, 0)).2 = (0, 0) := by
    intro n
    induction n with
    | zero => intro m; rfl
    | succ n ih =>
      intro m
      rw [List.replicate_succ, List.foldl_cons, if_neg (by simp [Num.zero_eq, Num.lt])]
      exact ih _
  have : getMax (List.replicate 36 (0 : Num)) = some ((List.replicate 36 (0 : Num)).foldl (fun (s : Nat × Nat × Num) temp =>
      if s.2.2.lt temp then (s.1 + 1, s.1, temp) else (s.1 + 1, s.2.1, s.2.2)) (0, 0, 0)).2 := rfl
  rw [this, key]

theorem rawKey_zero : rawKey (List.replicate 36 0) (List.replicate 36 0) = some 13 := by
  unfold rawKey
  rw [bind_ok getMax_zero, bind_ok getMax_zero]
  dsimp only
  rw [if_neg (by simp [Num.zero_eq, Num.lt])]
  rfl

theorem foldl_nan (l : List Num) : l.foldl (· + ·) .nan = .nan := by
  induction l with
  | nil => rfl
  | cons x l ih => rw [List.foldl_cons, Num.nan_add, ih]

theorem foldl_mem (l : List Num) (s : Num) (h : .nan ∈ l) : l.foldl (· + ·) s = .nan := by
  obtain ⟨p, q, rfl⟩ := List.append_of_mem h
  rw [List.foldl_append, List.foldl_cons, Num.add_nan, foldl_nan]

/-- The shape of the arrays of a key detector. -/
structure Shape (c m : Nat) (s : Key) : Prop where
  cs : s.ints.cs = c
  ms : s.ints.ms = m
  idx : s.ints.idx < c
  cfill : s.ints.cfill ≤ c
  full : s.ints.idx < s.ints.cfill ∨ s.ints.cfill = s.ints.idx
  chroma : s.chroma.length = 36 * c
  mean : s.mean.length = 36
  majNorm : s.majNorm.length = 36
  minNorm : s.minNorm.length = 36
  maj : s.maj.length = 36
  min : s.min.length = 36
  mfill : s.ints.mfill ≤ m
  med : s.ints.med.length = m
  sorted : s.ints.sorted.length = m

theorem average_nan {cs ms : Nat} {s : Key} (h : Shape cs ms s) (frame : List Num) (hf : frame.length = 36) (hn : .nan ∈ frame) :
    ∃ chroma idx cfill mean, average s frame = some (chroma, idx, cfill, mean) ∧ chroma.length = 36 * cs ∧ idx < cs ∧ cfill ≤ cs ∧
      (idx < cfill ∨ cfill = idx) ∧ mean.length = 36 ∧ ∀ x ∈ mean, x = .nan := by
  have hcs : 0 < cs := by have := h.idx; omega
  -- the frame is stored
  have hroom : s.ints.idx * 36 + 36 ≤ s.chroma.length := by rw [h.chroma]; have := h.idx; omega
  obtain ⟨chroma, c1, c2, c3⟩ := loop_inv 36 (fun j (c : List Num) => do
    let v ← frame[j]?
    wr c (s.ints.idx * 36 + j) v) s.chroma
    (fun k c => c.length = s.chroma.length ∧ ∀ j, j < k → c[s.ints.idx * 36 + j]? = frame[j]?) ⟨rfl, by simp⟩ (by
      rintro j c hj ⟨hl, hv⟩
      have hjf : j < frame.length := by omega
      rw [List.getElem?_eq_getElem hjf, bind_ok (a := frame[j]) rfl]
      refine ⟨_, wr_some _ (by omega), by simp [hl], fun i hi => ?_⟩
      by_cases he : i = j
      · subst he; rw [List.getElem?_set_self (by omega), List.getElem?_eq_getElem hjf]
      · rw [List.getElem?_set_ne (by omega)]; exact hv i (by omega))
  rw [h.chroma] at c2
  obtain ⟨idx, hidx⟩ : ∃ idx, idx = (if (s.ints.idx : Int) ≥ (s.ints.cs : Int) - 1 then 0 else s.ints.idx + 1) := ⟨_, rfl⟩
  obtain ⟨cfill, hcfill⟩ : ∃ cfill, cfill = (if s.ints.cfill ≥ s.ints.cs then s.ints.cs else s.ints.cfill + 1) := ⟨_, rfl⟩
  have hcs' := h.cs
  have hi1 := h.idx
  have hc1 := h.cfill
  have hfu := h.full
  have hcle : cfill ≤ cs ∧ s.ints.idx < cfill := by
    rw [hcfill, hcs']
    split <;> omega
  have hidx' : idx < cs ∧ (idx < cfill ∨ cfill = idx) := by
    rw [hidx, hcfill, hcs']
    split <;> split <;> omega
  -- the mean before the mean of the bins is removed
  have hinner : ∀ k, k < 36 → ∃ v, loop cfill (fun j (acc : Num) => do
      let v ← chroma[k + j * 36]?
      pure (acc + v)) 0 = some v ∧ (frame[k]? = some .nan → v = .nan) := by
    intro k hk
    obtain ⟨v, h1, h2⟩ := loop_inv cfill (fun j (acc : Num) => do
      let v ← chroma[k + j * 36]?
      pure (acc + v)) 0 (fun j acc => s.ints.idx < j → frame[k]? = some .nan → acc = .nan) (by simp) (by
        intro j acc hj hp
        have hlt : k + j * 36 < chroma.length := by omega
        rw [List.getElem?_eq_getElem hlt]
        refine ⟨_, rfl, fun hij hfn => ?_⟩
        by_cases he : j = s.ints.idx
        · have := c3 k hk
          rw [hfn, show s.ints.idx * 36 + k = k + j * 36 by rw [he]; omega, List.getElem?_eq_getElem hlt, Option.some.injEq] at this
          rw [this]; simp
        · rw [hp (by omega) hfn]; simp)
    exact ⟨v, h1, h2 hcle.2⟩
  choose! g hg1 hg2 using hinner
  obtain ⟨mean, m1, m2, m3, _⟩ := pick_loop (f := fun k => g k / .val cfill) (n := 36) (dst := s.mean) (g := fun k (m : List Num) => do
    let v ← loop cfill (fun j (acc : Num) => do
      let v ← chroma[k + j * 36]?
      pure (acc + v)) 0
    wr m k (v / .val cfill)) (by rw [h.mean]) (by
      intro k m hk
      rw [bind_ok (hg1 k hk)])
  rw [h.mean] at m2
  have hmn : .nan ∈ mean := by
    obtain ⟨k, hk⟩ := List.mem_iff_getElem?.mp hn
    have hkl : k < 36 := by have := (List.getElem?_eq_some_iff.mp hk).1; omega
    have := m3 k hkl
    rw [hg2 k hkl hk, Num.nan_div] at this
    exact List.mem_of_getElem? this
  have hmh : mean.foldl (· + ·) 0 / Num.val (mean.length : ℝ) = .nan := by rw [foldl_mem _ _ hmn, Num.nan_div]
  obtain ⟨mean', n1, n2, n3⟩ := loop_inv 36 (fun k (m : List Num) => do
    let v ← m[k]?
    wr m k (v - .nan)) mean (fun k m => m.length = 36 ∧ ∀ j, j < k → m[j]? = some .nan) ⟨m2, by simp⟩ (by
      rintro k m hk ⟨hl, hv⟩
      have hkl : k < m.length := by omega
      rw [List.getElem?_eq_getElem hkl, bind_ok (a := m[k]) rfl]
      refine ⟨_, wr_some _ hkl, by simp [hl], fun j hj => ?_⟩
      by_cases he : j = k
      · subst he; rw [List.getElem?_set_self hkl, Num.sub_nan]
      · rw [List.getElem?_set_ne (Ne.symm he)]; exact hv j (by omega))
  refine ⟨chroma, idx, cfill, mean', ?_, c2, hidx'.1, hcle.1, hidx'.2, n2, fun x hx => ?_⟩
  · unfold average
    rw [bind_ok c1]
    dsimp only
    rw [← hidx, ← hcfill, bind_ok m1]
    rw [hmh, bind_ok n1]
    rfl
  · obtain ⟨j, hj⟩ := List.mem_iff_getElem?.mp hx
    have hjl : j < 36 := by have := (List.getElem?_eq_some_iff.mp hj).1; omega
    have := n3 j hjl
    rw [hj, Option.some.injEq] at this
    exact this

theorem average_shape {cs ms : Nat} {s : Key} (h : Shape cs ms s) {frame chroma mean : List Num} {idx cfill : Nat} (e : average s frame = some (chroma, idx, cfill, mean)) :
    chroma.length = 36 * cs ∧ idx < cs ∧ cfill ≤ cs ∧ (idx < cfill ∨ cfill = idx) ∧ mean.length = 36 := by
  unfold average at e
  obtain ⟨c, e1, e⟩ := Option.bind_eq_some_iff.mp e
  dsimp only at e
  obtain ⟨m1, e2, e⟩ := Option.bind_eq_some_iff.mp e
  obtain ⟨m2, e3, e⟩ := Option.bind_eq_some_iff.mp e
  simp only [pure, Option.some.injEq, Prod.mk.injEq] at e
  obtain ⟨rfl, hidx, hcf, rfl⟩ := e
  have hcs' := h.cs
  have hi1 := h.idx
  have hc1 := h.cfill
  have hfu := h.full
  rw [← hidx, ← hcf, hcs']
  refine ⟨?_, ?_, ?_, ?_, ?_⟩
  · rw [loop_len List.length (fun i a b h => bind_wr_len (g := id) h) _ _ _ e1, h.chroma]
  · split <;> omega
  · split <;> omega
  · split <;> split <;> omega
  · rw [loop_len List.length (fun i a b h => bind_wr_len h) _ _ _ e3, loop_len List.length (fun i a b h => bind_wr_len h) _ _ _ e2, h.mean]

theorem median_shape {s : KeyMode.KM} {key mfill key' : Nat} {med sorted : List Nat} (hmf : s.mfill ≤ s.ms) (e : KeyMode.medianKey s key = some (mfill, med, sorted, key')) :
    mfill ≤ s.ms ∧ med.length = s.med.length ∧ sorted.length = s.sorted.length := by
  unfold KeyMode.medianKey at e
  dsimp only at e
  obtain ⟨m1, e1, e⟩ := Option.bind_eq_some_iff.mp e
  obtain ⟨m2, e2, e⟩ := Option.bind_eq_some_iff.mp e
  obtain ⟨o, e3, e⟩ := Option.bind_eq_some_iff.mp e
  obtain ⟨k, e4, e⟩ := Option.bind_eq_some_iff.mp e
  simp only [pure, Option.some.injEq, Prod.mk.injEq] at e
  obtain ⟨h1, rfl, h2, _⟩ := e
  refine ⟨?_, ?_, ?_⟩
  · rw [← h1]; split <;> omega
  · have : m2.length = m1.length := by
      unfold wrI at e2
      split at e2
      · cases e2
      · exact wr_len e2
    rw [this, loop_len List.length (fun i a b h => bind_wr_len (g := id) h) _ _ _ e1]
  · rw [← h2, List.length_append, List.length_mergeSort, List.length_take, List.length_drop, ← loop_len List.length (fun i a b h => bind_wr_len (g := id) h) _ _ _ e3]
    omega

theorem process_shape {cs ms : Nat} {s s' : Key} (h : Shape cs ms s) {frame : List Num} {key : Nat} (e : processKey s frame = some (s', key)) : Shape cs ms s' := by
  unfold processKey at e
  obtain ⟨⟨chroma, idx, cfill, mean⟩, e1, e⟩ := Option.bind_eq_some_iff.mp e
  dsimp only at e
  obtain ⟨maj, e2, e⟩ := Option.bind_eq_some_iff.mp e
  obtain ⟨min, e3, e⟩ := Option.bind_eq_some_iff.mp e
  obtain ⟨k, e4, e⟩ := Option.bind_eq_some_iff.mp e
  obtain ⟨⟨mfill, med, sorted, k'⟩, e5, e⟩ := Option.bind_eq_some_iff.mp e
  simp only [pure, Option.some.injEq, Prod.mk.injEq] at e
  rw [← e.1]
  obtain ⟨a1, a2, a3, a4, a5⟩ := average_shape h e1
  obtain ⟨b1, b2, b3⟩ := median_shape (by rw [h.ms]; exact h.mfill) e5
  rw [h.ms] at b1
  rw [h.med] at b2
  rw [h.sorted] at b3
  exact ⟨h.cs, h.ms, a2, a3, a4, a1, a5, h.majNorm, h.minNorm, by rw [loop_len List.length (fun i a b h => bind_wr_len (g := id) h) _ _ _ e2, h.maj],
    by rw [loop_len List.length (fun i a b h => bind_wr_len (g := id) h) _ _ _ e3, h.min], b1, b2, b3⟩

/-- The median buffer: its last `j` keys are 13. -/
def Tail13 (j : Nat) (s : Key) : Prop := ∀ t, t < j → t < s.ints.ms → s.ints.med[s.ints.ms - 1 - t]? = some 13

theorem median_13 (s : KeyMode.KM) (hms : 0 < s.ms) (hmf : s.mfill ≤ s.ms) (hmed : s.med.length = s.ms) (hsort : s.sorted.length = s.ms) (j : Nat)
    (ht : ∀ t, t < j → t < s.ms → s.med[s.ms - 1 - t]? = some 13) :
    ∃ mfill med sorted key, KeyMode.medianKey s 13 = some (mfill, med, sorted, key) ∧ mfill ≤ s.ms ∧ med.length = s.ms ∧ sorted.length = s.ms ∧
      (∀ t, t < j + 1 → t < s.ms → med[s.ms - 1 - t]? = some 13) ∧ (s.ms ≤ j + 1 → key = 13) := by
  obtain ⟨mfill, hmfill⟩ : ∃ m, m = (if s.mfill ≥ s.ms then s.ms else s.mfill + 1) := ⟨_, rfl⟩
  have hm : 1 ≤ mfill ∧ mfill ≤ s.ms := by rw [hmfill]; split <;> omega
  obtain ⟨m1, a1, a2, a3⟩ := loop_inv (s.ms - 1) (fun t (m : List Nat) => do
      let v ← m[t + 1]?
      wr m t v) s.med (fun i m => m.length = s.ms ∧ ∀ j : Nat, j < s.ms → m[j]? = if j < i then s.med[j + 1]? else s.med[j]?)
    ⟨hmed, fun j hj => by simp⟩
    (by
      rintro i m hi ⟨h1, h2⟩
      have hlt : i + 1 < s.med.length := by omega
      have hg : m[i + 1]? = some s.med[i + 1] := by
        rw [h2 (i + 1) (by omega), if_neg (by omega), List.getElem?_eq_getElem hlt]
      refine ⟨m.set i s.med[i + 1], by rw [hg]; exact wr_some _ (by omega), by simp [h1], fun j hj => ?_⟩
      by_cases he : j = i
      · subst he
        rw [List.getElem?_set_self (by omega), if_pos (by omega), List.getElem?_eq_getElem hlt]
      · rw [List.getElem?_set_ne (Ne.symm he), h2 j hj]
        by_cases hji : j < i
        · rw [if_pos hji, if_pos (by omega)]
        · rw [if_neg hji, if_neg (by omega)])
  have hw : wrI m1 ((s.ms : Int) - 1) 13 = some (m1.set (s.ms - 1) 13) := by
    rw [show (s.ms : Int) - 1 = ((s.ms - 1 : Nat) : Int) by omega, wrI_natCast]; exact wr_some _ (by omega)
  have htail : ∀ t, t < j + 1 → t < s.ms → (m1.set (s.ms - 1) 13)[s.ms - 1 - t]? = some 13 := by
    intro t h1 h2
    by_cases h0 : t = 0
    · subst h0
      rw [Nat.sub_zero, List.getElem?_set_self (by omega)]
    · rw [List.getElem?_set_ne (by omega), a3 _ (by omega), if_pos (by omega)]
      have := ht (t - 1) (by omega) (by omega)
      rw [← this]; congr 1; omega
  obtain ⟨srt, b1, b2, b3⟩ := loop_inv s.ms (fun k (o : List Nat) => do
      let v ← rdI (m1.set (s.ms - 1) 13) ((s.ms : Int) - 1 - (k : Int))
      wr o k v) s.sorted (fun i o => o.length = s.ms ∧ ∀ j : Nat, j < i → o[j]? = (m1.set (s.ms - 1) 13)[s.ms - 1 - j]?)
    ⟨hsort, by simp⟩ (by
      rintro k o hk ⟨h1, h2⟩
      have hlt : s.ms - 1 - k < (m1.set (s.ms - 1) 13).length := by simp; omega
      rw [show (s.ms : Int) - 1 - (k : Int) = ((s.ms - 1 - k : Nat) : Int) by omega, rdI_natCast, List.getElem?_eq_getElem hlt]
      refine ⟨_, wr_some _ (by omega), by simp [h1], fun j hj => ?_⟩
      by_cases he : j = k
      · subst he; rw [List.getElem?_set_self (by omega), List.getElem?_eq_getElem hlt]
      · rw [List.getElem?_set_ne (Ne.symm he)]; exact h2 j (by omega))
  have hsl : ((srt.take mfill).mergeSort (fun a b => decide (a ≤ b)) ++ srt.drop mfill).length = s.ms := by
    rw [List.length_append, List.length_mergeSort, List.length_take, List.length_drop]; omega
  have hmid : (if (mfill + 1) / 2 ≤ 0 then 1 else (mfill + 1) / 2) = (mfill + 1) / 2 := if_neg (by omega)
  have hlt : (mfill + 1) / 2 - 1 < ((srt.take mfill).mergeSort (fun a b => decide (a ≤ b)) ++ srt.drop mfill).length := by omega
  refine ⟨mfill, m1.set (s.ms - 1) 13, (srt.take mfill).mergeSort (fun a b => decide (a ≤ b)) ++ srt.drop mfill,
    ((srt.take mfill).mergeSort (fun a b => decide (a ≤ b)) ++ srt.drop mfill)[(mfill + 1) / 2 - 1], ?_, hm.2, by simp [a2], hsl, htail, ?_⟩
  · unfold KeyMode.medianKey
    dsimp only
    rw [← hmfill, bind_ok a1, bind_ok hw, bind_ok b1, hmid, List.getElem?_eq_getElem hlt]
    rfl
  · intro hj
    have hall : ∀ x ∈ srt, x = 13 := by
      intro x hx
      obtain ⟨i, hi⟩ := List.mem_iff_getElem?.mp hx
      have hil : i < s.ms := by have := (List.getElem?_eq_some_iff.mp hi).1; omega
      rw [b3 i hil, htail i (by omega) hil, Option.some.injEq] at hi
      exact hi.symm
    have hmem := List.getElem_mem hlt
    rcases List.mem_append.mp hmem with h | h
    · exact hall _ (List.mem_of_mem_take (List.mem_mergeSort.mp h))
    · exact hall _ (List.mem_of_mem_drop h)

/-- A chroma frame with a NaN in it gives the raw key 13. -/
theorem process_nan {cs ms : Nat} (hms : 0 < ms) {s : Key} (h : Shape cs ms s) (frame : List Num) (hf : frame.length = 36) (hn : .nan ∈ frame) (j : Nat)
    (ht : Tail13 j s) : ∃ s' key, processKey s frame = some (s', key) ∧ Shape cs ms s' ∧ Tail13 (j + 1) s' ∧ (ms ≤ j + 1 → key = 13) := by
  obtain ⟨chroma, idx, cfill, mean, a1, a2, a3, a4, a5, a6, a7⟩ := average_nan h frame hf hn
  have hcorr : ∀ (norm old : List Num), norm.length = 36 → old.length = 36 → loop 36 (fun k (a : List Num) => do
      let c ← krumCorr mean norm ((k : Int) - 2) 36
      wr a k c) old = some (List.replicate 36 0) := by
    intro norm old h1 h2
    obtain ⟨d, e1, e2, e3, _⟩ := pick_loop (f := fun _ => (0 : Num)) (n := 36) (dst := old) (g := fun k (a : List Num) => do
      let c ← krumCorr mean norm ((k : Int) - 2) 36
      wr a k c) (by omega) (by
        intro k a hk
        rw [bind_ok (krum_nan mean norm _ a6 h1 (by omega) (by omega) a7)])
    rw [e1]
    congr 1
    apply List.ext_getElem?
    intro i
    by_cases hi : i < 36
    · rw [e3 i hi, List.getElem?_replicate, if_pos hi]
    · rw [List.getElem?_eq_none (by omega), List.getElem?_replicate, if_neg hi]
  have hM := h.ms
  obtain ⟨mfill, med, sorted, key, m1, m2, m3, m4, m5, m6⟩ := median_13 s.ints (by rw [hM]; exact hms) (by rw [hM]; exact h.mfill) (by rw [hM]; exact h.med)
    (by rw [hM]; exact h.sorted) j ht
  rw [hM] at m2 m3 m4 m6
  refine ⟨⟨{ s.ints with idx := idx, cfill := cfill, mfill := mfill, med := med, sorted := sorted }, chroma, mean, s.majNorm, s.minNorm,
    List.replicate 36 0, List.replicate 36 0⟩, key, ?_, ⟨h.cs, h.ms, a3, a4, a5, a2, a6, h.majNorm, h.minNorm, by simp, by simp, m2, m3, m4⟩, m5, m6⟩
  unfold processKey
  rw [bind_ok a1]
  dsimp only
  rw [bind_ok (hcorr _ _ h.majNorm h.maj), bind_ok (hcorr _ _ h.minNorm h.min), bind_ok rawKey_zero, bind_ok m1]
  rfl

end QM.Nan
