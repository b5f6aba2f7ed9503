import Verif.KeyMode.Model

/-! Specification for key detection, stated without the model's state. -/

namespace QM.KeyMode

/-- The mean of `n` values. -/
noncomputable def avg (n : Nat) (x : Nat → ℝ) : ℝ := (∑ i ∈ Finset.range n, x i) / n

/-- The Pearson correlation coefficient of two series of `n` values (0 if one of them is constant). -/
noncomputable def pearson (n : Nat) (x y : Nat → ℝ) : ℝ :=
  (∑ i ∈ Finset.range n, (x i - avg n x) * (y i - avg n y)) /
    Real.sqrt ((∑ i ∈ Finset.range n, (x i - avg n x) ^ 2) * ∑ i ∈ Finset.range n, (y i - avg n y) ^ 2)

/-- A key profile laid over the chroma bins: its second value (the centre of the tonic) at bin `k - 1`. -/
noncomputable def keyProfile (tab : List Int) (k : Nat) (i : Nat) : ℝ := ((tab.getD ((i + 38 - k) % 36) 0 : Int) : ℝ) / 10000

/-- The mean over the last (at most) `cs` chroma frames of a history. -/
noncomputable def meanChroma (cs : Nat) (hist : List (List ℝ)) (k : Nat) : ℝ :=
  (((hist.drop (hist.length - cs)).map (fun f => f.getD k 0)).sum) / (min hist.length cs : Nat)

/-- `b` is the first of the 36 bins at which `f` is greatest. -/
def IsBest (f : Nat → ℝ) (b : Nat) : Prop := b < 36 ∧ (∀ k, k < 36 → f k ≤ f b) ∧ ∀ k, k < b → f k < f b

/-- The key of an averaged chroma: the semitone of the best correlated major or minor profile, major keys from 1, minor from 13. -/
def RawKey (x : Nat → ℝ) (key : Nat) : Prop :=
  ∃ bM bm, IsBest (fun k => pearson 36 x (keyProfile majTab k)) bM ∧ IsBest (fun k => pearson 36 x (keyProfile minTab k)) bm ∧
    key = if pearson 36 x (keyProfile majTab bM) > pearson 36 x (keyProfile minTab bm) then bM / 3 + 1 else bm / 3 + 13

/-- `m` is the lower median of `l`. -/
def IsLowerMedian (l : List Nat) (m : Nat) : Prop := ∃ s : List Nat, s.Perm l ∧ s.Pairwise (· ≤ ·) ∧ s[(l.length + 1) / 2 - 1]? = some m

/-- Processing a history of chroma frames. -/
noncomputable def run (s : KM) (hist : List (List ℝ)) : Option KM := hist.foldlM (fun s f => (process s f).map Prod.fst) s

end QM.KeyMode
