import Mathlib.Algebra.BigOperators.Fin
import Mathlib.Algebra.BigOperators.Ring.Finset
import Mathlib.Algebra.Order.BigOperators.Ring.Finset
import Mathlib.Algebra.Order.Field.Basic
import Mathlib.Tactic.Ring
import Mathlib.Tactic.Linarith

/-! Sums over all state paths, and their computation by forward and backward recursions. -/

namespace QM.Hmm

variable {K : Type} [Field K]

/-- State at time `t` of a path of length `T` (0 outside it). -/
def at' {N T : Nat} (q : Fin T → Fin N) (t : Nat) : Nat := if h : t < T then (q ⟨t, h⟩ : Nat) else 0

/-- The joint probability (density) of a state path and the observations: initial probability, then for every step the transition
probability, and at every time the probability of the observation in the state. -/
def pathProb {N T : Nat} (p0 : Nat → K) (a b : Nat → Nat → K) (q : Fin T → Fin N) : K :=
  p0 (at' q 0) * (∏ t ∈ Finset.range (T - 1), a (at' q t) (at' q (t + 1))) * ∏ t ∈ Finset.range T, b t (at' q t)

/-- The likelihood of the observations: the sum over all state paths. -/
def likelihood (N T : Nat) (p0 : Nat → K) (a b : Nat → Nat → K) : K := ∑ q : Fin T → Fin N, pathProb p0 a b q

/-- A chain weight: `u` at the start, `M t` for step `t`. -/
def chain {N T : Nat} (u : Nat → K) (M : Nat → Nat → Nat → K) (q : Fin T → Fin N) : K :=
  u (at' q 0) * ∏ t ∈ Finset.range (T - 1), M t (at' q t) (at' q (t + 1))

theorem pathProb_eq {N T : Nat} (hT : 0 < T) (p0 : Nat → K) (a b : Nat → Nat → K) (q : Fin T → Fin N) :
    pathProb p0 a b q = chain (fun i => p0 i * b 0 i) (fun t i j => a i j * b (t + 1) j) q := by
  unfold pathProb chain
  obtain ⟨n, rfl⟩ : ∃ n, T = n + 1 := ⟨T - 1, by omega⟩
  rw [Nat.add_sub_cancel, Finset.prod_range_succ', Finset.prod_mul_distrib]
  ring

/-- The forward recursion. -/
def fwd (N : Nat) (u : Nat → K) (M : Nat → Nat → Nat → K) : Nat → Nat → K
  | 0, j => u j
  | t + 1, j => ∑ i ∈ Finset.range N, fwd N u M t i * M t i j

/-- The backward recursion over `d` steps from time `t`. -/
def bwd (N : Nat) (M : Nat → Nat → Nat → K) : Nat → Nat → Nat → K
  | 0, _, _ => 1
  | d + 1, t, i => ∑ j ∈ Finset.range N, M t i j * bwd N M d (t + 1) j

theorem sum_fin {N : Nat} (f : Nat → K) : ∑ i : Fin N, f i = ∑ i ∈ Finset.range N, f i := by
  rw [Finset.sum_range]

theorem at'_snoc_lt {N T : Nat} (q : Fin T → Fin N) (i : Fin N) {t : Nat} (h : t < T) :
    at' (Fin.snoc (α := fun _ => Fin N) q i) t = at' q t := by
  unfold at'
  rw [dif_pos (by omega), dif_pos h]
  congr 1
  have : (⟨t, by omega⟩ : Fin (T + 1)) = Fin.castSucc ⟨t, h⟩ := rfl
  rw [this, Fin.snoc_castSucc]

theorem at'_snoc_last {N T : Nat} (q : Fin T → Fin N) (i : Fin N) :
    at' (Fin.snoc (α := fun _ => Fin N) q i) T = i := by
  unfold at'
  rw [dif_pos (by omega)]
  have : (⟨T, by omega⟩ : Fin (T + 1)) = Fin.last T := rfl
  rw [this, Fin.snoc_last]

/-- The sum over all paths of a chain weight and a function of the last state. -/
theorem sum_chain (N : Nat) (u : Nat → K) (M : Nat → Nat → Nat → K) (n : Nat) (g : Nat → K) :
    ∑ q : Fin (n + 1) → Fin N, chain u M q * g (at' q n) = ∑ i ∈ Finset.range N, fwd N u M n i * g i := by
  induction n generalizing g with
  | zero =>
    rw [← sum_fin (fun i => fwd N u M 0 i * g i)]
    refine Fintype.sum_equiv (Equiv.funUnique (Fin 1) (Fin N)) _ _ fun q => ?_
    simp [chain, at', fwd]
  | succ n ih =>
    rw [← (Fin.snocEquiv (fun _ : Fin (n + 2) => Fin N)).sum_comp, Fintype.sum_prod_type]
    have hstep : ∀ (i : Fin N) (q : Fin (n + 1) → Fin N),
        chain u M (Fin.snocEquiv (fun _ : Fin (n + 2) => Fin N) (i, q)) * g (at' (Fin.snocEquiv (fun _ : Fin (n + 2) => Fin N) (i, q)) (n + 1))
          = chain u M q * (M n (at' q n) i * g i) := by
      intro i q
      show chain u M (Fin.snoc (α := fun _ => Fin N) q i) * g (at' (Fin.snoc (α := fun _ => Fin N) q i) (n + 1)) = _
      rw [at'_snoc_last]
      unfold chain
      rw [show n + 1 + 1 - 1 = n + 1 by omega, Finset.prod_range_succ, at'_snoc_last, at'_snoc_lt q i (by omega), at'_snoc_lt q i (by omega),
        Finset.prod_congr rfl (fun t ht => by
          have := Finset.mem_range.mp ht
          rw [at'_snoc_lt q i (by omega), at'_snoc_lt q i (by omega)]), Nat.add_sub_cancel]
      ring
    rw [← sum_fin (fun i => fwd N u M (n + 1) i * g i)]
    refine Finset.sum_congr rfl fun i _ => ?_
    rw [Finset.sum_congr rfl (fun q _ => hstep i q), ih (fun k => M n k i * g i)]
    rw [fwd, Finset.sum_mul]
    exact Finset.sum_congr rfl fun k _ => by ring

/-- Forward and backward quantities pair to the same total at every time. -/
theorem pairing (N : Nat) (u : Nat → K) (M : Nat → Nat → Nat → K) (d t : Nat) :
    ∑ i ∈ Finset.range N, fwd N u M (t + d) i = ∑ i ∈ Finset.range N, fwd N u M t i * bwd N M d t i := by
  induction d generalizing t with
  | zero => simp [bwd]
  | succ d ih =>
    rw [show t + (d + 1) = (t + 1) + d by omega, ih (t + 1)]
    simp only [fwd, bwd, Finset.sum_mul, Finset.mul_sum]
    rw [Finset.sum_comm]
    exact Finset.sum_congr rfl fun i _ => Finset.sum_congr rfl fun j _ => by ring

theorem fwd_congr (N : Nat) (u : Nat → K) (M M' : Nat → Nat → Nat → K) (s : Nat) (h : ∀ t, t < s → M t = M' t) (j : Nat) :
    fwd N u M s j = fwd N u M' s j := by
  induction s generalizing j with
  | zero => rfl
  | succ s ih => simp only [fwd, h s (by omega), ih (fun t ht => h t (by omega))]

theorem bwd_congr (N : Nat) (M M' : Nat → Nat → Nat → K) (d s : Nat) (h : ∀ t, s ≤ t → M t = M' t) (j : Nat) :
    bwd N M d s j = bwd N M' d s j := by
  induction d generalizing s j with
  | zero => rfl
  | succ d ih =>
    simp only [bwd, h s (by omega)]
    exact Finset.sum_congr rfl fun k _ => by rw [ih (s + 1) (fun t ht => h t (by omega))]

/-- Sum over all paths weighted by a function of the states at two consecutive times. -/
theorem sum_two (N T : Nat) (u : Nat → K) (M : Nat → Nat → Nat → K) (s : Nat) (hs : s + 1 < T) (f : Nat → Nat → K) :
    ∑ q : Fin T → Fin N, chain u M q * f (at' q s) (at' q (s + 1))
      = ∑ i ∈ Finset.range N, ∑ j ∈ Finset.range N, fwd N u M s i * M s i j * f i j * bwd N M (T - 1 - (s + 1)) (s + 1) j := by
  obtain ⟨n, rfl⟩ : ∃ n, T = n + 1 := ⟨T - 1, by omega⟩
  let M' : Nat → Nat → Nat → K := fun t i j => if t = s then M t i j * f i j else M t i j
  have hc : ∀ q : Fin (n + 1) → Fin N, chain u M q * f (at' q s) (at' q (s + 1)) = chain u M' q * 1 := by
    intro q
    unfold chain
    have hm : s ∈ Finset.range (n + 1 - 1) := Finset.mem_range.mpr (by omega)
    rw [← Finset.mul_prod_erase _ _ hm, ← Finset.mul_prod_erase (Finset.range (n + 1 - 1)) (fun t => M' t (at' q t) (at' q (t + 1))) hm]
    have : ∏ t ∈ (Finset.range (n + 1 - 1)).erase s, M' t (at' q t) (at' q (t + 1)) = ∏ t ∈ (Finset.range (n + 1 - 1)).erase s, M t (at' q t) (at' q (t + 1)) :=
      Finset.prod_congr rfl fun t ht => by simp only [M', if_neg (Finset.ne_of_mem_erase ht)]
    rw [this]
    simp only [M', if_pos]
    ring
  rw [Finset.sum_congr rfl (fun q _ => hc q), sum_chain N u M' n (fun _ => 1)]
  simp only [mul_one]
  have hp := pairing N u M' (n - (s + 1)) (s + 1)
  rw [show s + 1 + (n - (s + 1)) = n by omega] at hp
  rw [hp, Nat.add_sub_cancel]
  simp only [fwd, Finset.sum_mul]
  rw [Finset.sum_comm]
  refine Finset.sum_congr rfl fun i _ => Finset.sum_congr rfl fun j _ => ?_
  rw [fwd_congr N u M' M s (fun t ht => by funext i j; simp only [M', if_neg (show t ≠ s by omega)]),
    bwd_congr N M' M _ (s + 1) (fun t ht => by funext i j; simp only [M', if_neg (show t ≠ s by omega)])]
  simp only [M', if_pos]
  ring

/-- Sum over all paths weighted by a function of the state at one time. -/
theorem sum_one (N T : Nat) (u : Nat → K) (M : Nat → Nat → Nat → K) (s : Nat) (hs : s < T) (f : Nat → K) :
    ∑ q : Fin T → Fin N, chain u M q * f (at' q s)
      = ∑ i ∈ Finset.range N, fwd N u M s i * f i * bwd N M (T - 1 - s) s i := by
  by_cases h : s + 1 < T
  · rw [sum_two N T u M s h (fun i _ => f i)]
    refine Finset.sum_congr rfl fun i _ => ?_
    rw [show T - 1 - s = (T - 1 - (s + 1)) + 1 by omega, bwd, Finset.mul_sum]
    exact Finset.sum_congr rfl fun j _ => by ring
  · obtain ⟨n, rfl⟩ : ∃ n, T = n + 1 := ⟨T - 1, by omega⟩
    obtain rfl : s = n := by omega
    rw [sum_chain, Nat.add_sub_cancel, Nat.sub_self]
    simp [bwd]

theorem sum_all (N T : Nat) (hT : 0 < T) (u : Nat → K) (M : Nat → Nat → Nat → K) :
    ∑ q : Fin T → Fin N, chain u M q = ∑ i ∈ Finset.range N, fwd N u M (T - 1) i := by
  obtain ⟨n, rfl⟩ : ∃ n, T = n + 1 := ⟨T - 1, by omega⟩
  have := sum_chain N u M n (fun _ => 1)
  simpa using this

end QM.Hmm
