import Verif.Kiss.Model
import Mathlib.Data.Nat.Prime.Basic
import Mathlib.Tactic.Linarith

namespace QM.Kiss

/-- A list of (radix, length) pairs is a factorisation of `n`: each radix times its length is the length before, all
are positive, and the last length is 1. -/
def Chain : Nat → List (Nat × Nat) → Prop
  | _, [] => False
  | n, (p, m) :: rest => p * m = n ∧ 1 ≤ p ∧ 1 ≤ m ∧ (if m = 1 then rest = [] else Chain m rest)

/-- No prime below the radix divides what remains. -/
structure Good (n p : Nat) : Prop where
  two : 2 ≤ p
  odd : p = 2 ∨ p % 2 = 1
  no : ∀ q, q.Prime → q < p → ¬ q ∣ n

theorem prime_of_good {n p : Nat} (hg : Good n p) (hd : p ∣ n) : p.Prime := by
  have hp : p ≠ 1 := by have := hg.two; omega
  have h1 := Nat.minFac_prime hp
  by_contra hnp
  have hlt : p.minFac < p := by
    have hle := Nat.minFac_le (n := p) (by have := hg.two; omega)
    rcases Nat.lt_or_ge p.minFac p with h | h
    · exact h
    · have : p.minFac = p := le_antisymm hle h
      rw [this] at h1; exact absurd h1 hnp
  exact hg.no _ h1 hlt ((Nat.minFac_dvd p).trans hd)

theorem prime_of_large {N n p : Nat} (hn : 1 < n) (hN : n ≤ N) (hp : Nat.sqrt N < p)
    (hno : ∀ q, q.Prime → q < p → ¬ q ∣ n) : n.Prime := by
  by_contra hnp
  have h1 := Nat.minFac_prime (n := n) (by omega)
  have h2 := Nat.minFac_sq_le_self (by omega) hnp
  have h3 : n.minFac ≤ Nat.sqrt N := by
    rw [Nat.le_sqrt']; omega
  exact hno _ h1 (by omega) (Nat.minFac_dvd n)

theorem nextRadix_of_dvd {fs n p : Nat} (h : n % p = 0) : nextRadix fs n p = p := by
  rw [nextRadix, if_pos h]

theorem nextRadix_self (fs n : Nat) : nextRadix fs n n = n := nextRadix_of_dvd (Nat.mod_self n)

/-- The radix found from an odd radix or 2. -/
theorem nextRadix_good {N n : Nat} (hn : 1 < n) (hN : n ≤ N) :
    ∀ k p, radixMeasure (Nat.sqrt N) n p = k → Good n p →
      ∃ r, nextRadix (Nat.sqrt N) n p = r ∧ r ∣ n ∧ r.Prime ∧ Good n r := by
  intro k
  induction k using Nat.strong_induction_on with
  | _ k ih =>
    intro p hk hg
    by_cases hd : n % p = 0
    · exact ⟨p, nextRadix_of_dvd hd, Nat.dvd_of_mod_eq_zero hd,
        prime_of_good hg (Nat.dvd_of_mod_eq_zero hd), hg⟩
    · rw [nextRadix, if_neg hd]
      have hm := radixMeasure_bump (Nat.sqrt N) n p hd
      rw [hk] at hm
      have hnd : ¬ p ∣ n := fun h => hd (Nat.mod_eq_zero_of_dvd h)
      have h4 : p ≠ 4 := by rcases hg.odd with h | h <;> omega
      -- the next candidate is good
      have hg' : Good n (if p = 2 then 3 else p + 2) := by
        have h2 := hg.two
        by_cases he : p = 2
        · subst he
          rw [if_pos rfl]
          refine ⟨by omega, Or.inr (by omega), fun q hq hlt => ?_⟩
          have : q = 2 := by have := hq.two_le; omega
          subst this; exact hnd
        · rw [if_neg he]
          have ho : p % 2 = 1 := by rcases hg.odd with h | h <;> omega
          refine ⟨by omega, Or.inr (by omega), fun q hq hlt => ?_⟩
          by_cases hqp : q < p
          · exact hg.no q hq hqp
          · by_cases hq1 : q = p
            · subst hq1; exact hnd
            · have hq2 : q = p + 1 := by omega
              rcases hq.eq_two_or_odd with h | h <;> omega
      have hb : bump (Nat.sqrt N) n p =
          if (if p = 2 then 3 else p + 2) > Nat.sqrt N then n else (if p = 2 then 3 else p + 2) := by
        unfold bump; simp only [h4, if_false]
      by_cases hf : (if p = 2 then 3 else p + 2) > Nat.sqrt N
      · rw [if_pos hf] at hb
        rw [hb, nextRadix_self]
        have hpr := prime_of_large hn hN hf hg'.no
        refine ⟨n, rfl, dvd_refl n, hpr, ⟨by omega, hpr.eq_two_or_odd, fun q hq hlt hdv => ?_⟩⟩
        rcases (Nat.dvd_prime hpr).mp hdv with h | h
        · exact hq.one_lt.ne' h
        · omega
      · rw [if_neg hf] at hb
        rw [hb] at hm ⊢
        exact ih _ hm _ rfl hg'

theorem nextRadix_spec {N n p : Nat} (hn : 1 < n) (hN : n ≤ N) (hg : p = 4 ∨ Good n p) :
    ∃ r, nextRadix (Nat.sqrt N) n p = r ∧ r ∣ n ∧ (r = 4 ∨ r.Prime) ∧ (r = 4 ∨ Good n r) := by
  rcases hg with rfl | hg
  · by_cases hd : n % 4 = 0
    · exact ⟨4, nextRadix_of_dvd hd, Nat.dvd_of_mod_eq_zero hd, Or.inl rfl, Or.inl rfl⟩
    · rw [nextRadix, if_neg hd]
      by_cases hf : 2 > Nat.sqrt N
      · have hb : bump (Nat.sqrt N) n 4 = n := by simp [bump, hf]
        have hpr := prime_of_large hn hN (p := 2) hf (fun q hq hlt => by have := hq.two_le; omega)
        rw [hb, nextRadix_self]
        refine ⟨n, rfl, dvd_refl n, Or.inr hpr, Or.inr ⟨by omega, hpr.eq_two_or_odd, fun q hq hlt hdv => ?_⟩⟩
        rcases (Nat.dvd_prime hpr).mp hdv with h | h
        · exact hq.one_lt.ne' h
        · omega
      · have hb : bump (Nat.sqrt N) n 4 = 2 := by simp [bump]; omega
        rw [hb]
        obtain ⟨r, h1, h2, h3, h4⟩ := nextRadix_good hn hN _ 2 rfl
          ⟨le_refl 2, Or.inl rfl, fun q hq hlt => by have := hq.two_le; omega⟩
        exact ⟨r, h1, h2, Or.inr h3, Or.inr h4⟩
  · obtain ⟨r, h1, h2, h3, h4⟩ := nextRadix_good hn hN _ p rfl hg
    exact ⟨r, h1, h2, Or.inr h3, Or.inr h4⟩

theorem factorFrom_spec {N : Nat} : ∀ cap n p, 1 < n → n ≤ N → n < 2 ^ cap → (p = 4 ∨ Good n p) →
    ∃ fac, factorFrom (Nat.sqrt N) cap n p = some fac ∧ Chain n fac ∧ fac.length ≤ cap ∧
      (∀ e ∈ fac, e.1 = 4 ∨ e.1.Prime) := by
  intro cap
  induction cap with
  | zero => intro n p hn _ h; simp at h; omega
  | succ cap ih =>
    intro n p hn hN hcap hg
    obtain ⟨r, hr, hd, hpr, hg'⟩ := nextRadix_spec hn hN hg
    have hr2 : 2 ≤ r := by
      rcases hpr with h | h
      · omega
      · exact h.two_le
    obtain ⟨m, hm⟩ := hd
    have hdiv : n / r = m := by rw [hm]; exact Nat.mul_div_cancel_left m (by omega)
    have hm1 : 1 ≤ m := by
      rcases Nat.eq_zero_or_pos m with h | h
      · rw [h] at hm; omega
      · exact h
    unfold factorFrom
    simp only [hr, hdiv]
    by_cases hgt : m > 1
    · rw [if_pos hgt]
      have hle : 2 * m ≤ n := by rw [hm]; exact Nat.mul_le_mul_right m hr2
      have hgm : r = 4 ∨ Good m r := by
        rcases hg' with h | h
        · exact Or.inl h
        · exact Or.inr ⟨h.two, h.odd, fun q hq hlt hdv => h.no q hq hlt (hdv.trans ⟨r, by rw [hm]; ring⟩)⟩
      obtain ⟨fac, h1, h2, h3, h4⟩ := ih m r hgt (by omega) (by rw [pow_succ] at hcap; omega) hgm
      refine ⟨(r, m) :: fac, by rw [h1]; rfl, ⟨hm.symm, by omega, hm1, ?_⟩, by simp; omega, ?_⟩
      · rw [if_neg (by omega)]; exact h2
      · intro e he
        rcases List.mem_cons.mp he with rfl | he
        · exact hpr
        · exact h4 e he
    · rw [if_neg hgt]
      have : m = 1 := by omega
      subst this
      refine ⟨[(r, 1)], rfl, ⟨hm.symm, by omega, le_refl 1, by simp⟩, by simp, ?_⟩
      intro e he
      simp at he; subst he; exact hpr

theorem factor_one : factor 1 = some [(1, 1)] := by
  have hs : Nat.sqrt 1 = 1 := by decide +kernel
  unfold factor
  rw [hs]
  have : nextRadix 1 1 4 = 1 := by
    rw [nextRadix, if_neg (by decide)]
    exact nextRadix_self 1 1
  simp [factorFrom, this]

end QM.Kiss
