import Verif.Kiss.Work
import Verif.Common.Fill
import Mathlib.Algebra.BigOperators.Group.List.Basic

namespace QM.Kiss

open Complex QM.DFT

/-! ## C21 -/

theorem chain_prod : ∀ (fac : List (Nat × Nat)) (n : Nat), Chain n fac → (fac.map (·.1)).prod = n := by
  intro fac
  induction fac with
  | nil => intro n h; exact h.elim
  | cons pm rest ih =>
    obtain ⟨p, m⟩ := pm
    intro n ⟨h1, _, _, h4⟩
    by_cases hm : m = 1
    · rw [if_pos hm] at h4
      subst h4 hm
      simp; omega
    · rw [if_neg hm] at h4
      simp [ih m h4, h1]

/-- C21: for every size from 1 to `INT_MAX`, `kf_factor` terminates without overflowing its 32 stages, and the list it stores
is a factorisation of `n` (`Chain`): each radix times its length is the length before it, the last length is 1, so the radices
multiply to `n`. Every radix is 4 or a prime when `n ≥ 2`. -/
theorem C21_factorisation (n : Nat) (h1 : 1 ≤ n) (h2 : n ≤ 2147483647) :
    ∃ fac, factor n = some fac ∧ Chain n fac ∧ fac.length ≤ 32 ∧ (fac.map (·.1)).prod = n ∧
      (∀ e ∈ fac, e.1 = 4 ∨ e.1.Prime ∨ n = 1) := by
  by_cases hn : n = 1
  · subst hn
    exact ⟨[(1, 1)], factor_one, ⟨rfl, le_refl 1, le_refl 1, by simp⟩, by simp, by simp, fun e _ => Or.inr (Or.inr rfl)⟩
  · obtain ⟨fac, e1, e2, e3, e4⟩ := factorFrom_spec (N := n) 32 n 4 (by omega) (le_refl n) (by norm_num; omega) (Or.inl rfl)
    refine ⟨fac, e1, e2, e3, chain_prod fac n e2, fun e he => ?_⟩
    rcases e4 e he with h | h
    · exact Or.inl h
    · exact Or.inr (Or.inl h)

example : factor 60 = some [(4, 15), (3, 5), (5, 1)] := by
  have hs : Nat.sqrt 60 = 7 := by decide +kernel
  have a : nextRadix 7 60 4 = 4 := by rw [nextRadix]; rfl
  have b : nextRadix 7 15 4 = 3 := by
    rw [nextRadix, if_neg (by decide), show bump 7 15 4 = 2 from rfl, nextRadix, if_neg (by decide),
      show bump 7 15 2 = 3 from rfl, nextRadix]; rfl
  have c : nextRadix 7 5 3 = 5 := by
    rw [nextRadix, if_neg (by decide), show bump 7 5 3 = 5 from rfl, nextRadix]; rfl
  simp [factor, hs, factorFrom, a, b, c]

/-- A plan is made for every size from 1 to `INT_MAX`. -/
theorem alloc_ok (n : Nat) (inv : Bool) (h1 : 1 ≤ n) (h2 : n ≤ 2147483647) :
    ∃ st, alloc n inv = some st ∧ PlanOk st n ∧ st.inverse = inv ∧ Chain n st.factors := by
  obtain ⟨fac, e1, e2, _⟩ := C21_factorisation n h1 h2
  refine ⟨⟨n, inv, fac, (List.range n).map (fun i => kfCexp (phase n inv i))⟩, ?_, ⟨rfl, by simp, ?_⟩, rfl, e2⟩
  · simp [alloc, e1]
  · intro i hi
    simp [hi, twiddle_eq]

/-! ## C22 for `kiss_fft` -/

/-- C22: `kiss_fft` into a separate buffer computes the discrete Fourier transform, for every size and thus every mixture of
radices, without any access out of bounds, and writes nothing beyond the `n` results. -/
theorem C22_kiss_fft (n : Nat) (inv : Bool) (h1 : 1 ≤ n) (h2 : n ≤ 2147483647) (fin fout tmp : List ℂ)
    (hi : n ≤ fin.length) (ho : n ≤ fout.length) :
    ∃ st out, alloc n inv = some st ∧ fft st fin fout tmp false = some out ∧ out.length = fout.length ∧
      (∀ k, k < n → out[k]? = some (dft inv n (fun j => fin.getD j 0) k)) ∧
      (∀ k, n ≤ k → out[k]? = fout[k]?) := by
  obtain ⟨st, e1, e2, e3, e4⟩ := alloc_ok n inv h1 h2
  obtain ⟨out, f1, f2, f3, f4⟩ := work_ok (fin := fin) (inStride := 1) e2 (by omega) st.factors n 1 0 0 fout e4 (by simp) (by omega)
    (by intro j hj; omega)
  refine ⟨st, out, e1, by simpa [fft, fftStride] using f1, f2, fun k hk => ?_, fun k hk => f4 k (by omega)⟩
  have := f3 k hk
  rw [Nat.zero_add] at this
  rw [this, dft_eq, e3]
  congr 1
  refine Finset.sum_congr rfl fun j _ => ?_
  simp [get]

/-- C22: in-place use of `kiss_fft` (through a temporary buffer of unknown content) gives the same result. -/
theorem C22_kiss_fft_in_place (n : Nat) (inv : Bool) (h1 : 1 ≤ n) (h2 : n ≤ 2147483647) (buf tmp : List ℂ)
    (hi : n ≤ buf.length) (ht : n ≤ tmp.length) :
    ∃ st out, alloc n inv = some st ∧ fft st buf buf tmp true = some out ∧ out.length = buf.length ∧
      (∀ k, k < n → out[k]? = some (dft inv n (fun j => buf.getD j 0) k)) ∧
      (∀ k, n ≤ k → out[k]? = buf[k]?) := by
  obtain ⟨st, t, e1, e2, e3, e4, e5⟩ := C22_kiss_fft n inv h1 h2 buf (tmp.take n) [] hi (by simp; omega)
  obtain ⟨st', e1', hok, _, _⟩ := alloc_ok n inv h1 h2
  have hst : st = st' := by rw [e1] at e1'; exact Option.some.inj e1'
  have hn : st.nfft = n := by rw [hst]; exact hok.nfft
  obtain ⟨out, g1, g2, g3, g4⟩ := fill_ok n (fun i b => do
      let v ← t[i]?
      wr b i v) (fun k => dft inv n (fun j => buf.getD j 0) k) buf hi
    (by
      intro i b1 hi' hl _ _
      simp only [e4 i hi', Option.bind_eq_bind, Option.bind_some]
      rw [wr_some _ (by omega)])
  refine ⟨st, out, e1, ?_, g2, g3, g4⟩
  have hw : work st buf 1 st.factors 1 0 0 (tmp.take n) = some t := by simpa [fft, fftStride] using e2
  simp only [fft, fftStride, if_true, hn, hw, Option.bind_eq_bind, Option.bind_some]
  exact g1

end QM.Kiss
