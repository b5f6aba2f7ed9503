import Verif.BlockSize.Lemmas
import Verif.Hmm.InvertProps

/-!
# Block sizes of the matrix routines in several threads: property theorems

C109: the routines that invert matrices ask `ilaenv_` for the size of the blocks in which they work. It keeps everything in static variables.
-/

namespace QM.BlockSize

open Prog Cell

/-- The documented answers, ext/clapack/src/ilaenv.c:57-63: the optimal block size and the minimum block size. -/
def Query.standard : Query → Nat
  | .getriMin => 2
  | _ => 64

/-- A thread on its own. -/
def alone : Nat → Prog × Mem → Option (Prog × Mem)
  | 0, x => some x
  | n + 1, x => (x.1.step x.2).bind (alone n)

theorem exec_alone {i : Nat} {q : Query} : ∀ (n : Nat) {m : Mem} {th : List Thread} {p : Prog}, th[i]? = some ⟨q, p⟩ →
    (⟨m, th⟩ : Sys).exec (List.replicate n (.run i)) = (alone n (p, m)).map fun r => ⟨r.2, th.set i ⟨q, r.1⟩⟩
  | 0, m, th, p, h => by
    obtain ⟨hi, e⟩ := List.getElem?_eq_some_iff.1 h
    show some (⟨m, th⟩ : Sys) = some ⟨m, th.set i ⟨q, p⟩⟩
    rw [← e, List.set_getElem_self]
  | n + 1, m, th, p, h => by
    have hi := (List.getElem?_eq_some_iff.1 h).1
    have h1 : (⟨m, th⟩ : Sys).next (.run i) = (p.step m).map fun r => ⟨r.2, th.set i ⟨q, r.1⟩⟩ := by
      show (th[i]?).bind _ = _
      rw [h]
      show (p.step m).bind _ = _
      cases p.step m <;> rfl
    rw [List.replicate_succ]
    show ((⟨m, th⟩ : Sys).next (.run i)).bind _ = ((p.step m).bind (alone n)).map _
    rw [h1]
    cases hs : p.step m with
    | none => rfl
    | some r =>
      show (⟨r.2, th.set i ⟨q, r.1⟩⟩ : Sys).exec _ = _
      rw [exec_alone n (p := r.1) (by rw [List.getElem?_set_self hi])]
      simp only [List.set_set, Option.bind_some]

theorem alone_query (q : Query) (m : Mem) : ∃ n m', alone n (q.prog, m) = some (.ret q.standard, m') := by
  cases q with
  | getrf k => exact ⟨44, _, rfl⟩
  | getri => exact ⟨60, _, rfl⟩
  | getriMin => exact ⟨56, _, rfl⟩
  | trtri => exact ⟨59, _, rfl⟩

/-- **C109** A call of `ilaenv_` during which no other thread calls it gives the documented answer, whatever earlier calls, even calls that overlapped, have left in the
static variables. -/
theorem C109_alone {m : Mem} {th : List Thread} {i : Nat} {t : Thread} {v : Nat} (ht : th[i]? = some t) (hv : t.left = .ret v) (q : Query) :
    ∃ n y, (⟨m, th⟩ : Sys).exec (.ask i q :: List.replicate n (.run i)) = some y ∧ y.th[i]? = some ⟨q, .ret q.standard⟩ := by
  obtain ⟨n, m', h⟩ := alone_query q m
  have hi := (List.getElem?_eq_some_iff.1 ht).1
  have h1 : (⟨m, th⟩ : Sys).next (.ask i q) = some ⟨m, th.set i ⟨q, q.prog⟩⟩ := by
    show (th[i]?).bind _ = _
    rw [ht]
    show (match t.left with
      | .ret _ => some (⟨m, th.set i ⟨q, q.prog⟩⟩ : Sys)
      | _ => none) = _
    rw [hv]
  refine ⟨n, ⟨m', (th.set i ⟨q, q.prog⟩).set i ⟨q, .ret q.standard⟩⟩, ?_, ?_⟩
  · show ((⟨m, th⟩ : Sys).next (.ask i q)).bind _ = _
    rw [h1, Option.bind_some, exec_alone n (q := q) (p := q.prog) (by rw [List.getElem?_set_self hi]), h]
    rfl
  · rw [List.getElem?_set_self (by rw [List.length_set]; exact hi)]

/-- Another call has left the name of another routine and another block size behind. -/
example : ∃ n y, (⟨fun c => if c = nb then 1 else 'T'.toNat, [⟨.trtri, .ret 1⟩]⟩ : Sys).exec (.ask 0 .getri :: List.replicate n (.run 0)) = some y ∧
    y.th[0]? = some ⟨.getri, .ret 64⟩ :=
  C109_alone (t := ⟨.trtri, .ret 1⟩) rfl rfl .getri

/-- A query is answered with `v` in some history of some number of threads. -/
def Answered (q : Query) (v : Nat) : Prop :=
  ∃ (qs : List Query) (ops : List Op) (y : Sys), (Sys.start qs).exec ops = some y ∧ ∃ i : Nat, y.th[i]? = some ⟨q, .ret v⟩

/-- **C109** (what holds in several threads) Whatever threads ask at the same time, and however their loads and stores are interleaved, every answer is the documented
one or, for the optimal block size, 1, which is the answer for code without blocks. No call gets into code for other names. -/
theorem C109_answers_partial {qs : List Query} {ops : List Op} {y : Sys} (h : (Sys.start qs).exec ops = some y) :
    ∀ t ∈ y.th, t.left ≠ .other ∧ ∀ v, t.left = .ret v → v = t.query.standard ∨ (t.query ≠ .getriMin ∧ v = 1) := by
  intro t ht
  obtain ⟨w, hs, -⟩ := inv_exec (inv_start qs) h t ht
  refine ⟨fun e => by rw [e] at hs; exact hs, fun v e => ?_⟩
  rw [e] at hs
  have hv : v ∈ t.query.answers := hs
  revert hv
  cases t.query <;> simp [Query.answers, Query.standard] <;> omega

/-- **C109 violated.** The block size depends on what other threads do: there is a history of two threads that factorise matrices in which one is told 64 and the other 1,
so that the two round differently. -/
theorem C109_violation : Answered (.getrf 100) 64 ∧ Answered (.getrf 100) 1 := by
  refine ⟨⟨[.getrf 100], List.replicate 44 (.run 0), _, rfl, 0, rfl⟩, ?_⟩
  exact ⟨[.getrf 100, .getrf 100], List.replicate 43 (.run 0) ++ List.replicate 36 (.run 1) ++ [.run 0], _, rfl, 0, rfl⟩

set_option maxRecDepth 4000 in
/-- The names get mixed up: while one thread copies the name of `dgetri_`, another writes that of `dtrtri_`, so that the first looks for `DTRTRI`. -/
example : ∃ y, (Sys.start [.getri, .trtri]).exec (List.replicate 6 (.run 0) ++ List.replicate 3 (.run 1) ++ List.replicate 53 (.run 0)) = some y ∧
    y.mem (c2 0) = 'T'.toNat ∧ y.mem (c2 1) = 'R'.toNat ∧ y.th[0]? = some ⟨.getri, .ret 64⟩ :=
  ⟨_, rfl, rfl, rfl, rfl⟩

end QM.BlockSize

namespace QM.Hmm

variable {L : Nat}

/-- `invert`, hmm/hmm.c:556-612, with the block sizes that the four calls of `ilaenv_` have as answers: that of `dgetrf_`, that of the query of the work space (line 594), and those
of `dgetri_` and of `dtrtri_` in it (line 600). `dgetri_` asks for the smallest block size too, the answer is always 2. -/
noncomputable def invertWith (nbf nbw nbi nbt : Nat) (sfmin : ℝ) (L : Nat) (cov icov : List (List ℝ)) (a : List ℝ) (ipiv : List Nat) (work : List ℝ) :
    Option (List (List ℝ) × ℝ) := do
  let a ← toColumns L cov a
  let f ← Lapack.dgetrf nbf sfmin L L L a ipiv
  let det ← diagProd L f.a
  let det := if det < 0 then -det else det
  let r ← Lapack.dgetri nbi nbt L L (Lapack.workSize nbw L) f.a f.piv work
  let icov ← fromColumns L r.1 icov
  pure (icov, det)

/-- One thread on its own: the model of C80. -/
theorem invert_eq (sfmin : ℝ) (cov icov : List (List ℝ)) (a : List ℝ) (ipiv : List Nat) (work : List ℝ) :
    invert sfmin L cov icov a ipiv work = invertWith 64 64 64 64 sfmin L cov icov a ipiv work := rfl

open BlockSize in
/-- **C109** (what holds in several threads) Without rounding, the race on the static variables of `ilaenv_` is harmless: whatever block sizes an inversion is told while other threads
invert matrices, it stays inside its arrays, also inside the work array, whose size depends on one of the answers, and gives the inverse and the absolute value of the determinant of
every nonsingular matrix. -/
theorem C109_invert_partial {nbf nbw nbi nbt : Nat} (hf : Answered (.getrf L) nbf) (hw : Answered .getri nbw) (hi : Answered .getri nbi) (ht : Answered .trtri nbt) (sfmin : ℝ)
    {C : Nat → Nat → ℝ} {cov icov : List (List ℝ)} {a work : List ℝ} {ipiv : List Nat} (hL : 0 < L) (hc : Holds2 L L C cov) (hic : ∃ f, Holds2 L L f icov)
    (ha : a.length = L * L) (hp : ipiv.length = L * L) (hwl : work.length = L * nbw) (hn : (mat L C).det ≠ 0) :
    ∃ icov' D, invertWith nbf nbw nbi nbt sfmin L cov icov a ipiv work = some (icov', |(mat L C).det|) ∧ Holds2 L L D icov' ∧ mat L D = (mat L C)⁻¹ := by
  have hnb : 1 ≤ nbw := by
    obtain ⟨qs, ops, y, h, i, hy⟩ := hw
    rcases ((C109_answers_partial h _ (List.mem_of_getElem? hy)).2 nbw rfl) with h | ⟨-, h⟩
    · rw [h]; exact (by decide : 1 ≤ 64)
    · omega
  obtain ⟨a', h1, h2⟩ := toColumns_ok hc ha
  have hp' : L ≤ ipiv.length := by rw [hp]; exact le_square L
  obtain ⟨s, F, P, σ, h3, h4, _, _, _, _, h5, _⟩ := Lapack.C81_factors nbf sfmin (columns_inArray.mp h2) hp'
  obtain ⟨s', r, h6, h7, h8⟩ := Lapack.C81_inverse nbf nbi nbt sfmin (columns_inArray.mp h2)
    (lwork := Lapack.workSize nbw L) (work := work) hL hp' (Nat.le_mul_of_pos_right L hnb) hwl hn
  obtain rfl : s = s' := Option.some.inj (h3.symm.trans h6)
  obtain ⟨icov', D, h9, h10, h11⟩ := fromColumns_ok (columns_inArray.mpr h8) hic
  refine ⟨icov', D, ?_, h10, h11⟩
  unfold invertWith
  rw [bind_ok h1, bind_ok h3, bind_ok (diagProd_ok (columns_inArray.mpr h4)), bind_ok h7, bind_ok h9, sign_abs, h5]
  rfl

set_option maxRecDepth 4000 in
open BlockSize in
/-- A matrix of one number, inverted while another thread changes the answers: the query of the work space is told 1, all others 64. -/
example : ∃ icov' D, invertWith 64 1 64 64 0 1 [[4]] [[7]] [7] [7] [7] = some (icov', |(mat 1 fun _ _ => 4).det|) ∧ Holds2 1 1 D icov' ∧
    mat 1 D = (mat 1 fun _ _ => 4)⁻¹ := by
  have h64 : ∀ q : Query, q ≠ .getriMin → Answered q 64 := by
    intro q hq
    obtain ⟨n, m', h⟩ := alone_query q fun _ => 0
    refine ⟨[q], List.replicate n (.run 0), _, (exec_alone n (i := 0) (q := q) (p := q.prog) (th := [⟨q, q.prog⟩]) rfl).trans (by rw [h]; rfl), 0, ?_⟩
    cases q <;> first | rfl | exact absurd rfl hq
  have h1 : Answered .getri 1 := ⟨[.getri, .getri], List.replicate 59 (.run 0) ++ List.replicate 36 (.run 1) ++ [.run 0], _, rfl, 0, rfl⟩
  exact C109_invert_partial (h64 _ (by simp)) h1 (h64 _ (by simp)) (h64 _ (by simp)) 0 (by norm_num) (holds2_one 4) ⟨_, holds2_one 7⟩ rfl rfl rfl (by simp [mat])

end QM.Hmm
