import Verif.Common.Loop
import Mathlib.Data.Real.Sqrt

/-!
# Model of `maths/Polyfit.h`

Matrices are functions of two indices: every matrix here is created by `zeroise` with the number of rows and columns that bound all
the loops over it, and rows and columns of a pivot come from those loops. Doubles are elements of an ordered field.
-/

namespace QM.PolyFit

/-- A `for` loop without exits. -/
def iter {S : Type} : Nat → (Nat → S → S) → S → S
  | 0, _, s => s
  | n + 1, f, s => f n (iter n f s)

/-- Assignment to an element of a vector. -/
def upd {β : Type} (v : Nat → β) (i : Nat) (x : β) : Nat → β := fun j => if j = i then x else v j

/-- Assignment to an element of a matrix. -/
def upd2 {β : Type} (b : Nat → Nat → β) (r c : Nat) (x : β) : Nat → Nat → β := fun i j => if i = r ∧ j = c then x else b i j

variable {K : Type} [Field K] [LinearOrder K]

/-- `TPolyFit::Square`, maths/Polyfit.h:200-223. State: `a`, `g`. -/
def square (x : Nat → Nat → K) (y : Nat → K) (a : Nat → Nat → K) (g : Nat → K) (nrow ncol : Nat) : (Nat → Nat → K) × (Nat → K) :=
  iter ncol (fun k s =>
    let a := iter (k + 1) (fun l a =>
      iter nrow (fun i a =>
        let a := upd2 a k l (a k l + x i l * x i k)
        if k ≠ l then upd2 a l k (a k l) else a) (upd2 a k l 0)) s.1
    let g := iter nrow (fun i g => upd g k (g k + y i * x i k)) (upd s.2 k 0)
    (a, g)) (a, g)

/-- The search for the largest element, maths/Polyfit.h:314-331. State: `irow`, `icol`, `big`; `none` is `return false`.
`st k` is `index[k][2]`. -/
def search (n : Nat) (st : Nat → Int) (b : Nat → Nat → K) (s : Nat × Nat × K) : Option (Nat × Nat × K) :=
  loop n (fun j s =>
    if st j ≠ 0 then
      loop n (fun k s =>
        if st k > 0 then none
        else if st k < 0 ∧ |b j k| > s.2.2 then some (j, k, |b j k|)
        else some s) s
    else some s) s

/-- The variables of `GaussJordan2`, maths/Polyfit.h:298-303. `w` is the single column of the matrix of that name. `index[.][0]` and
`index[.][1]` (used only to permute the columns of the inverse, a local of `PolyFit2` that is never looked at) and the determinant
(never looked at) are left out. `nan` is not a variable of the program: it records that some division by zero has been made. -/
structure GJ (K : Type) where
  b : Nat → Nat → K
  w : Nat → K
  st : Nat → Int
  irow : Nat
  icol : Nat
  nan : Bool

/-- Interchange of two rows, maths/Polyfit.h:339-349. -/
def swapRows (n : Nat) (b : Nat → Nat → K) (w : Nat → K) (irow icol : Nat) : (Nat → Nat → K) × (Nat → K) :=
  if irow ≠ icol then
    (iter n (fun m b => upd2 (upd2 b irow m (b icol m)) icol m (b irow m)) b, upd (upd w irow (w icol)) icol (w irow))
  else (b, w)

/-- Division of the pivot row, maths/Polyfit.h:352-363. -/
def divRow (n : Nat) (b : Nat → Nat → K) (w : Nat → K) (icol : Nat) : (Nat → Nat → K) × (Nat → K) :=
  let pivot := b icol icol
  (iter n (fun m b => upd2 b icol m (b icol m / pivot)) (upd2 b icol icol 1), upd w icol (w icol / pivot))

/-- Reduction of the other rows, maths/Polyfit.h:366-379. -/
def reduce (n : Nat) (b : Nat → Nat → K) (w : Nat → K) (icol : Nat) : (Nat → Nat → K) × (Nat → K) :=
  iter n (fun r s =>
    if r ≠ icol then
      let t := s.1 r icol
      (iter n (fun m b => upd2 b r m (b r m - b icol m * t)) (upd2 s.1 r icol 0), upd s.2 r (s.2 r - s.2 icol * t))
    else s) (b, w)

/-- One iteration of the main loop of `GaussJordan2`, maths/Polyfit.h:312-380. -/
def step (n : Nat) (s : GJ K) : Option (GJ K) := do
  let f ← search n s.st s.b (s.irow, s.icol, 0)
  let irow := f.1
  let icol := f.2.1
  let st := upd s.st icol (s.st icol + 1)
  let p := swapRows n s.b s.w irow icol
  let nan := s.nan || decide (p.1 icol icol = 0)
  let p := divRow n p.1 p.2 icol
  let p := reduce n p.1 p.2 icol
  pure ⟨p.1, p.2, st, irow, icol, nan⟩

/-- `TPolyFit::GaussJordan2`, maths/Polyfit.h:290-383. -/
def gaussJordan2 (n : Nat) (b : Nat → Nat → K) (y : Nat → K) : Option (GJ K) :=
  loop n (fun _ s => step n s) ⟨b, y, fun _ => -1, 0, 0, false⟩

/-- `TPolyFit::GaussJordan`, maths/Polyfit.h:227-286. `none` is `return false`; otherwise the state, whose `w` is copied to `coef`. -/
def gaussJordan (n : Nat) (b : Nat → Nat → K) (y : Nat → K) : Option (GJ K) := do
  let s ← gaussJordan2 n b y
  if ∀ k, k < n → s.st k = 0 then some s else none

/-- The data matrix, maths/Polyfit.h:152-158. -/
def dataMatrix (x : List K) (npoints nterms : Nat) : Nat → Nat → K :=
  iter npoints (fun i m =>
    let xi := x.getD i 0
    iter (nterms - 1) (fun j m => upd2 m i (j + 1) (m i j * xi)) (upd2 m i 0 1)) (fun _ _ => 0)

/-- The outcome of `PolyFit2`: the value returned, the coefficient vector, and (not in the program) whether a division by zero was made
on the way to the result. -/
structure Fit where
  ret : ℝ
  coefs : List ℝ
  nan : Bool

/-- `TPolyFit::PolyFit2`, maths/Polyfit.h:123-189. -/
noncomputable def polyFit2 (x y coefs : List ℝ) : Fit :=
  let npoints := x.length
  let nterms := coefs.length
  if nterms < 1 then ⟨0, coefs, false⟩
  else if npoints < 2 then ⟨0, coefs, false⟩
  else if npoints ≠ y.length then ⟨0, coefs, false⟩
  else
    let xm := dataMatrix x npoints nterms
    let (a, g) := square xm (fun i => y.getD i 0) (fun _ _ => 0) (fun _ => 0) npoints nterms
    match gaussJordan nterms a g with
    | none => ⟨-1, coefs, false⟩
    | some s =>
      let coefs := (List.range nterms).map s.w
      let (srs, sumY, sumY2) := iter npoints (fun i (t : ℝ × ℝ × ℝ) =>
        let yi := y.getD i 0
        let yc := iter nterms (fun j yc => yc + coefs.getD j 0 * xm i j) 0
        (t.1 + (yc - yi) * (yc - yi), t.2.1 + yi, t.2.2 + yi * yi)) (0, 0, 0)
      let c := sumY2 - sumY * sumY / npoints
      let c := if c ≠ 0 then srs / c else c
      let c := if c ≥ 1 then 0 else Real.sqrt (1 - c)
      ⟨c, coefs, s.nan⟩

end QM.PolyFit
