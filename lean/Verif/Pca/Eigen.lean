import Verif.Pca.Model
import Mathlib.Analysis.SpecialFunctions.Pow.Real

/-!
# Model of `tred2`, `tqli` and `pca_project` in `maths/pca/pca.c`

Over the reals. `none` is an access outside an array or a division by zero. `exit` in `erhand` is a separate outcome.
-/

namespace QM.Pca

/-- Division of the doubles. -/
noncomputable def div? (x y : ℝ) : Option ℝ := if y = 0 then none else some (x / y)

/-- A matrix and two vectors: `a` or `z`, `d` and `e`. -/
structure Eig where
  a : List (List ℝ)
  d : List ℝ
  e : List ℝ

/-! ## tred2 -/

/-- Scaling of row `i` and the sum of its squares, maths/pca/pca.c:126-130. -/
noncomputable def houseScale (i : Nat) (scale : ℝ) (a : List (List ℝ)) : Option (List (List ℝ) × ℝ) :=
  loop i (fun k (s : List (List ℝ) × ℝ) => do
    let v ← rd2 s.1 i k
    let w ← div? v scale
    let a ← wr2 s.1 i k w
    pure (a, s.2 + w * w)) (a, 0)

/-- `g` of one row, maths/pca/pca.c:140-144: the product of row `j` of the symmetric matrix, of which the lower half is stored, with the vector in
row `i`. -/
def houseDot (i j : Nat) (a : List (List ℝ)) : Option ℝ := do
  let g ← loop (j + 1) (fun k (g : ℝ) => do
    let x ← rd2 a j k
    let y ← rd2 a i k
    pure (g + x * y)) 0
  loop (i - 1 - j) (fun t (g : ℝ) => do
    let x ← rd2 a (j + 1 + t) j
    let y ← rd2 a i (j + 1 + t)
    pure (g + x * y)) g

/-- maths/pca/pca.c:136-147: the result is the matrix, `e` and `f`. -/
noncomputable def houseP (i : Nat) (h : ℝ) (a : List (List ℝ)) (e : List ℝ) : Option (List (List ℝ) × List ℝ × ℝ) :=
  loop i (fun j (s : List (List ℝ) × List ℝ × ℝ) => do
    let x ← rd2 s.1 i j
    let y ← div? x h
    let a ← wr2 s.1 j i y
    let g ← houseDot i j a
    let y ← div? g h
    let e ← wr s.2.1 j y
    pure (a, e, s.2.2 + y * x)) (a, e, 0)

/-- maths/pca/pca.c:149-155. -/
noncomputable def houseUpdate (i : Nat) (hh : ℝ) (a : List (List ℝ)) (e : List ℝ) : Option (List (List ℝ) × List ℝ) :=
  loop i (fun j (s : List (List ℝ) × List ℝ) => do
    let f ← rd2 s.1 i j
    let v ← s.2[j]?
    let e ← wr s.2 j (v - hh * f)
    let a ← loop (j + 1) (fun k (a : List (List ℝ)) => do
      let y ← e[k]?
      let x ← rd2 a i k
      let v' ← rd2 a j k
      wr2 a j k (v' - (f * y + (v - hh * f) * x))) s.1
    pure (a, e)) (a, e)

/-- The Householder step for row `i`, maths/pca/pca.c:126-155; the result is the matrix, `e` and `h`. -/
noncomputable def house (i : Nat) (scale : ℝ) (a : List (List ℝ)) (e : List ℝ) : Option (List (List ℝ) × List ℝ × ℝ) := do
  let s ← houseScale i scale a
  let f ← rd2 s.1 i (i - 1)
  let g := if 0 < f then -Real.sqrt s.2 else Real.sqrt s.2
  let e ← wr e i (scale * g)
  let a ← wr2 s.1 i (i - 1) (f - g)
  let p ← houseP i (s.2 - f * g) a e
  let hh ← div? p.2.2 ((s.2 - f * g) + (s.2 - f * g))
  let r ← houseUpdate i hh p.1 p.2.1
  pure (r.1, r.2, s.2 - f * g)

/-- `scale`, maths/pca/pca.c:120-121. -/
noncomputable def rowScale (i : Nat) (a : List (List ℝ)) : Option ℝ :=
  loop i (fun k (s : ℝ) => do
    let v ← rd2 a i k
    pure (s + |v|)) 0

/-- The case without a reflection, maths/pca/pca.c:123, 159-160. -/
def keepRow (i : Nat) (s : Eig) : Option Eig := do
  let v ← rd2 s.a i (i - 1)
  let e ← wr s.e i v
  let d ← wr s.d i 0
  pure ⟨s.a, d, e⟩

/-- The case with a reflection, maths/pca/pca.c:125-156, 160. -/
noncomputable def reflectRow (i : Nat) (scale : ℝ) (s : Eig) : Option Eig := do
  let r ← house i scale s.a s.e
  let d ← wr s.d i r.2.2
  pure ⟨r.1, d, r.2.1⟩

/-- One turn of the first loop, maths/pca/pca.c:114-161. -/
noncomputable def tredRow (i : Nat) (s : Eig) : Option Eig :=
  if 1 < i then do
    let scale ← rowScale i s.a
    if scale = 0 then keepRow i s else reflectRow i scale s
  else keepRow i s

/-- maths/pca/pca.c:169-176. -/
def backApply (i : Nat) (a : List (List ℝ)) : Option (List (List ℝ)) :=
  loop i (fun j (a : List (List ℝ)) => do
    let g ← loop i (fun k (g : ℝ) => do
      let x ← rd2 a i k
      let y ← rd2 a k j
      pure (g + x * y)) 0
    loop i (fun k (a : List (List ℝ)) => do
      let x ← rd2 a k j
      let y ← rd2 a k i
      wr2 a k j (x - g * y)) a) a

/-- maths/pca/pca.c:167-177. -/
noncomputable def backMaybe (i : Nat) (di : ℝ) (a : List (List ℝ)) : Option (List (List ℝ)) :=
  if di ≠ 0 then backApply i a else some a

/-- One turn of the second loop, maths/pca/pca.c:164-182. -/
noncomputable def tredBack (i : Nat) (s : List (List ℝ) × List ℝ) : Option (List (List ℝ) × List ℝ) := do
  let di ← s.2[i]?
  let a ← backMaybe i di s.1
  let x ← rd2 a i i
  let d ← wr s.2 i x
  let a ← wr2 a i i 1
  let a ← loop i (fun j (a : List (List ℝ)) => do
    let a ← wr2 a i j 0
    wr2 a j i 0) a
  pure (a, d)

/-- `tred2`, maths/pca/pca.c:109-183. -/
noncomputable def tred2 (n : Nat) (s : Eig) : Option Eig := do
  let s ← loop (n - 1) (fun t (s : Eig) => tredRow (n - 1 - t) s) s
  let d ← wr s.d 0 0
  let e ← wr s.e 0 0
  let r ← loop n (fun i r => tredBack i r) (s.a, d)
  pure ⟨r.1, r.2, e⟩

/-! ## tqli -/

/-- `SIGN(a, b)`, maths/pca/pca.c:28. -/
noncomputable def sign (a b : ℝ) : ℝ := if b < 0 then -|a| else |a|

/-- maths/pca/pca.c:200-204, with at most `fuel` turns from `m`. `negl x dd` is the outcome of the test `x + dd == dd` of the doubles. -/
noncomputable def split (negl : ℝ → ℝ → Bool) (d e : List ℝ) : Nat → Nat → Option Nat
  | 0, m => some m
  | fuel + 1, m => do
    let x ← d[m]?
    let y ← d[m + 1]?
    let v ← e[m]?
    if negl |v| (|x| + |y|) then some m else split negl d e fuel (m + 1)

/-- The variables of the inner loop of `tqli`. -/
structure Ql where
  z : List (List ℝ)
  d : List ℝ
  e : List ℝ
  g : ℝ
  s : ℝ
  c : ℝ
  p : ℝ

/-- The rotation, maths/pca/pca.c:217-230: the results are `s`, `c` and the new `e[i+1]`. -/
noncomputable def rotation (f g : ℝ) : Option (ℝ × ℝ × ℝ) :=
  if |f| ≥ |g| then do
    let c ← div? g f
    let s ← div? 1 (Real.sqrt (c * c + 1))
    pure (s, c * s, f * Real.sqrt (c * c + 1))
  else do
    let s ← div? f g
    let c ← div? 1 (Real.sqrt (s * s + 1))
    pure (s * c, c, g * Real.sqrt (s * s + 1))

/-- The rotation of the columns `i` and `i + 1`, maths/pca/pca.c:236-241. -/
noncomputable def rotate (n i : Nat) (s c : ℝ) (z : List (List ℝ)) : Option (List (List ℝ)) :=
  loop n (fun k (z : List (List ℝ)) => do
    let f ← rd2 z k (i + 1)
    let x ← rd2 z k i
    let z ← wr2 z k (i + 1) (s * x + c * f)
    let x ← rd2 z k i
    wr2 z k i (c * x - s * f)) z

/-- One turn of the inner loop, maths/pca/pca.c:213-242. -/
noncomputable def qlStep (n i : Nat) (q : Ql) : Option Ql := do
  let v ← q.e[i]?
  let t ← rotation (q.s * v) q.g
  let e ← wr q.e (i + 1) t.2.2
  let x ← q.d[i + 1]?
  let y ← q.d[i]?
  let r := (y - (x - q.p)) * t.1 + 2 * t.2.1 * (q.c * v)
  let d ← wr q.d (i + 1) (x - q.p + t.1 * r)
  let z ← rotate n i t.1 t.2.1 q.z
  pure ⟨z, d, e, t.2.1 * r - q.c * v, t.1, t.2.1, t.1 * r⟩

/-- One iteration with `m ≠ l`, maths/pca/pca.c:208-245. -/
noncomputable def qlSweep (n l m : Nat) (s : Eig) : Option Eig := do
  let x1 ← s.d[l + 1]?
  let x0 ← s.d[l]?
  let v ← s.e[l]?
  let g ← div? (x1 - x0) (2 * v)
  let xm ← s.d[m]?
  let w ← div? v (g + sign (Real.sqrt (g * g + 1)) g)
  let q ← loop (m - l) (fun t (q : Ql) => qlStep n (m - 1 - t) q) ⟨s.a, s.d, s.e, xm - x0 + w, 1, 1, 0⟩
  let y ← q.d[l]?
  let d ← wr q.d l (y - q.p)
  let e ← wr q.e l q.g
  let e ← wr e m 0
  pure ⟨q.z, d, e⟩

/-- The `do` loop for one `l`, maths/pca/pca.c:197-247, with `fuel` iterations left. `some none` is the exit with the message that there is no
convergence. -/
noncomputable def qlRow (negl : ℝ → ℝ → Bool) (n l : Nat) : Nat → Eig → Option (Option Eig)
  | fuel, s => do
    let m ← split negl s.d s.e (n - 1 - l) l
    if m = l then some (some s)
    else match fuel with
      | 0 => some none
      | fuel + 1 => do
        let s ← qlSweep n l m s
        qlRow negl n l fuel s

/-- The loop over `l`, maths/pca/pca.c:195-248: the `k` rows from `l` on. -/
noncomputable def qlRows (negl : ℝ → ℝ → Bool) (n : Nat) : Nat → Nat → Eig → Option (Option Eig)
  | 0, _, s => some (some s)
  | k + 1, l, s => do
    let r ← qlRow negl n l 30 s
    match r with
    | none => some none
    | some s => qlRows negl n k (l + 1) s

/-- `tqli`, maths/pca/pca.c:187-249. -/
noncomputable def tqli (negl : ℝ → ℝ → Bool) (n : Nat) (s : Eig) : Option (Option Eig) := do
  let e ← loop (n - 1) (fun i (e : List ℝ) => do
    let v ← e[i + 1]?
    wr e i v) s.e
  let e ← wrI e ((n : Int) - 1) 0
  qlRows negl n n 0 ⟨s.a, s.d, e⟩

/-! ## pca_project -/

/-- The projection of the rows, maths/pca/pca.c:303-311. -/
noncomputable def project (n m comps : Nat) (sym : List (List ℝ)) (data : List (List ℝ)) (interm : List ℝ) : Option (List (List ℝ)) := do
  let r ← loop n (fun i (s : List (List ℝ) × List ℝ) => do
    let interm ← loop m (fun j (t : List ℝ) => do
      let v ← rd2 s.1 i j
      wr t j v) s.2
    let data ← loop comps (fun k (data : List (List ℝ)) => do
      let data ← wr2 data i k 0
      loop m (fun k2 (data : List (List ℝ)) => do
        let v ← rd2 data i k
        let x ← interm[k2]?
        let row ← sym[k2]?
        let y ← rdI row ((m : Int) - k - 1)
        wr2 data i k (v + x * y)) data) s.1
    pure (data, interm)) (data, interm)
  pure r.1

/-- After the covariance matrix: the reduction and the projection, maths/pca/pca.c:279-311. -/
noncomputable def projectWith (n m comps : Nat) (data : List (List ℝ)) (r : Option Eig) : Option (Option (List (List ℝ))) :=
  match r with
  | none => some none
  | some s => do
    let data ← project n m comps s.a data s.e
    some (some data)

/-- `pca_project`, maths/pca/pca.c:252-353. `sym`, `mean`, `evals` and `interm` are the allocated arrays. -/
noncomputable def pcaProject (negl : ℝ → ℝ → Bool) (data : List (List ℝ)) (n m comps : Nat) (sym : List (List ℝ)) (mean evals interm : List ℝ) :
    Option (Option (List (List ℝ))) := do
  let c ← covcol data n m sym mean
  let s ← tred2 m ⟨c.2, evals, interm⟩
  let r ← tqli negl m s
  projectWith n m comps c.1 r

end QM.Pca
