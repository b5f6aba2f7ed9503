/-!
# Block sizes of the matrix routines

`ilaenv_` of `ext/clapack/src/ilaenv.c`, with `s_copy` and `s_cmp`, as called by `dgetrf_`, `dgetri_` and `dtrtri_`. All its variables are static, so that all
threads share them. A program is a tree of single loads and stores of these variables: between any two of them other threads may run. The arguments and the return
value are not shared.
-/

namespace QM.BlockSize

/-- The static variables, ext/clapack/src/ilaenv.c:22-29, the arrays of characters one by one. `i__` and `nx` only occur in code that is not modelled. -/
inductive Cell
  | subnam (i : Nat)
  | c1
  | c2 (i : Nat)
  | c3 (i : Nat)
  | c4 (i : Nat)
  | ic
  | iz
  | nb
  | nbmin
  | sname
  | cname
deriving DecidableEq

/-- What they hold: characters by their codes, logical values as 0 and 1. -/
abbrev Mem := Cell → Nat

/-- A store. -/
def Mem.put (m : Mem) (c : Cell) (v : Nat) : Mem := fun d => if d = c then v else m d

/-- What a call has still to do. `other` stands for code that is not modelled. -/
inductive Prog
  | ret (v : Nat)
  | load (c : Cell) (k : Nat → Prog)
  | store (c : Cell) (v : Nat) (k : Prog)
  | other

open Prog Cell

/-- `s_copy` from a string of the program, which no thread changes, ext/clapack/src/s_copy.c:27-32. -/
def copyText : List Cell → List Char → Prog → Prog
  | c :: cs, x :: xs, k => .store c x.toNat (copyText cs xs k)
  | _, _, k => k

/-- `s_copy` between static variables. Source and target are different arrays of the same length, ext/clapack/src/s_copy.c:27-32. -/
def copy : List Cell → List Cell → Prog → Prog
  | c :: cs, d :: ds, k => .load d fun v => .store c v (copy cs ds k)
  | _, _, k => k

/-- `s_cmp(…) == 0` for strings of the same length, ext/clapack/src/s_cmp.c:20-27. The character that differs is read again for the result. -/
def cmp : List Cell → List Char → Prog → Prog → Prog
  | c :: cs, x :: xs, t, e => .load c fun v => if v = x.toNat then cmp cs xs t e else .load c fun w => if w = x.toNat then t else e
  | _, _, t, _ => t

/-- A chain of such comparisons with `||`. -/
def cmpAny (cs : List Cell) : List String → Prog → Prog → Prog
  | [], _, e => e
  | s :: ss, t, e => cmp cs s.toList t (cmpAny cs ss t e)

/-- A test of one variable. -/
def test (c : Cell) (p : Nat → Bool) (t e : Prog) : Prog := .load c fun v => if p v then t else e

/-- `c2`, `c3` and `c4` as strings. -/
def s2 : List Cell := [c2 0, c2 1]
@[inherit_doc s2] def s3 : List Cell := [c3 0, c3 1, c3 2]
@[inherit_doc s2] def s4 : List Cell := [c4 0, c4 1]
@[inherit_doc s2] def s6 : List Cell := [subnam 0, subnam 1, subnam 2, subnam 3, subnam 4, subnam 5]

/-- `if (sname) nb = a; else nb = b;` and the end, ext/clapack/src/ilaenv.c:255-259 and 408-409. -/
def setBoth (c : Cell) (a b : Nat) : Prog :=
  test sname (· ≠ 0) (.store c a (.load c .ret)) (.store c b (.load c .ret))

/-- `nb = a;` and the end. -/
def set (c : Cell) (a : Nat) : Prog := .store c a (.load c .ret)

/-- The names of the orthogonal factors, ext/clapack/src/ilaenv.c:317-324. -/
def factors : List String := ["QR", "RQ", "LQ", "QL", "HR", "TR", "BR"]

/-- `if (c3[0] == 'G') … else if (c3[0] == 'M') …`, ext/clapack/src/ilaenv.c:316-335. -/
def orth (c : Cell) (a : Nat) : Prog :=
  test (c3 0) (· = 'G'.toNat) (cmpAny s4 factors (set c a) (.load c .ret))
    (test (c3 0) (· = 'M'.toNat) (cmpAny s4 factors (set c a) (.load c .ret)) (.load c .ret))

/-- `ISPEC = 1`, the block size, ext/clapack/src/ilaenv.c:243-410. `n2` and `n4` are the sizes of the problem that are looked at. -/
def blockSize (n2 n4 : Int) : Prog :=
  .store nb 1 <|
  cmp s2 ['G', 'E']
    (cmp s3 ['T', 'R', 'F'] (setBoth nb 64 64) <|
     cmpAny s3 ["QRF", "RQF", "LQF", "QLF"] (setBoth nb 32 32) <|
     cmp s3 ['H', 'R', 'D'] (setBoth nb 32 32) <|
     cmp s3 ['B', 'R', 'D'] (setBoth nb 32 32) <|
     cmp s3 ['T', 'R', 'I'] (setBoth nb 64 64) (.load nb .ret)) <|
  cmp s2 ['P', 'O']
    (cmp s3 ['T', 'R', 'F'] (setBoth nb 64 64) (.load nb .ret)) <|
  cmp s2 ['S', 'Y']
    (cmp s3 ['T', 'R', 'F'] (setBoth nb 64 64) <|
     test sname (· ≠ 0) (cmp s3 ['T', 'R', 'D'] (set nb 32) gst) gst) <|
  test cname (· ≠ 0) (cmp s2 ['H', 'E']
    (cmp s3 ['T', 'R', 'F'] (set nb 64) <|
     cmp s3 ['T', 'R', 'D'] (set nb 32) <|
     cmp s3 ['G', 'S', 'T'] (set nb 64) (.load nb .ret)) afterHE) afterHE
where
  /-- Lines 296-298. -/
  gst : Prog := test sname (· ≠ 0) (cmp s3 ['G', 'S', 'T'] (set nb 64) (.load nb .ret)) (.load nb .ret)
  /-- Lines 307-335. -/
  afterHE : Prog := test sname (· ≠ 0) (cmp s2 ['O', 'R'] (orth nb 32) afterOR) afterOR
  /-- Lines 336-356. -/
  afterOR : Prog := test cname (· ≠ 0) (cmp s2 ['U', 'N'] (orth nb 32) afterUN) afterUN
  /-- Lines 357-405. -/
  afterUN : Prog :=
    cmp s2 ['G', 'B']
      (cmp s3 ['T', 'R', 'F'] (if n4 ≤ 64 then setBoth nb 1 1 else setBoth nb 32 32) (.load nb .ret)) <|
    cmp s2 ['P', 'B']
      (cmp s3 ['T', 'R', 'F'] (if n2 ≤ 64 then setBoth nb 1 1 else setBoth nb 32 32) (.load nb .ret)) <|
    cmp s2 ['T', 'R']
      (cmp s3 ['T', 'R', 'I'] (setBoth nb 64 64) (.load nb .ret)) <|
    cmp s2 ['L', 'A']
      (cmp s3 ['U', 'U', 'M'] (setBoth nb 64 64) (.load nb .ret)) <|
    test sname (· ≠ 0) (cmp s2 ['S', 'T'] (cmp s3 ['E', 'B', 'Z'] (set nb 1) (.load nb .ret)) (.load nb .ret)) (.load nb .ret)

/-- `ISPEC = 2`, the smallest block size, ext/clapack/src/ilaenv.c:412-502. -/
def minSize : Prog :=
  .store nbmin 2 <|
  cmp s2 ['G', 'E']
    (cmpAny s3 ["QRF", "RQF", "LQF", "QLF"] (setBoth nbmin 2 2) <|
     cmp s3 ['H', 'R', 'D'] (setBoth nbmin 2 2) <|
     cmp s3 ['B', 'R', 'D'] (setBoth nbmin 2 2) <|
     cmp s3 ['T', 'R', 'I'] (setBoth nbmin 2 2) (.load nbmin .ret)) <|
  cmp s2 ['S', 'Y']
    (cmp s3 ['T', 'R', 'F'] (setBoth nbmin 8 8) <|
     test sname (· ≠ 0) (cmp s3 ['T', 'R', 'D'] (set nbmin 2) (.load nbmin .ret)) (.load nbmin .ret)) <|
  test cname (· ≠ 0) (cmp s2 ['H', 'E'] (cmp s3 ['T', 'R', 'D'] (set nbmin 2) (.load nbmin .ret)) afterHE) afterHE
where
  /-- Lines 455-477. -/
  afterHE : Prog := test sname (· ≠ 0) (cmp s2 ['O', 'R'] (orth nbmin 2) afterOR) afterOR
  /-- Lines 478-500. -/
  afterOR : Prog := test cname (· ≠ 0) (cmp s2 ['U', 'N'] (orth nbmin 2) (.load nbmin .ret)) (.load nbmin .ret)

/-- `ilaenv_` for `ISPEC` 1 and 2, ext/clapack/src/ilaenv.c:147-502, and a name of six characters. Names that begin with a small letter and other character sets
are not modelled. `ret_val` is a local variable. -/
def ilaenv (ispec : Nat) (name : String) (n2 n4 : Int) : Prog :=
  copyText s6 name.toList <|
  .load (subnam 0) fun v => .store ic v <|
  .store iz 90 <|
  test iz (· = 90) ascii (test iz (· = 122) ascii .other)
where
  /-- Lines 183-192. -/
  ascii : Prog := test ic (97 ≤ ·) (test ic (· ≤ 122) .other kind) kind
  /-- Lines 227-229. -/
  kind : Prog :=
    .load (subnam 0) fun v => .store c1 v <|
    test c1 (· = 'S'.toNat) (.store sname 1 complex) <| test c1 (· = 'D'.toNat) (.store sname 1 complex) (.store sname 0 complex)
  /-- Line 229. -/
  complex : Prog :=
    test c1 (· = 'C'.toNat) (.store cname 1 parts) <| test c1 (· = 'Z'.toNat) (.store cname 1 parts) (.store cname 0 parts)
  /-- Lines 230-241. -/
  parts : Prog :=
    test cname (· ≠ 0) rest (test sname (· ≠ 0) rest (.ret 1))
  /-- Lines 233-241. -/
  rest : Prog :=
    copy s2 [subnam 1, subnam 2] <| copy s3 [subnam 3, subnam 4, subnam 5] <| copy s4 [c3 1, c3 2] <|
    if ispec = 1 then blockSize n2 n4 else if ispec = 2 then minSize else .other

/-- The calls of `ilaenv_` in the library: by `dgetrf_` (ext/clapack/src/dgetrf.c:143) for a matrix with `n` columns, by `dgetri_` for the block size and for the smallest
one (ext/clapack/src/dgetri.c:133, 175-176), and by `dtrtri_` (ext/clapack/src/dtrtri.c:170). -/
inductive Query
  | getrf (n : Nat)
  | getri
  | getriMin
  | trtri
deriving DecidableEq

/-- The code that a query runs. -/
def Query.prog : Query → Prog
  | .getrf n => ilaenv 1 "DGETRF" n (-1)
  | .getri => ilaenv 1 "DGETRI" (-1) (-1)
  | .getriMin => ilaenv 2 "DGETRI" (-1) (-1)
  | .trtri => ilaenv 1 "DTRTRI" (-1) (-1)

/-- A thread: its last query and what is left of it. -/
structure Thread where
  query : Query
  left : Prog

/-- All threads and the static variables. -/
structure Sys where
  mem : Mem
  th : List Thread

/-- One load or one store. -/
def Prog.step : Prog → Mem → Option (Prog × Mem)
  | .load c k, m => some (k (m c), m)
  | .store c v k, m => some (k, m.put c v)
  | _, _ => none

/-- What may happen: a thread whose last query has been answered makes another one; a thread makes one load or store. -/
inductive Op
  | ask (i : Nat) (q : Query)
  | run (i : Nat)

/-- The state after it; `none` if it is not possible. -/
def Sys.next (y : Sys) : Op → Option Sys
  | .ask i q => do
    let t ← y.th[i]?
    match t.left with
    | .ret _ => some ⟨y.mem, y.th.set i ⟨q, q.prog⟩⟩
    | _ => none
  | .run i => do
    let t ← y.th[i]?
    let r ← t.left.step y.mem
    pure ⟨r.2, y.th.set i ⟨t.query, r.1⟩⟩

/-- A history. -/
def Sys.exec (y : Sys) : List Op → Option Sys
  | [] => some y
  | o :: ops => do
    let y ← y.next o
    y.exec ops

/-- The start of a program with `n` threads: the static variables are 0 and each thread asks something. -/
def Sys.start (qs : List Query) : Sys := ⟨fun _ => 0, qs.map fun q => ⟨q, q.prog⟩⟩

end QM.BlockSize
