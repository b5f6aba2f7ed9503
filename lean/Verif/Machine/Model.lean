import Verif.Common.Binary

/-!
# The machine constants of the bundled linear algebra (`ext/cblas/src/dlamch.c`)

`dlamch_` works out the parameters of double precision by experiment, at its first call, and keeps them in static variables for later calls.
Every static variable is shared by all the threads of a program. One step of a call is one statement of the source, or one that touches static
variables together with the statements next to it that touch only local ones; real executions can be interleaved in more places.
Arithmetic is double precision, bit for bit. Loops that touch only local variables get `fuel`, and have no result when it runs out.
-/

namespace QM.Machine

open B64 (ofInt add mul div neg lt eq le)

/-- The number of iterations that loops over local variables are followed for. -/
def fuel : Nat := 3000

/-- A loop that runs while the condition holds. -/
def whileDo {σ : Type} (cond : σ → Bool) (body : σ → σ) : Nat → σ → Option σ
  | 0, _ => none
  | n + 1, s => if cond s then whileDo cond body n (body s) else some s

/-- A loop that runs a given number of times. -/
def times {σ : Type} (body : σ → σ) : Nat → σ → σ
  | 0, s => s
  | n + 1, s => times body n (body s)

/-- The sum that the compiler is kept from simplifying, ext/cblas/src/dlamch.c:692-729. -/
def dlamc3 (a b : B64) : B64 := add a b

/-- The conversion to `integer`, of a positive number. -/
def toInt : B64 → Int
  | .fin x => x / B64.one
  | _ => 0

/-- `pow_di`, ext/clapack/src/pow_di.c:9-37. -/
def powDi (b : B64) (n : Int) : Option B64 :=
  if n = 0 then some (ofInt 1)
  else do
    let x := if n < 0 then div (ofInt 1) b else b
    let r ← whileDo (fun s : Nat × B64 × B64 => s.1 ≠ 0)
      (fun s => (s.1 / 2, if s.1 % 2 = 1 then mul s.2.1 s.2.2 else s.2.1, mul s.2.2 s.2.2)) fuel (n.natAbs, ofInt 1, x)
    pure r.2.1

/-- The first two loops of `dlamc1_`, ext/cblas/src/dlamch.c:261-289: the values of `a` and `c__` after them. -/
def findBase : Option (B64 × B64) := do
  let r ← whileDo (fun s : B64 × B64 => eq s.2 (ofInt 1))
    (fun s => let a := mul s.1 (ofInt 2); (a, dlamc3 (dlamc3 a (ofInt 1)) (neg a))) fuel (ofInt 1, ofInt 1)
  let a := r.1
  let r ← whileDo (fun s : B64 × B64 => eq s.2 a) (fun s => let b := mul s.1 (ofInt 2); (b, dlamc3 a b)) fuel (ofInt 1, dlamc3 a (ofInt 1))
  pure (a, r.2)

/-- The local variables of the loop of `dlamc4_`. -/
structure Shrink where
  emin : Int
  a : B64
  b1 : B64
  c1 : B64
  c2 : B64
  d1 : B64
  d2 : B64

/-- `dlamc4_`, ext/cblas/src/dlamch.c:781-822: the exponent before underflow, found from `start`. -/
def dlamc4 (start : B64) (base : Int) : Option Int := do
  let zero := B64.fin 0
  let rbase := div (ofInt 1) (ofInt base)
  let r ← whileDo (fun s : Shrink => eq s.c1 s.a && eq s.c2 s.a && eq s.d1 s.a && eq s.d2 s.a)
    (fun s =>
      let a := s.b1
      let b1 := dlamc3 (div a (ofInt base)) zero
      let c1 := dlamc3 (mul b1 (ofInt base)) zero
      let d1 := times (fun d => add d b1) base.toNat zero
      let b2 := dlamc3 (mul a rbase) zero
      let c2 := dlamc3 (div b2 rbase) zero
      let d2 := times (fun d => add d b2) base.toNat zero
      ⟨s.emin - 1, a, b1, c1, c2, d1, d2⟩) fuel
    ⟨1, start, dlamc3 (mul start rbase) zero, start, start, start, start⟩
  pure r.emin

/-- The exponent part of `dlamc5_`, ext/cblas/src/dlamch.c:906-963: `*emax`. -/
def dlamc5Exp (beta p emin : Int) (ieee : Bool) : Option Int := do
  let r ← whileDo (fun s : Int × Int => decide (s.1 * 2 ≤ -emin)) (fun s => (s.1 * 2, s.2 + 1)) fuel (1, 1)
  let lexp := r.1
  let uexp := if lexp = -emin then lexp else lexp * 2
  let exbits := if lexp = -emin then r.2 else r.2 + 1
  let expsum := if uexp + emin > -lexp - emin then lexp * 2 else uexp * 2
  let emax := expsum + emin - 1
  let nbits := exbits + 1 + p
  let emax := if nbits % 2 = 1 ∧ beta = 2 then emax - 1 else emax
  pure (if ieee then emax - 1 else emax)

/-- The rest of `dlamc5_`, ext/cblas/src/dlamch.c:971-996: `*rmax`. `oldy` has no value before the first iteration, but `y` is less than 1 there. -/
def dlamc5Max (beta p emax : Int) : B64 :=
  let recbas := div (ofInt 1) (ofInt beta)
  let r := times (fun s : B64 × B64 × B64 =>
    let z := mul s.1 recbas
    let oldy := if lt s.2.1 (ofInt 1) then s.2.1 else s.2.2
    (z, dlamc3 s.2.1 z, oldy)) p.toNat (add (ofInt beta) (neg (ofInt 1)), B64.fin 0, B64.fin 0)
  let y := if le (ofInt 1) r.2.1 then r.2.2 else r.2.1
  times (fun y => dlamc3 (mul y (ofInt beta)) (B64.fin 0)) emax.toNat y

/-- The static variables of `dlamc1_` (ext/cblas/src/dlamch.c:173-186), `dlamc2_` (381-416) and `dlamch_` (25-46), in this order. -/
structure Stat where
  first1 : Bool
  lt1 : Int
  lrnd1 : Bool
  lbeta1 : Int
  lieee1 : Bool
  first2 : Bool
  iwarn : Bool
  lt2 : Int
  leps : B64
  lbeta2 : Int
  lemin : Int
  lemax : Int
  lrmin : B64
  lrmax : B64
  first : Bool
  t : B64
  rnd : B64
  eps : B64
  base : B64
  emin : B64
  prec : B64
  emax : B64
  rmin : B64
  rmax : B64
  sfmin : B64
deriving DecidableEq

/-- The values that static variables have when the program starts. -/
def Stat.init : Stat where
  first1 := true
  lt1 := 0
  lrnd1 := false
  lbeta1 := 0
  lieee1 := false
  first2 := true
  iwarn := false
  lt2 := 0
  leps := .fin 0
  lbeta2 := 0
  lemin := 0
  lemax := 0
  lrmin := .fin 0
  lrmax := .fin 0
  first := true
  t := .fin 0
  rnd := .fin 0
  eps := .fin 0
  base := .fin 0
  emin := .fin 0
  prec := .fin 0
  emax := .fin 0
  rmin := .fin 0
  rmax := .fin 0
  sfmin := .fin 0

/-- Where a call is: each is the next statement, by its line in ext/cblas/src/dlamch.c. -/
inductive Pc where
  | l108 | l110 | l112 | l121 | l122 | l124 | l125 | l126 | l131
  | l255 | l301 | l306 | l316 | l330 | l343 | l349 | l350 | l351 | l360 | l361 | l362 | l363 | l364
  | l505 | l523 | l530 | l543 | l547 | l548 | l549 | l566 | l576 | l592 | l638 | l641 | l654 | l662 | l670
  | l673 | l677 | l679
  | l135 | l158 | done
deriving DecidableEq

/-- The local variables of a call. `lrnd` is the one of `dlamc2_`, which has whatever value was in its place before. -/
structure Loc where
  a : B64
  b : B64
  c : B64
  savec : B64
  lrnd : Bool
  lieee : Bool
  rbase : B64
  low : Int × Int × Int × Int
  ieee : Bool
  i : Int
  beta : Int
  it : Int
  imin : Int
  imax : Int
  lrndH : Bool
  small : B64
deriving DecidableEq

/-- The local variables at the start, `g` being what happens to be in the place of `lrnd`. None of the others is read before it is assigned. -/
def Loc.init (g : Bool) : Loc where
  a := .nan
  b := .nan
  c := .nan
  savec := .nan
  lrnd := g
  lieee := false
  rbase := .nan
  low := (0, 0, 0, 0)
  ieee := false
  i := 0
  beta := 0
  it := 0
  imin := 0
  imax := 0
  lrndH := false
  small := .nan

/-- `lemin`, `ieee` and whether the program warns, ext/cblas/src/dlamch.c:590-637. -/
def chooseEmin (ngpmin ngnmin gpmin gnmin lt : Int) : Int × Bool × Bool :=
  if ngpmin = ngnmin ∧ gpmin = gnmin then
    if ngpmin = gpmin then (ngpmin, false, false)
    else if gpmin - ngpmin = 3 then (ngpmin - 1 + lt, true, false)
    else (min ngpmin gpmin, false, true)
  else if ngpmin = gpmin ∧ ngnmin = gnmin then
    if (ngpmin - ngnmin).natAbs = 1 then (max ngpmin ngnmin, false, false) else (min ngpmin ngnmin, false, true)
  else if (ngpmin - ngnmin).natAbs = 1 ∧ gpmin = gnmin then
    if gpmin - min ngpmin ngnmin = 3 then (max ngpmin ngnmin - 1 + lt, false, false) else (min ngpmin ngnmin, false, true)
  else (min (min (min ngpmin ngnmin) gpmin) gnmin, false, true)

/-- One step of a call before it selects its result (lines 108 to 131 with all that they call). -/
def step (pc : Pc) (l : Loc) (s : Stat) : Option (Pc × Loc × Stat) :=
  let one := ofInt 1
  let zero := B64.fin 0
  let half := div one (ofInt 2)
  match pc with
  | .l108 => some (if s.first then .l505 else .l135, l, s)
  -- dlamc2_
  | .l505 => some (if s.first2 then .l255 else .l673, l, s)
  -- dlamc1_
  | .l255 => some (if s.first1 then .l301 else .l360, l, s)
  | .l301 => do
    let r ← findBase
    let c := dlamc3 r.2 (neg r.1)
    pure (.l306, { l with a := r.1, savec := r.2, c := c }, { s with lbeta1 := toInt (add c (div one (ofInt 4))) })
  | .l306 =>
    let b := ofInt s.lbeta1
    let c := dlamc3 (dlamc3 (div b (ofInt 2)) (div (neg b) (ofInt 100))) l.a
    some (.l316, { l with b := b, c := c }, { s with lrnd1 := eq c l.a })
  | .l316 =>
    let c := dlamc3 (dlamc3 (div l.b (ofInt 2)) (div l.b (ofInt 100))) l.a
    some (.l330, { l with c := c }, { s with lrnd1 := if s.lrnd1 && eq c l.a then false else s.lrnd1 })
  | .l330 =>
    let t1 := dlamc3 (div l.b (ofInt 2)) l.a
    let t2 := dlamc3 (div l.b (ofInt 2)) l.savec
    some (.l343, l, { s with lieee1 := eq t1 l.a && lt l.savec t2 && s.lrnd1 })
  | .l343 => some (.l349, { l with a := one, c := one }, { s with lt1 := 0 })
  | .l349 => some (if eq l.c one then .l350 else .l360, l, s)
  | .l350 => some (.l351, l, { s with lt1 := s.lt1 + 1 })
  | .l351 =>
    let a := mul l.a (ofInt s.lbeta1)
    some (.l349, { l with a := a, c := dlamc3 (dlamc3 a one) (neg a) }, s)
  | .l360 => some (.l361, l, { s with lbeta2 := s.lbeta1 })
  | .l361 => some (.l362, l, { s with lt2 := s.lt1 })
  | .l362 => some (.l363, { l with lrnd := s.lrnd1 }, s)
  | .l363 => some (.l364, { l with lieee := s.lieee1 }, s)
  | .l364 => some (.l523, l, { s with first1 := false })
  -- dlamc2_ again
  | .l523 => do
    let a ← powDi (ofInt s.lbeta2) (-s.lt2)
    pure (.l530, { l with a := a }, { s with leps := a })
  | .l530 =>
    let b := div (ofInt 2) (ofInt 3)
    let sixth := dlamc3 b (neg half)
    let third := dlamc3 sixth sixth
    let b := B64.abs (dlamc3 (dlamc3 third (neg half)) sixth)
    some (.l543, { l with b := if lt b s.leps then s.leps else b }, s)
  | .l543 => some (.l547, l, { s with leps := one })
  | .l547 => some (if lt l.b s.leps && lt zero l.b then .l548 else .l566, l, s)
  | .l548 => some (.l549, l, { s with leps := l.b })
  | .l549 =>
    let p := mul (mul (ofInt 2) (mul (mul (ofInt 2) (ofInt 2)) (mul (ofInt 2) (ofInt 2)))) (mul s.leps s.leps)
    let c := dlamc3 half (neg (dlamc3 (mul half s.leps) p))
    let b := dlamc3 half c
    let c := dlamc3 half (neg b)
    some (.l547, { l with b := dlamc3 half c, c := c }, s)
  | .l566 => some (.l576, l, { s with leps := if lt l.a s.leps then l.a else s.leps })
  | .l576 => do
    let rbase := div one (ofInt s.lbeta2)
    let small := times (fun x => dlamc3 (mul x rbase) zero) 3 one
    let a := dlamc3 one small
    let ngpmin ← dlamc4 one s.lbeta2
    let ngnmin ← dlamc4 (neg one) s.lbeta2
    let gpmin ← dlamc4 a s.lbeta2
    let gnmin ← dlamc4 (neg a) s.lbeta2
    pure (.l592, { l with rbase := rbase, a := a, low := (ngpmin, ngnmin, gpmin, gnmin) }, s)
  | .l592 =>
    let r := chooseEmin l.low.1 l.low.2.1 l.low.2.2.1 l.low.2.2.2 s.lt2
    some (.l638, { l with ieee := r.2.1 }, { s with lemin := r.1, iwarn := s.iwarn || r.2.2 })
  | .l638 => some (.l641, l, { s with first2 := false })
  | .l641 => some (.l654, l, { s with first2 := s.iwarn || s.first2 })
  | .l654 => some (.l662, { l with ieee := l.ieee || l.lieee, i := 1 - s.lemin }, { s with lrmin := one })
  | .l662 =>
    if 1 ≤ l.i then some (.l662, { l with i := l.i - 1 }, { s with lrmin := dlamc3 (mul s.lrmin l.rbase) zero })
    else some (.l670, l, s)
  | .l670 => do
    let e ← dlamc5Exp s.lbeta2 s.lt2 s.lemin l.ieee
    pure (.l673, l, { s with lemax := e, lrmax := dlamc5Max s.lbeta2 s.lt2 e })
  | .l673 => some (.l677, { l with beta := s.lbeta2, it := s.lt2, lrndH := l.lrnd }, { s with eps := s.leps })
  | .l677 => some (.l679, { l with imin := s.lemin }, { s with rmin := s.lrmin })
  | .l679 => some (.l110, { l with imax := s.lemax }, { s with rmax := s.lrmax })
  -- dlamch_ again
  | .l110 => some (.l112, l, { s with base := ofInt l.beta, t := ofInt l.it })
  | .l112 => do
    let p ← powDi s.base (1 - l.it)
    pure (.l121, l, if l.lrndH then { s with rnd := one, eps := div p (ofInt 2) } else { s with rnd := zero, eps := p })
  | .l121 => some (.l122, l, { s with prec := mul s.eps s.base })
  | .l122 => some (.l124, l, { s with emin := ofInt l.imin, emax := ofInt l.imax })
  | .l124 => some (.l125, l, { s with sfmin := s.rmin })
  | .l125 => some (.l126, { l with small := div one s.rmax }, s)
  | .l126 => some (if le s.sfmin l.small then .l131 else .l135, l, s)
  | .l131 => some (.l135, l, { s with sfmin := mul l.small (add s.eps one) })
  | .l135 => none
  | .l158 => none
  | .done => none

/-- `lsame_` with the character `b`, ext/cblas/src/lsame.c:55-113, in ASCII. -/
def lsame (a b : Nat) : Bool :=
  a = b || (if 97 ≤ a ∧ a ≤ 122 then a - 32 else a) = (if 97 ≤ b ∧ b ≤ 122 then b - 32 else b)

/-- The variable that the letter names, ext/cblas/src/dlamch.c:135-155. Other letters give no value. -/
def select (c : Nat) (s : Stat) : Option B64 :=
  if lsame c 69 then some s.eps
  else if lsame c 83 then some s.sfmin
  else if lsame c 66 then some s.base
  else if lsame c 80 then some s.prec
  else if lsame c 78 then some s.t
  else if lsame c 82 then some s.rnd
  else if lsame c 77 then some s.emin
  else if lsame c 85 then some s.rmin
  else if lsame c 76 then some s.emax
  else if lsame c 79 then some s.rmax
  else none

/-- A thread: the letter it asks for, where it is, its local variables and the result of its last call. -/
structure Thread where
  c : Nat
  pc : Pc
  l : Loc
  res : Option B64

/-- A thread that has not called yet. -/
def Thread.idle : Thread := ⟨0, .done, Loc.init false, none⟩

/-- The program: static variables and threads. -/
structure Sys where
  s : Stat
  th : List Thread

/-- What happens next: thread `i` calls `dlamch_` with letter `c` (`g` is what is in the place of an uninitialised variable), or does one step. -/
inductive Op where
  | call (i c : Nat) (g : Bool)
  | run (i : Nat)

/-- One step of a thread. -/
def stepThread (t : Thread) (s : Stat) : Option (Thread × Stat) :=
  match t.pc with
  | .done => none
  | .l135 => some ({ t with res := select t.c s, pc := .l158 }, s)
  | .l158 => some ({ t with pc := .done }, { s with first := false })
  | pc => (step pc t.l s).map fun r => ({ t with pc := r.1, l := r.2.1 }, r.2.2)

/-- The effect of an operation; nothing if it cannot happen. -/
def Sys.next (y : Sys) : Op → Option Sys
  | .call i c g => do
    let t ← y.th[i]?
    if t.pc = .done then some ⟨y.s, y.th.set i ⟨c, .l108, Loc.init g, none⟩⟩ else none
  | .run i => do
    let t ← y.th[i]?
    let r ← stepThread t y.s
    pure ⟨r.2, y.th.set i r.1⟩

/-- The effect of a history. -/
def Sys.exec (y : Sys) : List Op → Option Sys
  | [] => some y
  | o :: os => (y.next o).bind fun y => y.exec os

/-- The program at its start, with `n` threads. -/
def Sys.start (n : Nat) : Sys := ⟨Stat.init, List.replicate n Thread.idle⟩

end QM.Machine
