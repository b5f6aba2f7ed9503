import Verif.Filter.Spec

/-!
# Repeated filtering and halving
-/

namespace QM.DecimatorB

variable {K : Type} [CommRing K]

/-- Samples 0, 2, 4, ... of a signal. -/
def evens : List K → List K
  | [] => []
  | [x] => [x]
  | x :: _ :: xs => x :: evens xs

/-- `out` is `xs` lowpass filtered (filter `b`, `a`, at rest before time 0) and halved in rate, `k`
times over. -/
inductive Cascade (b a : List K) : Nat → List K → List K → Prop
  | done (xs : List K) : Cascade b a 0 xs xs
  | halve (k : Nat) (xs ys out : List K) : Filter.DiffEq b a xs ys → Cascade b a k (evens ys) out →
      Cascade b a (k + 1) xs out

end QM.DecimatorB
