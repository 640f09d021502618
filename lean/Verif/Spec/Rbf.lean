import Verif.Spec.Neurons
import Verif.Model.Basic

/-!
# Specification: distances used for the widths of radial basis function neurons
-/

namespace Hpelm.Spec
variable {K : Type} [Field K] [LinearOrder K]

/-- `v` is the distance of `x` and `y` of the given kind: city block if the name mentions "l1", otherwise Chebyshev if it
mentions "inf", otherwise squared euclidean. -/
def IsDistance (kind : String) (d : Nat) (x y : List K) (v : K) : Prop :=
  ("l1".toList <:+: kind.toList → v = cityblock d x y) ∧
  (¬ "l1".toList <:+: kind.toList → "inf".toList <:+: kind.toList → IsChebyshev d x y v) ∧
  (¬ "l1".toList <:+: kind.toList → ¬ "inf".toList <:+: kind.toList → v = sqEuclid d x y)

/-- Data points `i` and `j` are compared: `i` is one of the first `10 k` points, but not the last one of `N`; `j` is the
point drawn for `i`, or the next point if `i` itself was drawn. -/
def Compared (N k : Nat) (drawn : List Nat) (i j : Nat) : Prop :=
  i < 10 * k ∧ i + 1 < N ∧ j = if drawn.getD i 0 = i then i + 1 else drawn.getD i 0

/-- Mean of a list of numbers. -/
def meanOf (l : List K) : K := l.sum / l.length

end Hpelm.Spec
