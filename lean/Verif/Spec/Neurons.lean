import Verif.Model.Env
import Mathlib.Algebra.BigOperators.Group.Finset.Basic
import Mathlib.Order.Bounds.Defs

/-!
# Specification: what the six kinds of neurons compute

`x` is a sample with `d` features, `w` and `b` are weights and bias of a neuron (centroid and width of a radial basis
function neuron).  Component `k` of a vector is `x.getD k 0`.
-/

namespace Hpelm.Spec
variable {K : Type} [Field K] [LinearOrder K]

/-- `x · w + b` -/
def affine (d : Nat) (x w : List K) (b : K) : K := (∑ k ∈ Finset.range d, x.getD k 0 * w.getD k 0) + b

/-- Sum of absolute differences. -/
def cityblock (d : Nat) (x w : List K) : K := ∑ k ∈ Finset.range d, |x.getD k 0 - w.getD k 0|

/-- Squared euclidean distance. -/
def sqEuclid (d : Nat) (x w : List K) : K := ∑ k ∈ Finset.range d, (x.getD k 0 - w.getD k 0) ^ 2

/-- `m` is the largest absolute difference (0 if there are no features). -/
def IsChebyshev (d : Nat) (x w : List K) (m : K) : Prop :=
  IsLeast {m | 0 ≤ m ∧ ∀ k < d, |x.getD k 0 - w.getD k 0| ≤ m} m

/-- `y` is the output of a neuron of the kind `s`. -/
inductive NeuronOutput (env : Env K) (d : Nat) (x w : List K) (b : K) : String → K → Prop
  | lin : NeuronOutput env d x w b "lin" (affine d x w b)
  | sigm : NeuronOutput env d x w b "sigm" (1 / (1 + env.exp (affine d x w b)))
  | tanh : NeuronOutput env d x w b "tanh" (env.tanh (affine d x w b))
  | rbfL1 : NeuronOutput env d x w b "rbf_l1" (env.exp (-(cityblock d x w) ^ 2 / b))
  | rbfL2 : NeuronOutput env d x w b "rbf_l2" (env.exp (-(sqEuclid d x w) / b))
  | rbfLinf (m : K) (hm : IsChebyshev d x w m) : NeuronOutput env d x w b "rbf_linf" (env.exp (-m ^ 2 / b))

end Hpelm.Spec
