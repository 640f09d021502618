import Verif.Spec.Network
import Verif.Model.Elm

/-!
# Specification: choosing among networks of different sizes
-/

namespace Hpelm.Spec
variable {K : Type} [Field K] [LinearOrder K]

/-- `k` is the first position of the smallest number in a list. -/
def FirstMin (l : List K) (k : Nat) : Prop :=
  k < l.length ∧ (∀ j < l.length, l.getD k 0 ≤ l.getD j 0) ∧ ∀ j < k, l.getD k 0 < l.getD j 0

/-- `c` is model `e` cut down to its first `l` neurons: it has no others, and everything that is not learned is as in `e`. -/
structure FirstNeurons (e c : ELM K) (l : Nat) : Prop where
  neurons : neuronList c.nnet = (neuronList e.nnet).take l
  inputs : c.nnet.inputs = e.nnet.inputs
  outputs : c.nnet.outputs = e.nnet.outputs
  norm : c.nnet.norm = e.nnet.norm
  solver : c.nnet.solver = e.nnet.solver
  prec : c.nnet.prec = e.nnet.prec
  rest : c = { e with nnet := c.nnet }

end Hpelm.Spec
