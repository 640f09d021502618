import Verif.Spec.Network
import Verif.Model.Elm

/-!
# Specification: saved models
-/

namespace Hpelm.Spec
variable {K : Type} [Field K] [LinearOrder K]

/-- Every number of the network can be stored in precision `p`.  (True for every network built in precision `p`; in exact arithmetic
true for every network.) -/
structure Storable (env : Env K) (p : Prec) (n : NNet K) : Prop where
  weights : ∀ g ∈ n.neurons, ∀ w ∈ g.W, ∀ x ∈ w, env.cast p x = x
  biases : ∀ g ∈ n.neurons, ∀ x ∈ g.B, env.cast p x = x
  outputs : ∀ B, n.B = some B → ∀ r ∈ B.rows, ∀ x ∈ r, env.cast p x = x

/-- The two objects hold the same model: same inputs, outputs, hidden neurons, output weights, regularisation, kind of problem and class
weights. -/
structure SameContents (e e' : ELM K) : Prop where
  inputs : e.nnet.inputs = e'.nnet.inputs
  outputs : e.nnet.outputs = e'.nnet.outputs
  neurons : e.nnet.getNeurons = e'.nnet.getNeurons
  weights : e.nnet.getB = e'.nnet.getB
  norm : e.nnet.norm = e'.nnet.norm
  classification : e.classification = e'.classification
  wc : e.wc = e'.wc

end Hpelm.Spec
