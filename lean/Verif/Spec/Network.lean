import Verif.Model.Slfn

/-!
# Specification: what a consistent network is, and what its neurons compute

Uses only the data structure `NNet` (the attributes of the Python object) and the dictionary of activation functions.
-/

namespace Hpelm.Spec
variable {K : Type}

/-- Bookkeeping of a network is consistent. -/
structure Consistent (n : NNet K) : Prop where
  /-- every neuron has one weight per input and one bias; the stored count is right -/
  groups : ∀ g ∈ n.neurons, g.W.length = g.number ∧ g.B.length = g.number ∧ ∀ w ∈ g.W, w.length = n.inputs
  /-- no neuron type occurs twice -/
  types : (n.neurons.map (·.func)).Nodup
  /-- the declared number of neurons is the sum over the types (it is undefined only before the first neurons) -/
  count : n.L = some (n.neurons.map (·.number)).sum ∨ (n.L = none ∧ n.neurons = [])
  /-- output weights: one row per neuron, one column per output -/
  weights : ∀ B, n.B = some B → B.WF ∧ some B.nrows = n.L ∧ B.cols = n.outputs
  /-- correlation matrices: neurons × neurons and neurons × outputs -/
  corrs : ∀ HH HT, n.corr = some (HH, HT) →
    HH.WF ∧ HT.WF ∧ some HH.nrows = n.L ∧ some HH.cols = n.L ∧ some HT.nrows = n.L ∧ HT.cols = n.outputs

/-- All neurons in order, each with its type, weights and bias. -/
def neuronList (n : NNet K) : List (Func × List K × K) :=
  n.neurons.flatMap fun g => (g.W.zip g.B).map fun p => (g.func, p.1, p.2)

/-- Number of neurons. -/
def size (n : NNet K) : Nat := (n.neurons.map (·.number)).sum

/-- Regroup a list of selected neuron numbers by type: for each block of consecutive neurons (one block per type, of the
given sizes, starting at `start`) the selected numbers that lie in the block, in the given order. -/
def byType : List Nat → Nat → List Nat → List Nat
  | [], _, _ => []
  | k :: ks, start, idx => idx.filter (fun i => start ≤ i ∧ i < start + k) ++ byType ks (start + k) idx

end Hpelm.Spec
