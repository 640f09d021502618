import Verif.Model.Elm
import Verif.Spec.Network

/-!
# Specification: networks that compute the same hidden layer from different inputs

`R x x'` says that the sample `x` of one data set and the sample `x'` of another describe the same thing (other order of the features, other
units, another origin, additional features).
-/

namespace Hpelm.Spec
variable {K : Type} [Field K] [LinearOrder K]

/-- Two neuron groups of one type and size, in which neurons of the same number give the same output for corresponding samples. -/
structure TwinGroups (env : Env K) (R : List K → List K → Prop) (g g' : Group K) : Prop where
  number : g'.number = g.number
  func : g'.func = g.func
  sizes : g.W.length = g.number ∧ g.B.length = g.number ∧ g'.W.length = g.number ∧ g'.B.length = g.number
  same : ∀ s a, g.func = .name s → act env s = some a → ∀ x x', R x x' → ∀ k < g.number,
    a x (g.W.getD k []) (g.B.getD k 0) = a x' (g'.W.getD k []) (g'.B.getD k 0)

/-- Two networks with the same solver, precision, number of outputs and regularisation, whose neurons correspond one to one.  What the
networks have accumulated or learned before is not compared. -/
structure TwinNets (env : Env K) (R : List K → List K → Prop) (n n' : NNet K) : Prop where
  solver : n'.solver = n.solver
  prec : n'.prec = n.prec
  outputs : n'.outputs = n.outputs
  norm : n'.norm = n.norm
  neurons : List.Forall₂ (TwinGroups env R) n.neurons n'.neurons

/-- Corresponding input data of two networks. -/
structure TwinData (R : List K → List K → Prop) (n n' : NNet K) (X X' : Mat K) : Prop where
  cols : X.cols = n.inputs
  cols' : X'.cols = n'.inputs
  rows : List.Forall₂ R X.rows X'.rows

/-- Corresponding optional input data. -/
inductive TwinOpt (R : List K → List K → Prop) (n n' : NNet K) : Option (DataArg K) → Option (DataArg K) → Prop
  | none : TwinOpt R n n' none none
  | some (X X' : Mat K) : TwinData R n n' X X' → TwinOpt R n n' (some (.mat X)) (some (.mat X'))

/-- Two models cannot be told apart by `train` and `predict`: trained on corresponding inputs (and corresponding validation inputs) and the
same targets, with the same flags, options and random choices, both calls raise the same exception or return the same value; then the
output weights agree, as many neurons are left, and corresponding new inputs get the same predictions. -/
def SameOutcome (env : Env K) (R : List K → List K → Prop) (e e' : ELM K) : Prop :=
  ∀ (fs : Files K) (rnd : Rnd) (X X' : Mat K) (T : DataArg K) (args : List String) (kw : Kwargs K) (Xv' : Option (DataArg K)),
    TwinData R e.nnet e'.nnet X X' → TwinOpt R e.nnet e'.nnet kw.Xv Xv' →
    ∃ t f f', e.train env fs rnd (.mat X) T args kw = (t, f) ∧ e'.train env fs rnd (.mat X') T args { kw with Xv := Xv' } = (t, f') ∧
      ∀ v, t = .ok v → f'.nnet.B = f.nnet.B ∧ size f'.nnet = size f.nnet ∧ f'.classification = f.classification ∧ f'.wc = f.wc ∧
        ∀ Xn Xn', TwinData R e.nnet e'.nnet Xn Xn' → f'.predict env fs (.mat Xn') = f.predict env fs (.mat Xn)

/-- A network for other inputs: every neuron gets weights and bias computed from its type and its old weights and bias. -/
def retune (inputs : Nat) (f : Func → List K → K → List K × K) (n : NNet K) : NNet K :=
  { n with
    inputs := inputs
    neurons := n.neurons.map fun g =>
      { g with W := List.zipWith (fun w b => (f g.func w b).1) g.W g.B, B := List.zipWith (fun w b => (f g.func w b).2) g.W g.B } }

/-- The features of a sample in another order. -/
def reorder (σ : List Nat) (x : List K) : List K := σ.map fun i => x.getD i 0

/-- `x - m` for every feature. -/
def shifted (m x : List K) : List K := List.zipWith (· - ·) x m

/-- `(x - m) / s` for every feature, as `normalize_hdf5` computes it. -/
def normalised (m s x : List K) : List K := List.zipWith (· / ·) (shifted m x) s

end Hpelm.Spec
