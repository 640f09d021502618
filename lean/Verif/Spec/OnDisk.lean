import Verif.Model.Hpelm
import Verif.Spec.DataArgs
import Verif.Spec.Network
import Verif.Spec.Data

/-!
# Specification: a dataset fed part by part into two files
-/

namespace Hpelm.Spec
variable {K : Type} [Field K] [LinearOrder K]

/-- Two objects are the same model: same hidden neurons, same numbers of inputs and outputs, same regularisation, same kind of
problem and (for weighted classification) same class weights.  Solver, precision, batch size and everything learned may differ. -/
structure SameModel (e e0 : ELM K) : Prop where
  neurons : e.nnet.neurons = e0.nnet.neurons
  inputs : e.nnet.inputs = e0.nnet.inputs
  outputs : e.nnet.outputs = e0.nnet.outputs
  norm : e.nnet.norm = e0.nnet.norm
  classification : e.classification = e0.classification
  wc : e0.classification = some "wc" → e.wc = e0.wc

/-- In weighted classification the class weights are given by the user: one non-negative weight per output. -/
def GivenWeights (e : ELM K) : Prop :=
  e.classification = some "wc" → ∃ ws : List K, e.wc = some (ws.map some) ∧ (∀ x ∈ ws, 0 ≤ x) ∧ ws.length = e.nnet.outputs

/-- `Fed env fHH fHT e0 fs P`: starting without the two files, objects that are the same model as `e0` were fed, one call of
`add_data(fX, fT, istart, icount, fHH, fHT)` after another, and other files were changed in between; the disk is now `fs`, and `P` are
the (sample, target) pairs of all the calls together. -/
inductive Fed (env : Env K) (fHH fHT : String) (e0 : ELM K) : Files K → List (List K × List K) → Prop
  | start (fs : Files K) (h1 : fs fHH = none) (h2 : fs fHT = none) : Fed env fHH fHT e0 fs []
  | add {fs fs' : Files K} {P : List (List K × List K)} (hf : Fed env fHH fHT e0 fs P) (e e' : ELM K) (hm : SameModel e e0)
      (hcon : Consistent e.nnet) (hb : 0 < e.batch) (fX fT : DataArg K) (X T : Mat K) (hX : Reads fs fX (some X)) (hT : Reads fs fT (some T))
      (hTw : T.WF) (istart : Nat) (icount : Option Nat) (hhot : e0.classification = some "wc" → OneHot (samplesIn T istart icount))
      (h : e.hAddData env fs fX fT istart (icount.map (↑)) (some fHH) (some fHT) = .ok (e', fs')) :
      Fed env fHH fHT e0 fs' (P ++ (samplesIn X istart icount).rows.zip (samplesIn T istart icount).rows)
  | other {fs fs' : Files K} {P : List (List K × List K)} (hf : Fed env fHH fHT e0 fs P) (h1 : fs' fHH = fs fHH) (h2 : fs' fHT = fs fHT) :
      Fed env fHH fHT e0 fs' P

end Hpelm.Spec
