import Verif.Model.Elm

/-!
# Public operations of an in-memory model as data, so that arbitrary histories can be quantified over
-/

namespace Hpelm
variable {K : Type}

/-- One call that can change a model. -/
inductive Op (K : Type)
  /-- `elm.add_neurons(number, func, W, B)` (hpelm/elm.py:235), with the random numbers it draws -/
  | addNeurons (randW : Nat → Mat K) (randB : Nat → List K) (sq : K) (number : Nat) (func : Func)
      (W : Option (Mat K)) (B : Option (List K))
  /-- `elm.add_data(X, T)` (hpelm/elm.py:207) -/
  | addData (X T : Mat K)
  /-- `elm.nnet.add_batch(X, T, wc)` (hpelm/nnets/slfn.py:137) -/
  | addBatch (X T : Mat K) (wc : Option (List K))
  /-- `elm.nnet.reset()` (hpelm/nnets/slfn.py:97) -/
  | reset
  /-- `elm.nnet._prune(idx)` (hpelm/nnets/slfn.py:182) -/
  | prune (idx : List Nat)
  /-- `elm.nnet.set_B(B)` (hpelm/nnets/slfn.py:206) -/
  | setB (B : Mat K)
  /-- `elm.nnet.set_corr(HH, HT)` (hpelm/nnets/slfn.py:223) -/
  | setCorr (HH HT : Mat K)
  /-- `elm.nnet.solve()` (hpelm/nnets/slfn.py:164) -/
  | solve
  /-- `elm.train(X, T, *args, **kwargs)` (hpelm/elm.py:150), with the random choices it makes -/
  | train (rnd : Rnd) (X T : DataArg K) (args : List String) (kw : Kwargs K)
  /-- `elm.load(...)` (hpelm/elm.py:429) of a saved dictionary -/
  | load (m : Saved K)

variable [Field K] [LinearOrder K]

/-- Execute one call; `fs` are the HDF5 files. -/
def ELM.step (env : Env K) (fs : Files K) (e : ELM K) : Op K → Except PyErr (ELM K)
  | .addNeurons randW randB sq number func W B => e.addNeurons env randW randB sq number func W B
  | .addData X T => e.addData env X T
  | .addBatch X T wc => do
    let n ← e.nnet.addBatch env X T wc
    pure { e with nnet := n }
  | .reset => .ok { e with nnet := e.nnet.reset }
  | .prune idx => .ok { e with nnet := e.nnet.prune idx }
  | .setB B => do
    let n ← e.nnet.setB env B
    pure { e with nnet := n }
  | .setCorr HH HT => do
    let n ← e.nnet.setCorr env HH HT
    pure { e with nnet := n }
  | .solve => do
    let n ← e.nnet.solve env
    pure { e with nnet := n }
  | .train rnd X T args kw =>
    match e.train env fs rnd X T args kw with
    | (.ok _, e') => .ok e'
    | (.error x, _) => .error x
  | .load m => e.load env m

/-- Execute a history of calls; stops at the first exception. -/
def ELM.run (env : Env K) (fs : Files K) : ELM K → List (Op K) → Except PyErr (ELM K)
  | e, [] => .ok e
  | e, op :: ops => do
    let e' ← e.step env fs op
    ELM.run env fs e' ops

end Hpelm
