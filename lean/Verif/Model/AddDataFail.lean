import Verif.Model.Hpelm

/-!
# The files after an `add_data` call that raised

`ELM.hAddData` (Model/Hpelm.lean) reports an exception without the files that were made or changed before it.  Here the same call returns
the files as they are afterwards in any case.  Simplifications: the disk does not fail, and `make_hdf5` of an array without elements, which
raises after it has opened the file, leaves no file.
-/

namespace Hpelm
variable {K : Type} [Field K] [LinearOrder K]

/-- `_prepare_fHH` (hpelm/modules/hdf5_tools.py:20-69) for two names: `fHH` is made before `fHT` is looked at. -/
def prepareFHHS (fs : Files K) (fHH fHT : String) (n : NNet K) : Files K × Except PyErr (NNet K) :=
  let n := n.reset
  let L := n.L.getD 0
  match prepareFile fs fHH L L (Mat.diag L n.norm) with
  | .error x => (fs, .error x)
  | .ok fs1 =>
    match prepareFile fs1 fHT L n.outputs (Mat.zeros L n.outputs) with
    | .error x => (fs1, .error x)
    | .ok fs2 => (fs2, .ok n)

/-- The batches of `add_data` (hpelm/hp_elm.py:132-165); no file is written. -/
def ELM.hFeed (env : Env K) (e : ELM K) (X T : Mat K) (istart : Int) (icount : Option Int) : Except PyErr (ELM K) := do
  let bs ← hBatches e.batch istart (rangeCount X.nrows istart icount)
  let e := e.autoWc env (batchColSums e.nnet.outputs T bs)
  e.feed env X.cols T.cols (cutBatches X T bs)

/-- `get_corr` and `_write_fHH` (hpelm/hp_elm.py:167-170, hpelm/modules/hdf5_tools.py:72-94). -/
def ELM.storeCorrS (e : ELM K) (fs : Files K) (fHH fHT : String) : Files K × Except PyErr (ELM K) :=
  match e.nnet.getCorr! with
  | .error x => (fs, .error x)
  | .ok (HH, HT) =>
    let HH' := subDiag HH e.nnet.norm
    match addToFile fs fHH HH' with
    | .error x => (fs, .error x)
    | .ok fs1 =>
      match addToFile fs1 fHT HT with
      | .error x => (fs1, .error x)
      | .ok fs2 => (fs2, .ok { e with nnet := if e.nnet.solver = .basic then { e.nnet with corr := some (HH', HT) } else e.nnet })

/-- `HPELM.add_data(fX, fT, istart, icount, fHH, fHT)` (hpelm/hp_elm.py:96-170): the files afterwards, and the outcome. -/
def ELM.hAddDataS (env : Env K) (fs : Files K) (e : ELM K) (fX fT : DataArg K) (istart : Int) (icount : Option Int) (fHH fHT : String) :
    Files K × Except PyErr (ELM K) :=
  match (do pyAssert (!e.nnet.neurons.isEmpty); checkBoth fs e.nnet fX fT) with
  | .error x => (fs, .error x)
  | .ok (X, T) =>
    match prepareFHHS fs fHH fHT e.nnet with
    | (fs1, .error x) => (fs1, .error x)
    | (fs1, .ok n) =>
      match ELM.hFeed env { e with nnet := n } X T istart icount with
      | .error x => (fs1, .error x)
      | .ok e => e.storeCorrS fs1 fHH fHT

end Hpelm
