import Verif.Model.Ops
import Verif.Model.Hpelm

/-!
# Public operations of an out-of-memory model as data: histories over a model and the HDF5 files
-/

namespace Hpelm
variable {K : Type}

/-- One call on an `HPELM` object. -/
inductive HOp (K : Type)
  /-- a call inherited from `ELM`, or on the network object -/
  | elm (op : Op K)
  /-- `add_data(fX, fT, istart, icount, fHH, fHT)` (hpelm/hp_elm.py:96) -/
  | addData (fX fT : DataArg K) (istart : Int) (icount : Option Int) (fHH fHT : Option String)
  /-- `train(fX, fT, *args, **kwargs)` (hpelm/hp_elm.py:57) -/
  | train (fX fT : DataArg K) (args : List String) (kw : Kwargs K)
  /-- `solve_corr(fHH, fHT)` (hpelm/hp_elm.py:172) -/
  | solveCorr (fHH fHT : String)
  /-- `validation_corr(fHH, fHT, fXv, fTv)` (hpelm/hp_elm.py:391) with the candidate sizes `Ls` -/
  | validationCorr (fHH fHT : String) (fXv fTv : DataArg K) (Ls : List Nat)
  /-- another program (or `make_hdf5`) writes a file -/
  | write (f : String) (h : H5 K)

variable [Field K] [LinearOrder K]

/-- Execute one call: new model and new files. -/
def ELM.hStep (env : Env K) (s : ELM K × Files K) : HOp K → Except PyErr (ELM K × Files K)
  | .elm op => do
    let e ← s.1.step env s.2 op
    pure (e, s.2)
  | .addData fX fT istart icount fHH fHT => s.1.hAddData env s.2 fX fT istart icount fHH fHT
  | .train fX fT args kw =>
    match s.1.hTrain env s.2 fX fT args kw with
    | (.ok (), e') => .ok (e', s.2)
    | (.error x, _) => .error x
  | .solveCorr fHH fHT => do
    let e ← s.1.hSolveCorr env s.2 fHH fHT
    pure (e, s.2)
  | .validationCorr fHH fHT fXv fTv Ls => do
    let r ← s.1.validationCorr env s.2 fHH fHT fXv fTv Ls
    pure (r.1, s.2)
  | .write f h => .ok (s.1, fun g => if g = f then some h else s.2 g)

/-- Execute a history of calls; stops at the first exception. -/
def ELM.hRun (env : Env K) : ELM K × Files K → List (HOp K) → Except PyErr (ELM K × Files K)
  | s, [] => .ok s
  | s, op :: ops => do
    let s' ← ELM.hStep env s op
    ELM.hRun env s' ops

end Hpelm
