import Verif.Model.Basic

/-!
# External numeric environment

Everything hpelm takes from NumPy/SciPy/LAPACK that is not plain field arithmetic.
-/

namespace Hpelm

/-- Storage precision (hpelm/elm.py:62-71). -/
inductive Prec | single | double
  deriving DecidableEq, Repr

/-- External functions.  All are parameters of the model; what is assumed of them is stated in the theorems. -/
structure Env (K : Type) where
  /-- `np.exp` -/
  exp : K → K
  /-- `np.tanh` -/
  tanh : K → K
  /-- `x ** 0.5` (hpelm/nnets/slfn.py:152) and the square root inside `cdist(..., "euclidean")` -/
  sqrt : K → K
  /-- `astype(precision)` on one number -/
  cast : Prec → K → K
  /-- `np.finfo(precision).eps` -/
  eps : Prec → K
  /-- `lapack.?posv(HH, HT)` with `lower=0`: solution and `info` (hpelm/nnets/slfn_python.py:60) -/
  posv : Mat K → Mat K → Mat K × Nat
  /-- `np.linalg.pinv` (hpelm/nnets/slfn.py:178) -/
  pinv : Mat K → Mat K
  /-- `np.linalg.lstsq(HH, HT)[0]` (hpelm/nnets/slfn_python.py:65) -/
  lstsq : Mat K → Mat K → Mat K
  /-- `np.linalg.inv`, `none` = `LinAlgError` (hpelm/mss_loo.py:33) -/
  inv : Mat K → Option (Mat K)
  /-- `lu_solve(lu_factor(A), b)` (hpelm/modules/mrsr2.py:123-124) -/
  luSolve : Mat K → Mat K → Mat K
  /-- `scipy.optimize.brentq(f, a, b)`, `none` = `ValueError` (hpelm/modules/mrsr2.py:100) -/
  brentq : (K → K) → K → K → Option K

/-- Exact storage: casting to the working precision does not change a number. -/
def Env.Exact {K : Type} (env : Env K) : Prop := ∀ p x, env.cast p x = x

end Hpelm
