import Verif.Spec.Path
import Verif.Model.Env
import Mathlib.Analysis.SpecialFunctions.Pow.Real

/-!
# Specification: ranking for many outputs

The same method as in `Spec/Path.lean`, with the Euclidean norm of the correlations with the outputs instead of the sum of their absolute values.
-/

namespace Hpelm.Spec
open Finset

/-- Euclidean norm of the correlations of column `j` of `X` with what the fitted values `Y` leave unexplained of the targets `T`. -/
noncomputable def normCorr (X T : Mat ℝ) (Y : Nat → Nat → ℝ) (j : Nat) : ℝ :=
  Real.sqrt (∑ t ∈ range T.cols, (∑ s ∈ range T.nrows, (T.get s t - Y s t) * X.get s j) ^ 2)

/-- What is assumed of `lu_factor` and `lu_solve`: a result of the shape of the right-hand side, and the solution if there is exactly one. -/
structure SolvesUnique {K : Type} [Zero K] [Add K] [Mul K] (solve : Mat K → Mat K → Mat K) : Prop where
  shape : ∀ A b : Mat K, (solve A b).nrows = b.nrows ∧ (solve A b).cols = b.cols
  unique : ∀ A b x : Mat K, A.WF → A.nrows = A.cols → b.WF → b.nrows = A.cols → x.WF → x.nrows = A.cols → x.cols = b.cols → A.mul x = b →
    (∀ y : Mat K, y.WF → y.nrows = A.cols → y.cols = b.cols → A.mul y = b → y = x) → solve A b = x

end Hpelm.Spec
