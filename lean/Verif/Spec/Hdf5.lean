import Verif.Model.Basic
import Mathlib.Algebra.BigOperators.Group.Finset.Basic
import Mathlib.Algebra.Field.Basic

/-!
# Specification: column statistics of a data matrix
-/

namespace Hpelm.Spec
open Finset
variable {K : Type} [Field K]

/-- Mean of column `j`. -/
def colMean (M : Mat K) (j : Nat) : K := (∑ s ∈ range M.nrows, M.get s j) / (M.nrows : K)

/-- Variance of column `j`: mean squared distance from the mean. -/
def colVar (M : Mat K) (j : Nat) : K := (∑ s ∈ range M.nrows, (M.get s j - colMean M j) ^ 2) / (M.nrows : K)

end Hpelm.Spec
