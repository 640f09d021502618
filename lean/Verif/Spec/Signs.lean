import Verif.Model.Basic
import Mathlib.Algebra.BigOperators.Group.Finset.Basic
import Mathlib.Algebra.Order.Group.Unbundled.Abs

/-!
# Specification: sign vectors and correlations
-/

namespace Hpelm.Spec
open Finset
variable {K : Type} [Field K]

/-- `s` assigns a sign to each of `p` outputs. -/
def IsSignVector (p : Nat) (s : List K) : Prop := s.length = p ∧ ∀ x ∈ s, x = 1 ∨ x = -1

/-- Summed absolute correlation of column `j` of `X` with the columns of `T`. -/
def sumAbsCorr [LinearOrder K] (T X : Mat K) (j : Nat) : K :=
  ∑ t ∈ range T.cols, |∑ s ∈ range T.nrows, T.get s t * X.get s j|

end Hpelm.Spec
