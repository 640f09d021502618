import Verif.Model.Basic
import Mathlib.Algebra.BigOperators.Group.Finset.Basic

/-!
# Specification: targets that are linear functions of some features
-/

namespace Hpelm.Spec
open Finset
variable {K : Type} [Field K]

/-- Every column of the targets `T` is a linear combination of the columns of `F`, the same for all samples: `T = F W`. -/
def LinearIn (F T : Mat K) (W : Nat → Nat → K) : Prop :=
  ∀ s < T.nrows, ∀ j < T.cols, T.get s j = ∑ k ∈ range F.cols, F.get s k * W k j

end Hpelm.Spec
