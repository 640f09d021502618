import Mathlib.Order.Basic

/-!
# Specification: unimodal error curves
-/

namespace Hpelm.Spec
variable {K : Type}

/-- The curve `f` on the sizes `lo … hi` strictly decreases down to size `p` and strictly increases from there on. -/
def Unimodal [LT K] (f : Nat → K) (lo hi p : Nat) : Prop :=
  lo ≤ p ∧ p ≤ hi ∧ (∀ i j, lo ≤ i → i < j → j ≤ p → f j < f i) ∧ (∀ i j, p ≤ i → i < j → j ≤ hi → f i < f j)

end Hpelm.Spec
