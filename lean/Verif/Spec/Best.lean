import Verif.Spec.Rounding

/-!
# Specification: the weighted ridge problem over samples
-/

namespace Hpelm.Spec
variable {K : Type} [Field K] [LinearOrder K]

/-- The objective that training minimises for output `j`: weighted squared errors of the samples plus `norm` times the squared
weights, for output weights `b 0, ..., b (L-1)`. -/
def objective (ss : List (List K × List K × K)) (norm : K) (L j : Nat) (b : Nat → K) : K :=
  (ss.map fun s => s.2.2 * (s.2.1.getD j 0 - ∑ k ∈ Finset.range L, s.1.getD k 0 * b k) ^ 2).sum
    + norm * ∑ k ∈ Finset.range L, b k ^ 2

/-- `B` holds the best output weights: no others give a smaller objective for any output. -/
def Best (ss : List (List K × List K × K)) (norm : K) (L c : Nat) (B : Nat → Nat → K) : Prop :=
  ∀ j < c, ∀ b : Nat → K, objective ss norm L j (fun k => B k j) ≤ objective ss norm L j b

end Hpelm.Spec
