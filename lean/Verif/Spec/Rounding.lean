import Verif.Model.Rounded
import Mathlib.Algebra.BigOperators.Group.Finset.Basic

/-!
# Specification: rounding

What is assumed of the working precision, and the exact sums that the accumulated matrices approximate.
-/

namespace Hpelm.Spec
variable {K : Type} [Field K] [LinearOrder K]

/-- `r` rounds with unit roundoff `u`: the relative error of one rounding is at most `u`, and rounding a rounded number
changes nothing. -/
structure Rounding (r : K → K) (u : K) : Prop where
  nonneg : 0 ≤ u
  error : ∀ x, |r x - x| ≤ u * |x|
  again : ∀ x, r (r x) = r x

/-- The samples of the batches in the order of feeding: hidden layer outputs, targets, weight (1 without weights). -/
def samples (bs : List (HBatch K)) : List (List K × List K × K) :=
  bs.flatMap fun b => b.H.rows.zip (b.T.rows.zip (b.wc.getD (List.replicate b.H.nrows 1)))

/-- Batches as `add_data` makes them: well-formed matrices with one target row and one weight per sample, for `L` neurons and `c` outputs. -/
def Fit (L c : Nat) (b : HBatch K) : Prop :=
  b.H.WF ∧ b.T.WF ∧ b.H.cols = L ∧ b.T.cols = c ∧ b.H.nrows = b.T.nrows ∧
    ∀ w, b.wc = some w → w.length = b.H.nrows ∧ ∀ x ∈ w, 0 ≤ x

/-- `Σ w hᵢ hⱼ` over the samples. -/
def gram (ss : List (List K × List K × K)) (i j : Nat) : K :=
  (ss.map fun s => s.2.2 * (s.1.getD i 0 * s.1.getD j 0)).sum

/-- `Σ w |hᵢ hⱼ|` over the samples. -/
def absGram (ss : List (List K × List K × K)) (i j : Nat) : K :=
  (ss.map fun s => s.2.2 * |s.1.getD i 0 * s.1.getD j 0|).sum

/-- `Σ w hᵢ tⱼ` over the samples. -/
def cross (ss : List (List K × List K × K)) (i j : Nat) : K :=
  (ss.map fun s => s.2.2 * (s.1.getD i 0 * s.2.1.getD j 0)).sum

/-- `Σ w |hᵢ tⱼ|` over the samples. -/
def absCross (ss : List (List K × List K × K)) (i j : Nat) : K :=
  (ss.map fun s => s.2.2 * |s.1.getD i 0 * s.2.1.getD j 0|).sum

/-- Relative error after `k` roundings: `(1 + u)^k - 1` (about `k u`). -/
def drift (u : K) (k : Nat) : K := (1 + u) ^ k - 1

/-- The exact mean squared error: the mean over all entries. -/
def meanSquare (T Y : Mat K) : K :=
  (∑ i ∈ Finset.range T.nrows, ∑ j ∈ Finset.range T.cols, (Y.get i j - T.get i j) ^ 2) / ((T.nrows * T.cols : Nat) : K)

end Hpelm.Spec
