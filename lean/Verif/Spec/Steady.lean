import Verif.Spec.Training
import Mathlib.Analysis.Real.Sqrt

/-!
# Specification: how steep neurons are
-/

namespace Hpelm.Spec

/-- Corresponding features of the samples of two data sets differ by at most `δ`. -/
structure NearData (δ : ℝ) (X X' : Mat ℝ) : Prop where
  wf : X.WF
  wf' : X'.WF
  cols : X'.cols = X.cols
  rows : X'.nrows = X.nrows
  near : ∀ i < X.nrows, ∀ k < X.cols, |X.get i k - X'.get i k| ≤ δ

/-- The most that the output of a neuron can change, per unit by which every feature may change: the sum of the absolute weights of a linear or
tanh neuron, a quarter of it for a sigmoid neuron; for a radial basis function of width `b` the change of the distance to the centroid over the root of
the width. -/
noncomputable def steepness (neuron : Func × List ℝ × ℝ) : ℝ :=
  match neuron with
  | (f, w, b) =>
    if f = .name "sigm" then (w.map fun v => |v|).sum / 4
    else if f = .name "rbf_l1" then w.length / Real.sqrt b
    else if f = .name "rbf_l2" then Real.sqrt w.length / Real.sqrt b
    else if f = .name "rbf_linf" then 1 / Real.sqrt b
    else (w.map fun v => |v|).sum

/-- The neuron is a radial basis function. -/
def IsRbf (f : Func) : Prop := f = .name "rbf_l1" ∨ f = .name "rbf_l2" ∨ f = .name "rbf_linf"

end Hpelm.Spec
