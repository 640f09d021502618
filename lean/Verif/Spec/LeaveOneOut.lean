import Verif.Spec.Ridge
import Verif.Spec.Errors

/-!
# Specification: leave-one-out error

Refit the regularised least squares problem once per sample, without that sample, and average the squared error on the
sample that was left out.
-/

namespace Hpelm.Spec
open Finset
variable {K : Type} [Field K]

/-- All samples but `s`. -/
def others (N s : Nat) : List Nat := (List.range N).filter fun i => i ≠ s

/-- `B` are output weights trained (unweighted, regularisation `lam`) on all samples but `s`. -/
def TrainedWithout (H T : Mat K) (lam : K) (s : Nat) (B : Mat K) : Prop :=
  B.WF ∧ B.nrows = H.cols ∧ B.cols = T.cols ∧
    NormalEq (H.selRows (others T.nrows s)) (T.selRows (others T.nrows s)) (fun _ => 1) lam B

/-- `v` is the leave-one-out mean squared error. -/
def IsLooError (H T : Mat K) (lam v : K) : Prop :=
  ∃ B : Nat → Mat K, (∀ s < T.nrows, TrainedWithout H T lam s (B s)) ∧
    v = (∑ s ∈ range T.nrows, ∑ j ∈ range T.cols, (predEntry H (B s) s j - T.get s j) ^ 2) / ((T.nrows * T.cols : Nat) : K)

/-- `Y` are the predictions, for the training samples, of the network trained (unweighted, regularisation `lam`) on all of them. -/
def FittedPreds (H T : Mat K) (lam : K) (Y : Mat K) : Prop :=
  Y.WF ∧ Y.nrows = T.nrows ∧ Y.cols = T.cols ∧ ∃ B : Mat K, B.WF ∧ B.nrows = H.cols ∧ B.cols = T.cols ∧
    NormalEq H T (fun _ => 1) lam B ∧ ∀ s < T.nrows, ∀ j < T.cols, Y.get s j = predEntry H B s j

/-- `Z` are the leave-one-out predictions: row `s` is what the network trained on all samples but `s` predicts for sample `s`. -/
def LeftOutPreds (H T : Mat K) (lam : K) (Z : Mat K) : Prop :=
  Z.WF ∧ Z.nrows = T.nrows ∧ Z.cols = T.cols ∧ ∀ s < T.nrows, ∃ B : Mat K, TrainedWithout H T lam s B ∧
    ∀ j < T.cols, Z.get s j = predEntry H B s j

/-- The residual of sample `s` in `Y` is `R s` times its residual in `Z`, with `0 < R s ≤ 1`. -/
def Shrink [LinearOrder K] (T Y Z : Mat K) (R : Nat → K) : Prop :=
  ∀ s < T.nrows, 0 < R s ∧ R s ≤ 1 ∧ ∀ j < T.cols, Y.get s j - T.get s j = R s * (Z.get s j - T.get s j)

open Classical in
/-- Mistakes of the predictions `Y`, each counted as `1 / R²` instead of 1: for classification per misclassified sample, otherwise per wrong
label. -/
noncomputable def scaledMisses [LinearOrder K] (kind : Option String) (T Y : Mat K) (R : Nat → K) : K :=
  if kind = some "c" then (∑ s ∈ range T.nrows, if Misclassified T Y s then 1 / R s ^ 2 else 0) / T.nrows
  else (∑ s ∈ range T.nrows, ∑ j ∈ range T.cols, if (1 / 2 < Y.get s j ↔ 1 / 2 < T.get s j) then 0 else 1 / R s ^ 2) / ((T.nrows * T.cols : Nat) : K)

end Hpelm.Spec
