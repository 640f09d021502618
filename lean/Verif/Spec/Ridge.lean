import Verif.Model.Basic
import Verif.Spec.Data
import Mathlib.Algebra.BigOperators.Group.Finset.Basic
import Mathlib.Algebra.BigOperators.Ring.Finset

/-!
# Specification: weighted ridge regression

Plain sums over entries; nothing of the model's code is used except the array type.
-/

namespace Hpelm.Spec
open Finset
variable {K : Type} [Field K]

/-- Entry `(s, j)` of the product `H B`. -/
def predEntry (H B : Mat K) (s j : Nat) : K := ∑ k ∈ range H.cols, H.get s k * B.get k j

/-- Penalised weighted squared error `Σ_s w_s ‖(H B)_s - T_s‖² + lam ‖B‖²`. -/
def ridgeLoss (H T : Mat K) (w : Nat → K) (lam : K) (B : Mat K) : K :=
  (∑ s ∈ range T.nrows, w s * ∑ j ∈ range T.cols, (predEntry H B s j - T.get s j) ^ 2) +
    lam * ∑ k ∈ range H.cols, ∑ j ∈ range T.cols, B.get k j ^ 2

/-- The regularised normal equations `(Hᵀ W H + lam I) B = Hᵀ W T`. -/
def NormalEq (H T : Mat K) (w : Nat → K) (lam : K) (B : Mat K) : Prop :=
  ∀ k < H.cols, ∀ j < T.cols,
    lam * B.get k j + ∑ s ∈ range T.nrows, w s * H.get s k * predEntry H B s j = ∑ s ∈ range T.nrows, w s * H.get s k * T.get s j

/-- `S` and `HT` are the regularised correlation matrices of the samples whose hidden-layer rows are `H` and targets `T`:
`S = lam I + Hᵀ W H` and `HT = Hᵀ W T`, of matching shapes. -/
structure IsCorr (H T : Mat K) (w : Nat → K) (lam : K) (S HT : Mat K) : Prop where
  samples : H.nrows = T.nrows
  wfS : S.WF
  rowsS : S.nrows = H.cols
  colsS : S.cols = H.cols
  wfT : HT.WF
  rowsT : HT.nrows = H.cols
  colsT : HT.cols = T.cols
  sumS : ∀ i < H.cols, ∀ j < H.cols,
    S.get i j = (if i = j then lam else 0) + ∑ s ∈ range T.nrows, w s * H.get s i * H.get s j
  sumT : ∀ i < H.cols, ∀ j < T.cols, HT.get i j = ∑ s ∈ range T.nrows, w s * H.get s i * T.get s j

/-- `w s` is the weight sample `s` has to have: 1, and in weighted classification (`"wc"`) the weight of the class the
target row encodes. -/
def SampleWeights (cls : Option String) (wc : Option (List (Option K))) (T : Mat K) (w : Nat → K) : Prop :=
  ∀ s < T.nrows, (cls ≠ some "wc" → w s = 1) ∧
    (cls = some "wc" → ∃ l k, wc = some l ∧ IsClass T.cols (T.rows.getD s []) k ∧ l[k]? = some (some (w s)))

end Hpelm.Spec
