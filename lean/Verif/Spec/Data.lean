import Verif.Spec.LetterCase
import Verif.Model.Basic

/-!
# Specification: data matrices

Independent of the model's functions: only `Mat` (columns + rows) is used.
-/

namespace Hpelm.Spec
variable {K : Type}

/-- Two data matrices stacked on top of each other. -/
def vstack (A B : Mat K) : Mat K := ⟨A.cols, A.rows ++ B.rows⟩

/-- The row `r` encodes class `k` out of `c`: 1 in position `k`, 0 elsewhere. -/
def IsClass [Zero K] [One K] (c : Nat) (r : List K) (k : Nat) : Prop :=
  k < c ∧ r.length = c ∧ ∀ j < c, r.getD j 0 = if j = k then 1 else 0

/-- One-hot target matrix: every row encodes exactly one class. -/
def OneHot [Zero K] [One K] (T : Mat K) : Prop := ∀ r ∈ T.rows, ∃ k, IsClass T.cols r k

end Hpelm.Spec
