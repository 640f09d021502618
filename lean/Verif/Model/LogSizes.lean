import Mathlib.Analysis.SpecialFunctions.Log.Basic
import Mathlib.Algebra.Order.Floor.Semiring
import Mathlib.Data.List.Dedup

/-!
# Model of the candidate numbers of neurons in `HPELM.validation_corr` (hpelm/hp_elm.py:420-422)
-/

namespace Hpelm

/-- Element `i` of `np.logspace(np.log(3), np.log(L), steps, base=np.e, endpoint=True)` (hpelm/hp_elm.py:420).
Simplification: real arithmetic. -/
noncomputable def logPoint (L steps i : Nat) : ℝ :=
  Real.exp (Real.log 3 + i * ((Real.log L - Real.log 3) / ((steps : ℝ) - 1)))

/-- `np.unique`: sorted, without repetitions (hpelm/hp_elm.py:422). -/
def npUnique (l : List Nat) : List Nat := (l.mergeSort (fun a b => decide (a ≤ b))).dedup

/-- Lines 420-422 with the numbers that `np.logspace` returns given as a list: `np.unique(np.ceil(v).astype(int))`. -/
noncomputable def sizesOf (v : List ℝ) : List Nat := npUnique (v.map fun x => ⌈x⌉₊)

/-- Lines 420-422. -/
noncomputable def corrSizes (L steps : Nat) : List Nat := sizesOf ((List.range steps).map (logPoint L steps))

end Hpelm
