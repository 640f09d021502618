import Verif.Model.Rounded
import Verif.Model.Hdf5

/-!
# Normalization parameters in rounded arithmetic

The computation of `normalize_hdf5` (hpelm/modules/hdf5_tools.py:118-131) for one column, every elementary operation followed by
the rounding `r` of double precision and sums formed in an unknown order (`Model/Rounded.lean`).

Simplifications: no overflow; numbers of rows are represented exactly (`1.0*step`).
-/

namespace Hpelm
variable {K : Type} [Field K] [LinearOrder K]

/-- `np.mean(X1, 0)` for one column: the sum in any order, and the division by the number of rows (hdf5_tools.py:127). -/
def MeanR (r : K → K) (xs : List K) (m : K) : Prop :=
  ∃ s, Sums r (xs.map .val) s ∧ m = r (s / (xs.length : K))

/-- The loop over batches (hdf5_tools.py:123-128) for one column of `N` rows, from the value `a` on:
`E += np.mean(f(X1), 0) * (1.0*step/N)`. -/
inductive MeansR (r : K → K) (N : Nat) (f : K → K) : List (List K) → K → K → Prop
  | nil (a) : MeansR r N f [] a a
  | cons {a m v part parts} : MeanR r (part.map f) m → MeansR r N f parts (r (a + r (m * r ((part.length : K) / (N : K))))) v →
      MeansR r N f (part :: parts) a v

/-- The parts of a column that the batches read (hdf5_tools.py:114-116 and 123-126). -/
def normParts (batch : Nat) (col : List K) : List (List K) :=
  (List.range (normBatches col.length batch)).map fun b =>
    let start := b * batch
    let step := min batch (col.length - start)
    (col.take (start + step)).drop start

/-- The parameters of one column: `mean`, and the number `rad` of which line 131 takes the square root, `std = rad**0.5`
(hdf5_tools.py:121-131).  NumPy gives `nan` for the root of a negative number. -/
def NormalizeR (r : K → K) (batch : Nat) (col : List K) (mean rad : K) : Prop :=
  ∃ ex2, MeansR r col.length id (normParts batch col) 0 mean ∧
    MeansR r col.length (fun x => r (x * x)) (normParts batch col) 0 ex2 ∧
    rad = r (ex2 - r (mean * mean))

end Hpelm
