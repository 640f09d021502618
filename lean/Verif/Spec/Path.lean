import Verif.Model.Basic
import Mathlib.Algebra.BigOperators.Group.Finset.Basic
import Mathlib.Algebra.Order.Group.Unbundled.Abs

/-!
# Specification: the path of multi-response sparse regression

The columns of `X` (hidden neurons) enter a model of the targets `T` one after another.  The method (Similä and Tikka, ICANN 2005) starts
from zero fitted values and always takes in the column most correlated with what is not explained yet.  It then moves the fitted values
towards the least-squares fit of the columns taken in so far, until a column outside is as correlated as the ones inside.
-/

namespace Hpelm.Spec
open Finset
variable {K : Type} [Field K] [LinearOrder K]

/-- Summed absolute correlation of column `j` of `X` with what the fitted values `Y` leave unexplained of `T`. -/
def resCorr (X T Y : Mat K) (j : Nat) : K :=
  ∑ t ∈ range T.cols, |∑ s ∈ range T.nrows, (T.get s t - Y.get s t) * X.get s j|

/-- `F` are the fitted values of a least-squares fit of `T` by the columns `l` of `X`: a combination of these columns that leaves nothing
correlated with any of them. -/
def LeastSquares (X T : Mat K) (l : List Nat) (F : Mat K) : Prop :=
  (∃ W : Nat → Nat → K, ∀ s < T.nrows, ∀ t < T.cols, F.get s t = ∑ a ∈ range l.length, X.get s (l.getD a 0) * W a t) ∧
  ∀ i ∈ l, ∀ t < T.cols, ∑ s ∈ range T.nrows, (T.get s t - F.get s t) * X.get s i = 0

/-- Column `j` is the next one to take in: it is outside, and no column at all is more correlated. -/
def Next (X T Y : Mat K) (l : List Nat) (j : Nat) : Prop :=
  j < X.cols ∧ j ∉ l ∧ ∀ i < X.cols, resCorr X T Y i ≤ resCorr X T Y j

/-- The path: columns taken in so far and the fitted values.  After each move the columns inside are equally correlated with the
unexplained part, no column is more correlated, and one outside is as correlated. -/
inductive Path (X T : Mat K) : List Nat → Mat K → Prop
  | start : Path X T [] (Mat.zeros T.nrows T.cols)
  | step {l : List Nat} {j : Nat} {Y F Y' : Mat K} {g c : K} : Path X T l Y → Next X T Y l j → LeastSquares X T (l ++ [j]) F → 0 ≤ g → g ≤ 1 →
      (∀ s < T.nrows, ∀ t < T.cols, Y'.get s t = (1 - g) * Y.get s t + g * F.get s t) →
      (∀ i ∈ l ++ [j], resCorr X T Y' i = c) → (∀ i < X.cols, resCorr X T Y' i ≤ c) →
      (∃ i < X.cols, i ∉ l ++ [j] ∧ resCorr X T Y' i = c) → Path X T (l ++ [j]) Y'

/-- `r` lists columns in the order in which they enter along the path. -/
def PathRanking (X T : Mat K) (r : List Nat) : Prop :=
  ∃ l j Y, r = l ++ [j] ∧ Path X T l Y ∧ Next X T Y l j

/-- What is assumed of a root finder on `[a, b]`: no result if the function has the same sign at both ends, and the root if the function
changes sign exactly once, from positive to negative. -/
def FindsRoots (solve : (K → K) → K → K → Option K) : Prop :=
  (∀ f a b, 0 < f a * f b → solve f a b = none) ∧
  ∀ f a b z, a ≤ z → z ≤ b → f z = 0 → (∀ x, a ≤ x → x < z → 0 < f x) → (∀ x, z < x → x ≤ b → f x < 0) → solve f a b = some z

end Hpelm.Spec
