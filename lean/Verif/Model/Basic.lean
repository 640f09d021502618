import Mathlib.Algebra.Order.Field.Basic

/-!
# NumPy / Python primitives used by hpelm

2-D arrays, slices, `numpy.array_split`, `argmax`, matrix products.  These model the *library* functions that the
code in /repo calls; the citation of each definition is a line where hpelm uses the function.
-/

namespace Hpelm

/-- Python exceptions as values (every `assert`, `raise` and library error reachable in the modelled code).
Two constructors are markers of the model, not Python exceptions: `nonFinite` (NumPy would continue with inf/NaN
values, which exact arithmetic cannot represent) and `nonTermination` (a loop ran out of model fuel; C31 proves that this
never happens). -/
inductive PyErr
  | assertion | typeError | valueError | indexError | keyError | ioError | zeroDivision | linAlg
  | nonFinite | nonTermination
  deriving DecidableEq, Repr

/-- `assert c` (e.g. hpelm/elm.py:57). -/
def pyAssert (c : Bool) : Except PyErr Unit := if c then .ok () else .error .assertion

/-- A 2-dimensional `numpy.ndarray`: its number of columns and the list of its rows.
(The number of columns is kept explicitly because NumPy keeps it for arrays with zero rows.) -/
structure Mat (K : Type) where
  cols : Nat
  rows : List (List K)
  deriving DecidableEq, Repr

namespace Mat
variable {K : Type}

/-- `M.shape[0]` -/
def nrows (M : Mat K) : Nat := M.rows.length

/-- All rows have the declared number of columns (always true of a NumPy array). -/
def WF (M : Mat K) : Prop := ∀ r ∈ M.rows, r.length = M.cols

/-- `M[i, j]` (0 outside the array; the model never relies on values outside). -/
def get [Zero K] (M : Mat K) (i j : Nat) : K := (M.rows.getD i []).getD j 0

/-- Array of shape `(r, c)` given by its entries. -/
def ofFn (r c : Nat) (f : Nat → Nat → K) : Mat K :=
  ⟨c, (List.range r).map fun i => (List.range c).map (f i)⟩

/-- `np.zeros((r, c))` (hpelm/nnets/slfn.py:158). -/
def zeros [Zero K] (r c : Nat) : Mat K := ofFn r c fun _ _ => 0

/-- `np.zeros((n, n))` followed by `np.fill_diagonal(·, v)` (hpelm/nnets/slfn.py:157-159);
also `np.eye(n, n) * v` (hpelm/modules/hdf5_tools.py:52). -/
def diag [Zero K] (n : Nat) (v : K) : Mat K := ofFn n n fun i j => if i = j then v else 0

/-- Elementwise `A + B` for arrays of equal shape (hpelm/nnets/slfn.py:161). -/
def add [Zero K] [Add K] (A B : Mat K) : Mat K := ofFn A.nrows A.cols fun i j => A.get i j + B.get i j

/-- `np.dot(A.T, B)` (hpelm/nnets/slfn.py:161-162). -/
def tmul [Zero K] [Add K] [Mul K] (A B : Mat K) : Mat K :=
  ofFn A.cols B.cols fun i j => ((A.rows.zip B.rows).map fun p => p.1.getD i 0 * p.2.getD j 0).sum

/-- One row of `np.dot(A, B)`: `v @ B`. -/
def vecMul [Zero K] [Add K] [Mul K] (v : List K) (B : Mat K) : List K :=
  (List.range B.cols).map fun j => ((List.range B.nrows).map fun i => v.getD i 0 * B.get i j).sum

/-- `np.dot(A, B)` (hpelm/nnets/slfn.py:134). -/
def mul [Zero K] [Add K] [Mul K] (A B : Mat K) : Mat K := ⟨B.cols, A.rows.map fun a => vecMul a B⟩

/-- Column selection `M[:, idx]` (hpelm/mss_v.py:58). -/
def selCols [Zero K] (M : Mat K) (idx : List Nat) : Mat K :=
  ⟨idx.length, M.rows.map fun r => idx.map fun j => r.getD j 0⟩

/-- Row selection `M[idx, :]` (hpelm/mss_v.py:55-56). -/
def selRows [Zero K] (M : Mat K) (idx : List Nat) : Mat K :=
  ⟨M.cols, idx.map fun i => M.rows.getD i []⟩

/-- `np.hstack` of two arrays (hpelm/nnets/slfn.py:119). -/
def hstack2 (A B : Mat K) : Mat K := ⟨A.cols + B.cols, List.zipWith (· ++ ·) A.rows B.rows⟩

/-- `M.astype(dtype)`: apply the cast to every entry. -/
def map (f : K → K) (M : Mat K) : Mat K := ⟨M.cols, M.rows.map (List.map f)⟩

end Mat

/-- `np.hstack(list of arrays)`; NumPy raises `ValueError` for an empty list (hpelm/nnets/slfn.py:119). -/
def hstack {K : Type} : List (Mat K) → Except PyErr (Mat K)
  | [] => .error .valueError
  | M :: Ms => .ok (Ms.foldl Mat.hstack2 M)

/-- Scalar product of two vectors (one entry of `np.dot(X, W)`, hpelm/nnets/slfn.py:61). -/
def dot {K : Type} [Zero K] [Add K] [Mul K] (x w : List K) : K := (List.zipWith (· * ·) x w).sum

/-- `v.argmax()`: index of the first maximal element (hpelm/elm.py:343). -/
def argmaxAux {K : Type} [LT K] [DecidableLT K] : List K → Nat → Nat → K → Nat
  | [], _, best, _ => best
  | x :: xs, i, best, m => if m < x then argmaxAux xs (i+1) i x else argmaxAux xs (i+1) best m

/-- `v.argmax()`: index of the first maximal element (hpelm/elm.py:343).  NumPy raises `ValueError` on an empty
vector; hpelm only calls it on rows with at least one output column, the model returns 0. -/
def argmax {K : Type} [LT K] [DecidableLT K] : List K → Nat
  | [] => 0
  | x :: xs => argmaxAux xs 1 0 x

/-- Python slice `l[start:stop]` with Python's treatment of negative and out-of-range bounds
(hpelm/hp_elm.py:153). -/
def pySlice {α : Type} (l : List α) (start stop : Int) : List α :=
  let n : Int := l.length
  let norm (i : Int) : Int := if i < 0 then max 0 (i + n) else min i n
  let a := norm start
  let b := norm stop
  (l.take b.toNat).drop a.toNat

/-- `M[start:stop]` of a 2-D array: row slice (hpelm/hp_elm.py:153). -/
def Mat.slice {K : Type} (M : Mat K) (start stop : Int) : Mat K := ⟨M.cols, pySlice M.rows start stop⟩

/-- `int(np.ceil(float(n) / b))` for `b ≠ 0` (hpelm/elm.py:221, hpelm/hp_elm.py:134).
Simplification: the division and `ceil` are exact (true in floating point for n < 2^53). -/
def ceilDiv (n b : Int) : Int := -((-n).fdiv b)

/-- Cut a list into consecutive pieces of the given sizes. -/
def splitSizes {α : Type} : List Nat → List α → List (List α)
  | [], _ => []
  | s :: ss, l => l.take s :: splitSizes ss (l.drop s)

/-- The section sizes of `numpy.array_split(a, k)`: `divmod(N, k)`, the first `N % k` sections get one more element. -/
def arraySplitSizes (n k : Nat) : List Nat :=
  List.replicate (n % k) (n / k + 1) ++ List.replicate (k - n % k) (n / k)

/-- `numpy.array_split(a, k, axis=0)` (hpelm/elm.py:229-230); `ValueError` if `k <= 0`. -/
def arraySplit {α : Type} (l : List α) (k : Int) : Except PyErr (List (List α)) :=
  if k ≤ 0 then .error .valueError else .ok (splitSizes (arraySplitSizes l.length k.toNat) l)

/-- `np.mean` of a list (hpelm/elm.py:482): `none` stands for the NaN NumPy returns for an empty array. -/
def mean? {K : Type} [Field K] (l : List K) : Option K :=
  if l.isEmpty then none else some (l.sum / (l.length : K))

/-- Python `str.upper()` (hpelm/elm.py:111), for ASCII strings. -/
def upper (s : String) : String := String.ofList (s.toList.map Char.toUpper)

/-- Python `str.lower()` (hpelm/elm.py:87), for ASCII strings. -/
def lower (s : String) : String := String.ofList (s.toList.map Char.toLower)

end Hpelm
