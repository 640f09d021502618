import Verif.Model.Elm

/-!
# Model of `make_hdf5` and `normalize_hdf5` (hpelm/modules/hdf5_tools.py)
-/

namespace Hpelm
variable {K : Type} [Field K] [LinearOrder K]

/-- The `data` argument of `make_hdf5` (hdf5_tools.py:177-198).  `.npy`/`.gz`/`.bz2` files are read by NumPy into an
array and then treated as `vec`/`mat`/`otherDim`. -/
inductive H5Data (K : Type)
  | vec (v : List K)
  | mat (M : Mat K)
  | otherDim
  /-- `.txt`/`.csv` file: the lines after `skiprows`, `none` for a line with something that is not a number
  (`np.fromiter` raises `ValueError`), otherwise its numbers -/
  | text (lines : List (Option (List K)))
  /-- a tuple of two sizes -/
  | shape (r c : Nat)
  /-- anything else -/
  | unsupported

/-- Write a file. -/
def Files.put (fs : Files K) (f : String) (h : H5 K) : Files K := fun g => if g = f then some h else fs g

/-- `create_carray` + fill: all dimensions must be positive (PyTables raises `ValueError`). -/
def makeArray (fs : Files K) (f : String) (M : Mat K) : Except PyErr (Files K) :=
  if M.nrows = 0 ∨ M.cols = 0 then .error .valueError else .ok (fs.put f ⟨M, none, none⟩)

/-- Append the rows of a text file one by one to an extendable array with `c` columns (hdf5_tools.py:213-220); a row of
another length, or a line that is not made of numbers, raises `ValueError`. -/
def appendRows (cast : K → K) (c : Nat) : List (Option (List K)) → List (List K) → Except PyErr (List (List K))
  | [], acc => .ok acc
  | none :: _, _ => .error .valueError
  | some r :: rs, acc => if r.length = c then appendRows cast c rs (acc ++ [r.map cast]) else .error .valueError

/-- `make_hdf5` (hdf5_tools.py:162-230).  `cast` is the conversion to `dtype`.  What is left of the
file when it raises is modelled in `Model/MakeCrash.lean`.  A first line without numbers gives an array with two dimensions
of size 0, which PyTables rejects with `NotImplementedError`; modelled as `valueError`. -/
def makeHdf5 (cast : K → K) (fs : Files K) (d : H5Data K) (f : String) (compLevel : Nat) : Except PyErr (Files K) := do
  pyAssert (compLevel < 10)
  match d with
  | .unsupported => .error .assertion
  | .otherDim => .error .assertion
  | .vec v => makeArray fs f (⟨1, v.map fun x => [cast x]⟩)
  | .mat M => makeArray fs f (M.map cast)
  | .shape r c => makeArray fs f (Mat.zeros r c)
  | .text [] => .error .typeError                             -- X is None: X.shape fails
  | .text (none :: _) => .error .valueError                   -- line 193, before the file is opened
  | .text (some r :: rs) => do
    if r.length = 0 then .error .valueError
    let rows ← appendRows cast r.length (some r :: rs) []
    pure (fs.put f ⟨⟨r.length, rows⟩, none, none⟩)

/-- Column means of a block of rows (`np.mean(X1, 0)`); the block is not empty. -/
def colMeans (g : K → K) (d : Nat) (rows : List (List K)) : List K :=
  (List.range d).map fun j => (rows.map fun r => g (r.getD j 0)).sum / (rows.length : K)

/-- Number of batches (hdf5_tools.py:114-116). -/
def normBatches (N batch : Nat) : Nat := N / batch + (if N / batch * batch < N then 1 else 0)

/-- Batched estimate of `E[g(x)]` per column (hdf5_tools.py:121-128). -/
def batchedMean (g : K → K) (d : Nat) (rows : List (List K)) (batch : Nat) : List Nat → List K → List K
  | [], acc => acc
  | b :: bs, acc =>
    let start := b * batch
    let step := min batch (rows.length - start)
    let X1 := (rows.take (start + step)).drop start
    batchedMean g d rows batch bs
      (List.zipWith (fun a m => a + m * ((step : K) / (rows.length : K))) acc (colMeans g d X1))

/-- Apply `(X - mean) / std` to a row. -/
def normRow (mean std : List K) (r : List K) : List K :=
  List.zipWith (fun x ms => (x - ms.1) / ms.2) r (mean.zip std)

/-- The batched in-place update (hdf5_tools.py:151-156). -/
def applyNorm (f : List K → List K) (batch : Nat) : List Nat → List (List K) → List (List K)
  | [], rows => rows
  | b :: bs, rows =>
    let start := b * batch
    let step := min batch (rows.length - start)
    applyNorm f batch bs (rows.take start ++ ((rows.take (start + step)).drop start).map f ++ rows.drop (start + step))

/-- `normalize_hdf5` (hdf5_tools.py:97-159).  Exact arithmetic: the rounding of line 156 (`astype(dt)`) is left out.  `batch = none` uses the chunk size `chunk` of the array (lines 112-113).
Returns the parameters and the new file contents.  Line 140 reads an attribute of a closed node, which PyTables
rejects; modelled as `ioError`. -/
def normalizeHdf5 (env : Env K) (fs : Files K) (f : String) (mean std : Option (List K)) (batch : Option Nat)
    (chunk : Nat) : Except PyErr ((List K × List K) × Files K) :=
  match fs f with
  | none => .error .typeError
  | some h => do
    let batch := batch.getD chunk
    if batch = 0 then .error .zeroDivision
    let N := h.data.nrows
    let d := h.data.cols
    let nb := normBatches N batch
    match mean, std with
    | some mean, some std =>
      pyAssert (mean.length = d)
      pyAssert (std.length = d)
      let std1 := std.map fun s => if s = 0 then 1 else s
      let rows := applyNorm (normRow mean std1) batch (List.range nb) h.data.rows
      pure ((mean, std1), fs.put f ⟨⟨d, rows⟩, some mean, some std⟩)
    | _, _ =>
      match h.mean with
      | none =>
        let Ex := batchedMean id d h.data.rows batch (List.range nb) (List.replicate d 0)
        let Ex2 := batchedMean (fun x => x * x) d h.data.rows batch (List.range nb) (List.replicate d 0)
        let std := List.zipWith (fun a b => env.sqrt (a - b * b)) Ex2 Ex
        pure ((Ex, std), fs.put f { h with mean := some Ex, std := some std })
      | some _ => .error .ioError

end Hpelm
