import Verif.Model.Hdf5

/-!
# Arguments of `normalize_hdf5` as Python objects

The parameters `mean` and `std` may be given as NumPy arrays, lists or tuples.  They have to pass `len(…)` and enter `(X - mean) / std`, where
all three behave alike.  They differ in line 148, `std[std == 0] = 1`, which also changes the object of the caller.
-/

namespace Hpelm
variable {K : Type} [Field K] [LinearOrder K]

/-- What kind of object holds the standard deviations. -/
inductive VecKind
  | array
  | list
  | tuple
deriving DecidableEq

/-- `std[std == 0] = 1` (hpelm/modules/hdf5_tools.py:148), the contents of the object afterwards.  For an array, `std == 0` is an array of
truth values and selects the entries equal to zero.  For a list, `std == 0` is `False`, and `False` as an index is `0`.  A tuple cannot
be changed. -/
def fixStd (k : VecKind) (std : List K) : Except PyErr (List K) :=
  match k with
  | .array => .ok (std.map fun s => if s = 0 then 1 else s)
  | .list => if std.length = 0 then .error .indexError else .ok (std.set 0 1)
  | .tuple => .error .typeError

/-- What a call leaves: its result, the files, and the contents of the object given as `std`. -/
structure NormOut (K : Type) where
  result : Except PyErr (List K × List K)
  files : Files K
  std : List K

/-- `normalize_hdf5` with both parameters given (hpelm/modules/hdf5_tools.py:106-117, 141-159), `std` an object of kind `k`.  As in
`normalizeHdf5`, arithmetic is exact and the rounding of line 156 is left out; division by an entry of `std` that stays zero (only possible
for a list) is `0` here where NumPy gives infinities, and theorems leave that case out. -/
def normalizeArgs (fs : Files K) (f : String) (mean : List K) (k : VecKind) (std : List K) (batch : Option Nat) (chunk : Nat) : NormOut K :=
  match fs f with
  | none => ⟨.error .typeError, fs, std⟩
  | some h =>
    let batch := batch.getD chunk
    if batch = 0 then ⟨.error .zeroDivision, fs, std⟩
    else if mean.length ≠ h.data.cols then ⟨.error .assertion, fs, std⟩
    else if std.length ≠ h.data.cols then ⟨.error .assertion, fs, std⟩
    else
      -- lines 146-147: the attributes are stored before line 148
      let fs1 := fs.put f { h with mean := some mean, std := some std }
      match fixStd k std with
      | .error x => ⟨.error x, fs1, std⟩
      | .ok std1 =>
        let rows := applyNorm (normRow mean std1) batch (List.range (normBatches h.data.nrows batch)) h.data.rows
        ⟨.ok (mean, std1), fs.put f ⟨⟨h.data.cols, rows⟩, some mean, some std⟩, std1⟩

end Hpelm
