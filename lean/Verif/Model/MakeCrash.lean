import Verif.Model.Hdf5

/-!
# `make_hdf5` that raises or is killed half way

What is found in the file afterwards (hpelm/modules/hdf5_tools.py:162-231).  Simplifications: a file without an array and no file are the same
(`none`); the attributes `mean` and `std`, written last (lines 227-228), are the same when absent and when `None`; what was written reaches the
file when the process ends, in the order of writing, for an array its values in any order.
-/

namespace Hpelm
variable {K : Type} [Field K] [LinearOrder K]

/-- The array that is written in one piece, converted to `dtype` (hdf5_tools.py:178-183, 196, 204-205, 221-225). -/
def H5Data.array (cast : K → K) : H5Data K → Option (Mat K)
  | .vec v => some ⟨1, v.map fun x => [cast x]⟩
  | .mat M => some (M.map cast)
  | .shape r c => some (Mat.zeros r c)
  | _ => none

/-- Whether the file gets opened for writing (line 209): the checks before it pass (lines 172, 178-206). -/
def H5Data.opens (lvl : Nat) : H5Data K → Bool
  | .vec _ | .mat _ | .shape _ _ => lvl < 10
  | .text (some _ :: _) => lvl < 10
  | _ => false

/-- The lines that are appended before the first one that cannot be (lines 214-220). -/
def appended (cast : K → K) (c : Nat) : List (Option (List K)) → List (List K)
  | some r :: rs => if r.length = c then r.map cast :: appended cast c rs else []
  | _ => []

/-- Another file system without the array in file `f`. -/
def Files.drop (fs : Files K) (f : String) : Files K := fun g => if g = f then none else fs g

/-- The files after the call `make_hdf5(d, f, …)`, also when it raises (hdf5_tools.py:162-231). -/
def makeHdf5Files (cast : K → K) (fs : Files K) (d : H5Data K) (f : String) (lvl : Nat) : Files K :=
  if d.opens lvl = false then fs else
  match d with
  | .text (some r :: rs) =>
    if r.length = 0 then fs.drop f else fs.put f ⟨⟨r.length, appended cast r.length (some r :: rs)⟩, none, none⟩
  | d =>
    match d.array cast with
    | none => fs
    | some M => if M.nrows = 0 ∨ M.cols = 0 then fs.drop f else fs.put f ⟨M, none, none⟩

/-- What can be found in the file when the process that executes `make_hdf5(d, f, …)` dies; `old` is what was there before. -/
inductive MakeLeft (cast : K → K) (d : H5Data K) (lvl : Nat) (old : Option (H5 K)) : Option (H5 K) → Prop
  /-- before line 209 -/
  | before : MakeLeft cast d lvl old old
  /-- after line 209 -/
  | truncated (h : d.opens lvl = true) : MakeLeft cast d lvl old none
  /-- after `k` lines of a text file were appended (line 220) -/
  | lines (h : d.opens lvl = true) (r : List K) (rs : List (Option (List K))) (hd : d = .text (some r :: rs)) (hr : r ≠ []) (k : Nat) :
      MakeLeft cast d lvl old (some ⟨⟨r.length, (appended cast r.length (some r :: rs)).take k⟩, none, none⟩)
  /-- while an array was being written (lines 224-225): the array is created with zeros (line 210) -/
  | values (h : d.opens lvl = true) (M Z : Mat K) (hd : d.array cast = some M) (h0 : M.nrows ≠ 0 ∧ M.cols ≠ 0) (hw : Z.WF) (hc : Z.cols = M.cols)
      (hn : Z.nrows = M.nrows) (hz : ∀ i < M.nrows, ∀ j < M.cols, Z.get i j = 0 ∨ Z.get i j = M.get i j) :
      MakeLeft cast d lvl old (some ⟨Z, none, none⟩)

end Hpelm
