import Verif.Model.Hdf5

/-!
# `normalize_hdf5` killed half way

The file as it may be found after the process that applies a normalization died.  The attributes are written first, then the batches, in
place (hpelm/modules/hdf5_tools.py:146-156).  Simplification: what was written reaches the file in that order; within the batch that was
being written, rows may have arrived in any order.
-/

namespace Hpelm
variable {K : Type} [Field K] [LinearOrder K]

/-- The data after the first `k` batches were written (hdf5_tools.py:151-156). -/
def normedTo (mean std : List K) (batch k : Nat) (D : Mat K) : Mat K :=
  ⟨D.cols, applyNorm (normRow mean (std.map fun s => if s = 0 then 1 else s)) batch (List.range k) D.rows⟩

/-- What can be left of the file `h` when `normalize_hdf5(file, mean, std, batch)` dies. -/
inductive NormLeft (h : H5 K) (mean std : List K) (batch : Nat) : H5 K → Prop
  /-- before anything was written -/
  | start : NormLeft h mean std batch h
  /-- after `node.attrs.mean = mean` (line 146) -/
  | mean : NormLeft h mean std batch { h with mean := some mean }
  /-- after `k` batches (line 147, or line 156 in pass `k - 1`) -/
  | batches (k : Nat) (hk : k ≤ normBatches h.data.nrows batch) :
      NormLeft h mean std batch ⟨normedTo mean std batch k h.data, some mean, some std⟩
  /-- while batch `k` was being written (line 156): some of its rows are new, the others still old -/
  | torn (k : Nat) (hk : k < normBatches h.data.nrows batch) (Z : Mat K) (hc : Z.cols = h.data.cols) (hn : Z.nrows = h.data.nrows)
      (hz : ∀ i : Nat, Z.rows[i]? = (normedTo mean std batch k h.data).rows[i]? ∨ Z.rows[i]? = (normedTo mean std batch (k + 1) h.data).rows[i]?) :
      NormLeft h mean std batch ⟨Z, some mean, some std⟩

end Hpelm
