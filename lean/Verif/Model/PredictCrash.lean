import Verif.Model.Hpelm

/-!
# `HPELM.predict` into a file, killed half way

The file as it may be found after the process that predicts died.  The file is created empty, then the batches are written in order, in
place (hpelm/hp_elm.py:206-227, hpelm/modules/hdf5_tools.py:209-231).  Simplification: what was written reaches the file in that order;
within the batch that was being written, values may have arrived in any order.
-/

namespace Hpelm
variable {K : Type} [Field K] [LinearOrder K]

/-- The output array of `predict(fX, fY, istart, icount)` after `k` passes of the loop (hpelm/hp_elm.py:198-227). -/
def ELM.predictedTo (env : Env K) (fs : Files K) (e : ELM K) (fX : DataArg K) (istart : Int) (icount : Option Int) (k : Nat) :
    Except PyErr (Mat K) := do
  pyAssert (!e.nnet.neurons.isEmpty)
  pyAssert e.nnet.B.isSome
  match ← checkOne fs e.nnet.inputs fX with
  | none => .error .typeError
  | some X =>
    let icount := rangeCount X.nrows istart icount
    let bs ← hBatches e.batch istart icount
    let Y ← makeOut icount e.nnet.outputs true
    batchLoop (e.nnet.predict env) (fun b => (b.1 - istart, b.2 - istart)) X (bs.take k) Y

/-- What can be left of the output file when `predict(fX, fY, istart, icount)` dies; `old` is what the file was before. -/
inductive PredictLeft (env : Env K) (fs : Files K) (e : ELM K) (fX : DataArg K) (istart : Int) (icount : Option Int) (old : Option (H5 K)) :
    Option (H5 K) → Prop
  /-- before the file was opened for writing (line 207) -/
  | before : PredictLeft env fs e fX istart icount old old
  /-- after `open_file(h5file, "w")` (hdf5_tools.py:209): whatever was there is gone, no array is there yet -/
  | truncated : PredictLeft env fs e fX istart icount old none
  /-- after `k` batches (line 227 in pass `k - 1`) -/
  | batches (k : Nat) (Y : Mat K) (h : e.predictedTo env fs fX istart icount k = .ok Y) :
      PredictLeft env fs e fX istart icount old (some ⟨Y, none, none⟩)
  /-- while batch `k` was being written (line 227) -/
  | torn (k : Nat) (Y Y' Z : Mat K) (h : e.predictedTo env fs fX istart icount k = .ok Y)
      (h' : e.predictedTo env fs fX istart icount (k + 1) = .ok Y') (hw : Z.WF) (hc : Z.cols = Y.cols) (hn : Z.nrows = Y.nrows)
      (hz : ∀ i < Y.nrows, ∀ j < Y.cols, Z.get i j = Y.get i j ∨ Z.get i j = Y'.get i j) :
      PredictLeft env fs e fX istart icount old (some ⟨Z, none, none⟩)

/-! ### `HPELM.project` into a file, killed half way (hpelm/hp_elm.py:241-297), in the same way -/

/-- The output array of `project(fX, fH, istart, icount)` after `k` passes of the loop (hpelm/hp_elm.py:255-285). -/
def ELM.projectedTo (env : Env K) (fs : Files K) (e : ELM K) (fX : DataArg K) (istart : Int) (icount : Option Int) (k : Nat) :
    Except PyErr (Mat K) := do
  pyAssert (!e.nnet.neurons.isEmpty)
  match ← checkOne fs e.nnet.inputs fX with
  | none => .error .typeError
  | some X =>
    let icount := rangeCount X.nrows istart icount
    let bs ← hBatches e.batch istart icount
    let H ← makeOut icount (e.nnet.L.getD 0) true
    batchLoop (e.nnet.project env) (fun b => (b.1, b.2 - istart)) X (bs.take k) H

/-- What can be left of the output file when `project(fX, fH, istart, icount)` dies; `old` is what the file was before. -/
inductive ProjectLeft (env : Env K) (fs : Files K) (e : ELM K) (fX : DataArg K) (istart : Int) (icount : Option Int) (old : Option (H5 K)) :
    Option (H5 K) → Prop
  /-- before the file was opened for writing (line 263) -/
  | before : ProjectLeft env fs e fX istart icount old old
  /-- after `open_file(h5file, "w")` (hdf5_tools.py:209) -/
  | truncated : ProjectLeft env fs e fX istart icount old none
  /-- after `k` batches (line 285 in pass `k - 1`) -/
  | batches (k : Nat) (H : Mat K) (h : e.projectedTo env fs fX istart icount k = .ok H) :
      ProjectLeft env fs e fX istart icount old (some ⟨H, none, none⟩)
  /-- while batch `k` was being written (line 285) -/
  | torn (k : Nat) (H H' Z : Mat K) (h : e.projectedTo env fs fX istart icount k = .ok H)
      (h' : e.projectedTo env fs fX istart icount (k + 1) = .ok H') (hw : Z.WF) (hc : Z.cols = H.cols) (hn : Z.nrows = H.nrows)
      (hz : ∀ i < H.nrows, ∀ j < H.cols, Z.get i j = H.get i j ∨ Z.get i j = H'.get i j) :
      ProjectLeft env fs e fX istart icount old (some ⟨Z, none, none⟩)

end Hpelm
