import Verif.Model.Elm

/-!
# Model of hpelm/hp_elm.py (synchronous methods) and of `_prepare_fHH`, `_write_fHH` in hpelm/modules/hdf5_tools.py

`icount = none` stands for `np.inf`.
-/

namespace Hpelm
variable {K : Type} [Field K] [LinearOrder K]

/-- `icount = min(icount, N - istart)` (hpelm/hp_elm.py:133,203,259,338). -/
def rangeCount (N istart : Int) (icount : Option Int) : Int :=
  match icount with
  | none => N - istart
  | some c => min c (N - istart)

/-- Bounds `start`, `stop` of batch `b` (hpelm/hp_elm.py:151-152). -/
def batchBounds (batch istart icount : Int) (b : Nat) : Int × Int :=
  ((b : Int) * batch + istart, min (((b : Int) + 1) * batch + istart) (icount + istart))

/-- The bounds of all batches: `nb = int(np.ceil(float(icount) / batch))`, `for b in xrange(nb)`
(hpelm/hp_elm.py:134,150-152); dividing by a zero batch size raises. -/
def hBatches (batch istart icount : Int) : Except PyErr (List (Int × Int)) :=
  if batch = 0 then .error .zeroDivision
  else .ok ((List.range (ceilDiv icount batch).toNat).map (batchBounds batch istart icount))

/-- Column sums batch by batch, `ns += T[start:stop].sum(axis=0)` (hpelm/hp_elm.py:138-142). -/
def batchColSums (outputs : Nat) (T : Mat K) (bs : List (Int × Int)) : List K :=
  bs.foldl (fun ns b => List.zipWith (· + ·) ns (colSums (T.slice b.1 b.2))) (List.replicate outputs 0)

/-- One file of `_prepare_fHH` (hpelm/modules/hdf5_tools.py:37-52 resp. 55-69): an existing file must hold an array of
the given shape, a missing one is created with `fresh`. -/
def prepareFile (fs : Files K) (f : String) (r c : Nat) (fresh : Mat K) : Except PyErr (Files K) :=
  match fs f with
  | some h => do
    pyAssert (h.data.nrows = r ∧ h.data.cols = c)
    pure fs
  | none => if r = 0 ∨ c = 0 then .error .valueError            -- CArray dimensions must be positive
    else .ok fun g => if g = f then some ⟨fresh, none, none⟩ else fs g

/-- `_prepare_fHH` (hpelm/modules/hdf5_tools.py:20-69). -/
def prepareFHH (fs : Files K) (fHH fHT : Option String) (n : NNet K) : Except PyErr (NNet K × Files K) :=
  match fHH, fHT with
  | some fHH, some fHT => do
    let n := n.reset
    let L := n.L.getD 0
    let fs ← prepareFile fs fHH L L (Mat.diag L n.norm)
    let fs ← prepareFile fs fHT L n.outputs (Mat.zeros L n.outputs)
    pure (n, fs)
  | _, _ => pure (n, fs)

/-- `node[:] += M` on a file (hpelm/modules/hdf5_tools.py:79-85, 89-94). -/
def addToFile (fs : Files K) (f : String) (M : Mat K) : Except PyErr (Files K) :=
  match fs f with
  | none => .error .typeError
  | some h =>
    if h.data.nrows = M.nrows ∧ h.data.cols = M.cols then
      .ok fun g => if g = f then some { h with data := h.data.add M } else fs g
    else .error .valueError

/-- `_write_fHH` (hpelm/modules/hdf5_tools.py:72-94), without concurrency (see Model/Writers.lean for that). -/
def writeFHH (fs : Files K) (fHH fHT : String) (HH HT : Mat K) : Except PyErr (Files K) := do
  let fs ← addToFile fs fHH HH
  addToFile fs fHT HT

/-- `HH[np.diag_indices_from(HH)] -= norm` (hpelm/hp_elm.py:169). -/
def subDiag (HH : Mat K) (norm : K) : Mat K :=
  Mat.ofFn HH.nrows HH.cols fun i j => if i = j then HH.get i j - norm else HH.get i j

/-- Slices of the data for the given bounds (hpelm/hp_elm.py:153-154). -/
def cutBatches (X T : Mat K) (bs : List (Int × Int)) : List (List (List K) × List (List K)) :=
  bs.map fun b => (pySlice X.rows b.1 b.2, pySlice T.rows b.1 b.2)

/-- Store the accumulated matrices on disk (hpelm/hp_elm.py:167-170).  The basic solver's `get_corr` returns its own
array (slfn.py:221), so the in-place subtraction also changes the matrix held in the model. -/
def ELM.storeCorr (e : ELM K) (fs : Files K) (fHH fHT : Option String) : Except PyErr (ELM K × Files K) :=
  match fHH, fHT with
  | some fHH, some fHT => do
    let (HH, HT) ← e.nnet.getCorr!
    let HH' := subDiag HH e.nnet.norm
    let fs ← writeFHH fs fHH fHT HH' HT
    let n := if e.nnet.solver = .basic then { e.nnet with corr := some (HH', HT) } else e.nnet
    pure ({ e with nnet := n }, fs)
  | _, _ => pure (e, fs)

/-- `HPELM.add_data` (hpelm/hp_elm.py:96-170). -/
def ELM.hAddData (env : Env K) (fs : Files K) (e : ELM K) (fX fT : DataArg K) (istart : Int) (icount : Option Int)
    (fHH fHT : Option String) : Except PyErr (ELM K × Files K) := do
  pyAssert (!e.nnet.neurons.isEmpty)
  let (X, T) ← checkBoth fs e.nnet fX fT
  let (n, fs) ← prepareFHH fs fHH fHT e.nnet
  let e := { e with nnet := n }
  let bs ← hBatches e.batch istart (rangeCount X.nrows istart icount)
  let e := e.autoWc env (batchColSums e.nnet.outputs T bs)
  let e ← e.feed env X.cols T.cols (cutBatches X T bs)
  e.storeCorr fs fHH fHT

/-- `HPELM.train` (hpelm/hp_elm.py:57-94): new object state and outcome.
`add_data` is called with the arrays/nodes returned by `_checkdata`, modelled as in-memory arrays. -/
def ELM.hTrain (env : Env K) (fs : Files K) (e : ELM K) (fX fT : DataArg K) (args : List String) (kw : Kwargs K) :
    Except PyErr Unit × ELM K :=
  match checkBoth fs e.nnet fX fT with
  | .error x => (.error x, e)
  | .ok (X, T) =>
    match e.parseArgs args kw with
    | (e1, .error x) => (.error x, e1)
    | (e1, .ok ()) =>
      let istart := match kw.istart with
        | some i => max 0 i
        | none => 0
      match e1.hAddData env fs (.mat X) (.mat T) istart kw.icount none none with
      | .error x => (.error x, e1)
      | .ok (e2, _) =>
        match e2.nnet.solve env with
        | .error x => (.error x, e2)
        | .ok n => (.ok (), { e2 with nnet := n })

/-- `_checkcorr` for one file (hpelm/hp_elm.py:616-627, 629-640). -/
def readCorr (fs : Files K) (f : String) : Except PyErr (Mat K) :=
  match fs f with
  | none => .error .ioError
  | some h => if h.data.nrows = 0 then .error .ioError else .ok h.data

/-- `_checkcorr` (hpelm/hp_elm.py:613-649). -/
def checkCorr (fs : Files K) (n : NNet K) (fHH fHT : String) : Except PyErr (Mat K × Mat K) := do
  let HH ← readCorr fs fHH
  let HT ← readCorr fs fHT
  pyAssert (!n.neurons.isEmpty)
  pyAssert (some HH.nrows = n.L ∧ some HH.cols = n.L)
  pyAssert (some HT.nrows = n.L ∧ HT.cols = n.outputs)
  pure (HH, HT)

/-- `HPELM.solve_corr` (hpelm/hp_elm.py:172-181). -/
def ELM.hSolveCorr (env : Env K) (fs : Files K) (e : ELM K) (fHH fHT : String) : Except PyErr (ELM K) := do
  let (HH, HT) ← checkCorr fs e.nnet fHH fHT
  let n ← e.nnet.setB env (e.nnet.solveCorr env HH HT)
  pure { e with nnet := n }

/-- Where `predict`/`project` put their result (hpelm/hp_elm.py:206-214, 262-272). -/
inductive OutArg (K : Type)
  /-- `None`: a new array is returned -/
  | fresh
  /-- a file name: a new file is made -/
  | file
  /-- an existing 2-D array of the given contents, written in place -/
  | array (M : Mat K)

/-- Assignment `Y[a:b] = V` of rows: Python slice bounds, NumPy broadcasting of a single row, `ValueError` otherwise
(hpelm/hp_elm.py:227,285). -/
def assignRows (Y : Mat K) (a b : Int) (V : Mat K) : Except PyErr (Mat K) :=
  let n : Int := Y.nrows
  let nrm (i : Int) : Nat := (if i < 0 then max 0 (i + n) else min i n).toNat
  let s := nrm a
  let t := max s (nrm b)
  if V.cols ≠ Y.cols then .error .valueError
  else if V.nrows = t - s then .ok ⟨Y.cols, Y.rows.take s ++ V.rows ++ Y.rows.drop t⟩
  else match V.rows with
    | [v] => .ok ⟨Y.cols, Y.rows.take s ++ List.replicate (t - s) v ++ Y.rows.drop t⟩
    | _ => .error .valueError

/-- The loop of `predict`/`project` over the batches (hpelm/hp_elm.py:218-227, 276-285); `dst` gives the destination
slice of a batch. -/
def batchLoop (f : Mat K → Except PyErr (Mat K)) (dst : Int × Int → Int × Int) (X : Mat K) :
    List (Int × Int) → Mat K → Except PyErr (Mat K)
  | [], Y => .ok Y
  | b :: bs, Y => do
    let V ← f (X.slice b.1 b.2)
    let Y ← assignRows Y (dst b).1 (dst b).2 V
    batchLoop f dst X bs Y

/-- Destination array of `icount` rows (hpelm/hp_elm.py:206-212, 262-268): a negative size raises, and an HDF5 array
must have positive dimensions. -/
def makeOut (icount : Int) (c : Nat) (file : Bool) : Except PyErr (Mat K) :=
  if icount < 0 then .error .valueError
  else if file ∧ (icount = 0 ∨ c = 0) then .error .valueError
  else .ok (Mat.zeros icount.toNat c)

/-- `HPELM.predict` (hpelm/hp_elm.py:183-239); the result is the destination array or file afterwards. -/
def ELM.hPredict (env : Env K) (fs : Files K) (e : ELM K) (fX : DataArg K) (out : OutArg K) (istart : Int)
    (icount : Option Int) : Except PyErr (Mat K) := do
  pyAssert (!e.nnet.neurons.isEmpty)
  pyAssert e.nnet.B.isSome
  match ← checkOne fs e.nnet.inputs fX with
  | none => .error .typeError
  | some X =>
    let icount := rangeCount X.nrows istart icount
    let bs ← hBatches e.batch istart icount
    let Y ← match out with
      | .fresh => makeOut icount e.nnet.outputs false
      | .file => makeOut icount e.nnet.outputs true
      | .array M => do
        pyAssert (M.cols = e.nnet.outputs)
        pure M
    batchLoop (e.nnet.predict env) (fun b => (b.1 - istart, b.2 - istart)) X bs Y

/-- `HPELM.project` (hpelm/hp_elm.py:241-297).  Line 285 writes to `H[start:stop-istart]`. -/
def ELM.hProject (env : Env K) (fs : Files K) (e : ELM K) (fX : DataArg K) (out : OutArg K) (istart : Int)
    (icount : Option Int) : Except PyErr (Mat K) := do
  pyAssert (!e.nnet.neurons.isEmpty)
  match ← checkOne fs e.nnet.inputs fX with
  | none => .error .typeError
  | some X =>
    let icount := rangeCount X.nrows istart icount
    let bs ← hBatches e.batch istart icount
    let L := e.nnet.L.getD 0
    let H ← match out with
      | .fresh => makeOut icount L false
      | .file => makeOut icount L true
      | .array M => do
        pyAssert (M.nrows ≥ icount)
        pyAssert (M.cols = L)
        pure M
    batchLoop (e.nnet.project env) (fun b => (b.1, b.2 - istart)) X bs H

/-! ### Errors (hpelm/hp_elm.py:328-389) -/

/-- Batch error times `float(stop-start)/icount`, summed over the batches (hpelm/hp_elm.py:342-349, 370-377, 380-387).
`errb` of a batch is `none` for NaN (empty batch). -/
def hErrLoop (errb : Mat K → Mat K → Option K) (icount : Int) (T Y : Mat K) : List (Int × Int) → Option K →
    Except PyErr (Option K)
  | [], acc => .ok acc
  | b :: bs, acc =>
    let Tb := T.slice b.1 b.2
    let Yb := Y.slice b.1 b.2
    if Tb.nrows ≠ Yb.nrows ∨ T.cols ≠ Y.cols then .error .valueError
    else
      let acc := match acc, errb Tb Yb with
        | some a, some v => some (a + v * ((b.2 - b.1 : Int) : K) / ((icount : Int) : K))
        | _, _ => none
      hErrLoop errb icount T Y bs acc

/-- `(Σ misses of class i, number of samples of class i)` over all batches (hpelm/hp_elm.py:355-365). -/
def hClassCounts (T Y : Mat K) (i : Nat) (bs : List (Int × Int)) : K × K :=
  bs.foldl (fun s b =>
    let m := classMisses (T.slice b.1 b.2) (Y.slice b.1 b.2) i
    (s.1 + (m.map b2k).sum, s.2 + m.length)) (0, 0)

/-- `HPELM._error` (hpelm/hp_elm.py:328-389); `none` is NaN. -/
def hError (cls : Option String) (wc : Option (List (Option K))) (batch : Int) (T Y : Mat K) (istart : Int)
    (icount : Option Int) : Except PyErr (Option K) := do
  let icount := rangeCount T.nrows istart icount
  let bs ← hBatches batch istart icount
  if cls = some "c" then
    hErrLoop (fun Tb Yb => mean? ((misses Tb Yb).map b2k)) icount T Y bs (some 0)
  else if cls = some "wc" then
    if bs.any (fun b => (T.slice b.1 b.2).nrows ≠ (Y.slice b.1 b.2).nrows) ∨ T.cols ≠ Y.cols then .error .valueError
    else
    let counts := (List.range T.cols).map fun i => hClassCounts T Y i bs
    match wc with
    | none => .error .typeError
    | some wc =>
      if counts.any (fun c => c.2 = 0) then pure none            -- 0/0 = NaN
      else weightedMean (counts.map fun c => c.1 / c.2) wc
  else if cls = some "ml" then
    hErrLoop (fun Tb Yb => mean? ((labelMisses Tb Yb).flatten.map b2k)) icount T Y bs (some 0)
  else
    hErrLoop (fun Tb Yb => mean? (sqErrs Yb Tb).flatten) icount T Y bs (some 0)

/-- `HPELM.error` (hpelm/hp_elm.py:299-326). -/
def ELM.hErrorOf (fs : Files K) (e : ELM K) (fT fY : DataArg K) (istart : Int) (icount : Option Int) :
    Except PyErr (Option K) := do
  match ← checkOne fs e.nnet.outputs fT, ← checkOne fs e.nnet.outputs fY with
  | some T, some Y => hError e.classification e.wc e.batch T Y istart icount
  | _, _ => .error .typeError

/-! ### validation_corr (hpelm/hp_elm.py:391-460) -/

/-- Leading block `M[:r, :c]` (hpelm/hp_elm.py:430). -/
def Mat.lead (M : Mat K) (r c : Nat) : Mat K := ⟨min c M.cols, (M.rows.take r).map (List.take c)⟩

/-- `np.argmin` (hpelm/hp_elm.py:452): NaN counts as smaller than everything; first position wins. -/
def argminNan : List (Option K) → Nat
  | [] => 0
  | l => match l.findIdx? (·.isNone) with
    | some i => i
    | none => argmax (l.map fun x => -(x.getD 0))

/-- Update of one candidate by one batch (hpelm/hp_elm.py:441-445): state is (error, confusion matrix). -/
def vcUpdate (e : ELM K) (Tb Hb : Mat K) (w : K) (l : Nat) (Beta : Mat K) (s : Option K × Mat K) :
    Except PyErr (Option K × Mat K) := do
  let Yb := (Hb.lead Hb.nrows l).mul Beta
  let err ← hError e.classification e.wc e.batch Tb Yb 0 none
  let acc := match s.1, err with
    | some a, some v => some (a + v * w)
    | _, _ => none
  if e.classification.isSome then do
    let c ← e.confusionM Tb Yb
    pure (acc, s.2.add c)
  else pure (acc, s.2)

/-- The loop over batches (hpelm/hp_elm.py:435-445). -/
def vcLoop (env : Env K) (e : ELM K) (X T : Mat K) (cands : List (Nat × Mat K)) :
    List (Int × Int) → List (Option K × Mat K) → Except PyErr (List (Option K × Mat K))
  | [], ss => .ok ss
  | b :: bs, ss => do
    let Tb := T.slice b.1 b.2
    let Hb ← e.nnet.project env (X.slice b.1 b.2)
    let w : K := ((b.2 - b.1 : Int) : K) / (X.nrows : K)
    let ss ← (cands.zip ss).mapM fun p => vcUpdate e Tb Hb w p.1.1 p.1.2 p.2
    vcLoop env e X T cands bs ss

/-- `validation_corr` (hpelm/hp_elm.py:391-460).  The candidate sizes `Ls` (lines 420-422, computed with `logspace`) are
an argument.  Returns the new model, the errors and the confusion matrices. -/
def ELM.validationCorr (env : Env K) (fs : Files K) (e : ELM K) (fHH fHT : String) (fXv fTv : DataArg K) (Ls : List Nat) :
    Except PyErr (ELM K × List (Option K) × List (Mat K)) := do
  let (X, T) ← checkBoth fs e.nnet fXv fTv
  let (HH, HT) ← checkCorr fs e.nnet fHH fHT
  let bs ← hBatches e.batch 0 X.nrows
  let cands := Ls.map fun l => (l, e.nnet.solveCorr env (HH.lead l l) (HT.lead l HT.cols))
  let ss ← vcLoop env e X T cands bs (cands.map fun _ => (some 0, Mat.zeros e.nnet.outputs e.nnet.outputs))
  if Ls.isEmpty then .error .valueError                       -- argmin of an empty sequence
  let errs := ss.map (·.1)
  let kopt := argminNan errs
  let best := cands.getD kopt (0, Mat.zeros 0 0)
  let n ← (e.nnet.prune (List.range best.1)).setB env best.2
  pure ({ e with nnet := n }, errs, if e.classification.isSome then ss.map (·.2) else [])

end Hpelm
