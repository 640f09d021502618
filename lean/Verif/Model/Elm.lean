import Verif.Model.Slfn
import Verif.Model.Mrsr
import Verif.Model.Myopt

/-!
# Model of hpelm/elm.py, hpelm/mss_v.py, hpelm/mss_cv.py, hpelm/mss_loo.py
-/

namespace Hpelm
variable {K : Type}

/-- A file produced by PyTables: one 2-D array with its `mean`/`std` attributes (hpelm/modules/hdf5_tools.py:227-228). -/
structure H5 (K : Type) where
  data : Mat K
  mean : Option (List K)
  std : Option (List K)
  deriving DecidableEq, Repr

/-- HDF5 files by name; `none` = no such file. -/
abbrev Files (K : Type) := String → Option (H5 K)

/-- What a user can pass as data (hpelm/elm.py:542-595). -/
inductive DataArg (K : Type)
  /-- `None` -/
  | absent
  /-- array with `dtype.kind` in "OSU" (object, bytes, unicode) -/
  | nonNumeric
  /-- numeric array whose number of dimensions is neither 1 nor 2 -/
  | otherDim
  /-- numeric 1-D array -/
  | vec (v : List K)
  /-- numeric 2-D array -/
  | mat (M : Mat K)
  /-- name of an HDF5 file -/
  | path (f : String)

/-- Attributes of an `ELM`/`HPELM` object (hpelm/elm.py:55-98).
`wc` entries are `none` where NumPy holds a non-finite value (division by an empty class, elm.py:227).
Not modelled: `opened_hdf5`, `tprint`, `flist`. -/
structure ELM (K : Type) where
  nnet : NNet K
  batch : Int
  prec : Prec
  accelerator : Option String
  classification : Option String
  wc : Option (List (Option K))
  rankingOP : Bool
  kmaxOp : Option Nat
  deriving DecidableEq, Repr

/-- Keyword arguments of `train` (hpelm/elm.py:171-176, hpelm/hp_elm.py:72-79). -/
structure Kwargs (K : Type) where
  Xv : Option (DataArg K) := none
  Tv : Option (DataArg K) := none
  k : Option Int := none
  kmax : Option Nat := none
  batch : Option Int := none
  w : Option (List K) := none
  istart : Option Int := none
  icount : Option Int := none

/-- The `precision` argument: a NumPy type or a string (hpelm/elm.py:64-71). -/
inductive PrecArg
  | np (p : Prec)
  | str (s : String)

/-- Python's `sub in s` for strings, on character lists. -/
def isInfix (sub : List Char) : List Char → Bool
  | [] => sub.isEmpty
  | c :: cs => sub.isPrefixOf (c :: cs) || isInfix sub cs

/-- hpelm/elm.py:64-71. -/
def parsePrec : PrecArg → Prec
  | .np p => p
  | .str s =>
    if isInfix "double".toList (lower s).toList || isInfix "64".toList s.toList then .double
    else if isInfix "single".toList s.toList || isInfix "32".toList s.toList then .single
    else .double

section
variable [Field K] [LinearOrder K]

/-- `ELM.__init__` (hpelm/elm.py:55-98).  `classification.replace("mc", "ml")` changes only the string "mc" among the
accepted ones.  Non-integer `inputs`/`outputs` are excluded by the types. -/
def ELM.init (env : Env K) (inputs outputs : Nat) (classification : String) (w : Option (List K)) (batch : Int)
    (accelerator : Option String) (precision : PrecArg) (norm : Option K) : Except PyErr (ELM K) := do
  pyAssert (batch > 0)
  let prec := parsePrec precision
  let solver := if accelerator = some "GPU" then Solver.cuda
    else if accelerator = some "basic" then Solver.basic else Solver.python
  let cls := if lower classification ∈ ["c", "wc", "ml", "mc"]
    then some (if classification = "mc" then "ml" else classification) else none
  match w with
  | some w => pyAssert (w.length = outputs)
  | none => pure ()
  pure { nnet := NNet.init env solver inputs outputs norm prec, batch, prec, accelerator
         classification := cls, wc := w.map (List.map some), rankingOP := false, kmaxOp := none }

/-- `_checkdata` for one variable (hpelm/elm.py:545-566 and 568-590); `cols` is the required number of columns.
`if node:` is false for an array with no rows (`Leaf.__len__`). -/
def checkOne (fs : Files K) (cols : Nat) (a : DataArg K) : Except PyErr (Option (Mat K)) := do
  let M ← match a with
    | .absent => return none
    | .path f =>
      match fs f with
      | none => .error .ioError
      | some h => if h.data.nrows = 0 then .error .ioError else pure h.data
    | .nonNumeric => .error .assertion
    | .otherDim => .error .assertion
    | .vec v => pure ⟨1, v.map fun x => [x]⟩
    | .mat M => pure M
  pyAssert (M.cols = cols)
  pure (some M)

/-- `_checkdata` (hpelm/elm.py:542-595). -/
def checkData (fs : Files K) (n : NNet K) (X T : DataArg K) : Except PyErr (Option (Mat K) × Option (Mat K)) := do
  let X ← checkOne fs n.inputs X
  let T ← checkOne fs n.outputs T
  match X, T with
  | some X, some T => pyAssert (X.nrows = T.nrows)
  | _, _ => pure ()
  pure (X, T)

/-- Both data arguments must be present (the callers use `X.shape` right away). -/
def checkBoth (fs : Files K) (n : NNet K) (X T : DataArg K) : Except PyErr (Mat K × Mat K) := do
  match ← checkData fs n X T with
  | (some X, some T) => pure (X, T)
  | _ => .error .typeError

/-- Supported neuron names `self.flist` (hpelm/elm.py:98). -/
def flist : List String := ["lin", "sigm", "tanh", "rbf_l1", "rbf_l2", "rbf_linf"]

/-- Names of the radial basis function neurons (hpelm/elm.py:270,274). -/
def rbfNames : List String := ["rbf_l1", "rbf_l2", "rbf_linf"]

/-- `func in self.flist or isinstance(func, np.ufunc)` (hpelm/elm.py:257). -/
def funcOk : Func → Bool
  | .name s => s ∈ flist
  | .ufunc _ => true

/-- `ELM.add_neurons` (hpelm/elm.py:235-287).  `W` is passed transposed: a `Mat` with `number` rows (one per neuron)
and `inputs` columns.  `randW : number → Wᵀ`, `randB : number → B` are the results of `np.random.randn` for that many
neurons.  `sq` stands for the float `3.0 / inputs**0.5`. -/
def ELM.addNeurons (env : Env K) (randW : Nat → Mat K) (randB : Nat → List K) (sq : K)
    (e : ELM K) (number : Nat) (func : Func) (W : Option (Mat K)) (B : Option (List K)) : Except PyErr (ELM K) := do
  pyAssert (funcOk func)
  let inputs := e.nnet.inputs
  let isRbf : Bool := match func with
    | .name s => s ∈ rbfNames
    | .ufunc _ => false
  -- lines 264-271
  let (number, Wt) := match W with
    | some W => (number, W)
    | none =>
      if func = Func.name "lin" then
        let number := min number inputs
        (number, Mat.ofFn number inputs fun j i => if i = j then 1 else 0)       -- np.eye(inputs, number), transposed
      else
        let R := randW number
        (number, if isRbf then R else R.map (· * sq))
  -- lines 272-278
  let Bv := match B with
    | some B => B
    | none =>
      if func = Func.name "lin" then List.replicate number 0
      else if isRbf then (randB number).map fun b => |b| * inputs
      else randB number
  -- lines 279-281
  pyAssert (Wt.cols = inputs ∧ Wt.nrows = number)
  pyAssert (Bv.length = number)
  -- lines 283-287
  pure { e with nnet := e.nnet.addNeurons number func (Wt.map (env.cast e.prec)).rows (Bv.map (env.cast e.prec)) }

/-- `T.sum(axis=0)` (hpelm/elm.py:226). -/
def colSums (T : Mat K) : List K := (List.range T.cols).map fun j => (T.rows.map fun r => r.getD j 0).sum

/-- `ns.sum() / ns` (hpelm/elm.py:227); `none` where NumPy yields inf or NaN. -/
def autoWeights (ns : List K) : List (Option K) :=
  ns.map fun n => if n = 0 then none else some (ns.sum / n)

/-- `np.where(T == 1)[1]` (hpelm/elm.py:232): column indices of the ones, row by row. -/
def onesCols (T : Mat K) : List Nat := T.rows.flatMap fun r => (List.range T.cols).filter fun j => r.getD j 0 = 1

/-- `self.wc[np.where(T0 == 1)[1]]` (hpelm/elm.py:232).  A non-finite weight is reported as `nonFinite`. -/
def wcVector (wc : List (Option K)) (T : Mat K) : Except PyErr (List K) :=
  (onesCols T).mapM fun j =>
    match wc[j]? with
    | none => .error .indexError
    | some none => .error .nonFinite
    | some (some w) => .ok w

/-- The weights handed to `add_batch` (hpelm/elm.py:222,231-233, hpelm/hp_elm.py:155-156). -/
def batchWeights (cls : Option String) (wc : Option (List (Option K))) (T : Mat K) : Except PyErr (Option (List K)) :=
  if cls = some "wc" then
    match wc with
    | none => .error .typeError
    | some wc => do
      let v ← wcVector wc T
      pure (some v)
  else pure none

/-- Determine automatic class weights if needed (hpelm/elm.py:225-227); they stay in the object. -/
def ELM.autoWc (env : Env K) (e : ELM K) (ns : List K) : ELM K :=
  if e.classification = some "wc" ∧ e.wc = none then
    { e with wc := some (autoWeights (ns.map (env.cast e.prec))) }
  else e

/-- Feed a list of (input rows, target rows) batches, in order (hpelm/elm.py:229-233). -/
def ELM.feed (env : Env K) (inCols outCols : Nat) : List (List (List K) × List (List K)) → ELM K → Except PyErr (ELM K)
  | [], e => .ok e
  | (Xb, Tb) :: rest, e => do
    let w ← batchWeights e.classification e.wc ⟨outCols, Tb⟩
    let n ← e.nnet.addBatch env ⟨inCols, Xb⟩ ⟨outCols, Tb⟩ w
    ELM.feed env inCols outCols rest { e with nnet := n }

/-- `ELM.add_data` (hpelm/elm.py:207-233). -/
def ELM.addData (env : Env K) (e : ELM K) (X T : Mat K) : Except PyErr (ELM K) := do
  if e.batch = 0 then .error .zeroDivision
  let nb := ceilDiv X.nrows e.batch
  let e := e.autoWc env (colSums T)
  let Xs ← arraySplit X.rows nb
  let Ts ← arraySplit T.rows nb
  e.feed env X.cols T.cols (Xs.zip Ts)

/-- `len(set(args).intersection(s)) <= 1` (hpelm/elm.py:121,123). -/
def atMostOne (args : List String) (s : List String) : Bool := (s.filter (· ∈ args)).length ≤ 1

/-- One pass of the loop over the (upper-cased) arguments (hpelm/elm.py:126-145). -/
def parseOne (kw : Kwargs K) (e : ELM K) (a : String) : ELM K × Except PyErr Unit :=
  if a = "OP" then
    ({ e with rankingOP := true, kmaxOp := match kw.kmax with | some k => some k | none => e.kmaxOp }, .ok ())
  else if a = "C" then
    if e.nnet.outputs > 1 then ({ e with classification := some "c" }, .ok ()) else (e, .error .assertion)
  else if a = "WC" then
    if e.nnet.outputs > 1 then
      let e := { e with classification := some "wc" }
      match kw.w with
      | none => (e, .ok ())
      | some w => if w.length = e.nnet.outputs then ({ e with wc := some (w.map some) }, .ok ()) else (e, .error .assertion)
    else (e, .error .assertion)
  else if a = "ML" ∨ a = "MC" then
    if e.nnet.outputs > 1 then ({ e with classification := some "ml" }, .ok ()) else (e, .error .assertion)
  else if a = "R" then ({ e with classification := none }, .ok ())
  else (e, .ok ())

/-- The loop hpelm/elm.py:126-145; stops at the first exception, keeping the changes made so far. -/
def parseLoop (kw : Kwargs K) : List String → ELM K → ELM K × Except PyErr Unit
  | [], e => (e, .ok ())
  | a :: as, e =>
    match parseOne kw e a with
    | (e, .error x) => (e, .error x)
    | (e, .ok ()) => parseLoop kw as e

/-- `_train_parse_args` (hpelm/elm.py:108-148): new object state and outcome. -/
def ELM.parseArgs (e : ELM K) (args : List String) (kw : Kwargs K) : ELM K × Except PyErr Unit :=
  if e.nnet.neurons.isEmpty then (e, .error .assertion) else
  let args := args.map upper
  let e := { e with nnet := e.nnet.reset, rankingOP := false, kmaxOp := none, classification := none, wc := none }
  if !atMostOne args ["V", "CV", "LOO"] then (e, .error .assertion)
  else if !atMostOne args ["C", "WC", "ML", "MC"] then (e, .error .assertion)
  else match parseLoop kw args e with
    | (e, .error x) => (e, .error x)
    | (e, .ok ()) => (match kw.batch with | some b => { e with batch := b } | none => e, .ok ())

/-! ### Errors (hpelm/elm.py:475-515) -/

/-- `np.not_equal(Y.argmax(1), T.argmax(1))` as a list of booleans (hpelm/elm.py:482). -/
def misses (T Y : Mat K) : List Bool := List.zipWith (fun t y => argmax y != argmax t) T.rows Y.rows

/-- A boolean as a number, as in NumPy arithmetic. -/
def b2k (b : Bool) : K := if b then 1 else 0

/-- `np.not_equal(Y > 0.5, T > 0.5)`, row by row (hpelm/elm.py:492). -/
def labelMisses (T Y : Mat K) : List (List Bool) :=
  List.zipWith (List.zipWith fun t y => (decide (1 / 2 < y)) != (decide (1 / 2 < t))) T.rows Y.rows

/-- Entries of `(Y - T)**2`, row by row (hpelm/elm.py:494). -/
def sqErrs (T Y : Mat K) : List (List K) :=
  List.zipWith (List.zipWith fun t y => (y - t) * (y - t)) T.rows Y.rows

/-- The booleans `np.not_equal(Y[idx].argmax(1), i)` for `idx = np.where(T[:, i] == 1)[0]` (hpelm/elm.py:487-489). -/
def classMisses (T Y : Mat K) (i : Nat) : List Bool :=
  ((T.rows.zip Y.rows).filter fun p => p.1.getD i 0 = 1).map fun p => argmax p.2 != i

/-- `np.sum(errc * wc) / np.sum(wc)`; `none` = NaN (some weight is not finite). -/
def weightedMean (errc : List K) (wc : List (Option K)) : Except PyErr (Option K) :=
  match wc.mapM id with
  | none => .ok none
  | some ws =>
    if ws.sum = 0 then .error .nonFinite
    else .ok (some ((List.zipWith (· * ·) errc ws).sum / ws.sum))

/-- The final `assert not np.isnan(err)` (hpelm/elm.py:514). -/
def notNan (r : Option K) : Except PyErr K :=
  match r with
  | none => .error .assertion
  | some v => .ok v

/-- Squares of the entries of a list divided by the corresponding element of `R`; division by zero is `nonFinite`. -/
def sqDiv (l : List K) (R : List K) : Except PyErr (List K) :=
  if 0 ∈ R then .error .nonFinite else .ok (List.zipWith (fun x r => (x / r) * (x / r)) l R)

/-- `ELM._error(T, Y)` with `R = None` (hpelm/elm.py:480-494,514-515).
Shapes of `T` and `Y` that differ make NumPy raise (simplification: broadcasting of a single row is not modelled). -/
def elmError (cls : Option String) (wc : Option (List (Option K))) (T Y : Mat K) : Except PyErr K :=
  if T.nrows ≠ Y.nrows ∨ T.cols ≠ Y.cols then .error .valueError
  else if cls = some "c" then notNan (mean? ((misses T Y).map b2k))
  else if cls = some "wc" then
    let errc := (List.range T.cols).map fun i => (mean? ((classMisses T Y i).map b2k)).getD 0
    match wc with
    | none => .error .typeError
    | some wc => do notNan (← weightedMean errc wc)
  else if cls = some "ml" then notNan (mean? ((labelMisses T Y).flatten.map b2k))
  else notNan (mean? (sqErrs T Y).flatten)

/-- `ELM._error(T, Y, R)`, the PRESS (leave-one-out) error (hpelm/elm.py:495-515). -/
def elmErrorPress (cls : Option String) (wc : Option (List (Option K))) (T Y : Mat K) (R : List K) :
    Except PyErr K :=
  if T.nrows ≠ Y.nrows ∨ T.cols ≠ Y.cols ∨ R.length ≠ T.nrows then .error .valueError
  else if cls = some "c" then do
    let v ← sqDiv ((misses T Y).map b2k) R
    notNan (mean? v)
  else if cls = some "wc" then do
    let errc ← (List.range T.cols).mapM fun i => do
      let sel := ((T.rows.zip (Y.rows.zip R)).filter fun p => p.1.getD i 0 = 1)
      let v ← sqDiv (sel.map fun p => b2k (argmax p.2.1 != i)) (sel.map fun p => p.2.2)
      pure ((mean? v).getD 0)
    match wc with
    | none => .error .typeError
    | some wc =>
      match wc.mapM id with
      | none => .error .assertion
      | some ws => notNan (mean? (List.zipWith (· * ·) errc ws))
  else if cls = some "ml" then do
    let v ← (List.zip (labelMisses T Y) R).mapM fun p => sqDiv (p.1.map b2k) (List.replicate p.1.length p.2)
    notNan (mean? v.flatten)
  else do
    let d := List.zipWith (List.zipWith fun t y => y - t) T.rows Y.rows
    let v ← (List.zip d R).mapM fun p => sqDiv p.1 (List.replicate p.1.length p.2)
    notNan (mean? v.flatten)

/-- `ELM.error` (hpelm/elm.py:289-314). -/
def ELM.error (fs : Files K) (e : ELM K) (T Y : DataArg K) : Except PyErr K := do
  match ← checkOne fs e.nnet.outputs T, ← checkOne fs e.nnet.outputs Y with
  | some T, some Y => elmError e.classification e.wc T Y
  | _, _ => .error .typeError

/-! ### Confusion matrix (hpelm/elm.py:316-357) -/

/-- Counts of one batch: `logical_and(Tb == c1, Yb == c1h).sum()` (hpelm/elm.py:343-347). -/
def confBatch (T Y : List (List K)) (i j : Nat) : Nat :=
  ((T.zip Y).filter fun p => argmax p.1 = i ∧ argmax p.2 = j).length

/-- Counts of one batch for multi-label: `np.sum(Tb[:, c1] * Yb[:, c1h])` (hpelm/elm.py:352-356). -/
def confBatchML (T Y : List (List K)) (i j : Nat) : Nat :=
  ((T.zip Y).filter fun p => 1 / 2 < p.1.getD i 0 ∧ 1 / 2 < p.2.getD j 0).length

/-- The loop over batches (hpelm/elm.py:340-347 / 349-356): `conf[c1, c1h] +=` the count of each batch. -/
def confLoop (count : List (List K) → List (List K) → Nat → Nat → Nat) (batch : Int) (C : Nat) (T Y : Mat K) :
    List Nat → Mat K → Mat K
  | [], conf => conf
  | b :: bs, conf =>
    let start := (b : Int) * batch
    let stop := min (((b : Int) + 1) * batch) T.nrows
    let Tb := pySlice T.rows start stop
    let Yb := pySlice Y.rows start stop
    confLoop count batch C T Y bs (conf.add (Mat.ofFn C C fun i j => (count Tb Yb i j : K)))

/-- `ELM.confusion` on checked data (hpelm/elm.py:330-357).  Fewer predictions than targets make NumPy raise when a batch
of each is combined (simplification: broadcasting of a one-row batch is not modelled); surplus predictions are ignored. -/
def ELM.confusionM (e : ELM K) (T Y : Mat K) : Except PyErr (Mat K) := do
  pyAssert (e.classification ∈ [some "c", some "wc", some "ml"])
  if e.batch = 0 then .error .zeroDivision
  let nb := ceilDiv T.nrows e.batch
  if Y.nrows < T.nrows then .error .valueError
  let C := e.nnet.outputs
  let count := if e.classification = some "ml" then confBatchML else confBatch (K := K)
  pure (confLoop count e.batch C T Y (List.range nb.toNat) (Mat.zeros C C))

/-- `ELM.confusion` (hpelm/elm.py:316-357). -/
def ELM.confusion (fs : Files K) (e : ELM K) (T Y : DataArg K) : Except PyErr (Mat K) := do
  pyAssert (e.classification ∈ [some "c", some "wc", some "ml"])
  match ← checkOne fs e.nnet.outputs T, ← checkOne fs e.nnet.outputs Y with
  | some T, some Y => e.confusionM T Y
  | _, _ => .error .typeError

/-- `ELM.project` (hpelm/elm.py:359-370). -/
def ELM.project (env : Env K) (fs : Files K) (e : ELM K) (X : DataArg K) : Except PyErr (Mat K) := do
  match ← checkOne fs e.nnet.inputs X with
  | some X => e.nnet.project env X
  | none => .error .typeError

/-- `ELM.predict` (hpelm/elm.py:372-383). -/
def ELM.predict (env : Env K) (fs : Files K) (e : ELM K) (X : DataArg K) : Except PyErr (Mat K) := do
  match ← checkOne fs e.nnet.inputs X with
  | some X => e.nnet.predict env X
  | none => .error .typeError

/-! ### Ranking and structure selection -/

/-- `_ranking` (hpelm/elm.py:517-540).  `shuffled` is the result of `np.random.shuffle(np.arange(L))`. -/
def ELM.ranking (env : Env K) (shuffled : List Nat) (e : ELM K) (L : Nat) (H T : Mat K) :
    Except PyErr (List Nat × Nat) :=
  if e.rankingOP then do
    let L := match e.kmaxOp with
      | some k => min k L
      | none => L
    let r ← if T.cols < 10 then mrsr env H T L else mrsr2 env H T L
    pure (r, L)
  else pure (shuffled, L)

/-- `HH[rank1, :][:, rank1]` (hpelm/mss_v.py:55). -/
def subSquare (HH : Mat K) (idx : List Nat) : Mat K := (HH.selRows idx).selCols idx

/-- The correlation matrices, which must exist (operating on `None` raises). -/
def NNet.getCorr! (n : NNet K) : Except PyErr (Mat K × Mat K) := do
  match ← n.getCorr with
  | some c => pure c
  | none => .error .typeError

/-- `err*0.01 / L` (hpelm/mss_v.py:34); inf or NaN for `L = 0`. -/
def penaltyOf (err : K) (L : Nat) : Except PyErr K :=
  if L = 0 then .error .nonFinite else .ok (err * (1 / 100) / (L : K))

/-- `np.ones((L0+1,)) * -1` and `e[L] = err + L*penalty` (hpelm/mss_v.py:28,35). -/
def errArray (L0 L : Nat) (v : K) : List K := (List.replicate (L0 + 1) (-1)).set L v

/-- Score of a neuron subset on a validation set (hpelm/mss_v.py:54-59, without the penalty). -/
def scoreV (env : Env K) (e : ELM K) (HH HT Hv Tv : Mat K) (rank1 : List Nat) : Except PyErr K :=
  let B := e.nnet.solveCorr env (subSquare HH rank1) (HT.selRows rank1)
  elmError e.classification e.wc Tv ((Hv.selCols rank1).mul B)

/-- Final re-training on the selected neurons (hpelm/mss_v.py:80-82, mss_cv.py:120-122, mss_loo.py:91-93):
note that `add_batch` is called without weights. -/
def ELM.refit (env : Env K) (e : ELM K) (best : List Nat) (X T : Mat K) : Except PyErr (ELM K) := do
  let n := e.nnet.prune best
  let n ← n.addBatch env X T none
  let n ← n.solve env
  pure { e with nnet := n }

/-- `train_v` (hpelm/mss_v.py:11-82).  Also returns the selected size and final error array (local variables). -/
def trainV (env : Env K) (shuffled : List Nat) (e : ELM K) (X T Xv Tv : Mat K) :
    Except PyErr (ELM K × Nat × List K) := do
  let e ← e.addData env X T
  let (HH, HT) ← e.nnet.getCorr!
  let B := e.nnet.solveCorr env HH HT
  let Hv ← e.nnet.project env Xv
  let L0 := e.nnet.L.getD 0
  let (rank, L) ← e.ranking env shuffled L0 Hv Tv
  let err ← elmError e.classification e.wc Tv (Hv.mul B)
  let penalty ← penaltyOf err L
  let score (idx : Nat) : Except PyErr K := do
    let s ← scoreV env e HH HT Hv Tv (rank.take idx)
    pure (s + idx * penalty)
  let (kopt, errs) ← myopt 1 L (errArray L0 L (err + L * penalty)) score
  let e ← e.refit env (rank.take kopt) X T
  pure (e, kopt, errs)

/-- `R = np.ones(N) - np.einsum('ij,ji->i', np.dot(H, P), H.T)` (hpelm/mss_loo.py:35,67). -/
def pressR (H P : Mat K) : List K :=
  H.rows.map fun h => 1 - dot (Mat.vecMul h P) h

/-- PRESS score of a neuron subset (hpelm/mss_loo.py:59-69; the full set, lines 33-37, is the subset of all). -/
def scoreLOO (env : Env K) (e : ELM K) (HH HT H T : Mat K) : Except PyErr K :=
  match env.inv HH with
  | none => .error .linAlg
  | some P =>
    let Bt := P.mul HT
    elmErrorPress e.classification e.wc T (H.mul Bt) (pressR H P)

/-- `train_loo` (hpelm/mss_loo.py:11-93). -/
def trainLOO (env : Env K) (shuffled : List Nat) (e : ELM K) (X T : Mat K) :
    Except PyErr (ELM K × Nat × List K) := do
  let H ← e.nnet.project env X
  let e ← e.addData env X T
  let (HH, HT) ← e.nnet.getCorr!
  let L0 := e.nnet.L.getD 0
  let (rank, L) ← e.ranking env shuffled L0 H T
  let err ← scoreLOO env e HH HT H T
  let penalty ← penaltyOf err L
  let score (idx : Nat) : Except PyErr K := do
    let rank1 := rank.take idx
    let s ← scoreLOO env e (subSquare HH rank1) (HT.selRows rank1) (H.selCols rank1) T
    pure (s + idx * penalty)
  let (kopt, errs) ← myopt 1 L (errArray L0 L (err + L * penalty)) score
  let e ← e.refit env (rank.take kopt) X T
  pure (e, kopt, errs)

/-- `np.arange(N)[i::k]` (hpelm/mss_cv.py:34). -/
def foldIdx (N k i : Nat) : List Nat := (List.range N).filter fun n => n % k = i

/-- `items = [(i+j) % k for j in range(k)]` (hpelm/mss_cv.py:38). -/
def foldItems (k i : Nat) : List Nat := (List.range k).map fun j => (i + j) % k

/-- `idx_tr` of round `i` (hpelm/mss_cv.py:39). -/
def cvTrain (N k i : Nat) : List Nat := ((foldItems k i).take (k - 2)).flatMap (foldIdx N k)

/-- `idx_vl` of round `i` (hpelm/mss_cv.py:40). -/
def cvVal (N k i : Nat) : List Nat := foldIdx N k ((foldItems k i).getD (k - 2) 0)

/-- `idx_ts` of round `i` (hpelm/mss_cv.py:41). -/
def cvTest (N k i : Nat) : List Nat := foldIdx N k ((foldItems k i).getD (k - 1) 0)

/-- One element of `datak` (hpelm/mss_cv.py:54). -/
structure FoldData (K : Type) where
  HH : Mat K
  HT : Mat K
  Hvl : Mat K
  Tvl : Mat K
  Hts : Mat K
  Tts : Mat K
  rank : List Nat
  L : Nat

/-- One pass of the loop hpelm/mss_cv.py:37-54: data of round `i`; the network keeps its neurons, `reset` only clears the
accumulated matrices. -/
def cvFold (env : Env K) (shuffled : List Nat) (e : ELM K) (X T : Mat K) (k i : Nat) : Except PyErr (FoldData K) := do
  let N := X.nrows
  let tr := cvTrain N k i
  let vl := cvVal N k i
  let ts := cvTest N k i
  let n ← e.nnet.reset.addBatch env (X.selRows tr) (T.selRows tr) none
  let (HH, HT) ← n.getCorr!
  let Hvl ← n.project env (X.selRows vl)
  let Hts ← n.project env (X.selRows ts)
  let (rank, L) ← e.ranking env shuffled Hvl.cols Hvl (T.selRows vl)
  pure { HH, HT, Hvl, Tvl := T.selRows vl, Hts, Tts := T.selRows ts, rank, L }

/-- Sum over the folds of `error / k` (hpelm/mss_cv.py:58-62, 84-91, 114-118). -/
def cvMean (k : Nat) (f : FoldData K → Except PyErr K) : List (FoldData K) → K → Except PyErr K
  | [], acc => .ok acc
  | d :: ds, acc => do
    let v ← f d
    cvMean k f ds (acc + v / (k : K))

/-- `train_cv` (hpelm/mss_cv.py:11-127) for `k ≥ 3`.  `shuffles i` is the shuffle of round `i`.  Returns the model, the
returned test error, the selected size and the final error array. -/
def trainCV (env : Env K) (shuffles : Nat → List Nat) (e : ELM K) (X T : Mat K) (k : Nat) :
    Except PyErr (ELM K × K × Nat × List K) := do
  let datak ← (List.range k).mapM fun i => cvFold env (shuffles i) e X T k i
  let L := (datak.map (·.L)).getLastD (e.nnet.L.getD 0)
  let err ← cvMean k (fun d => elmError e.classification e.wc d.Tvl (d.Hvl.mul (e.nnet.solveCorr env d.HH d.HT))) datak 0
  let penalty ← penaltyOf err L
  let score (idx : Nat) : Except PyErr K := do
    let s ← cvMean k (fun d => scoreV env e d.HH d.HT d.Hvl d.Tvl (d.rank.take idx)) datak 0
    pure (s + idx * penalty)
  let (kopt, errs) ← myopt 3 L (errArray L L (err + L * penalty)) score
  let best := ((datak.map (·.rank)).getLastD []).take kopt
  let errT ← cvMean k (fun d => elmError e.classification e.wc d.Tts (d.Hts.mul (e.nnet.solveCorr env d.HH d.HT))) datak 0
  let e ← e.refit env best X T
  pure (e, errT, kopt, errs)

/-- Random choices made during one `train` call. -/
structure Rnd where
  shuffles : Nat → List Nat

/-- The dispatch in `ELM.train` (hpelm/elm.py:187-204).  Note that it inspects the arguments as given, not the
upper-cased ones. -/
def ELM.trainBody (env : Env K) (fs : Files K) (rnd : Rnd) (e : ELM K) (X T : Mat K) (args : List String)
    (kw : Kwargs K) : Except PyErr (Option K × ELM K) :=
  if "V" ∈ args then do
    match kw.Xv, kw.Tv with
    | some Xv, some Tv =>
      let (Xv, Tv) ← checkBoth fs e.nnet Xv Tv
      let r ← trainV env (rnd.shuffles 0) e X T Xv Tv
      pure (none, r.1)
    | _, _ => .error .assertion
  else if "CV" ∈ args then do
    match kw.k with
    | none => .error .assertion
    | some k =>
      pyAssert (k ≥ 3)
      let r ← trainCV env rnd.shuffles e X T k.toNat
      pure (some r.2.1, r.1)
  else if "LOO" ∈ args then do
    let r ← trainLOO env (rnd.shuffles 0) e X T
    pure (none, r.1)
  else do
    let e ← e.addData env X T
    let n ← e.nnet.solve env
    pure (none, { e with nnet := n })

/-- `ELM.train` (hpelm/elm.py:150-204): returned value and new object state.
Simplification: if the body raises, the state is reported as it was after argument parsing (the code may have
accumulated part of the data by then). -/
def ELM.train (env : Env K) (fs : Files K) (rnd : Rnd) (e : ELM K) (X T : DataArg K) (args : List String)
    (kw : Kwargs K) : Except PyErr (Option K) × ELM K :=
  match checkBoth fs e.nnet X T with
  | .error x => (.error x, e)
  | .ok (X, T) =>
    match e.parseArgs args kw with
    | (e1, .error x) => (.error x, e1)
    | (e1, .ok ()) =>
      match e1.trainBody env fs rnd X T args kw with
      | .error x => (.error x, e1)
      | .ok (r, e2) => (.ok r, e2)

/-! ### Persistence (hpelm/elm.py:385-468) -/

/-- The dictionary built by `_get_output_format` (hpelm/elm.py:418-427). -/
structure Saved (K : Type) where
  inputs : Nat
  outputs : Nat
  classification : Option String
  wc : Option (List (Option K))
  neurons : List (Group K)
  norm : K
  beta : Option (Mat K)
  deriving DecidableEq, Repr

/-- `_get_output_format` (hpelm/elm.py:418-427); `save`/`dumps` pickle exactly this. -/
def ELM.saved (e : ELM K) : Saved K :=
  { inputs := e.nnet.inputs, outputs := e.nnet.outputs, classification := e.classification, wc := e.wc
    neurons := e.nnet.getNeurons, norm := e.nnet.norm, beta := e.nnet.getB }

/-- `_update_from_output` (hpelm/elm.py:455-468); `load`/`loads` call it with the unpickled dictionary.
Simplification: when `set_B` raises, the partially updated object is not reported. -/
def ELM.load (env : Env K) (e : ELM K) (m : Saved K) : Except PyErr (ELM K) := do
  let n := if e.accelerator = none then NNet.init env .basic m.inputs m.outputs none e.prec else e.nnet
  let n := m.neurons.foldl (fun (n : NNet K) g =>
    n.addNeurons g.number g.func (g.W.map (List.map (env.cast e.prec))) (g.B.map (env.cast e.prec))) n
  let n := { n with norm := m.norm }
  let n ← match m.beta with
    | none => pure n
    | some B => n.setB env (B.map (env.cast e.prec))
  pure { e with nnet := n, classification := m.classification, wc := m.wc }

end
end Hpelm
