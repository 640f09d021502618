import Verif.Model.Ops

/-!
# State of a model after a call that raised

`Model/Slfn.lean` and `Model/Elm.lean` describe what successful calls compute.  Here the same functions return the state the
object is left in when an exception occurs in the middle, so that histories of a user who catches exceptions can be considered.
NumPy broadcasting of one-column targets, which the other model reports as an error, is included.
-/

namespace Hpelm
variable {K : Type} [Field K] [LinearOrder K]

/-- The in-place addition `self.HT += D` (hpelm/nnets/slfn.py:162, slfn_python.py:49): equal shapes, or a one-column `D` that is
added to every column.  On the GPU (`add_dot`, slfn_skcuda.py:237) shapes must be equal. -/
def NNet.addHT (n : NNet K) (HT D : Mat K) : Option (Mat K) :=
  if D.cols = HT.cols then some (HT.add D)
  else if D.cols = 1 ∧ n.solver ≠ .cuda then some (Mat.ofFn HT.nrows HT.cols fun i j => HT.get i j + D.get i 0)
  else none

/-- `add_batch` with the state after an exception (hpelm/nnets/slfn.py:137-162, slfn_python.py:32-49, slfn_skcuda.py:212-242).
Projection and weighting work on local arrays.  Then `HH`, `HT` are created if needed.  On the CPU `HH` is updated before `HT`, on
the GPU after it. -/
def NNet.addBatchS (env : Env K) (n : NNet K) (X T : Mat K) (wc : Option (List K)) : NNet K × Except PyErr Unit :=
  match n.project env X with
  | .error x => (n, .error x)
  | .ok H =>
    match weighted env n.prec wc H (T.map (env.cast n.prec)) with
    | .error x => (n, .error x)
    | .ok (H, T) =>
      let L := n.L.getD 0
      let c := match n.corr with
        | none => (Mat.diag L n.norm, Mat.zeros L n.outputs)
        | some c => c
      let n1 := { n with corr := some c }
      if H.cols ≠ c.1.cols then (n1, .error .valueError)
      else
        let n2 := if n.solver = .cuda then n1 else { n with corr := some (n.updHH c.1 H, c.2) }
        if H.nrows ≠ T.nrows then (n2, .error .valueError)
        else match n.addHT c.2 (H.tmul T) with
          | none => (n2, .error .valueError)
          | some HT => ({ n with corr := some (n.updHH c.1 H, HT) }, .ok ())

/-- The loop over batches with the state after an exception (hpelm/elm.py:229-233). -/
def ELM.feedS (env : Env K) (inCols outCols : Nat) :
    List (List (List K) × List (List K)) → ELM K → ELM K × Except PyErr Unit
  | [], e => (e, .ok ())
  | (Xb, Tb) :: rest, e =>
    match batchWeights e.classification e.wc ⟨outCols, Tb⟩ with
    | .error x => (e, .error x)
    | .ok w =>
      match e.nnet.addBatchS env ⟨inCols, Xb⟩ ⟨outCols, Tb⟩ w with
      | (n, .error x) => ({ e with nnet := n }, .error x)
      | (n, .ok ()) => ELM.feedS env inCols outCols rest { e with nnet := n }

/-- `ELM.add_data` with the state after an exception (hpelm/elm.py:207-233). -/
def ELM.addDataS (env : Env K) (e : ELM K) (X T : Mat K) : ELM K × Except PyErr Unit :=
  if e.batch = 0 then (e, .error .zeroDivision)
  else
    let nb := ceilDiv X.nrows e.batch
    let e := e.autoWc env (colSums T)
    match arraySplit X.rows nb, arraySplit T.rows nb with
    | .error x, _ => (e, .error x)
    | _, .error x => (e, .error x)
    | .ok Xs, .ok Ts => e.feedS env X.cols T.cols (Xs.zip Ts)

/-- The part of `_update_from_output` before `set_B` (hpelm/elm.py:455-466). -/
def ELM.loadNet (env : Env K) (e : ELM K) (m : Saved K) : ELM K :=
  let n := if e.accelerator = none then NNet.init env .basic m.inputs m.outputs none e.prec else e.nnet
  let n := m.neurons.foldl (fun (n : NNet K) g =>
    n.addNeurons g.number g.func (g.W.map (List.map (env.cast e.prec))) (g.B.map (env.cast e.prec))) n
  { e with nnet := { n with norm := m.norm }, classification := m.classification, wc := m.wc }

/-- The outcome of a call that either succeeds or raises before it changes anything. -/
def orElseSame (e : ELM K) : Except PyErr (ELM K) → ELM K × Except PyErr Unit
  | .ok e' => (e', .ok ())
  | .error x => (e, .error x)

/-- `nonFinite` is not an exception of Python: NumPy goes on with infinities or NaN.  The state is then not modelled. -/
def known (e : ELM K) (r : Except PyErr Unit) : Option (ELM K) × Except PyErr Unit :=
  (match r with
    | .error .nonFinite => none
    | _ => some e, r)

/-- The last lines of all structure selections with the state after an exception: `_prune`, `add_batch`, `solve`
(hpelm/mss_v.py:76-78, mss_cv.py:120-122, mss_loo.py:90-92). -/
def ELM.refitS (env : Env K) (e : ELM K) (best : List Nat) (X T : Mat K) : ELM K × Except PyErr Unit :=
  match (e.nnet.prune best).addBatchS env X T none with
  | (n, .error x) => ({ e with nnet := n }, .error x)
  | (n, .ok ()) =>
    match n.solve env with
    | .error x => ({ e with nnet := n }, .error x)
    | .ok n => ({ e with nnet := n }, .ok ())

/-- The selection of neurons by `train_v` after the training data have been added (hpelm/mss_v.py:23-74); it only changes local
variables. -/
def ELM.pickV (env : Env K) (shuffled : List Nat) (e : ELM K) (Xv Tv : Mat K) : Except PyErr (List Nat) := do
  let (HH, HT) ← e.nnet.getCorr!
  let B := e.nnet.solveCorr env HH HT
  let Hv ← e.nnet.project env Xv
  let L0 := e.nnet.L.getD 0
  let (rank, L) ← e.ranking env shuffled L0 Hv Tv
  let err ← elmError e.classification e.wc Tv (Hv.mul B)
  let penalty ← penaltyOf err L
  let score (idx : Nat) : Except PyErr K := do
    let s ← scoreV env e HH HT Hv Tv (rank.take idx)
    pure (s + idx * penalty)
  let (kopt, _) ← myopt 1 L (errArray L0 L (err + L * penalty)) score
  pure (rank.take kopt)

/-- `train_v` with the state after an exception (hpelm/mss_v.py:11-82). -/
def trainVS (env : Env K) (shuffled : List Nat) (e : ELM K) (X T Xv Tv : Mat K) : ELM K × Except PyErr Unit :=
  match e.addDataS env X T with
  | (e, .error x) => (e, .error x)
  | (e, .ok ()) =>
    match e.pickV env shuffled Xv Tv with
    | .error x => (e, .error x)
    | .ok best => e.refitS env best X T

/-- The selection of neurons by `train_loo` after the training data have been added (hpelm/mss_loo.py:24-88); it only changes
local variables. -/
def ELM.pickLOO (env : Env K) (shuffled : List Nat) (e : ELM K) (H T : Mat K) : Except PyErr (List Nat) := do
  let (HH, HT) ← e.nnet.getCorr!
  let L0 := e.nnet.L.getD 0
  let (rank, L) ← e.ranking env shuffled L0 H T
  let err ← scoreLOO env e HH HT H T
  let penalty ← penaltyOf err L
  let score (idx : Nat) : Except PyErr K := do
    let rank1 := rank.take idx
    let s ← scoreLOO env e (subSquare HH rank1) (HT.selRows rank1) (H.selCols rank1) T
    pure (s + idx * penalty)
  let (kopt, _) ← myopt 1 L (errArray L0 L (err + L * penalty)) score
  pure (rank.take kopt)

/-- `train_loo` with the state after an exception (hpelm/mss_loo.py:11-93). -/
def trainLOOS (env : Env K) (shuffled : List Nat) (e : ELM K) (X T : Mat K) : ELM K × Except PyErr Unit :=
  match e.nnet.project env X with
  | .error x => (e, .error x)
  | .ok H =>
    match e.addDataS env X T with
    | (e, .error x) => (e, .error x)
    | (e, .ok ()) =>
      match e.pickLOO env shuffled H T with
      | .error x => (e, .error x)
      | .ok best => e.refitS env best X T

/-- One round of `train_cv` with the state after an exception: `reset`, `add_batch` on the training part, then local computations
(hpelm/mss_cv.py:37-54). -/
def ELM.cvFoldS (env : Env K) (shuffled : List Nat) (e : ELM K) (X T : Mat K) (k i : Nat) : ELM K × Except PyErr (FoldData K) :=
  let tr := cvTrain X.nrows k i
  let vl := cvVal X.nrows k i
  let ts := cvTest X.nrows k i
  match e.nnet.reset.addBatchS env (X.selRows tr) (T.selRows tr) none with
  | (n, .error x) => ({ e with nnet := n }, .error x)
  | (n, .ok ()) =>
    ({ e with nnet := n }, do
      let (HH, HT) ← n.getCorr!
      let Hvl ← n.project env (X.selRows vl)
      let Hts ← n.project env (X.selRows ts)
      let (rank, L) ← e.ranking env shuffled Hvl.cols Hvl (T.selRows vl)
      pure { HH, HT, Hvl, Tvl := T.selRows vl, Hts, Tts := T.selRows ts, rank, L })

/-- The rounds of `train_cv` with the state after an exception (hpelm/mss_cv.py:36-54). -/
def ELM.cvRoundsS (env : Env K) (shuffles : Nat → List Nat) (X T : Mat K) (k : Nat) :
    List Nat → ELM K → ELM K × Except PyErr (List (FoldData K))
  | [], e => (e, .ok [])
  | i :: is, e =>
    match e.cvFoldS env (shuffles i) X T k i with
    | (e, .error x) => (e, .error x)
    | (e, .ok d) =>
      match ELM.cvRoundsS env shuffles X T k is e with
      | (e, .error x) => (e, .error x)
      | (e, .ok ds) => (e, .ok (d :: ds))

/-- The selection of neurons by `train_cv` after the rounds (hpelm/mss_cv.py:56-118); it only changes local variables. -/
def ELM.pickCV (env : Env K) (e : ELM K) (k : Nat) (datak : List (FoldData K)) : Except PyErr (List Nat) := do
  let L := (datak.map (·.L)).getLastD (e.nnet.L.getD 0)
  let err ← cvMean k (fun d => elmError e.classification e.wc d.Tvl (d.Hvl.mul (e.nnet.solveCorr env d.HH d.HT))) datak 0
  let penalty ← penaltyOf err L
  let score (idx : Nat) : Except PyErr K := do
    let s ← cvMean k (fun d => scoreV env e d.HH d.HT d.Hvl d.Tvl (d.rank.take idx)) datak 0
    pure (s + idx * penalty)
  let (kopt, _) ← myopt 3 L (errArray L L (err + L * penalty)) score
  let best := ((datak.map (·.rank)).getLastD []).take kopt
  let _ ← cvMean k (fun d => elmError e.classification e.wc d.Tts (d.Hts.mul (e.nnet.solveCorr env d.HH d.HT))) datak 0
  pure best

/-- `train_cv` with the state after an exception (hpelm/mss_cv.py:11-127). -/
def trainCVS (env : Env K) (shuffles : Nat → List Nat) (e : ELM K) (X T : Mat K) (k : Nat) : ELM K × Except PyErr Unit :=
  match ELM.cvRoundsS env shuffles X T k (List.range k) e with
  | (e, .error x) => (e, .error x)
  | (e, .ok datak) =>
    match e.pickCV env k datak with
    | .error x => (e, .error x)
    | .ok best => e.refitS env best X T

/-- The dispatch in `ELM.train` with the state after an exception (hpelm/elm.py:187-204). -/
def ELM.trainBodyS (env : Env K) (fs : Files K) (rnd : Rnd) (e : ELM K) (X T : Mat K) (args : List String)
    (kw : Kwargs K) : ELM K × Except PyErr Unit :=
  if "V" ∈ args then
    match kw.Xv, kw.Tv with
    | some Xv, some Tv =>
      match checkBoth fs e.nnet Xv Tv with
      | .error x => (e, .error x)
      | .ok (Xv, Tv) => trainVS env (rnd.shuffles 0) e X T Xv Tv
    | _, _ => (e, .error .assertion)
  else if "CV" ∈ args then
    match kw.k with
    | none => (e, .error .assertion)
    | some k => if k ≥ 3 then trainCVS env rnd.shuffles e X T k.toNat else (e, .error .assertion)
  else if "LOO" ∈ args then trainLOOS env (rnd.shuffles 0) e X T
  else
    match e.addDataS env X T with
    | (e, .error x) => (e, .error x)
    | (e, .ok ()) =>
      match e.nnet.solve env with
      | .error x => (e, .error x)
      | .ok n => ({ e with nnet := n }, .ok ())

/-- `ELM.train` with the state after an exception (hpelm/elm.py:150-204). -/
def ELM.trainS (env : Env K) (fs : Files K) (rnd : Rnd) (e : ELM K) (X T : DataArg K) (args : List String) (kw : Kwargs K) :
    Option (ELM K) × Except PyErr Unit :=
  match checkBoth fs e.nnet X T with
  | .error x => (some e, .error x)
  | .ok (X, T) =>
    match e.parseArgs args kw with
    | (e1, .error x) => (some e1, .error x)
    | (e1, .ok ()) => let r := e1.trainBodyS env fs rnd X T args kw; known r.1 r.2

/-- One call with the state after an exception.  `add_neurons`, `set_B`, `set_corr` and `solve` check everything before they
change the object; `load` changes the network before it checks the output weights. -/
def ELM.stepS (env : Env K) (fs : Files K) (e : ELM K) : Op K → Option (ELM K) × Except PyErr Unit
  | .addData X T => let r := e.addDataS env X T; known r.1 r.2
  | .addBatch X T wc => let r := e.nnet.addBatchS env X T wc; (some { e with nnet := r.1 }, r.2)
  | .train rnd X T args kw => e.trainS env fs rnd X T args kw
  | .load m =>
    match e.load env m with
    | .ok e' => (some e', .ok ())
    | .error x => (some (e.loadNet env m), .error x)
  | op => let r := orElseSame e (e.step env fs op); (some r.1, r.2)

/-- A history of calls in which exceptions are caught: the state at the end and the outcomes of the calls, in order.  `none`: the
state is not modelled (see `known`). -/
def ELM.runS (env : Env K) (fs : Files K) : ELM K → List (Op K) → Option (ELM K) × List (Except PyErr Unit)
  | e, [] => (some e, [])
  | e, op :: ops =>
    match e.stepS env fs op with
    | (none, r) => (none, [r])
    | (some e', r) => let q := ELM.runS env fs e' ops; (q.1, r :: q.2)

end Hpelm
