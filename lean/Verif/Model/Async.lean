import Verif.Model.Hpelm

/-!
# Transition systems for `predict_async` and `add_data_async`

Processes communicate through FIFO queues (`multiprocessing.Queue`); `put` on a queue of capacity 1 blocks while it is
full, `get` blocks while it is empty, `join` blocks until the process has left its loop.  Every rule below is one
queue operation (together with the local computation that follows it).  A schedule is any sequence of rules.
-/

namespace Hpelm
variable {K : Type} [Field K] [LinearOrder K]

/-- State of the reader process `_ireader` (hpelm/modules/hdf5_tools.py:233-250). -/
inductive Reader (V : Type)
  /-- at `q_in.get()`, line 246 -/
  | idle
  /-- at `q_out.put(X[start:stop])`, line 249 -/
  | putting (v : V)
  /-- left the loop (line 248) -/
  | done

/-- Program counter of the main process in `predict_async` (hpelm/hp_elm.py:587-611). -/
inductive PMain (V : Type)
  /-- top of the loop with loop variable `b`; line 591 next -/
  | loop (b : Nat)
  /-- line 595 -/
  | get (b : Nat)
  /-- line 599 with the computed batch -/
  | put (b : Nat) (w : V)
  /-- line 609 -/
  | putNone
  /-- line 610 -/
  | joinR
  /-- line 611 -/
  | joinW
  | done
  /-- an exception left the loop -/
  | failed (x : PyErr)

/-- State of the writer process `_iwriter` (hpelm/modules/hdf5_tools.py:253-271). -/
inductive Writer | idle | done | crashed
  deriving DecidableEq

/-- Global state of `predict_async`. -/
structure PState (K : Type) where
  main : PMain (Mat K)
  reader : Reader (Mat K)
  writer : Writer
  qIn : List (Int × Int)
  qOut : List (Mat K)
  qW : List (Option (Mat K × Int × Int))
  file : Mat K

/-- What `predict_async` works on: input file contents, prediction function, requests `r_0 .. r_nb` (bounds of the
batches, one more than there are batches), `istart`. -/
structure PCtx (K : Type) where
  X : Mat K
  f : Mat K → Except PyErr (Mat K)
  nb : Nat
  bounds : Nat → Int × Int
  istart : Int

/-- State at line 587, after both processes were started and the output file was made. -/
def PState.init (Y0 : Mat K) : PState K :=
  { main := .loop 0, reader := .idle, writer := .idle, qIn := [], qOut := [], qW := [], file := Y0 }

/-- One step of one of the three processes. -/
inductive PStep (c : PCtx K) : PState K → PState K → Prop
  /-- hp_elm.py:591 in the first iteration -/
  | mainPut0 (s : PState K) (h : s.main = .loop 0) :
      PStep c s { s with main := .loop 1, qIn := s.qIn ++ [c.bounds 0] }
  /-- hp_elm.py:591 in later iterations -/
  | mainPut (s : PState K) (b : Nat) (h : s.main = .loop (b + 1)) (hb : b + 1 ≤ c.nb) :
      PStep c s { s with main := .get (b + 1), qIn := s.qIn ++ [c.bounds (b + 1)] }
  /-- end of the loop -/
  | mainExit (s : PState K) (b : Nat) (h : s.main = .loop b) (hb : c.nb < b) :
      PStep c s { s with main := .putNone }
  /-- hp_elm.py:595-597 -/
  | mainGet (s : PState K) (b : Nat) (x : Mat K) (q : List (Mat K)) (y : Mat K) (h : s.main = .get b)
      (hq : s.qOut = x :: q) (hy : c.f x = .ok y) :
      PStep c s { s with main := .put b y, qOut := q }
  /-- hp_elm.py:595-597 when the prediction raises -/
  | mainFail (s : PState K) (b : Nat) (x : Mat K) (q : List (Mat K)) (e : PyErr) (h : s.main = .get b)
      (hq : s.qOut = x :: q) (hy : c.f x = .error e) :
      PStep c s { s with main := .failed e, qOut := q }
  /-- hp_elm.py:599: `start`, `stop` are those of the previous iteration -/
  | mainPutW (s : PState K) (b : Nat) (y : Mat K) (h : s.main = .put b y) (hq : s.qW = []) :
      PStep c s { s with main := .loop (b + 1),
                         qW := [some (y, (c.bounds (b - 1)).1 - c.istart, (c.bounds (b - 1)).2 - c.istart)] }
  /-- hp_elm.py:609 -/
  | mainPutNone (s : PState K) (h : s.main = .putNone) (hq : s.qW = []) :
      PStep c s { s with main := .joinR, qW := [none] }
  /-- hp_elm.py:610 -/
  | mainJoinR (s : PState K) (h : s.main = .joinR) (hr : s.reader = .done) : PStep c s { s with main := .joinW }
  /-- hp_elm.py:611 (a crashed process can be joined too) -/
  | mainJoinW (s : PState K) (h : s.main = .joinW) (hw : s.writer ≠ .idle) : PStep c s { s with main := .done }
  /-- hdf5_tools.py:246-249 -/
  | readerGet (s : PState K) (r : Int × Int) (q : List (Int × Int)) (h : s.reader = .idle) (hq : s.qIn = r :: q)
      (hr : r.1 < r.2) :
      PStep c s { s with reader := .putting (c.X.slice r.1 r.2), qIn := q }
  /-- hdf5_tools.py:246-248 -/
  | readerStop (s : PState K) (r : Int × Int) (q : List (Int × Int)) (h : s.reader = .idle) (hq : s.qIn = r :: q)
      (hr : r.2 ≤ r.1) :
      PStep c s { s with reader := .done, qIn := q }
  /-- hdf5_tools.py:249 -/
  | readerPut (s : PState K) (v : Mat K) (h : s.reader = .putting v) (hq : s.qOut = []) :
      PStep c s { s with reader := .idle, qOut := [v] }
  /-- hdf5_tools.py:265-269 -/
  | writerWrite (s : PState K) (w : Mat K) (a b : Int) (q : List (Option (Mat K × Int × Int))) (Y : Mat K)
      (h : s.writer = .idle) (hq : s.qW = some (w, a, b) :: q) (hY : assignRows s.file a b w = .ok Y) :
      PStep c s { s with qW := q, file := Y }
  /-- hdf5_tools.py:269 raises -/
  | writerCrash (s : PState K) (w : Mat K) (a b : Int) (q : List (Option (Mat K × Int × Int))) (e : PyErr)
      (h : s.writer = .idle) (hq : s.qW = some (w, a, b) :: q) (hY : assignRows s.file a b w = .error e) :
      PStep c s { s with qW := q, writer := .crashed }
  /-- hdf5_tools.py:266-267 -/
  | writerStop (s : PState K) (q : List (Option (Mat K × Int × Int))) (h : s.writer = .idle) (hq : s.qW = none :: q) :
      PStep c s { s with qW := q, writer := .done }

/-- The context of a `predict_async` call (hpelm/hp_elm.py:559-592). -/
def PCtx.ofCall (env : Env K) (e : ELM K) (X : Mat K) (istart : Int) (icount : Option Int) : PCtx K :=
  { X, f := e.nnet.predict env, nb := (ceilDiv (rangeCount X.nrows istart icount) e.batch).toNat
    bounds := batchBounds e.batch istart (rangeCount X.nrows istart icount), istart }

/-- `predict_async` up to the main loop (hpelm/hp_elm.py:564-585): what the processes work on and the new output file. -/
def ELM.asyncPredictStart (env : Env K) (fs : Files K) (e : ELM K) (fX : String) (istart : Int) (icount : Option Int) :
    Except PyErr (PCtx K × Mat K) := do
  pyAssert (!e.nnet.neurons.isEmpty)
  pyAssert e.nnet.B.isSome
  match ← checkOne fs e.nnet.inputs (.path fX) with
  | none => .error .typeError
  | some X =>
    if e.batch = 0 then .error .zeroDivision
    let Y ← makeOut (rangeCount X.nrows istart icount) e.nnet.outputs true
    pure (PCtx.ofCall env e X istart icount, Y)

/-! ### add_data_async (hpelm/hp_elm.py:481-551) -/

/-- Program counter of the main process in `add_data_async` (hpelm/hp_elm.py:528-551). -/
inductive TMain
  /-- line 532 with loop variable `b` -/
  | loop (b : Nat)
  /-- line 533 -/
  | putT (b : Nat)
  /-- line 536 -/
  | getX (b : Nat)
  /-- line 537 with the batch of inputs -/
  | getT (b : Nat)
  /-- line 550 -/
  | joinX
  /-- line 551 -/
  | joinT
  | done
  | failed (x : PyErr)
  deriving DecidableEq

/-- Global state; `σ` is the model being trained, `xb` the inputs received in the current iteration. -/
structure TState (K σ : Type) where
  main : TMain
  readX : Reader (List (List K))
  readT : Reader (List (List K))
  qXin : List (Int × Int)
  qTin : List (Int × Int)
  qXout : List (List (List K))
  qTout : List (List (List K))
  xb : List (List K)
  model : σ

/-- What `add_data_async` works on.  `nb` may be negative. -/
structure TCtx (K σ : Type) where
  X : Mat K
  T : Mat K
  nb : Int
  bounds : Nat → Int × Int
  /-- lines 538-541: weights and `add_batch` -/
  feed : σ → List (List K) × List (List K) → Except PyErr σ

/-- State at line 528. -/
def TState.init {σ : Type} (m : σ) : TState K σ :=
  { main := .loop 0, readX := .idle, readT := .idle, qXin := [], qTin := [], qXout := [], qTout := [], xb := [], model := m }

/-- One step of one of the three processes. -/
inductive TStep {σ : Type} (c : TCtx K σ) : TState K σ → TState K σ → Prop
  /-- line 532 -/
  | mainPutX (s : TState K σ) (b : Nat) (h : s.main = .loop b) (hb : (b : Int) ≤ c.nb) :
      TStep c s { s with main := .putT b, qXin := s.qXin ++ [c.bounds b] }
  /-- line 533; the first iteration only prefetches (line 535) -/
  | mainPutT (s : TState K σ) (b : Nat) (h : s.main = .putT b) :
      TStep c s { s with main := if b = 0 then .loop 1 else .getX b, qTin := s.qTin ++ [c.bounds b] }
  /-- end of the loop -/
  | mainExit (s : TState K σ) (b : Nat) (h : s.main = .loop b) (hb : c.nb < (b : Int)) :
      TStep c s { s with main := .joinX }
  /-- line 536 -/
  | mainGetX (s : TState K σ) (b : Nat) (x : List (List K)) (q : List (List (List K))) (h : s.main = .getX b)
      (hq : s.qXout = x :: q) :
      TStep c s { s with main := .getT b, qXout := q, xb := x }
  /-- lines 537-541 -/
  | mainGetT (s : TState K σ) (b : Nat) (t : List (List K)) (q : List (List (List K))) (m : σ) (h : s.main = .getT b)
      (hq : s.qTout = t :: q) (hm : c.feed s.model (s.xb, t) = .ok m) :
      TStep c s { s with main := .loop (b + 1), qTout := q, model := m }
  /-- lines 537-541 when adding the batch raises -/
  | mainFail (s : TState K σ) (b : Nat) (t : List (List K)) (q : List (List (List K))) (e : PyErr)
      (h : s.main = .getT b) (hq : s.qTout = t :: q) (hm : c.feed s.model (s.xb, t) = .error e) :
      TStep c s { s with main := .failed e, qTout := q }
  /-- line 550 -/
  | mainJoinX (s : TState K σ) (h : s.main = .joinX) (hr : s.readX = .done) : TStep c s { s with main := .joinT }
  /-- line 551 -/
  | mainJoinT (s : TState K σ) (h : s.main = .joinT) (hr : s.readT = .done) : TStep c s { s with main := .done }
  /-- hdf5_tools.py:246-249, reader of X -/
  | readXGet (s : TState K σ) (r : Int × Int) (q : List (Int × Int)) (h : s.readX = .idle) (hq : s.qXin = r :: q)
      (hr : r.1 < r.2) :
      TStep c s { s with readX := .putting (pySlice c.X.rows r.1 r.2), qXin := q }
  /-- hdf5_tools.py:246-248, reader of X -/
  | readXStop (s : TState K σ) (r : Int × Int) (q : List (Int × Int)) (h : s.readX = .idle) (hq : s.qXin = r :: q)
      (hr : r.2 ≤ r.1) :
      TStep c s { s with readX := .done, qXin := q }
  /-- hdf5_tools.py:249, reader of X -/
  | readXPut (s : TState K σ) (v : List (List K)) (h : s.readX = .putting v) (hq : s.qXout = []) :
      TStep c s { s with readX := .idle, qXout := [v] }
  /-- hdf5_tools.py:246-249, reader of T -/
  | readTGet (s : TState K σ) (r : Int × Int) (q : List (Int × Int)) (h : s.readT = .idle) (hq : s.qTin = r :: q)
      (hr : r.1 < r.2) :
      TStep c s { s with readT := .putting (pySlice c.T.rows r.1 r.2), qTin := q }
  /-- hdf5_tools.py:246-248, reader of T -/
  | readTStop (s : TState K σ) (r : Int × Int) (q : List (Int × Int)) (h : s.readT = .idle) (hq : s.qTin = r :: q)
      (hr : r.2 ≤ r.1) :
      TStep c s { s with readT := .done, qTin := q }
  /-- hdf5_tools.py:249, reader of T -/
  | readTPut (s : TState K σ) (v : List (List K)) (h : s.readT = .putting v) (hq : s.qTout = []) :
      TStep c s { s with readT := .idle, qTout := [v] }

/-- One `add_batch` of the main loop (hpelm/hp_elm.py:538-541), same as one element of `ELM.feed`. -/
def feedOne (env : Env K) (inCols outCols : Nat) (e : ELM K) (b : List (List K) × List (List K)) :
    Except PyErr (ELM K) := do
  let w ← batchWeights e.classification e.wc ⟨outCols, b.2⟩
  let n ← e.nnet.addBatch env ⟨inCols, b.1⟩ ⟨outCols, b.2⟩ w
  pure { e with nnet := n }

/-- The context of an `add_data_async` call (hpelm/hp_elm.py:488-541). -/
def TCtx.ofCall (env : Env K) (e : ELM K) (X T : Mat K) (istart : Int) (icount : Option Int) : TCtx K (ELM K) :=
  { X, T, nb := ceilDiv (rangeCount X.nrows istart icount) e.batch
    bounds := batchBounds e.batch istart (rangeCount X.nrows istart icount)
    feed := feedOne env X.cols T.cols }

/-- `add_data_async` up to the main loop (hpelm/hp_elm.py:487-524): what the processes work on, the model and the files.
The matrices held by the model are stored on disk after the loop (hp_elm.py:553-557) as in `add_data`: `ELM.storeCorr`. -/
def ELM.asyncStart (env : Env K) (fs : Files K) (e : ELM K) (fX fT : String) (istart : Int) (icount : Option Int)
    (fHH fHT : Option String) : Except PyErr (TCtx K (ELM K) × ELM K × Files K) := do
  pyAssert (!e.nnet.neurons.isEmpty)
  let (X, T) ← checkBoth fs e.nnet (.path fX) (.path fT)
  let (n, fs) ← prepareFHH fs fHH fHT e.nnet
  let e := { e with nnet := n }
  let bs ← hBatches e.batch istart (rangeCount X.nrows istart icount)
  let e := e.autoWc env (batchColSums e.nnet.outputs T bs)
  pure (TCtx.ofCall env e X T istart icount, e, fs)

end Hpelm
