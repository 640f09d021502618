import Verif.Model.Env

/-!
# Model of hpelm/nnets/slfn.py, slfn_python.py and slfn_skcuda.py

One structure `NNet` with a `solver` tag; methods overridden in the subclasses branch on the tag.
-/

namespace Hpelm
variable {K : Type}

/-- Neuron function argument: a string or a `numpy.ufunc` object (hpelm/elm.py:257). -/
inductive Func
  | name (s : String)
  | ufunc (s : String)
  deriving DecidableEq, Repr

/-- One element of `SLFN.neurons`: the tuple `(number, func, W, B)` (hpelm/nnets/slfn.py:53,93).
`W` (inputs × number) is stored as the list of its columns. -/
structure Group (K : Type) where
  number : Nat
  func : Func
  W : List (List K)
  B : List K
  deriving DecidableEq, Repr

/-- Which class implements the network: `SLFN` / `SLFNPython` / `SLFNSkCUDA` (hpelm/elm.py:74-83). -/
inductive Solver | basic | python | cuda
  deriving DecidableEq, Repr

/-- Attributes of an SLFN object (hpelm/nnets/slfn.py:43-57).
`HH` and `HT` are always assigned together in the code (slfn.py:104-105,157-158,236-237), hence one option `corr`. -/
structure NNet (K : Type) where
  solver : Solver
  prec : Prec
  inputs : Nat
  outputs : Nat
  norm : K
  neurons : List (Group K)
  L : Option Nat
  B : Option (Mat K)
  corr : Option (Mat K × Mat K)
  deriving DecidableEq, Repr

section
variable [Field K] [LinearOrder K]

/-- `SLFN.__init__` (hpelm/nnets/slfn.py:43-57); default norm = 50 machine epsilons (lines 49-51). -/
def NNet.init (env : Env K) (solver : Solver) (inputs outputs : Nat) (norm : Option K) (prec : Prec) : NNet K :=
  { solver, prec, inputs, outputs
    norm := match norm with
      | none => 50 * env.eps prec
      | some v => v
    neurons := [], L := none, B := none, corr := none }

/-- cityblock distance of `scipy.spatial.distance.cdist` (hpelm/nnets/slfn.py:64). -/
def distL1 (x w : List K) : K := (List.zipWith (fun a b => |a - b|) x w).sum

/-- euclidean distance of `cdist` (hpelm/nnets/slfn.py:65). -/
def distL2 (env : Env K) (x w : List K) : K := env.sqrt (List.zipWith (fun a b => (a - b) * (a - b)) x w).sum

/-- chebyshev distance of `cdist` (hpelm/nnets/slfn.py:66). -/
def distLinf (x w : List K) : K := (List.zipWith (fun a b => |a - b|) x w).foldl max 0

/-- The dictionary `SLFN.func` (hpelm/nnets/slfn.py:60-66): output of one neuron with weights `w` and bias `b` on
one sample `x`.  (The NumPy functions are applied to whole arrays; every entry is this expression.) -/
def act (env : Env K) (s : String) : Option (List K → List K → K → K) :=
  if s = "lin" then some fun x w b => dot x w + b
  else if s = "sigm" then some fun x w b => 1 / (1 + env.exp (dot x w + b))
  else if s = "tanh" then some fun x w b => env.tanh (dot x w + b)
  else if s = "rbf_l1" then some fun x w b => env.exp (-(distL1 x w) ^ 2 / b)
  else if s = "rbf_l2" then some fun x w b => env.exp (-(distL2 env x w) ^ 2 / b)
  else if s = "rbf_linf" then some fun x w b => env.exp (-(distLinf x w) ^ 2 / b)
  else none

/-- `self.func[ftype](X, W, B)` (hpelm/nnets/slfn.py:119): `KeyError` for a key that is not in the dictionary,
in particular for a ufunc object. -/
def applyGroup (env : Env K) (X : Mat K) (g : Group K) : Except PyErr (Mat K) :=
  match g.func with
  | .ufunc _ => .error .keyError
  | .name s =>
    match act env s with
    | none => .error .keyError
    | some a => .ok ⟨g.W.length, X.rows.map fun x => List.zipWith (a x) g.W g.B⟩

/-- `SLFN._project` (hpelm/nnets/slfn.py:107-119).  A wrong number of columns makes `np.dot`/`cdist` raise
`ValueError`. -/
def NNet.project (env : Env K) (n : NNet K) (X : Mat K) : Except PyErr (Mat K) := do
  if X.cols ≠ n.inputs then .error .valueError
  let Hs ← n.neurons.mapM (applyGroup env X)
  hstack Hs

/-- `SLFN.reset` (hpelm/nnets/slfn.py:97-105). -/
def NNet.reset (n : NNet K) : NNet K :=
  { n with L := some (n.neurons.map (·.number)).sum, corr := none }

/-- Merge into an existing neuron type, keeping its position (hpelm/nnets/slfn.py:84-90), or append (line 93). -/
def addGroup (gs : List (Group K)) (number : Nat) (func : Func) (W : List (List K)) (B : List K) : List (Group K) :=
  match gs with
  | [] => [{ number, func, W, B }]
  | g :: gs =>
    if g.func = func then { number := g.number + number, func, W := g.W ++ W, B := g.B ++ B } :: gs
    else g :: addGroup gs number func W B

/-- `SLFN.add_neurons` (hpelm/nnets/slfn.py:68-95; GPU version slfn_skcuda.py:129-158 is the same up to host/device
copies).  `ntypes.index(func)` is the first group with that type; `W` is given as the list of its columns. -/
def NNet.addNeurons (n : NNet K) (number : Nat) (func : Func) (W : List (List K)) (B : List K) : NNet K :=
  let n := { n with neurons := addGroup n.neurons number func W B }
  { n.reset with B := none }

/-- `SLFN._predict` (hpelm/nnets/slfn.py:121-135). -/
def NNet.predict (env : Env K) (n : NNet K) (X : Mat K) : Except PyErr (Mat K) :=
  match n.B with
  | none => .error .assertion
  | some B => do
    let H ← n.project env X
    if H.cols ≠ B.nrows then .error .valueError
    pure (H.mul B)

/-- In-place row scaling `H *= w[:, None]` (hpelm/nnets/slfn.py:152-154).  NumPy broadcasting: the weight column must
have as many rows as the matrix, or exactly one row, otherwise `ValueError`. -/
def scaleRows (w : List K) (M : Mat K) : Except PyErr (Mat K) :=
  if w.length = M.nrows then .ok ⟨M.cols, List.zipWith (fun c r => r.map (c * ·)) w M.rows⟩
  else match w with
    | [c] => .ok ⟨M.cols, M.rows.map fun r => r.map (c * ·)⟩
    | _ => .error .valueError

/-- Apply optional sample weights to `H` and `T` (hpelm/nnets/slfn.py:150-154): both are multiplied by the square
roots of the weights. -/
def weighted (env : Env K) (prec : Prec) (wc : Option (List K)) (H T : Mat K) : Except PyErr (Mat K × Mat K) :=
  match wc with
  | none => .ok (H, T)
  | some wc => do
    let w := wc.map fun x => env.cast prec (env.sqrt x)
    let H ← scaleRows w H
    let T ← scaleRows w T
    pure (H, T)

/-- Symmetric rank-k update `syrk(1, H.T, 1, HH, trans=0)`: only the upper triangle (incl. diagonal) of `HH` is
updated, the strict lower triangle is returned as it was (hpelm/nnets/slfn_python.py:48). -/
def syrkUpper (HH H : Mat K) : Mat K :=
  let G := H.tmul H
  Mat.ofFn HH.nrows HH.cols fun i j => if i ≤ j then HH.get i j + G.get i j else HH.get i j

/-- Update of `HH` with a batch `H`: full for the basic solver (hpelm/nnets/slfn.py:161), upper triangle for the
Python solver (slfn_python.py:48); for the GPU solver full in double precision (slfn_skcuda.py:239-240) and triangular
in single (line 242: lower triangle in column-major order = upper triangle in row-major order). -/
def NNet.updHH (n : NNet K) (HH H : Mat K) : Mat K :=
  match n.solver, n.prec with
  | .basic, _ => HH.add (H.tmul H)
  | .python, _ => syrkUpper HH H
  | .cuda, .double => HH.add (H.tmul H)
  | .cuda, .single => syrkUpper HH H

/-- `add_batch` (hpelm/nnets/slfn.py:137-162, slfn_python.py:32-49, slfn_skcuda.py:212-242).
Simplification: when NumPy would raise in the middle (shape mismatch), the model reports the error without the partial
update, and targets with one column, which NumPy would broadcast to all outputs, are reported as an error;
`NNet.addBatchS` (Model/Failures.lean) models both. -/
def NNet.addBatch (env : Env K) (n : NNet K) (X T : Mat K) (wc : Option (List K)) : Except PyErr (NNet K) := do
  let H ← n.project env X
  let T := T.map (env.cast n.prec)
  let (H, T) ← weighted env n.prec wc H T
  if H.nrows ≠ T.nrows ∨ T.cols ≠ n.outputs then .error .valueError
  let L := n.L.getD 0
  let (HH, HT) := match n.corr with
    | none => (Mat.diag L n.norm, Mat.zeros L n.outputs)
    | some c => c
  if H.cols ≠ HH.cols then .error .valueError
  pure { n with corr := some (n.updHH HH H, HT.add (H.tmul T)) }

/-- `np.triu(M)`. -/
def triu (M : Mat K) : Mat K := Mat.ofFn M.nrows M.cols fun i j => if i ≤ j then M.get i j else 0

/-- `np.triu(M, k=1).T`: strict upper triangle mirrored below the diagonal. -/
def triu1T (M : Mat K) : Mat K := Mat.ofFn M.nrows M.cols fun i j => if j < i then M.get j i else 0

/-- `solve_corr` (hpelm/nnets/slfn.py:169-180, slfn_python.py:51-66, slfn_skcuda.py:253-269). -/
def NNet.solveCorr (env : Env K) (n : NNet K) (HH HT : Mat K) : Mat K :=
  match n.solver with
  | .basic => (env.pinv HH).mul HT
  | .python =>
    let r := env.posv HH HT
    if r.2 > 0 then env.lstsq (HH.add (triu1T HH)) HT else r.1
  | .cuda =>
    let r := env.posv HH HT
    (if r.2 > 0 then env.lstsq ((triu HH).add (triu1T HH)) HT else r.1).map (env.cast n.prec)

/-- `solve` (hpelm/nnets/slfn.py:164-167, slfn_skcuda.py:245-251); with nothing accumulated the library call on `None`
fails. -/
def NNet.solve (env : Env K) (n : NNet K) : Except PyErr (NNet K) :=
  match n.corr with
  | none => .error .typeError
  | some (HH, HT) => .ok { n with B := some (n.solveCorr env HH HT) }

/-- `get_corr` (hpelm/nnets/slfn.py:218-221, slfn_python.py:69-73, slfn_skcuda.py:311-321); result `none` = `(None, None)`. -/
def NNet.getCorr (n : NNet K) : Except PyErr (Option (Mat K × Mat K)) :=
  match n.solver, n.corr with
  | .basic, c => .ok c
  | .python, none => .error .typeError
  | .python, some (HH, HT) => .ok (some (HH.add (triu1T HH), HT))
  | .cuda, none => .ok none
  | .cuda, some (HH, HT) => .ok (some ((triu HH).add (triu1T HH), HT))

/-- `set_corr` (hpelm/nnets/slfn.py:223-237, slfn_skcuda.py:323-337). -/
def NNet.setCorr (env : Env K) (n : NNet K) (HH HT : Mat K) : Except PyErr (NNet K) := do
  pyAssert (HH.nrows = HH.cols)
  pyAssert (some HH.nrows = n.L)
  pyAssert (HH.nrows = HT.nrows)
  pyAssert (HT.cols = n.outputs)
  pure { n with corr := some (HH.map (env.cast n.prec), HT.map (env.cast n.prec)) }

/-- `get_B` (hpelm/nnets/slfn.py:201-204). -/
def NNet.getB (n : NNet K) : Option (Mat K) := n.B

/-- `set_B` (hpelm/nnets/slfn.py:206-216). -/
def NNet.setB (env : Env K) (n : NNet K) (B : Mat K) : Except PyErr (NNet K) := do
  pyAssert (some B.nrows = n.L)
  pyAssert (B.cols = n.outputs)
  pure { n with B := some (B.map (env.cast n.prec)) }

/-- The loop of `_prune` (hpelm/nnets/slfn.py:185-195): indices below the size of the current type select from it, the
rest are shifted and passed on.  Indices are non-negative (the code always passes ranking prefixes). -/
def pruneGroups : List (Group K) → List Nat → List (Group K)
  | [], _ => []
  | g :: gs, idx =>
    let ix1 := idx.filter (· < g.number)
    let rest := (idx.filter (g.number ≤ ·)).map (· - g.number)
    { number := ix1.length, func := g.func, W := ix1.map fun i => g.W.getD i [], B := ix1.map fun i => g.B.getD i 0 }
      :: pruneGroups gs rest

/-- `_prune` (hpelm/nnets/slfn.py:182-199, slfn_skcuda.py:271-290). -/
def NNet.prune (n : NNet K) (idx : List Nat) : NNet K :=
  let n := { n with neurons := pruneGroups n.neurons idx }
  { n.reset with B := none }

/-- `get_neurons` (hpelm/nnets/slfn.py:239-245). -/
def NNet.getNeurons (n : NNet K) : List (Group K) := n.neurons

end
end Hpelm
