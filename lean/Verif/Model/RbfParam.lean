import Verif.Model.Slfn

/-!
# Model of hpelm/modules/rbf_param.py
-/

namespace Hpelm
variable {K : Type} [Field K] [LinearOrder K]

/-- Choice of the distance (hpelm/modules/rbf_param.py:21-26). -/
inductive Dist | cityblock | chebyshev | sqeuclidean
  deriving DecidableEq, Repr

/-- Does the string `s` contain `sub` (Python's `sub in s`)? -/
def containsStr (sub s : List Char) : Bool :=
  match s with
  | [] => sub.isEmpty
  | _ :: t => sub.isPrefixOf s || containsStr sub t

/-- `"l1" in kind`, `"inf" in kind` (hpelm/modules/rbf_param.py:21-26). -/
def distKind (kind : String) : Dist :=
  if containsStr "l1".toList kind.toList then .cityblock
  else if containsStr "inf".toList kind.toList then .chebyshev
  else .sqeuclidean

/-- `cdist` of two single rows (hpelm/modules/rbf_param.py:43). -/
def Dist.eval : Dist → List K → List K → K
  | .cityblock, x, y => distL1 x y
  | .chebyshev, x, y => distLinf x y
  | .sqeuclidean, x, y => (List.zipWith (fun a b => (a - b) * (a - b)) x y).sum

/-- The pairs of rows whose distances are taken (hpelm/modules/rbf_param.py:37-43): row `i` and row `ix[i]`, or the next row
if they are the same. -/
def rbfPairs (Nk : Nat) (ix : List Nat) : List (Nat × Nat) :=
  (List.range Nk).map fun i =>
    let j := ix.getD i 0
    (i, if i = j then j + 1 else j)

/-- One distance; an index outside of the data raises `IndexError`. -/
def rbfDist (d : Dist) (X : Mat K) (p : Nat × Nat) : Except PyErr K :=
  match X.rows[p.1]?, X.rows[p.2]? with
  | some x, some y => .ok (d.eval x y)
  | _, _ => .error .indexError

/-- Row `i` as the column of `W` (hpelm/modules/rbf_param.py:50-51). -/
def rbfCentroid (X : Mat K) (i : Nat) : Except PyErr (List K) :=
  match X.rows[i]? with
  | some x => .ok x
  | none => .error .indexError

/-- The loop that fills the widths (hpelm/modules/rbf_param.py:54-62): `us` are the numbers that `np.random.rand()` returns;
`none` if the loop is still running when they are used up.  `acc` are the widths found so far, `k` how many are missing. -/
def rbfLoop (m s : K) : List K → Nat → List K → Option (List K)
  | [], _, _ => none
  | u :: us, k, acc =>
    let b := (u - 1 / 2) * 2 * s + m
    if 0 < b then
      if k = 1 then some (acc ++ [b]) else rbfLoop m s us (k - 1) (acc ++ [b])
    else rbfLoop m s us k acc

/-- `rbf_param(data, k, kind)` (hpelm/modules/rbf_param.py:16-66).  `ix1`, `ix2` are the results of the two calls of
`np.random.choice` (lines 37, 48), `us` those of `np.random.rand()`.  `.ok none`: the loop of lines 56-62 is still running
after all numbers in `us`.  With no distance at all the mean is NaN and the loop condition is never true.
The centroids are returned as rows of a matrix (columns of `W`). -/
def rbfParam (env : Env K) (X : Mat K) (k : Nat) (kind : String) (ix1 ix2 : List Nat) (us : List K) :
    Except PyErr (Option (Mat K × List K)) :=
  if X.nrows = 0 then .error .valueError
  else do
    let Nk := min (10 * k) (X.nrows - 1)
    let dist ← (rbfPairs Nk ix1).mapM (rbfDist (distKind kind) X)
    let W ← ix2.mapM (rbfCentroid X)
    if Nk = 0 then pure none
    else
      let m := dist.sum / Nk
      let s := env.sqrt ((dist.map fun v => (v - m) * (v - m)).sum / Nk)
      pure ((rbfLoop m s us k []).map fun B => (⟨X.cols, W⟩, B))

end Hpelm
