import Verif.Model.Env

/-!
# Model of hpelm/modules/mrsr.py and hpelm/modules/mrsr2.py (neuron ranking for optimal pruning)
-/

namespace Hpelm
variable {K : Type} [Field K] [LinearOrder K]

/-- Column `j` of an array, `X[:, j]`. -/
def Mat.col (M : Mat K) (j : Nat) : List K := M.rows.map fun r => r.getD j 0

/-- `np.delete(v, i)` for a vector (mrsr.py:60). -/
def delAt {α : Type} (l : List α) (i : Nat) : List α := l.take i ++ l.drop (i + 1)

/-- One column of the sign table: `S[:, j]` from `S[:, j-1]` (mrsr.py:49): the odd-indexed entries, twice. -/
def nextSignCol (h : Nat) (c : List K) : List K :=
  let odd := (List.range h).map fun i => c.getD (2 * i + 1) 0
  odd ++ odd

/-- The columns of the sign table `S`, `2^p × p` (mrsr.py:46-49): column 0 is -1 on the first half and 1 on the
second half. -/
def signCols : Nat → List (List K)
  | 0 => []
  | p + 1 =>
    let c0 : List K := List.replicate (2 ^ p) (-1) ++ List.replicate (2 ^ p) 1
    (List.range p).foldl (fun cs _ => cs ++ [nextSignCol (2 ^ p) (cs.getLastD c0)]) [c0]

/-- The rows of the sign table `S` (mrsr.py:46-49). -/
def signTable (p : Nat) : List (List K) :=
  (List.range (2 ^ p)).map fun i => (signCols p).map fun c => c.getD i 0

/-- `abs(A).sum(0)` where column `j` of `A` is `np.dot(R.T, X[:, j])`: summed absolute correlation of regressor `j`
with the columns of `R` (mrsr.py:56,83). -/
def absCorr (R X : Mat K) (j : Nat) : K :=
  ((List.range R.cols).map fun t => |dot (R.col t) (X.col j)|).sum

/-- Result of `G[G>=0].min()` (mrsr.py:74,116) where `G = num / den` elementwise.  `num/0` is inf for `num > 0`
(kept by the comparison, larger than every number) and NaN or -inf otherwise (dropped).  `ValueError` when nothing is
left; `nonFinite` when only inf is left. -/
def minStep (G : List (K × K)) : Except PyErr K :=
  let fin := (G.filter fun p => p.2 ≠ 0 ∧ 0 ≤ p.1 / p.2).map fun p => p.1 / p.2
  match fin with
  | x :: xs => .ok (xs.foldl min x)
  | [] => if G.any (fun p => p.2 = 0 ∧ 0 < p.1) then .error .nonFinite else .error .valueError

/-- `(cmax + S.dot(A)) / (cmax + S.dot(B))` as numerator/denominator pairs, flattened (mrsr.py:73,110).
`A`, `B` are given by their columns (one column per remaining regressor). -/
def stepRatios (S : List (List K)) (cmax : K) (A B : List (List K)) : List (K × K) :=
  S.flatMap fun s => (A.zip B).map fun ab => (cmax + dot s ab.1, cmax + dot s ab.2)

/-- Loop state of `mrsr`: chosen regressors, remaining regressors, current estimate `Y`.
(`Xi1`, `Xi2` in the code are `X[:, i1]`, `X[:, i2]`.) -/
structure MrsrSt (K : Type) where
  i1 : List Nat
  i2 : List Nat
  Y : Mat K

/-- Correlation columns `np.dot(R.T, X[:, idx])`, one list per regressor (mrsr.py:55,72,82,108). -/
def corrCols (R X : Mat K) (idx : List Nat) : List (List K) :=
  idx.map fun j => (List.range R.cols).map fun t => dot (R.col t) (X.col j)

/-- Elementwise difference of arrays of equal shape. -/
def Mat.sub (A B : Mat K) : Mat K := Mat.ofFn A.nrows A.cols fun i j => A.get i j - B.get i j

/-- Elementwise `a*A + b*B`. -/
def Mat.comb (a : K) (A : Mat K) (b : K) (B : Mat K) : Mat K :=
  Mat.ofFn A.nrows A.cols fun i j => a * A.get i j + b * B.get i j

/-- One selection step of `mrsr` (mrsr.py:55-75 for the first step with `first = true`, mrsr.py:82-117 otherwise).
`last` is the test `k == kmax` (line 113), which the first step does not make. -/
def mrsrStep (env : Env K) (X T : Mat K) (S : List (List K)) (first last : Bool) (st : MrsrSt K) :
    Except PyErr (MrsrSt K) := do
  let R := T.sub st.Y
  let sums := st.i2.map (absCorr R X)
  if sums.isEmpty then .error .valueError              -- amax/argmax of an empty array
  let cind := argmax sums
  let cmax := sums.getD cind 0
  let ind := st.i2.getD cind 0
  let i2 := delAt st.i2 cind
  let i1 := st.i1 ++ [ind]
  let Xi1 := X.selCols i1
  let A := corrCols R X i2
  let Yols ← (if first then
      let xx := dot (X.col ind) (X.col ind)
      if xx = 0 then .error .nonFinite               -- invXX = 1/0
      else .ok (Xi1.mul (Mat.ofFn 1 T.cols fun _ t => 1 / xx * dot (X.col ind) (T.col t)))
    else
      let v3 := Xi1.tmul Xi1
      let invXX := (env.inv v3).getD (env.pinv v3)
      .ok (Xi1.mul (invXX.mul (Xi1.tmul T))))
  let B := corrCols (Yols.sub st.Y) X i2
  let G := stepRatios S cmax A B
  if last && !first then
    pure { i1, i2, Y := Yols }
  else do
    let g ← minStep G
    pure { i1, i2, Y := Mat.comb (1 - g) st.Y g Yols }

/-- Remaining steps `k = 2 .. kmax` of `mrsr` (mrsr.py:78-117). -/
def mrsrLoop (env : Env K) (X T : Mat K) (S : List (List K)) (kmax : Nat) :
    List Nat → MrsrSt K → Except PyErr (MrsrSt K)
  | [], st => .ok st
  | k :: ks, st => do
    let st ← mrsrStep env X T S false (k == kmax) st
    mrsrLoop env X T S kmax ks st

/-- `mrsr(X, T, kmax)` (mrsr.py:6-119).  The first step starts from `Y = 0`, so `T - Y = T` and
`(1-g)*Y + g*Yols = g*Yols`, as in lines 55 and 75. -/
def mrsr (env : Env K) (X T : Mat K) (kmax : Nat) : Except PyErr (List Nat) := do
  let m := X.cols
  let kmax := min kmax m
  let S := signTable T.cols
  let st ← mrsrStep env X T S true (1 == kmax)
    { i1 := [], i2 := List.range m, Y := Mat.zeros T.nrows T.cols }
  let st ← mrsrLoop env X T S kmax ((List.range (kmax + 1)).drop 2) st
  pure st.i1

/-- `np.linalg.norm(v, 2)` of a vector. -/
def norm2 (env : Env K) (v : List K) : K := env.sqrt (v.map fun a => a * a).sum

/-- The first step's maximisation loop (mrsr2.py:57-62): strictly larger correlation wins, start value -1. -/
def mrsr2First (c : Nat → K) : List Nat → K → Option Nat → Option Nat
  | [], _, jmax => jmax
  | j :: js, cmax, jmax => if cmax < c j then mrsr2First c js (c j) (some j) else mrsr2First c js cmax jmax

/-- The step length loop over candidate inputs (mrsr2.py:91-107): state `(y_min, j_min)`. -/
def mrsr2Search (env : Env K) (cmax : K) (p1 p2 : Nat → List K) : List Nat → K → Option Nat → K × Option Nat
  | [], y, jm => (y, jm)
  | j :: js, y, jm =>
    let f := fun (y : K) => (1 - y) * cmax - norm2 env (List.zipWith (fun a b => a - y * b) (p1 j) (p2 j))
    if f y < 0 then
      match env.brentq f (1 / 10 ^ 15) y with
      | some z => mrsr2Search env cmax p1 p2 js z (some j)
      | none => mrsr2Search env cmax p1 p2 js y jm
    else mrsr2Search env cmax p1 p2 js y jm

/-- Loop state of `mrsr2`. -/
structure Mrsr2St (K : Type) where
  rank : List Nat
  nonrank : List Nat
  Y : Mat K
  Yk1 : Mat K
  jcur : Nat
  jmin : Option Nat

/-- One iteration of `mrsr2` (mrsr2.py:53-132).  `W` is not modelled (it does not influence the ranking).
The Python variable `j_min` keeps its value between iterations (`jmin`). -/
def mrsr2Step (env : Env K) (X T : Mat K) (st : Mrsr2St K) : Except PyErr (Mrsr2St K) := do
  let c (R : Mat K) (j : Nat) : List K := (List.range R.cols).map fun t => dot (R.col t) (X.col j)
  let upd (st : Mrsr2St K) (ymin : K) : Mrsr2St K :=
    let X1 := X.selCols st.rank
    let Yk1 := X1.mul (env.luSolve (X1.tmul X1) (X1.tmul T))
    if st.rank.length > 1 then { st with Yk1, Y := Mat.comb (1 - ymin) st.Y ymin Yk1 } else { st with Yk1 }
  if st.rank.isEmpty then
    match mrsr2First (fun j => norm2 env (c T j)) st.nonrank (-1) none with
    | none => .error .nonFinite                       -- `j_max` unbound: no candidate or only NaN norms
    | some j => pure (upd { st with rank := st.rank ++ [j], nonrank := st.nonrank.erase j, jcur := j } 1)
  else if st.nonrank.isEmpty then
    pure (upd { st with Y := st.Yk1 } 1)
  else
    let Yk2 := st.Yk1.sub st.Y
    let T2 := T.sub st.Y
    let cmax := norm2 env (c T2 st.jcur)
    let r := mrsr2Search env cmax (c T2) (c Yk2) st.nonrank 1 st.jmin
    let jmin? := if r.1 = 1 then st.nonrank.getLast? else r.2
    match jmin? with
    | none => .error .nonFinite
    | some j =>
      if j ∈ st.nonrank then
        pure (upd { st with rank := st.rank ++ [j], nonrank := st.nonrank.erase j, jcur := j, jmin := some j } r.1)
      else .error .valueError                         -- nonrank.remove(j): not in list

/-- `kmax` iterations. -/
def mrsr2Loop (env : Env K) (X T : Mat K) : Nat → Mrsr2St K → Except PyErr (Mrsr2St K)
  | 0, st => .ok st
  | k + 1, st => do
    let st ← mrsr2Step env X T st
    mrsr2Loop env X T k st

/-- `mrsr2(X, T, kmax)` with the default `norm=2` (mrsr2.py:10-135). -/
def mrsr2 (env : Env K) (X T : Mat K) (kmax : Nat) : Except PyErr (List Nat) := do
  let kmax := min kmax X.nrows
  let Z := Mat.zeros T.nrows T.cols
  let st ← mrsr2Loop env X T kmax
    { rank := [], nonrank := List.range X.cols, Y := Z, Yk1 := Z, jcur := 0, jmin := none }
  pure st.rank

end Hpelm
