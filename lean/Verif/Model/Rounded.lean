import Verif.Model.Slfn

/-!
# Rounded arithmetic

The other model files compute exactly.  Here the accumulation of training data, prediction and the mean squared error
are modelled with rounding: every elementary operation is followed by the rounding `env.cast prec` of the working
precision, and sums are formed in an order that is not known (BLAS and NumPy block, vectorise and parallelise sums and
may fuse a product with the following addition).  The results are therefore relations, not functions.

Simplifications: no overflow (results are numbers), the hidden layer outputs are taken as they were computed, whatever the
rounding errors of the neuron functions.
-/

namespace Hpelm
variable {K : Type}

/-- A term of a sum computed by a library: a stored number or a product of two stored numbers. -/
inductive Term (K : Type)
  | val (x : K)
  | prod (x y : K)

/-- The exact value of a term. -/
def Term.value [Mul K] : Term K → K
  | .val x => x
  | .prod x y => x * y

section
variable [Field K] [LinearOrder K]

/-- `Sums r l v`: a library routine may return `v` as the sum of the terms `l` (`np.dot`, BLAS `gemm` and `syrk`, in-place
`+=`, `np.mean`; hpelm/nnets/slfn.py:134,161-162, slfn_python.py:48-49).  Terms are added in any order and any
association; every addition and every product is rounded by `r`, a product followed by an addition may be rounded once. -/
inductive Sums (r : K → K) : List (Term K) → K → Prop
  | val (x) : Sums r [.val x] x
  | prod (x y) : Sums r [.prod x y] (r (x * y))
  | add {l l₁ l₂ a b} : Sums r l₁ a → Sums r l₂ b → l.Perm (l₁ ++ l₂) → Sums r l (r (a + b))
  | fma {l l₁ a} (x y) : Sums r l₁ a → l.Perm (.prod x y :: l₁) → Sums r l (r (a + x * y))

/-- The entries of `HH` that a batch updates: all of them (basic solver and double precision on the GPU) or those of the
upper triangle (hpelm/nnets/slfn.py:161, slfn_python.py:48, slfn_skcuda.py:239-242). -/
def NNet.updates (n : NNet K) (i j : Nat) : Prop :=
  match n.solver, n.prec with
  | .basic, _ => True
  | .python, _ => i ≤ j
  | .cuda, .double => True
  | .cuda, .single => i ≤ j

/-- The products added to the entry `(i, j)` of `A.T @ B`, one for every row. -/
def products (A B : Mat K) (i j : Nat) : List (Term K) :=
  (A.rows.zip B.rows).map fun p => .prod (p.1.getD i 0) (p.2.getD j 0)

/-- Weights applied with rounding: `H *= w; T *= w` (hpelm/nnets/slfn.py:150-154). -/
def weightedR (env : Env K) (prec : Prec) (wc : Option (List K)) (H T : Mat K) : Except PyErr (Mat K × Mat K) :=
  match wc with
  | none => .ok (H, T)
  | some _ => do
    let (H, T) ← weighted env prec wc H T
    pure (H.map (env.cast prec), T.map (env.cast prec))

/-- `add_batch` with rounding, from the computed hidden layer output `H` on (hpelm/nnets/slfn.py:148-162,
slfn_python.py:35-49, slfn_skcuda.py:212-242): weights, initialisation of `HH` and `HT`, and for every updated entry
a sum of the old entry and the products of the batch. -/
def NNet.AddBatchR (env : Env K) (n : NNet K) (H T : Mat K) (wc : Option (List K)) (n' : NNet K) : Prop :=
  ∃ H' T' HH HT HH' HT',
    weightedR env n.prec wc H (T.map (env.cast n.prec)) = .ok (H', T') ∧
    H'.nrows = T'.nrows ∧ T'.cols = n.outputs ∧
    (HH, HT) = n.corr.getD (Mat.diag (n.L.getD 0) n.norm, Mat.zeros (n.L.getD 0) n.outputs) ∧
    H'.cols = HH.cols ∧
    n' = { n with corr := some (HH', HT') } ∧
    (HH'.WF ∧ HH'.nrows = HH.nrows ∧ HH'.cols = HH.cols) ∧ (HT'.WF ∧ HT'.nrows = HT.nrows ∧ HT'.cols = HT.cols) ∧
    (∀ i < HH.nrows, ∀ j < HH.cols,
      (n.updates i j → Sums (env.cast n.prec) (.val (HH.get i j) :: products H' H' i j) (HH'.get i j)) ∧
      (¬ n.updates i j → HH'.get i j = HH.get i j)) ∧
    (∀ i < HT.nrows, ∀ j < HT.cols,
      Sums (env.cast n.prec) (.val (HT.get i j) :: products H' T' i j) (HT'.get i j))

/-- A batch as it reaches the accumulation: computed hidden layer output, targets, weights. -/
structure HBatch (K : Type) where
  H : Mat K
  T : Mat K
  wc : Option (List K)

/-- The batches of one or more `add_data` calls, one after another (hpelm/elm.py:229-239). -/
inductive NNet.FeedR (env : Env K) : NNet K → List (HBatch K) → NNet K → Prop
  | nil (n) : FeedR env n [] n
  | cons {n n' n'' b bs} : n.AddBatchR env b.H b.T b.wc n' → FeedR env n' bs n'' → FeedR env n (b :: bs) n''

/-- `get_corr` with rounding: the additions that complete the triangle are rounded as well (hpelm/nnets/slfn.py:218-221,
slfn_python.py:69-73, slfn_skcuda.py:311-321); nothing accumulated: nothing returned. -/
def NNet.getCorrR (env : Env K) (n : NNet K) : Option (Mat K × Mat K) :=
  n.corr.map fun c =>
    match n.solver with
    | .basic => c
    | .python => ((c.1.add (triu1T c.1)).map (env.cast n.prec), c.2)
    | .cuda => (((triu c.1).add (triu1T c.1)).map (env.cast n.prec), c.2)

/-- `np.dot(H, B)` with rounding: the last step of `_predict` (hpelm/nnets/slfn.py:134). -/
def NNet.PredictR (env : Env K) (n : NNet K) (H Y : Mat K) : Prop :=
  ∃ B, n.B = some B ∧ H.cols = B.nrows ∧ Y.WF ∧ Y.nrows = H.nrows ∧ Y.cols = B.cols ∧
    ∀ i < H.nrows, ∀ j < B.cols, 0 < B.nrows →
      Sums (env.cast n.prec) ((List.range B.nrows).map fun k => .prod (H.get i k) (B.get k j)) (Y.get i j)

/-- `np.mean((Y - T)**2)` with rounding `r` (hpelm/elm.py:482 and 494): differences, squares, their sum in any order, and the
division by their number. -/
def MseR (r : K → K) (T Y : Mat K) (e : K) : Prop :=
  ∃ s, Sums r (((T.rows.zip Y.rows).map fun p =>
      List.zipWith (fun t y => Term.prod (r (y - t)) (r (y - t))) p.1 p.2).flatten) s ∧
    e = r (s / ((T.nrows * T.cols : Nat) : K))

end
end Hpelm
