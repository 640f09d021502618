import Verif.Model.Slfn

/-!
# Model of the projection of hpelm/nnets/slfn_skcuda.py: the sigmoid kernel and the block-wise assembly of `devH`

Device memory is a function from addresses (in units of one number) to values.  The threads of a kernel run in any order and
may be interrupted between reading and writing; there is no barrier in the kernel.  Simplification: the other GPU functions
(`linalg.dot`, `add_matvec`, `cumath.tanh`, and the radial basis functions, which are computed on the host) are library calls
and are modelled by their result.
-/

namespace Hpelm
variable {K : Type}

/-- Device memory, and the register of each thread (`none` before the thread has read its number). -/
structure KState (K : Type) where
  mem : Nat → K
  reg : Nat → Option K

/-- One launch of the sigmoid kernel: device memory at that moment, address of the array, threads per block and the order in
which the threads take their steps. -/
structure Launch (K : Type) where
  mem : Nat → K
  base : Nat
  block : Nat
  sched : List Nat

/-- `grid = int(np.ceil(1.0 * np.prod(devH.shape) / block[0]))` (hpelm/nnets/slfn_skcuda.py:90). -/
def gridSize (size block : Nat) : Nat := (size + block - 1) / block

section
variable [Field K] [LinearOrder K]

/-- One step of thread `t` of the kernel `dev_sigm` (hpelm/nnets/slfn_skcuda.py:53-56): first read `a[idx]`, then write
`1.0 / (exp(a[idx]) + 1)`.  There is no check of `idx` against the size of the array. -/
def sigmStep (env : Env K) (base : Nat) (s : KState K) (t : Nat) : KState K :=
  match s.reg t with
  | none => { s with reg := fun u => if u = t then some (s.mem (base + t)) else s.reg u }
  | some v => { s with mem := fun a => if a = base + t then 1 / (env.exp v + 1) else s.mem a }

/-- `dev_sigm.prepared_call(grid, block, devH.gpudata)` (hpelm/nnets/slfn_skcuda.py:91): memory afterwards. -/
def runSigm (env : Env K) (base : Nat) (sched : List Nat) (mem : Nat → K) : Nat → K :=
  (sched.foldl (sigmStep env base) ⟨mem, fun _ => none⟩).mem

/-- Array `A` (row-major) stored in device memory at `base`. -/
def putMat (mem : Nat → K) (base : Nat) (A : Mat K) : Nat → K :=
  fun a => if base ≤ a ∧ a < base + A.nrows * A.cols then A.get ((a - base) / A.cols) ((a - base) % A.cols) else mem a

/-- Read an array back from device memory. -/
def getMat (mem : Nat → K) (base r c : Nat) : Mat K := Mat.ofFn r c fun i j => mem (base + (i * c + j))

/-- `_dev_sigm` (hpelm/nnets/slfn_skcuda.py:79-92): returns the array and the device memory. -/
def devSigm (env : Env K) (l : Launch K) (A : Mat K) : Mat K × (Nat → K) :=
  let mem := runSigm env l.base l.sched (putMat l.mem l.base A)
  (getMat mem l.base A.nrows A.cols, mem)

/-- `self.func[ftype](devX, devW, devB)` (hpelm/nnets/slfn_skcuda.py:65-127, 183): sigmoid neurons apply the kernel to the
linear output, the others are library calls. -/
def gpuApply (env : Env K) (l : Launch K) (X : Mat K) (g : Group K) : Except PyErr (Mat K) :=
  if g.func = .name "sigm" then do
    let A ← applyGroup env X { g with func := .name "lin" }
    pure (devSigm env l A).1
  else applyGroup env X g

/-- The loop of `_project` (hpelm/nnets/slfn_skcuda.py:181-184): `devH[:, i:i+nn] = ...`; assigning an array of another
shape raises `ValueError`.  `ls k` is the kernel launch for the neuron type number `k`, if it has one. -/
def gpuLoop (env : Env K) (ls : Nat → Launch K) (X : Mat K) : List (Group K) → Nat → Nat → (Nat → Nat → K) →
    Except PyErr (Nat → Nat → K)
  | [], _, _, H => .ok H
  | g :: gs, k, i, H => do
    let R ← gpuApply env (ls k) X g
    if R.cols ≠ g.number then .error .valueError
    gpuLoop env ls X gs (k + 1) (i + g.number)
      (fun r c => if i ≤ c ∧ c < i + g.number then R.get r (c - i) else H r c)

/-- `SLFNSkCUDA._project` (hpelm/nnets/slfn_skcuda.py:165-187).  `junk` is what `gpuarray.empty` (line 180) happens to
contain.  `self.L` is `None` before the first neurons: `gpuarray.empty` raises `TypeError`. -/
def NNet.projectGpu (env : Env K) (junk : Nat → Nat → K) (ls : Nat → Launch K) (n : NNet K) (X : Mat K) :
    Except PyErr (Mat K) :=
  match n.L with
  | none => .error .typeError
  | some L => do
    let X : Mat K := X.map (env.cast n.prec)
    if X.cols ≠ n.inputs then .error .valueError
    let H ← gpuLoop env ls X n.neurons 0 0 junk
    pure (Mat.ofFn X.nrows L H)

/-- `cublasSsyrk(handle, 'L', 'N', n, k, 1, aPtr, lda, 1, cPtr, ldc)`: `C := A Aᵀ + C` for the column-major arrays `A` (`n × k`, leading
dimension `lda`, at `aPtr`) and `C` (`n × n`, leading dimension `ldc`, at `cPtr`), where only the lower triangle of `C` is written.  Device
memory afterwards.  The entry `(i, j)` of a column-major array with leading dimension `ld` is stored at `ptr + i + j * ld`. -/
def cublasSyrk (n k aPtr lda cPtr ldc : Nat) (mem : Nat → K) : Nat → K := fun a =>
  let i := (a - cPtr) % ldc
  let j := (a - cPtr) / ldc
  if cPtr ≤ a ∧ i < n ∧ j < n ∧ j ≤ i then
    mem a + ((List.range k).map fun p => mem (aPtr + i + p * lda) * mem (aPtr + j + p * lda)).sum
  else mem a

/-- `misc.mult_matvec(devM, devWC, axis=0, out=devM)` (hpelm/nnets/slfn_skcuda.py:230-231): row `i` is multiplied by the weight `i`; there must
be one weight per row. -/
def multMatvec (w : List K) (M : Mat K) : Except PyErr (Mat K) :=
  if w.length = M.nrows then .ok ⟨M.cols, List.zipWith (fun c r => r.map (c * ·)) w M.rows⟩ else .error .valueError

/-- Update of `HH` on the GPU (hpelm/nnets/slfn_skcuda.py:239-242): `linalg.add_dot` in double precision; in single precision `cublasSsyrk` on
the row-major arrays `devH` (at `hPtr`) and `HH` (at `cPtr`), passed as if they were column-major. -/
def gpuUpdHH (prec : Prec) (mem : Nat → K) (hPtr cPtr L : Nat) (HH H : Mat K) : Mat K :=
  match prec with
  | .double => HH.add (H.tmul H)
  | .single => getMat (cublasSyrk L H.nrows hPtr L cPtr L (putMat (putMat mem cPtr HH) hPtr H)) cPtr L L

/-- `SLFNSkCUDA.add_batch` (hpelm/nnets/slfn_skcuda.py:212-242).  `junk`, `ls`: as in `projectGpu`; `mem`, `hPtr`, `cPtr`: device memory and the
addresses of `devH` and `HH` in it.  Simplification: `HH` and `HT` are kept as matrices between two calls. -/
def NNet.addBatchGpu (env : Env K) (junk : Nat → Nat → K) (ls : Nat → Launch K) (mem : Nat → K) (hPtr cPtr : Nat) (n : NNet K) (X T : Mat K)
    (wc : Option (List K)) : Except PyErr (NNet K) := do
  let H ← n.projectGpu env junk ls X
  let T := T.map (env.cast n.prec)
  let (H, T) ← match wc with
    | none => pure (H, T)
    | some wc => do
      let w := wc.map fun x => env.cast n.prec (env.sqrt x)
      pure (← multMatvec w H, ← multMatvec w T)
  let L := n.L.getD 0
  let (HH, HT) := match n.corr with
    | none => ((Mat.diag L 1).map (n.norm * ·), Mat.zeros L n.outputs)
    | some c => c
  if H.nrows ≠ T.nrows ∨ T.cols ≠ n.outputs then .error .valueError
  if H.cols ≠ HH.cols then .error .valueError
  pure { n with corr := some (gpuUpdHH n.prec mem hPtr cPtr L HH H, HT.add (H.tmul T)) }

end
end Hpelm
