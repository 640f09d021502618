import Verif.Model.Failures
import Verif.Model.Hpelm

/-!
# Arrays as shared mutable objects

The rest of the model treats matrices as values.  NumPy arrays are objects: a method may keep a reference to an array the user
holds, hand out its own array, or change an array in place.  Here the methods of the network classes are written over a memory of
arrays, statement by statement: what is a new array, what is changed in place, and what is handed out.

Python frees arrays nobody refers to; the memory here only grows, which no program can observe.  Arrays of the GPU solver live in
the same memory, under addresses that are never handed out.  Arrays of the hidden neurons (`W`, `B` of a neuron type) stay values:
`ELM.add_neurons` copies them with `astype` (hpelm/elm.py:283-284) and no statement changes them in place.
-/

namespace Hpelm
variable {K : Type} [Field K] [LinearOrder K]

/-- Memory: contents of the arrays with addresses `0, …, next - 1`. -/
structure Heap (K : Type) where
  next : Nat
  cell : Nat → Mat K

/-- A new array with the given contents (the result of a NumPy expression, `astype`, `np.array`, `np.hstack`, …). -/
def Heap.alloc (h : Heap K) (M : Mat K) : Heap K :=
  { next := h.next + 1, cell := fun a => if a = h.next then M else h.cell a }

/-- In-place change of an array (`*=`, `+=`, `-=`, `fill_diagonal`). -/
def Heap.set (h : Heap K) (a : Nat) (M : Mat K) : Heap K :=
  { next := h.next, cell := fun b => if b = a then M else h.cell b }

/-- A network object (hpelm/nnets/slfn.py:43-57) whose attributes `HH`, `HT` and `B` are references; the fields `corr` and `B` of
`base` are not used. -/
structure RNet (K : Type) where
  base : NNet K
  corr : Option (Nat × Nat)
  B : Option Nat

/-- The network as a value: references replaced by the contents of the arrays. -/
def RNet.view (h : Heap K) (r : RNet K) : NNet K :=
  { r.base with corr := r.corr.map fun c => (h.cell c.1, h.cell c.2), B := r.B.map h.cell }

/-- Memory and network. -/
structure RState (K : Type) where
  heap : Heap K
  net : RNet K

/-- Before the first array exists. -/
def RState.start (n : NNet K) : RState K :=
  { heap := { next := 0, cell := fun _ => ⟨0, []⟩ }, net := { base := n, corr := none, B := none } }

/-- In-place `H *= w` (hpelm/nnets/slfn.py:153-154). -/
def Heap.scale (h : Heap K) (w : List K) (a : Nat) : Heap K × Except PyErr Unit :=
  match scaleRows w (h.cell a) with
  | .error x => (h, .error x)
  | .ok M => (h.set a M, .ok ())

/-- First half of `add_batch` (hpelm/nnets/slfn.py:148-154, slfn_python.py:35-40, slfn_skcuda.py:224-231): `H` is a new array
(`np.hstack` in `_project`, line 119), `T` is replaced by a copy (`astype`, on the GPU `np.array` and `to_gpu`), and the two new arrays are
multiplied in place by the square roots of the weights. -/
def RNet.batchArrays (env : Env K) (r : RNet K) (h : Heap K) (aX aT : Nat) (wc : Option (List K)) :
    Heap K × Except PyErr (Nat × Nat) :=
  match r.base.project env (h.cell aX) with
  | .error x => (h, .error x)
  | .ok H =>
    let aH := h.next
    let h1 := h.alloc H
    let aT' := h1.next
    let h2 := h1.alloc ((h1.cell aT).map (env.cast r.base.prec))
    match wc with
    | none => (h2, .ok (aH, aT'))
    | some wc =>
      let w := wc.map fun x => env.cast r.base.prec (env.sqrt x)
      match h2.scale w aH with
      | (h3, .error x) => (h3, .error x)
      | (h3, .ok ()) =>
        match h3.scale w aT' with
        | (h4, .error x) => (h4, .error x)
        | (h4, .ok ()) => (h4, .ok (aH, aT'))

/-- Creation of `HH` and `HT` when there are none (hpelm/nnets/slfn.py:156-159, slfn_python.py:42-45, slfn_skcuda.py:233-236). -/
def RState.ensureCorr (s : RState K) : RState K × (Nat × Nat) :=
  match s.net.corr with
  | some c => (s, c)
  | none =>
    let L := s.net.base.L.getD 0
    let aHH := s.heap.next
    let h1 := s.heap.alloc (Mat.zeros L L)
    let aHT := h1.next
    let h2 := h1.alloc (Mat.zeros L s.net.base.outputs)
    let h3 := h2.set aHH (Mat.diag L s.net.base.norm)
    ({ heap := h3, net := { s.net with corr := some (aHH, aHT) } }, (aHH, aHT))

/-- Update of `HH` by a batch `H`: in place for the basic solver (`self.HH += …`, hpelm/nnets/slfn.py:161) and on the GPU
(slfn_skcuda.py:240,242), a new array for the Python solver (`self.HH = self.syrk(…)`, slfn_python.py:48). -/
def RState.growHH (s : RState K) (c : Nat × Nat) (aH : Nat) : RState K :=
  let M := s.net.base.updHH (s.heap.cell c.1) (s.heap.cell aH)
  match s.net.base.solver with
  | .python => { heap := s.heap.alloc M, net := { s.net with corr := some (s.heap.next, c.2) } }
  | _ => { s with heap := s.heap.set c.1 M }

/-- Update of `HT`, in place for all solvers (hpelm/nnets/slfn.py:162, slfn_python.py:49, slfn_skcuda.py:238). -/
def RState.growHT (s : RState K) (aHT aH aT : Nat) : Option (RState K) :=
  if (s.heap.cell aH).nrows ≠ (s.heap.cell aT).nrows then none
  else match s.net.base.addHT (s.heap.cell aHT) ((s.heap.cell aH).tmul (s.heap.cell aT)) with
    | none => none
    | some M => some { s with heap := s.heap.set aHT M }

/-- `add_batch` (hpelm/nnets/slfn.py:137-162, slfn_python.py:32-49, slfn_skcuda.py:212-242), with the state after an exception.
`aX`, `aT` are the addresses of the arguments. -/
def RState.addBatch (env : Env K) (s : RState K) (aX aT : Nat) (wc : Option (List K)) : RState K × Except PyErr Unit :=
  match s.net.batchArrays env s.heap aX aT wc with
  | (h, .error x) => ({ s with heap := h }, .error x)
  | (h, .ok (aH, aT')) =>
    let (s1, c) := ({ s with heap := h } : RState K).ensureCorr
    if (s1.heap.cell aH).cols ≠ (s1.heap.cell c.1).cols then (s1, .error .valueError)
    else if s.net.base.solver = .cuda then
      match s1.growHT c.2 aH aT' with
      | none => (s1, .error .valueError)
      | some s2 => (s2.growHH c aH, .ok ())
    else
      let s2 := s1.growHH c aH
      match s2.growHT c.2 aH aT' with
      | none => (s2, .error .valueError)
      | some s3 => (s3, .ok ())

/-- `solve` (hpelm/nnets/slfn.py:164-180, slfn_python.py:51-66, slfn_skcuda.py:245-269): the solution is a new array; `posv` is called
without `overwrite` flags and works on copies. -/
def RState.solve (env : Env K) (s : RState K) : RState K × Except PyErr Unit :=
  match s.net.corr with
  | none => (s, .error .typeError)
  | some c => ({ heap := s.heap.alloc (s.net.base.solveCorr env (s.heap.cell c.1) (s.heap.cell c.2)),
                 net := { s.net with B := some s.heap.next } }, .ok ())

/-- `get_corr`: the basic solver hands out its own arrays (hpelm/nnets/slfn.py:218-221), the Python solver a new `HH` and its own
`HT` (slfn_python.py:69-73), the GPU solver copies (slfn_skcuda.py:311-321).  Result: addresses handed out; none = `(None, None)`. -/
def RState.getCorr (s : RState K) : RState K × Except PyErr (List Nat) :=
  match s.net.base.solver, s.net.corr with
  | .basic, none => (s, .ok [])
  | .basic, some c => (s, .ok [c.1, c.2])
  | .python, none => (s, .error .typeError)
  | .python, some c =>
    ({ s with heap := s.heap.alloc ((s.heap.cell c.1).add (triu1T (s.heap.cell c.1))) }, .ok [s.heap.next, c.2])
  | .cuda, none => (s, .ok [])
  | .cuda, some c =>
    let h1 := s.heap.alloc ((triu (s.heap.cell c.1)).add (triu1T (s.heap.cell c.1)))
    ({ s with heap := h1.alloc (s.heap.cell c.2) }, .ok [s.heap.next, h1.next])

/-- `set_corr` (hpelm/nnets/slfn.py:223-237, slfn_skcuda.py:323-337): the arguments are copied (`astype`). -/
def RState.setCorr (env : Env K) (s : RState K) (aHH aHT : Nat) : RState K × Except PyErr Unit :=
  match s.net.base.setCorr env (s.heap.cell aHH) (s.heap.cell aHT) with
  | .error x => (s, .error x)
  | .ok _ =>
    let h1 := s.heap.alloc ((s.heap.cell aHH).map (env.cast s.net.base.prec))
    ({ heap := h1.alloc ((s.heap.cell aHT).map (env.cast s.net.base.prec)),
       net := { s.net with corr := some (s.heap.next, h1.next) } }, .ok ())

/-- `get_B`: a reference (hpelm/nnets/slfn.py:201-204), on the GPU a copy (slfn_skcuda.py:292-299). -/
def RState.getB (s : RState K) : RState K × Except PyErr (List Nat) :=
  match s.net.B with
  | none => (s, .ok [])
  | some b =>
    match s.net.base.solver with
    | .cuda => ({ s with heap := s.heap.alloc (s.heap.cell b) }, .ok [s.heap.next])
    | _ => (s, .ok [b])

/-- `set_B` (hpelm/nnets/slfn.py:206-216, slfn_skcuda.py:301-309): the argument is copied (`astype`). -/
def RState.setB (env : Env K) (s : RState K) (aB : Nat) : RState K × Except PyErr Unit :=
  match s.net.base.setB env (s.heap.cell aB) with
  | .error x => (s, .error x)
  | .ok _ => ({ heap := s.heap.alloc ((s.heap.cell aB).map (env.cast s.net.base.prec)),
                net := { s.net with B := some s.heap.next } }, .ok ())

/-- `_project` (hpelm/nnets/slfn.py:107-119): `np.hstack` creates a new array. -/
def RState.project (env : Env K) (s : RState K) (aX : Nat) : RState K × Except PyErr (List Nat) :=
  match s.net.base.project env (s.heap.cell aX) with
  | .error x => (s, .error x)
  | .ok H => ({ s with heap := s.heap.alloc H }, .ok [s.heap.next])

/-- `_predict` (hpelm/nnets/slfn.py:121-135): `np.dot` creates a new array. -/
def RState.predict (env : Env K) (s : RState K) (aX : Nat) : RState K × Except PyErr (List Nat) :=
  match s.net.B with
  | none => (s, .error .assertion)
  | some b =>
    match s.net.base.project env (s.heap.cell aX) with
    | .error x => (s, .error x)
    | .ok H =>
      let aH := s.heap.next
      let h1 := s.heap.alloc H
      if (h1.cell aH).cols ≠ (h1.cell b).nrows then ({ s with heap := h1 }, .error .valueError)
      else ({ s with heap := h1.alloc ((h1.cell aH).mul (h1.cell b)) }, .ok [h1.next])

/-- `HPELM.add_data` with files, last step (hpelm/hp_elm.py:168-170, 555-557): `HH[diag] -= norm` changes in place the array that
`get_corr` handed out.  Result: the two arrays given to the file writer. -/
def RState.storeCorr (s : RState K) : RState K × Except PyErr (List Nat) :=
  match s.getCorr with
  | (s1, .ok [a, b]) => ({ s1 with heap := s1.heap.set a (subDiag (s1.heap.cell a) s.net.base.norm) }, .ok [a, b])
  | (s1, .ok _) => (s1, .error .typeError)
  | (s1, .error x) => (s1, .error x)

/-- What a program does: the user creates an array, the user changes an array in place, or a method of the network is called. -/
inductive ArrOp (K : Type)
  | create (M : Mat K)
  | write (a : Nat) (M : Mat K)
  | addNeurons (number : Nat) (func : Func) (W : List (List K)) (B : List K)
  | prune (idx : List Nat)
  | reset
  | addBatch (aX aT : Nat) (wc : Option (List K))
  | solve
  | getCorr
  | setCorr (aHH aHT : Nat)
  | getB
  | setB (aB : Nat)
  | project (aX : Nat)
  | predict (aX : Nat)
  | storeCorr

/-- Outcome of a method that hands out nothing. -/
def noArrays : RState K × Except PyErr Unit → RState K × Except PyErr (List Nat)
  | (s, .ok ()) => (s, .ok [])
  | (s, .error x) => (s, .error x)

/-- One step of a program; result: the arrays handed to the user. -/
def RState.step (env : Env K) (s : RState K) : ArrOp K → RState K × Except PyErr (List Nat)
  | .create M => ({ s with heap := s.heap.alloc M }, .ok [s.heap.next])
  | .write a M => ({ s with heap := s.heap.set a M }, .ok [])
  | .addNeurons number func W B =>
    ({ s with net := { base := s.net.base.addNeurons number func W B, corr := none, B := none } }, .ok [])
  | .prune idx => ({ s with net := { base := s.net.base.prune idx, corr := none, B := none } }, .ok [])
  | .reset => ({ s with net := { s.net with base := s.net.base.reset, corr := none } }, .ok [])
  | .addBatch aX aT wc => noArrays (s.addBatch env aX aT wc)
  | .solve => noArrays (s.solve env)
  | .getCorr => s.getCorr
  | .setCorr aHH aHT => noArrays (s.setCorr env aHH aHT)
  | .getB => s.getB
  | .setB aB => noArrays (s.setB env aB)
  | .project aX => s.project env aX
  | .predict aX => s.predict env aX
  | .storeCorr => s.storeCorr

/-- A whole program; exceptions are caught and the program goes on. -/
def RState.run (env : Env K) (s : RState K) (ops : List (ArrOp K)) : RState K := ops.foldl (fun s op => (s.step env op).1) s

end Hpelm
