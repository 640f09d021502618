import Verif.Model.Heap

/-!
# Specification: programs that share arrays with the model

`Spec.valueCall` says what each method call does when all matrices are values (the model used everywhere else).
-/

namespace Hpelm.Spec
open Hpelm
variable {K : Type} [Field K] [LinearOrder K]

/-- Addresses of the arrays a step refers to. -/
def uses : ArrOp K → List Nat
  | .write a _ => [a]
  | .addBatch aX aT _ => [aX, aT]
  | .setCorr aHH aHT => [aHH, aHT]
  | .setB aB => [aB]
  | .project aX => [aX]
  | .predict aX => [aX]
  | _ => []

/-- The step is the user writing into the array `a`. -/
def Writes (a : Nat) : ArrOp K → Prop
  | .write b _ => a = b
  | _ => False

/-- The model holds the array `a`: it is its `HH`, `HT` or `B`. -/
def Keeps (r : RNet K) (a : Nat) : Prop := (∃ c, r.corr = some c ∧ (a = c.1 ∨ a = c.2)) ∨ r.B = some a

/-- The model accumulates data in the array `a`: it is its `HH` or `HT`. -/
def Accumulates (r : RNet K) (a : Nat) : Prop := ∃ c, r.corr = some c ∧ (a = c.1 ∨ a = c.2)

/-- A program only uses arrays that exist: every address it mentions was created by it or handed to it before. -/
inductive Valid (env : Env K) : RState K → List (ArrOp K) → Prop
  | nil (s) : Valid env s []
  | cons (s op ops) : (∀ a ∈ uses op, a < s.heap.next) → Valid env (s.step env op).1 ops → Valid env s (op :: ops)

/-- A program never writes into an array the model holds at that time. -/
inductive Polite (env : Env K) : RState K → List (ArrOp K) → Prop
  | nil (s) : Polite env s []
  | cons (s op ops) : (∀ a, Writes a op → ¬ Keeps s.net a) → Polite env (s.step env op).1 ops → Polite env s (op :: ops)

/-- A call on values: `cell` gives the contents of the arguments; result: the new network and the returned matrices. -/
def valueCall (env : Env K) (cell : Nat → Mat K) (n : NNet K) : ArrOp K → NNet K × Except PyErr (List (Mat K))
  | .create M => (n, .ok [M])
  | .write _ _ => (n, .ok [])
  | .addNeurons number func W B => (n.addNeurons number func W B, .ok [])
  | .prune idx => (n.prune idx, .ok [])
  | .reset => (n.reset, .ok [])
  | .addBatch aX aT wc => ((n.addBatchS env (cell aX) (cell aT) wc).1, (n.addBatchS env (cell aX) (cell aT) wc).2.map fun _ => [])
  | .solve => match n.solve env with
    | .ok n' => (n', .ok [])
    | .error x => (n, .error x)
  | .getCorr => (n, n.getCorr.map fun r => match r with
    | none => []
    | some c => [c.1, c.2])
  | .setCorr aHH aHT => match n.setCorr env (cell aHH) (cell aHT) with
    | .ok n' => (n', .ok [])
    | .error x => (n, .error x)
  | .getB => (n, .ok n.getB.toList)
  | .setB aB => match n.setB env (cell aB) with
    | .ok n' => (n', .ok [])
    | .error x => (n, .error x)
  | .project aX => (n, (n.project env (cell aX)).map fun H => [H])
  | .predict aX => (n, (n.predict env (cell aX)).map fun Y => [Y])
  | .storeCorr => match n.getCorr with
    | .error x => (n, .error x)
    | .ok none => (n, .error .typeError)
    | .ok (some c) =>
      (if n.solver = .basic then { n with corr := some (subDiag c.1 n.norm, c.2) } else n, .ok [subDiag c.1 n.norm, c.2])

/-- The network after a program, when all matrices are values and arguments have the contents they have at the time of the call. -/
def valueRun (env : Env K) : RState K → NNet K → List (ArrOp K) → NNet K
  | _, n, [] => n
  | s, n, op :: ops => valueRun env (s.step env op).1 (valueCall env s.heap.cell n op).1 ops

/-- What the user last wrote into the array `a`, whose contents were `M` before the steps. -/
def lastWritten (a : Nat) (M : Mat K) (ops : List (ArrOp K)) : Mat K :=
  ops.foldl (fun M op => match op with
    | .write b N => if b = a then N else M
    | _ => M) M

/-- Arrays a step hands to the user that are not arrays of the model: what the user creates, hidden layer outputs, predictions, and
everything the GPU solver hands out. -/
def handsFresh (env : Env K) (s : RState K) (op : ArrOp K) : List Nat :=
  let given := match (s.step env op).2 with
    | .ok l => l
    | .error _ => []
  match op with
  | .create _ | .project _ | .predict _ => given
  | .getCorr | .getB | .storeCorr => if s.net.base.solver = .cuda then given else []
  | _ => []

/-- A program that only writes into arrays of its own: `mine` are the arrays it created or got as results so far. -/
inductive OwnWrites (env : Env K) : RState K → List Nat → List (ArrOp K) → Prop
  | nil (s mine) : OwnWrites env s mine []
  | cons (s mine op ops) : (∀ a, Writes a op → a ∈ mine) → OwnWrites env (s.step env op).1 (handsFresh env s op ++ mine) ops →
      OwnWrites env s mine (op :: ops)

end Hpelm.Spec
