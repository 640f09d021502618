import Verif.Model.Basic

/-!
# The "MYOPT" neuron-count search

The same loop occurs three times in the code: hpelm/mss_v.py:41-77 (start `iA = 1`), hpelm/mss_loo.py:46-88
(`iA = 1`) and hpelm/mss_cv.py:70-110 (`iA = 3`).  Line numbers below are of mss_v.py.
-/

namespace Hpelm
variable {K : Type} [Field K] [LinearOrder K]

/-- The five interval points.  Python integers. -/
structure Iv where
  A : Int
  B : Int
  C : Int
  D : Int
  E : Int
  deriving DecidableEq, Repr

/-- `[iA, iB, iC, iD, iE]` -/
def Iv.points (v : Iv) : List Int := [v.A, v.B, v.C, v.D, v.E]

/-- Initial interval (lines 42-47).  Lean's `/` on `Int` with a positive literal divisor is Python's `//`. -/
def Iv.init (lo hi : Int) : Iv :=
  let l := hi - lo
  { A := lo, B := lo + l / 4, C := lo + l / 2, D := lo + 3 * l / 4, E := hi }

/-- The recomputation of `l`, `iB`, `iD` at the end of the loop body (lines 73-75). -/
def Iv.redo (A C E : Int) : Iv :=
  let l := E - A
  { A, B := A + l / 4, C, D := A + 3 * l / 4, E }

/-- `e[idx]` with Python's `IndexError`; negative indices do not occur (C31). -/
def errAt (e : List K) (idx : Int) : Except PyErr K :=
  if idx < 0 then .error .indexError
  else match e[idx.toNat]? with
    | some v => .ok v
    | none => .error .indexError

/-- Lines 52-59: evaluate the error at the points where it is still the sentinel -1. -/
def evalPoints (score : Nat → Except PyErr K) : List Int → List K → Except PyErr (List K)
  | [], e => .ok e
  | idx :: rest, e => do
    let v ← errAt e idx
    if v = -1 then do
      let s ← score idx.toNat
      evalPoints score rest (e.set idx.toNat s)
    else evalPoints score rest e

/-- One pass of the `while` body (lines 52-75): evaluate, find the minimum `m`, halve the interval. -/
def myoptStep (score : Nat → Except PyErr K) (v : Iv) (e : List K) : Except PyErr (Iv × List K × K) := do
  let e ← evalPoints score v.points e
  let eA ← errAt e v.A
  let eB ← errAt e v.B
  let eC ← errAt e v.C
  let eD ← errAt e v.D
  let eE ← errAt e v.E
  let m := min (min (min (min eA eB) eC) eD) eE
  if m = eA ∨ m = eB then pure (Iv.redo v.A v.B v.C, e, m)
  else if m = eD ∨ m = eE then pure (Iv.redo v.C v.D v.E, e, m)
  else pure (Iv.redo v.B v.C v.D, e, m)

/-- The `while l > 2` loop, entered at least once (lines 49-75).  `none` = the fuel ran out. -/
def myoptLoop (score : Nat → Except PyErr K) : Nat → Iv → List K → Except PyErr (Option (Iv × List K × K))
  | 0, _, _ => .ok none
  | fuel + 1, v, e => do
    let r ← myoptStep score v e
    if r.1.E - r.1.A > 2 then myoptLoop score fuel r.1 r.2.1 else pure (some r)

/-- Line 77: `[n1 for n1 in [iA, iB, iC, iD, iE] if e[n1] == m][0]`. -/
def pickOpt (e : List K) (m : K) : List Int → Except PyErr Nat
  | [] => .error .indexError
  | n :: ns => do
    let v ← errAt e n
    if v = m then pure n.toNat else pickOpt e m ns

/-- The whole search (lines 41-77): `lo` is the start value of `iA`, `hi` the number of (ranked) neurons, `e` the error
array prepared by the caller.  Returns the selected size and the final error array. -/
def myopt (lo hi : Int) (e : List K) (score : Nat → Except PyErr K) : Except PyErr (Nat × List K) := do
  let r ← myoptLoop score (3 * (hi - lo).toNat + 4) (Iv.init lo hi) e
  match r with
  | none => .error .nonTermination
  | some (v, e, m) => do
    let k ← pickOpt e m v.points
    pure (k, e)

end Hpelm
