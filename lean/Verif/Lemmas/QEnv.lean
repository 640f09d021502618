import Verif.Model.Env
import Mathlib.Data.Rat.Defs
import Mathlib.Algebra.Order.Ring.Rat
import Mathlib.Algebra.Field.Rat

/-!
# A computable environment over ℚ

Used only in the examples and counterexamples: linear algebra is exact (Gauss-Jordan elimination), `sqrt` is exact on 0,
1, 4, 9 and a crude approximation elsewhere, `exp` and `tanh` are simple rational stand-ins.  No theorem about all
environments depends on it.
-/

namespace Hpelm.QEnv

/-- Gauss-Jordan elimination of the columns `k, k+1, …, k+m-1` of an augmented matrix. -/
def elim : Nat → Nat → List (List ℚ) → Option (List (List ℚ))
  | 0, _, A => some A
  | m + 1, k, A =>
    match (List.range A.length).find? fun i => decide (k ≤ i) && decide ((A.getD i []).getD k 0 ≠ 0) with
    | none => none
    | some p =>
      let rp := A.getD p []
      let rk := A.getD k []
      let A := (A.set p rk).set k (rp.map (· / rp.getD k 0))
      let r := A.getD k []
      let A := (List.range A.length).map fun i =>
        let ri := A.getD i []
        if i = k then ri else List.zipWith (fun x y => x - ri.getD k 0 * y) ri r
      elim m (k + 1) A

def solve (A b : Mat ℚ) : Option (Mat ℚ) :=
  (elim A.nrows 0 (List.zipWith (· ++ ·) A.rows b.rows)).map fun R => ⟨b.cols, R.map (List.drop A.cols)⟩

def symm (A : Mat ℚ) : Mat ℚ := Mat.ofFn A.nrows A.cols fun i j => if i ≤ j then A.get i j else A.get j i

/-- All leading principal minors are non-zero with positive pivots (elimination without row exchanges). -/
def pivotsPos : Nat → List (List ℚ) → Bool
  | 0, _ => true
  | m + 1, A =>
    match A with
    | [] => true
    | r :: rs =>
      match r with
      | [] => true
      | p :: ps => decide (0 < p) && pivotsPos m (rs.map fun s => List.zipWith (fun x y => x - s.getD 0 0 / p * y) (s.drop 1) ps)

def sqrt (x : ℚ) : ℚ := if x = 0 then 0 else if x = 1 then 1 else if x = 4 then 2 else if x = 9 then 3 else (x + 1) / 2

def env : Env ℚ where
  exp := fun x => if x ≤ 0 then 1 / (1 - x) else 1 + x
  tanh := fun x => x / (1 + |x|)
  sqrt := sqrt
  cast := fun _ x => x
  eps := fun _ => 1 / 100
  posv := fun A b =>
    let S := symm A
    if pivotsPos A.nrows S.rows then ((solve S b).getD (Mat.zeros A.cols b.cols), 0) else (Mat.zeros A.cols b.cols, 1)
  pinv := fun A => (solve A (Mat.diag A.nrows 1)).getD (Mat.zeros A.cols A.nrows)
  lstsq := fun A b => (solve A b).getD (Mat.zeros A.cols b.cols)
  inv := fun A => solve A (Mat.diag A.nrows 1)
  luSolve := fun A b => (solve A b).getD (Mat.zeros A.cols b.cols)
  brentq := fun _ a _ => some a

example : solve ⟨2, [[2, 1], [1, 1]]⟩ ⟨1, [[3], [2]]⟩ = some ⟨1, [[1], [1]]⟩ := by decide +kernel
example : env.posv ⟨2, [[2, 1], [0, 1]]⟩ ⟨1, [[3], [2]]⟩ = (⟨1, [[1], [1]]⟩, 0) := by decide +kernel
example : (env.posv ⟨2, [[1, 1], [0, 1]]⟩ ⟨1, [[3], [2]]⟩).2 = 1 := by decide +kernel

end Hpelm.QEnv
