import Verif.Model.Env

/-!
# Specification: what is assumed of the external numeric routines

Hypotheses of theorems, never axioms.  `Verif/Lemmas/LawEnv.lean` constructs, over every ordered field, an environment that
satisfies all of them.
-/

namespace Hpelm.Spec
variable {K : Type} [Field K] [LinearOrder K]

/-- `x` is a solution array of `A x = b` in shape: as many rows as `A` has columns, as many columns as `b`. -/
def SolShape (A b x : Mat K) : Prop := x.WF ∧ x.nrows = A.cols ∧ x.cols = b.cols

/-- The linear algebra routines return arrays of the documented shapes for a square matrix and a matching right-hand
side. -/
structure Shapes (env : Env K) : Prop where
  posv : ∀ A b : Mat K, A.WF → b.WF → A.nrows = A.cols → b.nrows = A.nrows → SolShape A b (env.posv A b).1
  lstsq : ∀ A b : Mat K, A.WF → b.WF → A.nrows = A.cols → b.nrows = A.nrows → SolShape A b (env.lstsq A b)
  pinv : ∀ A : Mat K, A.WF → A.nrows = A.cols → (env.pinv A).WF ∧ (env.pinv A).nrows = A.cols ∧ (env.pinv A).cols = A.nrows

/-- Both triangles filled from the upper one (what LAPACK's `posv` with `lower=0` sees of its argument). -/
def symU (A : Mat K) : Mat K := Mat.ofFn A.nrows A.cols fun i j => if i ≤ j then A.get i j else A.get j i

/-- Quadratic form `xᵀ A x`. -/
def quad (A : Mat K) (x : Nat → K) : K :=
  ((List.range A.nrows).map fun i => ((List.range A.cols).map fun j => x i * A.get i j * x j).sum).sum

/-- Positive definite: symmetric, and `xᵀ A x > 0` unless `x` vanishes on the index range. -/
def PosDef (A : Mat K) : Prop :=
  (∀ i j, A.get i j = A.get j i) ∧ ∀ x : Nat → K, (∃ i < A.nrows, x i ≠ 0) → 0 < quad A x

/-- The documented behaviour of the linear algebra routines, in exact arithmetic:
* `posv` (Cholesky): reports success exactly for a positive definite matrix, and then returns the solution;
* `lstsq`: the result satisfies the normal equations `Aᵀ A x = Aᵀ b`;
* `pinv`: `Aᵀ A A⁺ = Aᵀ`;
* `inv`: a two-sided inverse if it exists, otherwise failure. -/
structure Lawful (env : Env K) : Prop extends Shapes env where
  posv_info : ∀ A b : Mat K, A.WF → b.WF → A.nrows = A.cols → b.nrows = A.nrows →
    ((env.posv A b).2 = 0 ↔ PosDef (symU A))
  posv_sol : ∀ A b : Mat K, A.WF → b.WF → A.nrows = A.cols → b.nrows = A.nrows → (env.posv A b).2 = 0 →
    (symU A).mul (env.posv A b).1 = b
  lstsq_sol : ∀ A b : Mat K, A.WF → b.WF → A.nrows = A.cols → b.nrows = A.nrows →
    (A.tmul A).mul (env.lstsq A b) = A.tmul b
  pinv_sol : ∀ A : Mat K, A.WF → A.nrows = A.cols → (A.tmul A).mul (env.pinv A) = A.tmul (Mat.diag A.nrows 1)
  inv_sol : ∀ A P : Mat K, A.WF → A.nrows = A.cols → env.inv A = some P →
    P.WF ∧ P.nrows = A.nrows ∧ P.cols = A.nrows ∧ P.mul A = Mat.diag A.nrows 1 ∧ A.mul P = Mat.diag A.nrows 1
  inv_none : ∀ A : Mat K, A.WF → A.nrows = A.cols → env.inv A = none →
    ¬ ∃ P : Mat K, P.WF ∧ P.nrows = A.nrows ∧ P.cols = A.nrows ∧ P.mul A = Mat.diag A.nrows 1

end Hpelm.Spec
