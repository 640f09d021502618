import Verif.Model.Elm

/-!
# Targets in other units: vocabulary
-/

namespace Hpelm.Spec
variable {K : Type} [Field K] [LinearOrder K]

/-- The array with every number multiplied by `c`. -/
def times (c : K) (M : Mat K) : Mat K := ⟨M.cols, M.rows.map (List.map (c * ·))⟩

/-- The data argument with every number multiplied by `c` (arrays; other arguments as they are). -/
def rescaled (c : K) : DataArg K → DataArg K
  | .mat M => .mat (times c M)
  | a => a

/-- The library routines for systems of linear equations: the solution for right-hand sides multiplied by `c` is the solution multiplied
by `c`, and the success report is the same. -/
structure ScalesSolutions (env : Env K) (c : K) : Prop where
  posv : ∀ A b : Mat K, env.posv A (times c b) = (times c (env.posv A b).1, (env.posv A b).2)
  lstsq : ∀ A b : Mat K, env.lstsq A (times c b) = times c (env.lstsq A b)

/-- The library routines used for ranking with ten or more outputs: the square root of `c ^ 2` times a number is the absolute value of `c`
times its square root, and no square root is negative; a root finder returns the same for a function and for the function multiplied by the
absolute value of `c`; and linear equations as above. -/
structure ScalesRoots (env : Env K) (c : K) : Prop where
  sqrt : ∀ x : K, env.sqrt (c * c * x) = |c| * env.sqrt x
  nonneg : ∀ x : K, 0 ≤ env.sqrt x
  brentq : ∀ (f : K → K) (a b : K), env.brentq (fun y => |c| * f y) a b = env.brentq f a b
  luSolve : ∀ A b : Mat K, env.luSolve A (times c b) = times c (env.luSolve A b)

end Hpelm.Spec
