import Verif.Model.Handles

/-!
# Which files a call reads and writes
-/

namespace Hpelm.Spec
open Hpelm

/-- Files a call is given as data (inputs, targets, predictions). -/
def inputs : FCall → List String
  | .train X T Xv Tv => X.toList ++ T.toList ++ Xv.toList ++ Tv.toList
  | .addData X T _ _ | .addDataAsync X T _ _ | .trainAsync X T => X.toList ++ T.toList
  | .validationCorr _ _ X T => X.toList ++ T.toList
  | .predict X _ | .project X _ | .predictAsync X _ => X.toList
  | .error T Y => T.toList ++ Y.toList
  | _ => []

/-- Files a call writes: results, stored matrices, made or normalised data files. -/
def outputs : FCall → List String
  | .addData _ _ (some f) (some g) | .addDataAsync _ _ (some f) (some g) => [f, g]
  | .predict _ (some f) | .project _ (some f) | .predictAsync _ f | .makeHdf5 f | .normalizeHdf5 f => [f]
  | _ => []

/-- Files with stored matrices a call solves from. -/
def corrs : FCall → List String
  | .solveCorr f g | .validationCorr f g _ _ => [f, g]
  | _ => []

/-- The existing files after a call. -/
def after (disk : String → Bool) : FCall → String → Bool
  | .remove f => fun g => if g = f then false else disk g
  | c => fun g => disk g || (outputs c).contains g

/-- Every file is there when a call needs to read it. -/
def Available : (String → Bool) → List FCall → Prop
  | _, [] => True
  | disk, c :: cs => (∀ f ∈ inputs c ++ corrs c, disk f = true) ∧ Available (after disk c) cs

/-- Asynchronous training is called with file names, as its documentation asks. -/
def Named : FCall → Prop
  | .trainAsync X T | .addDataAsync X T _ _ => X.isSome ∧ T.isSome
  | _ => True

/-- No data-dependent exception. -/
def fine : Nat → Option PyErr := fun _ => none

end Hpelm.Spec
