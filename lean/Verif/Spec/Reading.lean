import Verif.Spec.Writers

/-!
# Specification: reading the files while processes add to them

`solve_corr` and `validation_corr` open the files without taking the lock (hpelm/hp_elm.py:172-181, 613-649), so the cells of the
two matrices are read one after another at arbitrary moments of the writers' execution.
-/

namespace Hpelm.Spec
variable {M : Type}

/-- The sequence of states of the writers, without crashes and without creating an existing file again; the writers may
rest. -/
structure Execution [Add M] (c : WCtx M) (file0 : FId → Option (Nat → M)) (σ : Nat → WState M) : Prop where
  start : σ 0 = WState.init file0
  next : ∀ t, σ (t + 1) = σ t ∨ (WStep c (σ t) (σ (t + 1)) ∧ ¬ Clobbers (σ t) (σ (t + 1)))

/-- A process has changed at least one cell of the first file, or passed the point where it does. -/
def Started : WPc M → Prop
  | .check _ => False
  | .create _ => False
  | .compute => False
  | .acquire .hh => False
  | .read .hh => False
  | .write .hh _ j => 0 < j
  | .crashed => False
  | _ => True

end Hpelm.Spec
