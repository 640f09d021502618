import Verif.Model.Writers
import Mathlib.Logic.Relation
import Mathlib.Algebra.BigOperators.Group.Finset.Basic

/-!
# Specification: executions of several writers
-/

namespace Hpelm.Spec
variable {M : Type}

/-- A step in which a process creates a file although it exists (another process created it after this one had looked). -/
def Clobbers (s t : WState M) : Prop := ∃ p f, s.pc p = .create f ∧ s.file f ≠ none ∧ t.pc p ≠ s.pc p

/-- A process dies in the middle of writing back the cells of a file. -/
def TornCrash (c : WCtx M) (s t : WState M) : Prop := ∃ p f v j, s.pc p = .write f v j ∧ 0 < j ∧ j < c.size f ∧ t.pc p = .crashed

/-- A process has changed the first file and not (completely) the second. -/
def Between (c : WCtx M) : WPc M → Prop
  | .write .hh _ j => 0 < j ∨ c.size .hh = 0
  | .release .hh => True
  | .acquire .ht => True
  | .read .ht => True
  | .write .ht _ j => j < c.size .ht
  | _ => False

/-- A process dies between changing the first file and having changed the second. -/
def LateCrash (c : WCtx M) (s t : WState M) : Prop := ∃ p, Between c (s.pc p) ∧ t.pc p = .crashed

/-- What a file holds before any contribution: its contents at the start, or the fresh matrix if it did not exist. -/
def base (c : WCtx M) (file0 : FId → Option (Nat → M)) (f : FId) : Nat → M := (file0 f).getD (c.fresh f)

/-- File `f` holds the start value plus the contributions of the processes in `A`. -/
def Holds [AddCommMonoid M] (c : WCtx M) (file0 : FId → Option (Nat → M)) (s : WState M) (f : FId) (A : Finset Nat) : Prop :=
  ∃ v, s.file f = some v ∧ ∀ i < c.size f, v i = base c file0 f i + ∑ p ∈ A, c.contrib p f i

/-- Executions without crashes. -/
abbrev Runs [Add M] (c : WCtx M) : WState M → WState M → Prop := Relation.ReflTransGen (WStep c)

/-- Executions without crashes in which no existing file is created again. -/
abbrev CleanRuns [Add M] (c : WCtx M) : WState M → WState M → Prop := Relation.ReflTransGen fun s t => WStep c s t ∧ ¬ Clobbers s t

/-- Executions with crashes in which no existing file is created again and nobody dies while writing back the cells of a file. -/
abbrev UntornRuns [Add M] (c : WCtx M) : WState M → WState M → Prop :=
  Relation.ReflTransGen fun s t => WCStep c s t ∧ ¬ Clobbers s t ∧ ¬ TornCrash c s t

end Hpelm.Spec
