import Verif.Spec.Tutorial
import Verif.Spec.Writers

/-!
# Specification: the scripts of step 3 of the documentation page, all running at the same time

The transition system of `Verif/Model/Writers.lean` with the numbers that the scripts really add.  The cells of a file are numbered row by row.
-/

namespace Hpelm.Spec
variable {K : Type} [Field K] [LinearOrder K]

/-- A file on the disk and the cells of a file in the transition system are the same `r` by `c` array (or both do not exist). -/
def SameCells (r c : Nat) : Option (H5 K) → Option (Nat → K) → Prop
  | none, none => True
  | some h, some v => h.data.WF ∧ h.data.nrows = r ∧ h.data.cols = c ∧ ∀ i < r, ∀ j < c, h.data.get i j = v (i * c + j)
  | _, _ => False

/-- The two files on the disk, for a model with `L` neurons and `o` outputs. -/
def OnDisk (f : Names) (L o : Nat) (fs : Files K) (file : FId → Option (Nat → K)) : Prop :=
  SameCells L L (fs f.HH) (file .hh) ∧ SameCells L o (fs f.HT) (file .ht)

/-- The transition system `c` is that of the given scripts: process `q` runs script `q`; a created file holds the regularisation on its diagonal (the
first one) or zeros; process `q` adds the matrices that its `add_data` computes from its range of the data on the disk, starting from a reset model;
the regularisation is taken off the diagonal again. -/
structure Scripts (env : Env K) (f : Names) (model : ELM K) (L : Nat) (parts : List (DataPart K)) (fs : Files K) (c : WCtx K) : Prop where
  count : c.n = parts.length
  sizeHH : c.size .hh = L * L
  sizeHT : c.size .ht = L * model.nnet.outputs
  freshHH : ∀ i < L, ∀ j < L, c.fresh .hh (i * L + j) = if i = j then model.nnet.norm else 0
  freshHT : ∀ k, c.fresh .ht k = 0
  adds : ∀ q (h : q < parts.length), ∃ e e' HH HT, parts[q].object.load env model.saved = .ok e ∧
    ({ e with nnet := e.nnet.reset } : ELM K).hAddData env fs (.path f.X) (.path f.T) parts[q].istart (parts[q].icount.map (↑)) none none = .ok (e', fs) ∧
    e'.nnet.getCorr = .ok (some (HH, HT)) ∧
    (∀ i < L, ∀ j < L, c.contrib q .hh (i * L + j) = HH.get i j - if i = j then e'.nnet.norm else 0) ∧
    (∀ i < L, ∀ j < model.nnet.outputs, c.contrib q .ht (i * model.nnet.outputs + j) = HT.get i j)

/-- The scripts with the given numbers. -/
def chosen (parts : List (DataPart K)) (l : List Nat) : List (DataPart K) := l.filterMap fun q => parts[q]?

/-- The process has changed cells of a file. -/
def Wrote {M : Type} : WPc M → Prop
  | .write .hh _ j => 0 < j
  | .release .hh => True
  | .acquire .ht => True
  | .read .ht => True
  | .write .ht _ _ => True
  | .release .ht => True
  | _ => False

/-- Executions in which processes may die, but only before they change a file. -/
abbrev EarlyRuns {M : Type} [Add M] (c : WCtx M) : WState M → WState M → Prop :=
  Relation.ReflTransGen fun s t => WCStep c s t ∧ ¬ ∃ p, Wrote (s.pc p) ∧ t.pc p = .crashed

end Hpelm.Spec
