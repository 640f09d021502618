import Verif.Model.Hpelm
import Verif.Model.Hdf5

/-!
# Specification: the scripts of the documentation page "Running HP-ELM in parallel"

The user programs of docs/parallel.rst, one definition per code block.  Simplifications: the scripts of step 3 run one after another, in any
order (for interleavings of their writes see C47); the names of the model files are not part of the disk, a saved model is a value.
-/

namespace Hpelm.Spec
variable {K : Type} [Field K] [LinearOrder K]

/-- The numbers of the samples from `istart` on, at most `icount` of them, in a dataset of `N` samples. -/
def sampleNos (N istart : Nat) : Option Nat → List Nat
  | none => (List.range N).drop istart
  | some c => ((List.range N).drop istart).take c

/-- One script of step 3: the object it makes, and its `istart` and `icount`. -/
structure DataPart (K : Type) where
  object : ELM K
  istart : Nat
  icount : Option Nat

/-- The names of the files. -/
structure Names where
  X : String
  T : String
  HH : String
  HT : String
  Y : String

/-- The names are all different. -/
def Names.Distinct (f : Names) : Prop := [f.X, f.T, f.HH, f.HT, f.Y].Nodup

/-- Step 1 (docs/parallel.rst:24-27): put the data on the disk. -/
def step1 (cast : K → K) (f : Names) (X T : Mat K) (lvl : Nat) (fs : Files K) : Except PyErr (Files K) := do
  let fs ← makeHdf5 cast fs (.mat X) f.X lvl
  makeHdf5 cast fs (.mat T) f.T lvl

/-- A script of step 3 (docs/parallel.rst:54-68): load the saved model, add the data of one range. -/
def step3 (env : Env K) (f : Names) (m : Saved K) (p : DataPart K) (fs : Files K) : Except PyErr (Files K) := do
  let e ← p.object.load env m
  let (_, fs) ← e.hAddData env fs (.path f.X) (.path f.T) p.istart (p.icount.map (↑)) (some f.HH) (some f.HT)
  pure fs

/-- Step 4, first script (docs/parallel.rst:74-77): load the model, solve, save. -/
def step4 (env : Env K) (f : Names) (m : Saved K) (object : ELM K) (fs : Files K) : Except PyErr (Saved K) := do
  let e ← object.load env m
  let e ← e.hSolveCorr env fs f.HH f.HT
  pure e.saved

/-- Step 4, second script (docs/parallel.rst:81-84) up to the prediction: load the solved model, predict into a file. -/
def step5 (env : Env K) (f : Names) (m : Saved K) (object : ELM K) (fs : Files K) : Except PyErr (ELM K × Files K) := do
  let e ← object.load env m
  let Y ← e.hPredict env fs (.path f.X) .file 0 none
  pure (e, fs.put f.Y ⟨Y, none, none⟩)

/-- All the scripts: the last object and the disk. -/
def tutorial (env : Env K) (cast : K → K) (f : Names) (X T : Mat K) (lvl : Nat) (model : ELM K) (parts : List (DataPart K)) (o4 o5 : ELM K)
    (fs : Files K) : Except PyErr (ELM K × Files K) := do
  let fs ← step1 cast f X T lvl fs
  let fs ← parts.foldlM (fun fs p => step3 env f model.saved p fs) fs
  let m ← step4 env f model.saved o4 fs
  step5 env f m o5 fs

end Hpelm.Spec
