import Verif.Model.Basic

/-!
# Transition system: several processes running `add_data(..., fHH, fHT)` on the same files

hpelm/hp_elm.py:131,167-170 and hpelm/modules/hdf5_tools.py:20-94.  A file is a number of cells with values in an additive
commutative group `M`.  `node[:] += HH` reads all cells (line 83) and writes them back one after another.
Simplifications: creating a file is one step (`make_hdf5` opens with "w", which replaces an existing file, writes and
closes); a process that dies releases its file lock (the operating system does that for `fasteners` locks).
-/

namespace Hpelm

/-- The two files. -/
inductive FId | hh | ht
  deriving DecidableEq

/-- Program counter of one process. -/
inductive WPc (M : Type)
  /-- hdf5_tools.py:37 / 55: `os.path.isfile` -/
  | check (f : FId)
  /-- hdf5_tools.py:52 / 69: `make_hdf5` -/
  | create (f : FId)
  /-- hp_elm.py:132-169: computing the contribution -/
  | compute
  /-- hdf5_tools.py:78 / 88: waiting for the lock -/
  | acquire (f : FId)
  /-- hdf5_tools.py:83 / 92: reading, lock held -/
  | read (f : FId)
  /-- hdf5_tools.py:83 / 92: `j` cells already written back, lock held; `v` = values read -/
  | write (f : FId) (v : Nat → M) (j : Nat)
  /-- hdf5_tools.py:84-85 / 93-94: all cells written, lock held -/
  | release (f : FId)
  | done
  | crashed

/-- Which file's lock a program counter holds. -/
def WPc.holds {M : Type} : WPc M → Option FId
  | .read f => some f
  | .write f _ _ => some f
  | .release f => some f
  | _ => none

/-- Global state of the writers. -/
structure WState (M : Type) where
  file : FId → Option (Nat → M)
  lock : FId → Option Nat
  pc : Nat → WPc M

/-- Parameters: number of processes, file sizes in cells, contributions, initial contents for a created file. -/
structure WCtx (M : Type) where
  n : Nat
  size : FId → Nat
  contrib : Nat → FId → Nat → M
  fresh : FId → Nat → M

/-- Set the program counter of process `p`. -/
def WState.setPc {M : Type} (s : WState M) (p : Nat) (x : WPc M) : WState M :=
  { s with pc := fun q => if q = p then x else s.pc q }

/-- Set the contents of file `f`. -/
def WState.setFile {M : Type} (s : WState M) (f : FId) (v : Nat → M) : WState M :=
  { s with file := fun g => if g = f then some v else s.file g }

/-- Set the lock of file `f`. -/
def WState.setLock {M : Type} (s : WState M) (f : FId) (o : Option Nat) : WState M :=
  { s with lock := fun g => if g = f then o else s.lock g }

/-- Program counter after a file has been prepared. -/
def afterPrepare {M : Type} : FId → WPc M
  | .hh => .check .ht
  | .ht => .compute

/-- Program counter after a file has been updated. -/
def afterUpdate {M : Type} : FId → WPc M
  | .hh => .acquire .ht
  | .ht => .done

/-- One step of process `p`. -/
inductive WStep {M : Type} [Add M] (c : WCtx M) : WState M → WState M → Prop
  | checkYes (s : WState M) (p : Nat) (f : FId) (v : Nat → M) (hp : p < c.n) (h : s.pc p = .check f)
      (hf : s.file f = some v) : WStep c s (s.setPc p (afterPrepare f))
  | checkNo (s : WState M) (p : Nat) (f : FId) (hp : p < c.n) (h : s.pc p = .check f)
      (hf : s.file f = none) : WStep c s (s.setPc p (.create f))
  | create (s : WState M) (p : Nat) (f : FId) (hp : p < c.n) (h : s.pc p = .create f) :
      WStep c s ((s.setFile f (c.fresh f)).setPc p (afterPrepare f))
  | compute (s : WState M) (p : Nat) (hp : p < c.n) (h : s.pc p = .compute) : WStep c s (s.setPc p (.acquire .hh))
  | acquire (s : WState M) (p : Nat) (f : FId) (hp : p < c.n) (h : s.pc p = .acquire f) (hl : s.lock f = none) :
      WStep c s ((s.setLock f (some p)).setPc p (.read f))
  | read (s : WState M) (p : Nat) (f : FId) (v : Nat → M) (hp : p < c.n) (h : s.pc p = .read f)
      (hf : s.file f = some v) : WStep c s (s.setPc p (.write f v 0))
  | write (s : WState M) (p : Nat) (f : FId) (v w : Nat → M) (j : Nat) (hp : p < c.n) (h : s.pc p = .write f v j)
      (hf : s.file f = some w) (hj : j < c.size f) :
      WStep c s ((s.setFile f fun i => if i = j then v i + c.contrib p f i else w i).setPc p (.write f v (j + 1)))
  | written (s : WState M) (p : Nat) (f : FId) (v : Nat → M) (j : Nat) (hp : p < c.n) (h : s.pc p = .write f v j)
      (hj : c.size f ≤ j) : WStep c s (s.setPc p (.release f))
  | release (s : WState M) (p : Nat) (f : FId) (hp : p < c.n) (h : s.pc p = .release f) :
      WStep c s ((s.setLock f none).setPc p (afterUpdate f))

/-- The process `p` dies (at any point of its program); its lock, if any, is released. -/
def WState.crash {M : Type} (s : WState M) (p : Nat) : WState M :=
  match (s.pc p).holds with
  | some f => (s.setLock f none).setPc p .crashed
  | none => s.setPc p .crashed

/-- Steps of the writers and crashes. -/
inductive WCStep {M : Type} [Add M] (c : WCtx M) : WState M → WState M → Prop
  | step (s t : WState M) (h : WStep c s t) : WCStep c s t
  | crash (s : WState M) (p : Nat) (hp : p < c.n) (h : s.pc p ≠ .done) : WCStep c s (s.crash p)

/-- All processes at the start of `_prepare_fHH`. -/
def WState.init {M : Type} (file : FId → Option (Nat → M)) : WState M :=
  { file, lock := fun _ => none, pc := fun _ => .check .hh }

/-! ### save (hpelm/elm.py:397-402) -/

/-- Steps of `cPickle.dump(m, open(fname, "wb"), -1)` on the file contents: before `open`, file truncated with `k` bytes
of the pickle already written, finished.  (`none` = no such file.) -/
inductive SaveStep {β : Type} (new : List β) : Option (List β) × Option Nat → Option (List β) × Option Nat → Prop
  /-- `open(fname, "wb")` truncates -/
  | opened (old : Option (List β)) : SaveStep new (old, none) (some [], some 0)
  /-- some more bytes reach the file -/
  | wrote (k m : Nat) (h : k < m) (hm : m ≤ new.length) :
      SaveStep new (some (new.take k), some k) (some (new.take m), some m)

end Hpelm
