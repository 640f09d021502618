import Verif.Model.Basic

/-!
# Open HDF5 files: which handles a process holds during and after each call

`_checkdata` opens every file it is given and keeps the handle in the model object until the object is deleted
(hpelm/elm.py:542-595, 470-473); the other functions open a file, use it and close it.  PyTables refuses to open a file in a
mode that clashes with a handle already open in the process (`tables.open_file`, outside /repo).

What the code computes with the contents of the files is abstracted: wherever the code between two file operations can raise
because of the data, the model takes the exception (or none) from an arbitrary argument.  One name per file is assumed.
-/

namespace Hpelm

/-- Modes of `open_file` used in the code: "r" (hpelm/elm.py:548), "a" (hpelm/hp_elm.py:208), "w" (hdf5_tools.py:209). -/
inductive Mode | r | a | w
  deriving DecidableEq, Repr

/-- An open file handle. -/
structure Handle where
  file : String
  mode : Mode
  deriving DecidableEq, Repr

/-- What the process holds: the existing files, the list `opened_hdf5` of the model object, most recent first
(hpelm/elm.py:94; all opened with "r"), and the handles that nobody holds any more but that are still open. -/
structure FState where
  onDisk : String → Bool
  kept : List String
  stray : List Handle

/-- All open handles of the process. -/
def FState.handles (s : FState) : List Handle := s.kept.map (fun f => ⟨f, .r⟩) ++ s.stray

/-- PyTables' default policy: "r" is compatible with "r" only, "a" with everything except "r", "w" with nothing. -/
def Mode.clash : Mode → Mode → Bool
  | .r, .r => false
  | .r, _ => true
  | .a, .r => true
  | .a, _ => false
  | .w, _ => true

/-- Outcome of `open_file(f, m)`: ValueError for a clash, IOError for reading a file that does not exist. -/
def FState.canOpen (s : FState) (m : Mode) (f : String) : Except PyErr Unit :=
  if s.handles.any (fun h => h.file == f && m.clash h.mode) then .error .valueError
  else if m = .r ∧ s.onDisk f = false then .error .ioError
  else .ok ()

/-- Steps of a call.  `x` is the exception raised by the data-dependent code at that place, if any. -/
inductive Act
  /-- code without file operations -/
  | check (x : Option PyErr)
  /-- `open_file(f, "r")` kept in `opened_hdf5` (hpelm/elm.py:547-551 with a bare `except`, 570-574 with `except IOError`) -/
  | keep (f : String) (wrap : Bool)
  /-- open "r", use, close; `wrap`: a bare `except` turns any failure to open into IOError (hpelm/hp_elm.py:616-627);
  `fin`: closed in a `finally` (hpelm/modules/hdf5_tools.py:38-50) -/
  | peek (f : String) (wrap fin : Bool) (x : Option PyErr)
  /-- `make_hdf5` (hpelm/modules/hdf5_tools.py:209-231): open "w", fill, close -/
  | make (f : String) (x : Option PyErr)
  /-- open "a", use, close (hpelm/hp_elm.py:208-236, hdf5_tools.py:79-85, 106-158) -/
  | append (f : String) (x : Option PyErr)
  /-- one file of `_prepare_fHH` (hpelm/modules/hdf5_tools.py:37-52, 55-69) -/
  | prepare (f : String) (x : Option PyErr)
  /-- `self.opened_hdf5.pop().close()` (hpelm/hp_elm.py:507-510) -/
  | pop
  /-- another program deletes a file -/
  | remove (f : String)
  /-- `__del__` (hpelm/elm.py:470-473); a new model object has an empty list -/
  | del

/-- Open "r", use, close. -/
def FState.peek (s : FState) (f : String) (wrap fin : Bool) (x : Option PyErr) : Except PyErr Unit × FState :=
  match s.canOpen .r f with
  | .error e => (.error (if wrap then .ioError else e), s)
  | .ok () => match x with
    | none => (.ok (), s)
    | some x => (.error x, if fin then s else { s with stray := ⟨f, .r⟩ :: s.stray })

/-- Open for writing (the file exists afterwards), use, close; an exception in between leaves the handle open. -/
def FState.writeFile (s : FState) (m : Mode) (f : String) (x : Option PyErr) : Except PyErr Unit × FState :=
  match s.canOpen m f with
  | .error e => (.error e, s)
  | .ok () =>
    let s := { s with onDisk := fun g => if g = f then true else s.onDisk g }
    match x with
    | none => (.ok (), s)
    | some x => (.error x, { s with stray := ⟨f, m⟩ :: s.stray })

/-- Execute one step: outcome and new state. -/
def FState.act (s : FState) : Act → Except PyErr Unit × FState
  | .check none => (.ok (), s)
  | .check (some x) => (.error x, s)
  | .keep f wrap => match s.canOpen .r f with
    | .error e => (.error (if wrap then .ioError else e), s)
    | .ok () => (.ok (), { s with kept := f :: s.kept })
  | .peek f wrap fin x => s.peek f wrap fin x
  | .make f x => s.writeFile .w f x
  | .append f x => s.writeFile .a f x
  | .prepare f x => if s.onDisk f then s.peek f false true x else s.writeFile .w f x
  | .pop => match s.kept with
    | [] => (.error .indexError, s)
    | _ :: k => (.ok (), { s with kept := k })
  | .remove f => (.ok (), { s with onDisk := fun g => if g = f then false else s.onDisk g })
  | .del => (.ok (), { s with kept := [] })

/-- Execute the steps of a call up to the first exception. -/
def FState.acts (s : FState) : List Act → Except PyErr Unit × FState
  | [] => (.ok (), s)
  | a :: as => match s.act a with
    | (.error e, s') => (.error e, s')
    | (.ok (), s') => s'.acts as

/-- Calls on a model object and functions of the library, as far as they concern files.  A data argument is `none` for an
array and `some f` for a file name.  `predict`, `project`: `none` for the result means an array. -/
inductive FCall
  /-- `train` with its data and validation data (hpelm/elm.py:182-192, hpelm/hp_elm.py:84-94) -/
  | train (X T Xv Tv : Option String)
  /-- `add_data` (hpelm/hp_elm.py:127-170) -/
  | addData (X T fHH fHT : Option String)
  /-- `solve_corr` (hpelm/hp_elm.py:172-181) -/
  | solveCorr (fHH fHT : String)
  /-- `predict` (hpelm/hp_elm.py:198-239; hpelm/elm.py:368) -/
  | predict (X Y : Option String)
  /-- `project` (hpelm/hp_elm.py:255-297; hpelm/elm.py:381) -/
  | project (X H : Option String)
  /-- `error` and `confusion` (hpelm/hp_elm.py:324-326; hpelm/elm.py:312-313, 331-332) -/
  | error (T Y : Option String)
  /-- `validation_corr` (hpelm/hp_elm.py:414-460) -/
  | validationCorr (fHH fHT : String) (X T : Option String)
  /-- `train_async` (hpelm/hp_elm.py:469-479) -/
  | trainAsync (X T : Option String)
  /-- `add_data_async` (hpelm/hp_elm.py:487-555) -/
  | addDataAsync (X T fHH fHT : Option String)
  /-- `predict_async` (hpelm/hp_elm.py:564-611) -/
  | predictAsync (X : Option String) (Y : String)
  /-- `make_hdf5` (hpelm/modules/hdf5_tools.py:162-231) -/
  | makeHdf5 (f : String)
  /-- `normalize_hdf5` (hpelm/modules/hdf5_tools.py:97-159); line 140 raises after the file was closed -/
  | normalizeHdf5 (f : String)
  /-- another program deletes a file -/
  | remove (f : String)
  /-- the model object is deleted, and a new one is used from now on -/
  | del

/-- `_checkdata(X, None)` resp. the X part of `_checkdata(X, T)` (hpelm/elm.py:545-566): opens a file, then checks. -/
def keepX (X : Option String) (x : Option PyErr) : List Act :=
  (match X with
  | some f => [Act.keep f true]
  | none => []) ++ [.check x]

/-- `_checkdata(None, T)` resp. the T part (hpelm/elm.py:568-595). -/
def keepT (T : Option String) (x : Option PyErr) : List Act :=
  (match T with
  | some f => [Act.keep f false]
  | none => []) ++ [.check x]

/-- `_prepare_fHH` (hpelm/modules/hdf5_tools.py:20-69). -/
def prepareActs (fHH fHT : Option String) (x y : Option PyErr) : List Act :=
  match fHH, fHT with
  | some f, some g => [.prepare f x, .prepare g y]
  | _, _ => []

/-- `get_corr` and `_write_fHH` (hpelm/hp_elm.py:167-170, hpelm/modules/hdf5_tools.py:72-94). -/
def storeActs (fHH fHT : Option String) (x y z : Option PyErr) : List Act :=
  match fHH, fHT with
  | some f, some g => [.check x, .append f y, .append g z]
  | _, _ => []

/-- `_checkcorr` (hpelm/hp_elm.py:613-649). -/
def corrActs (fHH fHT : String) (x y z : Option PyErr) : List Act :=
  [.peek fHH true false x, .peek fHT true false y, .check z]

/-- The destination of `predict`/`project` and their loop (hpelm/hp_elm.py:206-236, 262-294). -/
def outActs (Y : Option String) (x y : Option PyErr) : List Act :=
  match Y with
  | some f => [.make f x, .append f y]
  | none => [.check x]

/-- The steps of `add_data_async` (hpelm/hp_elm.py:487-555).  The reader processes open the data files in processes of
their own. -/
def asyncActs (X T fHH fHT : Option String) (d : Nat → Option PyErr) : List Act :=
  [.check (d 0)] ++ keepX X (d 1) ++ keepT T (d 2) ++ prepareActs fHH fHT (d 3) (d 4) ++ [.check (d 5), .pop, .pop, .check (d 6)] ++
    storeActs fHH fHT (d 7) (d 8) (d 9)

/-- The steps of a call; `d k` is the exception raised by its `k`-th piece of data-dependent code, if any. -/
def FCall.steps (d : Nat → Option PyErr) : FCall → List Act
  | .train X T Xv Tv => [.check (d 0)] ++ keepX X (d 1) ++ keepT T (d 2) ++ [.check (d 3)] ++ keepX Xv (d 4) ++ keepT Tv (d 5) ++
      [.check (d 6)]
  | .addData X T fHH fHT => [.check (d 0)] ++ keepX X (d 1) ++ keepT T (d 2) ++ prepareActs fHH fHT (d 3) (d 4) ++ [.check (d 5)] ++
      storeActs fHH fHT (d 7) (d 8) (d 9)
  | .solveCorr fHH fHT => corrActs fHH fHT (d 0) (d 1) (d 2)
  | .predict X Y => [.check (d 0)] ++ keepX X (d 1) ++ outActs Y (d 2) (d 3)
  | .project X H => [.check (d 0)] ++ keepX X (d 1) ++ outActs H (d 2) (d 3)
  | .error T Y => keepT T (d 0) ++ keepT Y (d 1) ++ [.check (d 2)]
  | .validationCorr fHH fHT X T => keepX X (d 0) ++ keepT T (d 1) ++ corrActs fHH fHT (d 2) (d 3) (d 4)
  | .trainAsync X T => keepX X (d 10) ++ keepT T (d 11) ++ [.check (d 12)] ++ asyncActs X T none none d ++ [.check (d 13)]
  | .addDataAsync X T fHH fHT => asyncActs X T fHH fHT d
  | .predictAsync X Y => [.check (d 0)] ++ keepX X (d 1) ++ [.make Y (d 2), .check (d 3)]
  | .makeHdf5 f => [.check (d 0), .make f (d 1)]
  | .normalizeHdf5 f => [.append f (d 0), .check (d 1)]
  | .remove f => [.remove f]
  | .del => [.del]

/-- Execute a call. -/
def FState.call (s : FState) (c : FCall) (d : Nat → Option PyErr) : Except PyErr Unit × FState := s.acts (c.steps d)

/-- Execute a history of calls, each with its data-dependent outcomes; exceptions are caught and the next call is made. -/
def FState.run (s : FState) : List (FCall × (Nat → Option PyErr)) → List (Except PyErr Unit) × FState
  | [] => ([], s)
  | (c, d) :: cs =>
    let r := s.call c d
    let q := r.2.run cs
    (r.1 :: q.1, q.2)

end Hpelm
