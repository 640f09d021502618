import Verif.Model.Async

/-!
# Helper processes of `predict_async` that die

The reader and the writer are separate operating system processes (hpelm/hp_elm.py:576-585), which may be killed at any
moment.  A dead process takes no more steps and can be joined; nobody is told about its death.  Simplifications: a message
is in the queue or not (no half-transmitted messages), and a writer that is killed while it writes a batch leaves every row
of the file either old or new.
-/

namespace Hpelm
variable {K : Type} [Field K] [LinearOrder K]

/-- Every row of `Z` is the row of `A` or the row of `B`. -/
def RowMix (A B Z : Mat K) : Prop :=
  Z.cols = A.cols ∧ Z.nrows = A.nrows ∧ ∀ i : Nat, Z.rows[i]? = A.rows[i]? ∨ Z.rows[i]? = B.rows[i]?

/-- One step of `predict_async`, or the death of a helper process. -/
inductive PKStep (c : PCtx K) : PState K → PState K → Prop
  | step (s t : PState K) (h : PStep c s t) : PKStep c s t
  /-- the reader dies (hdf5_tools.py:240-250); what it was about to put is lost -/
  | killReader (s : PState K) (h : s.reader ≠ .done) : PKStep c s { s with reader := .done }
  /-- the writer dies while it waits for a message (hdf5_tools.py:265) -/
  | killWriter (s : PState K) (h : s.writer = .idle) : PKStep c s { s with writer := .crashed }
  /-- the writer dies while it writes a batch (hdf5_tools.py:269) -/
  | killWriting (s : PState K) (w : Mat K) (a b : Int) (q : List (Option (Mat K × Int × Int))) (Y Z : Mat K)
      (h : s.writer = .idle) (hq : s.qW = some (w, a, b) :: q) (hY : assignRows s.file a b w = .ok Y) (hZ : RowMix s.file Y Z) :
      PKStep c s { s with qW := q, file := Z, writer := .crashed }

/-- One step of `add_data_async`, or the death of a reader (hpelm/hp_elm.py:516-525, hdf5_tools.py:240-250). -/
inductive TKStep {σ : Type} (c : TCtx K σ) : TState K σ → TState K σ → Prop
  | step (s t : TState K σ) (h : TStep c s t) : TKStep c s t
  | killX (s : TState K σ) (h : s.readX ≠ .done) : TKStep c s { s with readX := .done }
  | killT (s : TState K σ) (h : s.readT ≠ .done) : TKStep c s { s with readT := .done }

end Hpelm
