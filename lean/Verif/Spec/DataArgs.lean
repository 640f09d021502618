import Verif.Model.Elm

/-!
# Specification: what a data argument stands for, ranges of samples
-/

namespace Hpelm.Spec
variable {K : Type}

/-- What a data argument stands for: nothing, a matrix, a vector read as one column, or the (non-empty) array in a file. -/
inductive Reads (fs : Files K) : DataArg K → Option (Mat K) → Prop
  | absent : Reads fs .absent none
  | mat (M : Mat K) : Reads fs (.mat M) (some M)
  | vec (v : List K) : Reads fs (.vec v) (some ⟨1, v.map fun x => [x]⟩)
  | file (f : String) (h : H5 K) (hf : fs f = some h) (hn : 0 < h.data.nrows) : Reads fs (.path f) (some h.data)

/-- The samples of a data matrix from number `istart` on, at most `icount` of them (all of them if `icount` is not given). -/
def samplesIn (M : Mat K) (istart : Nat) : Option Nat → Mat K
  | none => ⟨M.cols, M.rows.drop istart⟩
  | some c => ⟨M.cols, (M.rows.drop istart).take c⟩

end Hpelm.Spec
