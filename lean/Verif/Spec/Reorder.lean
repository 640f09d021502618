import Verif.Model.Basic

/-!
# Specification: the same samples in another order

Independent of the model's functions: only `Mat` (columns + rows) is used.
-/

namespace Hpelm.Spec
variable {K : Type}

/-- `(X', T')` consists of the samples (inputs with their targets) of `(X, T)` in another order. -/
structure Reordered (X T X' T' : Mat K) : Prop where
  rows : X.rows.length = T.rows.length
  rows' : X'.rows.length = T'.rows.length
  inputs : X'.cols = X.cols
  outputs : T'.cols = T.cols
  perm : (X'.rows.zip T'.rows).Perm (X.rows.zip T.rows)

/-- The elements of a list at the positions `r`, `r + k`, `r + 2k`, … -/
def everyKth {α : Type} (k r : Nat) (l : List α) : List α := (l.zipIdx.filter fun p => p.2 % k = r).map (·.1)

/-- Reordering inside each of `k` interleaved parts: the samples at positions `r`, `r + k`, … only change places among themselves. -/
structure ReorderedInParts (k : Nat) (X T X' T' : Mat K) : Prop where
  rows : X.rows.length = T.rows.length
  rows' : X'.rows.length = T'.rows.length
  number : X'.rows.length = X.rows.length
  inputs : X'.cols = X.cols
  outputs : T'.cols = T.cols
  part : ∀ r < k, (everyKth k r (X'.rows.zip T'.rows)).Perm (everyKth k r (X.rows.zip T.rows))

end Hpelm.Spec
