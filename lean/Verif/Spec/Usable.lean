import Verif.Spec.Ridge
import Verif.Spec.LetterCase
import Verif.Model.Elm

/-!
# Specification: a training call as documented
-/

namespace Hpelm.Spec
variable {K : Type} [Field K] [LinearOrder K]

/-- The flags that choose a kind of classification. -/
def kindFlags : List String := ["C", "WC", "ML", "MC"]

/-- A call `train(X, T, *args, **kw)` without structure selection as the documentation asks for it, for a model with `d` inputs and `c`
outputs: there are samples, the shapes fit, at most one kind of classification is asked for, and only with several
outputs; class weights are not negative; weighted classification comes with one class per sample, and with one weight per class that are not all
zero, or without weights and with samples of every class. -/
structure Documented (d c : Nat) (X T : Mat K) (args : List String) (kw : Kwargs K) : Prop where
  inputs : X.cols = d
  outputs : T.cols = c
  some_output : 0 < c
  rows : X.nrows = T.nrows
  some_row : 0 < X.nrows
  targets : T.WF
  batch : ∀ b, kw.batch = some b → 0 < b
  plain : ¬ Given args "V" ∧ ¬ Given args "CV" ∧ ¬ Given args "LOO"
  one_kind : ∀ a ∈ kindFlags, ∀ b ∈ kindFlags, Given args a → Given args b → a = b
  classes : ∀ a ∈ kindFlags, Given args a → 1 < c
  weights : ∀ ws, kw.w = some ws → ∀ x ∈ ws, 0 ≤ x
  weighted : Given args "WC" → OneHot T ∧
    ((∃ ws, kw.w = some ws ∧ ws.length = c ∧ ∃ x ∈ ws, x ≠ 0) ∨ (kw.w = none ∧ ∀ k < c, ∃ r ∈ T.rows, IsClass c r k))

end Hpelm.Spec
