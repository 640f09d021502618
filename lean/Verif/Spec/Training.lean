import Verif.Model.Elm
import Verif.Spec.Network
import Verif.Spec.Ridge

/-!
# Specification: plain training runs and what is measured on them
-/

namespace Hpelm.Spec
open Finset
variable {K : Type} [Field K] [LinearOrder K]

/-- A successful call `e.train(X, T, *args, **kw)` without model structure selection on a consistent network with positive
regularisation, positive batch size, rectangular targets and, in weighted classification only, one-hot targets, non-negative
class weights and exact square roots.  `e'` is the model afterwards. -/
structure PlainTrain (env : Env K) (e : ELM K) (X T : Mat K) (args : List String) (kw : Kwargs K) (e' : ELM K) : Prop where
  consistent : Consistent e.nnet
  norm : 0 < e.nnet.norm
  batch : 0 < kw.batch.getD e.batch
  noSelection : "V" ∉ args ∧ "CV" ∉ args ∧ "LOO" ∉ args
  targets : T.WF
  sqrt : Given args "WC" → ∀ x : K, 0 ≤ x → env.sqrt x * env.sqrt x = x
  oneHot : Given args "WC" → OneHot T
  weights : ∀ ws, kw.w = some ws → ∀ x ∈ ws, 0 ≤ x
  run : ∃ fs rnd r, e.train env fs rnd (.mat X) (.mat T) args kw = (.ok r, e')

/-- A successful call `e.train(X, T, *args, **kw)` with a model structure selection (by validation, cross-validation or leave-one-out,
of either ranking method and any kind of problem) on a consistent network with positive regularisation and rectangular targets; the
random rankings are orders of the neurons.  `e'` is the model afterwards. -/
structure SelectedTrain (env : Env K) (e : ELM K) (X T : Mat K) (args : List String) (kw : Kwargs K) (e' : ELM K) : Prop where
  consistent : Consistent e.nnet
  norm : 0 < e.nnet.norm
  selection : "V" ∈ args ∨ "CV" ∈ args ∨ "LOO" ∈ args
  targets : T.WF
  run : ∃ fs rnd r, (∀ i, (rnd.shuffles i).Perm (List.range (size e.nnet))) ∧ e.train env fs rnd (.mat X) (.mat T) args kw = (.ok r, e')

/-- The predictions of a model for the inputs `X`. -/
def Predicts (env : Env K) (e : ELM K) (X P : Mat K) : Prop := ∃ fs, e.predict env fs (.mat X) = .ok P

/-- Weighted squared error of predictions. -/
def fitError (w : Nat → K) (P T : Mat K) : K :=
  ∑ s ∈ range T.nrows, w s * ∑ j ∈ range T.cols, (P.get s j - T.get s j) ^ 2

/-- Weighted sum of the squares of all values of a data matrix. -/
def energy (w : Nat → K) (M : Mat K) : K := ∑ s ∈ range M.nrows, w s * ∑ j ∈ range M.cols, M.get s j ^ 2

/-- Squared size of a matrix of output weights. -/
def sqNorm (B : Mat K) : K := ∑ k ∈ range B.nrows, ∑ j ∈ range B.cols, B.get k j ^ 2

/-- Every row repeated the given number of times. -/
def repeatRows (m : List Nat) (M : Mat K) : Mat K :=
  ⟨M.cols, (M.rows.zip m).flatMap fun p => List.replicate p.2 p.1⟩

/-- Squared error of predictions on the samples of class `i` (target 1 in column `i`). -/
def classFit (i : Nat) (P T : Mat K) : K :=
  ∑ s ∈ range T.nrows, if T.get s i = 1 then ∑ j ∈ range T.cols, (P.get s j - T.get s j) ^ 2 else 0

end Hpelm.Spec
