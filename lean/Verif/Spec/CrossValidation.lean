import Verif.Model.Elm
import Verif.Spec.Ridge
import Verif.Spec.Errors

/-!
# Specification: cross-validation rounds
-/

namespace Hpelm.Spec
open Finset

/-- In each of `k` rounds (training, validation, test) samples partition the `N` samples; over all rounds each sample is validated
exactly once and tested exactly once. -/
structure FoldPlan (N k : Nat) (tr vl ts : Nat → List Nat) : Prop where
  partition : ∀ i < k, (tr i ++ vl i ++ ts i).Perm (List.range N)
  validated_once : ∀ n < N, ∃! i, i < k ∧ n ∈ vl i
  tested_once : ∀ n < N, ∃! i, i < k ∧ n ∈ ts i

variable {K : Type} [Field K] [LinearOrder K]

/-- `r` is the cross-validation error of the neurons of the network `n` on the data `X`, `T`: in each of `k` rounds these neurons are trained
(ridge regression with the regulariser `norm`) on the samples `tr i` and evaluated (as problems of kind `cls` with class weights `wc` are) on
the samples `ts i`; `r` is the average of the `k` errors. -/
def IsCvError (env : Env K) (n : NNet K) (norm : K) (cls : Option String) (wc : Option (List (Option K))) (X T : Mat K) (k : Nat)
    (tr ts : Nat → List Nat) (r : K) : Prop :=
  ∃ err : Nat → K, r = (∑ i ∈ range k, err i) / (k : K) ∧
    ∀ i < k, ∃ Htr Hts B, n.project env (X.selRows (tr i)) = .ok Htr ∧ n.project env (X.selRows (ts i)) = .ok Hts ∧
      B.WF ∧ B.nrows = Htr.cols ∧ B.cols = T.cols ∧ NormalEq Htr (T.selRows (tr i)) (fun _ => 1) norm B ∧
      IsError cls wc (T.selRows (ts i)) (Hts.mul B) (err i)

end Hpelm.Spec
