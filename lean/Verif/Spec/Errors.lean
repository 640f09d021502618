import Verif.Model.Basic
import Mathlib.Data.Finset.Card
import Mathlib.Data.Finset.Range
import Mathlib.Data.Finset.Prod
import Mathlib.Logic.Equiv.Basic
import Mathlib.Algebra.Field.Basic
import Mathlib.Algebra.BigOperators.Group.Finset.Basic

/-!
# Specification: classes, counts, errors

Independent of the model's functions: only `Mat` and its entries are used.
-/

namespace Hpelm.Spec
variable {K : Type}

/-- Sample (row) `n` of a data matrix. -/
def sample (M : Mat K) (n : Nat) : List K := M.rows.getD n []

/-- `k` is the class a row of scores stands for: the first position of its largest entry. -/
def FirstMax [LinearOrder K] [Zero K] (r : List K) (k : Nat) : Prop :=
  k < r.length ∧ (∀ j < r.length, r.getD j 0 ≤ r.getD k 0) ∧ ∀ j < k, r.getD j 0 < r.getD k 0

open Classical in
/-- Number of samples `n < N` with property `p`. -/
noncomputable def countSamples (N : Nat) (p : Nat → Prop) : Nat := ((Finset.range N).filter p).card

/-- Sample `n` is misclassified: targets and predictions stand for different classes. -/
def Misclassified [LinearOrder K] [Zero K] (T Y : Mat K) (n : Nat) : Prop :=
  ∃ i j, FirstMax (sample T n) i ∧ FirstMax (sample Y n) j ∧ i ≠ j

open Classical in
/-- Number of (sample, label) pairs with property `p`. -/
noncomputable def countLabels (N C : Nat) (p : Nat → Nat → Prop) : Nat :=
  ((Finset.range N ×ˢ Finset.range C).filter fun q => p q.1 q.2).card

/-- The largest value of a row of scores occurs only once. -/
def Untied [LinearOrder K] [Zero K] (r : List K) : Prop :=
  ∃ k < r.length, ∀ j < r.length, j ≠ k → r.getD j 0 < r.getD k 0

/-- `M'` is `M` with its columns renumbered by `π`: column `j` has become column `π j`. -/
structure Renumbered [Zero K] (π : Equiv.Perm Nat) (M M' : Mat K) : Prop where
  rows : M'.nrows = M.nrows
  cols : M'.cols = M.cols
  perm : ∀ j, π j < M.cols ↔ j < M.cols
  entry : ∀ n j, n < M.nrows → j < M.cols → M'.get n (π j) = M.get n j

/-- Error rate of class `i`: the fraction of its samples (target 1 in column i) not predicted as class `i`; 0 if it has none. -/
noncomputable def classErr [Field K] [LinearOrder K] (T Y : Mat K) (i : Nat) : K :=
  (countSamples T.nrows fun n => T.get n i = 1 ∧ ¬ FirstMax (sample Y n) i : Nat) / (countSamples T.nrows fun n => T.get n i = 1 : Nat)

open Finset in
/-- `v` is the error of the predictions `Y` for the targets `T`, for a problem of the given kind:
* classification: the fraction of misclassified samples;
* weighted classification with the class weights `ws`: the weighted average of the error rates of the classes;
* multi-label classification: the fraction of the labels on which targets and predictions disagree;
* otherwise (regression): the mean of the squared differences. -/
def IsError [Field K] [LinearOrder K] (kind : Option String) (wc : Option (List (Option K))) (T Y : Mat K) (v : K) : Prop :=
  if kind = some "c" then v = (countSamples T.nrows (Misclassified T Y) : K) / T.nrows
  else if kind = some "wc" then
    ∃ ws : List K, wc = some (ws.map some) ∧ ws.sum ≠ 0 ∧ v = (∑ i ∈ range T.cols, classErr T Y i * ws.getD i 0) / ws.sum
  else if kind = some "ml" then
    v = (countLabels T.nrows T.cols fun n j => ¬ (1 / 2 < Y.get n j ↔ 1 / 2 < T.get n j) : Nat) / ((T.nrows * T.cols : Nat) : K)
  else v = (∑ n ∈ range T.nrows, ∑ j ∈ range T.cols, (Y.get n j - T.get n j) ^ 2) / ((T.nrows * T.cols : Nat) : K)

end Hpelm.Spec
