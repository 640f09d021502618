import Verif.Lemmas.Corr
import Verif.Spec.EnvLaws
import Mathlib.LinearAlgebra.Matrix.NonsingularInverse
import Mathlib.Algebra.BigOperators.Fin
import Mathlib.Algebra.BigOperators.Ring.Finset

/-! Bridge from `Mat` (lists of rows) to Mathlib matrices. -/

set_option linter.unusedSectionVars false

namespace Hpelm
open Spec Finset
variable {K : Type} [Field K] [LinearOrder K]

theorem sum_range_list (n : Nat) (f : Nat → K) : ((List.range n).map f).sum = ∑ i ∈ range n, f i := by
  induction n with
  | zero => simp
  | succ n ih => rw [List.range_succ, List.map_append, List.sum_append, ih, Finset.sum_range_succ]; simp

theorem sum_zip_list (H T : List (List K)) (h : H.length = T.length) (f : List K → List K → K) :
    ((H.zip T).map fun p => f p.1 p.2).sum = ∑ s ∈ range H.length, f (H.getD s []) (T.getD s []) := by
  rw [← sum_range_list]
  congr 1
  apply List.ext_getElem
  · simp [h]
  · intro i h1 h2
    simp only [List.length_map, List.length_zip, List.length_range] at h1 h2
    have hT : i < T.length := by omega
    simp [List.getD_eq_getElem?_getD, h2, hT]

theorem sum_list_rows {α : Type} (l : List α) (d : α) (f : α → K) : (l.map f).sum = ∑ s ∈ range l.length, f (l.getD s d) := by
  rw [← sum_range_list]
  congr 1
  apply List.ext_getElem
  · simp
  · intro i h1 h2
    simp only [List.length_map] at h1
    simp [List.getD_eq_getElem?_getD, h1]

theorem get_tmul_sum {A B : Mat K} (h : A.nrows = B.nrows) {i j : Nat} (hi : i < A.cols) (hj : j < B.cols) :
    (A.tmul B).get i j = ∑ s ∈ range A.nrows, A.get s i * B.get s j := by
  rw [Mat.get_tmul hi hj]
  exact sum_zip_list A.rows B.rows h fun a b => a.getD i 0 * b.getD j 0

theorem get_mul_sum {A B : Mat K} {i j : Nat} (hi : i < A.nrows) (hj : j < B.cols) :
    (A.mul B).get i j = ∑ k ∈ range B.nrows, A.get i k * B.get k j := by
  rw [Mat.get_mul hi hj, sum_range_list]

/-- A `Mat` as a Mathlib matrix. -/
def Mat.toM (r c : Nat) (A : Mat K) : Matrix (Fin r) (Fin c) K := Matrix.of fun i j => A.get i j

theorem toM_apply {r c : Nat} (A : Mat K) (i : Fin r) (j : Fin c) : A.toM r c i j = A.get i j := rfl

/-- A Mathlib matrix as a `Mat`. -/
def ofM {r c : Nat} (M : Matrix (Fin r) (Fin c) K) : Mat K :=
  Mat.ofFn r c fun i j => if h : i < r ∧ j < c then M ⟨i, h.1⟩ ⟨j, h.2⟩ else 0

theorem ofM_WF {r c : Nat} (M : Matrix (Fin r) (Fin c) K) : (ofM M).WF := Mat.ofFn_WF _ _ _
@[simp] theorem ofM_nrows {r c : Nat} (M : Matrix (Fin r) (Fin c) K) : (ofM M).nrows = r := by simp [ofM]
@[simp] theorem ofM_cols {r c : Nat} (M : Matrix (Fin r) (Fin c) K) : (ofM M).cols = c := by simp [ofM]

theorem toM_ofM {r c : Nat} (M : Matrix (Fin r) (Fin c) K) : (ofM M).toM r c = M := by
  ext i j
  rw [toM_apply]
  unfold ofM
  rw [Mat.get_ofFn_lt i.2 j.2, dif_pos ⟨i.2, j.2⟩]

theorem toM_inj {A B : Mat K} {r c : Nat} (hA : A.WF) (hB : B.WF) (h1 : A.nrows = r) (h2 : A.cols = c) (h3 : B.nrows = r)
    (h4 : B.cols = c) (h : A.toM r c = B.toM r c) : A = B := by
  apply Mat.ext_get hA hB (by omega) (by omega)
  intro i j hi hj
  exact congrFun (congrFun h ⟨i, by omega⟩) ⟨j, by omega⟩

theorem toM_mul {A B : Mat K} {r m c : Nat} (h1 : A.nrows = r) (h2 : B.nrows = m) (h3 : B.cols = c) :
    (A.mul B).toM r c = A.toM r m * B.toM m c := by
  ext i j
  subst h1 h2 h3
  simp only [toM_apply, Matrix.mul_apply, Matrix.add_apply, Matrix.transpose_apply]
  rw [get_mul_sum i.2 j.2, Finset.sum_range]

theorem toM_tmul {A B : Mat K} {n a b : Nat} (h1 : A.nrows = n) (h2 : B.nrows = n) (h3 : A.cols = a) (h4 : B.cols = b) :
    (A.tmul B).toM a b = (A.toM n a).transpose * B.toM n b := by
  ext i j
  subst h1 h3 h4
  simp only [toM_apply, Matrix.mul_apply, Matrix.add_apply, Matrix.transpose_apply]
  rw [get_tmul_sum h2.symm i.2 j.2, Finset.sum_range]

theorem toM_add {A B : Mat K} {r c : Nat} (h1 : A.nrows = r) (h2 : A.cols = c) :
    (A.add B).toM r c = A.toM r c + B.toM r c := by
  ext i j
  subst h1 h2
  simp only [toM_apply, Matrix.mul_apply, Matrix.add_apply, Matrix.transpose_apply]
  rw [Mat.get_add i.2 j.2]

theorem toM_diag (n : Nat) (v : K) : (Mat.diag n v).toM n n = v • (1 : Matrix (Fin n) (Fin n) K) := by
  ext i j
  simp only [toM_apply, Matrix.mul_apply, Matrix.add_apply, Matrix.transpose_apply]
  rw [Mat.get_diag i.2 j.2]
  by_cases h : i = j
  · subst h; simp
  · rw [if_neg (fun h' => h (Fin.ext h')), Matrix.smul_apply, Matrix.one_apply_ne h]; simp

theorem toM_symm {S : Mat K} {n : Nat} (h : SymM S) : (S.toM n n).transpose = S.toM n n := by
  ext i j
  exact h.symm j i

end Hpelm
