import Verif.Lemmas.Ridge
import Mathlib.LinearAlgebra.Matrix.Rank
import Mathlib.LinearAlgebra.Matrix.NonsingularInverse
import Mathlib.LinearAlgebra.Matrix.ToLin

/-!
# The laws assumed of the external routines can be met

Over every ordered field there is an environment satisfying `Spec.Lawful` and `Env.Exact`, so theorems with these
hypotheses are not vacuous.
-/

set_option linter.unusedSectionVars false

namespace Hpelm
open Spec Finset
variable {K : Type} [Field K] [LinearOrder K] [IsStrictOrderedRing K]

open Classical in
/-- A solution of `A x = b`, if there is one. -/
noncomputable def sol (A b : Mat K) : Mat K :=
  if h : ∃ x, SolShape A b x ∧ A.mul x = b then h.choose else Mat.zeros A.cols b.cols

theorem sol_shape (A b : Mat K) : SolShape A b (sol A b) := by
  unfold sol
  split
  · rename_i h; exact h.choose_spec.1
  · exact ⟨Mat.ofFn_WF _ _ _, by simp [Mat.zeros], by simp [Mat.zeros]⟩

theorem sol_eq {A b : Mat K} (h : ∃ x, SolShape A b x ∧ A.mul x = b) : A.mul (sol A b) = b := by
  unfold sol
  rw [dif_pos h]
  exact h.choose_spec.2

/-- The normal equations always have a solution. -/
theorem exists_normal {r c m : Nat} (A : Matrix (Fin r) (Fin c) K) (b : Matrix (Fin r) (Fin m) K) :
    ∃ x : Matrix (Fin c) (Fin m) K, A.transpose * A * x = A.transpose * b := by
  have key : LinearMap.range (A.transpose * A).mulVecLin = LinearMap.range A.transpose.mulVecLin := by
    apply Submodule.eq_of_le_of_finrank_eq
    · rw [Matrix.mulVecLin_mul]
      exact LinearMap.range_comp_le_range _ _
    · have h1 := Matrix.rank_transpose_mul_self A
      have h2 := Matrix.rank_transpose A
      unfold Matrix.rank at h1 h2
      rw [h1, ← h2]
  have : ∀ j : Fin m, ∃ v : Fin c → K, (A.transpose * A).mulVec v = A.transpose.mulVec (fun i => b i j) := by
    intro j
    have : A.transpose.mulVecLin (fun i => b i j) ∈ LinearMap.range (A.transpose * A).mulVecLin := by
      rw [key]; exact LinearMap.mem_range_self _ _
    obtain ⟨v, hv⟩ := this
    exact ⟨v, hv⟩
  choose v hv using this
  refine ⟨Matrix.of fun i j => v j i, ?_⟩
  ext i j
  have := congrFun (hv j) i
  simpa [Matrix.mul_apply, Matrix.mulVec, dotProduct] using this

theorem normal_sol {A b : Mat K} (hb : b.nrows = A.nrows) : ∃ x, SolShape (A.tmul A) (A.tmul b) x ∧ (A.tmul A).mul x = A.tmul b := by
  obtain ⟨x, hx⟩ := exists_normal (A.toM A.nrows A.cols) (b.toM A.nrows b.cols)
  refine ⟨ofM x, ⟨ofM_WF x, by simp, by simp⟩, ?_⟩
  apply toM_inj (r := A.cols) (c := b.cols) (Mat.mul_WF _ _) (Mat.tmul_WF _ _) (by simp) (by simp) (by simp) (by simp)
  rw [toM_mul (m := A.cols) (by simp) (by simp) (by simp), toM_tmul (n := A.nrows) rfl rfl rfl rfl, toM_ofM, hx,
    toM_tmul (n := A.nrows) rfl hb rfl rfl]

theorem posDef_inj {S : Mat K} (h : PosDef S) (hs : S.nrows = S.cols) : Function.Injective (S.toM S.nrows S.nrows).mulVec := by
  intro u v huv
  by_contra hne
  obtain ⟨i, hi⟩ := Function.ne_iff.1 hne
  have hp := h.2 (fun k => if hk : k < S.nrows then u ⟨k, hk⟩ - v ⟨k, hk⟩ else 0) ⟨i, i.2, by simp [sub_ne_zero, hi]⟩
  rw [quad_sum] at hp
  have : ∀ a ∈ range S.nrows, ∑ j ∈ range S.cols, (if hk : a < S.nrows then u ⟨a, hk⟩ - v ⟨a, hk⟩ else 0) * S.get a j *
      (if hk : j < S.nrows then u ⟨j, hk⟩ - v ⟨j, hk⟩ else 0) = 0 := by
    intro a ha
    rw [mem_range] at ha
    have e := congrFun huv ⟨a, ha⟩
    simp only [Matrix.mulVec, dotProduct, toM_apply] at e
    rw [← hs, Finset.sum_range]
    simp only [ha, dif_pos, Fin.is_lt, Fin.eta]
    have : ∑ x : Fin S.nrows, (u ⟨a, ha⟩ - v ⟨a, ha⟩) * S.get a x * (u x - v x) =
        (u ⟨a, ha⟩ - v ⟨a, ha⟩) * (∑ x : Fin S.nrows, S.get a x * u x - ∑ x : Fin S.nrows, S.get a x * v x) := by
      rw [← Finset.sum_sub_distrib, Finset.mul_sum]
      apply Finset.sum_congr rfl; intro x _; ring
    rw [this, e, sub_self, mul_zero]
  rw [Finset.sum_eq_zero this] at hp
  exact lt_irrefl _ hp

theorem posDef_sol {S b : Mat K} (h : PosDef S) (hs : S.nrows = S.cols) (hb : b.WF) (hbn : b.nrows = S.nrows) :
    ∃ x, SolShape S b x ∧ S.mul x = b := by
  have hu : IsUnit (S.toM S.nrows S.nrows) := Matrix.mulVec_injective_iff_isUnit.1 (posDef_inj h hs)
  obtain ⟨U, hU⟩ := hu
  refine ⟨ofM ((U⁻¹).1 * b.toM S.nrows b.cols), ⟨ofM_WF _, by simp [hs], by simp⟩, ?_⟩
  apply toM_inj (r := S.nrows) (c := b.cols) (Mat.mul_WF _ _) hb (by simp) (by simp) hbn rfl
  rw [toM_mul (m := S.nrows) rfl (by simp) (by simp), toM_ofM, ← Matrix.mul_assoc, ← hU]
  simp

open Classical in
/-- An environment with exact linear algebra; everything else is taken from `base`. -/
noncomputable def lawEnv (base : Env K) : Env K :=
  { base with
    cast := fun _ x => x
    posv := fun A b => if PosDef (symU A) then (sol (symU A) b, 0) else (Mat.zeros A.cols b.cols, 1)
    pinv := fun A => sol (A.tmul A) (A.tmul (Mat.diag A.nrows 1))
    lstsq := fun A b => sol (A.tmul A) (A.tmul b)
    inv := fun A => if h : ∃ P : Mat K, P.WF ∧ P.nrows = A.nrows ∧ P.cols = A.nrows ∧ P.mul A = Mat.diag A.nrows 1 ∧ A.mul P = Mat.diag A.nrows 1
      then some h.choose else none }

theorem lawEnv_exact (base : Env K) : (lawEnv base).Exact := fun _ _ => rfl

theorem lawEnv_lawful (base : Env K) : Lawful (lawEnv base) where
  posv := by
    intro A b hA hb hs hn
    unfold lawEnv
    simp only
    split
    · have := sol_shape (symU A) b
      unfold SolShape symU at *
      simpa using this
    · exact ⟨Mat.ofFn_WF _ _ _, by simp [Mat.zeros], by simp [Mat.zeros]⟩
  lstsq := by
    intro A b hA hb hs hn
    have := sol_shape (A.tmul A) (A.tmul b)
    unfold SolShape at *
    simpa [lawEnv] using this
  pinv := by
    intro A hA hs
    have := sol_shape (A.tmul A) (A.tmul (Mat.diag A.nrows 1))
    unfold SolShape at this
    simpa [lawEnv] using this
  posv_info := by
    intro A b hA hb hs hn
    unfold lawEnv
    simp only
    split <;> simp_all
  posv_sol := by
    intro A b hA hb hs hn h0
    unfold lawEnv at *
    simp only at *
    split at h0
    · rename_i hp
      rw [if_pos hp]
      exact sol_eq (posDef_sol hp (by simp [symU, hs]) hb (by simp [symU, hn]))
    · simp at h0
  lstsq_sol := by
    intro A b hA hb hs hn
    exact sol_eq (normal_sol hn)
  pinv_sol := by
    intro A hA hs
    exact sol_eq (normal_sol (by simp))
  inv_sol := by
    intro A P hA hs h
    unfold lawEnv at h
    simp only at h
    split at h
    · rename_i hP
      injection h with h
      rw [← h]
      exact hP.choose_spec
    · cases h
  inv_none := by
    intro A hA hs h
    unfold lawEnv at h
    simp only at h
    split at h
    · cases h
    · rename_i hP
      rintro ⟨P, p1, p2, p3, p4⟩
      apply hP
      refine ⟨P, p1, p2, p3, p4, ?_⟩
      have e := congrArg (Mat.toM A.nrows A.nrows) p4
      rw [toM_mul (m := A.nrows) p2 rfl hs.symm, toM_diag, one_smul] at e
      apply toM_inj (r := A.nrows) (c := A.nrows) (Mat.mul_WF _ _) (Mat.diag_WF _ _) (by simp) (by simp [p3]) (by simp) (by simp)
      rw [toM_mul (m := A.nrows) rfl p2 p3, toM_diag, one_smul]
      exact mul_eq_one_comm.1 e

end Hpelm
