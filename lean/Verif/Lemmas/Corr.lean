import Verif.Lemmas.Core

/-! How the accumulated matrices are stored by the solvers, and what `get_corr` returns. -/

set_option linter.unusedSectionVars false

namespace Hpelm
open Spec
variable {K : Type} [Field K] [LinearOrder K]

/-- Does this solver store only the upper triangle? -/
def NNet.tri (n : NNet K) : Bool :=
  match n.solver, n.prec with
  | .basic, _ => false
  | .python, _ => true
  | .cuda, .double => false
  | .cuda, .single => true

/-- How the symmetric matrix `S` is stored. -/
def NNet.store (n : NNet K) (S : Mat K) : Mat K := if n.tri then triu S else S

theorem triu_nrows (M : Mat K) : (triu M).nrows = M.nrows := by simp [triu]
theorem triu_cols (M : Mat K) : (triu M).cols = M.cols := by simp [triu]
theorem triu_WF (M : Mat K) : (triu M).WF := Mat.ofFn_WF _ _ _
theorem get_triu {M : Mat K} {i j : Nat} (hi : i < M.nrows) (hj : j < M.cols) :
    (triu M).get i j = if i ≤ j then M.get i j else 0 := by unfold triu; rw [Mat.get_ofFn_lt hi hj]

theorem store_nrows (n : NNet K) (S : Mat K) : (n.store S).nrows = S.nrows := by
  unfold NNet.store; split <;> simp [triu_nrows]
theorem store_cols (n : NNet K) (S : Mat K) : (n.store S).cols = S.cols := by
  unfold NNet.store; split <;> simp [triu_cols]

theorem updHH_tri (n : NNet K) (HH H : Mat K) : n.updHH HH H = if n.tri then syrkUpper HH H else HH.add (H.tmul H) := by
  unfold NNet.updHH NNet.tri
  cases n.solver <;> cases n.prec <;> rfl

theorem updHH_store (n : NNet K) (S H : Mat K) (h : H.cols = S.cols) (hs : S.nrows = S.cols) :
    n.updHH (n.store S) H = n.store (S.add (H.tmul H)) := by
  rw [updHH_tri]
  unfold NNet.store
  split
  · unfold syrkUpper
    rw [triu_nrows, triu_cols]
    conv_rhs => unfold triu
    simp only [Mat.add_nrows, Mat.add_cols]
    apply Mat.ofFn_congr
    intro i j hi hj
    rw [get_triu hi hj]
    split
    · rw [Mat.get_add hi hj]
    · rfl
  · rfl

theorem diag_store (n : NNet K) (L : Nat) (v : K) : n.store (Mat.diag L v) = Mat.diag L v := by
  unfold NNet.store
  split
  · apply Mat.ext_get (triu_WF _) (Mat.diag_WF _ _) (triu_nrows _) (triu_cols _)
    intro i j hi hj
    rw [triu_nrows] at hi
    rw [triu_cols] at hj
    rw [get_triu hi hj]
    split
    · rfl
    · rename_i h
      simp only [Mat.diag, Mat.ofFn_nrows, Mat.ofFn_cols] at hi hj
      rw [Mat.get_diag hi hj, if_neg (by omega)]
  · rfl

/-- Symmetric square matrix. -/
structure SymM (S : Mat K) : Prop where
  wf : S.WF
  square : S.nrows = S.cols
  symm : ∀ i j, S.get i j = S.get j i

theorem triu_fill {S : Mat K} (h : SymM S) : (triu S).add (triu1T (triu S)) = S := by
  apply Mat.ext_get (Mat.add_WF _ _) h.wf (by simp [triu_nrows]) (by simp [triu_cols])
  intro i j hi hj
  simp only [Mat.add_nrows, Mat.add_cols, triu_nrows, triu_cols] at hi hj
  have hj' : j < S.nrows := by rw [h.square]; exact hj
  have hi' : i < S.cols := by rw [← h.square]; exact hi
  rw [Mat.get_add (by rw [triu_nrows]; exact hi) (by rw [triu_cols]; exact hj), get_triu hi hj]
  unfold triu1T
  rw [Mat.get_ofFn_lt (by rw [triu_nrows]; exact hi) (by rw [triu_cols]; exact hj), get_triu hj' hi']
  by_cases h1 : i ≤ j
  · rw [if_pos h1, if_neg (by omega), add_zero]
  · rw [if_neg h1, if_pos (by omega), if_pos (by omega), zero_add, h.symm]

theorem triu_fill_full {S : Mat K} (h : SymM S) : (triu S).add (triu1T S) = S := by
  conv_rhs => rw [← triu_fill h]
  congr 1
  unfold triu1T
  rw [triu_nrows, triu_cols]
  apply Mat.ofFn_congr
  intro i j hi hj
  split
  · rename_i hji
    rw [get_triu (by rw [h.square]; exact hj) (by rw [← h.square]; exact hi), if_pos (by omega)]
  · rfl

theorem triu_triu (S : Mat K) : triu (triu S) = triu S := by
  apply Mat.ext_get (triu_WF _) (triu_WF _) (triu_nrows _) (triu_cols _)
  intro i j hi hj
  rw [triu_nrows] at hi
  rw [triu_cols] at hj
  rw [get_triu hi hj]
  rw [triu_nrows] at hi
  rw [triu_cols] at hj
  rw [get_triu hi hj]
  split <;> rfl

/-- `get_corr` returns the symmetric matrix, however it is stored. -/
theorem getCorr_store (n : NNet K) {S HT : Mat K} (h : SymM S) (hc : n.corr = some (n.store S, HT)) :
    n.getCorr = .ok (some (S, HT)) := by
  unfold NNet.getCorr
  rw [hc]
  unfold NNet.store NNet.tri
  cases n.solver <;> cases n.prec <;> simp [triu_fill h, triu_fill_full h, triu_triu]

theorem tmul_self_symm (H : Mat K) : SymM (H.tmul H) := by
  refine ⟨Mat.tmul_WF _ _, by simp, ?_⟩
  intro i j
  by_cases hi : i < H.cols
  · by_cases hj : j < H.cols
    · rw [Mat.get_tmul hi hj, Mat.get_tmul hj hi]
      congr 1
      have hz : H.rows.zip H.rows = H.rows.map fun r => (r, r) := by
        simpa using List.zip_map' (f := id) (g := id) (l := H.rows)
      rw [hz, List.map_map, List.map_map]
      apply List.map_congr_left
      intro r _
      exact mul_comm _ _
    · rw [Mat.get_ge_cols _ (Mat.tmul_WF _ _) (by simpa using hj), Mat.get_ge_rows _ (by simpa using hj)]
  · rw [Mat.get_ge_cols (j := i) _ (Mat.tmul_WF _ _) (by simpa using hi), Mat.get_ge_rows _ (by simpa using hi)]

theorem SymM.add {A B : Mat K} (hA : SymM A) (hB : SymM B) (h : B.nrows = A.nrows) : SymM (A.add B) := by
  have hc : B.cols = A.cols := by rw [← hA.square, ← hB.square, h]
  refine ⟨Mat.add_WF _ _, by simp [hA.square], ?_⟩
  intro i j
  rw [get_add_same hA.wf hB.wf h hc, get_add_same hA.wf hB.wf h hc, hA.symm, hB.symm]

theorem SymM.diag (n : Nat) (v : K) : SymM (Mat.diag n v) := by
  refine ⟨Mat.diag_WF _ _, by simp [Mat.diag], ?_⟩
  intro i j
  unfold Mat.diag
  rw [Mat.get_ofFn, Mat.get_ofFn]
  by_cases h : i = j
  · subst h; rfl
  · rw [if_neg h, if_neg (Ne.symm h)]; simp

end Hpelm
