import Verif.Lemmas.Bridge
import Mathlib.Tactic.Ring
import Mathlib.Tactic.LinearCombination
import Mathlib.Tactic.Positivity
import Mathlib.Algebra.Order.BigOperators.Ring.Finset

/-! The accumulated matrices as explicit sums; positive definiteness; solving; ridge regression. -/

set_option linter.unusedSectionVars false

namespace Hpelm
open Spec Finset
variable {K : Type} [Field K] [LinearOrder K]

/-- Scale factor of sample `s`. -/
def wfac (env : Env K) (p : Prec) (w : Option (List K)) (s : Nat) : K :=
  match w with
  | none => 1
  | some v => env.cast p (env.sqrt (v.getD s 0))

theorem get_wRows (env : Env K) (p : Prec) (w : Option (List K)) (c : Nat) (rows : List (List K))
    (hw : ∀ v, w = some v → v.length = rows.length) {s : Nat} (hs : s < rows.length) (i : Nat) :
    Mat.get ⟨c, wRows env p w rows⟩ s i = wfac env p w s * Mat.get ⟨c, rows⟩ s i := by
  cases w with
  | none => simp [wRows, wfac]
  | some v =>
    have hl := hw v rfl
    have hs' : s < v.length := by omega
    unfold Mat.get wRows wfac
    simp only [List.getD_eq_getElem?_getD, List.getElem?_zipWith, List.getElem?_eq_getElem hs, List.getElem?_eq_getElem hs',
      Option.map₂_some_some, Option.getD_some]
    rw [List.getElem?_map]
    cases rows[s][i]? <;> simp

/-- One `add_batch`, as sums over the samples. -/
theorem addBatch_sums {env : Env K} {n n' : NNet K} {X T S0 HT0 : Mat K} {w : Option (List K)}
    (h0 : n.corr0 = (n.store S0, HT0)) (hS : SymM S0) (hN : X.nrows = T.nrows) (hT : T.WF)
    (hw : ∀ v, w = some v → v.length = T.nrows)
    (h : n.addBatch env X T w = .ok n') :
    ∃ H S HT, n.project env X = .ok H ∧ H.nrows = X.nrows ∧ H.cols = S0.cols ∧ T.cols = n.outputs ∧
      n' = { n with corr := some (n.store S, HT) } ∧ SymM S ∧ S.nrows = S0.nrows ∧ HT.WF ∧ HT.nrows = HT0.nrows ∧ HT.cols = HT0.cols ∧
      (∀ i j, i < S0.nrows → j < S0.cols → S.get i j = S0.get i j +
        ∑ s ∈ range X.nrows, wfac env n.prec w s * wfac env n.prec w s * H.get s i * H.get s j) ∧
      (∀ i j, i < HT0.nrows → j < HT0.cols → i < S0.cols → j < T.cols → HT.get i j = HT0.get i j +
        ∑ s ∈ range X.nrows, wfac env n.prec w s * wfac env n.prec w s * H.get s i * env.cast n.prec (T.get s j)) := by
  rw [addBatch_eq] at h
  cases hp : n.project env X with
  | error e => rw [hp] at h; cases h
  | ok H =>
    rw [hp] at h
    simp only [Except.bind] at h
    have hHn : H.nrows = X.nrows := by
      obtain ⟨_, _, _, rfl⟩ := (project_ok_iff _ _ _ _).1 hp
      simp [Mat.nrows]
    have hTn : (T.map (env.cast n.prec)).nrows = T.nrows := by simp
    rw [accum_weighted] at h
    swap
    · intro v hv
      rw [hTn, hHn, hN]
      exact ⟨hw v hv, hw v hv⟩
    rw [accum_none, h0] at h
    have l1 : (wRows env n.prec w H.rows).length = X.nrows := by
      rw [wRows_length]
      · exact hHn
      · intro v hv
        rw [hw v hv, ← hN, ← hHn]; rfl
    have l2 : (wRows env n.prec w (T.map (env.cast n.prec)).rows).length = X.nrows := by
      rw [wRows_length]
      · simp [Mat.nrows] at hN ⊢; omega
      · intro v hv
        rw [hw v hv]; simp [Mat.nrows]
    simp only [Mat.nrows_mk, l1, l2, ne_eq, not_true_eq_false, false_or, Mat.map_cols, store_cols] at h
    split at h
    · cases h
    · rename_i hTc
      split at h
      · cases h
      · rename_i hHc
        push Not at hTc hHc
        injection h with h
        refine ⟨H, S0.add (Mat.tmul ⟨H.cols, wRows env n.prec w H.rows⟩ ⟨H.cols, wRows env n.prec w H.rows⟩),
          HT0.add (Mat.tmul ⟨H.cols, wRows env n.prec w H.rows⟩ ⟨T.cols, wRows env n.prec w (T.map (env.cast n.prec)).rows⟩),
          rfl, hHn, hHc, hTc, ?_, ?_, by simp, Mat.add_WF _ _, ?_, ?_, ?_, ?_⟩
        · rw [← h, updHH_store _ _ _ (by simpa using hHc) hS.square]
        · exact hS.add (tmul_self_symm _) (by simp [hHc, hS.square])
        · simp
        · simp
        · intro i j hi hj
          have hi' : i < H.cols := by rw [hHc, ← hS.square]; exact hi
          have hj' : j < H.cols := by rw [hHc]; exact hj
          rw [Mat.get_add hi hj, get_tmul_sum rfl (by simpa using hi') (by simpa using hj')]
          congr 1
          simp only [Mat.nrows_mk, l1]
          apply Finset.sum_congr rfl
          intro s hs
          have hs' : s < H.rows.length := by rw [Finset.mem_range] at hs; rw [← hHn] at hs; exact hs
          have hw' : ∀ v, w = some v → v.length = H.rows.length := by
            intro v hv; rw [hw v hv, ← hN, ← hHn]; rfl
          rw [get_wRows env n.prec w H.cols H.rows hw' hs', get_wRows env n.prec w H.cols H.rows hw' hs']
          ring
        · intro i j hi hj hi2 hj2
          have hi' : i < H.cols := by rw [hHc]; exact hi2
          rw [Mat.get_add hi hj, get_tmul_sum (by simp only [Mat.nrows_mk, l1, l2]) (by simpa using hi') (by simpa using hj2)]
          congr 1
          simp only [Mat.nrows_mk, l1]
          apply Finset.sum_congr rfl
          intro s hs
          rw [Finset.mem_range] at hs
          have hs1 : s < H.rows.length := by rw [← hHn] at hs; exact hs
          have hs2 : s < T.nrows := by omega
          have hs3 : s < (T.map (env.cast n.prec)).rows.length := by simp only [Mat.map_rows, List.length_map]; exact hs2
          have hw1 : ∀ v, w = some v → v.length = H.rows.length := by
            intro v hv; rw [hw v hv, ← hN, ← hHn]; rfl
          have hw2 : ∀ v, w = some v → v.length = (T.map (env.cast n.prec)).rows.length := by
            intro v hv; rw [hw v hv]; simp [Mat.nrows]
          rw [get_wRows env n.prec w H.cols H.rows hw1 hs1, get_wRows env n.prec w T.cols _ hw2 hs3]
          have : Mat.get ⟨T.cols, (T.map (env.cast n.prec)).rows⟩ s j = env.cast n.prec (T.get s j) :=
            Mat.get_map hT hs2 hj2
          rw [this]
          ring

/-! ### Positive definiteness -/

theorem quad_sum (A : Mat K) (x : Nat → K) : quad A x = ∑ i ∈ range A.nrows, ∑ j ∈ range A.cols, x i * A.get i j * x j := by
  unfold quad
  rw [sum_range_list]
  apply Finset.sum_congr rfl
  intro i _
  rw [sum_range_list]

/-- Quadratic form of a regularised weighted Gram matrix. -/
theorem quad_gram {S : Mat K} {L N : Nat} {lam : K} {g : Nat → K} {h : Nat → Nat → K} (h1 : S.nrows = L) (h2 : S.cols = L)
    (hS : ∀ i j, i < L → j < L → S.get i j = (if i = j then lam else 0) + ∑ s ∈ range N, g s * h s i * h s j) (x : Nat → K) :
    quad S x = lam * ∑ i ∈ range L, x i * x i + ∑ s ∈ range N, g s * ((∑ i ∈ range L, h s i * x i) * (∑ i ∈ range L, h s i * x i)) := by
  rw [quad_sum, h1, h2]
  have e1 : ∀ i ∈ range L, ∑ j ∈ range L, x i * S.get i j * x j =
      lam * (x i * x i) + ∑ j ∈ range L, ∑ s ∈ range N, g s * ((h s i * x i) * (h s j * x j)) := by
    intro i hi
    rw [Finset.mem_range] at hi
    have : ∀ j ∈ range L, x i * S.get i j * x j = (if i = j then lam * (x i * x j) else 0) + ∑ s ∈ range N, g s * ((h s i * x i) * (h s j * x j)) := by
      intro j hj
      rw [Finset.mem_range] at hj
      rw [hS i j hi hj, mul_add, add_mul, Finset.mul_sum, Finset.sum_mul]
      congr 1
      · split <;> ring
      · apply Finset.sum_congr rfl; intro s _; ring
    rw [Finset.sum_congr rfl this, Finset.sum_add_distrib, Finset.sum_ite_eq, if_pos (Finset.mem_range.2 hi)]
  rw [Finset.sum_congr rfl e1, Finset.sum_add_distrib, Finset.mul_sum]
  congr 1
  have : ∀ i ∈ range L, ∑ j ∈ range L, ∑ s ∈ range N, g s * ((h s i * x i) * (h s j * x j)) =
      ∑ s ∈ range N, ∑ j ∈ range L, g s * ((h s i * x i) * (h s j * x j)) := fun i _ => Finset.sum_comm
  rw [Finset.sum_congr rfl this, Finset.sum_comm]
  apply Finset.sum_congr rfl
  intro s _
  rw [Finset.sum_mul_sum, Finset.mul_sum]
  apply Finset.sum_congr rfl
  intro i _
  rw [Finset.mul_sum]

section ordered
variable [IsStrictOrderedRing K]

theorem posDef_gram {S : Mat K} {L N : Nat} {lam : K} {g : Nat → K} {h : Nat → Nat → K} (hs : SymM S) (h1 : S.nrows = L) (h2 : S.cols = L)
    (hS : ∀ i j, i < L → j < L → S.get i j = (if i = j then lam else 0) + ∑ s ∈ range N, g s * h s i * h s j)
    (hl : 0 < lam) (hg : ∀ s < N, 0 ≤ g s) : PosDef S := by
  refine ⟨hs.symm, ?_⟩
  rintro x ⟨i, hi, hx⟩
  rw [quad_gram h1 h2 hS]
  have p1 : 0 < ∑ i ∈ range L, x i * x i := by
    apply Finset.sum_pos'
    · intro i _; exact mul_self_nonneg _
    · exact ⟨i, Finset.mem_range.2 (by omega), mul_self_pos.2 hx⟩
  have p2 : 0 ≤ ∑ s ∈ range N, g s * ((∑ i ∈ range L, h s i * x i) * (∑ i ∈ range L, h s i * x i)) := by
    apply Finset.sum_nonneg
    intro s hs
    exact mul_nonneg (hg s (Finset.mem_range.1 hs)) (mul_self_nonneg _)
  have := mul_pos hl p1
  linarith

/-- Multiplication by a positive definite matrix can be cancelled. -/
theorem posDef_cancel {S A B : Mat K} (h : PosDef S) (hs : S.nrows = S.cols) (hA : A.WF) (hB : B.WF)
    (a1 : A.nrows = S.cols) (b1 : B.nrows = S.cols) (c : A.cols = B.cols) (he : S.mul A = S.mul B) : A = B := by
  apply Mat.ext_get hA hB (by omega) c
  intro i j hi hj
  by_contra hne
  have hpos := h.2 (fun k => A.get k j - B.get k j) ⟨i, by omega, sub_ne_zero.2 hne⟩
  rw [quad_sum] at hpos
  have : ∑ i ∈ range S.nrows, ∑ k ∈ range S.cols, (A.get i j - B.get i j) * S.get i k * (A.get k j - B.get k j) = 0 := by
    apply Finset.sum_eq_zero
    intro r hr
    rw [Finset.mem_range] at hr
    have e1 := get_mul_sum (A := S) (B := A) hr hj
    have e2 := get_mul_sum (A := S) (B := B) hr (by rw [← c]; exact hj)
    rw [he, e2] at e1
    rw [a1, b1] at e1
    have : ∑ k ∈ range S.cols, (A.get r j - B.get r j) * S.get r k * (A.get k j - B.get k j) =
        (A.get r j - B.get r j) * (∑ k ∈ range S.cols, S.get r k * A.get k j - ∑ k ∈ range S.cols, S.get r k * B.get k j) := by
      rw [← Finset.sum_sub_distrib, Finset.mul_sum]
      apply Finset.sum_congr rfl
      intro k _; ring
    rw [this, e1, sub_self, mul_zero]
  simp only [this, lt_self_iff_false] at hpos

theorem symU_WF (A : Mat K) : (symU A).WF := Mat.ofFn_WF _ _ _

theorem symU_store (n : NNet K) {S : Mat K} (h : SymM S) : symU (n.store S) = S := by
  unfold symU
  rw [store_nrows, store_cols]
  apply Mat.ext_get (Mat.ofFn_WF _ _ _) h.wf (by simp) (by simp)
  intro i j hi hj
  simp only [Mat.ofFn_nrows, Mat.ofFn_cols] at hi hj
  rw [Mat.get_ofFn_lt hi hj]
  have hj' : j < S.nrows := by rw [h.square]; exact hj
  have hi' : i < S.cols := by rw [← h.square]; exact hi
  unfold NNet.store
  by_cases hij : i ≤ j
  · rw [if_pos hij]
    split
    · rw [get_triu hi hj, if_pos hij]
    · rfl
  · rw [if_neg hij]
    split
    · rw [get_triu hj' hi', if_pos (by omega), h.symm]
    · rw [h.symm]

theorem symU_sym {S : Mat K} (h : SymM S) : symU S = S := by
  unfold symU
  apply Mat.ext_get (Mat.ofFn_WF _ _ _) h.wf (by simp) (by simp)
  intro i j hi hj
  simp only [Mat.ofFn_nrows, Mat.ofFn_cols] at hi hj
  rw [Mat.get_ofFn_lt hi hj]
  split
  · rfl
  · rw [h.symm]

/-- In exact arithmetic every solver solves a positive definite system, given in full or as it is stored. -/
theorem solveCorr_posDef {env : Env K} (hl : Lawful env) (hx : env.Exact) (n : NNet K) {S A HT : Mat K} (hS : SymM S) (hp : PosDef S)
    (hA : A = S ∨ A = n.store S) (hT : HT.WF) (hTn : HT.nrows = S.nrows) :
    S.mul (n.solveCorr env A HT) = HT ∧ SolShape S HT (n.solveCorr env A HT) := by
  have hAwf : A.WF := by
    rcases hA with rfl | rfl
    · exact hS.wf
    · unfold NNet.store; split
      · exact triu_WF _
      · exact hS.wf
  have hAn : A.nrows = S.nrows := by rcases hA with rfl | rfl <;> simp [store_nrows]
  have hAc : A.cols = S.cols := by rcases hA with rfl | rfl <;> simp [store_cols]
  have hAU : symU A = S := by
    rcases hA with rfl | rfl
    · exact symU_sym hS
    · exact symU_store n hS
  have hsq : A.nrows = A.cols := by rw [hAn, hAc, hS.square]
  have hTA : HT.nrows = A.nrows := by rw [hTn, hAn]
  have hposv := hl.posv_info A HT hAwf hT hsq hTA
  rw [hAU] at hposv
  have hinfo := hposv.2 hp
  have hsol := hl.posv_sol A HT hAwf hT hsq hTA hinfo
  rw [hAU] at hsol
  have hsh : SolShape S HT (n.solveCorr env A HT) := by
    have := solveCorr_shape hl.toShapes n hAwf hT hsq hTA
    unfold SolShape at *
    rw [hAc] at this
    exact this
  refine ⟨?_, hsh⟩
  unfold NNet.solveCorr
  split
  · -- basic
    rename_i hb
    have hAS : A = S := by
      rcases hA with h | h
      · exact h
      · rw [h]; unfold NNet.store NNet.tri; rw [hb]; rfl
    subst hAS
    obtain ⟨p1, p2, p3⟩ := hl.pinv A hS.wf hsq
    have hpinv := hl.pinv_sol A hS.wf hsq
    set P := env.pinv A
    -- S S P = S
    have e1 := congrArg (Mat.toM A.nrows A.nrows) hpinv
    rw [toM_mul (m := A.nrows) (by simp [hsq]) (by rw [p2, ← hsq]) p3, toM_tmul (n := A.nrows) rfl rfl hsq.symm hsq.symm,
      toM_tmul (n := A.nrows) rfl (by simp) hsq.symm (by simp), toM_diag, toM_symm hS, one_smul, Matrix.mul_one,
      Matrix.mul_assoc] at e1
    -- cancel twice
    have e2 : A.mul (A.mul (P.mul HT)) = A.mul HT := by
      apply toM_inj (r := A.nrows) (c := HT.cols) (Mat.mul_WF _ _) (Mat.mul_WF _ _) (by simp) (by simp) (by simp) (by simp)
      rw [toM_mul (m := A.nrows) rfl (by simp) (by simp), toM_mul (m := A.nrows) rfl (by simp [p2, hsq]) (by simp),
        toM_mul (m := A.nrows) (by rw [p2, ← hsq]) hTn rfl, toM_mul (m := A.nrows) rfl hTn rfl,
        ← Matrix.mul_assoc, ← Matrix.mul_assoc]
      rw [← Matrix.mul_assoc] at e1
      rw [e1]
    exact posDef_cancel hp hS.square (Mat.mul_WF _ _) hT (by simp [hsq]) (by rw [hTn, hsq]) (by simp) e2
  · simp only [hinfo, gt_iff_lt, lt_self_iff_false, if_false]
    exact hsol
  · simp only [hinfo, gt_iff_lt, lt_self_iff_false, if_false]
    rw [Mat.map_id' (hx n.prec)]
    exact hsol

/-! ### Ridge regression, one output -/

/-- Expansion of the penalised squared error around a solution of the normal equations. -/
theorem ridge_expand {N L : Nat} {lam : K} {g t b b' : Nat → K} {h : Nat → Nat → K}
    (hn : ∀ k < L, lam * b k + ∑ s ∈ range N, g s * h s k * (∑ l ∈ range L, h s l * b l) = ∑ s ∈ range N, g s * h s k * t s) :
    (∑ s ∈ range N, g s * (∑ l ∈ range L, h s l * b' l - t s) ^ 2) + lam * ∑ k ∈ range L, b' k ^ 2 =
      (∑ s ∈ range N, g s * (∑ l ∈ range L, h s l * b l - t s) ^ 2) + lam * ∑ k ∈ range L, b k ^ 2 +
      ((∑ s ∈ range N, g s * (∑ l ∈ range L, h s l * (b' l - b l)) ^ 2) + lam * ∑ k ∈ range L, (b' k - b k) ^ 2) := by
  have hd : ∀ s, ∑ l ∈ range L, h s l * b' l = ∑ l ∈ range L, h s l * b l + ∑ l ∈ range L, h s l * (b' l - b l) := by
    intro s
    rw [← Finset.sum_add_distrib]
    apply Finset.sum_congr rfl; intro l _; ring
  have e1 : ∑ s ∈ range N, g s * (∑ l ∈ range L, h s l * b' l - t s) ^ 2 =
      (∑ s ∈ range N, g s * (∑ l ∈ range L, h s l * b l - t s) ^ 2) +
      2 * (∑ s ∈ range N, g s * (∑ l ∈ range L, h s l * b l - t s) * (∑ l ∈ range L, h s l * (b' l - b l))) +
      ∑ s ∈ range N, g s * (∑ l ∈ range L, h s l * (b' l - b l)) ^ 2 := by
    rw [Finset.mul_sum, ← Finset.sum_add_distrib, ← Finset.sum_add_distrib]
    apply Finset.sum_congr rfl; intro s _
    rw [hd s]; ring
  have e2 : ∑ k ∈ range L, b' k ^ 2 = ∑ k ∈ range L, b k ^ 2 + 2 * ∑ k ∈ range L, b k * (b' k - b k) + ∑ k ∈ range L, (b' k - b k) ^ 2 := by
    rw [Finset.mul_sum, ← Finset.sum_add_distrib, ← Finset.sum_add_distrib]
    apply Finset.sum_congr rfl; intro s _; ring
  have e3 : ∑ s ∈ range N, g s * (∑ l ∈ range L, h s l * b l - t s) * (∑ l ∈ range L, h s l * (b' l - b l)) =
      -(lam * ∑ k ∈ range L, b k * (b' k - b k)) := by
    have c1 : ∑ s ∈ range N, g s * (∑ l ∈ range L, h s l * b l - t s) * (∑ l ∈ range L, h s l * (b' l - b l)) =
        ∑ k ∈ range L, (b' k - b k) * (∑ s ∈ range N, g s * h s k * (∑ l ∈ range L, h s l * b l) - ∑ s ∈ range N, g s * h s k * t s) := by
      have : ∀ s ∈ range N, g s * (∑ l ∈ range L, h s l * b l - t s) * (∑ l ∈ range L, h s l * (b' l - b l)) =
          ∑ k ∈ range L, (b' k - b k) * (g s * h s k * (∑ l ∈ range L, h s l * b l) - g s * h s k * t s) := by
        intro s _
        rw [Finset.mul_sum]
        apply Finset.sum_congr rfl; intro k _; ring
      rw [Finset.sum_congr rfl this, Finset.sum_comm]
      apply Finset.sum_congr rfl; intro k _
      rw [← Finset.sum_sub_distrib, Finset.mul_sum]
    rw [c1, Finset.mul_sum, ← Finset.sum_neg_distrib]
    apply Finset.sum_congr rfl; intro k hk
    rw [← hn k (Finset.mem_range.1 hk)]; ring
  rw [e1, e2, e3]; ring

end ordered
end Hpelm
