import Verif.Lemmas.Gram
import Verif.Spec.LeaveOneOut
import Verif.Props.C25_C29_Errors
import Verif.Props.C14_Ridge
import Verif.Lemmas.LawEnv
import Mathlib.LinearAlgebra.Matrix.DotProduct

/-!
# Leave-one-out residuals from one inverse
-/

set_option linter.unusedSectionVars false

namespace Hpelm
open Finset Spec Matrix
variable {K : Type} [Field K] [LinearOrder K]

theorem sum_others (N s : Nat) (hs : s < N) (f : Nat → K) :
    ∑ i ∈ range (others N s).length, f ((others N s).getD i 0) = (∑ i ∈ range N, f i) - f s := by
  rw [← sum_list_rows (others N s) 0 f]
  unfold others
  have h1 : ∀ l : List Nat, (((l.filter fun i => decide (i ≠ s)).map f).sum) = ((l.map fun i => if i = s then 0 else f i).sum) := by
    intro l
    induction l with
    | nil => simp
    | cons a l ih =>
      by_cases h : a = s
      · simp only [ne_eq, decide_not] at ih
        simp [h, ih]
      · simp only [ne_eq, decide_not] at ih
        simp [h, ih]
  rw [h1, sum_range_list]
  have h2 : ∑ i ∈ range N, f i = ∑ i ∈ range N, (if i = s then f s else 0) + ∑ i ∈ range N, (if i = s then 0 else f i) := by
    rw [← Finset.sum_add_distrib]
    apply Finset.sum_congr rfl
    intro i _
    by_cases h : i = s
    · simp [h]
    · simp [h]
  rw [h2, Finset.sum_ite_eq' (range N) s (fun _ => f s), if_pos (Finset.mem_range.2 hs)]
  ring

theorem others_lt {N s i : Nat} (h : i ∈ others N s) : i < N := by
  unfold others at h
  simp only [List.mem_filter, List.mem_range] at h
  exact h.1

theorem selRows_get_getD {M : Mat K} {idx : List Nat} {i j : Nat} (hi : i < idx.length) :
    (M.selRows idx).get i j = M.get (idx.getD i 0) j := by
  rw [Mat.get_selRows hi, List.getD_eq_getElem _ _ hi]

/-- The normal equations without sample `s`, on the full matrices. -/
theorem normalEq_others {H T B : Mat K} {lam : K} {s : Nat} (hs : s < T.nrows) :
    NormalEq (H.selRows (others T.nrows s)) (T.selRows (others T.nrows s)) (fun _ => 1) lam B ↔
    ∀ k < H.cols, ∀ j < T.cols, lam * B.get k j + ∑ i ∈ range T.nrows, H.get i k * predEntry H B i j =
      ∑ i ∈ range T.nrows, H.get i k * T.get i j + H.get s k * (predEntry H B s j - T.get s j) := by
  have e1 : ∀ k j, ∑ i ∈ range (T.selRows (others T.nrows s)).nrows,
      (fun _ => (1 : K)) i * (H.selRows (others T.nrows s)).get i k * predEntry (H.selRows (others T.nrows s)) B i j =
      (∑ i ∈ range T.nrows, H.get i k * predEntry H B i j) - H.get s k * predEntry H B s j := by
    intro k j
    rw [← sum_others _ _ hs (fun i => H.get i k * predEntry H B i j), Mat.selRows_nrows]
    apply Finset.sum_congr rfl
    intro i hi
    have hi := Finset.mem_range.1 hi
    unfold predEntry
    rw [selRows_get_getD hi, one_mul]
    congr 1
    apply Finset.sum_congr rfl
    intro k _
    rw [selRows_get_getD hi]
  have e2 : ∀ k j, ∑ i ∈ range (T.selRows (others T.nrows s)).nrows,
      (fun _ => (1 : K)) i * (H.selRows (others T.nrows s)).get i k * (T.selRows (others T.nrows s)).get i j =
      (∑ i ∈ range T.nrows, H.get i k * T.get i j) - H.get s k * T.get s j := by
    intro k j
    rw [← sum_others _ _ hs (fun i => H.get i k * T.get i j), Mat.selRows_nrows]
    apply Finset.sum_congr rfl
    intro i hi
    have hi := Finset.mem_range.1 hi
    rw [selRows_get_getD hi, selRows_get_getD hi, one_mul]
  unfold NormalEq
  simp only [e1, e2]
  constructor
  · intro h k hk j hj
    linear_combination h k hk j hj
  · intro h k hk j hj
    linear_combination h k hk j hj

section core
variable [IsStrictOrderedRing K] {L N : Nat}

/-- The leverage of a sample is never 1 with positive regularisation. -/
theorem leverage_ne_one {S P : Matrix (Fin L) (Fin L) K} {H : Matrix (Fin N) (Fin L) K} {lam : K} (hl : 0 < lam)
    (hS : S = lam • 1 + Hᵀ * H) (hP : S * P = 1) (s : Fin N) : (H s) ⬝ᵥ (P *ᵥ (H s)) ≠ 1 := by
  intro h1
  obtain ⟨x, hx⟩ : ∃ x, x = P *ᵥ (H s) := ⟨_, rfl⟩
  rw [← hx] at h1
  have hSx : S *ᵥ x = H s := by rw [hx, Matrix.mulVec_mulVec, hP, Matrix.one_mulVec]
  have hxx : x ⬝ᵥ (S *ᵥ x) = 1 := by rw [hSx, dotProduct_comm, h1]
  have e : x ⬝ᵥ (S *ᵥ x) = lam * (x ⬝ᵥ x) + (H *ᵥ x) ⬝ᵥ (H *ᵥ x) := by
    rw [hS, Matrix.add_mulVec, dotProduct_add, Matrix.smul_mulVec, Matrix.one_mulVec, dotProduct_smul, ← Matrix.mulVec_mulVec,
      Matrix.dotProduct_mulVec x Hᵀ, Matrix.vecMul_transpose, smul_eq_mul]
  have hs : (H *ᵥ x) s = 1 := by
    show (H s) ⬝ᵥ x = 1
    exact h1
  have h2 : (1 : K) ≤ (H *ᵥ x) ⬝ᵥ (H *ᵥ x) := by
    have := Finset.single_le_sum (f := fun i => (H *ᵥ x) i * (H *ᵥ x) i) (fun i _ => mul_self_nonneg _) (Finset.mem_univ s)
    simp only [hs, mul_one] at this
    exact this
  have h3 : x ⬝ᵥ x ≤ 0 := by
    by_contra hn
    have := mul_pos hl (not_le.1 hn)
    linarith
  have h4 : x = 0 := by
    have h5 : x ⬝ᵥ x = 0 := le_antisymm h3 (Finset.sum_nonneg fun i _ => mul_self_nonneg (x i))
    exact dotProduct_self_eq_zero.1 h5
  rw [h4] at hs
  simp at hs

/-- The leave-one-out residual is the ordinary residual divided by one minus the leverage. -/
theorem loo_residual {S P : Matrix (Fin L) (Fin L) K} {h b b' ht : Fin L → K} {t : K} (hP : P * S = 1) (hb : b = P *ᵥ ht)
    (hb' : S *ᵥ b' = ht + (h ⬝ᵥ b' - t) • h) : (h ⬝ᵥ b' - t) * (1 - h ⬝ᵥ (P *ᵥ h)) = h ⬝ᵥ b - t := by
  have e : b' = b + (h ⬝ᵥ b' - t) • (P *ᵥ h) := by
    have := congrArg (fun v => P *ᵥ v) hb'
    simp only [Matrix.mulVec_mulVec, hP, Matrix.one_mulVec, Matrix.mulVec_add, Matrix.mulVec_smul] at this
    rw [hb]
    exact this
  have e2 : h ⬝ᵥ b' = h ⬝ᵥ b + (h ⬝ᵥ b' - t) * (h ⬝ᵥ (P *ᵥ h)) := by
    conv_lhs => rw [e]
    rw [dotProduct_add, dotProduct_smul, smul_eq_mul]
  linear_combination e2

end core

variable [IsStrictOrderedRing K]

theorem toM_corr {H T S HT : Mat K} {lam : K} (h : IsCorr H T (fun _ => 1) lam S HT) :
    S.toM H.cols H.cols = lam • 1 + (H.toM T.nrows H.cols)ᵀ * H.toM T.nrows H.cols := by
  ext i j
  rw [toM_apply, h.sumS i i.2 j j.2, Matrix.add_apply, Matrix.smul_apply, Matrix.mul_apply, Finset.sum_range]
  congr 1
  · by_cases e : i = j
    · subst e; simp
    · have : (i : Nat) ≠ j := fun h => e (Fin.ext h)
      simp [e, this]
  · apply Finset.sum_congr rfl
    intro s _
    simp [toM_apply]

theorem predEntry_fin (H B : Mat K) (s j : Nat) : predEntry H B s j = (fun k : Fin H.cols => H.get s k) ⬝ᵥ (fun k => B.get k j) := by
  unfold predEntry
  rw [Finset.sum_range]
  rfl

/-- What the code computes from one inverse, per sample and output. -/
theorem loo_entry {H T S HT P B : Mat K} {lam : K} (h : IsCorr H T (fun _ => 1) lam S HT) (hl : 0 < lam) (hP1 : P.nrows = H.cols)
    (hP2 : P.cols = H.cols) (hPS : P.mul S = Mat.diag S.nrows 1) (hSP : S.mul P = Mat.diag S.nrows 1) {s : Nat} (hs : s < T.nrows)
    (hB : TrainedWithout H T lam s B) {j : Nat} (hj : j < T.cols) :
    (∑ i ∈ range H.cols, (∑ k ∈ range H.cols, H.get s k * P.get k i) * H.get s i) ≠ 1 ∧
    (predEntry H B s j - T.get s j) * (1 - ∑ i ∈ range H.cols, (∑ k ∈ range H.cols, H.get s k * P.get k i) * H.get s i) =
      predEntry H (P.mul HT) s j - T.get s j := by
  have m1 : P.toM H.cols H.cols * S.toM H.cols H.cols = 1 := by
    rw [← toM_mul hP1 h.rowsS h.colsS, hPS, h.rowsS, toM_diag, one_smul]
  have m2 : S.toM H.cols H.cols * P.toM H.cols H.cols = 1 := by
    rw [← toM_mul h.rowsS hP1 hP2, hSP, h.rowsS, toM_diag, one_smul]
  have hq : (∑ i ∈ range H.cols, (∑ k ∈ range H.cols, H.get s k * P.get k i) * H.get s i) =
      (fun k : Fin H.cols => H.get s k) ⬝ᵥ (P.toM H.cols H.cols *ᵥ fun k : Fin H.cols => H.get s k) := by
    rw [Matrix.dotProduct_mulVec, Finset.sum_range]
    apply Finset.sum_congr rfl
    intro i _
    congr 1
    rw [Finset.sum_range]
    rfl
  obtain ⟨w, b1, b2, hn⟩ := hB
  rw [normalEq_others hs] at hn
  refine ⟨?_, ?_⟩
  · rw [hq]
    exact leverage_ne_one hl (toM_corr h) m2 ⟨s, hs⟩
  · rw [hq, predEntry_fin, predEntry_fin]
    apply loo_residual (S := S.toM H.cols H.cols) (ht := fun k => HT.get k j) m1
    · funext k
      rw [get_mul_sum (by rw [hP1]; exact k.2) (by rw [h.colsT]; exact hj), h.rowsT, Finset.sum_range]
      rfl
    · funext k
      simp only [Pi.add_apply, Pi.smul_apply, smul_eq_mul]
      have hk := hn k k.2 j hj
      rw [h.sumT k k.2 j hj, ← predEntry_fin]
      simp only [one_mul]
      rw [mul_comm (predEntry H B s j - T.get s j), ← hk, toM_corr h, Matrix.add_mulVec, Pi.add_apply, Matrix.smul_mulVec,
        Matrix.one_mulVec, Pi.smul_apply, smul_eq_mul, ← Matrix.mulVec_mulVec]
      congr 1
      rw [Finset.sum_range]
      show ∑ i : Fin T.nrows, _ = _
      apply Finset.sum_congr rfl
      intro i _
      rw [predEntry_fin]
      rfl

/-- Without one sample the problem still has exactly one solution. -/
theorem trainedWithout_exists {H T : Mat K} {lam : K} (hl : 0 < lam) (hHT : H.nrows = T.nrows) {s : Nat} (hs : s < T.nrows) :
    ∃ B, TrainedWithout H T lam s B := by
  set H' := H.selRows (others T.nrows s)
  set T' := T.selRows (others T.nrows s)
  let S : Mat K := Mat.ofFn H'.cols H'.cols fun i j => (if i = j then lam else 0) + ∑ s ∈ range T'.nrows, 1 * H'.get s i * H'.get s j
  let HT : Mat K := Mat.ofFn H'.cols T'.cols fun i j => ∑ s ∈ range T'.nrows, 1 * H'.get s i * T'.get s j
  have hc : IsCorr H' T' (fun _ => 1) lam S HT := by
    refine ⟨by simp [H', T'], Mat.ofFn_WF _ _ _, by simp [S], by simp [S], Mat.ofFn_WF _ _ _, by simp [HT], by simp [HT], ?_, ?_⟩
    · intro i hi j hj
      exact Mat.get_ofFn_lt hi hj
    · intro i hi j hj
      exact Mat.get_ofFn_lt hi hj
  obtain ⟨B, ⟨b1, b2, b3⟩, hB⟩ := posDef_sol (hc.posDef hl (fun _ _ => zero_le_one)) (by rw [hc.rowsS, hc.colsS]) hc.wfT
    (by rw [hc.rowsT, hc.rowsS])
  refine ⟨B, b1, by rw [b2, hc.colsS]; rfl, by rw [b3, hc.colsT]; rfl, ?_⟩
  exact Props.solve_normalEq hc.rowsS (by rw [b2, hc.colsS]) (by rw [b3, hc.colsT]) hc.sumS hc.sumT hB

theorem pressR_getD {H P : Mat K} (hH : H.WF) (hP1 : P.nrows = H.cols) (hP2 : P.cols = H.cols) {s : Nat} (hs : s < H.nrows) :
    (pressR H P).getD s 0 = 1 - ∑ i ∈ range H.cols, (∑ k ∈ range H.cols, H.get s k * P.get k i) * H.get s i := by
  have hs' : s < H.rows.length := hs
  unfold pressR
  rw [List.getD_eq_getElem _ _ (by simpa using hs'), List.getElem_map]
  congr 1
  unfold dot
  have hlen : H.rows[s].length = H.cols := hH _ (List.getElem_mem hs')
  have : List.zipWith (· * ·) (Mat.vecMul H.rows[s] P) H.rows[s] =
      (List.range H.cols).map fun i => (∑ k ∈ range H.cols, H.get s k * P.get k i) * H.get s i := by
    apply List.ext_getElem
    · simp [Mat.vecMul, hP2, hlen]
    · intro i h1 h2
      have hi : i < H.cols := by simpa using h2
      simp only [List.getElem_zipWith, List.getElem_map, List.getElem_range, Mat.vecMul]
      rw [sum_range_list]
      have hr : range P.nrows = range H.cols := by rw [hP1]
      simp only [hr]
      have e : ∀ k, H.get s k = (H.rows[s]).getD k 0 := by
        intro k
        simp [Mat.get, List.getD_eq_getElem?_getD, hs']
      simp only [e]
      rw [List.getD_eq_getElem _ _ (by omega : i < H.rows[s].length)]
  rw [this, sum_range_list]

/-- The PRESS error for regression, when no leverage is 1. -/
theorem elmErrorPress_reg {cls : Option String} {wc : Option (List (Option K))} {T Y : Mat K} {R : List K} (h1 : cls ≠ some "c")
    (h2 : cls ≠ some "wc") (h3 : cls ≠ some "ml") (hT : T.WF) (hY : Y.WF) (hr : T.nrows = Y.nrows) (hc : T.cols = Y.cols)
    (hR : R.length = T.nrows) (hN : 0 < T.nrows) (hC : 0 < T.cols) (h0 : ∀ s < T.nrows, R.getD s 0 ≠ 0) :
    elmErrorPress cls wc T Y R = .ok ((∑ s ∈ range T.nrows, ∑ j ∈ range T.cols, ((Y.get s j - T.get s j) / R.getD s 0) ^ 2) /
      ((T.nrows * T.cols : Nat) : K)) := by
  unfold elmErrorPress
  rw [if_neg (by simp [hr, hc, hR]), if_neg h1, if_neg h2, if_neg h3]
  have hd : List.zip (List.zipWith (List.zipWith fun t y => y - t) T.rows Y.rows) R =
      (List.range T.nrows).map fun n => ((List.range T.cols).map fun j => Y.get n j - T.get n j, R.getD n 0) := by
    have hr' : T.rows.length = Y.rows.length := hr
    have hR' : R.length = T.rows.length := hR
    apply List.ext_getElem
    · simp [Mat.nrows, ← hr', hR']
    · intro n a1 a2
      have hn : n < T.rows.length := by simpa [Mat.nrows] using a2
      simp only [List.getElem_zip, List.getElem_zipWith, List.getElem_map, List.getElem_range]
      rw [List.getD_eq_getElem _ _ (by omega)]
      refine Prod.ext ?_ rfl
      have l1 : T.rows[n].length = T.cols := hT _ (List.getElem_mem hn)
      have l2 : Y.rows[n].length = Y.cols := hY _ (List.getElem_mem (by omega))
      apply List.ext_getElem
      · simp [l1, l2, hc]
      · intro j b1 b2
        have hj : j < T.cols := by simpa using b2
        simp only [List.getElem_zipWith, List.getElem_map, List.getElem_range]
        have e1 : T.get n j = (T.rows[n])[j]'(by omega) := by
          simp [Mat.get, List.getD_eq_getElem?_getD, hn, l1, hj]
        have e2 : Y.get n j = (Y.rows[n]'(by omega))[j]'(by omega) := by
          simp [Mat.get, List.getD_eq_getElem?_getD, show n < Y.rows.length by omega, l2, show j < Y.cols by omega]
        rw [e1, e2]
  have hm : (List.zip (List.zipWith (List.zipWith fun t y => y - t) T.rows Y.rows) R).mapM
      (fun p => sqDiv p.1 (List.replicate p.1.length p.2)) =
      .ok ((List.range T.nrows).map fun n => (List.range T.cols).map fun j => ((Y.get n j - T.get n j) / R.getD n 0) ^ 2) := by
    rw [hd, mapM_ok_map _ _ (fun p => p.1.map fun x => (x / p.2) ^ 2)]
    · rw [List.map_map]
      congr 1
      apply List.map_congr_left
      intro n _
      simp
    · intro p hp
      obtain ⟨n, hn, rfl⟩ := List.mem_map.1 hp
      have hn := List.mem_range.1 hn
      unfold sqDiv
      rw [if_neg]
      · congr 1
        apply List.ext_getElem
        · simp
        · intro i _ _
          simp [pow_two]
      · intro hz
        rw [List.mem_replicate] at hz
        exact h0 n hn hz.2.symm
  simp only
  rw [hm]
  show notNan (mean? (List.flatten _)) = _
  have hfl : ((List.range T.nrows).map fun n => (List.range T.cols).map fun j => ((Y.get n j - T.get n j) / R.getD n 0) ^ 2).flatten =
      (List.range T.nrows).flatMap fun n => (List.range T.cols).map fun j => ((Y.get n j - T.get n j) / R.getD n 0) ^ 2 := rfl
  rw [hfl, Props.mean_some (by
      intro h0
      have := congrArg List.length h0
      rw [Props.flatten_length] at this
      have := Nat.mul_pos hN hC
      simp at *
      omega), Props.flatten_length, Props.flatten_sum]

/-- The score computed from one inverse is the leave-one-out error. -/
theorem scoreLOO_exact {env : Env K} (hlw : Lawful env) (e : ELM K) {H T S HT : Mat K} {lam : K}
    (hc : e.classification ≠ some "c" ∧ e.classification ≠ some "wc" ∧ e.classification ≠ some "ml")
    (h : IsCorr H T (fun _ => 1) lam S HT) (hl : 0 < lam) (hH : H.WF) (hT : T.WF) (hN : 0 < T.nrows) (hC : 0 < T.cols) :
    ∃ v, scoreLOO env e S HT H T = .ok v ∧ IsLooError H T lam v := by
  have hpd := h.posDef hl (fun _ _ => zero_le_one)
  have hsq : S.nrows = S.cols := by rw [h.rowsS, h.colsS]
  unfold scoreLOO
  cases hi : env.inv S with
  | none =>
    exfalso
    apply hlw.inv_none S h.wfS hsq hi
    obtain ⟨P, ⟨p1, p2, p3⟩, hP⟩ := posDef_sol hpd hsq (b := Mat.diag S.nrows 1) (Mat.ofFn_WF _ _ _) (by simp [Mat.diag])
    have p3' : P.cols = S.nrows := by simpa [Mat.diag] using p3
    refine ⟨P, p1, by rw [p2, hsq], p3', ?_⟩
    apply toM_inj (r := S.nrows) (c := S.nrows) (Mat.mul_WF _ _) (B := Mat.diag S.nrows 1) (Mat.ofFn_WF _ _ _) (by simp [p2, hsq]) (by simp [hsq]) (by simp [Mat.diag]) (by simp [Mat.diag])
    rw [toM_mul (m := S.nrows) (by rw [p2, hsq]) rfl hsq.symm, toM_diag, one_smul]
    rw [mul_eq_one_comm, ← toM_mul rfl (by rw [p2, hsq]) p3', hP, toM_diag, one_smul]
  | some P =>
    obtain ⟨p1, p2, p3, p4, p5⟩ := hlw.inv_sol S P h.wfS hsq hi
    rw [h.rowsS] at p2 p3
    choose B hB using fun s : Fin T.nrows => trainedWithout_exists (lam := lam) hl h.samples s.2
    have key : ∀ s (hs : s < T.nrows), ∀ j < T.cols, _ := fun s hs j hj => loo_entry h hl p2 p3 p4 p5 hs (hB ⟨s, hs⟩) hj
    have hR : ∀ s < T.nrows, (pressR H P).getD s 0 ≠ 0 := by
      intro s hs
      rw [pressR_getD hH p2 p3 (by rw [h.samples]; exact hs)]
      intro h0
      exact (key s hs 0 hC).1 (by linear_combination -h0)
    refine ⟨_, elmErrorPress_reg hc.1 hc.2.1 hc.2.2 hT (Mat.mul_WF _ _) (by simp [h.samples]) (by simp [h.colsT])
      (by simpa [pressR, Mat.nrows] using h.samples) hN hC hR, ?_⟩
    refine ⟨fun s => if hs : s < T.nrows then B ⟨s, hs⟩ else ⟨0, []⟩, ?_, ?_⟩
    · intro s hs
      simp only [hs, dif_pos]
      exact hB ⟨s, hs⟩
    · congr 1
      apply Finset.sum_congr rfl
      intro s hs
      have hs := Finset.mem_range.1 hs
      apply Finset.sum_congr rfl
      intro j hj
      have hj := Finset.mem_range.1 hj
      simp only [hs, dif_pos]
      congr 1
      rw [div_eq_iff (hR s hs), pressR_getD hH p2 p3 (by rw [h.samples]; exact hs), (key s hs j hj).2]
      congr 1
      rw [get_mul_sum (by rw [h.samples]; exact hs) (by simpa [h.colsT] using hj)]
      unfold predEntry
      simp [p2]

end Hpelm
