import Verif.Lemmas.Press
import Verif.Lemmas.ErrorSpec
import Verif.Lemmas.Unweighted

/-!
# Leave-one-out scores of classifiers
-/

set_option linter.unusedSectionVars false

namespace Hpelm
open Finset Spec Matrix
variable {K : Type} [Field K] [LinearOrder K] [IsStrictOrderedRing K]

/-- The leverage of a sample is in [0, 1) with positive regularisation. -/
theorem leverage_range {L N : Nat} {S P : Matrix (Fin L) (Fin L) K} {H : Matrix (Fin N) (Fin L) K} {lam : K} (hl : 0 < lam)
    (hS : S = lam • 1 + Hᵀ * H) (hP : S * P = 1) (s : Fin N) : 0 ≤ (H s) ⬝ᵥ (P *ᵥ (H s)) ∧ (H s) ⬝ᵥ (P *ᵥ (H s)) < 1 := by
  have hne := leverage_ne_one hl hS hP s
  obtain ⟨x, hx⟩ : ∃ x, x = P *ᵥ (H s) := ⟨_, rfl⟩
  rw [← hx] at hne ⊢
  obtain ⟨q, hq⟩ : ∃ q, q = (H s) ⬝ᵥ x := ⟨_, rfl⟩
  have hSx : S *ᵥ x = H s := by rw [hx, Matrix.mulVec_mulVec, hP, Matrix.one_mulVec]
  have hxx : x ⬝ᵥ (S *ᵥ x) = q := by rw [hSx, dotProduct_comm, hq]
  have e : x ⬝ᵥ (S *ᵥ x) = lam * (x ⬝ᵥ x) + (H *ᵥ x) ⬝ᵥ (H *ᵥ x) := by
    rw [hS, Matrix.add_mulVec, dotProduct_add, Matrix.smul_mulVec, Matrix.one_mulVec, dotProduct_smul, ← Matrix.mulVec_mulVec,
      Matrix.dotProduct_mulVec x Hᵀ, Matrix.vecMul_transpose, smul_eq_mul]
  have hs : (H *ᵥ x) s = q := by rw [hq]; rfl
  have h2 : q * q ≤ (H *ᵥ x) ⬝ᵥ (H *ᵥ x) := by
    have := Finset.single_le_sum (f := fun i => (H *ᵥ x) i * (H *ᵥ x) i) (fun i _ => mul_self_nonneg _) (Finset.mem_univ s)
    simp only [hs] at this
    exact this
  have h3 : 0 ≤ x ⬝ᵥ x := Finset.sum_nonneg fun i _ => mul_self_nonneg (x i)
  have h4 : 0 ≤ lam * (x ⬝ᵥ x) := mul_nonneg hl.le h3
  rw [← hq] at hne ⊢
  refine ⟨by nlinarith [mul_self_nonneg q], lt_of_le_of_ne ?_ hne⟩
  by_contra hn
  nlinarith

/-- The same for the sums the model computes. -/
theorem leverage_sum_range {H T S HT P : Mat K} {lam : K} (h : IsCorr H T (fun _ => 1) lam S HT) (hl : 0 < lam) (hP1 : P.nrows = H.cols)
    (hP2 : P.cols = H.cols) (hSP : S.mul P = Mat.diag S.nrows 1) {s : Nat} (hs : s < T.nrows) :
    0 ≤ (∑ i ∈ range H.cols, (∑ k ∈ range H.cols, H.get s k * P.get k i) * H.get s i) ∧
      (∑ i ∈ range H.cols, (∑ k ∈ range H.cols, H.get s k * P.get k i) * H.get s i) < 1 := by
  have m2 : S.toM H.cols H.cols * P.toM H.cols H.cols = 1 := by
    rw [← toM_mul h.rowsS hP1 hP2, hSP, h.rowsS, toM_diag, one_smul]
  have hq : (∑ i ∈ range H.cols, (∑ k ∈ range H.cols, H.get s k * P.get k i) * H.get s i) =
      (fun k : Fin H.cols => H.get s k) ⬝ᵥ (P.toM H.cols H.cols *ᵥ fun k : Fin H.cols => H.get s k) := by
    rw [Matrix.dotProduct_mulVec, Finset.sum_range]
    apply Finset.sum_congr rfl
    intro i _
    congr 1
    rw [Finset.sum_range]
    rfl
  rw [hq]
  exact leverage_range hl (toM_corr h) m2 ⟨s, hs⟩

/-- Left-out predictions exist. -/
theorem leftOut_exists {H T : Mat K} {lam : K} (hl : 0 < lam) (hHT : H.nrows = T.nrows) : ∃ Z, LeftOutPreds H T lam Z := by
  choose B hB using fun s : Fin T.nrows => trainedWithout_exists (lam := lam) hl hHT s.2
  refine ⟨Mat.ofFn T.nrows T.cols fun s j => if hs : s < T.nrows then predEntry H (B ⟨s, hs⟩) s j else 0, Mat.ofFn_WF _ _ _, by simp, by simp, ?_⟩
  intro s hs
  refine ⟨B ⟨s, hs⟩, hB _, fun j hj => ?_⟩
  rw [Mat.get_ofFn_lt hs hj, dif_pos hs]

open Classical in
theorem elmErrorPress_c {wc : Option (List (Option K))} {T Y : Mat K} {R : List K} (hT : T.WF) (hY : Y.WF) (hr : T.nrows = Y.nrows)
    (hc : T.cols = Y.cols) (hR : R.length = T.nrows) (hN : 0 < T.nrows) (hC : 0 < T.cols) (h0 : ∀ s < T.nrows, R.getD s 0 ≠ 0) :
    elmErrorPress (some "c") wc T Y R = .ok (scaledMisses (some "c") T Y fun s => R.getD s 0) := by
  unfold elmErrorPress
  rw [if_neg (by simp [hr, hc, hR]), if_pos rfl]
  have hz : (0 : K) ∉ R := by
    intro hm
    obtain ⟨i, hi, e⟩ := List.getElem_of_mem hm
    apply h0 i (by omega)
    rw [List.getD_eq_getElem _ _ hi, e]
  unfold sqDiv
  rw [if_neg hz]
  show notNan (mean? _) = _
  have hl : List.zipWith (fun x r => x / r * (x / r)) ((misses T Y).map b2k) R =
      (List.range T.nrows).map fun s => if Misclassified T Y s then 1 / R.getD s 0 ^ 2 else 0 := by
    have hr' : T.rows.length = Y.rows.length := hr
    have hR' : R.length = T.rows.length := hR
    apply List.ext_getElem
    · simp [misses, ← hr', hR', Mat.nrows]
    · intro n a1 a2
      have hn : n < T.nrows := by simpa using a2
      have hn' : n < T.rows.length := hn
      simp only [List.getElem_zipWith, List.getElem_map, List.getElem_range, misses]
      rw [List.getD_eq_getElem _ _ (by omega)]
      have e1 : T.rows[n] = sample T n := by simp [sample, hn']
      have e2 : Y.rows[n]'(by omega) = sample Y n := by simp [sample, show n < Y.rows.length by omega]
      have := Props.missed_iff' hT hY hr hC (hc ▸ hC) hn
      simp only [e1, e2]
      unfold b2k
      by_cases hm : Misclassified T Y n
      · have h1 := this.2 hm
        simp [hm, h1, pow_two]
      · have h1 : argmax (sample Y n) = argmax (sample T n) := by
          by_contra h; exact hm (this.1 h)
        simp [hm, h1]
  rw [hl, Props.mean_some (by intro h; have := congrArg List.length h; simp at this; omega)]
  unfold scaledMisses
  rw [if_pos rfl, sum_range_list, List.length_map, List.length_range]

open Classical in
theorem elmErrorPress_ml {wc : Option (List (Option K))} {T Y : Mat K} {R : List K} (hT : T.WF) (hY : Y.WF) (hr : T.nrows = Y.nrows)
    (hc : T.cols = Y.cols) (hR : R.length = T.nrows) (hN : 0 < T.nrows) (hC : 0 < T.cols) (h0 : ∀ s < T.nrows, R.getD s 0 ≠ 0) :
    elmErrorPress (some "ml") wc T Y R = .ok (scaledMisses (some "ml") T Y fun s => R.getD s 0) := by
  unfold elmErrorPress
  rw [if_neg (by simp [hr, hc, hR]), if_neg (by decide), if_neg (by decide), if_pos rfl]
  have hd : List.zip (labelMisses T Y) R =
      (List.range T.nrows).map fun n => ((List.range T.cols).map fun j => decide (1 / 2 < Y.get n j) != decide (1 / 2 < T.get n j), R.getD n 0) := by
    have hr' : T.rows.length = Y.rows.length := hr
    have hR' : R.length = T.rows.length := hR
    unfold labelMisses
    apply List.ext_getElem
    · simp [Mat.nrows, ← hr', hR']
    · intro n a1 a2
      have hn : n < T.rows.length := by simpa [Mat.nrows] using a2
      simp only [List.getElem_zip, List.getElem_zipWith, List.getElem_map, List.getElem_range]
      rw [List.getD_eq_getElem _ _ (by omega)]
      refine Prod.ext ?_ rfl
      have l1 : T.rows[n].length = T.cols := hT _ (List.getElem_mem hn)
      have l2 : Y.rows[n].length = Y.cols := hY _ (List.getElem_mem (by omega))
      apply List.ext_getElem
      · simp [l1, l2, hc]
      · intro j b1 b2
        have hj : j < T.cols := by simpa using b2
        simp only [List.getElem_zipWith, List.getElem_map, List.getElem_range]
        have e1 : T.get n j = (T.rows[n])[j]'(by omega) := by
          simp [Mat.get, List.getD_eq_getElem?_getD, hn, l1, hj]
        have e2 : Y.get n j = (Y.rows[n]'(by omega))[j]'(by omega) := by
          simp [Mat.get, List.getD_eq_getElem?_getD, show n < Y.rows.length by omega, l2, show j < Y.cols by omega]
        rw [e1, e2]
  have hm : (List.zip (labelMisses T Y) R).mapM (fun p => sqDiv (p.1.map b2k) (List.replicate p.1.length p.2)) =
      .ok ((List.range T.nrows).map fun n => (List.range T.cols).map fun j =>
        if (1 / 2 < Y.get n j ↔ 1 / 2 < T.get n j) then 0 else 1 / R.getD n 0 ^ 2) := by
    rw [hd, mapM_ok_map _ _ (fun p => p.1.map fun b => if b then 1 / p.2 ^ 2 else 0)]
    · rw [List.map_map]
      congr 1
      apply List.map_congr_left
      intro n _
      simp only [Function.comp_apply, List.map_map]
      apply List.map_congr_left
      intro j _
      simp only [Function.comp_apply]
      by_cases h1 : 1 / 2 < Y.get n j <;> by_cases h2 : 1 / 2 < T.get n j <;> simp [h1, h2]
    · intro p hp
      obtain ⟨n, hn, rfl⟩ := List.mem_map.1 hp
      have hn := List.mem_range.1 hn
      unfold sqDiv
      rw [if_neg]
      · congr 1
        apply List.ext_getElem
        · simp
        · intro i _ _
          simp only [List.getElem_zipWith, List.getElem_map, List.getElem_replicate, b2k]
          split <;> simp [pow_two]
      · intro hz
        rw [List.mem_replicate] at hz
        exact h0 n hn hz.2.symm
  rw [hm]
  show notNan (mean? (List.flatten _)) = _
  have hfl : ((List.range T.nrows).map fun n => (List.range T.cols).map fun j =>
        if (1 / 2 < Y.get n j ↔ 1 / 2 < T.get n j) then 0 else 1 / R.getD n 0 ^ 2).flatten =
      (List.range T.nrows).flatMap fun n => (List.range T.cols).map fun j =>
        if (1 / 2 < Y.get n j ↔ 1 / 2 < T.get n j) then 0 else 1 / R.getD n 0 ^ 2 := rfl
  rw [hfl, Props.mean_some ((flat_ne _ _ _).2 ⟨hN, hC⟩), Props.flatten_length, Props.flatten_sum]
  unfold scaledMisses
  rw [if_neg (by decide)]

/-- The score of a set of neurons, for classification and multi-label classification. -/
def IsScaled (kind : Option String) (H T : Mat K) (lam v : K) : Prop :=
  ∃ Y Z R, FittedPreds H T lam Y ∧ LeftOutPreds H T lam Z ∧ Shrink T Y Z R ∧ v = scaledMisses kind T Y R

theorem shrink_inverse {H T S HT P : Mat K} {lam : K} (h : IsCorr H T (fun _ => 1) lam S HT) (hl : 0 < lam) (hH : H.WF)
    (p2 : P.nrows = H.cols) (p3 : P.cols = H.cols) (p4 : P.mul S = Mat.diag S.nrows 1) (p5 : S.mul P = Mat.diag S.nrows 1) :
    FittedPreds H T lam (H.mul (P.mul HT)) ∧
      ∀ Z, LeftOutPreds H T lam Z → Shrink T (H.mul (P.mul HT)) Z fun s => (pressR H P).getD s 0 := by
  have hR : ∀ s < T.nrows, 0 < (pressR H P).getD s 0 ∧ (pressR H P).getD s 0 ≤ 1 := by
    intro s hs
    rw [pressR_getD hH p2 p3 (by rw [h.samples]; exact hs)]
    have := leverage_sum_range h hl p2 p3 p5 hs
    exact ⟨by linarith [this.2], by linarith [this.1]⟩
  have h0 : ∀ s < T.nrows, (pressR H P).getD s 0 ≠ 0 := fun s hs => (hR s hs).1.ne'
  have hB3 : (P.mul HT).cols = T.cols := by simp [h.colsT]
  have hB2 : (P.mul HT).nrows = H.cols := by simp [p2]
  have hPB : S.mul (P.mul HT) = HT := by
    have hs2 : S.nrows = H.cols := h.rowsS
    apply toM_inj (r := H.cols) (c := T.cols) (Mat.mul_WF _ _) (B := HT) h.wfT (by simp [h.rowsS]) (by simp [h.colsT]) h.rowsT h.colsT
    rw [toM_mul (m := H.cols) h.rowsS (by simp [p2]) (by simp [h.colsT]), toM_mul (m := H.cols) p2 h.rowsT h.colsT, ← Matrix.mul_assoc,
      ← toM_mul h.rowsS p2 p3, p5, h.rowsS, toM_diag, one_smul, Matrix.one_mul]
  have hfit : FittedPreds H T lam (H.mul (P.mul HT)) := by
    refine ⟨Mat.mul_WF _ _, by simp [h.samples], by simp [h.colsT], P.mul HT, Mat.mul_WF _ _, hB2, hB3, ?_, ?_⟩
    · exact Props.solve_normalEq h.rowsS hB2 hB3 h.sumS h.sumT hPB
    · intro s hs j hj
      rw [get_mul_sum (by rw [h.samples]; exact hs) (by rw [hB3]; exact hj), hB2]
      rfl
  refine ⟨hfit, fun Z hZ => ?_⟩
  · intro s hs
    refine ⟨(hR s hs).1, (hR s hs).2, fun j hj => ?_⟩
    obtain ⟨Bs, hBs, hz⟩ := hZ.2.2.2 s hs
    have := (loo_entry h hl p2 p3 p4 p5 hs hBs hj).2
    simp only
    rw [hz j hj, pressR_getD hH p2 p3 (by rw [h.samples]; exact hs), mul_comm, this,
      get_mul_sum (by rw [h.samples]; exact hs) (by rw [hB3]; exact hj), hB2]
    rfl

theorem scoreLOO_scaled {env : Env K} (hlw : Lawful env) (e : ELM K) {H T S HT : Mat K} {lam : K}
    (hc : e.classification = some "c" ∨ e.classification = some "ml")
    (h : IsCorr H T (fun _ => 1) lam S HT) (hl : 0 < lam) (hH : H.WF) (hT : T.WF) (hN : 0 < T.nrows) (hC : 0 < T.cols) :
    ∃ v, scoreLOO env e S HT H T = .ok v ∧ IsScaled e.classification H T lam v := by
  have hpd := h.posDef hl (fun _ _ => zero_le_one)
  have hsq : S.nrows = S.cols := by rw [h.rowsS, h.colsS]
  unfold scoreLOO
  cases hi : env.inv S with
  | none =>
    exfalso
    apply hlw.inv_none S h.wfS hsq hi
    obtain ⟨P, ⟨p1, p2, p3⟩, hP⟩ := posDef_sol hpd hsq (b := Mat.diag S.nrows 1) (Mat.ofFn_WF _ _ _) (by simp [Mat.diag])
    have p3' : P.cols = S.nrows := by simpa [Mat.diag] using p3
    refine ⟨P, p1, by rw [p2, hsq], p3', ?_⟩
    apply toM_inj (r := S.nrows) (c := S.nrows) (Mat.mul_WF _ _) (B := Mat.diag S.nrows 1) (Mat.ofFn_WF _ _ _) (by simp [p2, hsq]) (by simp [hsq]) (by simp [Mat.diag]) (by simp [Mat.diag])
    rw [toM_mul (m := S.nrows) (by rw [p2, hsq]) rfl hsq.symm, toM_diag, one_smul]
    rw [mul_eq_one_comm, ← toM_mul rfl (by rw [p2, hsq]) p3', hP, toM_diag, one_smul]
  | some P =>
    obtain ⟨p1, p2, p3, p4, p5⟩ := hlw.inv_sol S P h.wfS hsq hi
    rw [h.rowsS] at p2 p3
    obtain ⟨Z, hZ⟩ := leftOut_exists (H := H) (T := T) hl h.samples
    obtain ⟨hfit, hsh⟩ := shrink_inverse h hl hH p2 p3 p4 p5
    have hsh := hsh Z hZ
    have h0 : ∀ s < T.nrows, (pressR H P).getD s 0 ≠ 0 := fun s hs => (hsh s hs).1.ne'
    have hlen : (pressR H P).length = T.nrows := by simpa [pressR, Mat.nrows] using h.samples
    rcases hc with hc | hc
    · refine ⟨_, by rw [hc]; exact elmErrorPress_c hT hfit.1 hfit.2.1.symm hfit.2.2.1.symm hlen hN hC h0, _, Z, _, hfit, hZ, hsh, by rw [hc]⟩
    · refine ⟨_, by rw [hc]; exact elmErrorPress_ml hT hfit.1 hfit.2.1.symm hfit.2.2.1.symm hlen hN hC h0, _, Z, _, hfit, hZ, hsh, by rw [hc]⟩

/-! Reordering neurons. -/

theorem fittedPreds_perm {H T Y : Mat K} {lam : K} {l l' : List Nat} (hn : l.Nodup) (hl : l'.Perm l) (hN : H.nrows = T.nrows)
    (h : FittedPreds (H.selCols l) T lam Y) : FittedPreds (H.selCols l') T lam Y := by
  obtain ⟨a1, a2, a3, B, b1, b2, b3, b4, b5⟩ := h
  obtain ⟨B', c1, c2, c3, c4, c5⟩ := normalEq_perm hn hl b1 b2 b4 (by omega)
  exact ⟨a1, a2, a3, B', c1, c2, by rw [c3, b3], c4, fun s hs j hj => by rw [b5 s hs j hj, c5 H s (by omega) j]⟩

theorem leftOutPreds_perm {H T Z : Mat K} {lam : K} {l l' : List Nat} (hn : l.Nodup) (hl : l'.Perm l) (hN : H.nrows = T.nrows)
    (h : LeftOutPreds (H.selCols l) T lam Z) : LeftOutPreds (H.selCols l') T lam Z := by
  obtain ⟨a1, a2, a3, a4⟩ := h
  refine ⟨a1, a2, a3, fun s hs => ?_⟩
  obtain ⟨B, ⟨b1, b2, b3, b4⟩, b5⟩ := a4 s hs
  have hi : ∀ i ∈ others T.nrows s, i < H.nrows := fun i hi => hN ▸ others_lt hi
  rw [selRows_selCols hi] at b4
  obtain ⟨B', c1, c2, c3, c4, c5⟩ := normalEq_perm hn hl b1 b2 b4 (by simp)
  refine ⟨B', ⟨c1, c2, by rw [c3, b3], ?_⟩, fun j hj => by rw [b5 j hj, c5 H s (by omega) j]⟩
  rw [selRows_selCols hi]
  exact c4

theorem isScaled_perm {kind : Option String} {H T : Mat K} {lam v : K} {l l' : List Nat} (hn : l.Nodup) (hl : l'.Perm l) (hN : H.nrows = T.nrows)
    (h : IsScaled kind (H.selCols l) T lam v) : IsScaled kind (H.selCols l') T lam v := by
  obtain ⟨Y, Z, R, h1, h2, h3, h4⟩ := h
  exact ⟨Y, Z, R, fittedPreds_perm hn hl hN h1, leftOutPreds_perm hn hl hN h2, h3, h4⟩

/-! Consequences. -/

theorem mat_ext_entries {A B : Mat K} (hA : A.WF) (hB : B.WF) (hr : A.nrows = B.nrows) (hc : A.cols = B.cols)
    (h : ∀ s < A.nrows, ∀ j < A.cols, A.get s j = B.get s j) : A = B := by
  exact Mat.ext_get hA hB hr hc (fun i j hi hj => h i hi j hj)

theorem fittedPreds_unique {H T Y Y' : Mat K} {lam : K} (hl : 0 < lam) (h : FittedPreds H T lam Y) (h' : FittedPreds H T lam Y') : Y = Y' := by
  obtain ⟨a1, a2, a3, B, b1, b2, b3, b4, b5⟩ := h
  obtain ⟨a1', a2', a3', B', b1', b2', b3', b4', b5'⟩ := h'
  have := Props.normalEq_unique hl (fun _ _ => zero_le_one) b1 b2 b3 b4 B' b1' b2' b3' b4'
  subst this
  apply mat_ext_entries a1 a1' (by rw [a2, a2']) (by rw [a3, a3'])
  intro s hs j hj
  rw [b5 s (a2 ▸ hs) j (a3 ▸ hj), b5' s (a2 ▸ hs) j (a3 ▸ hj)]

theorem leftOutPreds_unique {H T Z Z' : Mat K} {lam : K} (hl : 0 < lam) (h : LeftOutPreds H T lam Z) (h' : LeftOutPreds H T lam Z') : Z = Z' := by
  obtain ⟨a1, a2, a3, a4⟩ := h
  obtain ⟨b1, b2, b3, b4⟩ := h'
  apply mat_ext_entries a1 b1 (by rw [a2, b2]) (by rw [a3, b3])
  intro s hs j hj
  obtain ⟨B, ⟨c1, c2, c3, c4⟩, c5⟩ := a4 s (a2 ▸ hs)
  obtain ⟨B', ⟨d1, d2, d3, d4⟩, d5⟩ := b4 s (a2 ▸ hs)
  have := Props.normalEq_unique (H := H.selRows (others T.nrows s)) (T := T.selRows (others T.nrows s)) hl (fun _ _ => zero_le_one) c1
    (by simpa using c2) (by simpa using c3) c4 B' d1 (by simpa using d2) (by simpa using d3) d4
  subst this
  rw [c5 j (a3 ▸ hj), d5 j (a3 ▸ hj)]

/-- Residuals always shrink. -/
theorem shrink_exists {H T Y Z : Mat K} {lam : K} (hl : 0 < lam) (hH : H.WF) (hHT : H.nrows = T.nrows) (hY : FittedPreds H T lam Y)
    (hZ : LeftOutPreds H T lam Z) : ∃ R, Shrink T Y Z R := by
  let S : Mat K := Mat.ofFn H.cols H.cols fun i j => (if i = j then lam else 0) + ∑ s ∈ range T.nrows, 1 * H.get s i * H.get s j
  let HT : Mat K := Mat.ofFn H.cols T.cols fun i j => ∑ s ∈ range T.nrows, 1 * H.get s i * T.get s j
  have h : IsCorr H T (fun _ => 1) lam S HT := by
    refine ⟨hHT, Mat.ofFn_WF _ _ _, by simp [S], by simp [S], Mat.ofFn_WF _ _ _, by simp [HT], by simp [HT], ?_, ?_⟩
    · intro i hi j hj
      exact Mat.get_ofFn_lt hi hj
    · intro i hi j hj
      exact Mat.get_ofFn_lt hi hj
  have hpd := h.posDef hl (fun _ _ => zero_le_one)
  have hsq : S.nrows = S.cols := by rw [h.rowsS, h.colsS]
  obtain ⟨P, ⟨p1, p2, p3⟩, hP⟩ := posDef_sol hpd hsq (b := Mat.diag S.nrows 1) (Mat.ofFn_WF _ _ _) (by simp [Mat.diag])
  have p3' : P.cols = S.nrows := by simpa [Mat.diag] using p3
  have hPS : P.mul S = Mat.diag S.nrows 1 := by
    apply toM_inj (r := S.nrows) (c := S.nrows) (Mat.mul_WF _ _) (B := Mat.diag S.nrows 1) (Mat.ofFn_WF _ _ _) (by simp [p2, hsq]) (by simp [hsq]) (by simp [Mat.diag]) (by simp [Mat.diag])
    rw [toM_mul (m := S.nrows) (by rw [p2, hsq]) rfl hsq.symm, toM_diag, one_smul]
    rw [mul_eq_one_comm, ← toM_mul rfl (by rw [p2, hsq]) p3', hP, toM_diag, one_smul]
  obtain ⟨hfit, hsh⟩ := shrink_inverse h hl hH (by rw [p2, h.colsS]) (by rw [p3', h.rowsS]) hPS hP
  have := fittedPreds_unique hl hY hfit
  rw [this]
  exact ⟨_, hsh Z hZ⟩

open Classical in
/-- The score is never below the training error, and is 0 exactly when the training error is. -/
theorem scaledMisses_train {kind : Option String} {wc : Option (List (Option K))} (hk : kind = some "c" ∨ kind = some "ml") {T Y Z : Mat K}
    {R : Nat → K} {u : K} (hN : 0 < T.nrows) (hC : 0 < T.cols) (hR : Shrink T Y Z R) (hu : IsError kind wc T Y u) :
    u ≤ scaledMisses kind T Y R ∧ (scaledMisses kind T Y R = 0 ↔ u = 0) := by
  have h1 : ∀ s < T.nrows, (1 : K) ≤ 1 / R s ^ 2 := by
    intro s hs
    obtain ⟨a, b, _⟩ := hR s hs
    rw [one_le_div (by positivity)]
    nlinarith
  have hN' : (0 : K) < T.nrows := by exact_mod_cast hN
  have hNC : (0 : K) < ((T.nrows * T.cols : Nat) : K) := by exact_mod_cast Nat.mul_pos hN hC
  unfold IsError at hu
  unfold scaledMisses
  rcases hk with rfl | rfl
  · rw [if_pos rfl] at hu ⊢
    have hcnt : ((countSamples T.nrows (Misclassified T Y) : Nat) : K) = ∑ s ∈ range T.nrows, if Misclassified T Y s then (1 : K) else 0 := by
      unfold countSamples
      rw [Finset.card_filter, Nat.cast_sum]
      exact Finset.sum_congr rfl fun s _ => by split <;> simp
    rw [hcnt] at hu
    have hnn : ∀ s ∈ range T.nrows, (0 : K) ≤ if Misclassified T Y s then (1 : K) else 0 := fun s _ => by split <;> norm_num
    have hle : ∀ s ∈ range T.nrows, (if Misclassified T Y s then (1 : K) else 0) ≤ if Misclassified T Y s then 1 / R s ^ 2 else 0 := by
      intro s hs
      split
      · exact h1 s (Finset.mem_range.1 hs)
      · exact le_rfl
    refine ⟨by rw [hu]; exact div_le_div_of_nonneg_right (Finset.sum_le_sum hle) hN'.le, ?_⟩
    rw [hu, div_eq_zero_iff, div_eq_zero_iff, or_iff_left hN'.ne', or_iff_left hN'.ne',
      Finset.sum_eq_zero_iff_of_nonneg (fun s hs => (hnn s hs).trans (hle s hs)), Finset.sum_eq_zero_iff_of_nonneg hnn]
    refine forall₂_congr fun s hs => ?_
    have := h1 s (Finset.mem_range.1 hs)
    split
    · exact ⟨fun h => by linarith, fun h => by norm_num at h⟩
    · rfl
  · rw [if_neg (by decide), if_neg (by decide), if_pos rfl, Props.countLabels_sum] at hu
    rw [if_neg (by decide)]
    have hnn : ∀ s ∈ range T.nrows, ∀ j ∈ range T.cols, (0 : K) ≤ if ¬ (1 / 2 < Y.get s j ↔ 1 / 2 < T.get s j) then (1 : K) else 0 :=
      fun s _ j _ => by split <;> norm_num
    have hle : ∀ s ∈ range T.nrows, ∀ j ∈ range T.cols, (if ¬ (1 / 2 < Y.get s j ↔ 1 / 2 < T.get s j) then (1 : K) else 0) ≤
        if (1 / 2 < Y.get s j ↔ 1 / 2 < T.get s j) then 0 else 1 / R s ^ 2 := by
      intro s hs j _
      by_cases h : (1 / 2 < Y.get s j ↔ 1 / 2 < T.get s j)
      · rw [if_pos h, if_neg (by simpa using h)]
      · rw [if_neg h, if_pos h]
        exact h1 s (Finset.mem_range.1 hs)
    refine ⟨by rw [hu]; exact div_le_div_of_nonneg_right (Finset.sum_le_sum fun s hs => Finset.sum_le_sum (hle s hs)) hNC.le, ?_⟩
    rw [hu, div_eq_zero_iff, div_eq_zero_iff, or_iff_left hNC.ne', or_iff_left hNC.ne',
      Finset.sum_eq_zero_iff_of_nonneg (fun s hs => Finset.sum_nonneg fun j hj => (hnn s hs j hj).trans (hle s hs j hj)),
      Finset.sum_eq_zero_iff_of_nonneg (fun s hs => Finset.sum_nonneg (hnn s hs))]
    refine forall₂_congr fun s hs => ?_
    rw [Finset.sum_eq_zero_iff_of_nonneg (fun j hj => (hnn s hs j hj).trans (hle s hs j hj)), Finset.sum_eq_zero_iff_of_nonneg (hnn s hs)]
    refine forall₂_congr fun j hj => ?_
    have := h1 s (Finset.mem_range.1 hs)
    by_cases h : (1 / 2 < Y.get s j ↔ 1 / 2 < T.get s j)
    · rw [if_pos h, if_neg (by simpa using h)]
    · rw [if_neg h, if_pos h]
      exact ⟨fun h => by linarith, fun h => by norm_num at h⟩

/-- A misclassified sample stays misclassified when it is left out. -/
theorem stays_misclassified {T Y Z : Mat K} {R : Nat → K} (hT : T.WF) (hY : Y.WF) (hZ : Z.WF) (y1 : Y.nrows = T.nrows) (y2 : Y.cols = T.cols)
    (z1 : Z.nrows = T.nrows) (z2 : Z.cols = T.cols) (hR : Shrink T Y Z R) {s : Nat} (hs : s < T.nrows) (h : Misclassified T Y s) :
    Misclassified T Z s := by
  obtain ⟨c, j, hc, hj, hne⟩ := h
  obtain ⟨r1, r2, r3⟩ := hR s hs
  have lT : (sample T s).length = T.cols := sample_length hT hs
  have lY : (sample Y s).length = T.cols := by rw [sample_length hY (y1 ▸ hs), y2]
  have lZ : (sample Z s).length = T.cols := by rw [sample_length hZ (z1 ▸ hs), z2]
  have gT : ∀ i, (sample T s).getD i 0 = T.get s i := fun i => rfl
  have gY : ∀ i, (sample Y s).getD i 0 = Y.get s i := fun i => rfl
  have gZ : ∀ i, (sample Z s).getD i 0 = Z.get s i := fun i => rfl
  have hcl : c < T.cols := lT ▸ hc.1
  have hjl : j < T.cols := lY ▸ hj.1
  have t1 : T.get s j ≤ T.get s c := by have := hc.2.1 j (by rw [lT]; exact hjl); rwa [gT, gT] at this
  have y3 : Y.get s c ≤ Y.get s j := by have := hj.2.1 c (by rw [lY]; exact hcl); rwa [gY, gY] at this
  have ej := r3 j hjl
  have ec := r3 c hcl
  have key : Y.get s j - Y.get s c ≤ Z.get s j - Z.get s c := by
    have e : (Y.get s j - Y.get s c) - (T.get s j - T.get s c) = R s * ((Z.get s j - Z.get s c) - (T.get s j - T.get s c)) := by
      linear_combination ej - ec
    have hd : 0 ≤ (Y.get s j - Y.get s c) - (T.get s j - T.get s c) := by linarith
    have hz : 0 ≤ (Z.get s j - Z.get s c) - (T.get s j - T.get s c) := by
      by_contra hn
      have := mul_neg_of_pos_of_neg r1 (not_le.1 hn)
      linarith
    nlinarith
  refine ⟨c, argmax (sample Z s), hc, argmax_firstMax (by intro h; rw [h] at lZ; simp at lZ; omega), ?_⟩
  intro he
  have hf : FirstMax (sample Z s) c := by
    rw [he]; exact argmax_firstMax (by intro h; rw [h] at lZ; simp at lZ; omega)
  rcases Nat.lt_or_ge j c with hjc | hjc
  · have := hf.2.2 j hjc
    rw [gZ, gZ] at this
    linarith
  · have h2 := hf.2.1 j (by rw [lZ]; exact hjl)
    rw [gZ, gZ] at h2
    have h3 := hj.2.2 c (by omega)
    rw [gY, gY] at h3
    linarith

end Hpelm
