import Verif.Lemmas.Plain
import Mathlib.Data.List.NodupEquivFin

/-! Regularised correlation matrices (`Spec.IsCorr`): how they arise, sub-networks, and the solution's independence of the
order of the neurons. -/

set_option linter.unusedSectionVars false

namespace Hpelm
open Spec Finset
variable {K : Type} [Field K] [LinearOrder K]

theorem Mat.get_of_nrows_le {M : Mat K} {i j : Nat} (h : M.nrows ≤ i) : M.get i j = 0 := by
  have : M.rows[i]? = none := List.getElem?_eq_none h
  simp [Mat.get, List.getD_eq_getElem?_getD, this]

theorem Mat.get_of_cols_le {M : Mat K} (hM : M.WF) {i j : Nat} (h : M.cols ≤ j) : M.get i j = 0 := by
  by_cases hi : i < M.rows.length
  · have := hM _ (List.getElem_mem hi)
    have h2 : (M.rows[i])[j]? = none := List.getElem?_eq_none (by omega)
    simp [Mat.get, List.getD_eq_getElem?_getD, hi, h2]
  · exact Mat.get_of_nrows_le (by simpa [Mat.nrows] using hi)

theorem Mat.selRows_WF {M : Mat K} (hM : M.WF) {idx : List Nat} (hb : ∀ i ∈ idx, i < M.nrows) : (M.selRows idx).WF := by
  intro r hr
  simp only [Mat.selRows, List.mem_map] at hr
  obtain ⟨i, hi, rfl⟩ := hr
  have hi' : i < M.rows.length := hb i hi
  have := hM _ (List.getElem_mem hi')
  simp [Mat.selRows, List.getD_eq_getElem?_getD, hi', this]

theorem Spec.IsCorr.symm {H T S HT : Mat K} {w : Nat → K} {lam : K} (h : IsCorr H T w lam S HT) : SymM S := by
  refine ⟨h.wfS, by rw [h.rowsS, h.colsS], ?_⟩
  intro i j
  by_cases hi : i < H.cols
  · by_cases hj : j < H.cols
    · rw [h.sumS i hi j hj, h.sumS j hj i hi]
      congr 1
      · by_cases e : i = j
        · subst e; rfl
        · rw [if_neg e, if_neg (fun e' => e e'.symm)]
      · apply Finset.sum_congr rfl; intro s _; ring
    · rw [Mat.get_of_cols_le h.wfS (by rw [h.colsS]; omega), Mat.get_of_nrows_le (by rw [h.rowsS]; omega)]
  · rw [Mat.get_of_nrows_le (by rw [h.rowsS]; omega), Mat.get_of_cols_le h.wfS (by rw [h.colsS]; omega)]

/-- One unweighted batch into an empty accumulator. -/
theorem addBatch_fresh {env : Env K} (hx : env.Exact) {n n' : NNet K} {X T : Mat K} (hc : n.corr = none)
    (hN : X.nrows = T.nrows) (hT : T.WF) (h : n.addBatch env X T none = .ok n') :
    ∃ H S HT, n.project env X = .ok H ∧ n' = { n with corr := some (n.store S, HT) } ∧ H.cols = n.L.getD 0 ∧
      T.cols = n.outputs ∧ IsCorr H T (fun _ => 1) n.norm S HT := by
  obtain ⟨H, S, HT, h1, h2, h3, h4, h5, h6, h7, h8, h9, h10, h11, h12⟩ :=
    addBatch_sums (corr0_none hc) (SymM.diag _ _) hN hT (by simp) h
  simp only [Mat.diag, Mat.zeros, Mat.ofFn_cols, Mat.ofFn_nrows] at h3 h7 h9 h10
  refine ⟨H, S, HT, h1, h5, h3, h4, ⟨by omega, h6.wf, by omega, by rw [← h6.square]; omega, h8, by omega, by omega, ?_, ?_⟩⟩
  · intro i hi j hj
    rw [h11 i j (by simp [Mat.diag]; omega) (by simp [Mat.diag]; omega), Mat.get_diag (by omega) (by omega), hN]
    simp only [wfac, one_mul]
  · intro i hi j hj
    rw [h12 i j (by simp [Mat.zeros]; omega) (by simp [Mat.zeros]; omega) (by simp [Mat.diag]; omega) hj, Mat.get_zeros, zero_add, hN]
    simp only [wfac, one_mul, hx n.prec]

theorem getCorr!_store {n : NNet K} {S HT : Mat K} (h : SymM S) (hc : n.corr = some (n.store S, HT)) :
    n.getCorr! = .ok (S, HT) := by
  unfold NNet.getCorr!
  rw [getCorr_store n h hc]
  rfl

theorem get_subSquare {S : Mat K} {idx : List Nat} {i j : Nat} (hi : i < idx.length) (hj : j < idx.length) :
    (subSquare S idx).get i j = S.get idx[i] idx[j] := by
  unfold subSquare
  rw [Mat.get_selCols (by simp [hi]) hj, Mat.get_selRows hi]

/-- The correlation matrices of a sub-network are the corresponding sub-matrices. -/
theorem Spec.IsCorr.sub {H T S HT : Mat K} {w : Nat → K} {lam : K} (h : IsCorr H T w lam S HT) {idx : List Nat} (hn : idx.Nodup)
    (hb : ∀ i ∈ idx, i < H.cols) : IsCorr (H.selCols idx) T w lam (subSquare S idx) (HT.selRows idx) := by
  have hb' : ∀ i (hi : i < idx.length), idx[i] < H.cols := fun i hi => hb _ (List.getElem_mem hi)
  refine ⟨by simp [h.samples], ?_, by simp [subSquare], by simp [subSquare], ?_, by simp, by simp [h.colsT], ?_, ?_⟩
  · exact Mat.selCols_WF _ _
  · exact Mat.selRows_WF h.wfT (by intro i hi; rw [h.rowsT]; exact hb i hi)
  · intro i hi j hj
    simp only [Mat.selCols_cols] at hi hj
    rw [get_subSquare hi hj, h.sumS _ (hb' i hi) _ (hb' j hj)]
    congr 1
    · by_cases e : i = j
      · subst e; simp
      · rw [if_neg e, if_neg]
        intro e'
        exact e ((List.Nodup.getElem_inj_iff hn).1 e')
    · apply Finset.sum_congr rfl
      intro s hs
      have hs' : s < H.nrows := by rw [h.samples]; exact Finset.mem_range.1 hs
      rw [Mat.get_selCols hs' hi, Mat.get_selCols hs' hj]
  · intro i hi j hj
    simp only [Mat.selCols_cols] at hi
    rw [Mat.get_selRows hi, h.sumT _ (hb' i hi) _ hj]
    apply Finset.sum_congr rfl
    intro s hs
    have hs' : s < H.nrows := by rw [h.samples]; exact Finset.mem_range.1 hs
    rw [Mat.get_selCols hs' hi]

variable [IsStrictOrderedRing K]

theorem Spec.IsCorr.posDef {H T S HT : Mat K} {w : Nat → K} {lam : K} (h : IsCorr H T w lam S HT) (hl : 0 < lam)
    (hw : ∀ s < T.nrows, 0 ≤ w s) : PosDef S :=
  posDef_gram (g := w) (h := fun s i => H.get s i) h.symm h.rowsS h.colsS (fun i j hi hj => h.sumS i hi j hj) hl hw

/-- The solver's answer on correlation matrices. -/
theorem Spec.IsCorr.solve {env : Env K} (hl : Lawful env) (hx : env.Exact) (n : NNet K) {H T S HT A : Mat K} {w : Nat → K} {lam : K}
    (h : IsCorr H T w lam S HT) (hp : 0 < lam) (hw : ∀ s < T.nrows, 0 ≤ w s) (hA : A = S ∨ A = n.store S) :
    S.mul (n.solveCorr env A HT) = HT ∧ (n.solveCorr env A HT).WF ∧ (n.solveCorr env A HT).nrows = H.cols ∧
      (n.solveCorr env A HT).cols = T.cols := by
  obtain ⟨h1, h2, h3, h4⟩ := solveCorr_posDef hl hx n h.symm (h.posDef hp hw) hA h.wfT (by rw [h.rowsT, h.rowsS])
  exact ⟨h1, h2, by rw [h3, h.colsS], by rw [h4, h.colsT]⟩

/-- Two solutions of the same system. -/
theorem Spec.IsCorr.unique {H T S HT A B : Mat K} {w : Nat → K} {lam : K} (h : IsCorr H T w lam S HT) (hp : 0 < lam)
    (hw : ∀ s < T.nrows, 0 ≤ w s) (hA : A.WF) (hB : B.WF) (a1 : A.nrows = H.cols) (b1 : B.nrows = H.cols)
    (ha : S.mul A = HT) (hb : S.mul B = HT) : A = B := by
  refine posDef_cancel (h.posDef hp hw) (by rw [h.rowsS, h.colsS]) hA hB (by rw [a1, h.colsS]) (by rw [b1, h.colsS]) ?_ (by rw [ha, hb])
  have := congrArg Mat.cols ha
  have h2 := congrArg Mat.cols hb
  simp only [Mat.mul_cols] at this h2
  omega

/-- The positions of the elements of a permuted list. -/
theorem perm_pos {l l' : List Nat} (hp : l'.Perm l) (hn : l.Nodup) :
    ∃ σ : Fin l'.length ≃ Fin l.length, ∀ a, l'[a] = l[σ a] := by
  have hn' : l'.Nodup := hp.nodup_iff.2 hn
  refine ⟨(List.Nodup.getEquiv l' hn').trans ((Equiv.subtypeEquivRight fun x => hp.mem_iff).trans (List.Nodup.getEquiv l hn).symm), ?_⟩
  intro a
  simp only [Equiv.trans_apply]
  have := (List.Nodup.getEquiv l hn).apply_symm_apply ((Equiv.subtypeEquivRight fun x => hp.mem_iff (a := x)) ((List.Nodup.getEquiv l' hn') a))
  have h2 := congrArg Subtype.val this
  simpa [List.Nodup.getEquiv] using h2.symm

theorem get_mul_fin {A B : Mat K} {i j l : Nat} (hi : i < A.nrows) (hj : j < B.cols) (hl : B.nrows = l) :
    (A.mul B).get i j = ∑ a : Fin l, A.get i a * B.get a j := by
  rw [get_mul_sum hi hj, hl, Finset.sum_range]

/-- Predictions of the re-trained sub-network do not depend on the order in which its neurons are listed. -/
theorem Spec.IsCorr.perm {H T S HT B B' Hq : Mat K} {w : Nat → K} {lam : K} (h : IsCorr H T w lam S HT) (hp : 0 < lam)
    (hw : ∀ s < T.nrows, 0 ≤ w s) {l l' : List Nat} (hn : l.Nodup) (hb : ∀ i ∈ l, i < H.cols) (hl : l'.Perm l)
    (hB : B.WF) (hB' : B'.WF) (b1 : B.nrows = l.length) (b1' : B'.nrows = l'.length)
    (e : (subSquare S l).mul B = HT.selRows l) (e' : (subSquare S l').mul B' = HT.selRows l') :
    (Hq.selCols l').mul B' = (Hq.selCols l).mul B := by
  obtain ⟨σ, hσ⟩ := perm_pos hl hn
  have hlen := hl.length_eq
  have bc : B.cols = T.cols := by have := congrArg Mat.cols e; simpa [h.colsT] using this
  have bc' : B'.cols = T.cols := by have := congrArg Mat.cols e'; simpa [h.colsT] using this
  let C : Mat K := Mat.ofFn l'.length T.cols fun a j => if ha : a < l'.length then B.get (σ ⟨a, ha⟩) j else 0
  have hC : ∀ (a : Fin l'.length) j, j < T.cols → C.get a j = B.get (σ a) j := by
    intro a j hj
    rw [Mat.get_ofFn_lt a.2 hj, dif_pos a.2]
  have hcorr' := h.sub (idx := l') (hl.nodup_iff.2 hn) (fun i hi => hb i (hl.mem_iff.1 hi))
  have eC : (subSquare S l').mul C = HT.selRows l' := by
    apply Mat.ext_get (Mat.mul_WF _ _) hcorr'.wfT (by simp [subSquare]) (by simp [C, h.colsT])
    intro i j hi hj
    simp only [Mat.mul_nrows, Mat.mul_cols, subSquare, Mat.selCols_nrows, Mat.selRows_nrows] at hi hj
    have hj' : j < T.cols := hj
    rw [get_mul_fin (l := l'.length) (by simp [subSquare, hi]) hj (by simp [C]), Mat.get_selRows hi]
    have e2 : ((subSquare S l).mul B).get (σ ⟨i, hi⟩) j = (HT.selRows l).get (σ ⟨i, hi⟩) j := by rw [e]
    rw [get_mul_fin (l := l.length) (by simp [subSquare]) (by omega) b1, Mat.get_selRows (σ ⟨i, hi⟩).2] at e2
    have hi2 := hσ ⟨i, hi⟩
    simp only [Fin.getElem_fin] at hi2
    rw [hi2, ← e2, ← σ.sum_comp]
    apply Finset.sum_congr rfl
    intro a _
    rw [hC a j hj', get_subSquare hi a.2, get_subSquare (σ ⟨i, hi⟩).2 (σ a).2]
    have h3 := hσ a
    simp only [Fin.getElem_fin] at h3
    rw [h3, hi2]
  have hBC : B' = C := hcorr'.unique hp hw hB' (Mat.ofFn_WF _ _ _) (by simp [b1']) (by simp [C]) e' eC
  apply Mat.ext_get (Mat.mul_WF _ _) (Mat.mul_WF _ _) (by simp) (by simp [bc, bc'])
  intro i j hi hj
  simp only [Mat.mul_nrows, Mat.mul_cols, Mat.selCols_nrows] at hi hj
  rw [get_mul_fin (l := l'.length) (by simp [hi]) hj b1', get_mul_fin (l := l.length) (by simp [hi]) (by omega) b1, ← σ.sum_comp]
  apply Finset.sum_congr rfl
  intro a _
  rw [hBC, hC a j (by omega), Mat.get_selCols hi a.2, Mat.get_selCols hi (σ a).2]
  have h3 := hσ a
  simp only [Fin.getElem_fin] at h3
  rw [h3]

theorem Mat.selCols_range {M : Mat K} (h : M.WF) : M.selCols (List.range M.cols) = M := by
  apply Mat.ext_get (Mat.selCols_WF _ _) h (by simp) (by simp)
  intro i j hi hj
  simp only [Mat.selCols_nrows, Mat.selCols_cols, List.length_range] at hi hj
  rw [Mat.get_selCols hi (by simpa using hj), List.getElem_range]

theorem Mat.selRows_range {M : Mat K} (h : M.WF) : M.selRows (List.range M.nrows) = M := by
  apply Mat.ext_get (Mat.selRows_WF h (by simp)) h (by simp) (by simp)
  intro i j hi hj
  simp only [Mat.selRows_nrows, List.length_range] at hi
  rw [Mat.get_selRows (by simpa using hi), List.getElem_range]

/-- Listing all neurons in another order does not change the predictions of the trained network. -/
theorem Spec.IsCorr.perm_full {env : Env K} (hl : Lawful env) (hx : env.Exact) (n : NNet K) {H T S HT Hq : Mat K} {w : Nat → K} {lam : K}
    (h : IsCorr H T w lam S HT) (hp : 0 < lam) (hw : ∀ s < T.nrows, 0 ≤ w s) (hq : Hq.WF) (hqc : Hq.cols = H.cols) {l : List Nat}
    (hl' : l.Perm (List.range H.cols)) :
    (Hq.selCols l).mul (n.solveCorr env (subSquare S l) (HT.selRows l)) = Hq.mul (n.solveCorr env S HT) := by
  have hb : ∀ i ∈ l, i < H.cols := fun i hi => List.mem_range.1 (hl'.mem_iff.1 hi)
  have hsub := h.sub (idx := l) (hl'.nodup_iff.2 List.nodup_range) hb
  obtain ⟨a1, a2, a3, a4⟩ := hsub.solve hl hx n hp hw (Or.inl rfl)
  obtain ⟨b1, b2, b3, b4⟩ := h.solve hl hx n hp hw (Or.inl rfl)
  have e1 : subSquare S (List.range H.cols) = S := by
    unfold subSquare
    rw [← h.rowsS, Mat.selRows_range h.wfS, h.rowsS, ← h.colsS, Mat.selCols_range h.wfS]
  have e2 : HT.selRows (List.range H.cols) = HT := by rw [← h.rowsT]; exact Mat.selRows_range h.wfT
  have := h.perm (Hq := Hq) hp hw (l := List.range H.cols) List.nodup_range (fun i hi => List.mem_range.1 hi) hl' b2 a2 (by simpa using b3)
    a3 (by rw [e1, e2]; exact b1) a1
  rw [this, ← hqc, Mat.selCols_range hq]

end Hpelm
