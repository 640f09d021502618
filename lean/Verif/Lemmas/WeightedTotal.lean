import Verif.Lemmas.PressClass
import Verif.Lemmas.Unweighted
import Verif.Props.C82_ClassWeights

/-!
# Weighted training data: usable weights, leverages
-/

set_option linter.unusedSectionVars false

namespace Hpelm
open Finset Spec Matrix
variable {K : Type} [Field K] [LinearOrder K] [IsStrictOrderedRing K]

/-- Correlation matrices collected from weighted samples. -/
theorem addData_isCorr {env : Env K} (hx : env.Exact) {e e' : ELM K} {X T H : Mat K}
    (hsq : e.classification = some "wc" → ∀ x : K, 0 ≤ x → env.sqrt x * env.sqrt x = x) (hb : 0 < e.batch) (hN : X.nrows = T.nrows) (hTw : T.WF)
    (hc : e.nnet.corr = none) (hT : e.classification = some "wc" → OneHot T)
    (hw : e.wc = none ∨ ∃ ws : List K, e.wc = some (ws.map some) ∧ (∀ x ∈ ws, 0 ≤ x) ∧ ws.length = T.cols)
    (hp : e.nnet.project env X = .ok H) (h : e.addData env X T = .ok e') :
    ∃ (S HT : Mat K) (w : Nat → K), H.cols = e.nnet.L.getD 0 ∧
      e' = { e.autoWc env (colSums T) with nnet := { e.nnet with corr := some (e.nnet.store S, HT) } } ∧
      SampleWeights e'.classification e'.wc T w ∧ (∀ s < T.nrows, 0 ≤ w s) ∧ IsCorr H T w e.nnet.norm S HT := by
  obtain ⟨H', S, HT, w, a1, a2, a3, a4, a5, a6, a7, a8, a9, a10, a11, a12, a13, a14, a15⟩ := addData_fresh hx hsq hb hN hTw hc hT hw h
  rw [hp] at a2
  injection a2 with a2
  subst a2
  exact ⟨S, HT, w, a4, a6, a12, a13, by rw [a3, hN], a7.wf, a8, by rw [← a7.square, a8], a9, a10, a11, a14, a15⟩

/-- The weights in force after adding data to a model whose weights were given, or which chooses them itself and has seen every class. -/
theorem autoWc_usable {env : Env K} (hx : env.Exact) {e : ELM K} {T : Mat K} (hc : e.classification = some "wc") (hT : OneHot T)
    (hw : (∃ ws : List K, e.wc = some (ws.map some) ∧ (∀ x ∈ ws, 1 ≤ x) ∧ ws.length = T.cols) ∨
      (e.wc = none ∧ ∀ k < T.cols, ∃ r ∈ T.rows, IsClass T.cols r k)) :
    ∃ ws : List K, (e.autoWc env (colSums T)).wc = some (ws.map some) ∧ (∀ x ∈ ws, 1 ≤ x) ∧ ws.length = T.cols := by
  rcases hw with ⟨ws, h1, h2, h3⟩ | ⟨h1, h2⟩
  · exact ⟨ws, Props.autoWc_some h1, h2, h3⟩
  · have hlen : (colSums T).length = T.cols := by simp [colSums]
    have hpos : ∀ x ∈ colSums T, 1 ≤ x := by
      intro x hx'
      obtain ⟨k, hk, rfl⟩ := List.getElem_of_mem hx'
      have hcs := colSums_oneHot hT k (by omega)
      rw [List.getD_eq_getElem _ _ hk] at hcs
      rw [hcs]
      obtain ⟨r, hr, hrk⟩ := h2 k (by omega)
      have := countP_pos (T := T) hr
      rw [classOf_isClass hrk] at this
      exact_mod_cast this
    refine ⟨(colSums T).map fun n => (colSums T).sum / n, ?_, ?_, by simp [hlen]⟩
    · unfold ELM.autoWc
      rw [if_pos ⟨hc, h1⟩]
      simp only
      rw [Mat.map_of_exact (hx _)]
      unfold autoWeights
      rw [List.map_map]
      congr 1
      refine List.map_congr_left fun n hn => ?_
      have := hpos n hn
      rw [if_neg (by intro h; rw [h] at this; linarith [zero_lt_one (α := K)])]
      rfl
    · intro x hx'
      obtain ⟨n, hn, rfl⟩ := List.mem_map.1 hx'
      have h1n := hpos n hn
      rw [le_div_iff₀ (by linarith [zero_lt_one (α := K)]), one_mul]
      exact List.single_le_sum (fun y hy => zero_le_one.trans (hpos y hy)) n hn

/-- The leverage of a sample computed from the weighted correlation matrix is less than 1 if no weight is less than 1. -/
theorem weighted_leverage {H T S HT P : Mat K} {w : Nat → K} {lam : K} (h : IsCorr H T w lam S HT) (hl : 0 < lam) (hP1 : P.nrows = H.cols)
    (hP2 : P.cols = H.cols) (hSP : S.mul P = Mat.diag S.nrows 1) (hw : ∀ s < T.nrows, 1 ≤ w s) {s : Nat} (hs : s < T.nrows) :
    (∑ i ∈ range H.cols, (∑ k ∈ range H.cols, H.get s k * P.get k i) * H.get s i) ≠ 1 := by
  have m2 : S.toM H.cols H.cols * P.toM H.cols H.cols = 1 := by
    rw [← toM_mul h.rowsS hP1 hP2, hSP, h.rowsS, toM_diag, one_smul]
  have hq : (∑ i ∈ range H.cols, (∑ k ∈ range H.cols, H.get s k * P.get k i) * H.get s i) =
      (fun k : Fin H.cols => H.get s k) ⬝ᵥ (P.toM H.cols H.cols *ᵥ fun k : Fin H.cols => H.get s k) := by
    rw [Matrix.dotProduct_mulVec, Finset.sum_range]
    apply Finset.sum_congr rfl
    intro i _
    congr 1
    rw [Finset.sum_range]
    rfl
  rw [hq]
  obtain ⟨g, hg⟩ : ∃ g : Nat → Fin H.cols → K, g = fun t (k : Fin H.cols) => H.get t k := ⟨_, rfl⟩
  obtain ⟨x, hx⟩ : ∃ x, x = P.toM H.cols H.cols *ᵥ g s := ⟨_, rfl⟩
  have hgs : (fun k : Fin H.cols => H.get s k) = g s := by rw [hg]
  rw [hgs, ← hx]
  intro h1
  have hSx : S.toM H.cols H.cols *ᵥ x = g s := by rw [hx, Matrix.mulVec_mulVec, m2, Matrix.one_mulVec]
  have hxx : x ⬝ᵥ (S.toM H.cols H.cols *ᵥ x) = 1 := by rw [hSx, dotProduct_comm, h1]
  have hS : S.toM H.cols H.cols = lam • 1 + ∑ t ∈ range T.nrows, w t • Matrix.vecMulVec (g t) (g t) := by
    ext i j
    rw [toM_apply, h.sumS i i.2 j j.2, Matrix.add_apply, Matrix.smul_apply, Matrix.sum_apply]
    congr 1
    · by_cases e : i = j
      · subst e; simp
      · have : (i : Nat) ≠ j := fun h => e (Fin.ext h)
        simp [e, this]
    · apply Finset.sum_congr rfl
      intro t _
      simp [hg, Matrix.vecMulVec_apply, mul_assoc]
  have e : x ⬝ᵥ (S.toM H.cols H.cols *ᵥ x) = lam * (x ⬝ᵥ x) + ∑ t ∈ range T.nrows, w t * (g t ⬝ᵥ x) ^ 2 := by
    rw [hS, Matrix.add_mulVec, dotProduct_add, Matrix.smul_mulVec, Matrix.one_mulVec, dotProduct_smul, smul_eq_mul, Matrix.sum_mulVec,
      dotProduct_sum]
    congr 1
    apply Finset.sum_congr rfl
    intro t _
    rw [Matrix.smul_mulVec, dotProduct_smul, smul_eq_mul, Matrix.vecMulVec_mulVec, dotProduct_smul]
    rw [dotProduct_comm x (g t)]
    simp only [MulOpposite.smul_eq_mul_unop, MulOpposite.unop_op]
    ring
  have h2 : (1 : K) ≤ ∑ t ∈ range T.nrows, w t * (g t ⬝ᵥ x) ^ 2 := by
    have := Finset.single_le_sum (f := fun t => w t * (g t ⬝ᵥ x) ^ 2)
      (fun t ht => mul_nonneg (zero_le_one.trans (hw t (Finset.mem_range.1 ht))) (sq_nonneg _)) (Finset.mem_range.2 hs)
    simp only [h1, one_pow, mul_one] at this
    exact (hw s hs).trans this
  have h3 : x ⬝ᵥ x ≤ 0 := by
    by_contra hn
    have := mul_pos hl (not_le.1 hn)
    linarith
  have h4 : x = 0 := by
    have h5 : x ⬝ᵥ x = 0 := le_antisymm h3 (Finset.sum_nonneg fun i _ => mul_self_nonneg (x i))
    exact dotProduct_self_eq_zero.1 h5
  rw [h4] at h1
  simp at h1

/-- The inverse of a weighted correlation matrix exists. -/
theorem inv_total {env : Env K} (hlw : Lawful env) {H T S HT : Mat K} {w : Nat → K} {lam : K} (h : IsCorr H T w lam S HT) (hl : 0 < lam)
    (hw : ∀ s < T.nrows, 0 ≤ w s) : ∃ P, env.inv S = some P := by
  have hpd := h.posDef hl hw
  have hsq : S.nrows = S.cols := by rw [h.rowsS, h.colsS]
  cases hi : env.inv S with
  | some P => exact ⟨P, rfl⟩
  | none =>
    exfalso
    apply hlw.inv_none S h.wfS hsq hi
    obtain ⟨P, ⟨p1, p2, p3⟩, hP⟩ := posDef_sol hpd hsq (b := Mat.diag S.nrows 1) (Mat.ofFn_WF _ _ _) (by simp [Mat.diag])
    have p3' : P.cols = S.nrows := by simpa [Mat.diag] using p3
    refine ⟨P, p1, by rw [p2, hsq], p3', ?_⟩
    apply toM_inj (r := S.nrows) (c := S.nrows) (Mat.mul_WF _ _) (B := Mat.diag S.nrows 1) (Mat.ofFn_WF _ _ _) (by simp [p2, hsq]) (by simp [hsq]) (by simp [Mat.diag]) (by simp [Mat.diag])
    rw [toM_mul (m := S.nrows) (by rw [p2, hsq]) rfl hsq.symm, toM_diag, one_smul]
    rw [mul_eq_one_comm, ← toM_mul rfl (by rw [p2, hsq]) p3', hP, toM_diag, one_smul]

end Hpelm
