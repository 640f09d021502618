import Verif.Props.C64_C68_TrainAlgebra
import Verif.Props.C37_C39_Selection

/-!
# C79–C81 — how well a trained model fits: balance of the training error, leave-one-out error, stability against changed targets
-/

set_option linter.unusedSectionVars false

namespace Hpelm.Props
open Hpelm Spec Finset
variable {K : Type} [Field K] [LinearOrder K] [IsStrictOrderedRing K]

/-! ## C79 -/

/-- The normal equations imply an exact balance. -/
theorem normalEq_balance {H T B : Mat K} {w : Nat → K} {lam : K} (h : NormalEq H T w lam B) :
    ∑ s ∈ range T.nrows, w s * ∑ j ∈ range T.cols, T.get s j ^ 2 =
      ∑ s ∈ range T.nrows, w s * ∑ j ∈ range T.cols, (predEntry H B s j - T.get s j) ^ 2 +
        ∑ s ∈ range T.nrows, w s * ∑ j ∈ range T.cols, predEntry H B s j ^ 2 +
        2 * lam * ∑ k ∈ range H.cols, ∑ j ∈ range T.cols, B.get k j ^ 2 := by
  have key : ∀ j ∈ range T.cols, ∑ s ∈ range T.nrows, w s * (predEntry H B s j * (T.get s j - predEntry H B s j)) =
      lam * ∑ k ∈ range H.cols, B.get k j ^ 2 := by
    intro j hj
    have h1 : ∀ s ∈ range T.nrows, w s * (predEntry H B s j * (T.get s j - predEntry H B s j)) =
        ∑ k ∈ range H.cols, B.get k j * (w s * H.get s k * T.get s j - w s * H.get s k * predEntry H B s j) := by
      intro s _
      conv_lhs => rw [show predEntry H B s j * (T.get s j - predEntry H B s j)
        = (∑ k ∈ range H.cols, H.get s k * B.get k j) * (T.get s j - predEntry H B s j) from rfl]
      rw [Finset.sum_mul, Finset.mul_sum]
      exact Finset.sum_congr rfl fun k _ => by ring
    rw [Finset.sum_congr rfl h1, Finset.sum_comm, Finset.mul_sum]
    apply Finset.sum_congr rfl
    intro k hk
    rw [← Finset.mul_sum, Finset.sum_sub_distrib, ← h k (Finset.mem_range.1 hk) j (Finset.mem_range.1 hj)]
    ring
  have h2 : lam * ∑ k ∈ range H.cols, ∑ j ∈ range T.cols, B.get k j ^ 2 =
      ∑ s ∈ range T.nrows, w s * ∑ j ∈ range T.cols, predEntry H B s j * (T.get s j - predEntry H B s j) := by
    rw [Finset.sum_comm, Finset.mul_sum, ← Finset.sum_congr rfl key, Finset.sum_comm]
    exact Finset.sum_congr rfl fun s _ => by rw [Finset.mul_sum]
  rw [mul_assoc, h2, Finset.mul_sum, ← Finset.sum_add_distrib, ← Finset.sum_add_distrib]
  apply Finset.sum_congr rfl
  intro s _
  rw [← mul_add, mul_left_comm, ← mul_add, ← Finset.sum_add_distrib, Finset.mul_sum (a := 2), ← Finset.sum_add_distrib]
  congr 1
  exact Finset.sum_congr rfl fun j _ => by ring

theorem pred_shape {env : Env K} {e e' : ELM K} {X T H B P : Mat K} {w : Nat → K} (t : Trained env e X T e' H B w) (p : Predicts env e' X P) :
    P.nrows = T.nrows ∧ P.cols = T.cols ∧ ∀ s < T.nrows, ∀ j < T.cols, P.get s j = predEntry H B s j := by
  obtain ⟨G, g, eP, d, m⟩ := t.pred X P p
  have : G = H := by
    have := t.proj
    rw [g] at this
    injection this
  subst this
  refine ⟨by rw [eP, Mat.mul_nrows, t.rowsH], by rw [eP]; exact t.cols, fun s hs j hj => ?_⟩
  exact t.predGet (Xn := X) eP d s (by rw [t.rowsH]; exact hs) j hj

/-- C79.  On its training data a trained model splits the (weighted) sum of squares of the targets exactly into three non-negative parts:
squared error, sum of squares of the predictions, and twice the regularised size of the output weights.  So training never fits worse than
predicting zero, predictions are never larger than the targets (in this sense), and the output weights are bounded by the targets. -/
theorem C79_balance (env : Env K) (hl : Lawful env) (hx : env.Exact) (e e' : ELM K) (X T : Mat K) (args : List String) (kw : Kwargs K)
    (h : PlainTrain env e X T args kw e') (P B : Mat K) (p : Predicts env e' X P) (hB : e'.nnet.getB = some B)
    (w : Nat → K) (hw : SampleWeights e'.classification e'.wc T w) :
    energy w T = fitError w P T + energy w P + 2 * e.nnet.norm * sqNorm B ∧
      0 ≤ fitError w P T ∧ 0 ≤ energy w P ∧ 0 ≤ sqNorm B ∧
      fitError w P T ≤ energy w T ∧ energy w P ≤ energy w T ∧ sqNorm B ≤ energy w T / (2 * e.nnet.norm) := by
  obtain ⟨H, B0, w', t⟩ := h.trained hl hx
  obtain rfl : B = B0 := by have := t.getB; rw [hB] at this; injection this
  have hww := sampleWeights_unique hw t.sw
  obtain ⟨p1, p2, p3⟩ := pred_shape t p
  have hb := normalEq_balance t.normal
  have hn : ∀ s < T.nrows, 0 ≤ w s := fun s hs => by rw [hww s hs]; exact t.nonneg s hs
  have e1 : energy w T = ∑ s ∈ range T.nrows, w' s * ∑ j ∈ range T.cols, T.get s j ^ 2 :=
    Finset.sum_congr rfl fun s hs => by rw [hww s (Finset.mem_range.1 hs)]
  have e2 : energy w P = ∑ s ∈ range T.nrows, w' s * ∑ j ∈ range T.cols, predEntry H B s j ^ 2 := by
    unfold energy
    rw [p1, p2]
    refine Finset.sum_congr rfl fun s hs => ?_
    rw [hww s (Finset.mem_range.1 hs)]
    congr 1
    exact Finset.sum_congr rfl fun j hj => by rw [p3 s (Finset.mem_range.1 hs) j (Finset.mem_range.1 hj)]
  have e3 : fitError w P T = ∑ s ∈ range T.nrows, w' s * ∑ j ∈ range T.cols, (predEntry H B s j - T.get s j) ^ 2 := by
    unfold fitError
    refine Finset.sum_congr rfl fun s hs => ?_
    rw [hww s (Finset.mem_range.1 hs)]
    congr 1
    exact Finset.sum_congr rfl fun j hj => by rw [p3 s (Finset.mem_range.1 hs) j (Finset.mem_range.1 hj)]
  have e4 : sqNorm B = ∑ k ∈ range H.cols, ∑ j ∈ range T.cols, B.get k j ^ 2 := by
    unfold sqNorm
    rw [t.rows, t.cols]
  have main : energy w T = fitError w P T + energy w P + 2 * e.nnet.norm * sqNorm B := by rw [e1, e2, e3, e4, hb]
  have n1 : 0 ≤ fitError w P T :=
    Finset.sum_nonneg fun s hs => mul_nonneg (hn s (Finset.mem_range.1 hs)) (Finset.sum_nonneg fun j _ => sq_nonneg _)
  have n2 : 0 ≤ energy w P :=
    Finset.sum_nonneg fun s hs => mul_nonneg (hn s (by rw [← p1]; exact Finset.mem_range.1 hs)) (Finset.sum_nonneg fun j _ => sq_nonneg _)
  have n3 : 0 ≤ sqNorm B := Finset.sum_nonneg fun k _ => Finset.sum_nonneg fun j _ => sq_nonneg _
  have hlam := h.norm
  have n4 : 0 ≤ 2 * e.nnet.norm * sqNorm B := by positivity
  refine ⟨main, n1, n2, n3, by linarith, by linarith, ?_⟩
  rw [le_div_iff₀ (by positivity)]
  linarith

/-! ## C80 -/

/-- Leaving a sample out never makes its residual smaller, output by output. -/
theorem loo_residual_ge {H T B Bs : Mat K} {lam : K} (hl : 0 < lam) (hB : NormalEq H T (fun _ => 1) lam B) {s : Nat} (hs : s < T.nrows)
    (hBs : NormalEq (H.selRows (others T.nrows s)) (T.selRows (others T.nrows s)) (fun _ => 1) lam Bs) {j : Nat} (hj : j < T.cols) :
    (predEntry H B s j - T.get s j) ^ 2 ≤ (predEntry H Bs s j - T.get s j) ^ 2 := by
  rw [normalEq_others hs] at hBs
  have hu : ∀ i, ∑ k ∈ range H.cols, H.get i k * (B.get k j - Bs.get k j) = predEntry H B i j - predEntry H Bs i j := by
    intro i
    unfold predEntry
    rw [← Finset.sum_sub_distrib]
    exact Finset.sum_congr rfl fun k _ => by ring
  have hd : ∀ k ∈ range H.cols, (B.get k j - Bs.get k j) * (lam * (B.get k j - Bs.get k j) +
      ∑ i ∈ range T.nrows, H.get i k * (predEntry H B i j - predEntry H Bs i j)) =
      (B.get k j - Bs.get k j) * -(H.get s k * (predEntry H Bs s j - T.get s j)) := by
    intro k hk
    congr 1
    have q1 := hB k (Finset.mem_range.1 hk) j hj
    have q2 := hBs k (Finset.mem_range.1 hk) j hj
    simp only [one_mul] at q1
    simp only [mul_sub (H.get _ k), Finset.sum_sub_distrib] at *
    linear_combination q1 - q2
  have hsum := Finset.sum_congr rfl hd
  have e1 : ∑ k ∈ range H.cols, (B.get k j - Bs.get k j) * -(H.get s k * (predEntry H Bs s j - T.get s j)) =
      -((predEntry H B s j - predEntry H Bs s j) * (predEntry H Bs s j - T.get s j)) := by
    rw [← hu s, Finset.sum_mul, ← Finset.sum_neg_distrib]
    exact Finset.sum_congr rfl fun k _ => by ring
  have e2 : ∑ k ∈ range H.cols, (B.get k j - Bs.get k j) * (lam * (B.get k j - Bs.get k j) +
      ∑ i ∈ range T.nrows, H.get i k * (predEntry H B i j - predEntry H Bs i j)) =
      lam * ∑ k ∈ range H.cols, (B.get k j - Bs.get k j) ^ 2 + ∑ i ∈ range T.nrows, (predEntry H B i j - predEntry H Bs i j) ^ 2 := by
    simp only [mul_add, Finset.sum_add_distrib]
    congr 1
    · rw [Finset.mul_sum]
      exact Finset.sum_congr rfl fun k _ => by ring
    · simp only [Finset.mul_sum]
      rw [Finset.sum_comm]
      apply Finset.sum_congr rfl
      intro i _
      conv_rhs => rw [pow_two, ← hu i, Finset.sum_mul]
      exact Finset.sum_congr rfl fun k _ => by rw [hu i]; ring
  rw [e1, e2] at hsum
  have n1 : 0 ≤ lam * ∑ k ∈ range H.cols, (B.get k j - Bs.get k j) ^ 2 := mul_nonneg hl.le (Finset.sum_nonneg fun k _ => sq_nonneg _)
  have n2 : (predEntry H B s j - predEntry H Bs s j) ^ 2 ≤ ∑ i ∈ range T.nrows, (predEntry H B i j - predEntry H Bs i j) ^ 2 :=
    Finset.single_le_sum (f := fun i => (predEntry H B i j - predEntry H Bs i j) ^ 2) (fun i _ => sq_nonneg _) (Finset.mem_range.2 hs)
  nlinarith [sq_nonneg (predEntry H B s j - predEntry H Bs s j)]

/-- The leave-one-out error is never smaller than the training error. -/
theorem loo_ge_train {H T B : Mat K} {lam v : K} (hl : 0 < lam) (hB : NormalEq H T (fun _ => 1) lam B) (hv : IsLooError H T lam v) :
    (∑ s ∈ range T.nrows, ∑ j ∈ range T.cols, (predEntry H B s j - T.get s j) ^ 2) / ((T.nrows * T.cols : Nat) : K) ≤ v := by
  obtain ⟨Bs, h1, rfl⟩ := hv
  apply div_le_div_of_nonneg_right _ (Nat.cast_nonneg _)
  apply Finset.sum_le_sum
  intro s hs
  apply Finset.sum_le_sum
  intro j hj
  rw [Finset.mem_range] at hs hj
  exact loo_residual_ge hl hB hs (h1 s hs).2.2.2 hj

/-- Weights that are all one. -/
theorem normalEq_ones {H T B : Mat K} {w : Nat → K} {norm : K} (hw : ∀ s < T.nrows, w s = 1) (h : NormalEq H T w norm B) :
    NormalEq H T (fun _ => 1) norm B := by
  intro k hk j hj
  have := h k hk j hj
  have e1 : ∀ f : Nat → K, ∑ s ∈ range T.nrows, w s * H.get s k * f s = ∑ s ∈ range T.nrows, 1 * H.get s k * f s := fun f =>
    Finset.sum_congr rfl fun s hs => by rw [hw s (Finset.mem_range.1 hs)]
  rw [e1, e1] at this
  exact this

/-- C80.  The leave-one-out error `v` of a trained (unweighted) model is never smaller than its mean squared error on the training data. -/
theorem C80_not_below_training (env : Env K) (hl : Lawful env) (hx : env.Exact) (e e' : ELM K) (X T : Mat K) (args : List String)
    (kw : Kwargs K) (h : PlainTrain env e X T args kw e') (hc : e'.classification ≠ some "wc") (H P : Mat K)
    (hH : e.nnet.project env X = .ok H) (p : Predicts env e' X P) (v : K) (hv : IsLooError H T e.nnet.norm v) :
    fitError (fun _ => 1) P T / ((T.nrows * T.cols : Nat) : K) ≤ v := by
  obtain ⟨H', B, w, t⟩ := h.trained hl hx
  have : H' = H := by
    have := t.proj
    rw [hH] at this
    injection this with this
    exact this.symm
  subst this
  have hw : ∀ s < T.nrows, w s = 1 := fun s hs => (t.sw s hs).1 hc
  have hn : NormalEq H' T (fun _ => 1) e.nnet.norm B := normalEq_ones hw t.normal
  obtain ⟨_, _, p3⟩ := pred_shape t p
  refine le_trans (le_of_eq ?_) (loo_ge_train h.norm hn hv)
  congr 1
  unfold fitError
  apply Finset.sum_congr rfl
  intro s hs
  rw [one_mul]
  exact Finset.sum_congr rfl fun j hj => by rw [p3 s (Finset.mem_range.1 hs) j (Finset.mem_range.1 hj)]

/-- C80 for structure selection by leave-one-out (regression, ranking of the whole network): the recorded error of the selected size, less the
size penalty, is never smaller than the mean squared error of the returned model's own predictions on the training data. -/
theorem C80_selection (env : Env K) (hlw : Lawful env) (hx : env.Exact) (sh : List Nat) (e : ELM K) (X T : Mat K)
    (hc : e.classification ≠ some "c" ∧ e.classification ≠ some "wc" ∧ e.classification ≠ some "ml") (hcon : Consistent e.nnet)
    (hcorr : e.nnet.corr = none) (hnorm : 0 < e.nnet.norm) (hb : 0 < e.batch) (hN : X.nrows = T.nrows) (hT : T.WF) (hC : 0 < T.cols)
    (hsh : sh.Perm (List.range (size e.nnet))) (hf : FullRanking e T) {e' : ELM K} {k : Nat} {errs : List K}
    (h : trainLOO env sh e X T = .ok (e', k, errs)) :
    ∃ H full P, e.nnet.project env X = .ok H ∧ IsLooError H T e.nnet.norm full ∧ e'.nnet.predict env X = .ok P ∧
      fitError (fun _ => 1) P T / ((T.nrows * T.cols : Nat) : K) ≤ errs.getD k 0 - k * (full * (1 / 100) / size e.nnet) := by
  obtain ⟨_, H, H', full, v, a1, a2, a3, a4, a5, _⟩ := C38_loo_partial env hlw hx sh e X T hc hcon hcorr hnorm hb hN hT hC hsh hf h
  obtain ⟨H2, B, b1, b2, b3, b4, b5, b6⟩ := C39_returned_unweighted env hlw hx e e' X T X T hN hT hnorm (Or.inr (Or.inl ⟨sh, k, errs, h⟩))
  rw [a3] at b1
  injection b1 with b1
  subst b1
  have hrows : T.nrows = H'.nrows := by
    have := C32_best_tried_loo env hx sh e X T (fun h => absurd h hc.2.1) (fun h => absurd h hc.2.1) h
    obtain ⟨H0, e1, HH, HT, rank, L, full, pen, h1, h2, h3, h4, h5, h6, h7⟩ := this
    have hcon1 : Consistent e1.nnet := addData_consistent hcon h2
    have := (project_WF (refit_consistent hlw.toShapes hcon1 h7) a3).2.1
    rw [this, hN]
  refine ⟨H, full, H'.mul B, a1, a2, ?_, ?_⟩
  · unfold NNet.predict
    rw [b2]
    simp only [a3, bind, Except.bind]
    rw [if_neg (by rw [b4]; simp)]
    rfl
  · rw [a5, add_sub_cancel_right]
    refine le_trans (le_of_eq ?_) (loo_ge_train hnorm b6 a4)
    congr 1
    unfold fitError
    apply Finset.sum_congr rfl
    intro s hs
    rw [one_mul]
    apply Finset.sum_congr rfl
    intro j hj
    rw [get_mul_sum (by rw [← hrows]; exact Finset.mem_range.1 hs) (by rw [b5]; exact Finset.mem_range.1 hj)]
    unfold predEntry
    rw [b4]

/-- LOO selection on four neurons and four samples: the hypotheses of `C80_selection` are met, and the call succeeds. -/
example : ∃ r, trainLOO QEnv.env [2, 0, 3, 1] (exModel4 none none 1) ⟨1, [[1], [2], [3], [-1]]⟩ ⟨1, [[1], [0], [3], [5]]⟩ = .ok r := by
  cases h : trainLOO QEnv.env [2, 0, 3, 1] (exModel4 none none 1) ⟨1, [[1], [2], [3], [-1]]⟩ ⟨1, [[1], [0], [3], [5]]⟩ with
  | ok r => exact ⟨r, rfl⟩
  | error x =>
    have : (trainLOO QEnv.env [2, 0, 3, 1] (exModel4 none none 1) ⟨1, [[1], [2], [3], [-1]]⟩ ⟨1, [[1], [0], [3], [5]]⟩).toBool = true := by
      decide +kernel
    rw [h] at this
    cases this

/-! ## C81 -/

/-- C81.  Two models with the same neurons and regularisation are trained (unweighted) on the same inputs with different targets.  Changing the
targets changes the predictions on the training data, and the output weights, at most by as much as the targets were changed: the
squared change of the predictions plus twice the regularised squared change of the weights never exceeds the squared change of the targets. -/
theorem C81_stability (env : Env K) (hl : Lawful env) (hx : env.Exact) (e e' f f' : ELM K) (X T U : Mat K)
    (args argsf : List String) (kw kwf : Kwargs K) (h : PlainTrain env e X T args kw e') (hf : PlainTrain env f X U argsf kwf f')
    (c : e'.classification ≠ some "wc") (cf : f'.classification ≠ some "wc")
    (hn : neuronList e.nnet = neuronList f.nnet) (hr : e.nnet.norm = f.nnet.norm) (hTU : T.cols = U.cols)
    (P Q B C : Mat K) (p : Predicts env e' X P) (q : Predicts env f' X Q) (hB : e'.nnet.getB = some B) (hC : f'.nnet.getB = some C) :
    fitError (fun _ => 1) P Q + 2 * e.nnet.norm * ∑ k ∈ range B.nrows, ∑ j ∈ range B.cols, (B.get k j - C.get k j) ^ 2
      ≤ fitError (fun _ => 1) T U := by
  obtain ⟨H, B0, w, t⟩ := h.trained hl hx
  obtain ⟨H', C0, w', t'⟩ := hf.trained hl hx
  obtain rfl : B = B0 := by have := t.getB; rw [hB] at this; injection this
  obtain rfl : C = C0 := by have := t'.getB; rw [hC] at this; injection this
  obtain rfl := project_eq_of_neurons h.consistent hf.consistent t.proj t'.proj hn
  have hNTU : T.nrows = U.nrows := by rw [← t.rowsX, t'.rowsX]
  have hw : ∀ s < T.nrows, w s = 1 := fun s hs => (t.sw s hs).1 c
  have hw' : ∀ s < T.nrows, w' s = 1 := fun s hs => (t'.sw s (hNTU ▸ hs)).1 cf
  obtain ⟨p1, p2, p3⟩ := pred_shape t p
  obtain ⟨q1, q2, q3⟩ := pred_shape t' q
  -- the difference solves the normal equations for the difference of the targets
  let D : Mat K := Mat.ofFn H.cols T.cols fun k j => B.get k j - C.get k j
  let S : Mat K := Mat.ofFn T.nrows T.cols fun s j => T.get s j - U.get s j
  have hDg : ∀ k < H.cols, ∀ j < T.cols, D.get k j = B.get k j - C.get k j := fun k hk j hj => Mat.get_ofFn_lt hk hj
  have hSg : ∀ s < T.nrows, ∀ j < T.cols, S.get s j = T.get s j - U.get s j := fun s hs j hj => Mat.get_ofFn_lt hs hj
  have hSr : S.nrows = T.nrows := by simp [S, Mat.ofFn, Mat.nrows]
  have hSc : S.cols = T.cols := rfl
  have hpe : ∀ s, ∀ j < T.cols, predEntry H D s j = predEntry H B s j - predEntry H C s j := by
    intro s j hj
    unfold predEntry
    rw [← Finset.sum_sub_distrib]
    exact Finset.sum_congr rfl fun k hk => by rw [hDg k (Finset.mem_range.1 hk) j hj]; ring
  have hne : NormalEq H S (fun _ => 1) e.nnet.norm D := by
    intro k hk j hj
    rw [hSc] at hj
    have a := normalEq_ones hw t.normal k hk j hj
    have b := normalEq_ones (fun s hs => hw' s (hNTU ▸ hs)) t'.normal k hk j (hTU ▸ hj)
    rw [← hr, ← hNTU] at b
    rw [hDg k hk j hj, hSr]
    have e1 : ∑ s ∈ range T.nrows, 1 * H.get s k * predEntry H D s j =
        ∑ s ∈ range T.nrows, 1 * H.get s k * predEntry H B s j - ∑ s ∈ range T.nrows, 1 * H.get s k * predEntry H C s j := by
      rw [← Finset.sum_sub_distrib]
      exact Finset.sum_congr rfl fun s _ => by rw [hpe s j hj]; ring
    have e2 : ∑ s ∈ range T.nrows, 1 * H.get s k * S.get s j =
        ∑ s ∈ range T.nrows, 1 * H.get s k * T.get s j - ∑ s ∈ range T.nrows, 1 * H.get s k * U.get s j := by
      rw [← Finset.sum_sub_distrib]
      exact Finset.sum_congr rfl fun s hs => by rw [hSg s (Finset.mem_range.1 hs) j hj]; ring
    rw [e1, e2]
    linear_combination a - b
  have hb := normalEq_balance hne
  rw [hSr, hSc] at hb
  have f1 : fitError (fun _ => 1) T U = ∑ s ∈ range T.nrows, 1 * ∑ j ∈ range T.cols, S.get s j ^ 2 := by
    unfold fitError
    rw [← hNTU, ← hTU]
    exact Finset.sum_congr rfl fun s hs => by
      congr 1
      exact Finset.sum_congr rfl fun j hj => by rw [hSg s (Finset.mem_range.1 hs) j (Finset.mem_range.1 hj)]
  have f2 : fitError (fun _ => 1) P Q = ∑ s ∈ range T.nrows, 1 * ∑ j ∈ range T.cols, predEntry H D s j ^ 2 := by
    unfold fitError
    rw [q1, q2, ← hNTU, ← hTU]
    exact Finset.sum_congr rfl fun s hs => by
      congr 1
      exact Finset.sum_congr rfl fun j hj => by
        rw [hpe s j (Finset.mem_range.1 hj), p3 s (Finset.mem_range.1 hs) j (Finset.mem_range.1 hj),
          q3 s (hNTU ▸ Finset.mem_range.1 hs) j (hTU ▸ Finset.mem_range.1 hj)]
  have f3 : ∑ k ∈ range B.nrows, ∑ j ∈ range B.cols, (B.get k j - C.get k j) ^ 2 = ∑ k ∈ range H.cols, ∑ j ∈ range T.cols, D.get k j ^ 2 := by
    rw [t.rows, t.cols]
    exact Finset.sum_congr rfl fun k hk => Finset.sum_congr rfl fun j hj => by
      rw [hDg k (Finset.mem_range.1 hk) j (Finset.mem_range.1 hj)]
  have n1 : 0 ≤ ∑ s ∈ range T.nrows, (fun _ => (1 : K)) s * ∑ j ∈ range T.cols, (predEntry H D s j - S.get s j) ^ 2 :=
    Finset.sum_nonneg fun s _ => mul_nonneg zero_le_one (Finset.sum_nonneg fun j _ => sq_nonneg _)
  rw [f1, f2, f3]
  linarith

/-- Models that meet the hypotheses of C79 and C81: two training runs of the same network on the same inputs with different targets. -/
example (s : Solver) : ∃ e₁ e₂ : ELM ℝ,
    PlainTrain realEnv (linModel s 2 1 [[1, 0], [0, 1]]) ⟨2, [[1, 0], [0, 1], [2, 3]]⟩ ⟨2, [[1, 4], [2, 5], [3, 6]]⟩ [] {} e₁ ∧
    PlainTrain realEnv (linModel s 2 1 [[1, 0], [0, 1]]) ⟨2, [[1, 0], [0, 1], [2, 3]]⟩ ⟨2, [[1, 4], [2, 7], [3, 6]]⟩ [] {} e₂ ∧
    e₁.classification ≠ some "wc" ∧ e₂.classification ≠ some "wc" := by
  obtain ⟨e₁, h₁, a, _⟩ := linModel_train s 2 1 one_pos [[1, 0], [0, 1]] (by simp) ⟨2, [[1, 0], [0, 1], [2, 3]]⟩ ⟨2, [[1, 4], [2, 5], [3, 6]]⟩
    rfl rfl (by simp [Mat.WF]) rfl (by simp [Mat.nrows])
  obtain ⟨e₂, h₂, b, _⟩ := linModel_train s 2 1 one_pos [[1, 0], [0, 1]] (by simp) ⟨2, [[1, 0], [0, 1], [2, 3]]⟩ ⟨2, [[1, 4], [2, 7], [3, 6]]⟩
    rfl rfl (by simp [Mat.WF]) rfl (by simp [Mat.nrows])
  exact ⟨e₁, e₂, h₁, h₂, a, b⟩

end Hpelm.Props
