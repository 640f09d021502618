import Verif.Lemmas.PressClass
import Verif.Props.C79_C81_Fit

/-!
# C92 — leave-one-out selection of classifiers
-/

set_option linter.unusedSectionVars false

namespace Hpelm.Props
open Hpelm Spec Finset
variable {K : Type} [Field K] [LinearOrder K] [IsStrictOrderedRing K]

/-- A wrong label stays wrong when its sample is left out. -/
theorem stays_wrong {t y z R : K} (r1 : 0 < R) (r2 : R ≤ 1) (h : y - t = R * (z - t)) (hw : ¬ (1 / 2 < y ↔ 1 / 2 < t)) : ¬ (1 / 2 < z ↔ 1 / 2 < t) := by
  by_cases ht : 1 / 2 < t
  · have hy : ¬ 1 / 2 < y := fun hy => hw ⟨fun _ => ht, fun _ => hy⟩
    have hz : z - t < 0 := by
      by_contra hn
      have := mul_nonneg r1.le (not_lt.1 hn)
      linarith
    intro hi
    have := hi.2 ht
    nlinarith
  · have hy : 1 / 2 < y := by
      by_contra hy
      exact hw ⟨fun h => absurd h hy, fun h => absurd h ht⟩
    have hz : 0 < z - t := by
      by_contra hn
      have := mul_nonpos_of_nonneg_of_nonpos r1.le (not_lt.1 hn)
      linarith
    intro hi
    apply ht
    apply hi.1
    nlinarith

open Classical in
/-- Leaving samples out never makes the error smaller, whatever the kind of unweighted problem. -/
theorem leftOut_ge {kind : Option String} {wc : Option (List (Option K))} (hk : kind ≠ some "wc") {T Y Z : Mat K} {R : Nat → K} (hT : T.WF)
    (hY : Y.WF) (hZ : Z.WF) (y1 : Y.nrows = T.nrows) (y2 : Y.cols = T.cols) (z1 : Z.nrows = T.nrows) (z2 : Z.cols = T.cols)
    (hR : Shrink T Y Z R) {u v : K} (hu : IsError kind wc T Y u) (hv : IsError kind wc T Z v) : u ≤ v := by
  unfold IsError at hu hv
  by_cases h1 : kind = some "c"
  · rw [if_pos h1] at hu hv
    rw [hu, hv]
    apply div_le_div_of_nonneg_right _ (Nat.cast_nonneg _)
    rw [Nat.cast_le]
    unfold countSamples
    apply Finset.card_le_card
    intro s hs
    rw [Finset.mem_filter] at hs ⊢
    exact ⟨hs.1, stays_misclassified hT hY hZ y1 y2 z1 z2 hR (Finset.mem_range.1 hs.1) hs.2⟩
  rw [if_neg h1, if_neg hk] at hu hv
  by_cases h2 : kind = some "ml"
  · rw [if_pos h2] at hu hv
    rw [hu, hv]
    apply div_le_div_of_nonneg_right _ (Nat.cast_nonneg _)
    rw [Nat.cast_le]
    unfold countLabels
    apply Finset.card_le_card
    intro q hq
    simp only [Finset.mem_filter, Finset.mem_product, Finset.mem_range] at hq ⊢
    obtain ⟨r1, r2, r3⟩ := hR q.1 hq.1.1
    exact ⟨hq.1, stays_wrong r1 r2 (r3 q.2 hq.1.2) hq.2⟩
  rw [if_neg h2] at hu hv
  rw [hu, hv]
  apply div_le_div_of_nonneg_right _ (Nat.cast_nonneg _)
  apply Finset.sum_le_sum
  intro s hs
  apply Finset.sum_le_sum
  intro j hj
  obtain ⟨r1, r2, r3⟩ := hR s (Finset.mem_range.1 hs)
  rw [r3 j (Finset.mem_range.1 hj), mul_pow]
  have : R s ^ 2 ≤ 1 := by nlinarith
  nlinarith [sq_nonneg (Z.get s j - T.get s j)]

/-- C92 (what leave-one-out can show).  For every kind of unweighted problem (classification, multi-label classification, regression) and any
targets, the error of the leave-one-out predictions is never smaller than the error of the trained model on its training data; in particular
a sample the trained model misclassifies is also misclassified by the model trained without it. -/
theorem C92_not_below_training (env : Env K) (hl : Lawful env) (hx : env.Exact) (e e' : ELM K) (X T : Mat K) (args : List String)
    (kw : Kwargs K) (h : PlainTrain env e X T args kw e') (hc : e'.classification ≠ some "wc") (H P Z : Mat K)
    (hH : e.nnet.project env X = .ok H) (p : Predicts env e' X P) (hZ : LeftOutPreds H T e.nnet.norm Z) :
    (∀ s < T.nrows, Misclassified T P s → Misclassified T Z s) ∧
      ∀ u v, IsError e'.classification e'.wc T P u → IsError e'.classification e'.wc T Z v → u ≤ v := by
  obtain ⟨H', B, w, t⟩ := h.trained hl hx
  have : H' = H := by
    have := t.proj
    rw [hH] at this
    injection this with this
    exact this.symm
  subst this
  have hw : ∀ s < T.nrows, w s = 1 := fun s hs => (t.sw s hs).1 hc
  have hn : NormalEq H' T (fun _ => 1) e.nnet.norm B := normalEq_ones hw t.normal
  obtain ⟨p1, p2, p3⟩ := pred_shape t p
  have hPwf : P.WF := by
    obtain ⟨G, g, eP, _⟩ := t.pred X P p
    rw [eP]
    exact Mat.mul_WF _ _
  have hfit : FittedPreds H' T e.nnet.norm P := ⟨hPwf, p1, p2, B, t.wf, t.rows, t.cols, hn, p3⟩
  have hT := h.targets
  obtain ⟨R, hR⟩ := shrink_exists h.norm (project_WF h.consistent hH).1 t.rowsH hfit hZ
  exact ⟨fun s hs hm => stays_misclassified hT hPwf hZ.1 p1 p2 hZ.2.1 hZ.2.2.1 hR hs hm,
    fun u v hu hv => leftOut_ge hc hT hPwf hZ.1 p1 p2 hZ.2.1 hZ.2.2.1 hR hu hv⟩

/-- The hypotheses of `C92_not_below_training` are met: a classifier with two neurons trained on three samples; its leave-one-out
predictions exist. -/
example (s : Solver) : ∃ (e' : ELM ℝ) (H P Z : Mat ℝ),
    PlainTrain realEnv (linModel s 2 1 [[1, 0], [0, 1]]) ⟨2, [[-3, -1], [5, 1], [5, 2]]⟩ ⟨2, [[1, 0], [0, 1], [1, 0]]⟩ ["c"] {} e' ∧
    e'.classification = some "c" ∧ (linModel s 2 1 [[1, 0], [0, 1]]).nnet.project realEnv ⟨2, [[-3, -1], [5, 1], [5, 2]]⟩ = .ok H ∧
    Predicts realEnv e' ⟨2, [[-3, -1], [5, 1], [5, 2]]⟩ P ∧ LeftOutPreds H ⟨2, [[1, 0], [0, 1], [1, 0]]⟩ (1 : ℝ) Z := by
  obtain ⟨H, hH⟩ := linModel_project s 2 1 [[1, 0], [0, 1]] ⟨2, [[-3, -1], [5, 1], [5, 2]]⟩ rfl
  have hupper : (["c"] : List String).map upper = ["C"] := by decide +kernel
  have hpa : (linModel s 2 1 [[1, 0], [0, 1]]).parseArgs ["c"] {} =
      ({ linModel s 2 1 [[1, 0], [0, 1]] with nnet := (linModel s 2 1 [[1, 0], [0, 1]]).nnet.reset, classification := some "c" }, .ok ()) := by
    unfold ELM.parseArgs
    rw [hupper, if_neg (by simp [linModel])]
    have h1 : atMostOne ["C"] ["V", "CV", "LOO"] = true := by decide +kernel
    have h2 : atMostOne ["C"] ["C", "WC", "ML", "MC"] = true := by decide +kernel
    simp only [h1, h2, Bool.not_true, Bool.false_eq_true, if_false, parseLoop, parseOne]
    rfl
  obtain ⟨e', he⟩ := train_plain_total (env := realEnv) (fs := fun _ => none) (rnd := ⟨fun _ => []⟩) (X := ⟨2, [[-3, -1], [5, 1], [5, 2]]⟩)
    (T := ⟨2, [[1, 0], [0, 1], [1, 0]]⟩) (kw := {}) (lawEnv_exact _) (by simp) (by simp) (by simp) (by simp [linModel]) (fun _ => exOneHot) rfl rfl rfl (by simp [Mat.nrows]) hpa (linModel_consistent s 2 1 _ (by simp)) hH
  have hpt : PlainTrain realEnv (linModel s 2 1 [[1, 0], [0, 1]]) ⟨2, [[-3, -1], [5, 1], [5, 2]]⟩ ⟨2, [[1, 0], [0, 1], [1, 0]]⟩ ["c"] {} e' :=
    ⟨linModel_consistent s 2 1 _ (by simp), one_pos, by simp [linModel], by simp, by simp [Mat.WF], fun _ x hx => Real.mul_self_sqrt hx, fun _ => exOneHot, by simp, _, _, _, he⟩
  have hcl : e'.classification = some "c" := by
    obtain ⟨X', T', e1, h1, h2, h3⟩ := train_ok he
    obtain ⟨_, e2, n, a1, a2, a3⟩ := trainBody_plain (by simp) (by simp) (by simp) h3
    obtain ⟨c, hc'⟩ := addData_fields a1
    rw [hpa] at h2
    injection h2 with h2 _
    rw [a3, hc', ← h2]
    unfold ELM.autoWc
    rw [if_neg (by simp [linModel])]
  obtain ⟨P, hP⟩ := PlainTrain_predicts (lawEnv_lawful _) (lawEnv_exact _) hpt _ H hH
  obtain ⟨Z, hZ⟩ := leftOut_exists (H := H) (T := ⟨2, [[1, 0], [0, 1], [1, 0]]⟩) (lam := (1 : ℝ)) one_pos
    (by rw [(project_WF (linModel_consistent s 2 1 _ (by simp)) hH).2.1]; rfl)
  exact ⟨e', H, P, Z, hpt, hcl, hH, hP, hZ⟩

/-- For regression the leave-one-out error is the error of the leave-one-out predictions, and the training call compares just that. -/
theorem isLooError_leftOut {kind : Option String} {wc : Option (List (Option K))}
    (hc : kind ≠ some "c" ∧ kind ≠ some "wc" ∧ kind ≠ some "ml") {H T Z : Mat K} {lam v : K} (hl : 0 < lam) (hZ : LeftOutPreds H T lam Z)
    (h : IsLooError H T lam v) : IsError kind wc T Z v := by
  unfold IsError
  rw [if_neg hc.1, if_neg hc.2.1, if_neg hc.2.2]
  have h2 : IsLooError H T lam ((∑ s ∈ range T.nrows, ∑ j ∈ range T.cols, (Z.get s j - T.get s j) ^ 2) / ((T.nrows * T.cols : Nat) : K)) := by
    obtain ⟨_, _, _, z4⟩ := hZ
    choose B hB hz using fun s : Fin T.nrows => z4 s s.2
    refine ⟨fun s => if hs : s < T.nrows then B ⟨s, hs⟩ else ⟨0, []⟩, ?_, ?_⟩
    · intro s hs
      simp only [hs, dif_pos]
      exact hB ⟨s, hs⟩
    · congr 1
      apply Finset.sum_congr rfl
      intro s hs
      have hs := Finset.mem_range.1 hs
      apply Finset.sum_congr rfl
      intro j hj
      simp only [hs, dif_pos]
      rw [hz ⟨s, hs⟩ j (Finset.mem_range.1 hj)]
  exact isLooError_unique hl h h2

/-- C92 for regression (true): the error recorded for the selected size, less the size penalty, is the error of the leave-one-out predictions
of the returned network. -/
theorem C92_regression_partial (env : Env K) (hlw : Lawful env) (hx : env.Exact) (sh : List Nat) (e : ELM K) (X T : Mat K)
    (hc : e.classification ≠ some "c" ∧ e.classification ≠ some "wc" ∧ e.classification ≠ some "ml") (hcon : Consistent e.nnet)
    (hcorr : e.nnet.corr = none) (hnorm : 0 < e.nnet.norm) (hb : 0 < e.batch) (hN : X.nrows = T.nrows) (hT : T.WF) (hC : 0 < T.cols)
    (hsh : sh.Perm (List.range (size e.nnet))) (hf : FullRanking e T) {e' : ELM K} {k : Nat} {errs : List K}
    (h : trainLOO env sh e X T = .ok (e', k, errs)) :
    ∃ H H' full, e.nnet.project env X = .ok H ∧ (∀ Z, LeftOutPreds H T e.nnet.norm Z → IsError e.classification e.wc T Z full) ∧
      e'.nnet.project env X = .ok H' ∧ ∀ Z, LeftOutPreds H' T e.nnet.norm Z →
        IsError e.classification e.wc T Z (errs.getD k 0 - k * (full * (1 / 100) / size e.nnet)) := by
  obtain ⟨_, H, H', full, v, a1, a2, a3, a4, a5, _⟩ := C38_loo_partial env hlw hx sh e X T hc hcon hcorr hnorm hb hN hT hC hsh hf h
  refine ⟨H, H', full, a1, fun Z hZ => isLooError_leftOut hc hnorm hZ a2, a3, fun Z hZ => ?_⟩
  rw [a5, add_sub_cancel_right]
  exact isLooError_leftOut hc hnorm hZ a4

/-- C92 for classification and multi-label classification.  What LOO selection really compares for a classifier: the mistakes of the network
trained on *all* samples, each counted as 1/R² where R ≤ 1 is the factor between the residuals with and without the sample.  So the recorded
error of the returned model, less the size penalty, is never below its training error, and is 0 exactly when the returned model makes no
mistake on its own training data, whatever the leave-one-out predictions are. -/
theorem C92_selection_partial (env : Env K) (hlw : Lawful env) (hx : env.Exact) (sh : List Nat) (e : ELM K) (X T : Mat K)
    (hc : e.classification = some "c" ∨ e.classification = some "ml") (hcon : Consistent e.nnet)
    (hcorr : e.nnet.corr = none) (hnorm : 0 < e.nnet.norm) (hb : 0 < e.batch) (hN : X.nrows = T.nrows) (hT : T.WF) (hC : 0 < T.cols)
    (hsh : sh.Perm (List.range (size e.nnet))) (hf : FullRanking e T) {e' : ELM K} {k : Nat} {errs : List K}
    (h : trainLOO env sh e X T = .ok (e', k, errs)) :
    size e'.nnet = k ∧ ∃ H Y0 Z0 R0 H' Y Z R, e.nnet.project env X = .ok H ∧ FittedPreds H T e.nnet.norm Y0 ∧ LeftOutPreds H T e.nnet.norm Z0 ∧
      Shrink T Y0 Z0 R0 ∧ e'.nnet.project env X = .ok H' ∧ e'.nnet.predict env X = .ok Y ∧ FittedPreds H' T e.nnet.norm Y ∧
      LeftOutPreds H' T e.nnet.norm Z ∧ Shrink T Y Z R ∧
      errs.getD k 0 = scaledMisses e.classification T Y R + k * (scaledMisses e.classification T Y0 R0 * (1 / 100) / size e.nnet) ∧
      ∀ u, IsError e.classification e.wc T Y u →
        u ≤ scaledMisses e.classification T Y R ∧ (scaledMisses e.classification T Y R = 0 ↔ u = 0) := by
  have hwc : e.classification ≠ some "wc" := by rcases hc with h | h <;> rw [h] <;> decide
  obtain ⟨H, e1, HH, HT, rank, L, full, pen, h1, h2, h3, h4, h5, h6, h7⟩ :=
    C32_best_tried_loo env hx sh e X T (fun h => absurd h hwc) (fun h => absurd h hwc) h
  obtain ⟨H', S, HT', hpos, a1, a2, a3, a4, a5⟩ := addData_unw hx hwc hb hN hT hcorr h2
  rw [h1] at a1
  injection a1 with a1
  subst a1
  have hg : e1.nnet.getCorr = .ok (some (S, HT')) := by
    rw [a2]; exact getCorr_store _ a5.symm rfl
  rw [hg] at h3
  injection h3 with h3
  injection h3 with h3
  injection h3 with h3 h3'
  subst h3 h3'
  obtain ⟨w1, w2, w3⟩ := project_WF hcon h1
  have hcls : e1.classification = e.classification := by rw [a2]
  rw [ranking_congr (e := e) (by rw [a2]) (by rw [a2])] at h4
  have hL : e1.nnet.L.getD 0 = H.cols := by rw [a2]; exact a3.symm
  rw [hL] at h4
  have hk1 := h6.range.1
  have hkL := h6.range.2
  have hsz : 0 < size e.nnet := by
    have : L ≤ H.cols := ranking_le (r := (rank, L)) h4
    omega
  obtain ⟨hrank, hL'⟩ := rank_full w3 hsz hsh hf h4
  have hn : rank.Nodup := hrank.nodup_iff.2 List.nodup_range
  have hb' : ∀ i ∈ rank, i < H.cols := fun i hi => List.mem_range.1 (hrank.mem_iff.1 hi)
  have hlen : rank.length = H.cols := by rw [hrank.length_eq, List.length_range]
  have hNT : 0 < T.nrows := by omega
  have hc1 := hc
  rw [← hcls] at hc1
  have hcon1 : Consistent e1.nnet := addData_consistent hcon h2
  have hp1 : e1.nnet.project env X = .ok H := by rw [a2]; exact h1
  obtain ⟨_, keep, p2, p3⟩ := refit_predicts hlw hx hcon1 hN hT (by rw [a2]; exact hnorm) hp1
    (by rw [a2]; exact a5 : IsCorr H T (fun _ => 1) e1.nnet.norm S HT') (hn.sublist (List.take_sublist k rank)) (fun i hi => hb' i (List.mem_of_mem_take hi)) h7 hp1
  obtain ⟨v0, v1, v2⟩ := scoreLOO_scaled hlw e1 hc1 a5 hnorm w1 hT hNT hC
  rw [h5] at v1
  injection v1 with v1
  subst v1
  have hpen : pen = full * (1 / 100) / (size e.nnet : K) := by rw [h6.pen_eq, hL', w3]
  have hcol := (project_WF (refit_consistent hlw.toShapes hcon1 h7) p3)
  refine ⟨?_, ?_⟩
  · rw [← hcol.2.2, Mat.selCols_cols, p2.length_eq, List.length_take]
    omega
  have hklen : k < errs.length := (C31_selected_in_range env e X T X T).2.1 sh _ h |>.2
  have hv : ∃ v, IsScaled e.classification (H.selCols keep) T e.nnet.norm v ∧ errs.getD k 0 = v + k * pen := by
    by_cases hkL2 : k = L
    · refine ⟨full, ?_, by rw [hkL2, h6.top]⟩
      have hkeep : keep.Perm (List.range H.cols) := by
        rw [List.take_of_length_le (by omega)] at p2
        exact p2.trans hrank
      have e0 : H = H.selCols (List.range H.cols) := (Mat.selCols_range w1).symm
      rw [e0, hcls] at v2
      exact isScaled_perm List.nodup_range hkeep (by rw [w2, hN]) v2
    · obtain ⟨_, _, s, s1, _, s2⟩ := h6.entry k hklen hkL2 h6.tried
      obtain ⟨v, v1, v2⟩ := scoreLOO_scaled hlw e1 hc1 (a5.sub (hn.sublist (List.take_sublist k rank)) (fun i hi => hb' i (List.mem_of_mem_take hi)))
        hnorm (Mat.selCols_WF _ _) hT hNT hC
      rw [v1] at s1
      injection s1 with s1
      subst s1
      rw [hcls] at v2
      exact ⟨v, isScaled_perm (hn.sublist (List.take_sublist _ _)) p2 (by rw [w2, hN]) v2, s2⟩
  obtain ⟨v, ⟨Y, Z, R, y1, y2, y3, y4⟩, hv2⟩ := hv
  rw [hcls] at v2
  obtain ⟨Y0, Z0, R0, x1, x2, x3, x4⟩ := v2
  obtain ⟨H2, B, b1, b2, b3, b4, b5, b6⟩ := C39_returned_unweighted env hlw hx e e' X T X T hN hT hnorm (Or.inr (Or.inl ⟨sh, k, errs, h⟩))
  rw [p3] at b1
  injection b1 with b1
  subst b1
  have hfit : FittedPreds (H.selCols keep) T e.nnet.norm ((H.selCols keep).mul B) := by
    refine ⟨Mat.mul_WF _ _, by simp [w2, hN], by simp [b5], B, b3, b4, b5, b6, fun s hs j hj => ?_⟩
    rw [get_mul_sum (by simp; omega) (by rw [b5]; exact hj)]
    unfold predEntry
    rw [b4]
  have hY := fittedPreds_unique hnorm y1 hfit
  refine ⟨H, Y0, Z0, R0, H.selCols keep, Y, Z, R, h1, x1, x2, x3, p3, ?_, y1, y2, y3, ?_, fun u hu => scaledMisses_train hc hNT hC y3 hu⟩
  · rw [hY]
    unfold NNet.predict
    rw [b2]
    simp only [p3, bind, Except.bind]
    rw [if_neg (by rw [b4]; simp)]
    rfl
  · rw [hv2, hpen, y4, x4]

/-- The hypotheses of `C92_selection_partial` are met: LOO selection of a classifier with two neurons on three samples. -/
example : Lawful (lawEnv QEnv.env) ∧ (lawEnv QEnv.env).Exact ∧ Consistent (exModel 2 2 (some "c") none).nnet ∧ FullRanking (exModel 2 2 (some "c") none) ⟨2, [[1, 0], [0, 1], [1, 0]]⟩ ∧
    (trainLOO QEnv.env [0, 1] (exModel 2 2 (some "c") none) ⟨2, [[-3, -1], [5, 1], [5, 2]]⟩ ⟨2, [[1, 0], [0, 1], [1, 0]]⟩).map (·.2.1) = .ok 2 :=
  ⟨lawEnv_lawful _, lawEnv_exact _, ⟨by simp [exModel], by simp [exModel], Or.inl rfl, by simp [exModel], by simp [exModel]⟩, Or.inl rfl, by decide +kernel⟩

/-- C92 is false for classification: a call with two neurons and three samples records the leave-one-out error 0 for the whole network and
returns it, although every sample is misclassified when it is left out (leave-one-out error 1), and although the smaller network with only
the first of the neurons, which was also considered, has the smaller leave-one-out error 2/3. -/
theorem C92_classification_refuted : ∃ (e e' : ELM ℚ) (X T H H' Z Z1 : Mat ℚ) (errs : List ℚ),
    e.classification = some "c" ∧ e.train QEnv.env (fun _ => none) ⟨fun _ => [0, 1]⟩ (.mat X) (.mat T) ["c", "LOO"] {} = (.ok none, e') ∧
    (trainLOO QEnv.env [0, 1] e X T).map (·.2) = .ok (2, errs) ∧ errs.getD 2 0 = 0 ∧ errs.getD 1 0 ≠ -1 ∧
    e.nnet.project QEnv.env X = .ok H ∧ e'.nnet.project QEnv.env X = .ok H' ∧
    LeftOutPreds H' T e.nnet.norm Z ∧ IsError (some "c") none T Z 1 ∧
    LeftOutPreds (H.selCols [0]) T e.nnet.norm Z1 ∧ IsError (some "c") none T Z1 (2 / 3) := by
  refine ⟨exModel 2 2 (some "c") none, _, ⟨2, [[-3, -1], [5, 1], [5, 2]]⟩, ⟨2, [[1, 0], [0, 1], [1, 0]]⟩, ⟨2, [[-3, -1], [5, 1], [5, 2]]⟩,
    ⟨2, [[-3, -1], [5, 1], [5, 2]]⟩, ⟨2, [[-1 / 3, -7 / 27], [4 / 41, 0], [-27 / 41, 25 / 41]]⟩, ⟨2, [[-5 / 17, -5 / 17], [2 / 7, 0], [-3 / 7, 5 / 7]]⟩,
    [-1, 48 / 49, 0], rfl, Prod.ext ?_ rfl, ?_, ?_, ?_, ?_, ?_, ?_, ?_, ?_, ?_⟩
  · decide +kernel
  · decide +kernel
  · decide +kernel
  · decide +kernel
  · decide +kernel
  · decide +kernel
  · refine ⟨by simp [Mat.WF], rfl, rfl, fun s hs => ?_⟩
    have hs : s = 0 ∨ s = 1 ∨ s = 2 := by simp [Mat.nrows] at hs; omega
    rcases hs with rfl | rfl | rfl
    · exact ⟨⟨2, [[0, 5 / 27], [1 / 3, -8 / 27]]⟩, ⟨by simp [Mat.WF], rfl, rfl, by unfold NormalEq; decide +kernel⟩, by decide +kernel⟩
    · exact ⟨⟨2, [[-1 / 41, 0], [9 / 41, 0]]⟩, ⟨by simp [Mat.WF], rfl, rfl, by unfold NormalEq; decide +kernel⟩, by decide +kernel⟩
    · exact ⟨⟨2, [[-1 / 41, 7 / 41], [-11 / 41, -5 / 41]]⟩, ⟨by simp [Mat.WF], rfl, rfl, by unfold NormalEq; decide +kernel⟩, by decide +kernel⟩
  · exact elmError_isError (by simp [Mat.WF]) (by simp [Mat.WF]) (by decide +kernel)
  · refine ⟨by simp [Mat.WF], rfl, rfl, fun s hs => ?_⟩
    have hs : s = 0 ∨ s = 1 ∨ s = 2 := by simp [Mat.nrows] at hs; omega
    rcases hs with rfl | rfl | rfl
    · exact ⟨⟨2, [[5 / 51, 5 / 51]]⟩, ⟨by simp [Mat.WF], rfl, rfl, by unfold NormalEq; decide +kernel⟩, by decide +kernel⟩
    · exact ⟨⟨2, [[2 / 35, 0]]⟩, ⟨by simp [Mat.WF], rfl, rfl, by unfold NormalEq; decide +kernel⟩, by decide +kernel⟩
    · exact ⟨⟨2, [[-3 / 35, 1 / 7]]⟩, ⟨by simp [Mat.WF], rfl, rfl, by unfold NormalEq; decide +kernel⟩, by decide +kernel⟩
  · exact elmError_isError (by simp [Mat.WF]) (by simp [Mat.WF]) (by decide +kernel)

end Hpelm.Props
