import Verif.Props.C101_Representable

/-!
# C120 — what regularisation costs
-/

set_option linter.unusedSectionVars false

namespace Hpelm.Props
open Hpelm Spec Finset
variable {K : Type} [Field K] [LinearOrder K] [IsStrictOrderedRing K]

/-- One output: the solution of the normal equations against any other weights `v` with outputs `q = H v`. -/
theorem normalEq_compete {H T B : Mat K} {w : Nat → K} {lam : K} (h : NormalEq H T w lam B) (hl : 0 < lam) {j : Nat} (hj : j < T.cols)
    (v q : Nat → K) (hv : ∀ s < T.nrows, q s = ∑ k ∈ range H.cols, H.get s k * v k) :
    ∑ s ∈ range T.nrows, w s * (predEntry H B s j - T.get s j) ^ 2 + ∑ s ∈ range T.nrows, w s * (predEntry H B s j - q s) ^ 2 ≤
      ∑ s ∈ range T.nrows, w s * (q s - T.get s j) ^ 2 + lam / 2 * ∑ k ∈ range H.cols, v k ^ 2 := by
  have e1 : ∀ s ∈ range T.nrows, w s * (predEntry H B s j - T.get s j) ^ 2 + w s * (predEntry H B s j - q s) ^ 2 - w s * (q s - T.get s j) ^ 2 =
      ∑ k ∈ range H.cols, 2 * (B.get k j - v k) * (w s * H.get s k * predEntry H B s j - w s * H.get s k * T.get s j) := by
    intro s hs
    have : predEntry H B s j - q s = ∑ k ∈ range H.cols, H.get s k * (B.get k j - v k) := by
      rw [hv s (Finset.mem_range.1 hs)]
      unfold predEntry
      rw [← Finset.sum_sub_distrib]
      exact Finset.sum_congr rfl fun k _ => by ring
    have h2 : w s * (predEntry H B s j - T.get s j) ^ 2 + w s * (predEntry H B s j - q s) ^ 2 - w s * (q s - T.get s j) ^ 2 =
        (∑ k ∈ range H.cols, H.get s k * (B.get k j - v k)) * (2 * w s * (predEntry H B s j - T.get s j)) := by
      rw [← this]; ring
    rw [h2, Finset.sum_mul]
    exact Finset.sum_congr rfl fun k _ => by ring
  have e2 := Finset.sum_congr rfl e1
  rw [Finset.sum_sub_distrib, Finset.sum_add_distrib, Finset.sum_comm] at e2
  rw [← sub_le_iff_le_add', e2, Finset.mul_sum]
  apply Finset.sum_le_sum
  intro k hk
  rw [← Finset.mul_sum, Finset.sum_sub_distrib, ← h k (Finset.mem_range.1 hk) j hj]
  nlinarith [mul_nonneg hl.le (sq_nonneg (B.get k j - v k / 2))]

/-- C120.  Let `Q` be the outputs that any other output weights `W` give for the training data.  For every output of the trained model, its (weighted)
squared error on the training data exceeds that of `Q` at most by half the regularisation parameter times the squared size of `W`; and the closer the two
errors are, the closer are the predictions `P` of the trained model to `Q`. -/
theorem C120_any_weights (env : Env K) (hl : Lawful env) (hx : env.Exact) (e e' : ELM K) (X T : Mat K) (args : List String) (kw : Kwargs K)
    (h : PlainTrain env e X T args kw e') (fs : Files K) (H : Mat K) (hH : e.project env fs (.mat X) = .ok H)
    (W : Nat → Nat → K) (Q : Mat K) (hQ : Q.nrows = T.nrows ∧ Q.cols = T.cols) (hW : LinearIn H Q W) (P : Mat K) (p : Predicts env e' X P)
    (w : Nat → K) (hw : SampleWeights e'.classification e'.wc T w) :
    ∀ j < T.cols, ∑ s ∈ range T.nrows, w s * (P.get s j - T.get s j) ^ 2 + ∑ s ∈ range T.nrows, w s * (P.get s j - Q.get s j) ^ 2 ≤
      ∑ s ∈ range T.nrows, w s * (Q.get s j - T.get s j) ^ 2 + e.nnet.norm / 2 * ∑ k ∈ range H.cols, W k j ^ 2 := by
  obtain ⟨H', B, w', t⟩ := h.trained hl hx
  have hH' : H' = H := by
    have := t.proj
    rw [elmProject_mat hH] at this
    injection this with this
    exact this.symm
  subst hH'
  intro j hj
  obtain ⟨p1, p2, p3⟩ := pred_shape t p
  have hww := sampleWeights_unique hw t.sw
  have key := normalEq_compete t.normal h.norm hj (fun k => W k j) (fun s => Q.get s j)
    (fun s hs => hW s (by rw [hQ.1]; exact hs) j (by rw [hQ.2]; exact hj))
  have r1 : ∑ s ∈ range T.nrows, w s * (P.get s j - T.get s j) ^ 2 = ∑ s ∈ range T.nrows, w' s * (predEntry H' B s j - T.get s j) ^ 2 :=
    Finset.sum_congr rfl fun s hs => by rw [hww s (Finset.mem_range.1 hs), p3 s (Finset.mem_range.1 hs) j hj]
  have r2 : ∑ s ∈ range T.nrows, w s * (P.get s j - Q.get s j) ^ 2 = ∑ s ∈ range T.nrows, w' s * (predEntry H' B s j - Q.get s j) ^ 2 :=
    Finset.sum_congr rfl fun s hs => by rw [hww s (Finset.mem_range.1 hs), p3 s (Finset.mem_range.1 hs) j hj]
  have r3 : ∑ s ∈ range T.nrows, w s * (Q.get s j - T.get s j) ^ 2 = ∑ s ∈ range T.nrows, w' s * (Q.get s j - T.get s j) ^ 2 :=
    Finset.sum_congr rfl fun s hs => by rw [hww s (Finset.mem_range.1 hs)]
  rw [r1, r2, r3]
  exact key

/-- C120, the reported error.  Training for regression: `error` of the trained model on its training data exceeds `error` of the outputs of any other
output weights `W` at most by half the regularisation parameter times the squared size of `W`, over the number of target values. -/
theorem C120_error (env : Env K) (hl : Lawful env) (hx : env.Exact) (e e' : ELM K) (X T : Mat K) (args : List String) (kw : Kwargs K)
    (h : PlainTrain env e X T args kw e') (hr : e'.classification = none) (fs : Files K) (H : Mat K) (hH : e.project env fs (.mat X) = .ok H)
    (W : Nat → Nat → K) (Q : Mat K) (hQ : Q.nrows = T.nrows ∧ Q.cols = T.cols) (hQw : Q.WF) (hW : LinearIn H Q W) (P : Mat K) (p : Predicts env e' X P)
    (hC : 0 < T.cols) :
    ∃ v u, e'.error fs (.mat T) (.mat P) = .ok v ∧ e'.error fs (.mat T) (.mat Q) = .ok u ∧
      v ≤ u + e.nnet.norm / 2 * (∑ k ∈ range H.cols, ∑ j ∈ range T.cols, W k j ^ 2) / ((T.nrows * T.cols : Nat) : K) := by
  obtain ⟨H', B, w', t⟩ := h.trained hl hx
  obtain ⟨p1, p2, p3⟩ := pred_shape t p
  have key := C120_any_weights env hl hx e e' X T args kw h fs H hH W Q hQ hW P p w' t.sw
  obtain ⟨fs', rnd, r, hrun⟩ := h.run
  obtain ⟨_, _, _, _, hN0, hN1, _, _, _, hPT0, hnet, _⟩ :=
    train_plain hx h.sqrt h.noSelection.1 h.noSelection.2.1 h.noSelection.2.2 h.batch h.targets h.oneHot h.weights hrun
  have hPT : T.cols = e'.nnet.outputs := by rw [hnet]; exact hPT0
  have hN : 0 < T.nrows := by omega
  have hPw : P.WF := by
    obtain ⟨G, _, eP, _, _⟩ := t.pred X P p
    rw [eP]
    exact Mat.mul_WF _ _
  obtain ⟨v, v1, v2, _, _⟩ := C28_regression_error fs e' T P
    ⟨h.targets, hPw, p1.symm, hPT, by rw [p2, hPT], by rw [← hPT]; exact hC⟩ hN hr
  obtain ⟨u, u1, u2, _, _⟩ := C28_regression_error fs e' T Q
    ⟨h.targets, hQw, hQ.1.symm, hPT, by rw [hQ.2, hPT], by rw [← hPT]; exact hC⟩ hN hr
  refine ⟨v, u, v1, u1, ?_⟩
  rw [v2, u2]
  have hpos : (0 : K) < ((T.nrows * T.cols : Nat) : K) := by exact_mod_cast Nat.mul_pos hN hC
  rw [← add_div]
  apply div_le_div_of_nonneg_right _ hpos.le
  rw [Finset.sum_comm, Finset.sum_comm (s := range T.nrows) (t := range T.cols), Finset.sum_comm (s := range H.cols), Finset.mul_sum,
    ← Finset.sum_add_distrib]
  apply Finset.sum_le_sum
  intro j hj
  have := key j (Finset.mem_range.1 hj)
  have hw1 : ∀ s ∈ range T.nrows, w' s = 1 := fun s hs => (t.sw s (Finset.mem_range.1 hs)).1 (by rw [hr]; simp)
  have hs1 : ∀ g : Nat → K, ∑ s ∈ range T.nrows, w' s * g s = ∑ s ∈ range T.nrows, g s :=
    fun g => Finset.sum_congr rfl fun s hs => by rw [hw1 s hs, one_mul]
  rw [hs1, hs1, hs1] at this
  have h0 : 0 ≤ ∑ s ∈ range T.nrows, (P.get s j - Q.get s j) ^ 2 := Finset.sum_nonneg fun s _ => sq_nonneg _
  linarith

/-- C120, the choice of the parameter.  Two models with the same neurons are trained on the same data in the same way, the second with a larger
regularisation parameter.  Their predictions on the training data differ, in (weighted) squares, at most by half the larger parameter times the squared
size of the output weights of the first. -/
theorem C120_parameter (env : Env K) (hl : Lawful env) (hx : env.Exact) (e e' f f' : ELM K) (X T : Mat K)
    (args argsf : List String) (kw kwf : Kwargs K) (h : PlainTrain env e X T args kw e') (hf : PlainTrain env f X T argsf kwf f')
    (hc : e'.classification = f'.classification) (hw : e'.wc = f'.wc)
    (hn : neuronList e.nnet = neuronList f.nnet) (hr : e.nnet.norm < f.nnet.norm)
    (P Q B : Mat K) (p : Predicts env e' X P) (q : Predicts env f' X Q) (hB : e'.nnet.getB = some B)
    (w₀ : Nat → K) (hw₀ : SampleWeights e'.classification e'.wc T w₀) : fitError w₀ Q P ≤ f.nnet.norm / 2 * sqNorm B := by
  obtain ⟨H, B0, w, t⟩ := h.trained hl hx
  obtain ⟨H', C0, w', t'⟩ := hf.trained hl hx
  obtain rfl : B = B0 := by have := t.getB; rw [hB] at this; injection this
  have h67 := (C67_regularization env hl hx e e' f f' X T args argsf kw kwf h hf hc hw hn hr P Q B C0 p q hB t'.getB w₀ hw₀).2
  obtain rfl := project_eq_of_neurons h.consistent hf.consistent t.proj t'.proj hn
  obtain ⟨p1, p2, p3⟩ := pred_shape t p
  obtain ⟨q1, q2, q3⟩ := pred_shape t' q
  have hww : ∀ s < T.nrows, w' s = w₀ s := sampleWeights_unique t'.sw (hc ▸ hw ▸ hw₀)
  have key : ∀ j ∈ range T.cols, _ := fun j hj => normalEq_compete t'.normal hf.norm (Finset.mem_range.1 hj) (fun k => B.get k j) (fun s => P.get s j)
    (fun s hs => p3 s hs j (Finset.mem_range.1 hj))
  have key := Finset.sum_le_sum key
  rw [Finset.sum_add_distrib, Finset.sum_add_distrib, ← Finset.mul_sum] at key
  have c1 : fitError w₀ Q T = ∑ j ∈ range T.cols, ∑ s ∈ range T.nrows, w' s * (predEntry H C0 s j - T.get s j) ^ 2 := by
    unfold fitError
    rw [Finset.sum_comm]
    refine Finset.sum_congr rfl fun s hs => ?_
    rw [Finset.mul_sum]
    exact Finset.sum_congr rfl fun j hj => by rw [hww s (Finset.mem_range.1 hs), q3 s (Finset.mem_range.1 hs) j (Finset.mem_range.1 hj)]
  have c2 : fitError w₀ Q P = ∑ j ∈ range T.cols, ∑ s ∈ range T.nrows, w' s * (predEntry H C0 s j - P.get s j) ^ 2 := by
    unfold fitError
    rw [p1, p2, Finset.sum_comm]
    refine Finset.sum_congr rfl fun s hs => ?_
    rw [Finset.mul_sum]
    exact Finset.sum_congr rfl fun j hj => by rw [hww s (Finset.mem_range.1 hs), q3 s (Finset.mem_range.1 hs) j (Finset.mem_range.1 hj)]
  have c3 : fitError w₀ P T = ∑ j ∈ range T.cols, ∑ s ∈ range T.nrows, w' s * (P.get s j - T.get s j) ^ 2 := by
    unfold fitError
    rw [Finset.sum_comm]
    refine Finset.sum_congr rfl fun s hs => ?_
    rw [Finset.mul_sum]
    exact Finset.sum_congr rfl fun j hj => by rw [hww s (Finset.mem_range.1 hs)]
  have c4 : sqNorm B = ∑ j ∈ range T.cols, ∑ k ∈ range H.cols, B.get k j ^ 2 := by
    unfold sqNorm
    rw [t.rows, t.cols, Finset.sum_comm]
  rw [← c1, ← c2, ← c3, ← c4] at key
  linarith

/-- Models that meet the hypotheses: linear neurons, three samples that no linear function fits, regularisation 1 and 2; the competitor are the outputs
of the weights (1, 2). -/
example (s : Solver) : ∃ (e' f' : ELM ℝ) (H C P Q B : Mat ℝ) (fs : Files ℝ),
    PlainTrain realEnv (linModel s 1 1 [[1, 0], [0, 1]]) ⟨2, [[1, 0], [0, 1], [2, 3]]⟩ ⟨1, [[1], [2], [7]]⟩ [] {} e' ∧
    PlainTrain realEnv (linModel s 1 2 [[1, 0], [0, 1]]) ⟨2, [[1, 0], [0, 1], [2, 3]]⟩ ⟨1, [[1], [2], [7]]⟩ [] {} f' ∧
    e'.classification = none ∧ e'.classification = f'.classification ∧ e'.wc = f'.wc ∧
    (linModel s 1 1 [[1, 0], [0, 1]]).project realEnv fs (.mat ⟨2, [[1, 0], [0, 1], [2, 3]]⟩) = .ok H ∧
    C.nrows = 3 ∧ C.cols = 1 ∧ C.WF ∧ LinearIn H C (fun k _ => k + 1) ∧
    neuronList (linModel s 1 1 [[1, 0], [0, 1]]).nnet = neuronList (linModel s 1 2 [[1, 0], [0, 1]]).nnet ∧
    (linModel s 1 1 [[1, 0], [0, 1]]).nnet.norm < (linModel s 1 2 [[1, 0], [0, 1]]).nnet.norm ∧
    Predicts realEnv e' ⟨2, [[1, 0], [0, 1], [2, 3]]⟩ P ∧ Predicts realEnv f' ⟨2, [[1, 0], [0, 1], [2, 3]]⟩ Q ∧ e'.nnet.getB = some B := by
  obtain ⟨e', h, _, hc, hw⟩ := linModel_train s 1 1 one_pos [[1, 0], [0, 1]] (by simp) ⟨2, [[1, 0], [0, 1], [2, 3]]⟩ ⟨1, [[1], [2], [7]]⟩
    rfl rfl (by simp [Mat.WF]) rfl (by simp [Mat.nrows])
  obtain ⟨f', hf, _, hc', hw'⟩ := linModel_train s 1 2 two_pos [[1, 0], [0, 1]] (by simp) ⟨2, [[1, 0], [0, 1], [2, 3]]⟩ ⟨1, [[1], [2], [7]]⟩
    rfl rfl (by simp [Mat.WF]) rfl (by simp [Mat.nrows])
  obtain ⟨H, hH⟩ := linModel_project s 1 1 [[1, 0], [0, 1]] ⟨2, [[1, 0], [0, 1], [2, 3]]⟩ rfl
  obtain ⟨H', hH'⟩ := linModel_project s 1 2 [[1, 0], [0, 1]] ⟨2, [[1, 0], [0, 1], [2, 3]]⟩ rfl
  obtain ⟨P, hP⟩ := PlainTrain_predicts (lawEnv_lawful _) (lawEnv_exact _) h _ _ hH
  obtain ⟨Q, hQ⟩ := PlainTrain_predicts (lawEnv_lawful _) (lawEnv_exact _) hf _ _ hH'
  obtain ⟨_, B, _, t⟩ := h.trained (lawEnv_lawful _) (lawEnv_exact _)
  refine ⟨e', f', H, Mat.ofFn 3 1 fun s _ => ∑ k ∈ range H.cols, H.get s k * ((k : ℝ) + 1), P, Q, B, fun _ => none, h, hf, hc, by rw [hc, hc'], by rw [hw, hw'],
    ?_, by simp [Mat.ofFn, Mat.nrows], rfl, by intro r hr; simp [Mat.ofFn] at hr; obtain ⟨_, _, rfl⟩ := hr; rfl, ?_, rfl, by simp [linModel], hP, hQ, t.getB⟩
  · unfold ELM.project
    simp only [checkOne, pyAssert, bind, Except.bind, pure, Except.pure]
    exact hH
  · intro s hs j hj
    rw [Mat.ofFn_nrows] at hs
    exact Mat.get_ofFn_lt hs hj

end Hpelm.Props
