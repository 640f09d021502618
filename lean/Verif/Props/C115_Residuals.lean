import Verif.Props.C79_C81_Fit

/-!
# C115 — output weights and predictions are made of the training residuals
-/

set_option linter.unusedSectionVars false

namespace Hpelm.Props
open Hpelm Spec Finset
variable {K : Type} [Field K] [LinearOrder K] [IsStrictOrderedRing K]

theorem project_mat {env : Env K} {fs : Files K} {e : ELM K} {X H : Mat K} (h : e.project env fs (.mat X) = .ok H) :
    e.nnet.project env X = .ok H := by
  unfold ELM.project at h
  cases hc : checkOne fs e.nnet.inputs (.mat X) with
  | error x => rw [hc] at h; cases h
  | ok o =>
    rw [hc] at h
    have : o = some X := by
      simp only [checkOne, bind, Except.bind, pure, Except.pure] at hc
      split at hc
      · cases hc
      · injection hc with hc
        exact hc.symm
    subst this
    exact h

/-- C115.  Let `H` be what `project` gives for the training inputs and `P` what `predict` gives for them after training.  `norm` times the
output weight of a neuron is the (weighted) sum, over the training samples, of the neuron's output times the sample's residual. -/
theorem C115_weights (env : Env K) (hl : Lawful env) (hx : env.Exact) (e e' : ELM K) (X T : Mat K) (args : List String) (kw : Kwargs K)
    (h : PlainTrain env e X T args kw e') (H P B : Mat K) (fs : Files K) (hH : e.project env fs (.mat X) = .ok H) (p : Predicts env e' X P)
    (hB : e'.nnet.getB = some B) (w : Nat → K) (hw : SampleWeights e'.classification e'.wc T w) :
    B.nrows = H.cols ∧ B.cols = T.cols ∧ ∀ k < H.cols, ∀ j < T.cols,
      e.nnet.norm * B.get k j = ∑ s ∈ range T.nrows, w s * H.get s k * (T.get s j - P.get s j) := by
  obtain ⟨H0, B0, w', t⟩ := h.trained hl hx
  obtain rfl : B = B0 := by have := t.getB; rw [hB] at this; injection this
  obtain rfl : H = H0 := by
    have := project_mat hH
    rw [t.proj] at this
    injection this with this
    exact this.symm
  have hww := sampleWeights_unique hw t.sw
  obtain ⟨p1, p2, p3⟩ := pred_shape t p
  refine ⟨t.rows, t.cols, fun k hk j hj => ?_⟩
  have q := t.normal k hk j hj
  rw [eq_sub_of_add_eq q, ← Finset.sum_sub_distrib]
  refine Finset.sum_congr rfl fun s hs => ?_
  rw [p3 s (Finset.mem_range.1 hs) j hj, hww s (Finset.mem_range.1 hs)]
  ring

/-- C115.  `norm` times the prediction for any new input is the (weighted) sum, over the training samples, of the training residual times the
inner product of the neuron outputs of the new input and of the training sample. -/
theorem C115_predictions (env : Env K) (hl : Lawful env) (hx : env.Exact) (e e' : ELM K) (X T : Mat K) (args : List String) (kw : Kwargs K)
    (h : PlainTrain env e X T args kw e') (H P : Mat K) (fs : Files K) (hH : e.project env fs (.mat X) = .ok H) (p : Predicts env e' X P)
    (w : Nat → K) (hw : SampleWeights e'.classification e'.wc T w)
    (Xn G Q : Mat K) (gs : Files K) (hG : e.project env gs (.mat Xn) = .ok G) (q : Predicts env e' Xn Q) :
    Q.nrows = Xn.nrows ∧ Q.cols = T.cols ∧ ∀ i < Xn.nrows, ∀ j < T.cols,
      e.nnet.norm * Q.get i j =
        ∑ s ∈ range T.nrows, w s * (∑ k ∈ range H.cols, G.get i k * H.get s k) * (T.get s j - P.get s j) := by
  obtain ⟨H0, B, w', t⟩ := h.trained hl hx
  obtain ⟨b1, b2, b3⟩ := C115_weights env hl hx e e' X T args kw h H P B fs hH p t.getB w hw
  obtain ⟨G0, g, eQ, d, m⟩ := t.pred Xn Q q
  obtain rfl : G = G0 := by
    have := project_mat hG
    rw [g] at this
    injection this with this
    exact this.symm
  obtain rfl : H = H0 := by
    have := project_mat hH
    rw [t.proj] at this
    injection this with this
    exact this.symm
  refine ⟨by rw [eQ, Mat.mul_nrows, m], by rw [eQ]; exact t.cols, fun i hi j hj => ?_⟩
  rw [t.predGet (Xn := Xn) eQ d i (by rw [m]; exact hi) j hj]
  unfold predEntry
  rw [Finset.mul_sum]
  have e1 : ∀ k ∈ range G.cols, e.nnet.norm * (G.get i k * B.get k j) =
      ∑ s ∈ range T.nrows, G.get i k * (w s * H.get s k * (T.get s j - P.get s j)) := by
    intro k hk
    rw [← Finset.mul_sum, ← b3 k (by rw [← d]; exact Finset.mem_range.1 hk) j hj]
    ring
  rw [Finset.sum_congr rfl e1, Finset.sum_comm, d]
  refine Finset.sum_congr rfl fun s _ => ?_
  rw [Finset.mul_sum, Finset.sum_mul]
  exact Finset.sum_congr rfl fun k _ => by ring

/-- C115.  A neuron that gives zero for every training sample gets output weight zero. -/
theorem C115_silent (env : Env K) (hl : Lawful env) (hx : env.Exact) (e e' : ELM K) (X T : Mat K) (args : List String) (kw : Kwargs K)
    (h : PlainTrain env e X T args kw e') (H B : Mat K) (fs : Files K) (hH : e.project env fs (.mat X) = .ok H)
    (hB : e'.nnet.getB = some B) (k : Nat) (hk : k < H.cols) (hz : ∀ s < X.nrows, H.get s k = 0) (j : Nat) (hj : j < T.cols) :
    B.get k j = 0 := by
  obtain ⟨H0, B0, w, t⟩ := h.trained hl hx
  obtain rfl : B = B0 := by have := t.getB; rw [hB] at this; injection this
  obtain rfl : H = H0 := by
    have := project_mat hH
    rw [t.proj] at this
    injection this with this
    exact this.symm
  have q := t.normal k hk j hj
  rw [Finset.sum_eq_zero, Finset.sum_eq_zero, add_zero] at q
  · exact (mul_eq_zero.1 q).resolve_left h.norm.ne'
  · intro s hs
    rw [hz s (by rw [t.rowsX]; exact Finset.mem_range.1 hs)]
    ring
  · intro s hs
    rw [hz s (by rw [t.rowsX]; exact Finset.mem_range.1 hs)]
    ring

/-- C115.  Two neurons whose outputs differ by at most `d` on every training sample get output weights that differ by at most `d / norm` times
the (weighted) sum of the absolute residuals; in particular neurons that agree on the training samples get the same output weights. -/
theorem C115_alike (env : Env K) (hl : Lawful env) (hx : env.Exact) (e e' : ELM K) (X T : Mat K) (args : List String) (kw : Kwargs K)
    (h : PlainTrain env e X T args kw e') (H P B : Mat K) (fs : Files K) (hH : e.project env fs (.mat X) = .ok H) (p : Predicts env e' X P)
    (hB : e'.nnet.getB = some B) (w : Nat → K) (hw : SampleWeights e'.classification e'.wc T w)
    (k l : Nat) (hk : k < H.cols) (hl' : l < H.cols) (d : K) (hd : ∀ s < X.nrows, |H.get s k - H.get s l| ≤ d) (j : Nat) (hj : j < T.cols) :
    e.nnet.norm * |B.get k j - B.get l j| ≤ d * ∑ s ∈ range T.nrows, w s * |T.get s j - P.get s j| := by
  obtain ⟨b1, b2, b3⟩ := C115_weights env hl hx e e' X T args kw h H P B fs hH p hB w hw
  obtain ⟨H0, B0, w', t⟩ := h.trained hl hx
  have hww := sampleWeights_unique hw t.sw
  have e1 : e.nnet.norm * |B.get k j - B.get l j| =
      |∑ s ∈ range T.nrows, w s * (H.get s k - H.get s l) * (T.get s j - P.get s j)| := by
    rw [← abs_of_pos h.norm, ← abs_mul, mul_sub, b3 k hk j hj, b3 l hl' j hj, ← Finset.sum_sub_distrib]
    congr 1
    exact Finset.sum_congr rfl fun s _ => by ring
  rw [e1, Finset.mul_sum]
  refine (Finset.abs_sum_le_sum_abs _ _).trans (Finset.sum_le_sum fun s hs => ?_)
  have hs' := Finset.mem_range.1 hs
  have h0 : 0 ≤ w s := by rw [hww s hs']; exact t.nonneg s hs'
  rw [abs_mul, abs_mul, abs_of_nonneg h0]
  have := mul_le_mul_of_nonneg_right (hd s (by rw [t.rowsX]; exact hs')) (mul_nonneg h0 (abs_nonneg (T.get s j - P.get s j)))
  linarith [this, mul_comm (w s) (|H.get s k - H.get s l|), mul_assoc (|H.get s k - H.get s l|) (w s) (|T.get s j - P.get s j|),
    show w s * |H.get s k - H.get s l| * |T.get s j - P.get s j| = |H.get s k - H.get s l| * (w s * |T.get s j - P.get s j|) by ring]

/-- C115.  Neurons that agree on all training samples get the same output weights. -/
theorem C115_duplicates (env : Env K) (hl : Lawful env) (hx : env.Exact) (e e' : ELM K) (X T : Mat K) (args : List String) (kw : Kwargs K)
    (h : PlainTrain env e X T args kw e') (H B : Mat K) (fs : Files K) (hH : e.project env fs (.mat X) = .ok H)
    (hB : e'.nnet.getB = some B) (k l : Nat) (hk : k < H.cols) (hl' : l < H.cols) (hd : ∀ s < X.nrows, H.get s k = H.get s l)
    (j : Nat) (hj : j < T.cols) : B.get k j = B.get l j := by
  obtain ⟨H0, B0, w, t⟩ := h.trained hl hx
  obtain rfl : B = B0 := by have := t.getB; rw [hB] at this; injection this
  obtain rfl : H = H0 := by
    have := project_mat hH
    rw [t.proj] at this
    injection this with this
    exact this.symm
  have q := t.normal k hk j hj
  have q' := t.normal l hl' j hj
  have c1 : ∀ f : Nat → K, ∑ s ∈ range T.nrows, w s * H.get s k * f s = ∑ s ∈ range T.nrows, w s * H.get s l * f s := fun f =>
    Finset.sum_congr rfl fun s hs => by rw [hd s (by rw [t.rowsX]; exact Finset.mem_range.1 hs)]
  rw [c1, c1, ← q'] at q
  exact mul_left_cancel₀ h.norm.ne' (add_right_cancel q)

/-- Three linear neurons, two of them alike and one silent, meet the hypotheses of the theorems above. -/
example (s : Solver) : ∃ e' : ELM ℝ, ∃ H P : Mat ℝ,
    PlainTrain realEnv (linModel s 1 1 [[1, 0], [1, 0], [0, 0]]) ⟨2, [[1, 0], [0, 1], [2, 3]]⟩ ⟨1, [[1], [2], [3]]⟩ [] {} e' ∧
    (linModel s 1 1 [[1, 0], [1, 0], [0, 0]]).project realEnv (fun _ => none) (.mat ⟨2, [[1, 0], [0, 1], [2, 3]]⟩) = .ok H ∧ H.cols = 3 ∧
    Predicts realEnv e' ⟨2, [[1, 0], [0, 1], [2, 3]]⟩ P ∧ (∀ s < 3, H.get s 0 = H.get s 1) ∧ ∀ s < 3, H.get s 2 = 0 := by
  obtain ⟨e', h, _⟩ := linModel_train s 1 1 one_pos [[1, 0], [1, 0], [0, 0]] (by simp) ⟨2, [[1, 0], [0, 1], [2, 3]]⟩ ⟨1, [[1], [2], [3]]⟩
    rfl rfl (by simp [Mat.WF]) rfl (by simp [Mat.nrows])
  have hp : (linModel s 1 1 [[1, 0], [1, 0], [0, 0]]).nnet.project realEnv ⟨2, [[1, 0], [0, 1], [2, 3]]⟩ =
      .ok ⟨3, [[1, 1, 0], [0, 0, 0], [2, 2, 0]]⟩ := by
    refine (project_ok_iff _ _ _ _).2 ⟨rfl, ?_, by simp [linModel], ?_⟩
    · intro g hg
      simp only [linModel, List.mem_singleton] at hg
      subst hg
      rfl
    · simp [linModel, width, rowOut, groupAct, act, dot]
  obtain ⟨P, hP⟩ := PlainTrain_predicts (lawEnv_lawful _) (lawEnv_exact _) h _ _ hp
  refine ⟨e', ⟨3, [[1, 1, 0], [0, 0, 0], [2, 2, 0]]⟩, P, h, ?_, rfl, hP, ?_, ?_⟩
  · exact hp
  · intro s hs
    interval_cases s <;> rfl
  · intro s hs
    interval_cases s <;> rfl

end Hpelm.Props
