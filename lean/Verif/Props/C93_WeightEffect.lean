import Verif.Props.C64_C68_TrainAlgebra
import Verif.Props.C82_ClassWeights

/-!
# C93 — what class weights do to the trained model
-/

set_option linter.unusedSectionVars false

namespace Hpelm.Props
open Hpelm Spec Finset
variable {K : Type} [Field K] [LinearOrder K] [IsStrictOrderedRing K]

/-- The weight of a sample is the given weight of its class. -/
theorem weight_of_class {env : Env K} {e e' : ELM K} {X T H B : Mat K} {w : Nat → K} {args : List String} {kw : Kwargs K} {ws : List K}
    (h : PlainTrain env e X T args kw e') (hg : Given args "WC") (hc : e'.classification = some "wc") (hw : kw.w = some ws)
    (t : Trained env e X T e' H B w) : ∀ s < T.nrows, ∃ k < T.cols, w s = ws.getD k 0 ∧ IsClass T.cols (T.rows.getD s []) k ∧
      ∀ j < T.cols, T.get s j = if j = k then 1 else 0 := by
  intro s hs
  obtain ⟨fs, rnd, r, hr⟩ := h.run
  obtain ⟨a1, a2⟩ := C82_given_weights env fs rnd e e' (.mat X) (.mat T) args kw ws hg hw (Or.inl ⟨r, hr⟩)
  obtain ⟨l, k, b1, b2, b3⟩ := (t.sw s hs).2 hc
  rw [a1] at b1
  injection b1 with b1
  subst b1
  refine ⟨k, b2.1, ?_, b2, fun j hj => ?_⟩
  · rw [List.getElem?_map] at b3
    cases hk : ws[k]? with
    | none => rw [hk] at b3; cases b3
    | some x =>
      rw [hk] at b3
      injection b3 with b3
      injection b3 with b3
      rw [List.getD_eq_getElem?_getD, hk, ← b3]
      rfl
  · exact b2.2.2 j hj

/-- Proportional weights and regularisation give the same model. -/
theorem trained_scale {env : Env K} {e e' f f' : ELM K} {X T H B H' B' : Mat K} {w w' : Nat → K} (t : Trained env e X T e' H B w)
    (t' : Trained env f X T f' H' B' w') (hce : Consistent e.nnet) (hcf : Consistent f.nnet) (hnorm : 0 < e.nnet.norm) {c : K} (hc : 0 < c)
    (hww : ∀ s < T.nrows, w' s = c * w s) (hn : neuronList e.nnet = neuronList f.nnet) (hr : f.nnet.norm = c * e.nnet.norm)
    (Xn P Q : Mat K) (p : Predicts env e' Xn P) (q : Predicts env f' Xn Q) : P = Q := by
  obtain rfl := project_eq_of_neurons hce hcf t.proj t'.proj hn
  have hB : NormalEq H T w e.nnet.norm B' := by
    intro k hk j hj
    have := t'.normal k hk j hj
    have e1 : ∀ g : Nat → K, ∑ s ∈ range T.nrows, w' s * H.get s k * g s = c * ∑ s ∈ range T.nrows, w s * H.get s k * g s := by
      intro g
      rw [Finset.mul_sum]
      exact Finset.sum_congr rfl fun s hs => by rw [hww s (Finset.mem_range.1 hs)]; ring
    rw [e1, e1, hr] at this
    have h2 : c * (e.nnet.norm * B'.get k j + ∑ s ∈ range T.nrows, w s * H.get s k * predEntry H B' s j -
        ∑ s ∈ range T.nrows, w s * H.get s k * T.get s j) = 0 := by linear_combination this
    rcases mul_eq_zero.1 h2 with h3 | h3
    · exact absurd h3 hc.ne'
    · linear_combination h3
  have hBB : B' = B := normalEq_unique hnorm t.nonneg t.wf t.rows t.cols t.normal B' t'.wf t'.rows t'.cols hB
  subst hBB
  obtain ⟨G, g1, g2, g3, g4⟩ := t.pred Xn P p
  obtain ⟨G', g1', g2', g3', g4'⟩ := t'.pred Xn Q q
  obtain rfl := project_eq_of_neurons hce hcf g1 g1' hn
  rw [g2, g2']

/-- C93 (scale).  Only the ratio between class weights and regularisation matters: multiplying all class weights and the regularisation
parameter by the same positive factor changes no prediction. -/
theorem C93_common_factor (env : Env K) (hl : Lawful env) (hx : env.Exact) (e e' f f' : ELM K) (X T : Mat K)
    (args argsf : List String) (kw kwf : Kwargs K) (h : PlainTrain env e X T args kw e') (hf : PlainTrain env f X T argsf kwf f')
    (hg : Given args "WC") (hgf : Given argsf "WC") (hR : ¬ Given args "R") (hRf : ¬ Given argsf "R") (ws : List K) (c : K) (hc : 0 < c)
    (hw : kw.w = some ws) (hwf : kwf.w = some (ws.map (c * ·)))
    (hn : neuronList e.nnet = neuronList f.nnet) (hr : f.nnet.norm = c * e.nnet.norm)
    (Xn P Q : Mat K) (p : Predicts env e' Xn P) (q : Predicts env f' Xn Q) : P = Q := by
  obtain ⟨H, B, w, t⟩ := h.trained hl hx
  obtain ⟨H', B', w', t'⟩ := hf.trained hl hx
  obtain ⟨fs, rnd, r, hrun⟩ := h.run
  obtain ⟨fs', rnd', r', hrun'⟩ := hf.run
  have k1 := (C21_kind_partial env fs rnd e e' _ _ args kw r hrun hR).2.1 hg
  have k2 := (C21_kind_partial env fs' rnd' f f' _ _ argsf kwf r' hrun' hRf).2.1 hgf
  refine trained_scale t t' h.consistent hf.consistent h.norm hc (fun s hs => ?_) hn hr Xn P Q p q
  obtain ⟨k, a1, a2, a3, a4⟩ := weight_of_class h hg k1 hw t s hs
  obtain ⟨k', b1, b2, b3, b4⟩ := weight_of_class hf hgf k2 hwf t' s hs
  have hk : k' = k := by
    have := b4 k a1
    rw [a4 k a1, if_pos rfl] at this
    by_contra hne
    rw [if_neg (Ne.symm hne)] at this
    exact one_ne_zero this
  subst hk
  rw [a2, b2]
  rw [List.getD_eq_getElem?_getD, List.getD_eq_getElem?_getD, List.getElem?_map]
  cases ws[k']? <;> simp

/-- C93 (equal weights).  If all class weights are equal to `c`, weighted training predicts the same as unweighted training (of any kind) with
the regularisation parameter divided by `c`; with all weights 1, it is the same as unweighted training. -/
theorem C93_equal_weights (env : Env K) (hl : Lawful env) (hx : env.Exact) (e e' f f' : ELM K) (X T : Mat K)
    (args argsf : List String) (kw kwf : Kwargs K) (h : PlainTrain env e X T args kw e') (hf : PlainTrain env f X T argsf kwf f')
    (hg : ¬ Given args "WC") (hgf : Given argsf "WC") (hRf : ¬ Given argsf "R") (ws : List K) (c : K) (hc : 0 < c)
    (hwf : kwf.w = some ws) (hws : ∀ x ∈ ws, x = c)
    (hn : neuronList e.nnet = neuronList f.nnet) (hr : f.nnet.norm = c * e.nnet.norm)
    (Xn P Q : Mat K) (p : Predicts env e' Xn P) (q : Predicts env f' Xn Q) : P = Q := by
  obtain ⟨H, B, w, t⟩ := h.trained hl hx
  obtain ⟨H', B', w', t'⟩ := hf.trained hl hx
  obtain ⟨fs, rnd, r, hrun⟩ := h.run
  obtain ⟨fs', rnd', r', hrun'⟩ := hf.run
  have k1 := (C82_no_weights env fs rnd e e' _ _ args kw hg (Or.inl ⟨r, hrun⟩)).2
  have k2 := (C21_kind_partial env fs' rnd' f f' _ _ argsf kwf r' hrun' hRf).2.1 hgf
  obtain ⟨a1, a2⟩ := C82_given_weights env fs' rnd' f f' _ _ argsf kwf ws hgf hwf (Or.inl ⟨r', hrun'⟩)
  refine trained_scale t t' h.consistent hf.consistent h.norm hc (fun s hs => ?_) hn hr Xn P Q p q
  obtain ⟨l, k, b1, b2, b3⟩ := (t'.sw s hs).2 k2
  rw [a1] at b1
  injection b1 with b1
  subst b1
  rw [(t.sw s hs).1 k1, mul_one]
  rw [List.getElem?_map] at b3
  cases hk : ws[k]? with
  | none => rw [hk] at b3; cases b3
  | some x =>
    rw [hk] at b3
    injection b3 with b3
    injection b3 with b3
    rw [← b3]
    exact hws x (List.mem_of_getElem? hk)

theorem pred_entries {env : Env K} {e e' : ELM K} {X T H B P : Mat K} {w : Nat → K} (t : Trained env e X T e' H B w) (p : Predicts env e' X P) :
    P.nrows = T.nrows ∧ P.cols = T.cols ∧ ∀ s < T.nrows, ∀ j < T.cols, P.get s j = predEntry H B s j := by
  obtain ⟨G, g, eP, d, m⟩ := t.pred X P p
  have : G = H := by
    have := t.proj
    rw [g] at this
    injection this
  subst this
  refine ⟨by rw [eP, Mat.mul_nrows, t.rowsH], by rw [eP]; exact t.cols, fun s hs j hj => ?_⟩
  exact t.predGet (Xn := X) eP d s (by rw [t.rowsH]; exact hs) j hj

theorem loss_of {H T B P : Mat K} {w : Nat → K} {lam : K} (b1 : B.nrows = H.cols) (b2 : B.cols = T.cols)
    (hp : ∀ s < T.nrows, ∀ j < T.cols, P.get s j = predEntry H B s j) : ridgeLoss H T w lam B = fitError w P T + lam * sqNorm B := by
  unfold ridgeLoss fitError sqNorm
  rw [b1, b2]
  congr 1
  exact Finset.sum_congr rfl fun s hs => by
    congr 1
    exact Finset.sum_congr rfl fun j hj => by rw [hp s (Finset.mem_range.1 hs) j (Finset.mem_range.1 hj)]

/-- C93 (direction).  Two models with the same neurons and regularisation are trained on the same data in weighted classification; the second
with a larger weight for class `i` and the same weights for the other classes.  Then the second model fits the samples of class `i` in
the training data at least as well (sum of squared errors), and the remaining objective (the weighted errors with the old weights
plus the regularised size of the output weights) at most as well. -/
theorem C93_raised_weight (env : Env K) (hl : Lawful env) (hx : env.Exact) (e e' f f' : ELM K) (X T : Mat K)
    (args argsf : List String) (kw kwf : Kwargs K) (h : PlainTrain env e X T args kw e') (hf : PlainTrain env f X T argsf kwf f')
    (hg : Given args "WC") (hgf : Given argsf "WC") (hR : ¬ Given args "R") (hRf : ¬ Given argsf "R") (ws vs : List K)
    (hw : kw.w = some ws) (hwf : kwf.w = some vs) (i : Nat) (hi : ws.getD i 0 < vs.getD i 0) (hj : ∀ j ≠ i, vs.getD j 0 = ws.getD j 0)
    (hn : neuronList e.nnet = neuronList f.nnet) (hr : f.nnet.norm = e.nnet.norm)
    (P Q B C : Mat K) (p : Predicts env e' X P) (q : Predicts env f' X Q) (hB : e'.nnet.getB = some B) (hC : f'.nnet.getB = some C) :
    classFit i Q T ≤ classFit i P T ∧
      (∑ k ∈ range T.cols, ws.getD k 0 * classFit k P T) + e.nnet.norm * sqNorm B ≤
        (∑ k ∈ range T.cols, ws.getD k 0 * classFit k Q T) + f.nnet.norm * sqNorm C := by
  obtain ⟨H, B0, w, t⟩ := h.trained hl hx
  obtain ⟨H', C0, w', t'⟩ := hf.trained hl hx
  obtain rfl : B = B0 := by have := t.getB; rw [hB] at this; injection this
  obtain rfl : C = C0 := by have := t'.getB; rw [hC] at this; injection this
  obtain rfl := project_eq_of_neurons h.consistent hf.consistent t.proj t'.proj hn
  obtain ⟨fs, rnd, r, hrun⟩ := h.run
  obtain ⟨fs', rnd', r', hrun'⟩ := hf.run
  have k1 := (C21_kind_partial env fs rnd e e' _ _ args kw r hrun hR).2.1 hg
  have k2 := (C21_kind_partial env fs' rnd' f f' _ _ argsf kwf r' hrun' hRf).2.1 hgf
  have hW : ∀ s < T.nrows, w s = ∑ k ∈ range T.cols, if T.get s k = 1 then ws.getD k 0 else 0 := by
    intro s hs
    obtain ⟨k, a1, a2, a3, a4⟩ := weight_of_class h hg k1 hw t s hs
    rw [a2, Finset.sum_eq_single k]
    · rw [a4 k a1, if_pos rfl, if_pos rfl]
    · intro b hb hne
      rw [a4 b (Finset.mem_range.1 hb), if_neg hne, if_neg zero_ne_one]
    · intro hk
      exact absurd (Finset.mem_range.2 a1) hk
  have hD : ∀ s < T.nrows, w' s = w s + if T.get s i = 1 then vs.getD i 0 - ws.getD i 0 else 0 := by
    intro s hs
    obtain ⟨k, a1, a2, a3, a4⟩ := weight_of_class h hg k1 hw t s hs
    obtain ⟨k', b1, b2, b3, b4⟩ := weight_of_class hf hgf k2 hwf t' s hs
    have hk : k' = k := by
      have := b4 k a1
      rw [a4 k a1, if_pos rfl] at this
      by_contra hne
      rw [if_neg (Ne.symm hne)] at this
      exact one_ne_zero this
    subst hk
    rw [a2, b2]
    by_cases hki : k' = i
    · subst hki
      rw [if_pos (by rw [a4 k' a1, if_pos rfl])]
      ring
    · rw [hj k' hki, if_neg, add_zero]
      intro h1
      rcases Nat.lt_or_ge i T.cols with hl | hl
      · rw [a4 i hl, if_neg (Ne.symm hki)] at h1
        exact zero_ne_one h1
      · have hlen : (T.rows.getD s []).length = T.cols := a3.2.1
        have : T.get s i = 0 := by
          unfold Mat.get
          rw [List.getD_eq_getElem?_getD, List.getElem?_eq_none (by rw [hlen]; exact hl)]
          rfl
        rw [this] at h1
        exact zero_ne_one h1
  have l1 := ridgeLoss_fit t p
  have l2 := ridgeLoss_fit t' q
  have a1 := t.best C t'.wf t'.rows t'.cols
  have a2 := t'.best B t.wf t.rows t.cols
  -- the loss with the old weights, of both solutions
  have fitSplit : ∀ R : Mat K, fitError w' R T = fitError w R T + (vs.getD i 0 - ws.getD i 0) * classFit i R T := by
    intro R
    unfold fitError classFit
    rw [Finset.mul_sum, ← Finset.sum_add_distrib]
    apply Finset.sum_congr rfl
    intro s hs
    rw [hD s (Finset.mem_range.1 hs)]
    split <;> ring
  have fitClass : ∀ R : Mat K, fitError w R T = ∑ k ∈ range T.cols, ws.getD k 0 * classFit k R T := by
    intro R
    unfold fitError classFit
    rw [Finset.sum_congr rfl fun k (_ : k ∈ range T.cols) => Finset.mul_sum (range T.nrows) _ (ws.getD k 0), Finset.sum_comm]
    apply Finset.sum_congr rfl
    intro s hs
    rw [hW s (Finset.mem_range.1 hs), Finset.sum_mul]
    apply Finset.sum_congr rfl
    intro k _
    split <;> ring
  obtain ⟨p1, p2, p3⟩ := pred_entries t p
  obtain ⟨q1, q2, q3⟩ := pred_entries t' q
  have lossOld : ridgeLoss H T w e.nnet.norm C = fitError w Q T + e.nnet.norm * sqNorm C := loss_of t'.rows t'.cols q3
  have lossNew : ridgeLoss H T w' f.nnet.norm B = fitError w' P T + f.nnet.norm * sqNorm B := loss_of t.rows t.cols p3
  rw [l1, lossOld] at a1
  rw [l2, lossNew, fitSplit, fitSplit, hr] at a2
  refine ⟨?_, by rw [← fitClass, ← fitClass, hr]; exact a1⟩
  by_contra hlt
  have := mul_pos (sub_pos.2 hi) (sub_pos.2 (not_le.1 hlt))
  nlinarith

/-- Weighted classification of three samples with any non-negative weights. -/
theorem linModel_train_wc (s : Solver) (norm : ℝ) (hn : 0 < norm) (a b : ℝ) (ha : 0 ≤ a) (hb : 0 ≤ b) :
    ∃ e', PlainTrain realEnv (linModel s 2 norm [[1, 0], [0, 1]]) ⟨2, [[1, 0], [0, 1], [2, 3]]⟩ ⟨2, [[1, 0], [0, 1], [1, 0]]⟩ ["wc"] { w := some [a, b] } e' ∧
      ∃ P, Predicts realEnv e' ⟨2, [[1, 0], [0, 1], [2, 3]]⟩ P := by
  obtain ⟨H, hH⟩ := linModel_project s 2 norm [[1, 0], [0, 1]] ⟨2, [[1, 0], [0, 1], [2, 3]]⟩ rfl
  have hupper : (["wc"] : List String).map upper = ["WC"] := by decide +kernel
  have hpa : (linModel s 2 norm [[1, 0], [0, 1]]).parseArgs ["wc"] { w := some [a, b] } =
      ({ linModel s 2 norm [[1, 0], [0, 1]] with
          nnet := (linModel s 2 norm [[1, 0], [0, 1]]).nnet.reset, classification := some "wc", wc := some [some a, some b] }, .ok ()) := by
    unfold ELM.parseArgs
    rw [hupper, if_neg (by simp [linModel])]
    have h1 : atMostOne ["WC"] ["V", "CV", "LOO"] = true := by decide +kernel
    have h2 : atMostOne ["WC"] ["C", "WC", "ML", "MC"] = true := by decide +kernel
    simp only [h1, h2, Bool.not_true, Bool.false_eq_true, if_false, parseLoop, parseOne]
    rfl
  obtain ⟨e', he⟩ := train_plain_total (env := realEnv) (fs := fun _ => none) (rnd := ⟨fun _ => []⟩)
    (X := ⟨2, [[1, 0], [0, 1], [2, 3]]⟩) (T := ⟨2, [[1, 0], [0, 1], [1, 0]]⟩) (args := ["wc"]) (kw := { w := some [a, b] })
    (lawEnv_exact _) (by simp) (by simp) (by simp) (by simp [linModel]) (fun _ => exOneHot) rfl rfl rfl (by simp [Mat.nrows]) hpa
    (linModel_consistent s 2 norm [[1, 0], [0, 1]] (by simp)) hH
  have hpt : PlainTrain realEnv (linModel s 2 norm [[1, 0], [0, 1]]) ⟨2, [[1, 0], [0, 1], [2, 3]]⟩ ⟨2, [[1, 0], [0, 1], [1, 0]]⟩ ["wc"]
      { w := some [a, b] } e' := by
    refine ⟨linModel_consistent s 2 norm _ (by simp), hn, by simp [linModel], by simp, by simp [Mat.WF],
      fun _ x hx => Real.mul_self_sqrt hx, fun _ => exOneHot, ?_, _, _, _, he⟩
    intro ws h x hx
    injection h with h
    subst h
    simp only [List.mem_cons, List.not_mem_nil, or_false] at hx
    rcases hx with rfl | rfl <;> assumption
  exact ⟨e', hpt, PlainTrain_predicts (lawEnv_lawful _) (lawEnv_exact _) hpt _ H hH⟩

/-- The hypotheses of the three theorems are met: the same two neurons trained with the weights (2, 1), with (4, 2) and twice the
regularisation, with (3, 1), with (2, 2), and without weights. -/
example (s : Solver) : ∃ (e₁ e₂ e₃ e₄ e₅ : ELM ℝ),
    PlainTrain realEnv (linModel s 2 1 [[1, 0], [0, 1]]) ⟨2, [[1, 0], [0, 1], [2, 3]]⟩ ⟨2, [[1, 0], [0, 1], [1, 0]]⟩ ["wc"] { w := some [2, 1] } e₁ ∧
    PlainTrain realEnv (linModel s 2 2 [[1, 0], [0, 1]]) ⟨2, [[1, 0], [0, 1], [2, 3]]⟩ ⟨2, [[1, 0], [0, 1], [1, 0]]⟩ ["wc"] { w := some [4, 2] } e₂ ∧
    PlainTrain realEnv (linModel s 2 1 [[1, 0], [0, 1]]) ⟨2, [[1, 0], [0, 1], [2, 3]]⟩ ⟨2, [[1, 0], [0, 1], [1, 0]]⟩ ["wc"] { w := some [3, 1] } e₃ ∧
    PlainTrain realEnv (linModel s 2 2 [[1, 0], [0, 1]]) ⟨2, [[1, 0], [0, 1], [2, 3]]⟩ ⟨2, [[1, 0], [0, 1], [1, 0]]⟩ ["wc"] { w := some [2, 2] } e₄ ∧
    PlainTrain realEnv (linModel s 2 1 [[1, 0], [0, 1]]) ⟨2, [[1, 0], [0, 1], [2, 3]]⟩ ⟨2, [[1, 0], [0, 1], [1, 0]]⟩ [] {} e₅ := by
  obtain ⟨e₁, h₁, _⟩ := linModel_train_wc s 1 one_pos 2 1 (by norm_num) (by norm_num)
  obtain ⟨e₂, h₂, _⟩ := linModel_train_wc s 2 (by norm_num) 4 2 (by norm_num) (by norm_num)
  obtain ⟨e₃, h₃, _⟩ := linModel_train_wc s 1 one_pos 3 1 (by norm_num) (by norm_num)
  obtain ⟨e₄, h₄, _⟩ := linModel_train_wc s 2 (by norm_num) 2 2 (by norm_num) (by norm_num)
  obtain ⟨e₅, h₅, _⟩ := linModel_train s 2 1 one_pos [[1, 0], [0, 1]] (by simp) ⟨2, [[1, 0], [0, 1], [2, 3]]⟩ ⟨2, [[1, 0], [0, 1], [1, 0]]⟩
    rfl rfl (by simp [Mat.WF]) rfl (by simp [Mat.nrows])
  exact ⟨e₁, e₂, e₃, e₄, e₅, h₁, h₂, h₃, h₄, h₅⟩

end Hpelm.Props
