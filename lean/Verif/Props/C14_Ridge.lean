import Verif.Lemmas.Plain
import Verif.Lemmas.LawEnv
import Verif.Props.C09_C13_Batches
import Mathlib.Analysis.SpecialFunctions.Pow.Real
import Mathlib.Data.Real.Sqrt

/-!
# C14 — trained weights are the unique ridge-regression optimum
-/

namespace Hpelm.Props
open Hpelm Spec Finset
variable {K : Type} [Field K] [LinearOrder K] [IsStrictOrderedRing K]
set_option linter.unusedSectionVars false

/-- The loss splits into one loss per output column. -/
theorem ridgeLoss_columns (H T B : Mat K) (w : Nat → K) (lam : K) :
    ridgeLoss H T w lam B = ∑ j ∈ range T.cols, ((∑ s ∈ range T.nrows, w s * (∑ k ∈ range H.cols, H.get s k * B.get k j - T.get s j) ^ 2) +
      lam * ∑ k ∈ range H.cols, B.get k j ^ 2) := by
  unfold ridgeLoss predEntry
  rw [Finset.sum_add_distrib, ← Finset.mul_sum]
  congr 1
  · rw [Finset.sum_comm]
    apply Finset.sum_congr rfl; intro s _
    rw [Finset.mul_sum]
  · congr 1
    exact Finset.sum_comm

/-- A solution of the normal equations is the unique minimiser. -/
theorem normalEq_minimises {H T B : Mat K} {w : Nat → K} {lam : K} (hl : 0 < lam) (hw : ∀ s < T.nrows, 0 ≤ w s) (hB : B.WF)
    (b1 : B.nrows = H.cols) (b2 : B.cols = T.cols) (h : NormalEq H T w lam B) (B' : Mat K) (hB' : B'.WF) (b1' : B'.nrows = H.cols)
    (b2' : B'.cols = T.cols) : ridgeLoss H T w lam B ≤ ridgeLoss H T w lam B' ∧
      (ridgeLoss H T w lam B' = ridgeLoss H T w lam B → B' = B) := by
  have hexp : ridgeLoss H T w lam B' = ridgeLoss H T w lam B + ∑ j ∈ range T.cols,
      ((∑ s ∈ range T.nrows, w s * (∑ k ∈ range H.cols, H.get s k * (B'.get k j - B.get k j)) ^ 2) +
        lam * ∑ k ∈ range H.cols, (B'.get k j - B.get k j) ^ 2) := by
    rw [ridgeLoss_columns, ridgeLoss_columns, ← Finset.sum_add_distrib]
    apply Finset.sum_congr rfl
    intro j hj
    exact ridge_expand (fun k hk => h k hk j (Finset.mem_range.1 hj))
  have hnn : ∀ j ∈ range T.cols, 0 ≤ (∑ s ∈ range T.nrows, w s * (∑ k ∈ range H.cols, H.get s k * (B'.get k j - B.get k j)) ^ 2) +
        lam * ∑ k ∈ range H.cols, (B'.get k j - B.get k j) ^ 2 := by
    intro j _
    apply add_nonneg
    · exact Finset.sum_nonneg fun s hs => mul_nonneg (hw s (Finset.mem_range.1 hs)) (sq_nonneg _)
    · exact mul_nonneg hl.le (Finset.sum_nonneg fun k _ => sq_nonneg _)
  refine ⟨by rw [hexp]; linarith [Finset.sum_nonneg hnn], ?_⟩
  intro he
  have h0 : ∑ j ∈ range T.cols,
      ((∑ s ∈ range T.nrows, w s * (∑ k ∈ range H.cols, H.get s k * (B'.get k j - B.get k j)) ^ 2) +
        lam * ∑ k ∈ range H.cols, (B'.get k j - B.get k j) ^ 2) = 0 := by linarith [hexp, he]
  rw [Finset.sum_eq_zero_iff_of_nonneg hnn] at h0
  apply Mat.ext_get hB' hB (by omega) (by omega)
  intro i j hi hj
  have hz := h0 j (Finset.mem_range.2 (by omega))
  have q1 : 0 ≤ ∑ s ∈ range T.nrows, w s * (∑ k ∈ range H.cols, H.get s k * (B'.get k j - B.get k j)) ^ 2 :=
    Finset.sum_nonneg fun s hs => mul_nonneg (hw s (Finset.mem_range.1 hs)) (sq_nonneg _)
  have q2 : 0 ≤ ∑ k ∈ range H.cols, (B'.get k j - B.get k j) ^ 2 := Finset.sum_nonneg fun k _ => sq_nonneg _
  have q3 : ∑ k ∈ range H.cols, (B'.get k j - B.get k j) ^ 2 = 0 := by
    by_contra hne
    have := mul_pos hl (lt_of_le_of_ne q2 (Ne.symm hne))
    linarith
  rw [Finset.sum_eq_zero_iff_of_nonneg (fun k _ => sq_nonneg _)] at q3
  have := q3 i (Finset.mem_range.2 (by omega))
  exact sub_eq_zero.1 (pow_eq_zero_iff (two_ne_zero) |>.1 this)

/-- Two solutions of the normal equations are equal. -/
theorem normalEq_unique {H T B : Mat K} {w : Nat → K} {lam : K} (hl : 0 < lam) (hw : ∀ s < T.nrows, 0 ≤ w s) (hB : B.WF)
    (b1 : B.nrows = H.cols) (b2 : B.cols = T.cols) (h : NormalEq H T w lam B) (B' : Mat K) (hB' : B'.WF) (b1' : B'.nrows = H.cols)
    (b2' : B'.cols = T.cols) (h' : NormalEq H T w lam B') : B' = B := by
  obtain ⟨p1, p2⟩ := normalEq_minimises hl hw hB b1 b2 h B' hB' b1' b2'
  obtain ⟨q1, _⟩ := normalEq_minimises hl hw hB' b1' b2' h' B hB b1 b2
  exact p2 (le_antisymm q1 p1)

/-- Solving the accumulated system gives a solution of the normal equations. -/
theorem solve_normalEq {H T S HT B : Mat K} {w : Nat → K} {lam : K} (s1 : S.nrows = H.cols) (b1 : B.nrows = H.cols) (b2 : B.cols = T.cols)
    (hS : ∀ i < H.cols, ∀ j < H.cols, S.get i j = (if i = j then lam else 0) + ∑ s ∈ range T.nrows, w s * H.get s i * H.get s j)
    (hHT : ∀ i < H.cols, ∀ j < T.cols, HT.get i j = ∑ s ∈ range T.nrows, w s * H.get s i * T.get s j)
    (he : S.mul B = HT) : NormalEq H T w lam B := by
  intro k hk j hj
  rw [← hHT k hk j hj, ← he, get_mul_sum (by omega) (by omega), b1]
  have : ∀ l ∈ range H.cols, S.get k l * B.get l j =
      (if k = l then lam * B.get l j else 0) + ∑ s ∈ range T.nrows, w s * H.get s k * (H.get s l * B.get l j) := by
    intro l hl
    rw [hS k hk l (Finset.mem_range.1 hl), add_mul, Finset.sum_mul]
    congr 1
    · split <;> simp
    · apply Finset.sum_congr rfl; intro s _; ring
  rw [Finset.sum_congr rfl this, Finset.sum_add_distrib, Finset.sum_ite_eq, if_pos (Finset.mem_range.2 hk), Finset.sum_comm]
  congr 1
  apply Finset.sum_congr rfl
  intro s _
  unfold predEntry
  rw [Finset.mul_sum]

/-- C14.  After plain training (any solver; regression, classification or weighted classification with one-hot targets) with a
positive regularisation parameter, the output weights satisfy the regularised (weighted) normal equations and are the unique
minimiser of the penalised (weighted) squared error over all weight matrices of that shape. -/
theorem C14_ridge_optimum (env : Env K) (hl : Lawful env) (hx : env.Exact)
    (fs : Files K) (rnd : Rnd) (e e' : ELM K) (X T : Mat K) (args : List String) (kw : Kwargs K) (r : Option K)
    (hsel : "V" ∉ args ∧ "CV" ∉ args ∧ "LOO" ∉ args) (hb : 0 < kw.batch.getD e.batch) (hnorm : 0 < e.nnet.norm) (hTw : T.WF)
    (hsq : Given args "WC" → ∀ x : K, 0 ≤ x → env.sqrt x * env.sqrt x = x)
    (hT : Given args "WC" → OneHot T) (hw : ∀ ws, kw.w = some ws → ∀ x ∈ ws, 0 ≤ x)
    (h : e.train env fs rnd (.mat X) (.mat T) args kw = (.ok r, e')) :
    ∃ (H B : Mat K) (w : Nat → K), e'.nnet.project env X = .ok H ∧ e'.nnet.getB = some B ∧ B.WF ∧ B.nrows = H.cols ∧ B.cols = T.cols ∧
      SampleWeights e'.classification e'.wc T w ∧
      NormalEq H T w e.nnet.norm B ∧
      ∀ B' : Mat K, B'.WF → B'.nrows = H.cols → B'.cols = T.cols →
        ridgeLoss H T w e.nnet.norm B ≤ ridgeLoss H T w e.nnet.norm B' ∧
        (ridgeLoss H T w e.nnet.norm B' = ridgeLoss H T w e.nnet.norm B → B' = B) := by
  obtain ⟨H, S, HT, w, p0, hN, p1, p2, p3, p4, p5, p6, p7, p8, p9, p10, p11, p12, p13, p14⟩ :=
    train_plain hx hsq hsel.1 hsel.2.1 hsel.2.2 hb hTw hT hw h
  have hpd : PosDef S := posDef_gram p6 p7 (by rw [← p6.square, p7]) (fun i j hi hj => p13 i hi j hj) hnorm p12
  obtain ⟨q1, q2, q3, q4⟩ := solveCorr_posDef hl hx e.nnet p6 hpd (Or.inr rfl) p8 (by rw [p9, p7])
  have b1 : (e.nnet.solveCorr env (e.nnet.store S) HT).nrows = H.cols := by rw [q3, ← p6.square, p7]
  have b2 : (e.nnet.solveCorr env (e.nnet.store S) HT).cols = T.cols := by rw [q4, p10]
  have hne := solve_normalEq (lam := e.nnet.norm) p7 b1 b2 p13 p14 q1
  refine ⟨H, _, w, ?_, ?_, q2, b1, b2, p11, hne, ?_⟩
  · rw [p5]; exact p1
  · rw [p5]; rfl
  · intro B' h1 h2 h3
    exact normalEq_minimises hnorm p12 q2 b1 b2 hne B' h1 h2 h3

/-- The hypotheses can be met: over the real numbers there is a lawful environment with exact square roots, and training a
two-neuron network (any solver) in weighted classification succeeds. -/
noncomputable def realEnv : Env ℝ := lawEnv
  { exp := Real.exp, tanh := Real.tanh, sqrt := Real.sqrt, cast := fun _ x => x, eps := fun _ => 1, posv := fun _ b => (b, 0), pinv := id,
    lstsq := fun _ b => b, inv := some, luSolve := fun _ b => b, brentq := fun _ a _ => some a }

/-- Two linear neurons over the reals. -/
noncomputable def exReal (s : Solver) : ELM ℝ :=
  { nnet := { solver := s, prec := .double, inputs := 2, outputs := 2, norm := 1,
              neurons := [⟨2, .name "lin", [[1, 0], [0, 1]], [0, 0]⟩], L := some 2, B := none, corr := none }
    batch := 2, prec := .double, accelerator := none, classification := none, wc := none, rankingOP := false, kmaxOp := none }

theorem exReal_consistent (s : Solver) : Consistent (exReal s).nnet where
  groups := by
    intro g hg
    simp only [exReal, List.mem_singleton] at hg
    subst hg
    exact ⟨rfl, rfl, by simp [exReal]⟩
  types := by simp [exReal]
  count := Or.inl (by simp [exReal])
  weights := by intro B h; cases h
  corrs := by intro HH HT h; cases h

theorem exOneHot : OneHot (⟨2, [[1, 0], [0, 1], [1, 0]]⟩ : Mat ℝ) := by
  intro r hr
  simp only [List.mem_cons, List.not_mem_nil, or_false] at hr
  have c0 : IsClass 2 ([1, 0] : List ℝ) 0 := by
    refine ⟨by omega, rfl, ?_⟩
    intro j hj
    have : j = 0 ∨ j = 1 := by omega
    rcases this with rfl | rfl <;> simp
  have c1 : IsClass 2 ([0, 1] : List ℝ) 1 := by
    refine ⟨by omega, rfl, ?_⟩
    intro j hj
    have : j = 0 ∨ j = 1 := by omega
    rcases this with rfl | rfl <;> simp
  rcases hr with rfl | rfl | rfl
  · exact ⟨0, c0⟩
  · exact ⟨1, c1⟩
  · exact ⟨0, c0⟩

example (s : Solver) : Lawful realEnv ∧ realEnv.Exact ∧ (∀ x : ℝ, 0 ≤ x → realEnv.sqrt x * realEnv.sqrt x = x) ∧ 0 < (exReal s).nnet.norm ∧
    ∃ e', (exReal s).train realEnv (fun _ => none) ⟨fun _ => []⟩ (.mat ⟨2, [[1, 0], [0, 1], [2, 3]]⟩) (.mat ⟨2, [[1, 0], [0, 1], [1, 0]]⟩)
      ["wc"] {} = (.ok none, e') := by
  refine ⟨lawEnv_lawful _, lawEnv_exact _, fun x hx => Real.mul_self_sqrt hx, by simp [exReal], ?_⟩
  have hupper : (["wc"] : List String).map upper = ["WC"] := by decide +kernel
  refine train_plain_total (e1 := { exReal s with nnet := (exReal s).nnet.reset, classification := some "wc" })
    (lawEnv_exact _) (by simp) (by simp) (by simp) (by simp [exReal]) (fun _ => exOneHot) rfl rfl rfl (by simp [Mat.nrows]) ?_ (exReal_consistent s)
    ((project_ok_iff _ _ _ _).2 ⟨rfl, ?_, by simp [exReal], rfl⟩)
  · unfold ELM.parseArgs
    rw [hupper, if_neg (by simp [exReal])]
    have h1 : atMostOne ["WC"] ["V", "CV", "LOO"] = true := by decide +kernel
    have h2 : atMostOne ["WC"] ["C", "WC", "ML", "MC"] = true := by decide +kernel
    simp only [h1, h2, Bool.not_true, Bool.false_eq_true, if_false, parseLoop, parseOne]
    rfl
  · intro g hg
    simp only [exReal, List.mem_singleton] at hg
    subst hg
    rfl

end Hpelm.Props
