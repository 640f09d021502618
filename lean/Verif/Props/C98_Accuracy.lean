import Verif.Props.C97_RoundedErrors
import Verif.Lemmas.Certificate

/-!
C98: how far computed output weights are from the exact ones.
-/

namespace Hpelm.Props
open Hpelm Spec Finset
variable {K : Type} [Field K] [LinearOrder K] [IsStrictOrderedRing K]

/-- C98, existence and uniqueness.  With a positive norm and weights that are not negative there are best output weights, and only one
choice of them for every output. -/
theorem C98_unique (ss : List (List K × List K × K)) (hw : ∀ s ∈ ss, 0 ≤ s.2.2) (norm : K) (hn : 0 < norm) (L c : Nat) :
    (∃ B, Best ss norm L c B) ∧
    ∀ B B', Best ss norm L c B → Best ss norm L c B' → ∀ i < L, ∀ j < c, B i j = B' i j := by
  refine ⟨exists_best ss hw hn L c, fun B B' h h' i hi j hj => ?_⟩
  have h1 := lhs_coercive ss hw norm hn L (fun k => B k j - B' k j)
  have h2 : ∑ i ∈ range L, lhs ss norm L (fun k => B k j - B' k j) i ^ 2 = 0 := by
    apply sum_eq_zero
    intro i hi
    have e : lhs ss norm L (fun k => B k j - B' k j) i = lhs ss norm L (fun k => B k j) i - lhs ss norm L (fun k => B' k j) i := by
      unfold lhs; simp only [mul_sub, sum_sub_distrib]; ring
    rw [e, best_normal hw hn (h j hj) i (mem_range.1 hi), best_normal hw hn (h' j hj) i (mem_range.1 hi)]
    simp
  rw [h2] at h1
  have h3 : ∑ i ∈ range L, (B i j - B' i j) ^ 2 = 0 := by
    have p : 0 ≤ ∑ i ∈ range L, (B i j - B' i j) ^ 2 := sum_nonneg fun i _ => sq_nonneg _
    have : 0 < norm ^ 2 := by positivity
    nlinarith
  rw [sum_eq_zero_iff_of_nonneg (fun i _ => sq_nonneg _)] at h3
  have := (pow_eq_zero_iff two_ne_zero).1 (h3 i (mem_range.2 hi))
  linarith

/-- C98.  Data accumulated in rounded arithmetic in any batches gives matrices `HH` and `HT` (from `get_corr`).  Let `W` be any
weights, such as those a linear algebra library computed from `HH` and `HT`.  Their distance to the best weights of the exact
problem, times `norm`, is at most the length of the vector with the entries: the residual `|HH W - HT|`, which anyone can
compute, plus the rounding errors of the accumulation. -/
theorem C98_accuracy (env : Env K) (u : K) (n n' : NNet K) (L : Nat) (hr : Rounding (env.cast n.prec) u)
    (hsq : ∀ v : K, 0 ≤ v → env.sqrt v * env.sqrt v = v)
    (hL : n.L = some L) (h0 : n.corr = none) (hnorm : env.cast n.prec n.norm = n.norm) (hpos : 0 < n.norm)
    (bs : List (HBatch K)) (hbs : bs ≠ []) (hf : ∀ b ∈ bs, Fit L n.outputs b)
    (h : n.FeedR env bs n') (HH HT : Mat K) (hg : n'.getCorrR env = some (HH, HT))
    (B : Nat → Nat → K) (hB : Best (samples bs) n.norm L n.outputs B) (W : Nat → Nat → K) (j : Nat) (hj : j < n.outputs) :
    n.norm ^ 2 * ∑ i ∈ range L, (W i j - B i j) ^ 2 ≤
      ∑ i ∈ range L, (|∑ k ∈ range L, HH.get i k * W k j - HT.get i j|
        + drift u ((samples bs).length + 5) * (n.norm * |W i j| + ∑ k ∈ range L, absGram (samples bs) i k * |W k j|)
        + drift u ((samples bs).length + 6) * absCross (samples bs) i j) ^ 2 := by
  obtain ⟨_, a1, a2⟩ := C96_weighted env u n n' L hr hsq hL h0 hnorm bs hbs hf h HH HT hg
  have hw : ∀ s ∈ samples bs, 0 ≤ s.2.2 := samples_weight_nonneg hf
  set ss := samples bs
  refine le_trans (lhs_coercive ss hw n.norm hpos L (fun k => W k j - B k j)) ?_
  apply sum_le_sum
  intro i hi
  have hi := mem_range.1 hi
  have e : lhs ss n.norm L (fun k => W k j - B k j) i = lhs ss n.norm L (fun k => W k j) i - lhs ss n.norm L (fun k => B k j) i := by
    unfold lhs; simp only [mul_sub, sum_sub_distrib]; ring
  rw [e, best_normal hw hpos (hB j hj) i hi, ← sq_abs]
  apply pow_le_pow_left₀ (abs_nonneg _)
  have e2 : lhs ss n.norm L (fun k => W k j) i = ∑ k ∈ range L, ((if i = k then n.norm else 0) + gram ss i k) * W k j := by
    unfold lhs
    simp only [add_mul, sum_add_distrib, ite_mul, zero_mul]
    rw [sum_ite_eq, if_pos (mem_range.2 hi)]
  have e3 : lhs ss n.norm L (fun k => W k j) i - cross ss i j
      = (∑ k ∈ range L, HH.get i k * W k j - HT.get i j)
        + (-∑ k ∈ range L, (HH.get i k - ((if i = k then n.norm else 0) + gram ss i k)) * W k j)
        + (HT.get i j - cross ss i j) := by
    rw [e2]; simp only [sub_mul, sum_sub_distrib]; ring
  rw [e3]
  refine le_trans (abs_add_le _ _) (add_le_add (le_trans (abs_add_le _ _) (add_le_add le_rfl ?_)) (a2 i hi j hj))
  rw [abs_neg]
  have e4 : n.norm * |W i j| + ∑ k ∈ range L, absGram ss i k * |W k j|
      = ∑ k ∈ range L, ((if i = k then |n.norm| else 0) + absGram ss i k) * |W k j| := by
    simp only [add_mul, sum_add_distrib, ite_mul, zero_mul]
    rw [sum_ite_eq, if_pos (mem_range.2 hi), abs_of_pos hpos]
  rw [e4, mul_sum]
  refine le_trans (abs_sum_le_sum_abs _ _) (sum_le_sum fun k hk => ?_)
  rw [abs_mul, ← mul_assoc]
  exact mul_le_mul_of_nonneg_right (a1 i hi k (mem_range.1 hk)) (abs_nonneg _)

/-- The hypotheses are met: single precision, weights in one of two batches, every solver, and the best weights exist. -/
example (s : Solver) : ∃ n' HH HT B, (floatNet s).FeedR floatEnv floatBatches n' ∧ n'.getCorrR floatEnv = some (HH, HT) ∧
    Best (samples floatBatches) (floatNet s).norm 2 1 B ∧ 0 < (floatNet s).norm := by
  have hf := floatBatches_fit s
  obtain ⟨n', hn⟩ := exists_feedR floatEnv 2 floatBatches (floatNet s) rfl (by intro c hc; cases hc) hf
  obtain ⟨B, hB⟩ := (C98_unique (samples floatBatches) (samples_weight_nonneg hf) (floatNet s).norm one_pos 2 1).1
  have : n'.corr ≠ none := by
    obtain ⟨_, _, _, _⟩ | ⟨_, h2⟩ := hn
    obtain ⟨_, _, _, _, _, _, _⟩ | ⟨h1, h3⟩ := h2
    cases h3
    obtain ⟨_, _, _, _, HH', HT', _, _, _, _, _, rfl, _⟩ := h1
    simp
  obtain ⟨⟨HH, HT⟩, hc⟩ := Option.ne_none_iff_exists'.1 this
  refine ⟨n', (n'.getCorrR floatEnv |>.getD (HH, HT)).1, (n'.getCorrR floatEnv |>.getD (HH, HT)).2, B, hn, ?_, hB, one_pos⟩
  simp [NNet.getCorrR, hc]

end Hpelm.Props
