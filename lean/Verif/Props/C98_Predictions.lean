import Verif.Props.C98_Accuracy
import Mathlib.Algebra.Order.Chebyshev

/-!
C98: how far predictions computed in rounded arithmetic are from those of the best weights, and from those of another run.
-/

namespace Hpelm.Props
open Hpelm Spec Finset
variable {K : Type} [Field K] [LinearOrder K] [IsStrictOrderedRing K]

/-- The bound of `C98_accuracy` for output `j`: the squared length of the vector of the residuals `|HH W - HT|` plus the rounding errors of the
accumulation of the samples `ss`. -/
def defect (u norm : K) (ss : List (List K × List K × K)) (HH HT : Mat K) (L : Nat) (W : Nat → Nat → K) (j : Nat) : K :=
  ∑ i ∈ range L, (|∑ k ∈ range L, HH.get i k * W k j - HT.get i j|
    + drift u (ss.length + 5) * (norm * |W i j| + ∑ k ∈ range L, absGram ss i k * |W k j|)
    + drift u (ss.length + 6) * absCross ss i j) ^ 2

omit [IsStrictOrderedRing K] in
theorem best_perm {ss ss' : List (List K × List K × K)} (h : ss.Perm ss') {norm : K} {L c : Nat} {B : Nat → Nat → K}
    (hB : Best ss norm L c B) : Best ss' norm L c B := by
  have e : ∀ j b, objective ss' norm L j b = objective ss norm L j b := by
    intro j b
    unfold objective
    rw [(h.map _).sum_eq]
  intro j hj b
  rw [e, e]
  exact hB j hj b

/-- C98, predictions.  A network is fed any batches in rounded arithmetic, a linear algebra library computes some output weights `W` from the
accumulated `HH` and `HT`, and new samples with hidden layer outputs `Hn` are predicted with them, again in rounded arithmetic and with sums in any order.  Each
predicted value differs from that of the best weights `B` of the exact problem by at most `t` plus the rounding errors of the
prediction, where `norm * t` is at most the length of the sample's hidden layer output times that of the defect of `W`. -/
theorem C98_predictions (env : Env K) (u : K) (n n' : NNet K) (L : Nat) (hr : Rounding (env.cast n.prec) u)
    (hsq : ∀ v : K, 0 ≤ v → env.sqrt v * env.sqrt v = v)
    (hL : n.L = some L) (h0 : n.corr = none) (hnorm : env.cast n.prec n.norm = n.norm) (hpos : 0 < n.norm) (hLpos : 0 < L)
    (bs : List (HBatch K)) (hbs : bs ≠ []) (hf : ∀ b ∈ bs, Fit L n.outputs b)
    (h : n.FeedR env bs n') (HH HT : Mat K) (hg : n'.getCorrR env = some (HH, HT))
    (B : Nat → Nat → K) (hB : Best (samples bs) n.norm L n.outputs B)
    (W : Mat K) (hW : W.nrows = L ∧ W.cols = n.outputs) (m : NNet K) (hm : m.prec = n.prec ∧ m.B = some W)
    (Hn Y : Mat K) (hY : m.PredictR env Hn Y) (i : Nat) (hi : i < Hn.nrows) (j : Nat) (hj : j < n.outputs) :
    ∃ t, |Y.get i j - ∑ k ∈ range L, Hn.get i k * B k j| ≤ t + drift u L * ∑ k ∈ range L, |Hn.get i k * W.get k j| ∧
      (n.norm * t) ^ 2 ≤ (∑ k ∈ range L, Hn.get i k ^ 2) * defect u n.norm (samples bs) HH HT L W.get j := by
  have h1 := C98_accuracy env u n n' L hr hsq hL h0 hnorm hpos bs hbs hf h HH HT hg B hB W.get j hj
  have h2 := C97_predict env u m (by rw [hm.1]; exact hr) Hn Y W hm.2 (by omega) hY
  obtain ⟨_, _, h2⟩ := h2
  have h3 := h2 i hi j (by omega)
  rw [hW.1] at h3
  refine ⟨|∑ k ∈ range L, Hn.get i k * (W.get k j - B k j)|, ?_, ?_⟩
  · have e : Y.get i j - ∑ k ∈ range L, Hn.get i k * B k j
        = (∑ k ∈ range L, Hn.get i k * (W.get k j - B k j)) + (Y.get i j - ∑ k ∈ range L, Hn.get i k * W.get k j) := by
      simp only [mul_sub, sum_sub_distrib]; ring
    rw [e]
    exact le_trans (abs_add_le _ _) (add_le_add le_rfl h3)
  · rw [mul_pow, sq_abs]
    have cs := sum_mul_sq_le_sq_mul_sq (range L) (fun k => Hn.get i k) (fun k => W.get k j - B k j)
    have p : 0 ≤ ∑ k ∈ range L, Hn.get i k ^ 2 := sum_nonneg fun _ _ => sq_nonneg _
    calc n.norm ^ 2 * (∑ k ∈ range L, Hn.get i k * (W.get k j - B k j)) ^ 2
        ≤ n.norm ^ 2 * ((∑ k ∈ range L, Hn.get i k ^ 2) * ∑ k ∈ range L, (W.get k j - B k j) ^ 2) :=
          mul_le_mul_of_nonneg_left cs (sq_nonneg _)
      _ = (∑ k ∈ range L, Hn.get i k ^ 2) * (n.norm ^ 2 * ∑ k ∈ range L, (W.get k j - B k j) ^ 2) := by ring
      _ ≤ _ := mul_le_mul_of_nonneg_left h1 p

/-- C98, two runs.  The same samples are fed in two ways (other batches, other order, another solver), two libraries compute weights `W` and `V`, and the
same new samples are predicted.  The predictions agree up to the rounding errors of the two predictions plus `t + s`, where `norm * t` and
`norm * s` are bounded by the defects of `W` and `V`. -/
theorem C98_two_runs (env : Env K) (u : K) (n m n' m' : NNet K) (L : Nat) (hr : Rounding (env.cast n.prec) u)
    (hsq : ∀ v : K, 0 ≤ v → env.sqrt v * env.sqrt v = v)
    (hL : n.L = some L) (h0 : n.corr = none) (hnorm : env.cast n.prec n.norm = n.norm) (hpos : 0 < n.norm) (hLpos : 0 < L)
    (hm : m = { n with solver := m.solver })
    (bs bs' : List (HBatch K)) (hbs : bs ≠ []) (hbs' : bs' ≠ []) (hf : ∀ b ∈ bs, Fit L n.outputs b)
    (hf' : ∀ b ∈ bs', Fit L n.outputs b) (hperm : (samples bs).Perm (samples bs'))
    (h : n.FeedR env bs n') (h' : m.FeedR env bs' m')
    (HH HT GG GT : Mat K) (hg : n'.getCorrR env = some (HH, HT)) (hg' : m'.getCorrR env = some (GG, GT))
    (W V : Mat K) (hW : W.nrows = L ∧ W.cols = n.outputs) (hV : V.nrows = L ∧ V.cols = n.outputs)
    (a b : NNet K) (ha : a.prec = n.prec ∧ a.B = some W) (hb : b.prec = n.prec ∧ b.B = some V)
    (Hn Y Z : Mat K) (hY : a.PredictR env Hn Y) (hZ : b.PredictR env Hn Z) (i : Nat) (hi : i < Hn.nrows) (j : Nat) (hj : j < n.outputs) :
    ∃ t s, |Y.get i j - Z.get i j| ≤ t + s
        + drift u L * (∑ k ∈ range L, |Hn.get i k * W.get k j| + ∑ k ∈ range L, |Hn.get i k * V.get k j|) ∧
      (n.norm * t) ^ 2 ≤ (∑ k ∈ range L, Hn.get i k ^ 2) * defect u n.norm (samples bs) HH HT L W.get j ∧
      (n.norm * s) ^ 2 ≤ (∑ k ∈ range L, Hn.get i k ^ 2) * defect u n.norm (samples bs') GG GT L V.get j := by
  have hm1 : m.prec = n.prec ∧ m.L = n.L ∧ m.corr = n.corr ∧ m.norm = n.norm ∧ m.outputs = n.outputs := by
    rw [hm]; exact ⟨rfl, rfl, rfl, rfl, rfl⟩
  obtain ⟨m1, m2, m3, m4, m5⟩ := hm1
  obtain ⟨B, hB⟩ := (C98_unique (samples bs) (samples_weight_nonneg hf) n.norm hpos L n.outputs).1
  obtain ⟨t, t1, t2⟩ := C98_predictions env u n n' L hr hsq hL h0 hnorm hpos hLpos bs hbs hf h HH HT hg B hB W hW a ha Hn Y hY i hi j hj
  obtain ⟨s, s1, s2⟩ := C98_predictions env u m m' L (by rw [m1]; exact hr) hsq (m2.trans hL) (m3.trans h0) (by rw [m1, m4]; exact hnorm)
    (by rw [m4]; exact hpos) hLpos bs' hbs' (by rw [m5]; exact hf') h' GG GT hg' B (by rw [m4, m5]; exact best_perm hperm hB) V
    (by rw [m5]; exact hV) b (by rw [m1]; exact hb) Hn Z hZ i hi j (by rw [m5]; exact hj)
  rw [m4] at s2
  refine ⟨t, s, ?_, t2, s2⟩
  have e : Y.get i j - Z.get i j = (Y.get i j - ∑ k ∈ range L, Hn.get i k * B k j) - (Z.get i j - ∑ k ∈ range L, Hn.get i k * B k j) := by ring
  rw [e]
  refine le_trans (abs_sub _ _) ?_
  rw [mul_add]
  linarith

/-- The hypotheses are met: single precision, weights in one of two batches, every solver, some weights, and a prediction of a new sample. -/
example (s : Solver) : ∃ n' HH HT B Y, (floatNet s).FeedR floatEnv floatBatches n' ∧ n'.getCorrR floatEnv = some (HH, HT) ∧
    Best (samples floatBatches) (floatNet s).norm 2 1 B ∧ 0 < (floatNet s).norm ∧
    ({ floatNet s with B := some ⟨1, [[1], [2]]⟩ } : NNet ℝ).PredictR floatEnv ⟨2, [[1, 1]]⟩ Y := by
  have hf := floatBatches_fit s
  obtain ⟨n', hn⟩ := exists_feedR floatEnv 2 floatBatches (floatNet s) rfl (by intro c hc; cases hc) hf
  obtain ⟨B, hB⟩ := (C98_unique (samples floatBatches) (samples_weight_nonneg hf) (floatNet s).norm one_pos 2 1).1
  have : n'.corr ≠ none := by
    obtain ⟨_, _, _, _⟩ | ⟨_, h2⟩ := hn
    obtain ⟨_, _, _, _, _, _, _⟩ | ⟨h1, h3⟩ := h2
    cases h3
    obtain ⟨_, _, _, _, HH', HT', _, _, _, _, _, rfl, _⟩ := h1
    simp
  obtain ⟨⟨HH, HT⟩, hc⟩ := Option.ne_none_iff_exists'.1 this
  have hs : ∃ v, Sums (floatEnv.cast (floatNet s).prec) [.prod (1 : ℝ) 1, .prod 1 2] v :=
    ⟨_, .add (.prod 1 1) (.prod 1 2) (List.Perm.refl _)⟩
  obtain ⟨v, hv⟩ := hs
  refine ⟨n', (n'.getCorrR floatEnv |>.getD (HH, HT)).1, (n'.getCorrR floatEnv |>.getD (HH, HT)).2, B, ⟨1, [[v]]⟩, hn, ?_, hB, one_pos,
    _, rfl, rfl, by simp [Mat.WF], rfl, rfl, ?_⟩
  · simp [NNet.getCorrR, hc]
  · intro i hi j hj _
    have hi0 : i = 0 := by
      have : i < 1 := hi
      omega
    have hj0 : j = 0 := by
      have : j < 1 := hj
      omega
    subst hi0 hj0
    exact hv

end Hpelm.Props
