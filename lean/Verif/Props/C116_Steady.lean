import Verif.Lemmas.Steady
import Verif.Spec.Steady
import Verif.Props.C05_Ranges
import Verif.Props.C87_Cost

/-!
# C116 — predictions change gradually and stay bounded
-/

namespace Hpelm.Props
open Hpelm Spec Finset

/-- In a network that can project, every neuron has a known type. -/
theorem neuron_known {env : Env ℝ} {n : NNet ℝ} (hc : Consistent n) {X H : Mat ℝ} (h : n.project env X = .ok H) {j : Nat} {f : Func} {w : List ℝ} {b : ℝ}
    (hj : (neuronList n)[j]? = some (f, w, b)) : (∃ s a, f = .name s ∧ act env s = some a) ∧ w.length = n.inputs := by
  obtain ⟨_, h2, _, _⟩ := (project_ok_iff _ _ _ _).1 h
  have hm := List.mem_of_getElem? hj
  obtain ⟨g, hg, hm⟩ := List.mem_flatMap.1 hm
  obtain ⟨p, hp, he⟩ := List.mem_map.1 hm
  simp only [Prod.mk.injEq] at he
  obtain ⟨rfl, rfl, rfl⟩ := he
  refine ⟨?_, (hc.groups g hg).2.2 p.1 (List.of_mem_zip hp).1⟩
  have := h2 g hg
  unfold groupAct at this
  cases hf : g.func with
  | ufunc s => rw [hf] at this; simp at this
  | name s =>
    rw [hf] at this
    simp only [Option.isSome_map] at this
    obtain ⟨a, ha⟩ := Option.isSome_iff_exists.1 this
    exact ⟨s, a, rfl, ha⟩

theorem near_rows {δ : ℝ} {X X' : Mat ℝ} (h : NearData δ X X') {i : Nat} (hi : i < X.nrows) :
    (X.rows.getD i []).length = X.cols ∧ NearRow δ (X.rows.getD i []) (X'.rows.getD i []) := by
  have h1 : i < X.rows.length := hi
  have h2 : i < X'.rows.length := by have := h.rows; unfold Mat.nrows at this; omega
  rw [List.getD_eq_getElem _ _ h1, List.getD_eq_getElem _ _ h2]
  have l1 := h.wf _ (List.getElem_mem h1)
  have l2 := h.wf' _ (List.getElem_mem h2)
  refine ⟨l1, List.forall₂_iff_get.2 ⟨by rw [l1, l2, h.cols], fun k k1 k2 => ?_⟩⟩
  have := h.near i hi k (by omega)
  unfold Mat.get at this
  rw [List.getD_eq_getElem _ _ h1, List.getD_eq_getElem _ _ h2, List.getD_eq_getElem _ _ k1, List.getD_eq_getElem _ _ k2] at this
  exact this

/-- C116 (neurons).  If the features of two data sets differ by at most `δ`, what `project` gives for a neuron differs by at most its steepness times `δ`,
for every type of neuron; radial basis functions need a positive width. -/
theorem C116_neurons (env : Env ℝ) (he : RealFns env) (n : NNet ℝ) (hc : Consistent n) (hr : ∀ v ∈ neuronList n, IsRbf v.1 → 0 < v.2.2)
    (δ : ℝ) (hδ : 0 ≤ δ) (X X' H H' : Mat ℝ) (hX : NearData δ X X') (h : n.project env X = .ok H) (h' : n.project env X' = .ok H')
    (i : Nat) (hi : i < X.nrows) (j : Nat) (v : Func × List ℝ × ℝ) (hj : (neuronList n)[j]? = some v) :
    |H.get i j - H'.get i j| ≤ steepness v * δ := by
  obtain ⟨f, w, b⟩ := v
  obtain ⟨⟨s, a, rfl, ha⟩, hw⟩ := neuron_known hc h hj
  obtain ⟨l1, l2⟩ := near_rows hX hi
  rw [((project_ok_iff _ _ _ _).1 h).1, ← hw] at l1
  rw [project_entry hc h hi hj ha, project_entry hc h' (by rw [hX.rows]; exact hi) hj ha]
  have hb := hr _ (List.mem_of_getElem? hj)
  simp only [IsRbf, Func.name.injEq] at hb
  have hdot := dot_steady l2 w l1
  have e1 : ∀ p q : ℝ, p + b - (q + b) = p - q := fun _ _ => by ring
  unfold act at ha
  unfold steepness
  simp only [Func.name.injEq]
  split_ifs at ha with c1 c2 c3 c4 c5 c6 <;> injection ha with ha <;> subst ha <;> subst_vars <;> simp only [he.exp, he.tanh]
  · simpa [e1] using hdot
  · rw [if_pos trivial]
    have := sigm_steady (dot (X.rows.getD i []) w + b) (dot (X'.rows.getD i []) w + b)
    rw [e1] at this
    linarith
  · have := tanh_steady (dot (X.rows.getD i []) w + b) (dot (X'.rows.getD i []) w + b)
    rw [e1] at this
    simpa using this.trans hdot
  · have hb := hb (by simp)
    have := rbf_steady hb (distL1 (X.rows.getD i []) w) (distL1 (X'.rows.getD i []) w)
    have h2 := distL1_steady l2 w l1
    rw [if_neg (by simp), if_pos trivial, div_mul_eq_mul_div]
    exact this.trans (div_le_div_of_nonneg_right h2 (Real.sqrt_nonneg _))
  · have hb := hb (by simp)
    have := rbf_steady hb (distL2 env (X.rows.getD i []) w) (distL2 env (X'.rows.getD i []) w)
    have h2 := distL2_steady he.sqrt l2 w l1
    rw [if_neg (by simp), if_neg (by simp), if_pos trivial, div_mul_eq_mul_div]
    exact this.trans (div_le_div_of_nonneg_right h2 (Real.sqrt_nonneg _))
  · have hb := hb (by simp)
    have := rbf_steady hb (distLinf (X.rows.getD i []) w) (distLinf (X'.rows.getD i []) w)
    have h2 := distLinf_steady hδ l2 w l1
    rw [if_neg (by simp), if_neg (by simp), if_neg (by simp), if_pos trivial, div_mul_eq_mul_div, one_mul]
    exact this.trans (div_le_div_of_nonneg_right h2 (Real.sqrt_nonneg _))

/-- Predictions are the neuron outputs times the output weights. -/
theorem predicts_sum {env : Env ℝ} {e : ELM ℝ} (hc : Consistent e.nnet) {X P B : Mat ℝ} (p : Predicts env e X P) (hB : e.nnet.getB = some B) :
    ∃ H, e.nnet.project env X = .ok H ∧ P.nrows = X.nrows ∧ P.cols = B.cols ∧ B.nrows = (neuronList e.nnet).length ∧
      ∀ i < X.nrows, ∀ k < B.cols, P.get i k = ∑ j ∈ range (neuronList e.nnet).length, H.get i j * B.get j k := by
  have h := predicts_nnet p
  have hB : e.nnet.B = some B := hB
  unfold NNet.predict at h
  rw [hB] at h
  simp only at h
  obtain ⟨H, hp, h⟩ := bind_ok h
  obtain ⟨w1, w2, w3⟩ := project_WF hc hp
  split at h
  · cases h
  rename_i hcol
  injection h with h
  have hn : B.nrows = (neuronList e.nnet).length := by rw [← size_neuronList hc, ← w3]; exact (not_not.1 hcol).symm
  refine ⟨H, hp, by rw [← h, Mat.mul_nrows, w2], by rw [← h]; rfl, hn, fun i hi k hk => ?_⟩
  rw [← h, get_mul_sum (by rw [w2]; exact hi) hk, hn]

/-- C116 (predictions).  If the features of two data sets differ by at most `δ`, the predictions of any model differ by at most `δ` times the sum of the
steepnesses of its neurons times their absolute output weights. -/
theorem C116_predictions (env : Env ℝ) (he : RealFns env) (e : ELM ℝ) (hc : Consistent e.nnet) (hr : ∀ v ∈ neuronList e.nnet, IsRbf v.1 → 0 < v.2.2)
    (B : Mat ℝ) (hB : e.nnet.getB = some B) (δ : ℝ) (hδ : 0 ≤ δ) (X X' P P' : Mat ℝ) (hX : NearData δ X X')
    (p : Predicts env e X P) (p' : Predicts env e X' P') (i : Nat) (hi : i < X.nrows) (k : Nat) (hk : k < B.cols) :
    |P.get i k - P'.get i k| ≤
      δ * ∑ j ∈ range (neuronList e.nnet).length, ((neuronList e.nnet)[j]?).elim 0 steepness * |B.get j k| := by
  obtain ⟨H, h1, -, -, -, h2⟩ := predicts_sum hc p hB
  obtain ⟨H', h1', -, -, -, h2'⟩ := predicts_sum hc p' hB
  rw [h2 i hi k hk, h2' i (by rw [hX.rows]; exact hi) k hk, ← Finset.sum_sub_distrib, Finset.mul_sum]
  refine (Finset.abs_sum_le_sum_abs _ _).trans (Finset.sum_le_sum fun j hj => ?_)
  have hj := Finset.mem_range.1 hj
  have := C116_neurons env he e.nnet hc hr δ hδ X X' H H' hX h1 h1' i hi j _ (List.getElem?_eq_getElem hj)
  rw [← sub_mul, abs_mul, List.getElem?_eq_getElem hj, Option.elim_some]
  have := mul_le_mul_of_nonneg_right this (abs_nonneg (B.get j k))
  linarith

/-- C116 (bounds).  A model of sigmoid, tanh and radial basis function neurons (of positive width) never predicts a value beyond the sum of the absolute output
weights, whatever the input. -/
theorem C116_bounded (env : Env ℝ) (he : RealFns env) (e : ELM ℝ) (hc : Consistent e.nnet) (hr : ∀ v ∈ neuronList e.nnet, IsRbf v.1 → 0 < v.2.2)
    (hl : ∀ v ∈ neuronList e.nnet, v.1 ≠ .name "lin") (B : Mat ℝ) (hB : e.nnet.getB = some B) (X P : Mat ℝ) (hX : X.WF)
    (p : Predicts env e X P) (i : Nat) (hi : i < X.nrows) (k : Nat) (hk : k < B.cols) :
    |P.get i k| ≤ ∑ j ∈ range B.nrows, |B.get j k| := by
  obtain ⟨H, h1, -, -, hn, h2⟩ := predicts_sum hc p hB
  rw [h2 i hi k hk, hn]
  refine (Finset.abs_sum_le_sum_abs _ _).trans (Finset.sum_le_sum fun j hj => ?_)
  have hj := Finset.mem_range.1 hj
  have hm := List.getElem?_eq_getElem hj
  obtain ⟨v, hv⟩ : ∃ v, v = (neuronList e.nnet)[j] := ⟨_, rfl⟩
  rw [← hv] at hm
  obtain ⟨f, w, b⟩ := v
  obtain ⟨⟨s, a, rfl, ha⟩, hw⟩ := neuron_known hc h1 hm
  obtain ⟨r1, r2, r3⟩ := C05_ranges env he e.nnet hc X H hX h1 i j hi s w b hm
  have hb := hr _ (List.mem_of_getElem? hm)
  have hlin := hl _ (List.mem_of_getElem? hm)
  simp only [IsRbf, Func.name.injEq, ne_eq] at hb hlin
  have : |H.get i j| ≤ 1 := by
    rw [abs_le]
    unfold act at ha
    split_ifs at ha with c2 c3 c4 c5 c6
    · have := r1 c2; constructor <;> linarith
    · have := r2 c3; constructor <;> linarith
    · have := r3 (.inl c4) (hb (.inl c4)); constructor <;> linarith
    · have := r3 (.inr (.inl c5)) (hb (.inr (.inl c5))); constructor <;> linarith
    · have := r3 (.inr (.inr c6)) (hb (.inr (.inr c6))); constructor <;> linarith
  rw [abs_mul]
  have := mul_le_mul_of_nonneg_right this (abs_nonneg (B.get j k))
  linarith

/-- A model with a tanh neuron and a radial basis function of width 2, output weights 3 and -1. -/
noncomputable def exSteady : ELM ℝ :=
  { nnet := { solver := .basic, prec := .double, inputs := 2, outputs := 1, norm := 1,
              neurons := [⟨1, .name "tanh", [[1, 0]], [0]⟩, ⟨1, .name "rbf_l2", [[1, 1]], [2]⟩], L := some 2, B := some ⟨1, [[3], [-1]]⟩, corr := none }
    batch := 2, prec := .double, accelerator := none, classification := none, wc := none, rankingOP := false, kmaxOp := none }

/-- The hypotheses are met, for all inputs of the right width. -/
example (X : Mat ℝ) (hX : X.cols = 2) : RealFns realEnv ∧ Consistent exSteady.nnet ∧ (∀ v ∈ neuronList exSteady.nnet, IsRbf v.1 → 0 < v.2.2) ∧
    (∀ v ∈ neuronList exSteady.nnet, v.1 ≠ .name "lin") ∧ exSteady.nnet.getB = some ⟨1, [[3], [-1]]⟩ ∧ ∃ P, Predicts realEnv exSteady X P := by
  refine ⟨⟨rfl, rfl, rfl⟩, ?_, ?_, ?_, rfl, ?_⟩
  · constructor <;> simp [exSteady, Mat.WF, Mat.nrows]
  · simp [neuronList, exSteady, IsRbf]
  · simp [neuronList, exSteady]
  · refine ⟨_, predicts_of ((project_ok_iff _ _ _ _).2 ⟨hX, ?_, by simp [exSteady], rfl⟩) rfl ?_⟩
    · intro g hg
      simp only [exSteady, List.mem_cons, List.not_mem_nil, or_false] at hg
      rcases hg with rfl | rfl <;> rfl
    · simp [exSteady, width, Mat.nrows]

end Hpelm.Props
