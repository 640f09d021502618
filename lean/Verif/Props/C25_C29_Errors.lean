import Verif.Lemmas.Errors
import Verif.Lemmas.Frame
import Verif.Props.C09_C13_Batches
import Verif.Lemmas.Bridge
import Mathlib.Data.List.GetD
import Mathlib.Algebra.BigOperators.Fin

/-!
# C25–C29 — confusion matrices and errors
-/

namespace Hpelm.Props
open Hpelm Spec
variable {K : Type} [Field K] [LinearOrder K] [IsStrictOrderedRing K]
set_option linter.unusedSectionVars false

/-- Targets and predictions for a model: real arrays of equal, non-zero sizes that fit the model. -/
structure Fits (e : ELM K) (T Y : Mat K) : Prop where
  wfT : T.WF
  wfY : Y.WF
  rows : T.nrows = Y.nrows
  colsT : T.cols = e.nnet.outputs
  colsY : Y.cols = e.nnet.outputs
  pos : 0 < e.nnet.outputs

theorem error_mat (fs : Files K) {e : ELM K} {T Y : Mat K} (h : Fits e T Y) :
    e.error fs (.mat T) (.mat Y) = elmError e.classification e.wc T Y := by
  unfold ELM.error checkOne pyAssert
  simp only [h.colsT, h.colsY, decide_true, if_true, pure_bind]
  rfl

theorem confusion_mat (fs : Files K) {e : ELM K} {T Y : Mat K} (h : Fits e T Y) (hc : e.classification ∈ [some "c", some "wc", some "ml"]) :
    e.confusion fs (.mat T) (.mat Y) = e.confusionM T Y := by
  unfold ELM.confusion checkOne
  simp only [pyAssert, h.colsT, h.colsY, decide_true, if_true, pure_bind, hc]
  rfl

theorem confusionM_eq {e : ELM K} {T Y : Mat K} (h : Fits e T Y) (hb : 0 < e.batch) (hc : e.classification ∈ [some "c", some "wc", some "ml"]) :
    e.confusionM T Y = .ok (confLoop (if e.classification = some "ml" then confBatchML else confBatch (K := K)) e.batch e.nnet.outputs T Y
      (List.range (ceilDiv T.nrows e.batch).toNat) (Mat.zeros e.nnet.outputs e.nnet.outputs)) := by
  unfold ELM.confusionM
  simp only [pyAssert, hc, decide_true, if_true, if_neg (ne_of_gt hb), if_neg (not_lt.2 h.rows.le)]
  rfl

theorem confusion_counts {e : ELM K} {T Y : Mat K} (h : Fits e T Y) (hb : 0 < e.batch) (hc : e.classification ∈ [some "c", some "wc", some "ml"])
    (q : Nat → Nat → List K × List K → Bool)
    (hq : ∀ T Y i j, (if e.classification = some "ml" then confBatchML else confBatch (K := K)) T Y i j = (T.zip Y).countP (q i j)) :
    ∃ C, e.confusionM T Y = .ok C ∧ C.nrows = e.nnet.outputs ∧ C.cols = e.nnet.outputs ∧
      ∀ i j, i < e.nnet.outputs → j < e.nnet.outputs → C.get i j = (((T.rows.zip Y.rows).countP (q i j) : Nat) : K) := by
  refine ⟨_, confusionM_eq h hb hc, ?_⟩
  obtain ⟨h1, h2, h3⟩ := confLoop_get (if e.classification = some "ml" then confBatchML else confBatch (K := K)) e.batch e.nnet.outputs T Y
    (List.range (ceilDiv T.nrows e.batch).toNat) (Mat.zeros e.nnet.outputs e.nnet.outputs) (by simp [Mat.zeros, Mat.ofFn, Mat.nrows]) rfl
  refine ⟨h1, h2, ?_⟩
  intro i j hi hj
  rw [h3 i j hi hj, Mat.get_zeros, zero_add]
  simp only [hq]
  rw [slices_count hb h.rows]

/-- C25.  For classification and weighted classification the confusion matrix is square with one row per output, entry (i, j) is
the number of samples of true class i predicted as class j (whatever the batch size), and all entries together sum to N. -/
theorem C25_confusion (fs : Files K) (e : ELM K) (T Y : Mat K) (h : Fits e T Y) (hb : 0 < e.batch)
    (hc : e.classification = some "c" ∨ e.classification = some "wc") :
    ∃ C, e.confusion fs (.mat T) (.mat Y) = .ok C ∧ C.nrows = e.nnet.outputs ∧ C.cols = e.nnet.outputs ∧
      (∀ i j, i < e.nnet.outputs → j < e.nnet.outputs →
        C.get i j = (countSamples T.nrows fun n => FirstMax (sample T n) i ∧ FirstMax (sample Y n) j : Nat)) ∧
      ∑ i ∈ Finset.range e.nnet.outputs, ∑ j ∈ Finset.range e.nnet.outputs, C.get i j = (T.nrows : K) := by
  have hm : e.classification ∈ [some "c", some "wc", some "ml"] := by rcases hc with h | h <;> rw [h] <;> simp
  have hml : ¬ e.classification = some "ml" := by rcases hc with h | h <;> rw [h] <;> decide
  rw [confusion_mat fs h hm]
  obtain ⟨C, c1, c2, c3, c4⟩ := confusion_counts h hb hm (fun i j p => decide (argmax p.1 = i ∧ argmax p.2 = j)) (by
    intro T Y i j
    rw [if_neg hml]
    exact length_filter_countP _ _)
  refine ⟨C, c1, c2, c3, ?_, ?_⟩
  · intro i j hi hj
    rw [c4 i j hi hj, countP_zip h.rows]
    intro n hn
    have hT := sample_ne_nil h.wfT (by have := h.pos; have := h.colsT; omega) hn
    have hY := sample_ne_nil h.wfY (by have := h.pos; have := h.colsY; omega) (h.rows ▸ hn)
    rw [decide_eq_true_iff, argmax_eq_iff hT, argmax_eq_iff hY]
  · have hN : ∀ n ∈ Finset.range T.nrows, ∑ i ∈ Finset.range e.nnet.outputs, ∑ j ∈ Finset.range e.nnet.outputs,
        (if argmax (sample T n) = i ∧ argmax (sample Y n) = j then 1 else 0 : Nat) = 1 := by
      intro n hn
      rw [Finset.mem_range] at hn
      have hT := argmax_lt (sample_ne_nil h.wfT (by have := h.pos; have := h.colsT; omega) hn)
      have hY := argmax_lt (sample_ne_nil h.wfY (by have := h.pos; have := h.colsY; omega) (h.rows ▸ hn))
      rw [sample_length h.wfT hn, h.colsT] at hT
      rw [sample_length h.wfY (h.rows ▸ hn), h.colsY] at hY
      rw [Finset.sum_eq_single_of_mem (argmax (sample T n)) (Finset.mem_range.2 hT),
        Finset.sum_eq_single_of_mem (argmax (sample Y n)) (Finset.mem_range.2 hY)]
      · simp
      · intro b _ hb; rw [if_neg (fun h => hb h.2.symm)]
      · intro b _ hb
        apply Finset.sum_eq_zero
        intro j _
        rw [if_neg (fun h => hb h.1.symm)]
    have hsum : ∑ i ∈ Finset.range e.nnet.outputs, ∑ j ∈ Finset.range e.nnet.outputs, C.get i j =
        ((∑ i ∈ Finset.range e.nnet.outputs, ∑ j ∈ Finset.range e.nnet.outputs,
          (T.rows.zip Y.rows).countP (fun p => decide (argmax p.1 = i ∧ argmax p.2 = j)) : Nat) : K) := by
      push_cast
      apply Finset.sum_congr rfl
      intro i hi
      apply Finset.sum_congr rfl
      intro j hj
      rw [c4 i j (Finset.mem_range.1 hi) (Finset.mem_range.1 hj)]
    rw [hsum]
    congr 1
    have hcnt : ∀ i j, (T.rows.zip Y.rows).countP (fun p => decide (argmax p.1 = i ∧ argmax p.2 = j))
        = ∑ n ∈ Finset.range T.nrows, if argmax (sample T n) = i ∧ argmax (sample Y n) = j then 1 else 0 := by
      intro i j
      rw [countP_zip h.rows _ (fun n => argmax (sample T n) = i ∧ argmax (sample Y n) = j) (by intro n _; simp), countSamples_eq,
        Finset.card_filter]
    simp only [hcnt]
    have hsw : ∑ i ∈ Finset.range e.nnet.outputs, ∑ j ∈ Finset.range e.nnet.outputs, ∑ n ∈ Finset.range T.nrows,
          (if argmax (sample T n) = i ∧ argmax (sample Y n) = j then 1 else 0 : Nat) =
        ∑ n ∈ Finset.range T.nrows, ∑ i ∈ Finset.range e.nnet.outputs, ∑ j ∈ Finset.range e.nnet.outputs,
          (if argmax (sample T n) = i ∧ argmax (sample Y n) = j then 1 else 0 : Nat) := by
      rw [Finset.sum_comm]
      rw [Finset.sum_congr rfl (fun j _ => Finset.sum_comm), Finset.sum_comm]
      apply Finset.sum_congr rfl
      intro n _
      exact Finset.sum_comm
    rw [hsw, Finset.sum_congr rfl hN]
    simp

example : (exModel 2 2 (some "c") none).confusion (fun _ => none) (.mat ⟨2, [[1, 0], [0, 1], [0, 1]]⟩) (.mat ⟨2, [[3, 2], [5, 4], [1, 2]]⟩)
    = .ok ⟨2, [[1, 0], [1, 1]]⟩ := by decide +kernel

/-- C26.  For multi-label classification entry (i, j) of the confusion matrix is the number of samples that have label i and are
predicted label j, whatever the batch size. -/
theorem C26_confusion_ml (fs : Files K) (e : ELM K) (T Y : Mat K) (h : Fits e T Y) (hb : 0 < e.batch)
    (hc : e.classification = some "ml") :
    ∃ C, e.confusion fs (.mat T) (.mat Y) = .ok C ∧ C.nrows = e.nnet.outputs ∧ C.cols = e.nnet.outputs ∧
      ∀ i j, i < e.nnet.outputs → j < e.nnet.outputs →
        C.get i j = (countSamples T.nrows fun n => 1 / 2 < T.get n i ∧ 1 / 2 < Y.get n j : Nat) := by
  have hm : e.classification ∈ [some "c", some "wc", some "ml"] := by rw [hc]; simp
  rw [confusion_mat fs h hm]
  obtain ⟨C, c1, c2, c3, c4⟩ := confusion_counts h hb hm (fun i j p => decide (1 / 2 < p.1.getD i 0 ∧ 1 / 2 < p.2.getD j 0)) (by
    intro T Y i j
    rw [if_pos hc]
    exact length_filter_countP _ _)
  refine ⟨C, c1, c2, c3, ?_⟩
  intro i j hi hj
  rw [c4 i j hi hj, countP_zip h.rows]
  intro n hn
  rw [decide_eq_true_iff]
  rfl

example : (exModel 2 1 (some "ml") none).confusion (fun _ => none) (.mat ⟨2, [[1, 1], [0, 1], [0, 0]]⟩) (.mat ⟨2, [[3/4, 0], [1, 1], [1, 2]]⟩)
    = .ok ⟨2, [[1, 0], [2, 1]]⟩ := by decide +kernel

/-! ## C27 -/

theorem misses_count {T Y : Mat K} : (misses T Y).countP id = (T.rows.zip Y.rows).countP fun p => argmax p.2 != argmax p.1 := by
  unfold misses
  rw [← List.map_uncurry_zip_eq_zipWith, List.countP_map]
  rfl

theorem mean_some {l : List K} {v : K} (h : l ≠ []) : notNan (mean? l) = .ok v ↔ v = l.sum / (l.length : K) := by
  unfold mean? notNan
  have : l.isEmpty = false := by simpa using h
  simp only [this]
  constructor
  · intro h; injection h with h; exact h.symm
  · intro h; rw [h]; rfl

theorem missed_iff' {T Y : Mat K} (hT : T.WF) (hY : Y.WF) (hr : T.nrows = Y.nrows) (hc : 0 < T.cols) (hc' : 0 < Y.cols) {n : Nat}
    (hn : n < T.nrows) : argmax (sample Y n) ≠ argmax (sample T n) ↔ Misclassified T Y n := by
  have hT := sample_ne_nil hT hc hn
  have hY := sample_ne_nil hY hc' (hr ▸ hn)
  constructor
  · intro hne
    exact ⟨_, _, argmax_firstMax hT, argmax_firstMax hY, Ne.symm hne⟩
  · rintro ⟨i, j, hi, hj, hij⟩
    rw [(argmax_eq_iff hT).2 hi, (argmax_eq_iff hY).2 hj]
    exact hij.symm

theorem missed_iff {e : ELM K} {T Y : Mat K} (h : Fits e T Y) {n : Nat} (hn : n < T.nrows) :
    argmax (sample Y n) ≠ argmax (sample T n) ↔ Misclassified T Y n :=
  missed_iff' h.wfT h.wfY h.rows (h.colsT ▸ h.pos) (h.colsY ▸ h.pos) hn

/-- C27.  On N ≥ 1 samples the classification error is (number of misclassified samples) / N, lies in [0, 1], and equals
1 - trace(confusion) / N for the confusion matrix of the same model (and of any batch size). -/
theorem C27_classification_error (fs : Files K) (e : ELM K) (T Y : Mat K) (h : Fits e T Y) (hb : 0 < e.batch) (hN : 0 < T.nrows)
    (hc : e.classification = some "c") :
    ∃ v C, e.error fs (.mat T) (.mat Y) = .ok v ∧ e.confusion fs (.mat T) (.mat Y) = .ok C ∧
      v = (countSamples T.nrows (Misclassified T Y) : K) / T.nrows ∧ 0 ≤ v ∧ v ≤ 1 ∧
      v = 1 - (∑ i ∈ Finset.range e.nnet.outputs, C.get i i) / T.nrows := by
  obtain ⟨C, c1, _, _, c4, _⟩ := C25_confusion fs e T Y h hb (Or.inl hc)
  have hNK : (0 : K) < T.nrows := by exact_mod_cast hN
  have hcnt : (misses T Y).countP id = countSamples T.nrows (Misclassified T Y) := by
    rw [misses_count, countP_zip h.rows]
    intro n hn
    rw [bne_iff_ne]
    exact missed_iff h hn
  have hlen : (misses T Y).length = T.nrows := by
    unfold misses
    have h1 : T.rows.length = Y.rows.length := h.rows
    simp [← h1, Mat.nrows]
  have herr : e.error fs (.mat T) (.mat Y) = .ok ((countSamples T.nrows (Misclassified T Y) : K) / T.nrows) := by
    rw [error_mat fs h]
    unfold elmError
    rw [if_neg (by rw [h.rows, h.colsT, h.colsY]; simp), if_pos hc, mean_some (by
      intro h0
      have := congrArg List.length h0
      rw [List.length_map, hlen] at this
      simp at this; omega)]
    rw [sum_b2k, hcnt, List.length_map, hlen]
  refine ⟨_, C, herr, c1, rfl, ?_, ?_, ?_⟩
  · positivity
  · rw [div_le_one hNK]
    exact_mod_cast countSamples_le _ _
  · have htr : ∑ i ∈ Finset.range e.nnet.outputs, C.get i i = ((countSamples T.nrows fun n => ¬ Misclassified T Y n : Nat) : K) := by
      have : ∀ i ∈ Finset.range e.nnet.outputs, C.get i i =
          ((∑ n ∈ Finset.range T.nrows, if argmax (sample T n) = i ∧ argmax (sample Y n) = i then 1 else 0 : Nat) : K) := by
        intro i hi
        rw [Finset.mem_range] at hi
        rw [c4 i i hi hi, ← Finset.card_filter, ← countSamples_eq]
        congr 1
        apply countSamples_congr
        intro n hn
        have hT := sample_ne_nil h.wfT (by have := h.pos; have := h.colsT; omega) hn
        have hY := sample_ne_nil h.wfY (by have := h.pos; have := h.colsY; omega) (h.rows ▸ hn)
        rw [argmax_eq_iff hT, argmax_eq_iff hY]
      rw [Finset.sum_congr rfl this, ← Nat.cast_sum, Finset.sum_comm]
      congr 1
      have hdec : DecidablePred (fun n => argmax (sample Y n) = argmax (sample T n)) := fun n => inferInstance
      rw [countSamples_congr (q := fun n => argmax (sample Y n) = argmax (sample T n)) (by
        intro n hn
        rw [← missed_iff h hn]
        simp), countSamples_eq, Finset.card_filter]
      apply Finset.sum_congr rfl
      intro n hn
      rw [Finset.mem_range] at hn
      have hT := argmax_lt (sample_ne_nil h.wfT (by have := h.pos; have := h.colsT; omega) hn)
      rw [sample_length h.wfT hn, h.colsT] at hT
      by_cases hq : argmax (sample Y n) = argmax (sample T n)
      · rw [if_pos hq, Finset.sum_eq_single_of_mem (argmax (sample T n)) (Finset.mem_range.2 hT)]
        · rw [if_pos ⟨rfl, hq⟩]
        · intro b _ hb
          rw [if_neg (fun h => hb h.1.symm)]
      · rw [if_neg hq]
        apply Finset.sum_eq_zero
        intro i _
        rw [if_neg (fun h => hq (h.2.trans h.1.symm))]
    rw [htr]
    have hsum := countSamples_compl T.nrows (Misclassified T Y)
    have hsumK : (countSamples T.nrows (Misclassified T Y) : K) + (countSamples T.nrows fun n => ¬ Misclassified T Y n : Nat) = T.nrows := by
      exact_mod_cast hsum
    rw [eq_sub_iff_add_eq, ← add_div, hsumK, div_self hNK.ne']

example : (exModel 2 2 (some "c") none).error (fun _ => none) (.mat ⟨2, [[1, 0], [0, 1], [0, 1]]⟩) (.mat ⟨2, [[3, 2], [5, 4], [1, 2]]⟩)
    = .ok (1 / 3) := by decide +kernel

/-! ## C28 -/

theorem flatten_pairs (f : K → K → K) {T Y : Mat K} (hT : T.WF) (hY : Y.WF) (hr : T.nrows = Y.nrows) (hc : T.cols = Y.cols) :
    (List.zipWith (List.zipWith f) T.rows Y.rows).flatten =
      (List.range T.nrows).flatMap fun n => (List.range T.cols).map fun j => f (T.get n j) (Y.get n j) := by
  rw [← List.map_uncurry_zip_eq_zipWith, zip_rows_eq hr, List.map_map, List.flatMap]
  congr 1
  apply List.map_congr_left
  intro n hn
  rw [List.mem_range] at hn
  have h1 := sample_length hT hn
  have h2 := sample_length hY (hr ▸ hn)
  simp only [Function.comp, Function.uncurry]
  apply List.ext_getElem
  · simp [h1, h2, hc]
  · intro j hj1 hj2
    have hj : j < T.cols := by simpa using hj2
    have e1 : T.get n j = (sample T n)[j]'(by omega) := by
      unfold Mat.get sample
      exact (List.getD_eq_getElem _ _ (by have := h1; unfold sample at this; omega))
    have e2 : Y.get n j = (sample Y n)[j]'(by omega) := by
      unfold Mat.get sample
      exact (List.getD_eq_getElem _ _ (by have := h2; unfold sample at this; omega))
    simp [e1, e2]

theorem flatten_length (r c : Nat) (f : Nat → Nat → K) : ((List.range r).flatMap fun n => (List.range c).map (f n)).length = r * c := by
  rw [List.length_flatMap]
  simp

theorem flatten_sum (r c : Nat) (f : Nat → Nat → K) :
    ((List.range r).flatMap fun n => (List.range c).map (f n)).sum = ∑ n ∈ Finset.range r, ∑ j ∈ Finset.range c, f n j := by
  rw [List.flatMap, List.sum_flatten, List.map_map, sum_range_list]
  apply Finset.sum_congr rfl
  intro n _
  exact sum_range_list c (f n)

/-- C28, regression.  With N ≥ 1 samples the regression error is the mean of the squared differences, is non-negative, and is
zero exactly when the predictions equal the targets. -/
theorem C28_regression_error (fs : Files K) (e : ELM K) (T Y : Mat K) (h : Fits e T Y) (hN : 0 < T.nrows) (hc : e.classification = none) :
    ∃ v, e.error fs (.mat T) (.mat Y) = .ok v ∧
      v = (∑ n ∈ Finset.range T.nrows, ∑ j ∈ Finset.range T.cols, (Y.get n j - T.get n j) ^ 2) / ((T.nrows * T.cols : Nat) : K) ∧
      0 ≤ v ∧ (v = 0 ↔ T = Y) := by
  have hcp : 0 < T.cols := by rw [h.colsT]; exact h.pos
  have hcc : T.cols = Y.cols := by rw [h.colsT, h.colsY]
  have hpos : (0 : K) < ((T.nrows * T.cols : Nat) : K) := by exact_mod_cast Nat.mul_pos hN hcp
  refine ⟨_, ?_, rfl, ?_, ?_⟩
  · rw [error_mat fs h]
    unfold elmError
    rw [if_neg (by rw [h.rows, h.colsT, h.colsY]; simp), hc, if_neg (by simp), if_neg (by simp), if_neg (by simp)]
    unfold sqErrs
    rw [flatten_pairs _ h.wfT h.wfY h.rows hcc, mean_some (by
      intro h0
      have := congrArg List.length h0
      rw [flatten_length] at this
      have := Nat.mul_pos hN hcp
      simp at *
      omega), flatten_length, flatten_sum]
    simp only [pow_two]
  · apply div_nonneg _ hpos.le
    exact Finset.sum_nonneg fun n _ => Finset.sum_nonneg fun j _ => sq_nonneg _
  · rw [div_eq_zero_iff, or_iff_left hpos.ne', Finset.sum_eq_zero_iff_of_nonneg (fun n _ => Finset.sum_nonneg fun j _ => sq_nonneg _)]
    constructor
    · intro h0
      apply Mat.ext_get h.wfT h.wfY h.rows hcc
      intro i j hi hj
      have h1 := h0 i (Finset.mem_range.2 hi)
      rw [Finset.sum_eq_zero_iff_of_nonneg (fun j _ => sq_nonneg _)] at h1
      have h2 := h1 j (Finset.mem_range.2 hj)
      rw [pow_eq_zero_iff (by norm_num)] at h2
      exact (sub_eq_zero.1 h2).symm
    · intro h0 n _
      apply Finset.sum_eq_zero
      intro j _
      rw [h0]; simp

example : (exModel 2 2 none none).error (fun _ => none) (.mat ⟨2, [[1, 0], [0, 1]]⟩) (.mat ⟨2, [[3, 0], [0, 1]]⟩) = .ok 1 := by decide +kernel

theorem countLabels_le (N C : Nat) (p : Nat → Nat → Prop) : countLabels N C p ≤ N * C := by
  classical
  unfold countLabels
  exact (Finset.card_filter_le _ _).trans (by simp)

theorem countLabels_sum (N C : Nat) (p : Nat → Nat → Prop) [∀ n j, Decidable (p n j)] :
    (countLabels N C p : K) = ∑ n ∈ Finset.range N, ∑ j ∈ Finset.range C, if p n j then (1 : K) else 0 := by
  classical
  unfold countLabels
  rw [Finset.card_filter, Finset.sum_product]
  push_cast
  apply Finset.sum_congr rfl
  intro n _
  apply Finset.sum_congr rfl
  intro j _
  by_cases hp : p n j <;> simp [hp]

/-- C28, multi-label.  The multi-label error is the fraction of the N × C labels on which predictions and targets disagree, and lies
in [0, 1]. -/
theorem C28_multilabel_error (fs : Files K) (e : ELM K) (T Y : Mat K) (h : Fits e T Y) (hN : 0 < T.nrows) (hc : e.classification = some "ml") :
    ∃ v, e.error fs (.mat T) (.mat Y) = .ok v ∧
      v = (countLabels T.nrows T.cols fun n j => ¬ (1 / 2 < Y.get n j ↔ 1 / 2 < T.get n j) : Nat) / ((T.nrows * T.cols : Nat) : K) ∧
      0 ≤ v ∧ v ≤ 1 := by
  have hcp : 0 < T.cols := by rw [h.colsT]; exact h.pos
  have hcc : T.cols = Y.cols := by rw [h.colsT, h.colsY]
  have hpos : (0 : K) < ((T.nrows * T.cols : Nat) : K) := by exact_mod_cast Nat.mul_pos hN hcp
  refine ⟨_, ?_, rfl, ?_, ?_⟩
  · rw [error_mat fs h]
    unfold elmError
    rw [if_neg (by rw [h.rows, h.colsT, h.colsY]; simp), hc, if_neg (by decide), if_neg (by decide), if_pos rfl]
    have hfl : (labelMisses T Y).flatten.map (b2k (K := K)) =
        (List.zipWith (List.zipWith fun t y => b2k ((decide (1 / 2 < y)) != (decide (1 / 2 < t)))) T.rows Y.rows).flatten := by
      unfold labelMisses
      rw [List.map_flatten, List.map_zipWith]
      congr 2
      funext t y
      rw [List.map_zipWith]
    rw [hfl, flatten_pairs _ h.wfT h.wfY h.rows hcc, mean_some (by
      intro h0
      have := congrArg List.length h0
      rw [flatten_length] at this
      have := Nat.mul_pos hN hcp
      simp at *
      omega), flatten_length, flatten_sum, countLabels_sum]
    congr 1
    apply Finset.sum_congr rfl
    intro n _
    apply Finset.sum_congr rfl
    intro j _
    unfold b2k
    by_cases h1 : 1 / 2 < Y.get n j <;> by_cases h2 : 1 / 2 < T.get n j <;> simp [h1, h2]
  · positivity
  · rw [div_le_one hpos]
    have := countLabels_le T.nrows T.cols (fun n j => ¬ (1 / 2 < Y.get n j ↔ 1 / 2 < T.get n j))
    exact_mod_cast this

example : (exModel 2 2 (some "ml") none).error (fun _ => none) (.mat ⟨2, [[1, 0], [1, 1]]⟩) (.mat ⟨2, [[3, 0], [0, 1]]⟩) = .ok (1 / 4) := by
  decide +kernel

/-! ## C29 -/

theorem mapM_id_map (ws : List K) : (ws.map some).mapM id = some ws := by
  induction ws with
  | nil => rfl
  | cons w ws ih => simp [List.mapM_cons, ih]

theorem classErr_eq' {T Y : Mat K} (wfY : Y.WF) (rows : T.nrows = Y.nrows) (hc : 0 < Y.cols) (i : Nat) :
    (mean? ((classMisses T Y i).map b2k)).getD 0 = classErr T Y i := by
  have hlen : (classMisses T Y i).length = countSamples T.nrows fun n => T.get n i = 1 := by
    unfold classMisses
    rw [List.length_map, length_filter_countP, countP_zip rows]
    intro n hn
    rw [decide_eq_true_iff]
    rfl
  have hcnt : (classMisses T Y i).countP id = countSamples T.nrows fun n => T.get n i = 1 ∧ ¬ FirstMax (sample Y n) i := by
    unfold classMisses
    rw [List.countP_map, List.countP_filter, countP_zip rows]
    intro n hn
    have hY := sample_ne_nil wfY hc (rows ▸ hn)
    simp only [Function.comp, id, Bool.and_eq_true, bne_iff_ne, decide_eq_true_iff]
    rw [Ne, argmax_eq_iff hY, and_comm]
    rfl
  unfold mean? classErr
  by_cases h0 : classMisses T Y i = []
  · rw [h0] at hlen hcnt ⊢
    rw [← hlen]
    simp
  · rw [if_neg (by simpa using h0), Option.getD_some, sum_b2k, hcnt, List.length_map, hlen]

theorem classErr_eq {e : ELM K} {T Y : Mat K} (h : Fits e T Y) (i : Nat) :
    (mean? ((classMisses T Y i).map b2k)).getD 0 = classErr T Y i :=
  classErr_eq' h.wfY h.rows (h.colsY ▸ h.pos) i

theorem classErr_nonneg (T Y : Mat K) (i : Nat) : 0 ≤ classErr T Y i := by unfold classErr; positivity

theorem classErr_le (T Y : Mat K) (i : Nat) : classErr T Y i ≤ 1 := by
  classical
  unfold classErr
  apply div_le_one_of_le₀
  · have : (countSamples T.nrows fun n => T.get n i = 1 ∧ ¬ FirstMax (sample Y n) i) ≤ countSamples T.nrows fun n => T.get n i = 1 := by
      rw [countSamples_eq, countSamples_eq]
      apply Finset.card_le_card
      intro n hn
      rw [Finset.mem_filter] at hn ⊢
      exact ⟨hn.1, hn.2.1⟩
    exact_mod_cast this
  · positivity

theorem classErr_zero (T Y : Mat K) (i : Nat) : classErr T Y i = 0 ↔ ∀ n < T.nrows, T.get n i = 1 → FirstMax (sample Y n) i := by
  unfold classErr
  rw [div_eq_zero_iff]
  constructor
  · rintro (h | h)
    · have h := (countSamples_zero _ _).1 (by exact_mod_cast h)
      intro n hn h1
      by_contra hc
      exact h n hn ⟨h1, hc⟩
    · have h := (countSamples_zero _ _).1 (by exact_mod_cast h)
      intro n hn h1
      exact absurd h1 (h n hn)
  · intro h
    left
    have : (countSamples T.nrows fun n => T.get n i = 1 ∧ ¬ FirstMax (sample Y n) i) = 0 := by
      rw [countSamples_zero]
      rintro n hn ⟨h1, h2⟩
      exact h2 (h n hn h1)
    rw [this, Nat.cast_zero]

theorem zipWith_range_sum (f : Nat → K) (ws : List K) :
    (List.zipWith (· * ·) ((List.range ws.length).map f) ws).sum = ∑ i ∈ Finset.range ws.length, f i * ws.getD i 0 := by
  rw [Finset.sum_range, ← List.sum_ofFn, List.ofFn_eq_map]
  congr 1
  apply List.ext_getElem
  · simp
  · intro i h1 h2
    simp at h1
    simp [List.getD_eq_getElem?_getD, h1]

theorem list_sum_range (ws : List K) : ws.sum = ∑ i ∈ Finset.range ws.length, ws.getD i 0 := by
  rw [Finset.sum_range, ← List.sum_ofFn, List.ofFn_eq_map]
  congr 1
  apply List.ext_getElem
  · simp
  · intro i h1 h2
    simp [List.getD_eq_getElem?_getD, h1]

/-- C29.  With one non-negative weight per class, not all zero, the weighted classification error is the weighted average of the
error rates of the classes, lies in [0, 1], and is zero exactly when no sample of a positively weighted class is misclassified. -/
theorem C29_weighted_error (fs : Files K) (e : ELM K) (T Y : Mat K) (ws : List K) (h : Fits e T Y)
    (hc : e.classification = some "wc") (hw : e.wc = some (ws.map some)) (hl : ws.length = e.nnet.outputs)
    (h0 : ∀ w ∈ ws, 0 ≤ w) (h1 : ∃ w ∈ ws, w ≠ 0) :
    ∃ v, e.error fs (.mat T) (.mat Y) = .ok v ∧
      v = (∑ i ∈ Finset.range T.cols, classErr T Y i * ws.getD i 0) / (∑ i ∈ Finset.range T.cols, ws.getD i 0) ∧
      0 ≤ v ∧ v ≤ 1 ∧
      (v = 0 ↔ ∀ n < T.nrows, ∀ i < T.cols, 0 < ws.getD i 0 → T.get n i = 1 → FirstMax (sample Y n) i) := by
  have hlT : ws.length = T.cols := by rw [hl, h.colsT]
  have hwn : ∀ i, 0 ≤ ws.getD i 0 := by
    intro i
    rcases Nat.lt_or_ge i ws.length with hi | hi
    · rw [List.getD_eq_getElem _ _ hi]; exact h0 _ (List.getElem_mem hi)
    · rw [List.getD_eq_default _ _ hi]
  have hsum : 0 < ws.sum := by
    obtain ⟨w, hm, hne⟩ := h1
    have := List.single_le_sum h0 w hm
    exact lt_of_lt_of_le (lt_of_le_of_ne (h0 w hm) hne.symm) this
  have hsumE := list_sum_range ws
  rw [hlT] at hsumE
  have hsum' := hsum
  rw [hsumE] at hsum'
  refine ⟨_, ?_, rfl, ?_, ?_, ?_⟩
  · rw [error_mat fs h]
    unfold elmError
    rw [if_neg (by rw [h.rows, h.colsT, h.colsY]; simp), hc, if_neg (by decide), if_pos rfl, hw]
    have hE : ((List.range T.cols).map fun i => (mean? ((classMisses T Y i).map (b2k (K := K)))).getD 0) = (List.range ws.length).map (classErr T Y) := by
      rw [hlT]
      apply List.map_congr_left
      intro i _
      exact classErr_eq h i
    simp only [hE]
    unfold weightedMean
    rw [mapM_id_map]
    simp only [if_neg hsum.ne', zipWith_range_sum]
    rw [← hsumE, hlT]
    rfl
  · exact div_nonneg (Finset.sum_nonneg fun i _ => mul_nonneg (classErr_nonneg T Y i) (hwn i)) hsum'.le
  · rw [div_le_one hsum']
    apply Finset.sum_le_sum
    intro i _
    have := mul_le_mul_of_nonneg_right (classErr_le T Y i) (hwn i)
    rwa [one_mul] at this
  · rw [div_eq_zero_iff, or_iff_left hsum'.ne', Finset.sum_eq_zero_iff_of_nonneg (fun i _ => mul_nonneg (classErr_nonneg T Y i) (hwn i))]
    constructor
    · intro hz n hn i hi hwp h1
      have := hz i (Finset.mem_range.2 hi)
      rcases mul_eq_zero.1 this with h2 | h2
      · exact (classErr_zero T Y i).1 h2 n hn h1
      · exact absurd h2 hwp.ne'
    · intro hz i hi
      rcases (hwn i).eq_or_lt with h2 | h2
      · rw [← h2, mul_zero]
      · rw [(classErr_zero T Y i).2 (fun n hn h1 => hz n hn i (Finset.mem_range.1 hi) h2 h1), zero_mul]

example : (exModel 2 2 (some "wc") (some [some 3, some 1])).error (fun _ => none) (.mat ⟨2, [[1, 0], [0, 1], [0, 1]]⟩)
    (.mat ⟨2, [[3, 2], [5, 4], [1, 2]]⟩) = .ok (1 / 8) := by decide +kernel

end Hpelm.Props
