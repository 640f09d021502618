import Verif.Props.C25_C29_Errors

/-!
# C76–C78 — how errors and confusion matrices depend on the data: order of samples, numbering of classes, parts of the data
-/

namespace Hpelm.Props
open Hpelm Spec
variable {K : Type} [Field K] [LinearOrder K] [IsStrictOrderedRing K]
set_option linter.unusedSectionVars false

/-! ## C76 -/

theorem mean_perm {l l' : List K} (h : l'.Perm l) : mean? l' = mean? l := by
  unfold mean?
  have : l'.isEmpty = l.isEmpty := by
    rw [Bool.eq_iff_iff, List.isEmpty_iff_length_eq_zero, List.isEmpty_iff_length_eq_zero, h.length_eq]
  rw [h.sum_eq, h.length_eq, this]

theorem zipWith_perm {α β γ : Type} (f : α → β → γ) {a a' : List α} {b b' : List β} (h : (a'.zip b').Perm (a.zip b)) :
    (List.zipWith f a' b').Perm (List.zipWith f a b) := by
  rw [← List.map_uncurry_zip_eq_zipWith, ← List.map_uncurry_zip_eq_zipWith]
  exact h.map _

theorem elmError_perm (cls : Option String) (wc : Option (List (Option K))) {T Y T' Y' : Mat K} (hN : T.nrows = Y.nrows)
    (hN' : T'.nrows = Y'.nrows) (hT : T'.cols = T.cols) (hY : Y'.cols = Y.cols)
    (h : (T'.rows.zip Y'.rows).Perm (T.rows.zip Y.rows)) : elmError cls wc T' Y' = elmError cls wc T Y := by
  have e1 : mean? ((misses T' Y').map (b2k (K := K))) = mean? ((misses T Y).map b2k) := mean_perm ((zipWith_perm _ h).map _)
  have e2 : ∀ i, mean? ((classMisses T' Y' i).map (b2k (K := K))) = mean? ((classMisses T Y i).map b2k) := by
    intro i
    exact mean_perm (((h.filter _).map _).map _)
  have e3 : mean? ((labelMisses T' Y').flatten.map (b2k (K := K))) = mean? ((labelMisses T Y).flatten.map b2k) :=
    mean_perm (((zipWith_perm _ h).flatten).map _)
  have e4 : mean? (sqErrs T' Y').flatten = mean? (sqErrs T Y).flatten := mean_perm (zipWith_perm _ h).flatten
  unfold elmError
  simp only [e1, e2, e3, e4, hT, hY, hN, hN', ne_eq, not_true, false_or]

theorem error_eq (fs : Files K) (e : ELM K) (T Y : Mat K) : e.error fs (.mat T) (.mat Y) =
    if T.cols = e.nnet.outputs ∧ Y.cols = e.nnet.outputs then elmError e.classification e.wc T Y else .error .assertion := by
  unfold ELM.error checkOne pyAssert
  by_cases h1 : T.cols = e.nnet.outputs <;> by_cases h2 : Y.cols = e.nnet.outputs <;> simp [h1, h2, pure, Except.pure, bind, Except.bind]

theorem confusion_eq (fs : Files K) (e : ELM K) (T Y : Mat K) : e.confusion fs (.mat T) (.mat Y) =
    if T.cols = e.nnet.outputs ∧ Y.cols = e.nnet.outputs then e.confusionM T Y else .error .assertion := by
  unfold ELM.confusion ELM.confusionM checkOne pyAssert
  by_cases h1 : T.cols = e.nnet.outputs <;> by_cases h2 : Y.cols = e.nnet.outputs <;>
    by_cases h3 : e.classification ∈ [some "c", some "wc", some "ml"] <;> simp only [h1, h2, h3, pure, Except.pure, bind, Except.bind] <;> simp

theorem confLoop_WF (count : List (List K) → List (List K) → Nat → Nat → Nat) (batch : Int) (C : Nat) (T Y : Mat K) (bs : List Nat)
    (conf : Mat K) (h : conf.WF) : (confLoop count batch C T Y bs conf).WF := by
  induction bs generalizing conf with
  | nil => exact h
  | cons b bs ih => exact ih _ (Mat.add_WF _ _)

/-- The loop of the confusion matrix depends on the pairs (target, prediction) only, not on their order. -/
theorem confLoop_perm (count : List (List K) → List (List K) → Nat → Nat → Nat) (q : Nat → Nat → List K × List K → Bool)
    (hq : ∀ T Y i j, count T Y i j = (T.zip Y).countP (q i j)) {batch : Int} (hb : 0 < batch) (C : Nat) {T Y T' Y' : Mat K}
    (hN : T.nrows = Y.nrows) (hN' : T'.nrows = Y'.nrows) (h : (T'.rows.zip Y'.rows).Perm (T.rows.zip Y.rows)) :
    confLoop count batch C T' Y' (List.range (ceilDiv T'.nrows batch).toNat) (Mat.zeros C C) =
      confLoop count batch C T Y (List.range (ceilDiv T.nrows batch).toNat) (Mat.zeros C C) := by
  have hz : (Mat.zeros C C : Mat K).nrows = C := by simp [Mat.zeros, Mat.ofFn, Mat.nrows]
  have hw : (Mat.zeros C C : Mat K).WF := Mat.ofFn_WF _ _ _
  obtain ⟨a1, a2, a3⟩ := confLoop_get count batch C T Y (List.range (ceilDiv T.nrows batch).toNat) (Mat.zeros C C) hz rfl
  obtain ⟨b1, b2, b3⟩ := confLoop_get count batch C T' Y' (List.range (ceilDiv T'.nrows batch).toNat) (Mat.zeros C C) hz rfl
  refine Mat.ext_get (confLoop_WF _ _ _ _ _ _ _ hw) (confLoop_WF _ _ _ _ _ _ _ hw) (by rw [a1, b1]) (by rw [a2, b2]) ?_
  intro i j hi hj
  rw [b1] at hi
  rw [b2] at hj
  rw [a3 i j hi hj, b3 i j hi hj]
  simp only [hq]
  rw [slices_count hb hN, slices_count hb hN', h.countP_eq]

theorem toNat_ceilDiv_nonpos (n : Nat) {b : Int} (h : ¬ 0 < b) : (ceilDiv n b).toNat = 0 := by
  unfold ceilDiv
  have : 0 ≤ (-(n : Int)).fdiv b := Int.fdiv_nonneg_of_nonpos_of_nonpos (by omega) (by omega)
  omega

/-- C76.  Reordering the samples (targets and predictions together) changes neither the error nor the confusion matrix, for every
kind of problem, every batch size, and also when the call raises. -/
theorem C76_sample_order (fs : Files K) (e : ELM K) (T Y T' Y' : Mat K) (hN : T.nrows = Y.nrows) (hN' : T'.nrows = Y'.nrows)
    (hT : T'.cols = T.cols) (hY : Y'.cols = Y.cols) (h : (T'.rows.zip Y'.rows).Perm (T.rows.zip Y.rows)) :
    e.error fs (.mat T') (.mat Y') = e.error fs (.mat T) (.mat Y) ∧
      e.confusion fs (.mat T') (.mat Y') = e.confusion fs (.mat T) (.mat Y) := by
  have hr : T'.nrows = T.nrows := by
    have := h.length_eq
    simp only [List.length_zip] at this
    unfold Mat.nrows at *
    omega
  constructor
  · rw [error_eq, error_eq, hT, hY, elmError_perm e.classification e.wc hN hN' hT hY h]
  · rw [confusion_eq, confusion_eq, hT, hY]
    congr 1
    unfold ELM.confusionM
    have hl : confLoop (if e.classification = some "ml" then confBatchML else confBatch (K := K)) e.batch e.nnet.outputs T' Y'
          (List.range (ceilDiv T'.nrows e.batch).toNat) (Mat.zeros e.nnet.outputs e.nnet.outputs) =
        confLoop (if e.classification = some "ml" then confBatchML else confBatch (K := K)) e.batch e.nnet.outputs T Y
          (List.range (ceilDiv T.nrows e.batch).toNat) (Mat.zeros e.nnet.outputs e.nnet.outputs) := by
      by_cases hb : 0 < e.batch
      · by_cases hml : e.classification = some "ml"
        · rw [if_pos hml]
          exact confLoop_perm _ (fun i j p => decide (1 / 2 < p.1.getD i 0 ∧ 1 / 2 < p.2.getD j 0))
            (fun T Y i j => length_filter_countP _ _) hb _ hN hN' h
        · rw [if_neg hml]
          exact confLoop_perm _ (fun i j p => decide (argmax p.1 = i ∧ argmax p.2 = j)) (fun T Y i j => length_filter_countP _ _) hb _ hN hN' h
      · rw [toNat_ceilDiv_nonpos _ hb, toNat_ceilDiv_nonpos _ hb]
        rfl
    simp only [hl, ← hN, ← hN', lt_self_iff_false]

example : (exModel 2 2 (some "c") none).error (fun _ => none) (.mat ⟨2, [[0, 1], [1, 0], [0, 1]]⟩) (.mat ⟨2, [[1, 2], [3, 2], [5, 4]]⟩)
    = (exModel 2 2 (some "c") none).error (fun _ => none) (.mat ⟨2, [[1, 0], [0, 1], [0, 1]]⟩) (.mat ⟨2, [[3, 2], [5, 4], [1, 2]]⟩) := by
  refine (C76_sample_order (K := ℚ) (fun _ => none) (exModel 2 2 (some "c") none) ⟨2, [[1, 0], [0, 1], [0, 1]]⟩ ⟨2, [[3, 2], [5, 4], [1, 2]]⟩
    ⟨2, [[0, 1], [1, 0], [0, 1]]⟩ ⟨2, [[1, 2], [3, 2], [5, 4]]⟩ ?_ ?_ rfl rfl ?_).1 <;> decide +kernel

/-! ## C77 -/

theorem untied_firstMax {r r' : List K} {π : Equiv.Perm Nat} (hl : r'.length = r.length) (hπ : ∀ j, π j < r.length ↔ j < r.length)
    (h : ∀ j < r.length, r'.getD (π j) 0 = r.getD j 0) (hu : Untied r) (k : Nat) : FirstMax r' (π k) ↔ FirstMax r k := by
  have hinv : ∀ j < r.length, π.symm j < r.length := by
    intro j hj
    rw [← hπ, Equiv.apply_symm_apply]; exact hj
  obtain ⟨m, hm, hmax⟩ := hu
  have hm1 : ∀ k, FirstMax r k ↔ k = m := by
    intro k
    constructor
    · rintro ⟨a, b, c⟩
      by_contra hne
      exact absurd (b m hm) (not_le.2 (hmax k a hne))
    · rintro rfl
      refine ⟨hm, fun j hj => ?_, fun j hj => ?_⟩
      · rcases eq_or_ne j k with rfl | hne
        · exact le_rfl
        · exact (hmax j hj hne).le
      · exact hmax j (by omega) (by omega)
  have hmax' : ∀ j < r.length, j ≠ π m → r'.getD j 0 < r'.getD (π m) 0 := by
    intro j hj hne
    have h1 := h (π.symm j) (hinv j hj)
    rw [Equiv.apply_symm_apply] at h1
    rw [h1, h m hm]
    exact hmax _ (hinv j hj) (fun he => hne (by rw [← he, Equiv.apply_symm_apply]))
  rw [hm1]
  constructor
  · rintro ⟨a, b, c⟩
    by_contra hne
    rw [hl] at a b
    exact absurd (b (π m) ((hπ m).2 hm)) (not_le.2 (hmax' _ a (fun he => hne (π.injective he))))
  · rintro rfl
    refine ⟨by rw [hl]; exact (hπ k).2 hm, fun j hj => ?_, fun j hj => ?_⟩
    · rcases eq_or_ne j (π k) with rfl | hne
      · exact le_rfl
      · exact (hmax' j (by omega) hne).le
    · have := (hπ k).2 hm
      exact hmax' j (by omega) (by omega)

theorem renumbered_sample {π : Equiv.Perm Nat} {M M' : Mat K} (hM : M.WF) (hM' : M'.WF) (h : Renumbered π M M') {n : Nat} (hn : n < M.nrows)
    (hu : Untied (sample M n)) (k : Nat) : FirstMax (sample M' n) (π k) ↔ FirstMax (sample M n) k := by
  have l1 := sample_length hM hn
  have l2 := sample_length hM' (h.rows ▸ hn)
  apply untied_firstMax
  · rw [l1, l2, h.cols]
  · rw [l1]; exact h.perm
  · intro j hj
    rw [l1] at hj
    exact h.entry n j hn hj
  · exact hu

/-- Sums over the classes do not depend on their numbering. -/
theorem sum_renumber {π : Equiv.Perm Nat} {C : Nat} (hπ : ∀ j, π j < C ↔ j < C) (f : Nat → K) :
    ∑ j ∈ Finset.range C, f (π j) = ∑ j ∈ Finset.range C, f j := by
  apply Finset.sum_bij (fun j _ => π j)
  · intro j hj; rw [Finset.mem_range] at hj ⊢; exact (hπ j).2 hj
  · intro a _ b _ hab; exact π.injective hab
  · intro b hb
    refine ⟨π.symm b, ?_, by simp⟩
    rw [Finset.mem_range] at hb ⊢
    rw [← hπ, Equiv.apply_symm_apply]; exact hb
  · intro j _; rfl

theorem classErr_renumber {π : Equiv.Perm Nat} {T Y T' Y' : Mat K} (hY : Y.WF) (hY' : Y'.WF) (hN : T.nrows = Y.nrows)
    (hπT : Renumbered π T T') (hπY : Renumbered π Y Y') (hu : ∀ n < Y.nrows, Untied (sample Y n)) {i : Nat} (hi : i < T.cols) :
    classErr T' Y' (π i) = classErr T Y i := by
  unfold classErr
  rw [hπT.rows]
  congr 2
  · apply countSamples_congr
    intro n hn
    rw [hπT.entry n i hn hi, renumbered_sample hY hY' hπY (hN ▸ hn) (hu n (hN ▸ hn))]
  · apply countSamples_congr
    intro n hn
    rw [hπT.entry n i hn hi]

/-- C77 for classification.  Renumbering the classes (columns of targets and predictions alike) renumbers the confusion matrix and
leaves the error unchanged, provided no row of targets or predictions has its largest value twice. -/
theorem C77_classes_partial (fs : Files K) (e : ELM K) (T Y T' Y' : Mat K) (π : Equiv.Perm Nat) (h : Fits e T Y) (hb : 0 < e.batch)
    (hN : 0 < T.nrows) (hT' : T'.WF) (hY' : Y'.WF) (hπT : Renumbered π T T') (hπY : Renumbered π Y Y')
    (hc : e.classification = some "c") (hu : ∀ n < T.nrows, Untied (sample T n) ∧ Untied (sample Y n)) :
    e.error fs (.mat T') (.mat Y') = e.error fs (.mat T) (.mat Y) ∧
      ∃ C C', e.confusion fs (.mat T) (.mat Y) = .ok C ∧ e.confusion fs (.mat T') (.mat Y') = .ok C' ∧
        ∀ i j, i < e.nnet.outputs → j < e.nnet.outputs → C'.get (π i) (π j) = C.get i j := by
  have h' : Fits e T' Y' := ⟨hT', hY', by rw [hπT.rows, hπY.rows, h.rows], by rw [hπT.cols, h.colsT], by rw [hπY.cols, h.colsY], h.pos⟩
  obtain ⟨v, C, v1, c1, _, _, _, v2⟩ := C27_classification_error fs e T Y h hb hN hc
  obtain ⟨v', C', v1', c1', _, _, _, v2'⟩ := C27_classification_error fs e T' Y' h' hb (by rw [hπT.rows]; exact hN) hc
  obtain ⟨D, d1, _, _, d2, _⟩ := C25_confusion fs e T Y h hb (Or.inl hc)
  obtain ⟨D', d1', _, _, d2', _⟩ := C25_confusion fs e T' Y' h' hb (Or.inl hc)
  rw [c1] at d1; injection d1 with d1; subst d1
  rw [c1'] at d1'; injection d1' with d1'; subst d1'
  have hperm : ∀ j, π j < e.nnet.outputs ↔ j < e.nnet.outputs := by rw [← h.colsT]; exact hπT.perm
  have key : ∀ i j, i < e.nnet.outputs → j < e.nnet.outputs → C'.get (π i) (π j) = C.get i j := by
    intro i j hi hj
    rw [d2 i j hi hj, d2' _ _ ((hperm i).2 hi) ((hperm j).2 hj), hπT.rows]
    congr 1
    apply countSamples_congr
    intro n hn
    rw [renumbered_sample h.wfT hT' hπT hn (hu n hn).1, renumbered_sample h.wfY hY' hπY (h.rows ▸ hn) (hu n hn).2]
  refine ⟨?_, C, C', c1, c1', key⟩
  rw [v1, v1', v2, v2', hπT.rows, ← sum_renumber hperm (fun i => C'.get i i),
    Finset.sum_congr rfl (fun i hi => key i i (Finset.mem_range.1 hi) (Finset.mem_range.1 hi))]

/-- C77 for weighted classification: with the class weights renumbered as well, the error is unchanged (no ties in the predictions). -/
theorem C77_weighted_partial (fs : Files K) (e e' : ELM K) (T Y T' Y' : Mat K) (π : Equiv.Perm Nat) (ws ws' : List K) (h : Fits e T Y)
    (hT' : T'.WF) (hY' : Y'.WF) (hπT : Renumbered π T T') (hπY : Renumbered π Y Y')
    (hc : e.classification = some "wc") (hc' : e'.classification = some "wc") (ho : e'.nnet.outputs = e.nnet.outputs)
    (hw : e.wc = some (ws.map some)) (hw' : e'.wc = some (ws'.map some)) (hl : ws.length = e.nnet.outputs) (hl' : ws'.length = e.nnet.outputs)
    (hπw : ∀ i < e.nnet.outputs, ws'.getD (π i) 0 = ws.getD i 0)
    (h0 : ∀ w ∈ ws, 0 ≤ w) (h1 : ∃ w ∈ ws, w ≠ 0) (h0' : ∀ w ∈ ws', 0 ≤ w) (h1' : ∃ w ∈ ws', w ≠ 0)
    (hu : ∀ n < Y.nrows, Untied (sample Y n)) :
    e'.error fs (.mat T') (.mat Y') = e.error fs (.mat T) (.mat Y) := by
  have h' : Fits e' T' Y' := ⟨hT', hY', by rw [hπT.rows, hπY.rows, h.rows], by rw [hπT.cols, h.colsT, ho], by rw [hπY.cols, h.colsY, ho],
    by rw [ho]; exact h.pos⟩
  obtain ⟨v, v1, v2, _⟩ := C29_weighted_error fs e T Y ws h hc hw hl h0 h1
  obtain ⟨v', v1', v2', _⟩ := C29_weighted_error fs e' T' Y' ws' h' hc' hw' (by rw [hl', ho]) h0' h1'
  have hw : ∀ i ∈ Finset.range T.cols, ws'.getD (π i) 0 = ws.getD i 0 := by
    intro i hi
    exact hπw i (by rw [← h.colsT]; exact Finset.mem_range.1 hi)
  rw [v1, v1', v2, v2', hπT.cols]
  rw [← sum_renumber hπT.perm (fun i => classErr T' Y' i * ws'.getD i 0), ← sum_renumber hπT.perm (fun i => ws'.getD i 0),
    Finset.sum_congr rfl hw]
  congr 2
  apply Finset.sum_congr rfl
  intro i hi
  rw [classErr_renumber h.wfY hY' h.rows hπT hπY hu (Finset.mem_range.1 hi), hw i hi]

/-- C77 for multi-label classification and regression: no condition on ties. -/
theorem C77_labels (fs : Files K) (e : ELM K) (T Y T' Y' : Mat K) (π : Equiv.Perm Nat) (h : Fits e T Y)
    (hN : 0 < T.nrows) (hT' : T'.WF) (hY' : Y'.WF) (hπT : Renumbered π T T') (hπY : Renumbered π Y Y')
    (hc : e.classification = some "ml" ∨ e.classification = none) :
    e.error fs (.mat T') (.mat Y') = e.error fs (.mat T) (.mat Y) := by
  classical
  have h' : Fits e T' Y' := ⟨hT', hY', by rw [hπT.rows, hπY.rows, h.rows], by rw [hπT.cols, h.colsT], by rw [hπY.cols, h.colsY], h.pos⟩
  have hN' : 0 < T'.nrows := by rw [hπT.rows]; exact hN
  have hYT : Y.cols = T.cols := by rw [h.colsT, h.colsY]
  rcases hc with hc | hc
  · obtain ⟨v, v1, v2, _⟩ := C28_multilabel_error fs e T Y h hN hc
    obtain ⟨v', v1', v2', _⟩ := C28_multilabel_error fs e T' Y' h' hN' hc
    rw [v1, v1', v2, v2', hπT.rows, hπT.cols]
    congr 2
    rw [countLabels_sum, countLabels_sum]
    apply Finset.sum_congr rfl
    intro n hn
    rw [← sum_renumber hπT.perm]
    apply Finset.sum_congr rfl
    intro j hj
    rw [Finset.mem_range] at hn hj
    rw [hπT.entry n j hn hj, hπY.entry n j (h.rows ▸ hn) (hYT ▸ hj)]
  · obtain ⟨v, v1, v2, _⟩ := C28_regression_error fs e T Y h hN hc
    obtain ⟨v', v1', v2', _⟩ := C28_regression_error fs e T' Y' h' hN' hc
    rw [v1, v1', v2, v2', hπT.rows, hπT.cols]
    congr 2
    apply Finset.sum_congr rfl
    intro n hn
    rw [← sum_renumber hπT.perm]
    apply Finset.sum_congr rfl
    intro j hj
    rw [Finset.mem_range] at hn hj
    rw [hπT.entry n j hn hj, hπY.entry n j (h.rows ▸ hn) (hYT ▸ hj)]

/-- With a tie in the predictions the numbering of the classes does change the error. -/
theorem C77_ties_refuted : ∃ (e : ELM ℚ) (T Y T' Y' : Mat ℚ) (π : Equiv.Perm Nat), Fits e T Y ∧ Fits e T' Y' ∧ e.classification = some "c" ∧
    Renumbered π T T' ∧ Renumbered π Y Y' ∧
    e.error (fun _ => none) (.mat T) (.mat Y) = .ok 0 ∧ e.error (fun _ => none) (.mat T') (.mat Y') = .ok 1 := by
  refine ⟨exModel 2 2 (some "c") none, ⟨2, [[1, 0]]⟩, ⟨2, [[1, 1]]⟩, ⟨2, [[0, 1]]⟩, ⟨2, [[1, 1]]⟩, Equiv.swap 0 1, ?_, ?_, rfl, ?_, ?_, ?_, ?_⟩
  · constructor <;> first | decide +kernel | (intro r hr; simp at hr; subst hr; rfl)
  · constructor <;> first | decide +kernel | (intro r hr; simp at hr; subst hr; rfl)
  · refine ⟨rfl, rfl, ?_, ?_⟩
    · intro j
      rcases j with _ | _ | j
      · decide
      · decide
      · rw [Equiv.swap_apply_of_ne_of_ne (by omega) (by omega)]
    · intro n j hn hj
      have : n = 0 := by simp [Mat.nrows] at hn; exact hn
      subst this
      have : j = 0 ∨ j = 1 := by simp at hj; omega
      rcases this with rfl | rfl <;> decide +kernel
  · refine ⟨rfl, rfl, ?_, ?_⟩
    · intro j
      rcases j with _ | _ | j
      · decide
      · decide
      · rw [Equiv.swap_apply_of_ne_of_ne (by omega) (by omega)]
    · intro n j hn hj
      have : n = 0 := by simp [Mat.nrows] at hn; exact hn
      subst this
      have : j = 0 ∨ j = 1 := by simp at hj; omega
      rcases this with rfl | rfl <;> decide +kernel
  · decide +kernel
  · decide +kernel

theorem swap_lt (j : Nat) : Equiv.swap 0 1 j < 2 ↔ j < 2 := by
  rcases j with _ | _ | j
  · decide
  · decide
  · rw [Equiv.swap_apply_of_ne_of_ne (by omega) (by omega)]

/-- The hypotheses of C77 are met: three samples, the two classes exchanged, no ties; error 1/3 before and after. -/
example : Renumbered (K := ℚ) (Equiv.swap 0 1) ⟨2, [[3, 2], [5, 4], [1, 2]]⟩ ⟨2, [[2, 3], [4, 5], [2, 1]]⟩ ∧
    (∀ n < 3, Untied (sample (⟨2, [[3, 2], [5, 4], [1, 2]]⟩ : Mat ℚ) n)) ∧
    (exModel 2 2 (some "c") none).error (fun _ => none) (.mat ⟨2, [[0, 1], [1, 0], [1, 0]]⟩) (.mat ⟨2, [[2, 3], [4, 5], [2, 1]]⟩) = .ok (1 / 3) := by
  refine ⟨⟨rfl, rfl, swap_lt, ?_⟩, ?_, by decide +kernel⟩
  · intro n j hn hj
    have hn : n < 3 := hn
    have hj : j < 2 := hj
    revert j; revert n
    decide +kernel
  · unfold Untied
    decide +kernel

/-! ## C78 -/

theorem countSamples_add (N M : Nat) (p : Nat → Prop) : countSamples (N + M) p = countSamples N p + countSamples M fun n => p (N + n) := by
  classical
  rw [countSamples_eq, countSamples_eq, countSamples_eq, Finset.card_filter, Finset.card_filter, Finset.card_filter, Finset.sum_range_add]

theorem sample_vstack_left {A B : Mat K} {n : Nat} (h : n < A.nrows) : sample (vstack A B) n = sample A n := by
  unfold sample vstack
  exact List.getD_append _ _ _ _ h

theorem sample_vstack_right (A B : Mat K) (n : Nat) : sample (vstack A B) (A.nrows + n) = sample B n := by
  unfold sample vstack
  rw [List.getD_append_right _ _ _ _ (by unfold Mat.nrows; omega)]
  congr 1
  unfold Mat.nrows; omega

theorem nrows_vstack (A B : Mat K) : (vstack A B).nrows = A.nrows + B.nrows := by
  unfold vstack Mat.nrows; simp

theorem fits_vstack {e : ELM K} {T Y T' Y' : Mat K} (h : Fits e T Y) (h' : Fits e T' Y') : Fits e (vstack T T') (vstack Y Y') := by
  refine ⟨?_, ?_, by rw [nrows_vstack, nrows_vstack, h.rows, h'.rows], h.colsT, h.colsY, h.pos⟩
  · intro r hr
    rcases List.mem_append.1 hr with hr | hr
    · exact h.wfT r hr
    · rw [h'.wfT r hr, h'.colsT]; exact h.colsT.symm
  · intro r hr
    rcases List.mem_append.1 hr with hr | hr
    · exact h.wfY r hr
    · rw [h'.wfY r hr, h'.colsY]; exact h.colsY.symm

theorem count_vstack {T Y T' Y' : Mat K} (hN : T.nrows = Y.nrows) (p : List K → List K → Prop) :
    countSamples (vstack T T').nrows (fun n => p (sample (vstack T T') n) (sample (vstack Y Y') n)) =
      countSamples T.nrows (fun n => p (sample T n) (sample Y n)) + countSamples T'.nrows (fun n => p (sample T' n) (sample Y' n)) := by
  rw [nrows_vstack, countSamples_add]
  congr 1
  · apply countSamples_congr
    intro n hn
    rw [sample_vstack_left hn, sample_vstack_left (hN ▸ hn)]
  · apply countSamples_congr
    intro n _
    rw [sample_vstack_right, hN, sample_vstack_right]

/-- C78, confusion matrices.  The confusion matrix of two data sets together is the sum of their confusion matrices. -/
theorem C78_confusion (fs : Files K) (e : ELM K) (T Y T' Y' : Mat K) (h : Fits e T Y) (h' : Fits e T' Y') (hb : 0 < e.batch)
    (hc : e.classification = some "c" ∨ e.classification = some "wc" ∨ e.classification = some "ml") :
    ∃ C C₁ C₂, e.confusion fs (.mat (vstack T T')) (.mat (vstack Y Y')) = .ok C ∧ e.confusion fs (.mat T) (.mat Y) = .ok C₁ ∧
      e.confusion fs (.mat T') (.mat Y') = .ok C₂ ∧
      ∀ i j, i < e.nnet.outputs → j < e.nnet.outputs → C.get i j = C₁.get i j + C₂.get i j := by
  by_cases hml : e.classification = some "ml"
  · obtain ⟨C, c1, _, _, c2⟩ := C26_confusion_ml fs e _ _ (fits_vstack h h') hb hml
    obtain ⟨D, d1, _, _, d2⟩ := C26_confusion_ml fs e _ _ h hb hml
    obtain ⟨F, f1, _, _, f2⟩ := C26_confusion_ml fs e _ _ h' hb hml
    refine ⟨C, D, F, c1, d1, f1, fun i j hi hj => ?_⟩
    rw [c2 i j hi hj, d2 i j hi hj, f2 i j hi hj, ← Nat.cast_add]
    congr 1
    exact count_vstack h.rows (fun a b => 1 / 2 < a.getD i 0 ∧ 1 / 2 < b.getD j 0)
  · have hcw : e.classification = some "c" ∨ e.classification = some "wc" := by tauto
    obtain ⟨C, c1, _, _, c2, _⟩ := C25_confusion fs e _ _ (fits_vstack h h') hb hcw
    obtain ⟨D, d1, _, _, d2, _⟩ := C25_confusion fs e _ _ h hb hcw
    obtain ⟨F, f1, _, _, f2, _⟩ := C25_confusion fs e _ _ h' hb hcw
    refine ⟨C, D, F, c1, d1, f1, fun i j hi hj => ?_⟩
    rw [c2 i j hi hj, d2 i j hi hj, f2 i j hi hj, ← Nat.cast_add]
    congr 1
    exact count_vstack h.rows (fun a b => FirstMax a i ∧ FirstMax b j)

theorem entry_vstack_sum (f : K → K → K) {T Y T' Y' : Mat K} (hN : T.nrows = Y.nrows) (C : Nat) :
    ∑ n ∈ Finset.range (vstack T T').nrows, ∑ j ∈ Finset.range C, f ((vstack T T').get n j) ((vstack Y Y').get n j) =
      ∑ n ∈ Finset.range T.nrows, ∑ j ∈ Finset.range C, f (T.get n j) (Y.get n j) +
        ∑ n ∈ Finset.range T'.nrows, ∑ j ∈ Finset.range C, f (T'.get n j) (Y'.get n j) := by
  have hg : ∀ (M : Mat K) n j, M.get n j = (sample M n).getD j 0 := fun _ _ _ => rfl
  rw [nrows_vstack, Finset.sum_range_add]
  congr 1
  · apply Finset.sum_congr rfl
    intro n hn
    rw [Finset.mem_range] at hn
    apply Finset.sum_congr rfl
    intro j _
    simp only [hg, sample_vstack_left hn, sample_vstack_left (hN ▸ hn : n < Y.nrows)]
  · apply Finset.sum_congr rfl
    intro n _
    apply Finset.sum_congr rfl
    intro j _
    simp only [hg, sample_vstack_right]
    rw [hN, sample_vstack_right]

/-- C78, errors.  For classification, multi-label classification and regression, the error on two data sets together is the average of
the two errors weighted by the numbers of samples. -/
theorem C78_error_partial (fs : Files K) (e : ELM K) (T Y T' Y' : Mat K) (h : Fits e T Y) (h' : Fits e T' Y') (hb : 0 < e.batch)
    (hN : 0 < T.nrows) (hN' : 0 < T'.nrows)
    (hc : e.classification = some "c" ∨ e.classification = some "ml" ∨ e.classification = none) :
    ∃ v v₁ v₂, e.error fs (.mat (vstack T T')) (.mat (vstack Y Y')) = .ok v ∧ e.error fs (.mat T) (.mat Y) = .ok v₁ ∧
      e.error fs (.mat T') (.mat Y') = .ok v₂ ∧ v = (T.nrows * v₁ + T'.nrows * v₂) / (T.nrows + T'.nrows) := by
  classical
  have hf := fits_vstack h h'
  have hn : 0 < (vstack T T').nrows := by rw [nrows_vstack]; omega
  have hC : 0 < T.cols := by rw [h.colsT]; exact h.pos
  have hCC : T'.cols = T.cols := by rw [h.colsT, h'.colsT]
  have hVC : (vstack T T').cols = T.cols := rfl
  have p1 : (0 : K) < T.nrows := by exact_mod_cast hN
  have p2 : (0 : K) < T'.nrows := by exact_mod_cast hN'
  have p3 : (0 : K) < T.cols := by exact_mod_cast hC
  rcases hc with hc | hc | hc
  · obtain ⟨v, _, v1, _, v2, _⟩ := C27_classification_error fs e _ _ hf hb hn hc
    obtain ⟨a, _, a1, _, a2, _⟩ := C27_classification_error fs e _ _ h hb hN hc
    obtain ⟨b, _, b1, _, b2, _⟩ := C27_classification_error fs e _ _ h' hb hN' hc
    refine ⟨v, a, b, v1, a1, b1, ?_⟩
    have := count_vstack (T' := T') (Y' := Y') h.rows (fun a b => ∃ i j, FirstMax a i ∧ FirstMax b j ∧ i ≠ j)
    rw [v2, a2, b2]
    unfold Misclassified
    rw [this, nrows_vstack]
    push_cast
    field_simp
  · obtain ⟨v, v1, v2, _⟩ := C28_multilabel_error fs e _ _ hf hn hc
    obtain ⟨a, a1, a2, _⟩ := C28_multilabel_error fs e _ _ h hN hc
    obtain ⟨b, b1, b2, _⟩ := C28_multilabel_error fs e _ _ h' hN' hc
    refine ⟨v, a, b, v1, a1, b1, ?_⟩
    rw [v2, a2, b2, countLabels_sum, countLabels_sum, countLabels_sum, hCC, hVC,
      entry_vstack_sum (fun t y => if ¬ (1 / 2 < y ↔ 1 / 2 < t) then (1 : K) else 0) h.rows T.cols, nrows_vstack]
    push_cast
    field_simp
  · obtain ⟨v, v1, v2, _⟩ := C28_regression_error fs e _ _ hf hn hc
    obtain ⟨a, a1, a2, _⟩ := C28_regression_error fs e _ _ h hN hc
    obtain ⟨b, b1, b2, _⟩ := C28_regression_error fs e _ _ h' hN' hc
    refine ⟨v, a, b, v1, a1, b1, ?_⟩
    rw [v2, a2, b2, hCC, hVC, entry_vstack_sum (fun t y => (y - t) ^ 2) h.rows T.cols, nrows_vstack]
    push_cast
    field_simp

/-- The weighted classification error has no such rule: two pairs of data sets with the same sizes and the same errors can have
different errors when joined. -/
theorem C78_weighted_refuted : ∃ (e : ELM ℚ) (T Y T₁ Y₁ T₂ Y₂ : Mat ℚ), e.classification = some "wc" ∧ Fits e T Y ∧ Fits e T₁ Y₁ ∧ Fits e T₂ Y₂ ∧
    T₁.nrows = T₂.nrows ∧ e.error (fun _ => none) (.mat T₁) (.mat Y₁) = e.error (fun _ => none) (.mat T₂) (.mat Y₂) ∧
    e.error (fun _ => none) (.mat (vstack T T₁)) (.mat (vstack Y Y₁)) = .ok (1 / 2) ∧
    e.error (fun _ => none) (.mat (vstack T T₂)) (.mat (vstack Y Y₂)) = .ok (1 / 4) := by
  refine ⟨exModel 2 2 (some "wc") (some [some 1, some 1]), ⟨2, [[1, 0]]⟩, ⟨2, [[1, 0]]⟩, ⟨2, [[0, 1]]⟩, ⟨2, [[1, 0]]⟩, ⟨2, [[1, 0]]⟩, ⟨2, [[0, 1]]⟩,
    rfl, ?_, ?_, ?_, rfl, ?_, ?_, ?_⟩
  · constructor <;> first | decide +kernel | (intro r hr; simp at hr; subst hr; rfl)
  · constructor <;> first | decide +kernel | (intro r hr; simp at hr; subst hr; rfl)
  · constructor <;> first | decide +kernel | (intro r hr; simp at hr; subst hr; rfl)
  · decide +kernel
  · decide +kernel
  · decide +kernel

example : (exModel 2 2 none none).error (fun _ => none) (.mat (vstack ⟨2, [[1, 0]]⟩ ⟨2, [[0, 1], [2, 2]]⟩)) (.mat (vstack ⟨2, [[3, 0]]⟩ ⟨2, [[0, 1], [2, 3]]⟩))
      = .ok (5 / 6) ∧
    (exModel 2 2 none none).error (fun _ => none) (.mat ⟨2, [[1, 0]]⟩) (.mat ⟨2, [[3, 0]]⟩) = .ok 2 ∧
    (exModel 2 2 none none).error (fun _ => none) (.mat ⟨2, [[0, 1], [2, 2]]⟩) (.mat ⟨2, [[0, 1], [2, 3]]⟩) = .ok (1 / 4) := by
  decide +kernel

end Hpelm.Props
