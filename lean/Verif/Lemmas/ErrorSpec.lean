import Verif.Props.C25_C29_Errors

/-!
# The error of the model is the error of the specification
-/

namespace Hpelm
open Hpelm Spec Props
variable {K : Type} [Field K] [LinearOrder K] [IsStrictOrderedRing K]
set_option linter.unusedSectionVars false

theorem mapM_id_eq {wc : List (Option K)} {ws : List K} (h : wc.mapM id = some ws) : wc = ws.map some := by
  induction wc generalizing ws with
  | nil => simp at h; simp [h]
  | cons w wc ih =>
    rw [List.mapM_cons] at h
    cases hw : w with
    | none => rw [hw] at h; cases h
    | some v =>
      rw [hw] at h
      cases hr : wc.mapM id with
      | none => rw [hr] at h; cases h
      | some rs =>
        rw [hr] at h
        simp at h
        rw [← h, ih hr]; rfl

theorem zipWith_range_sum' (n : Nat) (f : Nat → K) (ws : List K) :
    (List.zipWith (· * ·) ((List.range n).map f) ws).sum = ∑ i ∈ Finset.range n, f i * ws.getD i 0 := by
  induction n generalizing f ws with
  | zero => simp
  | succ n ih =>
    cases ws with
    | nil => simp
    | cons w ws =>
      rw [List.range_succ_eq_map, List.map_cons, List.zipWith_cons_cons, List.sum_cons, Finset.sum_range_succ', List.map_map, ih]
      simp [add_comm]

theorem notNan_mean {l : List K} {v : K} : notNan (mean? l) = .ok v ↔ l ≠ [] ∧ v = l.sum / (l.length : K) := by
  by_cases h : l = []
  · subst h; constructor
    · intro h; cases h
    · rintro ⟨h, _⟩; exact absurd rfl h
  · rw [mean_some h]; exact ⟨fun h' => ⟨h, h'⟩, fun h' => h'.2⟩

theorem flat_ne (r c : Nat) (f : Nat → Nat → K) : ((List.range r).flatMap fun n => (List.range c).map (f n)) ≠ [] ↔ 0 < r ∧ 0 < c := by
  rw [← List.length_pos_iff, flatten_length]
  simp [Nat.pos_iff_ne_zero, Nat.mul_eq_zero, not_or]

/-- The number computed by the model, when there is one, is the error of the specification; there is one as soon as there are samples and
outputs of matching shapes (and, for weighted classification, finite weights with a non-zero sum). -/
theorem elmError_iff {cls : Option String} {wc : Option (List (Option K))} {T Y : Mat K} (hT : T.WF) (hY : Y.WF) {v : K} :
    elmError cls wc T Y = .ok v ↔ T.nrows = Y.nrows ∧ T.cols = Y.cols ∧ (cls ≠ some "wc" → 0 < T.nrows) ∧
      (cls ≠ some "wc" → cls ≠ some "c" → 0 < T.cols) ∧ IsError cls wc T Y v := by
  unfold elmError
  by_cases hs : T.nrows ≠ Y.nrows ∨ T.cols ≠ Y.cols
  · rw [if_pos hs]
    constructor
    · intro h; cases h
    · rintro ⟨h1, h2, _⟩; exact absurd hs (by simp [h1, h2])
  rw [if_neg hs]
  have hr : T.nrows = Y.nrows := by by_contra h; exact hs (Or.inl h)
  have hcc : T.cols = Y.cols := by by_contra h; exact hs (Or.inr h)
  unfold IsError
  by_cases h1 : cls = some "c"
  · rw [if_pos h1, if_pos h1, notNan_mean]
    have hlen : (misses T Y).length = T.nrows := by
      unfold misses
      have h1 : T.rows.length = Y.rows.length := hr
      simp [← h1, Mat.nrows]
    have hcnt : (misses T Y).countP id = countSamples T.nrows (Misclassified T Y) := by
      rw [misses_count, countP_zip hr]
      intro n hn
      rw [bne_iff_ne]
      rcases Nat.eq_zero_or_pos T.cols with h0 | h0
      · have e1 : sample T n = [] := List.eq_nil_of_length_eq_zero (by rw [sample_length hT hn, h0])
        have e2 : sample Y n = [] := List.eq_nil_of_length_eq_zero (by rw [sample_length hY (hr ▸ hn), ← hcc, h0])
        constructor
        · intro h
          exact absurd (by rw [e1, e2]) h
        · rintro ⟨i, j, hi, _, _⟩
          rw [e1] at hi
          exact absurd hi.1 (by simp)
      · exact missed_iff' hT hY hr h0 (hcc ▸ h0) hn
    rw [sum_b2k, hcnt, List.length_map, hlen]
    have hne : (misses T Y).map (b2k (K := K)) ≠ [] ↔ 0 < T.nrows := by
      rw [← List.length_pos_iff, List.length_map, hlen]
    rw [hne]
    simp [h1, hr, hcc]
  rw [if_neg h1, if_neg h1]
  by_cases h2 : cls = some "wc"
  · rw [if_pos h2, if_pos h2]
    have hE : ((List.range T.cols).map fun i => (mean? ((classMisses T Y i).map (b2k (K := K)))).getD 0) = (List.range T.cols).map (classErr T Y) := by
      apply List.map_congr_left
      intro i hi
      exact classErr_eq' hY hr (by have := List.mem_range.1 hi; omega) i
    simp only [hE]
    cases wc with
    | none => simp
    | some wc =>
      simp only
      unfold weightedMean
      cases hm : wc.mapM id with
      | none =>
        constructor
        · intro h; cases h
        · rintro ⟨_, _, _, _, ws, hw, _⟩
          injection hw with hw
          rw [hw, mapM_id_map] at hm
          cases hm
      | some ws =>
        have hw := mapM_id_eq hm
        simp only [zipWith_range_sum']
        by_cases h0 : ws.sum = 0
        · rw [if_pos h0]
          constructor
          · intro h; cases h
          · rintro ⟨_, _, _, _, ws', hw', hs', _⟩
            injection hw' with hw'
            rw [hw', mapM_id_map] at hm
            injection hm with hm
            exact absurd (hm ▸ h0) hs'
        · rw [if_neg h0]
          constructor
          · intro h
            injection h with h
            exact ⟨hr, hcc, fun h => absurd h2 h, fun h => absurd h2 h, ws, by rw [hw], h0, h.symm⟩
          · rintro ⟨_, _, _, _, ws', hw', hs', hv⟩
            injection hw' with hw'
            rw [hw', mapM_id_map] at hm
            injection hm with hm
            subst hm
            rw [hv]
            rfl
  rw [if_neg h2, if_neg h2]
  by_cases h3 : cls = some "ml"
  · rw [if_pos h3, if_pos h3]
    have hfl : (labelMisses T Y).flatten.map (b2k (K := K)) =
        (List.zipWith (List.zipWith fun t y => b2k ((decide (1 / 2 < y)) != (decide (1 / 2 < t)))) T.rows Y.rows).flatten := by
      unfold labelMisses
      rw [List.map_flatten, List.map_zipWith]
      congr 2
      funext t y
      rw [List.map_zipWith]
    rw [hfl, flatten_pairs _ hT hY hr hcc, notNan_mean, flat_ne, flatten_length, flatten_sum, countLabels_sum]
    have : (∑ n ∈ Finset.range T.nrows, ∑ j ∈ Finset.range T.cols, (b2k ((decide (1 / 2 < Y.get n j)) != (decide (1 / 2 < T.get n j))) : K)) =
        ∑ n ∈ Finset.range T.nrows, ∑ j ∈ Finset.range T.cols, if ¬ (1 / 2 < Y.get n j ↔ 1 / 2 < T.get n j) then (1 : K) else 0 := by
      apply Finset.sum_congr rfl
      intro n _
      apply Finset.sum_congr rfl
      intro j _
      unfold b2k
      by_cases h1 : 1 / 2 < Y.get n j <;> by_cases h2 : 1 / 2 < T.get n j <;> simp [h1, h2]
    rw [this]
    simp only [h1, h2, hr, hcc, not_false_eq_true, ne_eq, true_and, forall_const, and_assoc]
  rw [if_neg h3, if_neg h3]
  unfold sqErrs
  rw [flatten_pairs _ hT hY hr hcc, notNan_mean, flat_ne, flatten_length, flatten_sum]
  simp only [pow_two]
  simp only [h1, h2, hr, hcc, not_false_eq_true, ne_eq, true_and, forall_const, and_assoc]

theorem elmError_isError {cls : Option String} {wc : Option (List (Option K))} {T Y : Mat K} (hT : T.WF) (hY : Y.WF) {v : K}
    (h : elmError cls wc T Y = .ok v) : IsError cls wc T Y v :=
  ((elmError_iff hT hY).1 h).2.2.2.2

theorem _root_.Hpelm.Spec.IsError.unique {cls : Option String} {wc : Option (List (Option K))} {T Y : Mat K} {v v' : K} (h : IsError cls wc T Y v)
    (h' : IsError cls wc T Y v') : v = v' := by
  unfold IsError at h h'
  by_cases h1 : cls = some "c"
  · rw [if_pos h1] at h h'; rw [h, h']
  rw [if_neg h1] at h h'
  by_cases h2 : cls = some "wc"
  · rw [if_pos h2] at h h'
    obtain ⟨ws, a1, _, a2⟩ := h
    obtain ⟨ws', b1, _, b2⟩ := h'
    rw [a1] at b1
    injection b1 with b1
    have := List.map_injective_iff.2 (Option.some_injective K) b1
    subst this
    rw [a2, b2]
  rw [if_neg h2] at h h'
  by_cases h3 : cls = some "ml"
  · rw [if_pos h3] at h h'; rw [h, h']
  · rw [if_neg h3] at h h'; rw [h, h']

end Hpelm
