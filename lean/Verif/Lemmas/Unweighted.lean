import Verif.Lemmas.Press
import Verif.Lemmas.Ranking
import Verif.Lemmas.SelTotal
import Verif.Lemmas.Plain

/-!
# Unweighted training data, and neuron orders
-/

set_option linter.unusedSectionVars false

namespace Hpelm
open Finset Spec
variable {K : Type} [Field K] [LinearOrder K] [IsStrictOrderedRing K]

theorem addData_unw {env : Env K} (hx : env.Exact) {e e' : ELM K} {X T : Mat K} (hcls : e.classification ≠ some "wc") (hb : 0 < e.batch)
    (hN : X.nrows = T.nrows) (hT : T.WF) (hc : e.nnet.corr = none) (h : e.addData env X T = .ok e') :
    ∃ H S HT, 0 < X.nrows ∧ e.nnet.project env X = .ok H ∧ e' = { e with nnet := { e.nnet with corr := some (e.nnet.store S, HT) } } ∧
      H.cols = e.nnet.L.getD 0 ∧ T.cols = e.nnet.outputs ∧ IsCorr H T (fun _ => 1) e.nnet.norm S HT := by
  by_cases hn : X.nrows = 0
  · rw [addData_empty hb hn] at h; cases h
  have hn' : 0 < X.nrows := Nat.pos_of_ne_zero hn
  have ha : e.autoWc env (colSums T) = e := by unfold ELM.autoWc; rw [if_neg (fun h => hcls h.1)]
  rw [addData_wts hb hn' hN ⟨fun h => absurd h hcls, fun h => absurd h hcls⟩, ha] at h
  have hw : wts e.classification e.wc T = none := by unfold wts; rw [if_neg hcls]
  rw [hw] at h
  cases hab : e.nnet.addBatch env X T none with
  | error x => rw [hab] at h; cases h
  | ok n' =>
    rw [hab] at h
    injection h with h
    obtain ⟨H, S, HT, h1, h2, h3, h4, h5⟩ := addBatch_fresh hx hc hN hT hab
    exact ⟨H, S, HT, hn', h1, by rw [← h, h2], h3, h4, h5⟩

theorem addData_unw_total {env : Env K} {e : ELM K} {X T H : Mat K} (hcls : e.classification ≠ some "wc") (hb : 0 < e.batch)
    (hN : X.nrows = T.nrows) (hn : 0 < X.nrows) (hT : T.WF) (hc : e.nnet.corr = none) (hp : e.nnet.project env X = .ok H)
    (hL : e.nnet.L.getD 0 = H.cols) (hTc : T.cols = e.nnet.outputs) : ∃ e', e.addData env X T = .ok e' := by
  have ha : e.autoWc env (colSums T) = e := by unfold ELM.autoWc; rw [if_neg (fun h => hcls h.1)]
  have hw : wts e.classification e.wc T = none := by unfold wts; rw [if_neg hcls]
  rw [addData_wts hb hn hN ⟨fun h => absurd h hcls, fun h => absurd h hcls⟩, ha, hw]
  obtain ⟨S, HT, h1, _⟩ := addBatch_total (n := e.nnet) hc hp hL.symm hN hTc hT
  rw [h1]
  exact ⟨_, rfl⟩

/-- The correlation matrices are determined by the samples. -/
theorem Spec.IsCorr.det {H T S HT S' HT' : Mat K} {w : Nat → K} {lam : K} (h : IsCorr H T w lam S HT) (h' : IsCorr H T w lam S' HT') :
    S = S' ∧ HT = HT' := by
  constructor
  · apply Mat.ext_get h.wfS h'.wfS (by rw [h.rowsS, h'.rowsS]) (by rw [h.colsS, h'.colsS])
    intro i j hi hj
    rw [h.rowsS] at hi
    rw [h.colsS] at hj
    rw [h.sumS i hi j hj, h'.sumS i hi j hj]
  · apply Mat.ext_get h.wfT h'.wfT (by rw [h.rowsT, h'.rowsT]) (by rw [h.colsT, h'.colsT])
    intro i j hi hj
    rw [h.rowsT] at hi
    rw [h.colsT] at hj
    rw [h.sumT i hi j hj, h'.sumT i hi j hj]

/-- A network listing the same neurons in another order. -/
theorem normalEq_perm {H T B : Mat K} {w : Nat → K} {lam : K} {l l' : List Nat} (hn : l.Nodup) (hl : l'.Perm l) (hB : B.WF)
    (b1 : B.nrows = l.length) (h : NormalEq (H.selCols l) T w lam B) (hH : T.nrows ≤ H.nrows) :
    ∃ B', B'.WF ∧ B'.nrows = l'.length ∧ B'.cols = B.cols ∧ NormalEq (H.selCols l') T w lam B' ∧
      ∀ Hq : Mat K, ∀ s < Hq.nrows, ∀ j, predEntry (Hq.selCols l') B' s j = predEntry (Hq.selCols l) B s j := by
  obtain ⟨σ, hσ⟩ := perm_pos hl hn
  have hget : ∀ (a : Fin l'.length) j, (B.selRows (List.ofFn fun a : Fin l'.length => ((σ a : Fin l.length) : Nat))).get a j = B.get (σ a) j := by
    intro a j
    rw [Mat.get_selRows (by simp)]
    simp
  have hpred : ∀ Hq : Mat K, ∀ s < Hq.nrows, ∀ j, predEntry (Hq.selCols l') (B.selRows (List.ofFn fun a : Fin l'.length => ((σ a : Fin l.length) : Nat))) s j =
      predEntry (Hq.selCols l) B s j := by
    intro Hq s hs j
    unfold predEntry
    rw [Mat.selCols_cols, Mat.selCols_cols, Finset.sum_range, Finset.sum_range, ← Equiv.sum_comp σ]
    apply Finset.sum_congr rfl
    intro a _
    rw [hget, Mat.get_selCols hs a.2, Mat.get_selCols hs (σ a).2]
    congr 2
    exact hσ a
  refine ⟨_, Mat.selRows_WF hB ?_, by simp, by simp, ?_, hpred⟩
  · intro i hi
    obtain ⟨a, rfl⟩ := List.mem_ofFn.1 hi
    rw [b1]
    exact (σ a).2
  · intro k hk j hj
    rw [Mat.selCols_cols] at hk
    have := h (σ ⟨k, hk⟩) (by rw [Mat.selCols_cols]; exact (σ ⟨k, hk⟩).2) j hj
    have hk2 : ∀ s ∈ range T.nrows, (H.selCols l').get s k = (H.selCols l).get s (σ ⟨k, hk⟩) := by
      intro s hs
      have hs := Finset.mem_range.1 hs
      rw [Mat.get_selCols (by omega) hk, Mat.get_selCols (by omega) (σ ⟨k, hk⟩).2]
      congr 1
      exact hσ ⟨k, hk⟩
    have hb := hget ⟨k, hk⟩ j
    simp only at hb
    rw [hb]
    have e1 : ∑ s ∈ range T.nrows, w s * (H.selCols l').get s k * predEntry (H.selCols l') (B.selRows (List.ofFn fun a : Fin l'.length => ((σ a : Fin l.length) : Nat))) s j =
        ∑ s ∈ range T.nrows, w s * (H.selCols l).get s (σ ⟨k, hk⟩) * predEntry (H.selCols l) B s j := by
      apply Finset.sum_congr rfl
      intro s hs
      rw [hk2 s hs, hpred H s (by have := Finset.mem_range.1 hs; omega)]
    have e2 : ∑ s ∈ range T.nrows, w s * (H.selCols l').get s k * T.get s j =
        ∑ s ∈ range T.nrows, w s * (H.selCols l).get s (σ ⟨k, hk⟩) * T.get s j := by
      apply Finset.sum_congr rfl
      intro s hs
      rw [hk2 s hs]
    rw [e1, e2]
    exact this

theorem selRows_selCols {H : Mat K} {idx l : List Nat} (hi : ∀ i ∈ idx, i < H.nrows) : (H.selCols l).selRows idx = (H.selRows idx).selCols l := by
  unfold Mat.selRows Mat.selCols
  simp only [List.map_map]
  congr 1
  apply List.map_congr_left
  intro i hi'
  have := hi i hi'
  unfold Mat.nrows at this
  simp [List.getD_eq_getElem?_getD, this]

theorem isLooError_perm {H T : Mat K} {lam v : K} {l l' : List Nat} (hn : l.Nodup) (hl : l'.Perm l) (hN : H.nrows = T.nrows)
    (h : IsLooError (H.selCols l) T lam v) : IsLooError (H.selCols l') T lam v := by
  obtain ⟨B, hB, hv⟩ := h
  have key : ∀ s : Fin T.nrows, ∃ B', TrainedWithout (H.selCols l') T lam s B' ∧
      ∀ j, predEntry (H.selCols l') B' s j = predEntry (H.selCols l) (B s) s j := by
    intro s
    obtain ⟨a1, a2, a3, a4⟩ := hB s s.2
    have hi : ∀ i ∈ others T.nrows s, i < H.nrows := fun i hi => hN ▸ others_lt hi
    rw [selRows_selCols hi] at a4
    obtain ⟨B', b1, b2, b3, b4, b5⟩ := normalEq_perm hn hl a1 a2 a4 (by simp)
    refine ⟨B', ⟨b1, b2, by rw [b3, a3], ?_⟩, fun j => b5 H s (by rw [hN]; exact s.2) j⟩
    rw [selRows_selCols hi]
    exact b4
  choose B' h1 h2 using key
  refine ⟨fun s => if hs : s < T.nrows then B' ⟨s, hs⟩ else ⟨0, []⟩, ?_, ?_⟩
  · intro s hs
    simp only [hs, dif_pos]
    exact h1 ⟨s, hs⟩
  · rw [hv]
    congr 1
    apply Finset.sum_congr rfl
    intro s hs
    have hs := Finset.mem_range.1 hs
    apply Finset.sum_congr rfl
    intro j _
    simp only [hs, dif_pos]
    rw [h2 ⟨s, hs⟩ j]

/-- There is only one leave-one-out error. -/
theorem isLooError_unique {H T : Mat K} {lam v v' : K} (hl : 0 < lam) (h : IsLooError H T lam v) (h' : IsLooError H T lam v') : v = v' := by
  obtain ⟨B, hB, hv⟩ := h
  obtain ⟨B', hB', hv'⟩ := h'
  rw [hv, hv']
  congr 1
  apply Finset.sum_congr rfl
  intro s hs
  have hs := Finset.mem_range.1 hs
  obtain ⟨a1, a2, a3, a4⟩ := hB s hs
  obtain ⟨b1, b2, b3, b4⟩ := hB' s hs
  have := Props.normalEq_unique (H := H.selRows (others T.nrows s)) (T := T.selRows (others T.nrows s)) hl (fun _ _ => zero_le_one) a1
    (by simpa using a2) (by simpa using a3) a4 (B' s) b1 (by simpa using b2) (by simpa using b3) b4
  rw [this]

end Hpelm
