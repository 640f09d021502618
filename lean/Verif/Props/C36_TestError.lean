import Verif.Props.C34_C35_CrossValidation
import Verif.Props.C40_C41_Ranking
import Verif.Lemmas.Unweighted

/-!
# C36: the error returned by cross-validation
-/

set_option linter.unusedSectionVars false

namespace Hpelm.Props
open Spec Finset
variable {K : Type} [Field K] [LinearOrder K]

section
variable [IsStrictOrderedRing K]

/-- The rankings of the rounds consist of distinct existing neurons. -/
theorem cv_last_rank {env : Env K} (hx : env.Exact) {sh : Nat → List Nat} {e : ELM K} {X T : Mat K} {k : Nat} (hT : T.WF) (hN : X.nrows = T.nrows)
    (hc : Consistent e.nnet) (hsh : ∀ i < k, (sh i).Perm (List.range (size e.nnet))) {ds : List (FoldData K)}
    (hds : ((List.range k).mapM fun i => cvFold env (sh i) e X T k i) = .ok ds) :
    ((ds.map (·.rank)).getLastD []).Nodup ∧ ∀ i ∈ (ds.map (·.rank)).getLastD [], i < size e.nnet := by
  obtain ⟨l1, l2⟩ := mapM_range hds
  rcases List.eq_nil_or_concat ds with rfl | ⟨ds', d, rfl⟩
  · simp
  · simp only [List.concat_eq_append, List.map_append, List.map_cons, List.map_nil, List.getLastD_concat]
    have hlt : ds'.length < (ds'.concat d).length := by simp
    have hd := l2 ds'.length (by simpa using hlt)
    simp only [List.concat_eq_append, List.getElem_concat_length] at hd
    have hi : ds'.length < k := by rw [← l1]; exact hlt
    obtain ⟨H, a1, a2, a3, a4, a5, a6, a7, a8, a9⟩ := cvFold_ok hx hT hN hd
    have hcols : d.Hvl.cols = size e.nnet := by
      obtain ⟨_, _, _, h⟩ := (project_ok_iff _ _ _ _).1 a5
      rw [h]
      exact width_size hc
    obtain ⟨b1, b2, _⟩ := C40_ranking_partial env (sh ds'.length) e d.Hvl.cols d.Hvl d.Tvl (by rw [hcols]; exact hsh _ hi) rfl a9
    exact ⟨b1, fun i hi => by rw [← hcols]; exact b2 i hi⟩

/-- C36 (what holds).  If the selection keeps all neurons, the returned number is the cross-validation error of the returned model: the
average over the rounds of a fold plan of the error on the test samples of the returned network, trained on the training samples of the
round.  Both ranking methods, all kinds of problems.
Missing: the property is false when fewer neurons are kept (`C36_selected_error_refuted`); the number returned is then still the one of the
full network (`C34_returned_test_error`). -/
theorem C36_full_size_partial (env : Env K) (hl : Lawful env) (hx : env.Exact) (fs : Files K) (rnd : Rnd) (e e' : ELM K) (X T : Mat K)
    (args : List String) (kw : Kwargs K) (k : Nat) (r : K) (hk : kw.k = some (k : Int)) (hv : "V" ∉ args) (hcv : "CV" ∈ args) (hT : T.WF) (hnorm : 0 < e.nnet.norm)
    (hc : Consistent e.nnet) (hsh : ∀ i < k, (rnd.shuffles i).Perm (List.range (size e.nnet)))
    (h : e.train env fs rnd (.mat X) (.mat T) args kw = (.ok (some r), e')) (hs : size e'.nnet = size e.nnet) :
    ∃ tr vl ts : Nat → List Nat, FoldPlan X.nrows k tr vl ts ∧
      IsCvError env e'.nnet e.nnet.norm e'.classification e'.wc X T k tr ts r := by
  obtain ⟨k', v, a1, a2, a3, ⟨err, a4, a5⟩, hN, e1, ds, kopt, q2, hds, h4⟩ := cv_returned hl hx hv hcv hT hnorm h
  injection a3 with a3
  subst a3
  obtain rfl : k' = k := by
    rw [a1] at hk
    injection hk with hk
    exact_mod_cast hk
  refine ⟨_, _, _, cv_plan a2, err, a4, ?_⟩
  have hc1 : Consistent e1.nnet := by rw [q2]; exact reset_consistent hc
  have hsize : size e1.nnet = size e.nnet := by rw [q2]; rfl
  have hproj : ∀ Y G, e.nnet.project env Y = .ok G → e1.nnet.project env Y = .ok G := by
    intro Y G h
    rw [q2, ← h]
    rfl
  obtain ⟨r1, r2⟩ := cv_last_rank hx hT hN hc1 (by rw [hsize]; exact hsh) hds
  -- the hidden layer of all the data
  obtain ⟨Htr0, _, _, p0, _⟩ := a5 0 (by omega)
  obtain ⟨p1, p2, p3, _⟩ := (project_ok_iff _ _ _ _).1 p0
  have hpX : e.nnet.project env X = .ok ⟨width e.nnet.neurons, X.rows.map (rowOut env e.nnet.neurons)⟩ :=
    (project_ok_iff _ _ _ _).2 ⟨p1, p2, p3, rfl⟩
  obtain ⟨keep, S, HT, k1, _, _, k4⟩ := refit_model hx hc1 hN hT (hproj _ _ hpX) h4
  have hfil : (((ds.map (·.rank)).getLastD []).take kopt).filter (· < size e1.nnet) = ((ds.map (·.rank)).getLastD []).take kopt :=
    List.filter_eq_self.2 fun i hi => by simpa using r2 i (List.mem_of_mem_take hi)
  rw [hfil] at k1
  have hnd : keep.Nodup := k1.nodup_iff.2 (r1.sublist (List.take_sublist _ _))
  have hlt : ∀ i ∈ keep, i < size e.nnet := fun i hi => by rw [← hsize]; exact r2 i (List.mem_of_mem_take (k1.mem_iff.1 hi))
  have hlen : keep.length = size e.nnet := by
    have hp' := k4 _ _ (hproj _ _ hpX)
    have := (project_WF (refit_consistent hl.toShapes hc1 h4) hp').2.2
    rw [← hs, ← this]
    simp
  have hperm : keep.Perm (List.range (size e.nnet)) :=
    (hnd.subperm (fun i hi => List.mem_range.2 (hlt i hi))).perm_of_length_le (by simp [hlen])
  intro i hi
  obtain ⟨Htr, Hts, B, b1, b2, b3, b4, b5, b6, b7⟩ := a5 i hi
  have hHc : Htr.cols = size e.nnet := (project_WF hc b1).2.2
  have hHs : Hts.cols = size e.nnet := (project_WF hc b2).2.2
  have hN' : (T.selRows (cvTrain X.nrows k' i)).nrows ≤ Htr.nrows := by
    rw [(project_WF hc b1).2.1]
    simp
  have hr1 : Htr.selCols (List.range (size e.nnet)) = Htr := by rw [← hHc]; exact Mat.selCols_range (project_WF hc b1).1
  have hr2 : Hts.selCols (List.range (size e.nnet)) = Hts := by rw [← hHs]; exact Mat.selCols_range (project_WF hc b2).1
  obtain ⟨B', c1, c2, c3, c4, c5⟩ := normalEq_perm (H := Htr) List.nodup_range hperm b3 (by rw [b4, hHc]; simp) (by rw [hr1]; exact b6) hN'
  refine ⟨Htr.selCols keep, Hts.selCols keep, B', k4 _ _ (hproj _ _ b1), k4 _ _ (hproj _ _ b2), c1, by rw [c2]; rfl, by rw [c3, b5], c4, ?_⟩
  have hPQ : (Hts.selCols keep).mul B' = Hts.mul B := ?_
  · rw [hPQ]; exact b7
  apply Mat.ext_get (Mat.mul_WF _ _) (Mat.mul_WF _ _) (by simp) (by simp [c3])
  intro s j hs' hj
  simp only [Mat.mul_nrows, Mat.selCols_nrows, Mat.mul_cols] at hs' hj
  have := c5 Hts s hs' j
  rw [hr2] at this
  rw [get_mul_sum (by simpa using hs') hj, get_mul_sum hs' (by rw [← c3]; exact hj), c2, b4, hHc, ← hHs]
  exact this

end

/-- The hypotheses of `C36_full_size_partial` are met: of three neurons all are kept. -/
example : Lawful (lawEnv QEnv.env) ∧ (lawEnv QEnv.env).Exact ∧ (0 : ℚ) < exModel3.nnet.norm ∧ Consistent exModel3.nnet ∧
    ∃ v e', exModel3.train (lawEnv QEnv.env) (fun _ => none) ⟨fun _ => [2, 0, 1]⟩ (.mat ⟨1, [[1], [2], [3], [5]]⟩)
      (.mat ⟨1, [[1], [0], [3], [2]]⟩) ["CV"] { k := some 3 } = (.ok (some v), e') ∧ size e'.nnet = size exModel3.nnet := by
  obtain ⟨v, e', h1, h2, h3⟩ := C35_cv_completes_partial (lawEnv QEnv.env) (lawEnv_lawful _).toShapes (fun _ => none) ⟨fun _ => [2, 0, 1]⟩
    exModel3 exModel3 ⟨1, [[1], [2], [3], [5]]⟩ ⟨1, [[1], [0], [3], [2]]⟩ _ ["CV"] { k := some 3 } 3 (by decide) (by decide)
      (by decide) rfl (by omega) (by decide) rfl rfl rfl (by
        show ∀ r ∈ ([[1], [0], [3], [2]] : List (List ℚ)), r.length = 1
        decide) (by decide) exModel3_consistent (by decide) rfl rfl (by decide) (by
        intro i _
        show List.Perm [2, 0, 1] (List.range 3)
        decide)
  exact ⟨lawEnv_lawful _, lawEnv_exact _, by decide +kernel, exModel3_consistent, v, e', h1, le_antisymm h3 h2⟩

/-- C36 is false: a call keeps 3 of 4 neurons, and the number returned is not the cross-validation error of the model with these 3
neurons. -/
theorem C36_selected_error_refuted :
    ¬ ∀ (rnd : Rnd) (e e' : ELM ℚ) (X T : Mat ℚ) (k : Nat) (r : ℚ),
      e.train QEnv.env (fun _ => none) rnd (.mat X) (.mat T) ["CV"] { k := some k } = (.ok (some r), e') →
      IsCvError QEnv.env e'.nnet e'.nnet.norm e'.classification e'.wc X T k (cvTrain X.nrows k) (cvTest X.nrows k) r := by
  intro h
  have a : ((exModel4 none none 1).train QEnv.env (fun _ => none) ⟨fun _ => [2, 0, 3, 1]⟩ (.mat ⟨1, [[1], [2], [3]]⟩)
      (.mat ⟨1, [[1], [0], [3]]⟩) ["CV"] { k := some 3 }).1 = .ok (some (25427742991262221 / 10545638381978700)) := by decide +kernel
  obtain ⟨q, hq⟩ : ∃ q, q = ((exModel4 none none 1).train QEnv.env (fun _ => none) ⟨fun _ => [2, 0, 3, 1]⟩ (.mat ⟨1, [[1], [2], [3]]⟩)
      (.mat ⟨1, [[1], [0], [3]]⟩) ["CV"] { k := some 3 }).2 := ⟨_, rfl⟩
  have hn : q.nnet.norm = 1 := by rw [hq]; decide +kernel
  have hcl : q.classification = none := by rw [hq]; decide +kernel
  have hwc : q.wc = none := by rw [hq]; decide +kernel
  have p0 : q.nnet.project QEnv.env ⟨1, [[1]]⟩ = .ok ⟨3, [[1, 2/3, 0]]⟩ := by rw [hq]; decide +kernel
  have p1 : q.nnet.project QEnv.env ⟨1, [[2]]⟩ = .ok ⟨3, [[2, 4/5, -1/2]]⟩ := by rw [hq]; decide +kernel
  have p2 : q.nnet.project QEnv.env ⟨1, [[3]]⟩ = .ok ⟨3, [[3, 6/7, -2/3]]⟩ := by rw [hq]; decide +kernel
  obtain ⟨err, h1, h2⟩ := h _ _ q _ _ 3 _ (Prod.ext a hq.symm)
  rw [hn, hcl, hwc] at h2
  have hTw : (⟨1, [[1], [0], [3]]⟩ : Mat ℚ).WF := by unfold Mat.WF; decide
  have hts : ∀ i < 3, ∀ j ∈ cvTest 3 3 i, j < (⟨1, [[1], [0], [3]]⟩ : Mat ℚ).nrows := by decide +kernel
  have key : ∀ (i : Nat) (H Hs B0 : Mat ℚ) (v : ℚ), i < 3 →
      q.nnet.project QEnv.env (Mat.selRows ⟨1, [[1], [2], [3]]⟩ (cvTrain 3 3 i)) = .ok H →
      q.nnet.project QEnv.env (Mat.selRows ⟨1, [[1], [2], [3]]⟩ (cvTest 3 3 i)) = .ok Hs →
      NormalEq H (Mat.selRows ⟨1, [[1], [0], [3]]⟩ (cvTrain 3 3 i)) (fun _ => 1) 1 B0 → B0.WF → B0.nrows = H.cols → B0.cols = 1 →
      elmError none none (Mat.selRows ⟨1, [[1], [0], [3]]⟩ (cvTest 3 3 i)) (Hs.mul B0) = .ok v → err i = v := by
    intro i H Hs B0 v hi e1 e2 e3 e4 e5 e6 e7
    obtain ⟨Htr, Hts, B, b1, b2, b3, b4, b5, b6, b7⟩ := h2 i hi
    have c1 := Except.ok.inj (e1.symm.trans b1)
    have c2 := Except.ok.inj (e2.symm.trans b2)
    subst c1 c2
    have : B = B0 := normalEq_unique one_pos (fun _ _ => zero_le_one) e4 e5 e6 e3 B b3 b4 b5 b6
    rw [this] at b7
    have b7 : elmError none none (Mat.selRows ⟨1, [[1], [0], [3]]⟩ (cvTest 3 3 i)) (Hs.mul B0) = .ok (err i) := by
      obtain ⟨g1, g2, g3, g4, _⟩ := (elmError_iff (Mat.selRows_WF hTw (hts i hi)) (Mat.mul_WF _ _)).1 e7
      exact (elmError_iff (Mat.selRows_WF hTw (hts i hi)) (Mat.mul_WF _ _)).2 ⟨g1, g2, g3, g4, b7⟩
    exact (Except.ok.inj (e7.symm.trans b7)).symm
  have f0 := key 0 _ _ ⟨1, [[9/22], [3/11], [0]]⟩ _ (by omega) p0 p2 (by unfold NormalEq predEntry; decide +kernel) (by unfold Mat.WF; decide) rfl rfl rfl
  have f1 := key 1 _ _ ⟨1, [[0], [0], [0]]⟩ _ (by omega) p1 p0 (by unfold NormalEq predEntry; decide +kernel) (by unfold Mat.WF; decide) rfl rfl rfl
  have f2 := key 2 _ _ ⟨1, [[3969/4930], [567/2465], [-441/2465]]⟩ _ (by omega) p2 p1 (by unfold NormalEq predEntry; decide +kernel) (by unfold Mat.WF; decide) rfl rfl rfl
  rw [Finset.sum_range_succ, Finset.sum_range_succ, Finset.sum_range_succ, Finset.sum_range_zero, f0, f1, f2] at h1
  revert h1
  decide +kernel

end Hpelm.Props
