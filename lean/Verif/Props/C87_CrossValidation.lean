import Verif.Props.C87_Cost
import Verif.Props.C34_C35_CrossValidation

/-!
# C87: networks selected by cross-validation; class weights
-/

set_option linter.unusedSectionVars false

namespace Hpelm.Spec
open Finset
variable {K : Type} [Field K] [LinearOrder K]

/-- The cross-validation error (see `IsCvError`) of a part of the network: in round `i` only the neurons numbered `idx i` are trained and
evaluated. -/
def IsCvErrorOf (env : Env K) (n : NNet K) (norm : K) (cls : Option String) (wc : Option (List (Option K))) (X T : Mat K) (k : Nat)
    (tr ts : Nat → List Nat) (idx : Nat → List Nat) (r : K) : Prop :=
  ∃ err : Nat → K, r = (∑ i ∈ range k, err i) / (k : K) ∧
    ∀ i < k, ∃ Htr Hts B, n.project env (X.selRows (tr i)) = .ok Htr ∧ n.project env (X.selRows (ts i)) = .ok Hts ∧
      B.WF ∧ B.nrows = (idx i).length ∧ B.cols = T.cols ∧ NormalEq (Htr.selCols (idx i)) (T.selRows (tr i)) (fun _ => 1) norm B ∧
      IsError cls wc (T.selRows (ts i)) ((Hts.selCols (idx i)).mul B) (err i)

end Hpelm.Spec

namespace Hpelm.Props
open Hpelm Spec Finset
variable {K : Type} [Field K] [LinearOrder K] [IsStrictOrderedRing K]

theorem cv_average {k : Nat} {f : FoldData K → Except PyErr K} {ds : List (FoldData K)} {v : K} (hl : ds.length = k) (h : cvMean k f ds 0 = .ok v) :
    ∃ err : Nat → K, v = (∑ i ∈ range k, err i) / (k : K) ∧ ∀ i (hi : i < ds.length), f ds[i] = .ok (err i) := by
  obtain ⟨vs, v1, v2⟩ := cvMean_sum h
  obtain ⟨l3, l4⟩ := mapM_getElem v1
  refine ⟨fun i => vs.getD i 0, ?_, fun i hi => ?_⟩
  · rw [v2, zero_add, Finset.sum_div, ← hl, ← l3, Finset.sum_range, ← List.sum_ofFn]
    congr 1
    apply List.ext_getElem
    · simp
    · intro i h1 h2
      simp at h1 h2
      simp
  · have d2 := l4 i (by omega) (by omega)
    rw [d2]
    show _ = Except.ok (vs.getD i 0)
    rw [List.getD_eq_getElem vs 0 (show i < vs.length by omega)]

/-- C87 (cross-validation; partial: a ranking of the whole network, no negative class weight).  A selection by cross-validation picks, in
each round, a set of neurons of the size of the returned network; the set of the last round is the returned network.  Let `s` be the
cross-validation error of these sets, on the validation samples, and `s0` that of all neurons.  Then `s` exceeds `s0` by at most 1%, and by
at most `1 - q` percent if the fraction `q` of the neurons is kept. -/
theorem C87_cross_validation_partial (env : Env K) (hl : Lawful env) (hx : env.Exact) (e e' : ELM K) (X T : Mat K) (args : List String)
    (kw : Kwargs K) (h : SelectedTrain env e X T args kw e') (hm : "V" ∉ args ∧ "CV" ∈ args)
    (hw : ∀ ws, kw.w = some ws → ∀ w ∈ ws, 0 ≤ w) (hr : RanksAll e args kw) :
    ∃ (k : Nat) (tr vl ts idx : Nat → List Nat) (keep : List Nat) (s s0 : K), kw.k = some (k : Int) ∧ 3 ≤ k ∧ FoldPlan X.nrows k tr vl ts ∧
      (∀ i < k, (idx i).Nodup ∧ (idx i).length = size e'.nnet ∧ ∀ j ∈ idx i, j < size e.nnet) ∧
      keep.Perm (idx (k - 1)) ∧ (∀ Xq H, e.nnet.project env Xq = .ok H → e'.nnet.project env Xq = .ok (H.selCols keep)) ∧
      IsCvErrorOf env e.nnet e.nnet.norm e'.classification e'.wc X T k tr vl idx s ∧
      IsCvError env e.nnet e.nnet.norm e'.classification e'.wc X T k tr vl s0 ∧
      s ≤ s0 * (1 + (1 - size e'.nnet / size e.nnet) / 100) := by
  obtain ⟨fs', rnd, r, hsh, hr'⟩ := h.run
  obtain ⟨X', T', e0, h1, h2, h3⟩ := train_ok hr'
  obtain ⟨rfl, rfl⟩ := checkBoth_mats h1
  obtain ⟨_, hTo, hN⟩ := checkBoth_ok h1
  obtain ⟨q1, q2, q3, _⟩ := parseArgs_kw h2
  have hw0 : NonnegW e0.classification e0.wc := by
    intro _ l hl' w hw'
    rcases q1 with q1 | ⟨ws, q1, q1'⟩
    · rw [q1] at hl'; cases hl'
    · rw [q1'] at hl'
      injection hl' with hl'
      rw [← hl'] at hw'
      exact hw ws q1 w (by simpa using hw')
  have hc0 : Consistent e0.nnet := by rw [q2]; exact reset_consistent h.consistent
  have hs0 : size e0.nnet = size e.nnet := by rw [q2]; rfl
  have hproj : ∀ A, e0.nnet.project env A = e.nnet.project env A := fun A => by rw [q2]; rfl
  have hno : e0.nnet.norm = e.nnet.norm := by rw [q2]; rfl
  have hT := h.targets
  obtain ⟨k0, ⟨e2, errT, kopt, errs⟩, k1, k2, k3, k4⟩ := trainBody_cv hm.1 hm.2 h3
  injection k4 with k4 k5
  simp only at k5
  subst k5
  obtain ⟨k, hk⟩ : ∃ k : Nat, k0 = (k : Int) := ⟨k0.toNat, by omega⟩
  subst hk
  rw [Int.toNat_natCast] at k3
  have hk3 : 3 ≤ k := by omega
  have hcls : e'.classification = e0.classification := (trainCV_bcls k3).2
  obtain ⟨ds, L, full, pen, d1, d2, d3, d4, d5⟩ := C32_best_tried_cv env rnd.shuffles e0 X' T' k hw0 k3
  have hwc : e'.wc = e0.wc := refit_wc d5
  obtain ⟨l1, l2⟩ := mapM_range d1
  have hsz : 0 < size e0.nnet := by
    rw [hs0]
    have a1 := (C31_returned_size env hx e e' X' T' args kw h).1
    have a2 := ((C31_returned_size env hx e e' X' T' args kw h).2.2 (hr.imp id (·.1))).1
    omega
  -- every round
  have hround : ∀ i (hi : i < ds.length), ∃ H, e0.nnet.project env (X'.selRows (cvTrain X'.nrows k i)) = .ok H ∧ H.cols = size e0.nnet ∧
      IsCorr H (T'.selRows (cvTrain X'.nrows k i)) (fun _ => 1) e0.nnet.norm ds[i].HH ds[i].HT ∧
      e0.nnet.project env (X'.selRows (cvVal X'.nrows k i)) = .ok ds[i].Hvl ∧ ds[i].Hvl.WF ∧ ds[i].Hvl.cols = size e0.nnet ∧
      ds[i].Tvl = T'.selRows (cvVal X'.nrows k i) ∧ ds[i].Tvl.WF ∧ ds[i].rank.Perm (List.range (size e0.nnet)) ∧ ds[i].L = size e0.nnet := by
    intro i hi
    obtain ⟨H, a1, a2, a3, a4, a5, a6, a7, a8, a9⟩ := cvFold_ok hx hT hN (l2 i hi)
    obtain ⟨v1, _, v3⟩ := project_WF hc0 a5
    have hTv : ds[i].Tvl.cols = e.nnet.outputs := by rw [a6]; exact hTo
    obtain ⟨r1, r2⟩ := rank_full v3 hsz (by rw [hs0]; exact hsh i) (hr.full h2 hTv) a9
    refine ⟨H, a1, a2.trans v3, a4, a5, v1, v3, a6, ?_, by rw [← v3]; exact r1, r2.trans v3⟩
    rw [a6]
    refine Mat.selRows_WF hT fun j hj => ?_
    rw [← hN]
    exact List.mem_range.1 (((cv_plan hk3).partition i (by omega)).mem_iff.1 (List.mem_append_left _ (List.mem_append_right _ hj)))
  have hne : ds ≠ [] := by
    intro h0
    rw [h0] at l1
    simp at l1
    omega
  have hlast : (ds.map (·.rank)).getLastD [] = (ds[k - 1]'(by omega)).rank := by
    rw [List.getLastD_eq_getLast?, List.getLast?_map, List.getLast?_eq_some_getLast hne, List.getLast_eq_getElem]
    simp only [Option.map_some, Option.getD_some]
    congr 2
    omega
  have hL : L = size e0.nnet := by
    rw [d2, List.getLastD_eq_getLast?, List.getLast?_map, List.getLast?_eq_some_getLast hne, List.getLast_eq_getElem]
    simp only [Option.map_some, Option.getD_some]
    obtain ⟨_, _, _, _, _, _, _, _, _, _, a⟩ := hround (ds.length - 1) (by omega)
    exact a
  have hkL : kopt ≤ size e0.nnet := hL ▸ d4.range.2
  rw [hlast] at d5
  obtain ⟨Hall, hall⟩ : ∃ H, e0.nnet.project env X' = .ok H := by
    obtain ⟨H, a1, _⟩ := hround 0 (by omega)
    obtain ⟨p1, p2, p3, _⟩ := (project_ok_iff _ _ _ _).1 a1
    exact ⟨_, (project_ok_iff env e0.nnet X' _).2 ⟨p1, p2, p3, rfl⟩⟩
  obtain ⟨keep, S, HT, c1, c2, c3, c4⟩ := refit_model hx hc0 hN hT hall d5
  obtain ⟨_, _, _, _, _, _, _, _, _, hperm, _⟩ := hround (k - 1) (by omega)
  have hkeep : keep.Perm ((ds[k - 1]'(by omega)).rank.take kopt) := by
    rwa [List.filter_eq_self.2] at c1
    intro i hi
    simpa using List.mem_range.1 (hperm.mem_iff.1 (List.mem_of_mem_take hi))
  have hsize : size e'.nnet = kopt := by
    obtain ⟨_, _, w3⟩ := project_WF (refit_consistent hl.toShapes hc0 d5) (c4 _ _ hall)
    rw [← w3, Mat.selCols_cols, hkeep.length_eq, List.length_take, hperm.length_eq, List.length_range]
    omega
  have hnorm0 : 0 < e0.nnet.norm := by rw [hno]; exact h.norm
  -- the candidate of the full network
  obtain ⟨err0, f1, f2⟩ := cv_average l1 d3
  have hfull : IsCvError env e.nnet e.nnet.norm e'.classification e'.wc X' T' k (cvTrain X'.nrows k) (cvVal X'.nrows k) full := by
    refine ⟨err0, f1, fun i hi => ?_⟩
    obtain ⟨H, a1, a2, a3, a4, a5, a6, a7, a8, a9, a10⟩ := hround i (by omega)
    obtain ⟨s1, s2, s3, s4⟩ := a3.solve hl hx e0.nnet hnorm0 (fun _ _ => zero_le_one) (Or.inl rfl)
    refine ⟨H, _, _, by rw [← hproj]; exact a1, by rw [← hproj]; exact a4, s2, s3, s4, ?_, ?_⟩
    · rw [← hno]
      exact solve_normalEq a3.rowsS s3 s4 a3.sumS a3.sumT s1
    · have := f2 i (by omega)
      rw [hcls, hwc, ← a7]
      exact elmError_isError a8 (Mat.mul_WF _ _) this
  -- the errors of the selected size
  obtain ⟨v, g1, g2⟩ : ∃ v, errs.getD kopt 0 = v + kopt * pen ∧
      IsCvErrorOf env e.nnet e.nnet.norm e'.classification e'.wc X' T' k (cvTrain X'.nrows k) (cvVal X'.nrows k)
        (fun i => ((ds.map (·.rank)).getD i []).take kopt) v := by
    have hgen : ∀ v, (∃ err : Nat → K, v = (∑ i ∈ range k, err i) / (k : K) ∧ ∀ i (hi : i < ds.length),
          scoreV env e0 ds[i].HH ds[i].HT ds[i].Hvl ds[i].Tvl (ds[i].rank.take kopt) = .ok (err i)) →
        IsCvErrorOf env e.nnet e.nnet.norm e'.classification e'.wc X' T' k (cvTrain X'.nrows k) (cvVal X'.nrows k)
          (fun i => ((ds.map (·.rank)).getD i []).take kopt) v := by
      rintro v ⟨err, g1, g2⟩
      refine ⟨err, g1, fun i hi => ?_⟩
      have hi' : i < ds.length := by omega
      have hid : (ds.map (·.rank)).getD i [] = ds[i].rank := by
        rw [List.getD_eq_getElem _ _ (by simpa using hi')]
        simp
      simp only [hid]
      obtain ⟨H, a1, a2, a3, a4, a5, a6, a7, a8, a9, a10⟩ := hround i hi'
      have hn : ds[i].rank.Nodup := a9.nodup_iff.2 List.nodup_range
      have hsub := a3.sub (idx := ds[i].rank.take kopt) (hn.sublist (List.take_sublist _ _))
        (fun j hj => by rw [a2]; exact List.mem_range.1 (a9.mem_iff.1 (List.mem_of_mem_take hj)))
      obtain ⟨s1, s2, s3, s4⟩ := hsub.solve hl hx e0.nnet hnorm0 (fun _ _ => zero_le_one) (Or.inl rfl)
      refine ⟨H, _, _, by rw [← hproj]; exact a1, by rw [← hproj]; exact a4, s2, by rw [s3, Mat.selCols_cols], s4, ?_, ?_⟩
      · rw [← hno]
        exact solve_normalEq hsub.rowsS s3 s4 hsub.sumS hsub.sumT s1
      · have := g2 i hi'
        unfold scoreV at this
        simp only at this
        rw [hcls, hwc, ← a7]
        exact elmError_isError a8 (Mat.mul_WF _ _) this
    by_cases hkn : kopt = L
    · refine ⟨full, by rw [hkn, d4.top], hgen full ⟨err0, f1, fun i hi => ?_⟩⟩
      obtain ⟨H, a1, a2, a3, a4, a5, a6, a7, a8, a9, a10⟩ := hround i hi
      have : ds[i].rank.take kopt = ds[i].rank := List.take_of_length_le (by rw [a9.length_eq, List.length_range, ← hL, hkn])
      have hY := a3.perm_full hl hx e0.nnet hnorm0 (fun _ _ => zero_le_one) a5 (a6.trans a2.symm) (l := ds[i].rank) (by rw [a2]; exact a9)
      unfold scoreV
      simp only
      rw [this, hY]
      exact f2 i hi
    · have hlen : kopt < errs.length := by
        have := ((C31_selected_in_range env e0 X' T' X' T').2.2 _ _ _ k3).2
        exact this
      obtain ⟨_, _, s, s1, _, s2⟩ := d4.entry kopt hlen hkn d4.tried
      exact ⟨s, s2, hgen s (cv_average l1 s1)⟩
  refine ⟨k, _, _, _, fun i => ((ds.map (·.rank)).getD i []).take kopt, keep, v, full, k1, hk3, cv_plan hk3, ?_, ?_, ?_, g2, hfull, ?_⟩
  · intro i hi
    have hi' : i < ds.length := by omega
    have hid : (ds.map (·.rank)).getD i [] = ds[i].rank := by
      rw [List.getD_eq_getElem _ _ (by simpa using hi')]
      simp
    simp only [hid]
    obtain ⟨_, _, _, _, _, _, _, _, _, a9, _⟩ := hround i hi'
    refine ⟨(a9.nodup_iff.2 List.nodup_range).sublist (List.take_sublist _ _), ?_, fun j hj => ?_⟩
    · rw [List.length_take, a9.length_eq, List.length_range, hsize]
      omega
    · rw [← hs0]; exact List.mem_range.1 (a9.mem_iff.1 (List.mem_of_mem_take hj))
  · have hid : (ds.map (·.rank)).getD (k - 1) [] = (ds[k - 1]'(by omega)).rank := by
      rw [List.getD_eq_getElem _ _ (by simp; omega)]
      simp
    simp only [hid]
    exact hkeep
  · intro Xq Hq hq
    exact c4 Xq Hq (by rw [hproj]; exact hq)
  · rw [hsize, ← hs0]
    refine cost_arith hsz ?_
    have := d4.full_le
    rw [g1, d4.pen_eq, hL] at this
    exact this

/-- The hypotheses are met: four neurons, four samples, three rounds, over a lawful exact environment. -/
example : ∃ e', SelectedTrain (lawEnv QEnv.env) (exModel4 none none 1) ⟨1, [[1], [2], [3], [5]]⟩ ⟨1, [[1], [0], [3], [2]]⟩ ["CV"] { k := some 3 } e' ∧
    Lawful (lawEnv QEnv.env) ∧ (lawEnv QEnv.env).Exact ∧ RanksAll (exModel4 none none 1) ["CV"] { k := some 3 } ∧ 3 ≤ size e'.nnet := by
  have hW : ∀ r ∈ ([[1], [0], [3], [2]] : List (List ℚ)), r.length = 1 := by decide
  have hsh : List.Perm [2, 0, 3, 1] (List.range 4) := by decide
  obtain ⟨v, e', h1, h2, _⟩ := C35_cv_completes_partial (lawEnv QEnv.env) (lawEnv_lawful _).toShapes (fun _ => none) ⟨fun _ => [2, 0, 3, 1]⟩
    (exModel4 none none 1) _ ⟨1, [[1], [2], [3], [5]]⟩ ⟨1, [[1], [0], [3], [2]]⟩ _ ["CV"] { k := some 3 } 3 (by decide) (by decide)
      (by decide) rfl (by omega) (by decide) rfl rfl rfl hW (by decide) (exModel4_consistent _ _ _) (by decide) rfl rfl (by decide) (fun _ _ => hsh)
  exact ⟨e', ⟨exModel4_consistent _ _ _, by decide +kernel, by decide, hW, _, _, _, fun _ => hsh, h1⟩, lawEnv_lawful _, lawEnv_exact _,
    Or.inl (by decide), h2⟩

/-- C87 is false for weighted classification with a validation set: with class weights 1 and 10 three of four neurons are kept, and the
(weighted) validation error of the returned model is ten times that of the same network trained without selection. -/
theorem C87_weighted_refuted : ∃ (e e' f : ELM ℚ) (X T Xv Tv P Q : Mat ℚ) (r r' : Option ℚ) (s s0 : ℚ),
    e.train QEnv.env (fun _ => none) ⟨fun _ => [0, 2, 3, 1]⟩ (.mat X) (.mat T) ["WC", "V"]
      { w := some [1, 10], Xv := some (.mat Xv), Tv := some (.mat Tv) } = (.ok r, e') ∧
    e.train QEnv.env (fun _ => none) ⟨fun _ => []⟩ (.mat X) (.mat T) ["WC"] { w := some [1, 10] } = (.ok r', f) ∧
    Predicts QEnv.env e' Xv P ∧ Predicts QEnv.env f Xv Q ∧
    e'.error (fun _ => none) (.mat Tv) (.mat P) = .ok s ∧ e'.error (fun _ => none) (.mat Tv) (.mat Q) = .ok s0 ∧ s = 10 * s0 ∧ 0 < s0 := by
  have hP : ∀ {e : ELM ℚ} {P : Mat ℚ}, e.predict QEnv.env (fun _ => none) (.mat ⟨1, [[-1], [1]]⟩) = .ok P → Predicts QEnv.env e ⟨1, [[-1], [1]]⟩ P :=
    fun h => ⟨_, h⟩
  refine ⟨exModel4 none none 2, _, _, ⟨1, [[0], [-2], [2]]⟩, ⟨2, [[1, 0], [0, 1], [0, 1]]⟩, ⟨1, [[-1], [1]]⟩, ⟨2, [[1, 0], [0, 1]]⟩,
    ⟨2, [[2212 / 16743, 1106 / 16743], [1900 / 16743, 950 / 16743]]⟩, ⟨2, [[64 / 651, 968 / 651], [64 / 651, 968 / 651]]⟩, none, none,
    10 / 11, 1 / 11, Prod.ext ?_ rfl, Prod.ext ?_ rfl, hP ?_, hP ?_, ?_, ?_, ?_, ?_⟩ <;> decide +kernel

end Hpelm.Props
