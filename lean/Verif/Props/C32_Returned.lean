import Verif.Props.C87_Cost

/-!
# C32, stated on the returned network
-/

set_option linter.unusedSectionVars false

namespace Hpelm.Props
open Hpelm Spec Finset
variable {K : Type} [Field K] [LinearOrder K] [IsStrictOrderedRing K]

/-- `s` is the error on `(Xv, Tv)`, as `m.error` measures it, of a network that consists of the neurons `l` and was trained on `(X, T)` directly
(without selection, not as a weighted classification) with regularisation `lam`. -/
def DirectError (env : Env K) (m : ELM K) (X T Xv Tv : Mat K) (lam : K) (l : List (Func × List K × K)) (s : K) : Prop :=
  ∃ (g g' : ELM K) (args : List String) (kw : Kwargs K) (Q : Mat K) (fs : Files K), PlainTrain env g X T args kw g' ∧ ¬ Given args "WC" ∧
    (neuronList g.nnet).Perm l ∧ g.nnet.norm = lam ∧ Predicts env g' Xv Q ∧ m.error fs (.mat Tv) (.mat Q) = .ok s

/-- The neurons of `n` in the order `rank`. -/
def ordered (n : NNet K) (rank : List Nat) : List (Func × List K × K) := rank.map fun i => (neuronList n).getD i (.name "", [], 0)

/-- The score of a prefix of the ranking is the error of a network of these neurons trained directly. -/
theorem direct_score {env : Env K} (hl : Lawful env) (hx : env.Exact) {e m : ELM K} {X T Xv Tv H S HT Hv : Mat K} (hcon : Consistent e.nnet)
    (hN : X.nrows = T.nrows) (hT : T.WF) (hTc : T.cols = e.nnet.outputs) (hnorm : 0 < e.nnet.norm) (hp : e.nnet.project env X = .ok H)
    (hS : IsCorr H T (fun _ => 1) e.nnet.norm S HT) (hv : e.nnet.project env Xv = .ok Hv) {best : List Nat} (hn : best.Nodup)
    (hb : ∀ i ∈ best, i < H.cols) {s : K} (hd : DirectError env m X T Xv Tv e.nnet.norm (ordered e.nnet best) s) :
    elmError m.classification m.wc Tv ((Hv.selCols best).mul (e.nnet.solveCorr env (subSquare S best) (HT.selRows best))) = .ok s := by
  obtain ⟨g, g', args, kw, Q, fs, h1, h2, h3, h4, h5, h6⟩ := hd
  obtain ⟨r, hr⟩ := refit_total (best := best) hcon hN hT hTc hp
  obtain ⟨p1, _⟩ := refit_predicts hl hx hcon hN hT hnorm hp hS hn hb hr hv
  obtain ⟨w1, w2, w3⟩ := project_WF hcon hp
  have hcr := refit_consistent hl.toShapes hcon hr
  have hnr : r.nnet.norm = e.nnet.norm := (refit_frame hr).nnet.norm
  obtain ⟨Hr, B, d1, d2, d3, d4, d5, d6⟩ := refit_normalEq hl hx hN hT hnorm hr
  rw [← hnr] at d6
  obtain ⟨v1, v2, v3⟩ := project_WF hcr d1
  have tr : Trained env r X T { r with classification := none } Hr B fun _ => 1 := by
    refine ⟨d1, hN, by rw [v2, hN], v3, d2, d3, d4, d5, fun s hs => ⟨fun _ => rfl, fun h => by cases h⟩, fun _ _ => zero_le_one, d6, ?_, ?_⟩
    · intro B' h1 h2 h3
      exact (normalEq_minimises (by rw [hnr]; exact hnorm) (fun _ _ => zero_le_one) d3 d4 d5 d6 B' h1 h2 h3).1
    · intro Xn P hP
      have hP' : r.nnet.predict env Xn = .ok P := predicts_nnet hP
      unfold NNet.predict at hP'
      rw [d2] at hP'
      simp only at hP'
      obtain ⟨Hn, g1, hP'⟩ := bind_ok hP'
      have hw := project_WF hcr g1
      refine ⟨Hn, g1, ?_, by rw [hw.2.2, v3], hw.2.1⟩
      split at hP'
      · cases hP'
      · injection hP' with hP'; exact hP'.symm
  obtain ⟨H', B', w', t'⟩ := h1.trained hl hx
  have hfc := plain_unweighted h1 h2
  have hperm : (neuronList r.nnet).Perm (neuronList g.nnet) := by
    have hp' := (C08_prune env e.nnet hcon best).1
    rw [(refit_neurons hcon hr).1]
    refine List.Perm.trans ?_ h3.symm
    refine (hp'.trans ?_).map _
    rw [List.filter_eq_self.2]
    intro i hi
    simpa [← w3] using hb i hi
  have hPr : Predicts env { r with classification := none } Xv ((Hv.selCols best).mul (e.nnet.solveCorr env (subSquare S best) (HT.selRows best))) := by
    have hcol : Xv.cols = r.nnet.inputs := by
      have := ((project_ok_iff _ _ _ _).1 hv).1
      rw [this]; exact ((refit_frame hr).nnet.inputs).symm
    refine ⟨fun _ => none, ?_⟩
    have h1 : checkOne (fun _ => none) r.nnet.inputs (.mat Xv) = .ok (some Xv) := by
      unfold checkOne
      simp only [pure_bind, hcol, pyAssert, decide_true, if_true]
      rfl
    unfold ELM.predict
    rw [h1]
    exact p1
  have hQ : Q = _ := (trained_order tr t' hcr h1.consistent (by rw [hnr]; exact hnorm) (fun s hs => (t'.sw s hs).1 hfc) hperm (by rw [hnr, h4]) Xv _ Q hPr h5).symm
  rw [← hQ]
  exact error_mats h6

/-- C32 on the returned network (validation; partial: a ranking of the whole network, no weighted classification).  There is an order of the neurons
and a set of sizes tried, among them that of the full network and that of the returned one, such that the returned network consists of the first
neurons in this order, and its validation error `s` plus the size penalty is not larger than that of the first `n` neurons trained directly, for
every size `n` tried.  The penalty per neuron is 1% of the validation error `s0` of the full network, divided by the number of neurons. -/
theorem C32_returned_partial (env : Env K) (hl : Lawful env) (hx : env.Exact) (e e' : ELM K) (X T Xv Tv : Mat K) (args : List String)
    (kw : Kwargs K) (h : SelectedTrain env e X T args kw e') (hb : 0 < kw.batch.getD e.batch) (hv : "V" ∈ args) (hwc : ¬ Given args "WC")
    (hr : RanksAll e args kw) (hxv : kw.Xv = some (.mat Xv)) (htv : kw.Tv = some (.mat Tv)) :
    ∃ (order : List (Func × List K × K)) (tried : List Nat), order.Perm (neuronList e.nnet) ∧ size e.nnet ∈ tried ∧ size e'.nnet ∈ tried ∧
      (∀ n ∈ tried, 1 ≤ n ∧ n ≤ size e.nnet) ∧ (neuronList e'.nnet).Perm (order.take (size e'.nnet)) ∧
      ∀ s0 P fs s, DirectError env e' X T Xv Tv e.nnet.norm order s0 → Predicts env e' Xv P → e'.error fs (.mat Tv) (.mat P) = .ok s →
        ∀ n ∈ tried, ∀ sn, DirectError env e' X T Xv Tv e.nnet.norm (order.take n) sn →
          s + size e'.nnet * (s0 / 100 / size e.nnet) ≤ sn + n * (s0 / 100 / size e.nnet) := by
  obtain ⟨fs', rnd, r, hsh, hr'⟩ := h.run
  obtain ⟨X', T', e0, h1, h2, h3⟩ := train_ok hr'
  obtain ⟨rfl, rfl⟩ := checkBoth_mats h1
  obtain ⟨_, hTo, hN⟩ := checkBoth_ok h1
  obtain ⟨_, q2, q3, _⟩ := parseArgs_kw h2
  have hc0 : Consistent e0.nnet := by rw [q2]; exact reset_consistent h.consistent
  have hs0' : size e0.nnet = size e.nnet := by rw [q2]; rfl
  have hno : e0.nnet.norm = e.nnet.norm := by rw [q2]; rfl
  have hnl : neuronList e0.nnet = neuronList e.nnet := by rw [q2]; rfl
  have hwc0 : e0.classification ≠ some "wc" := fun hc => hwc ((parseArgs_wc h2).1 hc)
  unfold ELM.trainBody at h3
  rw [if_pos hv, hxv, htv] at h3
  simp only at h3
  obtain ⟨⟨Xv', Tv'⟩, hcv, h3'⟩ := bind_ok h3
  obtain ⟨rfl, rfl⟩ := checkBoth_mats hcv
  obtain ⟨_, hTvo, _⟩ := checkBoth_ok hcv
  obtain ⟨⟨e2, k, errs⟩, ht, h4⟩ := bind_ok h3'
  clear h3 h3'
  injection h4 with h3
  injection h3 with _ h3
  simp only at h3
  subst h3
  obtain ⟨k1, k2⟩ := trainV_kind hwc0 ht
  obtain ⟨e1, HH, HT, Hv, rank, L, full, pen, g1, g2, g3, g4, g5, g6, g7⟩ :=
    C32_best_tried_validation env hx (rnd.shuffles 0) e0 X' T' Xv' Tv' (fun h => absurd h hwc0) (fun h => absurd h hwc0) ht
  obtain ⟨H, S, HT', hpos, a1, a2, a3, a4, a5⟩ := addData_unw hx hwc0 (by rw [q3]; exact hb) hN h.targets (by rw [q2]; rfl) g1
  have hg : e1.nnet.getCorr = .ok (some (S, HT')) := by
    rw [a2]; exact getCorr_store _ a5.symm rfl
  rw [hg] at g2
  injection g2 with g2
  injection g2 with g2
  injection g2 with g2 g2'
  subst g2 g2'
  have hp1 : ∀ A, e1.nnet.project env A = e0.nnet.project env A := fun A => project_congr (by rw [a2]) (by rw [a2]) A
  rw [hp1] at g3
  obtain ⟨w1, w2, w3⟩ := project_WF hc0 a1
  obtain ⟨v1, v2, v3⟩ := project_WF hc0 g3
  rw [ranking_congr (e := e0) (by rw [a2]) (by rw [a2])] at g4
  have hL0 : e1.nnet.L.getD 0 = Hv.cols := by
    have : e1.nnet.L = e0.nnet.L := by rw [a2]
    rw [this, size_L hc0, v3]
  rw [hL0] at g4
  have hk1 := g6.range.1
  have hkL := g6.range.2
  have hsz : 0 < size e0.nnet := by
    have : L ≤ Hv.cols := ranking_le (r := (rank, L)) g4
    omega
  obtain ⟨hrank, hL⟩ := rank_full v3 hsz (by rw [hs0']; exact hsh 0) (hr.full h2 (by rw [hTvo, q2]; rfl)) g4
  have hHv : Hv.cols = H.cols := by rw [v3, w3]
  have hn : rank.Nodup := hrank.nodup_iff.2 List.nodup_range
  have hb' : ∀ i ∈ rank, i < H.cols := fun i hi => hHv ▸ List.mem_range.1 (hrank.mem_iff.1 hi)
  have hlen : rank.length = H.cols := by rw [hrank.length_eq, List.length_range, hHv]
  have hcls : e1.classification = e0.classification := by rw [a2]
  have hwc1 : e1.wc = e0.wc := by rw [a2]
  have hsc : ∀ A B, e1.nnet.solveCorr env A B = e0.nnet.solveCorr env A B := fun A B => solveCorr_congr (by rw [a2]) (by rw [a2]) A B
  have hfullY : (Hv.selCols rank).mul (e0.nnet.solveCorr env (subSquare S rank) (HT'.selRows rank)) = Hv.mul (e0.nnet.solveCorr env S HT') :=
    a5.perm_full hl hx e0.nnet (by rw [hno]; exact h.norm) (fun _ _ => zero_le_one) v1 hHv (by rw [← hHv]; exact hrank)
  have direct : ∀ (best : List Nat) (s : K), best.Nodup → (∀ i ∈ best, i < H.cols) →
      DirectError env e2 X' T' Xv' Tv' e.nnet.norm (ordered e.nnet best) s →
      elmError e0.classification e0.wc Tv' ((Hv.selCols best).mul (e0.nnet.solveCorr env (subSquare S best) (HT'.selRows best))) = .ok s := by
    intro best s b1 b2 b3
    rw [← k1, ← k2]
    refine direct_score hl hx hc0 hN h.targets (by rw [hTo, q2]; rfl) (by rw [hno]; exact h.norm) a1 a5 g3 b1 b2 ?_
    have : ordered e0.nnet best = ordered e.nnet best := by unfold ordered; rw [hnl]
    rw [hno, this]
    exact b3
  have htake : ∀ n, (ordered e.nnet rank).take n = ordered e.nnet (rank.take n) := fun n => by unfold ordered; rw [List.map_take]
  have hfull : ∀ s, DirectError env e2 X' T' Xv' Tv' e.nnet.norm (ordered e.nnet rank) s → s = full := by
    intro s hs
    have := direct rank s hn hb' hs
    rw [hfullY, ← hcls, ← hwc1, ← hsc, g5] at this
    injection this with this
    exact this.symm
  have hcon1 : Consistent e1.nnet := addData_consistent hc0 g1
  have hsk : size e2.nnet = k := by
    rw [(refit_neurons hcon1 g7).2, List.filter_eq_self.2]
    · rw [List.length_take]; omega
    · intro i hi
      have := hb' i (List.mem_of_mem_take hi)
      have hs1 : size e1.nnet = size e0.nnet := by rw [a2]; rfl
      rw [hs1, ← w3]
      simpa using this
  have hkeep : (neuronList e2.nnet).Perm ((ordered e.nnet rank).take (size e2.nnet)) := by
    rw [hsk, htake, (refit_neurons hcon1 g7).1]
    have hp' := (C08_prune env e1.nnet hcon1 (rank.take k)).1
    have hnl1 : neuronList e1.nnet = neuronList e.nnet := by rw [a2, ← hnl]; rfl
    unfold ordered
    rw [hnl1]
    refine (hp'.trans ?_).map _
    rw [List.filter_eq_self.2]
    intro i hi
    have := hb' i (List.mem_of_mem_take hi)
    have hs1 : size e1.nnet = size e0.nnet := by rw [a2]; rfl
    rw [hs1, ← w3]
    simpa using this
  have hpen : pen = full / 100 / (size e.nnet : K) := by rw [g6.pen_eq, hL, v3, hs0']; ring
  have hklen : k < errs.length := (C31_selected_in_range env e0 X' T' Xv' Tv').1 (rnd.shuffles 0) _ ht |>.2
  have hLs : L = size e.nnet := by rw [hL, v3, hs0']
  refine ⟨ordered e.nnet rank, size e.nnet :: (List.range errs.length).filter (fun n => n < L ∧ errs.getD n 0 ≠ -1), ?_, List.mem_cons_self, ?_, ?_, hkeep, ?_⟩
  · have hlen' : (neuronList e.nnet).length = Hv.cols := by rw [← size_neuronList h.consistent, v3, hs0']
    refine (hrank.map _).trans ?_
    have : (List.range Hv.cols).map (fun i => (neuronList e.nnet).getD i (.name "", [], 0)) = neuronList e.nnet := by
      apply List.ext_getElem
      · simp [hlen']
      · intro i i1 i2
        simp [List.getElem?_eq_getElem i2]
    rw [this]
  · rw [hsk]
    rcases Nat.lt_or_ge k L with hlt | hge
    · exact List.mem_cons_of_mem _ (List.mem_filter.2 ⟨List.mem_range.2 hklen, by simpa using ⟨hlt, g6.tried⟩⟩)
    · have : k = size e.nnet := by omega
      rw [this]; exact List.mem_cons_self
  · intro n hn'
    rcases List.mem_cons.1 hn' with rfl | hn'
    · omega
    · obtain ⟨m1, m2⟩ := List.mem_filter.1 hn'
      have m2 : n < L ∧ errs.getD n 0 ≠ -1 := by simpa using m2
      obtain ⟨_, _, _⟩ := g6.entry n (List.mem_range.1 m1) (by omega) m2.2
      omega
  · intro s0 P fs s hs0 hP hs n hn' sn hsn
    have hs0f := hfull s0 hs0
    subst hs0f
    rw [← hpen]
    -- the entry of the returned size
    have hek : errs.getD k 0 = s + k * pen := by
      have hs1 : elmError e0.classification e0.wc Tv' ((Hv.selCols (rank.take k)).mul (e0.nnet.solveCorr env (subSquare S (rank.take k)) (HT'.selRows (rank.take k)))) = .ok s := by
        have hno1 : e1.nnet.norm = e0.nnet.norm := by rw [a2]
        obtain ⟨p1, _⟩ := refit_predicts hl hx hcon1 hN h.targets (by rw [hno1, hno]; exact h.norm) (by rw [hp1]; exact a1) (by rw [hno1]; exact a5)
          (hn.sublist (List.take_sublist k _)) (fun i hi => hb' i (List.mem_of_mem_take hi)) g7 (by rw [hp1]; exact g3)
        have hP' := predicts_nnet hP
        rw [p1] at hP'
        injection hP' with hP'
        have := error_mats hs
        rw [← hP', hsc, k1, k2] at this
        exact this
      by_cases hkL2 : k = L
      · rw [hkL2, List.take_of_length_le (by omega), hfullY, ← hcls, ← hwc1, ← hsc, g5] at hs1
        injection hs1 with hs1
        rw [hkL2, g6.top, hs1]
      · obtain ⟨_, _, s', s1, _, s2⟩ := g6.entry k hklen hkL2 g6.tried
        unfold scoreV at s1
        simp only at s1
        rw [hcls, hwc1, hsc, hs1] at s1
        injection s1 with s1
        rw [s2, s1]
    rw [hsk, ← hek]
    rcases List.mem_cons.1 hn' with rfl | hn'
    · have hsn' : sn = s0 := hfull sn (by
        rw [htake, List.take_of_length_le (by omega)] at hsn
        exact hsn)
      rw [hsn', ← hLs]
      exact g6.full_le
    · obtain ⟨m1, m2⟩ := List.mem_filter.1 hn'
      have m2 : n < L ∧ errs.getD n 0 ≠ -1 := by simpa using m2
      obtain ⟨_, _, s', s1, _, s2⟩ := g6.entry n (List.mem_range.1 m1) (by omega) m2.2
      rw [htake] at hsn
      have hs1 := direct _ _ (hn.sublist (List.take_sublist _ _)) (fun i hi => hb' i (List.mem_of_mem_take hi)) hsn
      unfold scoreV at s1
      simp only at s1
      rw [hcls, hwc1, hsc, hs1] at s1
      injection s1 with s1
      rw [s1, ← s2]
      exact g6.best n (List.mem_range.1 m1) m2.2

/-- The hypotheses of `C32_returned_partial` are met, those on `order` by the network trained without selection. -/
example : ∃ e' f P Q s s0, SelectedTrain (lawEnv QEnv.env) exModel3 ⟨1, [[1], [2], [3], [5]]⟩ ⟨1, [[1], [0], [3], [2]]⟩ ["V"] exValid e' ∧
    PlainTrain (lawEnv QEnv.env) exModel3 ⟨1, [[1], [2], [3], [5]]⟩ ⟨1, [[1], [0], [3], [2]]⟩ [] {} f ∧
    Predicts (lawEnv QEnv.env) e' ⟨1, [[1], [2], [-1]]⟩ P ∧ Predicts (lawEnv QEnv.env) f ⟨1, [[1], [2], [-1]]⟩ Q ∧
    e'.error (fun _ => none) (.mat ⟨1, [[1], [0], [2]]⟩) (.mat P) = .ok s ∧
    e'.error (fun _ => none) (.mat ⟨1, [[1], [0], [2]]⟩) (.mat Q) = .ok s0 ∧
    s + size e'.nnet * (s0 / 100 / 3) ≤ s0 + 3 * (s0 / 100 / 3) := by
  obtain ⟨e', f, P, Q, s, s0, h, hf, p1, q1, hs, hs0⟩ := exValid_direct
  obtain ⟨order, tried, o1, o2, o3, o4, o5, o6⟩ := C32_returned_partial _ (lawEnv_lawful _) (lawEnv_exact _) _ _ _ _ ⟨1, [[1], [2], [-1]]⟩
    ⟨1, [[1], [0], [2]]⟩ _ _ h (by decide) (by decide) (by decide) (Or.inl (by decide)) rfl rfl
  refine ⟨e', f, P, Q, s, s0, h, hf, p1, q1, hs, hs0, ?_⟩
  have hd : DirectError (lawEnv QEnv.env) e' ⟨1, [[1], [2], [3], [5]]⟩ ⟨1, [[1], [0], [3], [2]]⟩ ⟨1, [[1], [2], [-1]]⟩ ⟨1, [[1], [0], [2]]⟩
      exModel3.nnet.norm order s0 := ⟨exModel3, f, [], {}, Q, _, hf, by decide, o1.symm, rfl, q1, hs0⟩
  have hlen : order.length = 3 := by
    rw [o1.length_eq, ← size_neuronList exModel3_consistent]
    rfl
  have hs3 : size exModel3.nnet = 3 := rfl
  have := o6 s0 P _ s hd p1 hs 3 (by rw [← hs3]; exact o2) s0 (by rw [List.take_of_length_le (by omega)]; exact hd)
  rw [hs3] at this
  exact_mod_cast this

/-- C32 on the returned network (leave-one-out; partial: regression, a ranking of the whole network).  There is an order of the neurons and a set of
sizes tried, among them that of the full network and that of the returned one, such that the returned network consists of the first neurons in this
order, and its leave-one-out error `s` plus the size penalty is not larger than that of the first `n` neurons, for every size `n` tried.  `H` are the
values of the neurons on the training inputs, `s0` is the leave-one-out error of the full network; the error of given neurons is unique
(`isLooError_unique`). -/
theorem C32_returned_loo_partial (env : Env K) (hl : Lawful env) (hx : env.Exact) (e e' : ELM K) (X T : Mat K) (args : List String)
    (kw : Kwargs K) (h : SelectedTrain env e X T args kw e') (hb : 0 < kw.batch.getD e.batch)
    (hm : "V" ∉ args ∧ "CV" ∉ args ∧ "LOO" ∈ args) (hg : ¬ Given args "C" ∧ ¬ Given args "WC" ∧ ¬ Given args "ML" ∧ ¬ Given args "MC")
    (hr : RanksAll e args kw) (hC : 0 < T.cols) :
    ∃ (H H' : Mat K) (order tried : List Nat) (s0 s : K), e.nnet.project env X = .ok H ∧ e'.nnet.project env X = .ok H' ∧
      order.Perm (List.range (size e.nnet)) ∧ size e.nnet ∈ tried ∧ size e'.nnet ∈ tried ∧ (∀ n ∈ tried, 1 ≤ n ∧ n ≤ size e.nnet) ∧
      (∃ keep, keep.Perm (order.take (size e'.nnet)) ∧ H' = H.selCols keep) ∧ IsLooError H T e.nnet.norm s0 ∧ IsLooError H' T e.nnet.norm s ∧
      ∀ n ∈ tried, ∃ sn, IsLooError (H.selCols (order.take n)) T e.nnet.norm sn ∧
        s + size e'.nnet * (s0 / 100 / size e.nnet) ≤ sn + n * (s0 / 100 / size e.nnet) := by
  obtain ⟨fs', rnd, r, hsh, hr'⟩ := h.run
  obtain ⟨X', T', e0, h1, h2, h3⟩ := train_ok hr'
  obtain ⟨rfl, rfl⟩ := checkBoth_mats h1
  obtain ⟨_, hTo, hN⟩ := checkBoth_ok h1
  obtain ⟨_, q2, q3, _⟩ := parseArgs_kw h2
  have hc0 : Consistent e0.nnet := by rw [q2]; exact reset_consistent h.consistent
  have hs0' : size e0.nnet = size e.nnet := by rw [q2]; rfl
  have hno : e0.nnet.norm = e.nnet.norm := by rw [q2]; rfl
  have hc : e0.classification ≠ some "c" ∧ e0.classification ≠ some "wc" ∧ e0.classification ≠ some "ml" := by
    rw [parseArgs_regression h2 hg]; simp
  have hG : e0.nnet.project env X' = e.nnet.project env X' := by rw [q2]; rfl
  unfold ELM.trainBody at h3
  rw [if_neg hm.1, if_neg hm.2.1, if_pos hm.2.2] at h3
  obtain ⟨⟨e2, k, errs⟩, ht, h3'⟩ := bind_ok h3
  clear h3
  injection h3' with h3
  injection h3 with _ h3
  simp only at h3
  subst h3
  obtain ⟨H, e1, HH, HT, rank, L, full, pen, g1, g2, g3, g4, g5, g6, g7⟩ :=
    C32_best_tried_loo env hx (rnd.shuffles 0) e0 X' T' (fun h => absurd h hc.2.1) (fun h => absurd h hc.2.1) ht
  obtain ⟨H', S, HT', hpos, a1, a2, a3, a4, a5⟩ := addData_unw hx hc.2.1 (by rw [q3]; exact hb) hN h.targets (by rw [q2]; rfl) g2
  rw [g1] at a1
  injection a1 with a1
  subst a1
  have hg : e1.nnet.getCorr = .ok (some (S, HT')) := by
    rw [a2]; exact getCorr_store _ a5.symm rfl
  rw [hg] at g3
  injection g3 with g3
  injection g3 with g3
  injection g3 with g3 g3'
  subst g3 g3'
  obtain ⟨w1, w2, w3⟩ := project_WF hc0 g1
  have hnorm : 0 < e0.nnet.norm := by rw [hno]; exact h.norm
  have hcls : e1.classification = e0.classification := by rw [a2]
  rw [ranking_congr (e := e0) (by rw [a2]) (by rw [a2])] at g4
  have hL : e1.nnet.L.getD 0 = H.cols := by rw [a2]; exact a3.symm
  rw [hL] at g4
  have hk1 := g6.range.1
  have hkL := g6.range.2
  have hsz : 0 < size e0.nnet := by
    have : L ≤ H.cols := ranking_le (r := (rank, L)) g4
    omega
  obtain ⟨hrank, hL'⟩ := rank_full w3 hsz (by rw [hs0']; exact hsh 0) (hr.full h2 hTo) g4
  have hn : rank.Nodup := hrank.nodup_iff.2 List.nodup_range
  have hb' : ∀ i ∈ rank, i < H.cols := fun i hi => List.mem_range.1 (hrank.mem_iff.1 hi)
  have hlen : rank.length = H.cols := by rw [hrank.length_eq, List.length_range]
  have hNT : 0 < T'.nrows := by omega
  have hc1 := hc
  rw [← hcls] at hc1
  have hcon1 : Consistent e1.nnet := addData_consistent hc0 g2
  have hp1 : e1.nnet.project env X' = .ok H := by rw [a2]; exact g1
  obtain ⟨_, keep, p2, p3⟩ := refit_predicts hl hx hcon1 hN h.targets (by rw [a2]; exact hnorm) hp1
    (by rw [a2]; exact a5 : IsCorr H T' (fun _ => 1) e1.nnet.norm S HT') (hn.sublist (List.take_sublist k rank)) (fun i hi => hb' i (List.mem_of_mem_take hi)) g7 hp1
  obtain ⟨v0, v1, v2⟩ := scoreLOO_exact hl e1 hc1 a5 hnorm w1 h.targets hNT hC
  rw [g5] at v1
  injection v1 with v1
  subst v1
  have hLs : L = size e.nnet := by rw [hL', w3, hs0']
  have hpen : pen = full / 100 / (size e.nnet : K) := by rw [g6.pen_eq, hLs]; ring
  have hsk : size e2.nnet = k := by
    obtain ⟨_, _, q⟩ := project_WF (refit_consistent hl.toShapes hcon1 g7) p3
    rw [← q, Mat.selCols_cols, p2.length_eq, List.length_take]
    omega
  have hfullR : IsLooError (H.selCols rank) T' e0.nnet.norm full := by
    have e0 : H = H.selCols (List.range H.cols) := (Mat.selCols_range w1).symm
    rw [e0] at v2
    exact isLooError_perm List.nodup_range hrank (by rw [w2, hN]) v2
  have hentry : ∀ n < errs.length, n ≠ L → errs.getD n 0 ≠ -1 → 1 ≤ n ∧ n ≤ L ∧
      ∃ sn, IsLooError (H.selCols (rank.take n)) T' e0.nnet.norm sn ∧ errs.getD n 0 = sn + n * pen := by
    intro n n1 n2 n3
    obtain ⟨r1, r2, s, s1, _, s2⟩ := g6.entry n n1 n2 n3
    obtain ⟨v, v1, v2, _⟩ := C37_press_exact env hl e1 hc1 H T' S HT' e0.nnet.norm hnorm h.targets hNT hC a5 (rank.take n)
      (hn.sublist (List.take_sublist _ _)) (fun i hi => hb' i (List.mem_of_mem_take hi))
    rw [v1] at s1
    injection s1 with s1
    subst s1
    exact ⟨r1, r2.le, v, v2, s2⟩
  have hklen : k < errs.length := (C31_selected_in_range env e0 X' T' X' T').2.1 (rnd.shuffles 0) _ ht |>.2
  obtain ⟨s, hs, hes⟩ : ∃ s, IsLooError (H.selCols keep) T' e0.nnet.norm s ∧ errs.getD k 0 = s + k * pen := by
    by_cases hkL2 : k = L
    · refine ⟨full, ?_, by rw [hkL2, g6.top]⟩
      rw [List.take_of_length_le (by omega)] at p2
      exact isLooError_perm hn p2 (by rw [w2, hN]) hfullR
    · obtain ⟨_, _, s, s1, s2⟩ := hentry k hklen hkL2 g6.tried
      exact ⟨s, isLooError_perm (hn.sublist (List.take_sublist _ _)) p2 (by rw [w2, hN]) s1, s2⟩
  rw [hno] at v2 hs hentry hfullR
  rw [hG] at g1
  refine ⟨H, _, rank, size e.nnet :: (List.range errs.length).filter (fun n => n < L ∧ errs.getD n 0 ≠ -1), full, s, g1, p3, ?_,
    List.mem_cons_self, ?_, ?_, ⟨keep, by rw [hsk]; exact p2, rfl⟩, v2, hs, ?_⟩
  · rw [← hs0', ← w3]; exact hrank
  · rw [hsk]
    rcases Nat.lt_or_ge k L with hlt | hge
    · exact List.mem_cons_of_mem _ (List.mem_filter.2 ⟨List.mem_range.2 hklen, by simpa using ⟨hlt, g6.tried⟩⟩)
    · have : k = size e.nnet := by omega
      rw [this]; exact List.mem_cons_self
  · intro n hn'
    rcases List.mem_cons.1 hn' with rfl | hn'
    · omega
    · obtain ⟨m1, m2⟩ := List.mem_filter.1 hn'
      have m2 : n < L ∧ errs.getD n 0 ≠ -1 := by simpa using m2
      obtain ⟨_, _, _⟩ := hentry n (List.mem_range.1 m1) (by omega) m2.2
      omega
  · intro n hn'
    rw [← hpen, hsk, ← hes]
    rcases List.mem_cons.1 hn' with rfl | hn'
    · refine ⟨full, ?_, ?_⟩
      · rw [List.take_of_length_le (by omega)]
        exact hfullR
      · rw [← hLs]
        exact g6.full_le
    · obtain ⟨m1, m2⟩ := List.mem_filter.1 hn'
      have m2 : n < L ∧ errs.getD n 0 ≠ -1 := by simpa using m2
      obtain ⟨_, _, sn, s1, s2⟩ := hentry n (List.mem_range.1 m1) (by omega) m2.2
      refine ⟨sn, s1, ?_⟩
      rw [← s2]
      exact g6.best n (List.mem_range.1 m1) m2.2

/-- The hypotheses of `C32_returned_loo_partial` are met. -/
example : ∃ e', SelectedTrain (lawEnv QEnv.env) exModel3 ⟨1, [[1], [2], [3], [5]]⟩ ⟨1, [[1], [0], [3], [2]]⟩ ["LOO"] {} e' ∧
    ∃ order : List Nat, order.Perm (List.range 3) := by
  obtain ⟨H, h⟩ := exModel3_trainable ["LOO"] {} (by decide) rfl (by decide)
  obtain ⟨e', he⟩ := C86_loo_completes_partial _ (lawEnv_lawful _) (lawEnv_exact _) (fun _ => none) ⟨fun _ => [2, 0, 1]⟩ _ _ _ _ _ _ _ h (by decide)
    (by decide) (by decide) (fun h => absurd h (by decide)) (by show List.Perm [2, 0, 1] (List.range 3); decide)
  have hs : SelectedTrain (lawEnv QEnv.env) exModel3 ⟨1, [[1], [2], [3], [5]]⟩ ⟨1, [[1], [0], [3], [2]]⟩ ["LOO"] {} e' :=
    ⟨exModel3_consistent, by decide +kernel, by decide, h.targets, _, _, _, fun i => (by decide : List.Perm [2, 0, 1] (List.range 3)), he⟩
  obtain ⟨_, _, order, _, _, _, _, _, ho, _⟩ := C32_returned_loo_partial _ (lawEnv_lawful _) (lawEnv_exact _) _ _ _ _ _ _ hs (by decide) (by decide) (by decide) (Or.inl (by decide)) (by decide)
  exact ⟨e', hs, order, ho⟩

end Hpelm.Props
