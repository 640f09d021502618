import Verif.Props.C83_Selected

/-!
# C31: the size of the network a structure selection returns
-/

set_option linter.unusedSectionVars false

namespace Hpelm.Props
open Hpelm Spec
variable {K : Type} [Field K] [LinearOrder K] [IsStrictOrderedRing K]

/-- The largest size considered by the search: all the neurons, or `kmax` of them with the 'OP' ranking. -/
def searchTop (e : ELM K) : Nat :=
  match e.rankingOP, e.kmaxOp with
  | true, some kmax => min kmax (size e.nnet)
  | _, _ => size e.nnet

theorem searched_range {lo L0 L : Nat} {v : K} {score : Nat → Except PyErr K} {r : Nat × List K} (_ : 0 < L)
    (hL0 : L ≤ L0) (hlo : lo ≤ L ∨ L0 < lo) (h : myopt lo L (errArray L0 L v) score = .ok r) : lo ≤ r.1 ∧ r.1 ≤ L := by
  have hlen := errArray_length L0 L v
  by_cases hl : lo ≤ L
  · rcases myopt_cases score lo L (by omega) (by omega) (errArray L0 L v) (by rw [hlen]; omega) with ⟨n, x, _, _, _, h'⟩ | ⟨k', e', h', h1, h2, hE, _⟩
    · rw [h'] at h; cases h
    · rw [h'] at h
      injection h with h
      rw [← h]
      simp only
      omega
  · rw [myopt_small (by omega)] at h
    cases h

/-- The ranking of the last round of a cross-validation. -/
theorem cv_last_length {env : Env K} (hx : env.Exact) {sh : Nat → List Nat} {e : ELM K} {X T : Mat K} {k : Nat} (hT : T.WF) (hN : X.nrows = T.nrows)
    (hc : Consistent e.nnet) (hk : 0 < k) (hsh : ∀ i < k, (sh i).Perm (List.range (size e.nnet))) {ds : List (FoldData K)} {L0 : Nat}
    (hds : ((List.range k).mapM fun i => cvFold env (sh i) e X T k i) = .ok ds) :
    (ds.map (·.L)).getLastD L0 = searchTop e ∧
      (e.rankingOP = false ∨ T.cols < 10 → 0 < searchTop e → ((ds.map (·.rank)).getLastD []).length = searchTop e) := by
  obtain ⟨l1, l2⟩ := mapM_range hds
  rcases List.eq_nil_or_concat ds with rfl | ⟨ds', d, rfl⟩
  · simp at l1
    omega
  · simp only [List.concat_eq_append, List.map_append, List.map_cons, List.map_nil, List.getLastD_concat]
    have hlt : ds'.length < (ds'.concat d).length := by simp
    have hd := l2 ds'.length (by simp)
    simp only [List.concat_eq_append, List.getElem_concat_length] at hd
    have hi : ds'.length < k := by rw [← l1]; exact hlt
    obtain ⟨H, a1, a2, a3, a4, a5, a6, a7, a8, a9⟩ := cvFold_ok hx hT hN hd
    have hcols : d.Hvl.cols = size e.nnet := by
      obtain ⟨_, _, _, h⟩ := (project_ok_iff _ _ _ _).1 a5
      rw [h]
      exact width_size hc
    obtain ⟨_, _, b3, b4, _⟩ := C40_ranking_partial env (sh ds'.length) e d.Hvl.cols d.Hvl d.Tvl (by rw [hcols]; exact hsh _ hi) rfl a9
    have hTc : d.Tvl.cols = T.cols := by rw [a6]; rfl
    rw [hcols] at b3
    have hL : d.L = searchTop e := b3
    refine ⟨hL, fun h h0 => ?_⟩
    rw [← hL] at h0 ⊢
    exact b4 (by rw [hTc]; exact h) h0

/-- Every selection method ends by re-training the first `k` neurons of a ranking, where `k` is in the range searched. -/
theorem selection_size {env : Env K} (hx : env.Exact) {fs rnd} {e : ELM K} {X T : Mat K} {args kw r}
    (hc : Consistent e.nnet) (hT : T.WF) (hN : X.nrows = T.nrows) (hTo : T.cols = e.nnet.outputs)
    (hsel : "V" ∈ args ∨ "CV" ∈ args ∨ "LOO" ∈ args)
    (hsh : ∀ i, (rnd.shuffles i).Perm (List.range (size e.nnet))) (h : e.trainBody env fs rnd X T args kw = .ok r) :
    ∃ (e1 : ELM K) (rank : List Nat) (k : Nat), Consistent e1.nnet ∧ e1.nnet.neurons = e.nnet.neurons ∧
      rank.Nodup ∧ (∀ i ∈ rank, i < size e.nnet) ∧ e1.refit env (rank.take k) X T = .ok r.2 ∧
      1 ≤ k ∧ k ≤ searchTop e ∧ ("V" ∉ args → "CV" ∈ args → 3 ≤ k) ∧
      (e.rankingOP = false ∨ T.cols < 10 → rank.length = searchTop e) := by
  unfold ELM.trainBody at h
  split at h
  · split at h
    · obtain ⟨⟨Xv, Tv⟩, hck, h⟩ := bind_ok h
      obtain ⟨_, hTv, _⟩ := checkBoth_ok hck
      obtain ⟨r', hr, h⟩ := bind_ok h
      injection h with h
      rw [← h]
      unfold trainV at hr
      obtain ⟨e1, h1, hr⟩ := bind_ok hr
      obtain ⟨c, _, hr⟩ := bind_ok hr
      obtain ⟨Hv, hH, hr⟩ := bind_ok hr
      obtain ⟨rk, hrk, hr⟩ := bind_ok hr
      obtain ⟨_, _, hr⟩ := bind_ok hr
      obtain ⟨_, hpen, hr⟩ := bind_ok hr
      obtain ⟨m, hm, hr⟩ := bind_ok hr
      obtain ⟨e2, h2, hr⟩ := bind_ok hr
      injection hr with hr
      rw [← hr]
      have hrange := searched_range (lo := 1) (penaltyOf_pos hpen) (ranking_le hrk) (Or.inl (penaltyOf_pos hpen)) hm
      have hpos := penaltyOf_pos hpen
      have hc1 := addData_consistent hc h1
      obtain ⟨c', rfl⟩ := addData_fields h1
      have hcols : Hv.cols = size e.nnet := (project_WF hc1 hH).2.2
      obtain ⟨b1, b2, b3, b4, _⟩ := C40_ranking_partial env (rnd.shuffles 0) _ _ Hv _ (by rw [hcols]; exact hsh 0)
        (by rw [size_L hc1, hcols]; rfl) (r := rk.1) (k := rk.2) hrk
      have hL : rk.2 = searchTop e := by
        rw [b3, size_L hc1]
        unfold searchTop
        have g1 : (e.autoWc env (colSums T)).rankingOP = e.rankingOP := by unfold ELM.autoWc; split <;> rfl
        have g2 : (e.autoWc env (colSums T)).kmaxOp = e.kmaxOp := by unfold ELM.autoWc; split <;> rfl
        simp only [g1, g2]
        rfl
      refine ⟨_, rk.1, m.1, hc1, rfl, b1, fun i hi => by rw [← hcols]; exact b2 i hi, h2, hrange.1, ?_, ?_, ?_⟩
      · rw [← hL]; exact hrange.2
      · intro hv; exact absurd ‹_› hv
      · intro hop
        rw [← hL]
        exact b4 (by rw [hTv, ← hTo, show (e.autoWc env (colSums T)).rankingOP = e.rankingOP by unfold ELM.autoWc; split <;> rfl]; exact hop) hpos
    · cases h
  split at h
  · split at h
    · cases h
    · rename_i k hk
      obtain ⟨_, hk3, h⟩ := bind_ok h
      obtain ⟨r', hr, h⟩ := bind_ok h
      injection h with h
      rw [← h]
      unfold trainCV at hr
      obtain ⟨ds, hds, hr⟩ := bind_ok hr
      obtain ⟨_, _, hr⟩ := bind_ok hr
      obtain ⟨_, hpen, hr⟩ := bind_ok hr
      obtain ⟨m, hm, hr⟩ := bind_ok hr
      obtain ⟨_, _, hr⟩ := bind_ok hr
      obtain ⟨e2, h2, hr⟩ := bind_ok hr
      injection hr with hr
      rw [← hr]
      obtain ⟨b1, b2⟩ := cv_last_rank hx hT hN hc (fun i _ => hsh i) hds
      have hk0 : 0 < k.toNat := by
        have := pyAssert_ok hk3
        simp at this
        omega
      obtain ⟨b3, b4⟩ := cv_last_length (L0 := e.nnet.L.getD 0) hx hT hN hc hk0 (fun i _ => hsh i) hds
      have hpos := penaltyOf_pos hpen
      have hrange := searched_range (lo := 3) hpos le_rfl (by omega) hm
      rw [b3] at hrange hpos
      exact ⟨_, _, m.1, hc, rfl, b1, b2, h2, by omega, hrange.2, fun _ _ => hrange.1, fun h => b4 h hpos⟩
  split at h
  · obtain ⟨r', hr, h⟩ := bind_ok h
    injection h with h
    rw [← h]
    unfold trainLOO at hr
    obtain ⟨H, hH, hr⟩ := bind_ok hr
    obtain ⟨e1, h1, hr⟩ := bind_ok hr
    obtain ⟨c, _, hr⟩ := bind_ok hr
    obtain ⟨rk, hrk, hr⟩ := bind_ok hr
    obtain ⟨_, _, hr⟩ := bind_ok hr
    obtain ⟨_, hpen, hr⟩ := bind_ok hr
    obtain ⟨m, hm, hr⟩ := bind_ok hr
    obtain ⟨e2, h2, hr⟩ := bind_ok hr
    injection hr with hr
    rw [← hr]
    have hrange := searched_range (lo := 1) (penaltyOf_pos hpen) (ranking_le hrk) (Or.inl (penaltyOf_pos hpen)) hm
    have hpos := penaltyOf_pos hpen
    have hc1 := addData_consistent hc h1
    obtain ⟨c', rfl⟩ := addData_fields h1
    have hcols : H.cols = size e.nnet := (project_WF hc hH).2.2
    obtain ⟨b1, b2, b3, b4, _⟩ := C40_ranking_partial env (rnd.shuffles 0) _ _ H _ (by rw [hcols]; exact hsh 0)
      (by rw [size_L hc1, hcols]; rfl) (r := rk.1) (k := rk.2) hrk
    have hL : rk.2 = searchTop e := by
      rw [b3, size_L hc1]
      unfold searchTop
      have g1 : (e.autoWc env (colSums T)).rankingOP = e.rankingOP := by unfold ELM.autoWc; split <;> rfl
      have g2 : (e.autoWc env (colSums T)).kmaxOp = e.kmaxOp := by unfold ELM.autoWc; split <;> rfl
      simp only [g1, g2]
      rfl
    refine ⟨_, rk.1, m.1, hc1, rfl, b1, fun i hi => by rw [← hcols]; exact b2 i hi, h2, hrange.1, ?_, ?_, ?_⟩
    · rw [← hL]; exact hrange.2
    · intro _ hcv; exact absurd hcv ‹_›
    · intro hop
      rw [← hL]
      exact b4 (by rw [show (e.autoWc env (colSums T)).rankingOP = e.rankingOP by unfold ELM.autoWc; split <;> rfl]; exact hop) hpos
  · rename_i h1 h2 h3
    rcases hsel with h | h | h
    · exact absurd h h1
    · exact absurd h h2
    · exact absurd h h3

theorem parseLoop_op (kw : Kwargs K) {m : Nat} (hm : kw.kmax = some m) (args : List String) {e e1 : ELM K}
    (h0 : e.rankingOP = true → e.kmaxOp = some m) (hg : "OP" ∈ args ∨ e.rankingOP = true) (h : parseLoop kw args e = (e1, .ok ())) :
    e1.rankingOP = true ∧ e1.kmaxOp = some m := by
  induction args generalizing e with
  | nil =>
    injection h with h _
    rw [← h]
    have : e.rankingOP = true := by simpa using hg
    exact ⟨this, h0 this⟩
  | cons a args ih =>
    unfold parseLoop at h
    have hk : ((parseOne kw e a).1.rankingOP = true → (parseOne kw e a).1.kmaxOp = some m) ∧
        (a = "OP" ∨ e.rankingOP = true → (parseOne kw e a).1.rankingOP = true) := by
      unfold parseOne
      rw [hm]
      by_cases ha : a = "OP"
      · rw [if_pos ha]
        exact ⟨fun _ => rfl, fun _ => rfl⟩
      · rw [if_neg ha]
        have hsimp : (a = "OP" ∨ e.rankingOP = true) ↔ e.rankingOP = true := by simp [ha]
        rw [hsimp]
        split_ifs <;> (try exact ⟨h0, id⟩)
        simp only
        split
        · exact ⟨h0, id⟩
        · split_ifs <;> exact ⟨h0, id⟩
    split at h
    · cases h
    · rename_i e2 he2
      rw [he2] at hk
      refine ih hk.1 ?_ h
      rcases hg with hg | hg
      · rcases List.mem_cons.1 hg with h | h
        · exact Or.inr (hk.2 (Or.inl h.symm))
        · exact Or.inl h
      · exact Or.inr (hk.2 (Or.inr hg))

/-- The 'OP' flag and `kmax` are recorded. -/
theorem parseArgs_op {kw : Kwargs K} {m : Nat} (hm : kw.kmax = some m) {args : List String} (hg : Given args "OP") {e e1 : ELM K}
    (h : e.parseArgs args kw = (e1, .ok ())) : e1.rankingOP = true ∧ e1.kmaxOp = some m := by
  unfold ELM.parseArgs at h
  split at h
  · cases h
  simp only at h
  split at h
  · cases h
  split at h
  · cases h
  split at h
  · cases h
  · rename_i e2 he
    injection h with h _
    have := parseLoop_op kw hm _ (by simp) (Or.inl hg) he
    rw [← h]
    split <;> exact this

theorem checkBoth_mats {fs : Files K} {n : NNet K} {X T X' T' : Mat K} (h1 : checkBoth fs n (.mat X) (.mat T) = .ok (X', T')) :
    X' = X ∧ T' = T := by
  unfold checkBoth checkData checkOne at h1
  simp only [bind_assoc, pure_bind] at h1
  obtain ⟨_, _, h1⟩ := bind_ok h1
  obtain ⟨_, _, h1⟩ := bind_ok h1
  obtain ⟨_, _, h1⟩ := bind_ok h1
  injection h1 with h1
  injection h1 with h1 h2
  exact ⟨h1.symm, h2.symm⟩

/-- C31 (size returned).  Whatever selection method is asked for, the network that comes back has at most as many neurons as the one given, at
most `kmax` when the 'OP' ranking is limited by `kmax`, at least one, and at least three with cross-validation (the smallest sizes
these methods try).  The lower bounds are for rankings that rank everything: no 'OP', or fewer than ten outputs. -/
theorem C31_returned_size (env : Env K) (hx : env.Exact) (e e' : ELM K) (X T : Mat K) (args : List String)
    (kw : Kwargs K) (h : SelectedTrain env e X T args kw e') :
    size e'.nnet ≤ size e.nnet ∧
    (∀ m, Given args "OP" → kw.kmax = some m → size e'.nnet ≤ m) ∧
    (¬ Given args "OP" ∨ e.nnet.outputs < 10 → 1 ≤ size e'.nnet ∧ ("V" ∉ args → "CV" ∈ args → 3 ≤ size e'.nnet)) := by
  obtain ⟨fs, rnd, r, hsh, hr⟩ := h.run
  obtain ⟨X', T', e0, h1, h2, h3⟩ := train_ok hr
  obtain ⟨rfl, rfl⟩ := checkBoth_mats h1
  obtain ⟨_, hTo, hN⟩ := checkBoth_ok h1
  obtain ⟨_, q2, _⟩ := parseArgs_kw h2
  have hc0 : Consistent e0.nnet := by rw [q2]; exact reset_consistent h.consistent
  have hs0 : size e0.nnet = size e.nnet := by rw [q2]; rfl
  obtain ⟨e1, rank, k, c1, c2, c3, c4, c5, c6, c7, c8, c9⟩ := selection_size hx hc0 h.targets hN (by rw [hTo, q2]; rfl) h.selection
    (by rw [hs0]; exact hsh) h3
  have hs1 : size e1.nnet = size e.nnet := by unfold size; rw [c2, q2]; rfl
  have hsz : size e'.nnet = (rank.take k).length := by
    rw [(refit_neurons c1 c5).2, List.filter_eq_self.2]
    intro i hi
    rw [hs1, ← hs0]
    simpa using c4 i (List.mem_of_mem_take hi)
  have htop : searchTop e0 ≤ size e.nnet := by
    rw [← hs0]
    unfold searchTop
    split <;> omega
  have hop : ¬ Given args "OP" → e0.rankingOP = false := fun hg =>
    parseArgs_inv h2 (fun e => e.rankingOP = false) rfl (fun a ha e he _ => parseOne_rank kw e a (fun h => hg (h ▸ ha)) he) (fun _ _ h => h)
  refine ⟨?_, ?_, ?_⟩
  · rw [hsz, List.length_take]
    omega
  · intro m hg hm
    have hop' : e0.rankingOP = true ∧ e0.kmaxOp = some m := parseArgs_op hm hg h2
    rw [hsz, List.length_take]
    have : searchTop e0 ≤ m := by
      unfold searchTop
      rw [hop'.1, hop'.2]
      exact min_le_left _ _
    omega
  · intro hg
    have hlen := c9 (by
      rcases hg with hg | hg
      · exact Or.inl (hop hg)
      · exact Or.inr (by rw [hTo]; exact hg))
    rw [hsz, List.length_take, hlen]
    refine ⟨by omega, fun a b => ?_⟩
    have := c8 a b
    omega

/-- The hypotheses are met: a network of three neurons selected by three-fold cross-validation comes back with its three neurons. -/
example : ∃ e', SelectedTrain (lawEnv QEnv.env) exModel3 ⟨1, [[1], [2], [3], [5]]⟩ ⟨1, [[1], [0], [3], [2]]⟩ ["CV"] { k := some 3 } e' ∧
    size e'.nnet = 3 := by
  have hT : (⟨1, [[1], [0], [3], [2]]⟩ : Mat ℚ).WF := by
    show ∀ r ∈ ([[1], [0], [3], [2]] : List (List ℚ)), r.length = 1
    decide
  obtain ⟨v, e', h1, h2, h3⟩ := C35_cv_completes_partial (lawEnv QEnv.env) (lawEnv_lawful _).toShapes (fun _ => none) ⟨fun _ => [2, 0, 1]⟩
    exModel3 exModel3 ⟨1, [[1], [2], [3], [5]]⟩ ⟨1, [[1], [0], [3], [2]]⟩ _ ["CV"] { k := some 3 } 3 (by decide) (by decide)
      (by decide) rfl (by omega) (by decide) rfl rfl rfl hT (by decide) exModel3_consistent (by decide) rfl rfl (by decide) (by
        intro i _
        show List.Perm [2, 0, 1] (List.range 3)
        decide)
  have hs : SelectedTrain (lawEnv QEnv.env) exModel3 ⟨1, [[1], [2], [3], [5]]⟩ ⟨1, [[1], [0], [3], [2]]⟩ ["CV"] { k := some 3 } e' :=
    ⟨exModel3_consistent, by decide +kernel, by decide, hT, _, _, _, fun i => (by decide : List.Perm [2, 0, 1] (List.range 3)), h1⟩
  obtain ⟨c1, _, c3⟩ := C31_returned_size _ (lawEnv_exact _) _ _ _ _ _ _ hs
  exact ⟨e', hs, le_antisymm c1 ((c3 (Or.inr (by decide))).2 (by decide) (by decide))⟩

end Hpelm.Props
