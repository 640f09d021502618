import Verif.Lemmas.Unweighted
import Verif.Props.C31_C33_Search
import Verif.Props.C34_C35_CrossValidation
import Verif.Props.C40_C41_Ranking

/-!
# C37–C39: what structure selection measures, and what it returns
-/

set_option linter.unusedSectionVars false

namespace Hpelm.Props
open Spec Finset
variable {K : Type} [Field K] [LinearOrder K]

section
variable [IsStrictOrderedRing K]

/-! ### C37 -/

/-- C37 (algebraic core, any neuron subset).  Let `H` be the hidden-layer outputs of the training samples, `T` the targets and
`(S, HT)` the regularised correlation matrices, as accumulated by training.  For regression and every list `idx` of distinct
neurons, the score LOO selection computes from the sub-matrices is defined and is *the* leave-one-out error of the network made of
these neurons: refit without one sample, predict that sample, square, average. -/
theorem C37_press_exact (env : Env K) (hlw : Lawful env) (e : ELM K)
    (hc : e.classification ≠ some "c" ∧ e.classification ≠ some "wc" ∧ e.classification ≠ some "ml") (H T S HT : Mat K) (lam : K)
    (hl : 0 < lam) (hT : T.WF) (hN : 0 < T.nrows) (hC : 0 < T.cols) (h : IsCorr H T (fun _ => 1) lam S HT) (idx : List Nat)
    (hn : idx.Nodup) (hb : ∀ i ∈ idx, i < H.cols) :
    ∃ v, scoreLOO env e (subSquare S idx) (HT.selRows idx) (H.selCols idx) T = .ok v ∧ IsLooError (H.selCols idx) T lam v ∧
      ∀ v', IsLooError (H.selCols idx) T lam v' → v' = v := by
  obtain ⟨v, h1, h2⟩ := scoreLOO_exact hlw e hc (h.sub hn hb) hl (Mat.selCols_WF _ _) hT hN hC
  exact ⟨v, h1, h2, fun v' h' => isLooError_unique hl h' h2⟩

/-- What the error array of a LOO search over a ranking means: entry `n` is the leave-one-out error of the first `n` ranked neurons
plus the size penalty; the top entry is that of the full network. -/
def LooEntries (H T : Mat K) (lam : K) (rank : List Nat) (L : Nat) (pen : K) (errs : List K) : Prop :=
  ∀ n < errs.length, errs.getD n 0 ≠ -1 →
    ∃ v, errs.getD n 0 = v + n * pen ∧ (n ≠ L → IsLooError (H.selCols (rank.take n)) T lam v) ∧ (n = L → IsLooError H T lam v)

theorem size_L {n : NNet K} (hc : Consistent n) : n.L.getD 0 = size n := by
  rcases hc.count with h | ⟨h, h'⟩
  · rw [h]; rfl
  · rw [h]; unfold size; rw [h']; rfl

theorem ranking_congr {env : Env K} {sh : List Nat} {e e' : ELM K} (h1 : e'.rankingOP = e.rankingOP) (h2 : e'.kmaxOp = e.kmaxOp) (L : Nat)
    (H T : Mat K) : e'.ranking env sh L H T = e.ranking env sh L H T := by
  unfold ELM.ranking
  rw [h1, h2]

/-- C37 (the training call).  Whenever LOO selection on a freshly reset regression model succeeds, all errors it compares are exact
leave-one-out errors of networks of distinct neurons plus the size penalty (1% of the leave-one-out error `full` of the full network,
shared out over the `L` ranked neurons), for both ranking methods; and the selected size has the smallest of these errors. -/
theorem C37_loo_training (env : Env K) (hlw : Lawful env) (hx : env.Exact) (sh : List Nat) (e : ELM K) (X T : Mat K)
    (hc : e.classification ≠ some "c" ∧ e.classification ≠ some "wc" ∧ e.classification ≠ some "ml") (hcon : Consistent e.nnet)
    (hcorr : e.nnet.corr = none) (hnorm : 0 < e.nnet.norm) (hb : 0 < e.batch) (hN : X.nrows = T.nrows) (hT : T.WF) (hC : 0 < T.cols)
    (hsh : sh.Perm (List.range (size e.nnet))) {e' : ELM K} {k : Nat} {errs : List K} (h : trainLOO env sh e X T = .ok (e', k, errs)) :
    ∃ H rank L full, e.nnet.project env X = .ok H ∧ IsLooError H T e.nnet.norm full ∧ rank.Nodup ∧ (∀ i ∈ rank, i < H.cols) ∧
      k ≤ L ∧ L ≤ H.cols ∧ LooEntries H T e.nnet.norm rank L (full * (1 / 100) / L) errs ∧
      errs.getD k 0 ≠ -1 ∧ errs.getD L 0 ≠ -1 ∧ ∀ n < errs.length, errs.getD n 0 ≠ -1 → errs.getD k 0 ≤ errs.getD n 0 := by
  obtain ⟨H, e1, HH, HT, rank, L, full, pen, h1, h2, h3, h4, h5, h6, h7⟩ :=
    C32_best_tried_loo env hx sh e X T (fun h => absurd h hc.2.1) (fun h => absurd h hc.2.1) h
  obtain ⟨H', S, HT', hpos, a1, a2, a3, a4, a5⟩ := addData_unw hx hc.2.1 hb hN hT hcorr h2
  rw [h1] at a1
  injection a1 with a1
  subst a1
  have hg : e1.nnet.getCorr = .ok (some (S, HT')) := by
    rw [a2]; exact getCorr_store _ a5.symm rfl
  rw [hg] at h3
  injection h3 with h3
  injection h3 with h3
  injection h3 with h3 h3'
  subst h3 h3'
  obtain ⟨w1, w2, w3⟩ := project_WF hcon h1
  have hcls : e1.classification = e.classification := by rw [a2]
  rw [ranking_congr (e := e) (by rw [a2]) (by rw [a2])] at h4
  have hL : e1.nnet.L.getD 0 = H.cols := by rw [a2]; exact a3.symm
  obtain ⟨r1, r2, r3, _, _⟩ := C40_ranking_partial env sh e (e1.nnet.L.getD 0) H T (by rw [w3]; exact hsh) hL h4
  have hLle : L ≤ H.cols := by
    rw [r3, hL]
    cases e.rankingOP with
    | false => exact le_refl _
    | true =>
      cases e.kmaxOp with
      | none => exact le_refl _
      | some km => exact Nat.min_le_right _ _
  have hNT : 0 < T.nrows := by omega
  rw [← hcls] at hc
  obtain ⟨v, v1, v2⟩ := scoreLOO_exact hlw e1 hc a5 hnorm w1 hT hNT hC
  rw [h5] at v1
  injection v1 with v1
  subst v1
  have hfull : 0 ≤ full := by
    obtain ⟨B, _, rfl⟩ := v2
    exact div_nonneg (Finset.sum_nonneg fun _ _ => Finset.sum_nonneg fun _ _ => sq_nonneg _) (Nat.cast_nonneg _)
  have htop : errs.getD L 0 ≠ -1 := by
    rw [h6.top]
    have : 0 ≤ full + L * pen := add_nonneg hfull (mul_nonneg (Nat.cast_nonneg _) h6.pen_nonneg)
    intro h0
    rw [h0] at this
    linarith
  refine ⟨H, rank, L, full, h1, v2, r1, r2, h6.range.2, hLle, ?_, h6.tried, htop, h6.best⟩
  rw [← h6.pen_eq]
  intro n hn hne
  by_cases hnL : n = L
  · exact ⟨full, by rw [hnL, h6.top], fun h => absurd hnL h, fun _ => v2⟩
  · obtain ⟨_, _, s, s1, _, s2⟩ := h6.entry n hn hnL hne
    obtain ⟨v, v1, v2, _⟩ := C37_press_exact env hlw e1 hc H T S HT' e.nnet.norm hnorm hT hNT hC a5 (rank.take n)
      (r1.sublist (List.take_sublist _ _)) (fun i hi => r2 i (List.mem_of_mem_take hi))
    rw [v1] at s1
    injection s1 with s1
    subst s1
    exact ⟨v, s2, fun _ => v2, fun h => absurd h hnL⟩

/-- LOO selection with random ranking completes on every regression data set with at least one sample. -/
theorem C37_loo_completes (env : Env K) (hlw : Lawful env) (hx : env.Exact) (sh : List Nat) (e : ELM K) (X T H : Mat K)
    (hc : e.classification ≠ some "c" ∧ e.classification ≠ some "wc" ∧ e.classification ≠ some "ml") (hcon : Consistent e.nnet)
    (hcorr : e.nnet.corr = none) (hnorm : 0 < e.nnet.norm) (hb : 0 < e.batch) (hN : X.nrows = T.nrows) (hn : 0 < X.nrows) (hT : T.WF)
    (hC : 0 < T.cols) (hTc : T.cols = e.nnet.outputs) (hop : e.rankingOP = false) (hs0 : 0 < size e.nnet) (hp : e.nnet.project env X = .ok H)
    (hsh : sh.Perm (List.range (size e.nnet))) : ∃ r, trainLOO env sh e X T = .ok r := by
  obtain ⟨w1, w2, w3⟩ := project_WF hcon hp
  have hL : e.nnet.L.getD 0 = H.cols := by rw [size_L hcon, w3]
  obtain ⟨e1, he1⟩ := addData_unw_total hc.2.1 hb hN hn hT hcorr hp hL hTc
  obtain ⟨H', S, HT', hpos, a1, a2, a3, a4, a5⟩ := addData_unw hx hc.2.1 hb hN hT hcorr he1
  rw [hp] at a1
  injection a1 with a1
  subst a1
  have hg : e1.nnet.getCorr! = .ok (S, HT') := by
    rw [a2]; exact getCorr!_store a5.symm rfl
  have hc1 : e1.classification ≠ some "c" ∧ e1.classification ≠ some "wc" ∧ e1.classification ≠ some "ml" := by rw [a2]; exact hc
  have hNT : 0 < T.nrows := by omega
  have hrk : e1.ranking env sh (e1.nnet.L.getD 0) H T = .ok (sh, H.cols) := by
    unfold ELM.ranking
    have : e1.rankingOP = false := by rw [a2]; exact hop
    rw [if_neg (by simp [this])]
    have : e1.nnet.L.getD 0 = H.cols := by rw [a2]; exact hL
    rw [this]
    rfl
  have hL1 : e1.nnet.L.getD 0 = H.cols := by rw [a2]; exact hL
  obtain ⟨full, hfull, _⟩ := scoreLOO_exact hlw e1 hc1 a5 hnorm w1 hT hNT hC
  have hscore : ∀ n, ∃ v, scoreLOO env e1 (subSquare S (sh.take n)) (HT'.selRows (sh.take n)) (H.selCols (sh.take n)) T = .ok v := by
    intro n
    obtain ⟨v, v1, _⟩ := C37_press_exact env hlw e1 hc1 H T S HT' e.nnet.norm hnorm hT hNT hC a5 (sh.take n)
      ((hsh.nodup_iff.2 List.nodup_range).sublist (List.take_sublist _ _))
      (fun i hi => by rw [w3]; exact List.mem_range.1 (hsh.mem_iff.1 (List.mem_of_mem_take hi)))
    exact ⟨v, v1⟩
  have hpos' : H.cols ≠ 0 := by omega
  have hmy : ∃ m, myopt 1 (H.cols : Int) (errArray H.cols H.cols (full + (H.cols : K) * (full * (1 / 100) / (H.cols : K)))) (fun idx => do
      let s ← scoreLOO env e1 (subSquare S (sh.take idx)) (HT'.selRows (sh.take idx)) (H.selCols (sh.take idx)) T
      pure (s + (idx : K) * (full * (1 / 100) / (H.cols : K)))) = .ok m := by
    rcases myopt_cases (fun idx => do
      let s ← scoreLOO env e1 (subSquare S (sh.take idx)) (HT'.selRows (sh.take idx)) (H.selCols (sh.take idx)) T
      pure (s + (idx : K) * (full * (1 / 100) / (H.cols : K)))) 1 H.cols (by omega) (by omega)
        (errArray H.cols H.cols (full + (H.cols : K) * (full * (1 / 100) / (H.cols : K)))) (by rw [errArray_length]; omega) with ⟨n, x, _, _, h, _⟩ | ⟨k', e', h, l1, l2, _⟩
    · obtain ⟨s, hs⟩ := hscore n
      simp only [hs] at h
      cases h
    · exact ⟨_, h⟩
  obtain ⟨m, hm⟩ := hmy
  have hcon1 : Consistent e1.nnet := addData_consistent hcon he1
  obtain ⟨e', he'⟩ := refit_total (best := sh.take m.1) hcon1 hN hT (by rw [a2]; exact hTc) (by rw [a2]; exact hp : e1.nnet.project env X = .ok H)
  refine ⟨(e', m.1, m.2), ?_⟩
  unfold trainLOO
  simp only [hp, he1, hg, hrk, hfull, bind, Except.bind]
  unfold penaltyOf
  rw [if_neg hpos']
  simp only [hL1]
  have := hm
  simp only [bind, Except.bind] at this
  rw [this]
  simp only [he']
  rfl

/-- The hypotheses of `C37_loo_completes` and `C37_loo_training` are met: four neurons, four samples, a lawful exact environment. -/
example : ∃ r, trainLOO (lawEnv QEnv.env) [2, 0, 3, 1] (exModel4 none none 1) ⟨1, [[1], [2], [3], [5]]⟩ ⟨1, [[1], [0], [3], [2]]⟩ = .ok r :=
  C37_loo_completes (lawEnv QEnv.env) (lawEnv_lawful _) (lawEnv_exact _) _ _ _ _ _ ⟨by decide, by decide, by decide⟩ (exModel4_consistent _ _ _) rfl
    (by decide +kernel) (by decide) rfl (by decide) (by
        show ∀ r ∈ ([[1], [0], [3], [2]] : List (List ℚ)), r.length = 1
        decide) (by decide) rfl rfl (by decide) rfl (by
        show List.Perm [2, 0, 3, 1] (List.range 4)
        decide)

/-! ### C38 -/

/-- What the entries of a validation search mean: entry `n` is the validation error of the network of the first `n` ranked neurons,
trained (ridge regression) on the training data, plus the size penalty. -/
def ValEntries (cls : Option String) (wc : Option (List (Option K))) (H T Hv Tv : Mat K) (lam : K) (rank : List Nat) (pen : K) (errs : List K) : Prop :=
  ∀ n < errs.length, errs.getD n 0 ≠ -1 → ∃ B s, B.WF ∧ B.nrows = n ∧ B.cols = T.cols ∧
    NormalEq (H.selCols (rank.take n)) T (fun _ => 1) lam B ∧
    IsError cls wc Tv ((Hv.selCols (rank.take n)).mul B) s ∧ errs.getD n 0 = s + n * pen

/-- The ranking covers the whole network: random order, or MRSR without a cut-off below the network size. -/
def FullRanking (e : ELM K) (T : Mat K) : Prop :=
  e.rankingOP = false ∨ (T.cols < 10 ∧ ∀ km, e.kmaxOp = some km → size e.nnet ≤ km)

theorem rank_full {env : Env K} {sh : List Nat} {e : ELM K} {H T : Mat K} {rank : List Nat} {L : Nat} (hs : H.cols = size e.nnet)
    (h0 : 0 < size e.nnet) (hsh : sh.Perm (List.range (size e.nnet))) (hf : FullRanking e T) (h : e.ranking env sh H.cols H T = .ok (rank, L)) :
    rank.Perm (List.range H.cols) ∧ L = H.cols := by
  obtain ⟨r1, r2, r3, r4, _⟩ := C40_ranking_partial env sh e H.cols H T (by rw [hs]; exact hsh) rfl h
  have hL : L = H.cols := by
    rw [r3]
    rcases hf with hf | ⟨_, hf⟩
    · rw [hf]
    · cases e.rankingOP with
      | false => rfl
      | true =>
        cases hk : e.kmaxOp with
        | none => rfl
        | some km =>
          have := hf km hk
          simp only
          omega
  refine ⟨?_, hL⟩
  have hlen : rank.length = H.cols := by
    rw [← hL]
    apply r4
    · rcases hf with hf | ⟨hf, _⟩
      · exact Or.inl hf
      · exact Or.inr hf
    · omega
  apply List.perm_of_nodup_nodup_toFinset_eq r1 List.nodup_range
  apply Finset.eq_of_subset_of_card_le
  · intro i hi
    rw [List.mem_toFinset] at hi ⊢
    exact List.mem_range.2 (r2 i hi)
  · rw [List.toFinset_card_of_nodup r1, List.toFinset_card_of_nodup List.nodup_range, hlen, List.length_range]

/-- Predictions of the returned model are those of the network that was scored. -/
theorem refit_predicts {env : Env K} (hlw : Lawful env) (hx : env.Exact) {e e' : ELM K} {X T H S HT : Mat K} (hcon : Consistent e.nnet)
    (hN : X.nrows = T.nrows) (hT : T.WF) (hnorm : 0 < e.nnet.norm) (hp : e.nnet.project env X = .ok H)
    (hS : IsCorr H T (fun _ => 1) e.nnet.norm S HT) {best : List Nat} (hn : best.Nodup) (hb : ∀ i ∈ best, i < H.cols)
    (h : e.refit env best X T = .ok e') {Xq Hq : Mat K} (hq : e.nnet.project env Xq = .ok Hq) :
    e'.nnet.predict env Xq = .ok ((Hq.selCols best).mul (e.nnet.solveCorr env (subSquare S best) (HT.selRows best))) ∧
    ∃ keep, keep.Perm best ∧ e'.nnet.project env X = .ok (H.selCols keep) := by
  obtain ⟨keep, S', HT', k1, k2, k3, k4⟩ := refit_model hx hcon hN hT hp h
  obtain ⟨w1, w2, w3⟩ := project_WF hcon hp
  have hfil : best.filter (· < size e.nnet) = best := by
    rw [List.filter_eq_self]
    intro i hi
    simpa [← w3] using hb i hi
  rw [hfil] at k1
  have hbk : ∀ i ∈ keep, i < H.cols := fun i hi => hb i (k1.mem_iff.1 hi)
  obtain ⟨d1, d2⟩ := k2.det (hS.sub (k1.nodup_iff.2 hn) hbk)
  obtain ⟨s1, s2, s3, s4⟩ := k2.solve hlw hx (e.nnet.prune best) hnorm (fun _ _ => zero_le_one) (Or.inr rfl)
  have hsol : e.nnet.solveCorr env ((e.nnet.prune best).store S') HT' = (e.nnet.prune best).solveCorr env ((e.nnet.prune best).store S') HT' :=
    solveCorr_congr rfl rfl _ _
  rw [hsol] at k3
  refine ⟨?_, keep, k1, k4 X H hp⟩
  have hpq := k4 Xq Hq hq
  have hBe : e'.nnet.B = some ((e.nnet.prune best).solveCorr env ((e.nnet.prune best).store S') HT') := by rw [k3]
  unfold NNet.predict
  rw [hBe]
  simp only [hpq, bind, Except.bind]
  rw [if_neg (by rw [s3]; simp)]
  show Except.ok _ = Except.ok _
  congr 1
  obtain ⟨t1, t2, t3, t4⟩ := (hS.sub hn hb).solve hlw hx e.nnet hnorm (fun _ _ => zero_le_one) (Or.inl rfl)
  refine hS.perm hnorm (fun _ _ => zero_le_one) hn hb k1 t2 s2 (by simpa using t3) (by simpa using s3) t1 ?_
  rw [← d1, ← d2]
  exact s1

/-- C38, validation (partial: unweighted, and a ranking of the whole network).  Whenever selection by validation on a freshly reset model
succeeds, every error it compares is the validation error of a network of the ranked neurons trained on the training data, plus the size
penalty (1% of the validation error `full` of the full network, shared out over the neurons); the selected size has the smallest of these
errors, and is no worse than that of the full network; and the returned model has the selected number of neurons, and its own predictions
on the validation data have exactly the error that was recorded for the selected size.
Missing from C38: a cut-off below the network size (refuted, `C38_cutoff_refuted`), rankings shortened by the number of samples, and weighted
classification (refuted, `C39_weights_lost_refuted`). -/
theorem C38_validation_partial (env : Env K) (hlw : Lawful env) (hx : env.Exact) (sh : List Nat) (e : ELM K) (X T Xv Tv : Mat K)
    (hc : e.classification ≠ some "wc") (hcon : Consistent e.nnet) (hcorr : e.nnet.corr = none) (hnorm : 0 < e.nnet.norm) (hb : 0 < e.batch)
    (hN : X.nrows = T.nrows) (hT : T.WF) (hTv : Tv.WF) (hsh : sh.Perm (List.range (size e.nnet))) (hf : FullRanking e Tv)
    {e' : ELM K} {k : Nat} {errs : List K} (h : trainV env sh e X T Xv Tv = .ok (e', k, errs)) :
    ∃ H Hv rank full B, e.nnet.project env X = .ok H ∧ e.nnet.project env Xv = .ok Hv ∧ rank.Perm (List.range (size e.nnet)) ∧
      B.WF ∧ B.nrows = H.cols ∧ B.cols = T.cols ∧ NormalEq H T (fun _ => 1) e.nnet.norm B ∧
      IsError e.classification e.wc Tv (Hv.mul B) full ∧
      ValEntries e.classification e.wc H T Hv Tv e.nnet.norm rank (full * (1 / 100) / size e.nnet) errs ∧
      errs.getD k 0 ≠ -1 ∧ (∀ n < errs.length, errs.getD n 0 ≠ -1 → errs.getD k 0 ≤ errs.getD n 0) ∧
      size e'.nnet = k ∧ ∃ Y s, e'.nnet.predict env Xv = .ok Y ∧ IsError e'.classification e'.wc Tv Y s ∧
        errs.getD k 0 = s + k * (full * (1 / 100) / size e.nnet) ∧
        errs.getD k 0 ≤ full + size e.nnet * (full * (1 / 100) / size e.nnet) := by
  obtain ⟨e1, HH, HT, Hv, rank, L, full, pen, h1, h2, h3, h4, h5, h6, h7⟩ :=
    C32_best_tried_validation env hx sh e X T Xv Tv (fun h => absurd h hc) (fun h => absurd h hc) h
  obtain ⟨H, S, HT', hpos, a1, a2, a3, a4, a5⟩ := addData_unw hx hc hb hN hT hcorr h1
  have hg : e1.nnet.getCorr = .ok (some (S, HT')) := by
    rw [a2]; exact getCorr_store _ a5.symm rfl
  rw [hg] at h2
  injection h2 with h2
  injection h2 with h2
  injection h2 with h2 h2'
  subst h2 h2'
  have hp1 : ∀ A, e1.nnet.project env A = e.nnet.project env A := fun A => project_congr (by rw [a2]) (by rw [a2]) A
  rw [hp1] at h3
  obtain ⟨w1, w2, w3⟩ := project_WF hcon a1
  obtain ⟨v1, v2, v3⟩ := project_WF hcon h3
  rw [ranking_congr (e := e) (by rw [a2]) (by rw [a2])] at h4
  have hL0 : e1.nnet.L.getD 0 = Hv.cols := by
    have : e1.nnet.L = e.nnet.L := by rw [a2]
    rw [this, size_L hcon, v3]
  rw [hL0] at h4
  have hk1 := h6.range.1
  have hkL := h6.range.2
  have hsz : 0 < size e.nnet := by
    have : L ≤ Hv.cols := ranking_le (r := (rank, L)) h4
    omega
  obtain ⟨hrank, hL⟩ := rank_full v3 hsz hsh hf h4
  have hHv : Hv.cols = H.cols := by rw [v3, w3]
  have hn : rank.Nodup := hrank.nodup_iff.2 List.nodup_range
  have hb' : ∀ i ∈ rank, i < H.cols := fun i hi => hHv ▸ List.mem_range.1 (hrank.mem_iff.1 hi)
  have hlen : rank.length = H.cols := by rw [hrank.length_eq, List.length_range, hHv]
  have hcls : e1.classification = e.classification := by rw [a2]
  have hwc : e1.wc = e.wc := by rw [a2]
  have hsc : ∀ A B, e1.nnet.solveCorr env A B = e.nnet.solveCorr env A B := fun A B => solveCorr_congr (by rw [a2]) (by rw [a2]) A B
  have hfullY : (Hv.selCols rank).mul (e.nnet.solveCorr env (subSquare S rank) (HT'.selRows rank)) = Hv.mul (e.nnet.solveCorr env S HT') :=
    a5.perm_full hlw hx e.nnet hnorm (fun _ _ => zero_le_one) v1 hHv (by rw [← hHv]; exact hrank)
  have hent : ∀ n < errs.length, errs.getD n 0 ≠ -1 → n ≤ H.cols ∧ ∃ s,
      elmError e.classification e.wc Tv ((Hv.selCols (rank.take n)).mul (e.nnet.solveCorr env (subSquare S (rank.take n)) (HT'.selRows (rank.take n)))) = .ok s ∧
      errs.getD n 0 = s + n * pen := by
    intro n hn1 hn2
    by_cases hnL : n = L
    · have hnH : n = H.cols := by omega
      refine ⟨by omega, full, ?_, by rw [hnL, h6.top]⟩
      have : rank.take n = rank := List.take_of_length_le (by omega)
      rw [this, hfullY, ← hcls, ← hwc, ← hsc]
      exact h5
    · obtain ⟨_, g1, s, s1, _, s2⟩ := h6.entry n hn1 hnL hn2
      refine ⟨by omega, s, ?_, s2⟩
      unfold scoreV at s1
      simp only at s1
      rw [hcls, hwc, hsc] at s1
      exact s1
  obtain ⟨f1, f2, f3, f4⟩ := a5.solve hlw hx e.nnet hnorm (fun _ _ => zero_le_one) (Or.inl rfl)
  have hpen : pen = full * (1 / 100) / (size e.nnet : K) := by rw [h6.pen_eq, hL, v3]
  refine ⟨H, Hv, rank, full, e.nnet.solveCorr env S HT', a1, h3, by rw [← v3]; exact hrank, f2, f3, f4,
    solve_normalEq a5.rowsS f3 f4 a5.sumS a5.sumT f1, ?_, ?_, h6.tried, h6.best, ?_⟩
  · rw [← hcls, ← hwc, ← hsc]
    exact elmError_isError hTv (Mat.mul_WF _ _) h5
  all_goals rw [← hpen]
  · intro n hn1 hn2
    obtain ⟨g1, s, s1, s2⟩ := hent n hn1 hn2
    have hsub := a5.sub (idx := rank.take n) (hn.sublist (List.take_sublist _ _)) (fun i hi => hb' i (List.mem_of_mem_take hi))
    obtain ⟨t1, t2, t3, t4⟩ := hsub.solve hlw hx e.nnet hnorm (fun _ _ => zero_le_one) (Or.inl rfl)
    refine ⟨_, s, t2, ?_, t4, ?_, elmError_isError hTv (Mat.mul_WF _ _) s1, s2⟩
    · rw [t3, Mat.selCols_cols, List.length_take]; omega
    · exact solve_normalEq hsub.rowsS t3 t4 hsub.sumS hsub.sumT t1
  · have hklen : k < errs.length := (C31_selected_in_range env e X T Xv Tv).1 sh _ h |>.2
    obtain ⟨g1, s, s1, s2⟩ := hent k hklen h6.tried
    have hcon1 : Consistent e1.nnet := addData_consistent hcon h1
    obtain ⟨p1, keep, p2, p3⟩ := refit_predicts hlw hx hcon1 hN hT (by rw [a2]; exact hnorm) (by rw [hp1]; exact a1)
      (by rw [a2]; exact a5 : IsCorr H T (fun _ => 1) e1.nnet.norm S HT') (hn.sublist (List.take_sublist k rank)) (fun i hi => hb' i (List.mem_of_mem_take hi)) h7
      (by rw [hp1]; exact h3 : e1.nnet.project env Xv = .ok Hv)
    refine ⟨?_, _, s, p1, ?_, s2, by have := h6.full_le; rwa [hL, v3] at this⟩
    · obtain ⟨_, _, q⟩ := project_WF (refit_consistent hlw.toShapes hcon1 h7) p3
      rw [← q, Mat.selCols_cols, p2.length_eq, List.length_take]
      omega
    · obtain ⟨_, c2⟩ := refit_bcls h7
      rw [c2, refit_wc h7, hcls, hwc, hsc]
      exact elmError_isError hTv (Mat.mul_WF _ _) s1

/-- Selection by validation with random ranking completes on every data set, if the validation set is not empty. -/
theorem C38_validation_completes (env : Env K) (hlw : Lawful env) (hx : env.Exact) (sh : List Nat) (e : ELM K) (X T Xv Tv H Hv : Mat K)
    (hc : e.classification ≠ some "wc") (hcon : Consistent e.nnet) (hcorr : e.nnet.corr = none) (hnorm : 0 < e.nnet.norm) (hb : 0 < e.batch)
    (hN : X.nrows = T.nrows) (hn : 0 < X.nrows) (hT : T.WF) (hTc : T.cols = e.nnet.outputs) (hTv : Tv.WF) (hTvc : Tv.cols = e.nnet.outputs)
    (hNv : Xv.nrows = Tv.nrows) (hnv : 0 < Xv.nrows) (ho : 0 < e.nnet.outputs)
    (hop : e.rankingOP = false) (hs0 : 0 < size e.nnet) (hp : e.nnet.project env X = .ok H) (hpv : e.nnet.project env Xv = .ok Hv)
    (hsh : sh.Perm (List.range (size e.nnet))) : ∃ r, trainV env sh e X T Xv Tv = .ok r := by
  obtain ⟨w1, w2, w3⟩ := project_WF hcon hp
  obtain ⟨v1, v2, v3⟩ := project_WF hcon hpv
  have hL : e.nnet.L.getD 0 = H.cols := by rw [size_L hcon, w3]
  obtain ⟨e1, he1⟩ := addData_unw_total hc hb hN hn hT hcorr hp hL hTc
  obtain ⟨H', S, HT', hpos, a1, a2, a3, a4, a5⟩ := addData_unw hx hc hb hN hT hcorr he1
  rw [hp] at a1
  injection a1 with a1
  subst a1
  have hg : e1.nnet.getCorr! = .ok (S, HT') := by
    rw [a2]; exact getCorr!_store a5.symm rfl
  have hc1 : e1.classification ≠ some "wc" := by rw [a2]; exact hc
  have hL1 : e1.nnet.L.getD 0 = H.cols := by rw [a2]; exact hL
  have hrk : e1.ranking env sh (e1.nnet.L.getD 0) Hv Tv = .ok (sh, H.cols) := by
    unfold ELM.ranking
    have : e1.rankingOP = false := by rw [a2]; exact hop
    rw [if_neg (by simp [this]), hL1]
    rfl
  have hpv1 : e1.nnet.project env Xv = .ok Hv := by rw [a2]; exact hpv
  have hcol : HT'.cols = Tv.cols := by rw [a5.colsT, hTc, hTvc]
  obtain ⟨full, hfull⟩ := solve_shape_total hlw.toShapes e1.nnet (cls := e1.classification) (wc := e1.wc) (Hq := Hv) (Tq := Tv) a5.wfS a5.wfT
    (by rw [a5.rowsS, a5.colsS]) (by rw [a5.rowsT, a5.rowsS]) hTv (by omega) hcol (by omega) (by omega) (fun h => absurd h hc1)
  have hscore : ∀ n, ∃ v, scoreV env e1 S HT' Hv Tv (sh.take n) = .ok v := by
    intro n
    have hsub := a5.sub (idx := sh.take n) ((hsh.nodup_iff.2 List.nodup_range).sublist (List.take_sublist _ _))
      (fun i hi => by rw [w3]; exact List.mem_range.1 (hsh.mem_iff.1 (List.mem_of_mem_take hi)))
    exact solve_shape_total hlw.toShapes e1.nnet hsub.wfS hsub.wfT (by rw [hsub.rowsS, hsub.colsS]) (by rw [hsub.rowsT, hsub.rowsS]) hTv
      (by simp; omega) (by simpa using hcol) (by omega) (by omega) (fun h => absurd h hc1)
  have hpos' : H.cols ≠ 0 := by omega
  have hmy : ∃ m, myopt 1 (H.cols : Int) (errArray H.cols H.cols (full + (H.cols : K) * (full * (1 / 100) / (H.cols : K)))) (fun idx => do
      let s ← scoreV env e1 S HT' Hv Tv (sh.take idx)
      pure (s + (idx : K) * (full * (1 / 100) / (H.cols : K)))) = .ok m := by
    rcases myopt_cases (fun idx => do
      let s ← scoreV env e1 S HT' Hv Tv (sh.take idx)
      pure (s + (idx : K) * (full * (1 / 100) / (H.cols : K)))) 1 H.cols (by omega) (by omega)
        (errArray H.cols H.cols (full + (H.cols : K) * (full * (1 / 100) / (H.cols : K)))) (by rw [errArray_length]; omega) with ⟨n, x, _, _, h, _⟩ | ⟨k', e', h, l1, l2, _⟩
    · obtain ⟨s, hs⟩ := hscore n
      simp only [hs] at h
      cases h
    · exact ⟨_, h⟩
  obtain ⟨m, hm⟩ := hmy
  have hcon1 : Consistent e1.nnet := addData_consistent hcon he1
  obtain ⟨e', he'⟩ := refit_total (best := sh.take m.1) hcon1 hN hT (by rw [a2]; exact hTc) (by rw [a2]; exact hp : e1.nnet.project env X = .ok H)
  refine ⟨(e', m.1, m.2), ?_⟩
  unfold trainV
  simp only [he1, hg, hpv1, hrk, hfull, bind, Except.bind]
  unfold penaltyOf
  rw [if_neg hpos']
  simp only [hL1]
  have := hm
  simp only [bind, Except.bind] at this
  rw [this]
  simp only [he']
  rfl

/-- The hypotheses of `C38_validation_completes` and `C38_validation_partial` are met. -/
example : FullRanking (exModel4 none none 1) ⟨1, [[1], [0]]⟩ ∧ ∃ r, trainV (lawEnv QEnv.env) [2, 0, 3, 1] (exModel4 none none 1) ⟨1, [[1], [2], [3], [5]]⟩ ⟨1, [[1], [0], [3], [2]]⟩
    ⟨1, [[2], [0]]⟩ ⟨1, [[1], [0]]⟩ = .ok r :=
  ⟨Or.inl rfl, C38_validation_completes (lawEnv QEnv.env) (lawEnv_lawful _) (lawEnv_exact _) _ _ _ _ _ _ _ _ (by decide) (exModel4_consistent _ _ _) rfl
    (by decide +kernel) (by decide) rfl (by decide) (by
        show ∀ r ∈ ([[1], [0], [3], [2]] : List (List ℚ)), r.length = 1
        decide) rfl (by
        show ∀ r ∈ ([[1], [0]] : List (List ℚ)), r.length = 1
        decide) rfl rfl (by decide) (by decide) rfl (by decide) rfl rfl (by
        show List.Perm [2, 0, 3, 1] (List.range 4)
        decide)⟩

/-- C38, LOO (partial: regression, a ranking of the whole network).  The returned model has the selected number of neurons, and the error
recorded for the selected size is the leave-one-out error of the returned model's own neurons plus the size penalty (1% of the
leave-one-out error `full` of the full network, shared out over the neurons); it is no worse than that of the full network. -/
theorem C38_loo_partial (env : Env K) (hlw : Lawful env) (hx : env.Exact) (sh : List Nat) (e : ELM K) (X T : Mat K)
    (hc : e.classification ≠ some "c" ∧ e.classification ≠ some "wc" ∧ e.classification ≠ some "ml") (hcon : Consistent e.nnet)
    (hcorr : e.nnet.corr = none) (hnorm : 0 < e.nnet.norm) (hb : 0 < e.batch) (hN : X.nrows = T.nrows) (hT : T.WF) (hC : 0 < T.cols)
    (hsh : sh.Perm (List.range (size e.nnet))) (hf : FullRanking e T) {e' : ELM K} {k : Nat} {errs : List K}
    (h : trainLOO env sh e X T = .ok (e', k, errs)) :
    size e'.nnet = k ∧ ∃ H H' full v, e.nnet.project env X = .ok H ∧ IsLooError H T e.nnet.norm full ∧
      e'.nnet.project env X = .ok H' ∧ IsLooError H' T e.nnet.norm v ∧ errs.getD k 0 = v + k * (full * (1 / 100) / size e.nnet) ∧
      errs.getD k 0 ≤ full + size e.nnet * (full * (1 / 100) / size e.nnet) := by
  obtain ⟨H, e1, HH, HT, rank, L, full, pen, h1, h2, h3, h4, h5, h6, h7⟩ :=
    C32_best_tried_loo env hx sh e X T (fun h => absurd h hc.2.1) (fun h => absurd h hc.2.1) h
  obtain ⟨H', S, HT', hpos, a1, a2, a3, a4, a5⟩ := addData_unw hx hc.2.1 hb hN hT hcorr h2
  rw [h1] at a1
  injection a1 with a1
  subst a1
  have hg : e1.nnet.getCorr = .ok (some (S, HT')) := by
    rw [a2]; exact getCorr_store _ a5.symm rfl
  rw [hg] at h3
  injection h3 with h3
  injection h3 with h3
  injection h3 with h3 h3'
  subst h3 h3'
  obtain ⟨w1, w2, w3⟩ := project_WF hcon h1
  have hcls : e1.classification = e.classification := by rw [a2]
  rw [ranking_congr (e := e) (by rw [a2]) (by rw [a2])] at h4
  have hL : e1.nnet.L.getD 0 = H.cols := by rw [a2]; exact a3.symm
  rw [hL] at h4
  have hk1 := h6.range.1
  have hkL := h6.range.2
  have hsz : 0 < size e.nnet := by
    have : L ≤ H.cols := ranking_le (r := (rank, L)) h4
    omega
  obtain ⟨hrank, hL'⟩ := rank_full w3 hsz hsh hf h4
  have hn : rank.Nodup := hrank.nodup_iff.2 List.nodup_range
  have hb' : ∀ i ∈ rank, i < H.cols := fun i hi => List.mem_range.1 (hrank.mem_iff.1 hi)
  have hlen : rank.length = H.cols := by rw [hrank.length_eq, List.length_range]
  have hNT : 0 < T.nrows := by omega
  have hc1 := hc
  rw [← hcls] at hc1
  have hcon1 : Consistent e1.nnet := addData_consistent hcon h2
  have hp1 : e1.nnet.project env X = .ok H := by rw [a2]; exact h1
  obtain ⟨_, keep, p2, p3⟩ := refit_predicts hlw hx hcon1 hN hT (by rw [a2]; exact hnorm) hp1
    (by rw [a2]; exact a5 : IsCorr H T (fun _ => 1) e1.nnet.norm S HT') (hn.sublist (List.take_sublist k rank)) (fun i hi => hb' i (List.mem_of_mem_take hi)) h7 hp1
  obtain ⟨v0, v1, v2⟩ := scoreLOO_exact hlw e1 hc1 a5 hnorm w1 hT hNT hC
  rw [h5] at v1
  injection v1 with v1
  subst v1
  have hpen : pen = full * (1 / 100) / (size e.nnet : K) := by rw [h6.pen_eq, hL', w3]
  refine ⟨?_, H, H.selCols keep, full, ?_⟩
  · obtain ⟨_, _, q⟩ := project_WF (refit_consistent hlw.toShapes hcon1 h7) p3
    rw [← q, Mat.selCols_cols, p2.length_eq, List.length_take]
    omega
  · rw [← hpen]
    have hklen : k < errs.length := (C31_selected_in_range env e X T X T).2.1 sh _ h |>.2
    have hle : errs.getD k 0 ≤ full + size e.nnet * pen := by have := h6.full_le; rwa [hL', w3] at this
    by_cases hkL2 : k = L
    · refine ⟨full, h1, v2, p3, ?_, by rw [hkL2, h6.top], hle⟩
      have hkeep : keep.Perm (List.range H.cols) := by
        rw [List.take_of_length_le (by omega)] at p2
        exact p2.trans hrank
      have e0 : H = H.selCols (List.range H.cols) := (Mat.selCols_range w1).symm
      rw [e0] at v2
      exact isLooError_perm List.nodup_range hkeep (by rw [w2, hN]) v2
    · obtain ⟨_, _, s, s1, _, s2⟩ := h6.entry k hklen hkL2 h6.tried
      obtain ⟨v, v1, v2, _⟩ := C37_press_exact env hlw e1 hc1 H T S HT' e.nnet.norm hnorm hT hNT hC a5 (rank.take k)
        (hn.sublist (List.take_sublist _ _)) (fun i hi => hb' i (List.mem_of_mem_take hi))
      rw [v1] at s1
      injection s1 with s1
      subst s1
      exact ⟨v, h1, by assumption, p3, isLooError_perm (hn.sublist (List.take_sublist _ _)) p2 (by rw [w2, hN]) v2, s2, hle⟩

end

/-- C38 is false with a cut-off below the network size: a call with four neurons and `kmax = 1` returns a one-neuron model whose own
validation error exceeds the penalised error recorded for it (which is the error of the network with all four neurons). -/
theorem C38_cutoff_refuted : ∃ (e : ELM ℚ) (X T Xv Tv : Mat ℚ) (e' : ELM ℚ) (k : Nat) (errs : List ℚ) (Y : Mat ℚ) (s : ℚ),
    trainV QEnv.env [] e X T Xv Tv = .ok (e', k, errs) ∧ e'.nnet.predict QEnv.env Xv = .ok Y ∧
    elmError e'.classification e'.wc Tv Y = .ok s ∧ errs.getD k 0 < s := by
  have h : ((trainV QEnv.env [] { exModel4 none none 1 with rankingOP := true, kmaxOp := some 1 } ⟨1, [[1], [2], [3], [-1]]⟩ ⟨1, [[1], [0], [3], [5]]⟩
      ⟨1, [[2], [0], [1]]⟩ ⟨1, [[1], [0], [4]]⟩).bind fun r => (r.1.nnet.predict QEnv.env ⟨1, [[2], [0], [1]]⟩).bind fun Y =>
        (elmError r.1.classification r.1.wc ⟨1, [[1], [0], [4]]⟩ Y).map fun s => decide (r.2.2.getD r.2.1 0 < s)) = .ok true := by decide +kernel
  cases h1 : trainV QEnv.env [] { exModel4 none none 1 with rankingOP := true, kmaxOp := some 1 } ⟨1, [[1], [2], [3], [-1]]⟩ ⟨1, [[1], [0], [3], [5]]⟩
      ⟨1, [[2], [0], [1]]⟩ ⟨1, [[1], [0], [4]]⟩ with
  | error x => rw [h1] at h; cases h
  | ok r =>
    rw [h1] at h
    simp only [Except.bind] at h
    cases h2 : r.1.nnet.predict QEnv.env ⟨1, [[2], [0], [1]]⟩ with
    | error x => rw [h2] at h; cases h
    | ok Y =>
      rw [h2] at h
      simp only at h
      cases h3 : elmError r.1.classification r.1.wc ⟨1, [[1], [0], [4]]⟩ Y with
      | error x => rw [h3] at h; cases h
      | ok s =>
        rw [h3] at h
        simp only [Except.map, Except.ok.injEq, decide_eq_true_eq] at h
        exact ⟨_, _, _, _, _, r.1, r.2.1, r.2.2, Y, s, h1, h2, h3, h⟩

/-! ### C39 -/

section
variable [IsStrictOrderedRing K]

theorem refit_normalEq {env : Env K} (hlw : Lawful env) (hx : env.Exact) {e e' : ELM K} {best : List Nat} {X T : Mat K}
    (hN : X.nrows = T.nrows) (hT : T.WF) (hnorm : 0 < e.nnet.norm) (h : e.refit env best X T = .ok e') :
    ∃ H B, e'.nnet.project env X = .ok H ∧ e'.nnet.B = some B ∧ B.WF ∧ B.nrows = H.cols ∧ B.cols = T.cols ∧
      NormalEq H T (fun _ => 1) e.nnet.norm B := by
  unfold ELM.refit at h
  obtain ⟨n1, h1, h⟩ := bind_ok h
  obtain ⟨n2, h2, h⟩ := bind_ok h
  injection h with h
  subst h
  obtain ⟨H, S, HT, b1, b2, b3, b4, b5⟩ := addBatch_fresh hx rfl hN hT h1
  obtain ⟨s1, s2, s3, s4⟩ := b5.solve hlw hx n1 hnorm (fun _ _ => zero_le_one) (A := n1.store S) (Or.inr rfl)
  have hB : n2 = { n1 with B := some (n1.solveCorr env (n1.store S) HT) } := by
    unfold NNet.solve at h2
    rw [b2] at h2 ⊢
    simp only [pure, Except.pure, Except.ok.injEq] at h2
    rw [← h2]
    rfl
  refine ⟨H, _, ?_, by rw [hB], s2, s3, s4, solve_normalEq b5.rowsS s3 s4 b5.sumS b5.sumT s1⟩
  rw [hB, b2, ← b1]
  rfl

/-- C39, what happens instead.  In every mode, weighted classification included, and whatever the class weights, the model returned by a
structure selection is the *unweighted* regularised least squares solution for the neurons it keeps. -/
theorem C39_returned_unweighted (env : Env K) (hlw : Lawful env) (hx : env.Exact) (e e' : ELM K) (X T Xv Tv : Mat K) (hN : X.nrows = T.nrows) (hT : T.WF)
    (hnorm : 0 < e.nnet.norm)
    (h : (∃ sh k errs, trainV env sh e X T Xv Tv = .ok (e', k, errs)) ∨ (∃ sh k errs, trainLOO env sh e X T = .ok (e', k, errs)) ∨
      (∃ sh folds t k errs, trainCV env sh e X T folds = .ok (e', t, k, errs))) :
    ∃ H B, e'.nnet.project env X = .ok H ∧ e'.nnet.B = some B ∧ B.WF ∧ B.nrows = H.cols ∧ B.cols = T.cols ∧
      NormalEq H T (fun _ => 1) e.nnet.norm B := by
  rcases h with ⟨sh, k, errs, h⟩ | ⟨sh, k, errs, h⟩ | ⟨sh, folds, t, k, errs, h⟩
  · unfold trainV at h
    obtain ⟨e1, h1, h⟩ := bind_ok h
    obtain ⟨c, hc, h⟩ := bind_ok h
    obtain ⟨Hv, hHv, h⟩ := bind_ok h
    obtain ⟨rk, hr, h⟩ := bind_ok h
    obtain ⟨full, hfull, h⟩ := bind_ok h
    obtain ⟨pen, hp, h⟩ := bind_ok h
    obtain ⟨m, hm, h⟩ := bind_ok h
    obtain ⟨e2, h2, h⟩ := bind_ok h
    simp only [pure, Except.pure, Except.ok.injEq, Prod.mk.injEq] at h
    obtain ⟨rfl, _, _⟩ := h
    obtain ⟨c', rfl⟩ := addData_fields h1
    exact refit_normalEq (e := { e.autoWc env (colSums T) with nnet := { e.nnet with corr := c' } }) hlw hx hN hT hnorm h2
  · unfold trainLOO at h
    obtain ⟨H, hH, h⟩ := bind_ok h
    obtain ⟨e1, h1, h⟩ := bind_ok h
    obtain ⟨c, hc, h⟩ := bind_ok h
    obtain ⟨rk, hr, h⟩ := bind_ok h
    obtain ⟨full, hfull, h⟩ := bind_ok h
    obtain ⟨pen, hp, h⟩ := bind_ok h
    obtain ⟨m, hm, h⟩ := bind_ok h
    obtain ⟨e2, h2, h⟩ := bind_ok h
    simp only [pure, Except.pure, Except.ok.injEq, Prod.mk.injEq] at h
    obtain ⟨rfl, _, _⟩ := h
    obtain ⟨c', rfl⟩ := addData_fields h1
    exact refit_normalEq (e := { e.autoWc env (colSums T) with nnet := { e.nnet with corr := c' } }) hlw hx hN hT hnorm h2
  · unfold trainCV at h
    obtain ⟨ds, hds, h⟩ := bind_ok h
    obtain ⟨L, hL⟩ : ∃ L, L = (ds.map (·.L)).getLastD (e.nnet.L.getD 0) := ⟨_, rfl⟩
    simp only [← hL] at h
    obtain ⟨full, hfull, h⟩ := bind_ok h
    obtain ⟨pen, hp, h⟩ := bind_ok h
    obtain ⟨m, hm, h⟩ := bind_ok h
    obtain ⟨errT, hE, h⟩ := bind_ok h
    obtain ⟨e2, h4, h⟩ := bind_ok h
    simp only [pure, Except.pure, Except.ok.injEq, Prod.mk.injEq] at h
    obtain ⟨rfl, _⟩ := h
    exact refit_normalEq hlw hx hN hT hnorm h4

end

/-- C39 is false: `train` with the flags 'WC' and 'V' and class weights 1 and 10, on two samples of different classes.  The call succeeds and
the weights are in force afterwards, but the returned output weights are not the weighted solution for the returned network. -/
theorem C39_weights_lost_refuted :
    ¬ ∀ (rnd : Rnd) (e e' : ELM ℚ) (X T H B : Mat ℚ) (kw : Kwargs ℚ) (r : Option ℚ) (w : Nat → ℚ),
      e.train QEnv.env (fun _ => none) rnd (.mat X) (.mat T) ["WC", "V"] kw = (.ok r, e') → SampleWeights e'.classification e'.wc T w →
      e'.nnet.project QEnv.env X = .ok H → e'.nnet.B = some B → NormalEq H T w e'.nnet.norm B := by
  intro hall
  have h : (match (exModel4 none none 2).train QEnv.env (fun _ => none) ⟨fun _ => [0, 2, 3, 1]⟩ (.mat ⟨1, [[1], [2]]⟩)
      (.mat ⟨2, [[1, 0], [0, 1]]⟩) ["WC", "V"]
      { w := some [1, 10], Xv := some (.mat ⟨1, [[1], [2]]⟩), Tv := some (.mat ⟨2, [[1, 0], [0, 1]]⟩) } with
    | (.ok _, e') => (e'.nnet.project QEnv.env ⟨1, [[1], [2]]⟩).map fun H =>
        decide (H = (⟨1, [[1], [2]]⟩ : Mat ℚ) ∧ e'.nnet.B = some (⟨2, [[1 / 6, 1 / 3]]⟩ : Mat ℚ) ∧ e'.nnet.norm = 1 ∧ e'.classification = some "wc" ∧
          e'.wc = some [some 1, some 10])
    | (.error x, _) => .error x) = .ok true := by decide +kernel
  split at h
  · rename_i r e' h1
    cases h2 : e'.nnet.project QEnv.env ⟨1, [[1], [2]]⟩ with
    | error x => rw [h2] at h; cases h
    | ok H =>
      rw [h2] at h
      simp only [Except.map, Except.ok.injEq, decide_eq_true_eq] at h
      obtain ⟨rfl, g2, g3, g4, g5⟩ := h
      have hne := hall _ _ _ _ _ _ _ _ _ (fun s => if s = 0 then 1 else 10) h1 (by
        intro s hs
        rw [g4, g5]
        refine ⟨fun h => absurd rfl h, fun _ => ?_⟩
        have hs2 : s < 2 := hs
        refine ⟨_, s, rfl, ?_, ?_⟩
        · interval_cases s <;> exact ⟨by decide, rfl, by decide +kernel⟩
        · interval_cases s <;> rfl) h2 g2
      rw [g3] at hne
      have := hne 0 (by decide) 0 (by decide)
      revert this
      decide +kernel
  · cases h

end Hpelm.Props
