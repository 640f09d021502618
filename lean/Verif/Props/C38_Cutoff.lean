import Verif.Props.C87_Cost

/-!
# C38 and C87 for rankings that do not cover the network

With 'OP' the ranking may be cut off by `kmax`, and with ten or more outputs also by the number of samples.  A selected size *below* the cut-off
`L` is reported correctly; only the entry of the cut-off itself is that of another network (`C38_cutoff_refuted`).
-/

set_option linter.unusedSectionVars false

namespace Hpelm.Props
open Hpelm Spec Finset
variable {K : Type} [Field K] [LinearOrder K] [IsStrictOrderedRing K]

section
variable {env : Env K} {sh : List Nat} {e : ELM K} {rank : List Nat} {L : Nat}

/-- What every ranking of a network satisfies (C40). -/
theorem rank_any {H T : Mat K} (hs : H.cols = size e.nnet) (hsh : sh.Perm (List.range (size e.nnet)))
    (h : e.ranking env sh H.cols H T = .ok (rank, L)) :
    rank.Nodup ∧ (∀ i ∈ rank, i < H.cols) ∧ L ≤ H.cols ∧
      (0 < L → rank.length = L ∨ (e.rankingOP = true ∧ 10 ≤ T.cols ∧ rank.length = min L H.nrows)) := by
  obtain ⟨r1, r2, r3, r4, r5⟩ := C40_ranking_partial env sh e H.cols H T (by rw [hs]; exact hsh) rfl h
  refine ⟨r1, r2, ranking_le (r := (rank, L)) h, fun h0 => ?_⟩
  cases hop : e.rankingOP with
  | false => exact Or.inl (r4 (Or.inl hop) h0)
  | true =>
    by_cases ht : T.cols < 10
    · exact Or.inl (r4 (Or.inr ht) h0)
    · exact Or.inr ⟨rfl, by omega, r5 hop (by omega)⟩

end

/-- C38, validation, for every ranking (cut off by `kmax` or by the number of samples, or not; partial: no weighted classification).  Every
error that is compared, except that of the cut-off size `L`, is the validation error of the network of the first `n` ranked neurons trained on
the training data, plus the size penalty; the selected size is at most `L` and has the smallest of all errors; the returned network consists
of the first `k` ranked neurons; and if `k < L`, then its own predictions on the validation data have exactly the error that was recorded. -/
theorem C38_validation_below_cutoff_partial (env : Env K) (hlw : Lawful env) (hx : env.Exact) (sh : List Nat) (e : ELM K) (X T Xv Tv : Mat K)
    (hc : e.classification ≠ some "wc") (hcon : Consistent e.nnet) (hcorr : e.nnet.corr = none) (hnorm : 0 < e.nnet.norm) (hb : 0 < e.batch)
    (hN : X.nrows = T.nrows) (hT : T.WF) (hTv : Tv.WF) (hsh : sh.Perm (List.range (size e.nnet)))
    {e' : ELM K} {k : Nat} {errs : List K} (h : trainV env sh e X T Xv Tv = .ok (e', k, errs)) :
    ∃ (H Hv : Mat K) (rank : List Nat) (L : Nat) (full : K) (B : Mat K), e.nnet.project env X = .ok H ∧ e.nnet.project env Xv = .ok Hv ∧
      rank.Nodup ∧ (∀ i ∈ rank, i < size e.nnet) ∧
      L = (match e.rankingOP, e.kmaxOp with | true, some kmax => min kmax (size e.nnet) | _, _ => size e.nnet) ∧
      (rank.length = L ∨ (e.rankingOP = true ∧ 10 ≤ Tv.cols ∧ rank.length = min L Xv.nrows)) ∧
      B.WF ∧ B.nrows = H.cols ∧ B.cols = T.cols ∧ NormalEq H T (fun _ => 1) e.nnet.norm B ∧
      IsError e.classification e.wc Tv (Hv.mul B) full ∧
      (∀ n < errs.length, n ≠ L → errs.getD n 0 ≠ -1 → ∃ B' s, B'.WF ∧ B'.nrows = min n rank.length ∧ B'.cols = T.cols ∧
        NormalEq (H.selCols (rank.take n)) T (fun _ => 1) e.nnet.norm B' ∧
        IsError e.classification e.wc Tv ((Hv.selCols (rank.take n)).mul B') s ∧ errs.getD n 0 = s + n * (full * (1 / 100) / L)) ∧
      1 ≤ k ∧ k ≤ L ∧ (∀ n < errs.length, errs.getD n 0 ≠ -1 → errs.getD k 0 ≤ errs.getD n 0) ∧
      errs.getD k 0 ≤ full + L * (full * (1 / 100) / L) ∧
      size e'.nnet = min k rank.length ∧ (k < L → ∃ Y s, e'.nnet.predict env Xv = .ok Y ∧ IsError e'.classification e'.wc Tv Y s ∧
        errs.getD k 0 = s + k * (full * (1 / 100) / L)) := by
  obtain ⟨e1, HH, HT, Hv, rank, L, full, pen, h1, h2, h3, h4, h5, h6, h7⟩ :=
    C32_best_tried_validation env hx sh e X T Xv Tv (fun h => absurd h hc) (fun h => absurd h hc) h
  obtain ⟨H, S, HT', hpos, a1, a2, a3, a4, a5⟩ := addData_unw hx hc hb hN hT hcorr h1
  have hg : e1.nnet.getCorr = .ok (some (S, HT')) := by
    rw [a2]; exact getCorr_store _ a5.symm rfl
  rw [hg] at h2
  injection h2 with h2
  injection h2 with h2
  injection h2 with h2 h2'
  subst h2 h2'
  have hp1 : ∀ A, e1.nnet.project env A = e.nnet.project env A := fun A => project_congr (by rw [a2]) (by rw [a2]) A
  rw [hp1] at h3
  obtain ⟨w1, w2, w3⟩ := project_WF hcon a1
  obtain ⟨v1, v2, v3⟩ := project_WF hcon h3
  rw [ranking_congr (e := e) (by rw [a2]) (by rw [a2])] at h4
  have hL0 : e1.nnet.L.getD 0 = Hv.cols := by
    have : e1.nnet.L = e.nnet.L := by rw [a2]
    rw [this, size_L hcon, v3]
  rw [hL0] at h4
  have hk1 := h6.range.1
  have hkL := h6.range.2
  obtain ⟨hn, hb0, hLle, hlen⟩ := rank_any v3 hsh h4
  have hLeq := (C40_ranking_partial env sh e Hv.cols Hv Tv (by rw [v3]; exact hsh) rfl h4).2.2.1
  replace hlen := hlen (by omega)
  have hHv : Hv.cols = H.cols := by rw [v3, w3]
  have hb' : ∀ i ∈ rank, i < H.cols := fun i hi => hHv ▸ hb0 i hi
  have hcls : e1.classification = e.classification := by rw [a2]
  have hwc : e1.wc = e.wc := by rw [a2]
  have hsc : ∀ A B, e1.nnet.solveCorr env A B = e.nnet.solveCorr env A B := fun A B => solveCorr_congr (by rw [a2]) (by rw [a2]) A B
  have hent : ∀ n < errs.length, n ≠ L → errs.getD n 0 ≠ -1 → ∃ s,
      elmError e.classification e.wc Tv ((Hv.selCols (rank.take n)).mul (e.nnet.solveCorr env (subSquare S (rank.take n)) (HT'.selRows (rank.take n)))) = .ok s ∧
      errs.getD n 0 = s + n * pen := by
    intro n hn1 hnL hn2
    obtain ⟨_, g1, s, s1, _, s2⟩ := h6.entry n hn1 hnL hn2
    refine ⟨s, ?_, s2⟩
    unfold scoreV at s1
    simp only at s1
    rw [hcls, hwc, hsc] at s1
    exact s1
  obtain ⟨f1, f2, f3, f4⟩ := a5.solve hlw hx e.nnet hnorm (fun _ _ => zero_le_one) (Or.inl rfl)
  have hcon1 : Consistent e1.nnet := addData_consistent hcon h1
  obtain ⟨p1, keep, p2, p3⟩ := refit_predicts hlw hx hcon1 hN hT (by rw [a2]; exact hnorm) (by rw [hp1]; exact a1)
    (by rw [a2]; exact a5 : IsCorr H T (fun _ => 1) e1.nnet.norm S HT') (hn.sublist (List.take_sublist k rank)) (fun i hi => hb' i (List.mem_of_mem_take hi)) h7
    (by rw [hp1]; exact h3 : e1.nnet.project env Xv = .ok Hv)
  refine ⟨H, Hv, rank, L, full, e.nnet.solveCorr env S HT', a1, h3, hn, by rw [← v3]; exact hb0, by rw [← v3]; exact hLeq, by rw [← v2]; exact hlen, f2, f3, f4,
    solve_normalEq a5.rowsS f3 f4 a5.sumS a5.sumT f1, ?_, ?_, hk1, hkL, h6.best, ?_, ?_, ?_⟩
  · rw [← hcls, ← hwc, ← hsc]
    exact elmError_isError hTv (Mat.mul_WF _ _) h5
  all_goals try rw [← h6.pen_eq]
  · intro n hn1 hnL hn2
    obtain ⟨s, s1, s2⟩ := hent n hn1 hnL hn2
    have hsub := a5.sub (idx := rank.take n) (hn.sublist (List.take_sublist _ _)) (fun i hi => hb' i (List.mem_of_mem_take hi))
    obtain ⟨t1, t2, t3, t4⟩ := hsub.solve hlw hx e.nnet hnorm (fun _ _ => zero_le_one) (Or.inl rfl)
    refine ⟨_, s, t2, ?_, t4, ?_, elmError_isError hTv (Mat.mul_WF _ _) s1, s2⟩
    · rw [t3, Mat.selCols_cols, List.length_take]
    · exact solve_normalEq hsub.rowsS t3 t4 hsub.sumS hsub.sumT t1
  · exact h6.full_le
  · obtain ⟨_, _, q⟩ := project_WF (refit_consistent hlw.toShapes hcon1 h7) p3
    rw [← q, Mat.selCols_cols, p2.length_eq, List.length_take]
  · intro hlt
    have hklen : k < errs.length := (C31_selected_in_range env e X T Xv Tv).1 sh _ h |>.2
    obtain ⟨s, s1, s2⟩ := hent k hklen (by omega) h6.tried
    refine ⟨_, s, p1, ?_, s2⟩
    obtain ⟨_, c2⟩ := refit_bcls h7
    rw [c2, refit_wc h7, hcls, hwc, hsc]
    exact elmError_isError hTv (Mat.mul_WF _ _) s1

/-- C38, leave-one-out, for every ranking (partial: regression).  If the selected size is below the cut-off `L`, then the recorded error is the
leave-one-out error of the returned model's own neurons plus the size penalty. -/
theorem C38_loo_below_cutoff_partial (env : Env K) (hlw : Lawful env) (hx : env.Exact) (sh : List Nat) (e : ELM K) (X T : Mat K)
    (hc : e.classification ≠ some "c" ∧ e.classification ≠ some "wc" ∧ e.classification ≠ some "ml") (hcon : Consistent e.nnet)
    (hcorr : e.nnet.corr = none) (hnorm : 0 < e.nnet.norm) (hb : 0 < e.batch) (hN : X.nrows = T.nrows) (hT : T.WF) (hC : 0 < T.cols)
    (hsh : sh.Perm (List.range (size e.nnet))) {e' : ELM K} {k : Nat} {errs : List K}
    (h : trainLOO env sh e X T = .ok (e', k, errs)) :
    ∃ (H : Mat K) (rank : List Nat) (L : Nat) (full : K), e.nnet.project env X = .ok H ∧ rank.Nodup ∧ (∀ i ∈ rank, i < size e.nnet) ∧
      L = (match e.rankingOP, e.kmaxOp with | true, some kmax => min kmax (size e.nnet) | _, _ => size e.nnet) ∧
      (rank.length = L ∨ (e.rankingOP = true ∧ 10 ≤ T.cols ∧ rank.length = min L X.nrows)) ∧ IsLooError H T e.nnet.norm full ∧
      1 ≤ k ∧ k ≤ L ∧ errs.getD k 0 ≤ full + L * (full * (1 / 100) / L) ∧ size e'.nnet = min k rank.length ∧
      (k < L → ∃ H' v, e'.nnet.project env X = .ok H' ∧ IsLooError H' T e.nnet.norm v ∧ errs.getD k 0 = v + k * (full * (1 / 100) / L)) := by
  obtain ⟨H, e1, HH, HT, rank, L, full, pen, h1, h2, h3, h4, h5, h6, h7⟩ :=
    C32_best_tried_loo env hx sh e X T (fun h => absurd h hc.2.1) (fun h => absurd h hc.2.1) h
  obtain ⟨H', S, HT', hpos, a1, a2, a3, a4, a5⟩ := addData_unw hx hc.2.1 hb hN hT hcorr h2
  rw [h1] at a1
  injection a1 with a1
  subst a1
  have hg : e1.nnet.getCorr = .ok (some (S, HT')) := by
    rw [a2]; exact getCorr_store _ a5.symm rfl
  rw [hg] at h3
  injection h3 with h3
  injection h3 with h3
  injection h3 with h3 h3'
  subst h3 h3'
  obtain ⟨w1, w2, w3⟩ := project_WF hcon h1
  have hcls : e1.classification = e.classification := by rw [a2]
  rw [ranking_congr (e := e) (by rw [a2]) (by rw [a2])] at h4
  have hL : e1.nnet.L.getD 0 = H.cols := by rw [a2]; exact a3.symm
  rw [hL] at h4
  have hk1 := h6.range.1
  have hkL := h6.range.2
  obtain ⟨hn, hb', hLle, hlen⟩ := rank_any w3 hsh h4
  have hLeq := (C40_ranking_partial env sh e H.cols H T (by rw [w3]; exact hsh) rfl h4).2.2.1
  replace hlen := hlen (by omega)
  have hNT : 0 < T.nrows := by omega
  have hc1 := hc
  rw [← hcls] at hc1
  have hcon1 : Consistent e1.nnet := addData_consistent hcon h2
  have hp1 : e1.nnet.project env X = .ok H := by rw [a2]; exact h1
  obtain ⟨_, keep, p2, p3⟩ := refit_predicts hlw hx hcon1 hN hT (by rw [a2]; exact hnorm) hp1
    (by rw [a2]; exact a5 : IsCorr H T (fun _ => 1) e1.nnet.norm S HT') (hn.sublist (List.take_sublist k rank)) (fun i hi => hb' i (List.mem_of_mem_take hi)) h7 hp1
  obtain ⟨v0, v1, v2⟩ := scoreLOO_exact hlw e1 hc1 a5 hnorm w1 hT hNT hC
  rw [h5] at v1
  injection v1 with v1
  subst v1
  refine ⟨H, rank, L, full, h1, hn, by rw [← w3]; exact hb', by rw [← w3]; exact hLeq, by rw [← w2]; exact hlen, v2, hk1, hkL, ?_, ?_, ?_⟩
  all_goals try rw [← h6.pen_eq]
  · exact h6.full_le
  · obtain ⟨_, _, q⟩ := project_WF (refit_consistent hlw.toShapes hcon1 h7) p3
    rw [← q, Mat.selCols_cols, p2.length_eq, List.length_take]
  · intro hlt
    have hklen : k < errs.length := (C31_selected_in_range env e X T X T).2.1 sh _ h |>.2
    obtain ⟨_, _, s, s1, _, s2⟩ := h6.entry k hklen (by omega) h6.tried
    obtain ⟨v, v1, v2, _⟩ := C37_press_exact env hlw e1 hc1 H T S HT' e.nnet.norm hnorm hT hNT hC a5 (rank.take k)
      (hn.sublist (List.take_sublist _ _)) (fun i hi => hb' i (List.mem_of_mem_take hi))
    rw [v1] at s1
    injection s1 with s1
    subst s1
    exact ⟨_, v, p3, isLooError_perm (hn.sublist (List.take_sublist _ _)) p2 (by rw [w2, hN]) v2, s2⟩

/-- With 'OP' the limit in force is the `kmax` of the call. -/
theorem parseArgs_limit {kw : Kwargs K} {args : List String} {e e1 : ELM K} (h : e.parseArgs args kw = (e1, .ok ())) (ho : e1.rankingOP = true) :
    Given args "OP" ∧ e1.kmaxOp = kw.kmax := by
  refine ⟨?_, ?_⟩
  · by_contra hg
    have : e1.rankingOP = false :=
      parseArgs_inv h (fun e => e.rankingOP = false) rfl (fun a ha e he _ => parseOne_rank kw e a (fun h' => hg (h' ▸ ha)) he) (fun _ _ h => h)
    rw [this] at ho
    cases ho
  · refine parseArgs_inv h (fun e => (e.rankingOP = true → e.kmaxOp = kw.kmax) ∧ (e.rankingOP = false → e.kmaxOp = none)) (by simp) ?_ (fun _ _ h => h) |>.1 ho
    intro a _ e he _
    unfold parseOne
    split_ifs
    · simp only
      refine ⟨fun _ => ?_, fun h => by cases h⟩
      cases hk : kw.kmax with
      | some k => rfl
      | none =>
        cases hr : e.rankingOP with
        | true => have := he.1 hr; rw [hk] at this; exact this
        | false => exact he.2 hr
    · exact he
    · exact he
    · simp only
      split
      · exact he
      · split_ifs <;> exact he
    all_goals exact he

/-- The largest number of neurons a call of `train` may keep: all, at most `kmax` with 'OP', and at most the number `n` of samples used for the
ranking with 'OP' and ten or more outputs. -/
def mostKept (e : ELM K) (args : List String) (kw : Kwargs K) (n : Nat) : Nat :=
  if Given args "OP" then
    if e.nnet.outputs < 10 then min (kw.kmax.getD (size e.nnet)) (size e.nnet) else min (min (kw.kmax.getD (size e.nnet)) (size e.nnet)) n
  else size e.nnet

theorem mostKept_eq {kw : Kwargs K} {args : List String} {e e0 : ELM K} {n l C : Nat} (h2 : e.parseArgs args kw = (e0, .ok ())) (hC : C = e.nnet.outputs)
    (hs : size e0.nnet = size e.nnet) {L : Nat}
    (hL : L = (match e0.rankingOP, e0.kmaxOp with | true, some kmax => min kmax (size e0.nnet) | _, _ => size e0.nnet))
    (hl : l = L ∨ (e0.rankingOP = true ∧ 10 ≤ C ∧ l = min L n)) : mostKept e args kw n ≤ l ∧ mostKept e args kw n ≤ L := by
  unfold mostKept
  cases hr : e0.rankingOP with
  | false =>
    rw [hr] at hL hl
    simp only [hs] at hL
    have hl' : l = L := by simpa using hl
    split_ifs <;> omega
  | true =>
    obtain ⟨g1, g2⟩ := parseArgs_limit h2 hr
    have hL' : L = min (kw.kmax.getD (size e.nnet)) (size e.nnet) := by
      rw [hr, g2, hs] at hL
      cases hk : kw.kmax with
      | none => rw [hk] at hL; simpa using hL
      | some m => rw [hk] at hL; simpa using hL
    rw [if_pos g1, ← hL']
    split_ifs with ho
    · rcases hl with hl | ⟨_, hl, _⟩ <;> omega
    · rcases hl with hl | ⟨_, _, hl⟩ <;> omega

/-- C87 for every ranking, on a validation set (partial: no weighted classification).  Either as many neurons as possible were kept, or the error of
the returned model on the validation data is at most 1% larger than that of the same network trained without selection. -/
theorem C87_validation_below_cutoff_partial (env : Env K) (hl : Lawful env) (hx : env.Exact) (e e' f : ELM K) (X T Xv Tv : Mat K) (args argsf : List String)
    (kw kwf : Kwargs K) (h : SelectedTrain env e X T args kw e') (hb : 0 < kw.batch.getD e.batch) (hv : "V" ∈ args) (hwc : ¬ Given args "WC")
    (hxv : kw.Xv = some (.mat Xv)) (htv : kw.Tv = some (.mat Tv)) (hTv : Tv.WF)
    (hf : PlainTrain env e X T argsf kwf f) (hwf : ¬ Given argsf "WC") (P Q : Mat K) (p : Predicts env e' Xv P) (q : Predicts env f Xv Q)
    (fs : Files K) (s s0 : K) (hs : e'.error fs (.mat Tv) (.mat P) = .ok s) (hs0 : e'.error fs (.mat Tv) (.mat Q) = .ok s0) :
    mostKept e args kw Xv.nrows ≤ size e'.nnet ∨ s ≤ s0 * (1 + 1 / 100) := by
  obtain ⟨fs', rnd, r, hsh, hr'⟩ := h.run
  obtain ⟨X', T', e0, h1, h2, h3⟩ := train_ok hr'
  obtain ⟨rfl, rfl⟩ := checkBoth_mats h1
  obtain ⟨_, hTo, hN⟩ := checkBoth_ok h1
  obtain ⟨_, q2, q3, _⟩ := parseArgs_kw h2
  have hc0 : Consistent e0.nnet := by rw [q2]; exact reset_consistent h.consistent
  have hs0' : size e0.nnet = size e.nnet := by rw [q2]; rfl
  have hproj : ∀ A, e0.nnet.project env A = e.nnet.project env A := fun A => by rw [q2]; rfl
  have hwc0 : e0.classification ≠ some "wc" := fun hc => hwc ((parseArgs_wc h2).1 hc)
  unfold ELM.trainBody at h3
  rw [if_pos hv, hxv, htv] at h3
  simp only at h3
  obtain ⟨⟨Xv', Tv'⟩, hcv, h3'⟩ := bind_ok h3
  obtain ⟨rfl, rfl⟩ := checkBoth_mats hcv
  obtain ⟨_, hTvo, _⟩ := checkBoth_ok hcv
  obtain ⟨⟨e2, k, errs⟩, ht, h4⟩ := bind_ok h3'
  clear h3 h3'
  injection h4 with h3
  injection h3 with _ h3
  simp only at h3
  subst h3
  obtain ⟨H, Hv, rank, L, full, B, a1, a2, _, _, hL, hlen, a4, a5, a6, a7, a8, _, hk1, hkL, _, hle, hsz, hcase⟩ :=
    C38_validation_below_cutoff_partial env hl hx (rnd.shuffles 0) e0 X' T' Xv' Tv' hwc0 hc0 (by rw [q2]; rfl)
      (by rw [q2]; exact h.norm) (by rw [q3]; exact hb) hN h.targets hTv (by rw [hs0']; exact hsh 0) ht
  obtain ⟨m1, m2⟩ := mostKept_eq h2 (C := Tv'.cols) (n := Xv'.nrows) (by rw [hTvo, q2]; rfl) hs0' hL hlen
  by_cases hkm : k < mostKept e args kw Xv'.nrows
  swap
  · left
    rw [hsz]
    omega
  right
  obtain ⟨Y, v, b1, b2, b3⟩ := hcase (by omega)
  have hYP : Y = P := by
    have := predicts_nnet p
    rw [b1] at this
    injection this
  subst hYP
  have hsv : v = s := by
    refine b2.unique ?_
    have hY : Y.WF := by
      unfold NNet.predict at b1
      cases hB : e2.nnet.B with
      | none => rw [hB] at b1; cases b1
      | some B =>
        rw [hB] at b1
        simp only at b1
        obtain ⟨_, _, b1⟩ := bind_ok b1
        split at b1
        · cases b1
        · injection b1 with b1; rw [← b1]; exact Mat.mul_WF _ _
    exact elmError_isError hTv hY (error_mats hs)
  subst hsv
  obtain ⟨H', B', w, t⟩ := hf.trained hl hx
  have hH : H' = H := by
    have := t.proj
    rw [← hproj, a1] at this
    injection this with this
    exact this.symm
  subst hH
  obtain ⟨Hv', g1, g2, _⟩ := t.pred _ _ q
  have hHv : Hv' = Hv := by
    rw [← hproj, a2] at g1
    injection g1 with g1
    exact g1.symm
  subst hHv
  have hfc := plain_unweighted hf hwf
  have hB : B' = B := by
    refine normalEq_unique (by rw [q2]; exact h.norm : 0 < e0.nnet.norm) (fun _ _ => zero_le_one) a4 a5 a6 a7 B' t.wf t.rows t.cols ?_
    have := normalEq_weights (w' := fun _ => 1) (fun s hs => (t.sw s hs).1 hfc) t.normal
    rw [q2]
    exact this
  subst hB
  have herr : elmError e0.classification e0.wc Tv' (Hv'.mul B') = .ok s0 := by
    have := error_mats hs0
    obtain ⟨k1, k2⟩ := trainV_kind hwc0 ht
    rw [k1, k2, g2] at this
    exact this
  have hfull : full = s0 := a8.unique (elmError_isError hTv (Mat.mul_WF _ _) herr)
  subst hfull
  have hnn : 0 ≤ full := elmError_nonneg (fun h => absurd h hwc0) herr
  have hLp : 0 < L := by omega
  have := cost_arith hLp (b3 ▸ hle)
  refine this.trans (mul_le_mul_of_nonneg_left ?_ hnn)
  have : (0 : K) ≤ (k : K) / L := by positivity
  linarith

/-- C87 for every ranking, leave-one-out (partial: regression).  Either as many neurons as possible were kept, or the leave-one-out error of the
returned neurons is at most 1% larger than that of all neurons. -/
theorem C87_loo_below_cutoff_partial (env : Env K) (hl : Lawful env) (hx : env.Exact) (e e' : ELM K) (X T : Mat K) (args : List String)
    (kw : Kwargs K) (h : SelectedTrain env e X T args kw e') (hb : 0 < kw.batch.getD e.batch)
    (hm : "V" ∉ args ∧ "CV" ∉ args ∧ "LOO" ∈ args) (hg : ¬ Given args "C" ∧ ¬ Given args "WC" ∧ ¬ Given args "ML" ∧ ¬ Given args "MC") (hC : 0 < T.cols) :
    mostKept e args kw X.nrows ≤ size e'.nnet ∨
    ∃ H H' s s0, e.nnet.project env X = .ok H ∧ e'.nnet.project env X = .ok H' ∧ IsLooError H' T e.nnet.norm s ∧
      IsLooError H T e.nnet.norm s0 ∧ s ≤ s0 * (1 + 1 / 100) := by
  obtain ⟨fs', rnd, r, hsh, hr'⟩ := h.run
  obtain ⟨X', T', e0, h1, h2, h3⟩ := train_ok hr'
  obtain ⟨rfl, rfl⟩ := checkBoth_mats h1
  obtain ⟨_, hTo, hN⟩ := checkBoth_ok h1
  obtain ⟨_, q2, q3, _⟩ := parseArgs_kw h2
  have hc0 : Consistent e0.nnet := by rw [q2]; exact reset_consistent h.consistent
  have hs0' : size e0.nnet = size e.nnet := by rw [q2]; rfl
  have hcls := parseArgs_regression h2 hg
  unfold ELM.trainBody at h3
  rw [if_neg hm.1, if_neg hm.2.1, if_pos hm.2.2] at h3
  obtain ⟨⟨e2, k, errs⟩, ht, h3⟩ := bind_ok h3
  injection h3 with h3
  injection h3 with _ h3
  simp only at h3
  subst h3
  obtain ⟨G, rank, L, full, a1, _, _, hL, hlen, a2, hk1, hkL, hle, hsz, hcase⟩ :=
    C38_loo_below_cutoff_partial env hl hx (rnd.shuffles 0) e0 X' T' (by rw [hcls]; simp) hc0 (by rw [q2]; rfl)
    (by rw [q2]; exact h.norm) (by rw [q3]; exact hb) hN h.targets hC (by rw [hs0']; exact hsh 0) ht
  obtain ⟨m1, m2⟩ := mostKept_eq h2 (C := T'.cols) (n := X'.nrows) hTo hs0' hL hlen
  by_cases hkm : k < mostKept e args kw X'.nrows
  swap
  · left
    rw [hsz]
    omega
  right
  obtain ⟨G', v, a3, a4, a5⟩ := hcase (by omega)
  have hno : e0.nnet.norm = e.nnet.norm := by rw [q2]; rfl
  rw [hno] at a2 a4
  have hG : e0.nnet.project env X' = e.nnet.project env X' := by rw [q2]; rfl
  rw [hG] at a1
  refine ⟨G, G', v, full, a1, a3, a4, a2, ?_⟩
  have hnn : 0 ≤ full := by
    obtain ⟨_, _, hv⟩ := a2
    rw [hv]
    exact div_nonneg (Finset.sum_nonneg fun _ _ => Finset.sum_nonneg fun _ _ => sq_nonneg _) (Nat.cast_nonneg _)
  have hLp : 0 < L := by omega
  have := cost_arith hLp (a5 ▸ hle)
  refine this.trans (mul_le_mul_of_nonneg_left ?_ hnn)
  have : (0 : K) ≤ (k : K) / L := by positivity
  linarith

/-- The hypotheses of `C87_validation_below_cutoff_partial` are met: optimal pruning of three neurons limited to two. -/
example : ∃ e' f P Q s s0, SelectedTrain (lawEnv QEnv.env) exModel3 ⟨1, [[1], [2], [3], [5]]⟩ ⟨1, [[1], [0], [3], [2]]⟩ ["V", "OP"] exPruning e' ∧
    PlainTrain (lawEnv QEnv.env) exModel3 ⟨1, [[1], [2], [3], [5]]⟩ ⟨1, [[1], [0], [3], [2]]⟩ [] {} f ∧
    Predicts (lawEnv QEnv.env) e' ⟨1, [[1], [2], [-1]]⟩ P ∧ Predicts (lawEnv QEnv.env) f ⟨1, [[1], [2], [-1]]⟩ Q ∧
    e'.error (fun _ => none) (.mat ⟨1, [[1], [0], [2]]⟩) (.mat P) = .ok s ∧
    e'.error (fun _ => none) (.mat ⟨1, [[1], [0], [2]]⟩) (.mat Q) = .ok s0 ∧ (2 ≤ size e'.nnet ∨ s ≤ s0 * (1 + 1 / 100)) := by
  obtain ⟨e', h0⟩ := exPruning_completes
  have h : SelectedTrain (lawEnv QEnv.env) exModel3 ⟨1, [[1], [2], [3], [5]]⟩ ⟨1, [[1], [0], [3], [2]]⟩ ["V", "OP"] exPruning e' :=
    ⟨exModel3_consistent, by decide +kernel, by decide, by simp [Mat.WF], _, _, _, fun _ => (by decide : List.Perm [2, 0, 1] (List.range 3)), h0⟩
  obtain ⟨f, h4⟩ := train_plain_total (lawEnv_exact QEnv.env) (fs := fun _ => none) (rnd := ⟨fun _ => []⟩) (e := exModel3) (e1 := exModel3)
    (X := ⟨1, [[1], [2], [3], [5]]⟩) (T := ⟨1, [[1], [0], [3], [2]]⟩) (args := []) (kw := {}) (by simp) (by simp) (by simp) (by decide) (by simp)
    rfl rfl rfl (by decide) rfl exModel3_consistent rfl
  have hf : PlainTrain (lawEnv QEnv.env) exModel3 ⟨1, [[1], [2], [3], [5]]⟩ ⟨1, [[1], [0], [3], [2]]⟩ [] {} f :=
    ⟨exModel3_consistent, by decide +kernel, by decide, by simp, h.targets, by simp [Given], by simp [Given], by simp, _, _, _, h4⟩
  have hTv : (⟨1, [[1], [0], [2]]⟩ : Mat ℚ).WF := by simp [Mat.WF]
  obtain ⟨P, p1, p2, p3, p4⟩ := SelectedTrain_predicts (lawEnv_lawful _) (lawEnv_exact _) h (Xn := ⟨1, [[1], [2], [-1]]⟩) rfl
  obtain ⟨Q, q1⟩ := PlainTrain_predicts (lawEnv_lawful _) (lawEnv_exact _) hf ⟨1, [[1], [2], [-1]]⟩ _ rfl
  obtain ⟨H, B, w, t⟩ := hf.trained (lawEnv_lawful _) (lawEnv_exact _)
  obtain ⟨Hn, g1, g2, g3, g4⟩ := t.pred _ _ q1
  have ho : e'.nnet.outputs = 1 := by
    have := (train_frame (lawEnv QEnv.env) (fun _ => none) ⟨fun _ => [2, 0, 1]⟩ exModel3 (.mat ⟨1, [[1], [2], [3], [5]]⟩) (.mat ⟨1, [[1], [0], [3], [2]]⟩) ["V", "OP"] exPruning).nnet.outputs
    rw [h0] at this
    exact this
  have hk : e'.classification = none := (C21_kind_partial _ _ _ _ _ _ _ _ _ _ h0 (by decide)).2.2.2 (by decide)
  obtain ⟨s, hs⟩ := error_total (fs := fun _ => none) (e := e') (by rw [hk]; simp) hTv p2 (by rw [p4]; rfl) (by rw [ho]) (by rw [ho, p3]) (by decide) (by decide)
  obtain ⟨s0, hs0⟩ := error_total (fs := fun _ => none) (e := e') (T := ⟨1, [[1], [0], [2]]⟩) (Y := Q) (by rw [hk]; simp) hTv (by rw [g2]; exact Mat.mul_WF _ _)
    (by rw [g2, Mat.mul_nrows, g4]; rfl) (by rw [ho]) (by rw [ho, g2]; exact t.cols) (by decide) (by decide)
  exact ⟨e', f, P, Q, s, s0, h, hf, p1, q1, hs, hs0, C87_validation_below_cutoff_partial _ (lawEnv_lawful _) (lawEnv_exact _) _ _ _ _ _ _ _ _ _ _ _ h (by decide)
    (by decide) (by decide) rfl rfl hTv hf (by decide) _ _ p1 q1 _ _ _ hs hs0⟩

/-- The cut-off is not always reached: optimal pruning of four neurons limited to three keeps two. -/
example : (trainV QEnv.env [] { exModel4 none none 1 with rankingOP := true, kmaxOp := some 3 } ⟨1, [[1], [2], [3], [-1]]⟩ ⟨1, [[1], [0], [3], [5]]⟩
      ⟨1, [[2], [0], [1]]⟩ ⟨1, [[1], [0], [4]]⟩).map (fun r => (r.2.1, size r.1.nnet)) = .ok (2, 2) := by decide +kernel

end Hpelm.Props
