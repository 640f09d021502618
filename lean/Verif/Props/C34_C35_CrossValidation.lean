import Mathlib.Algebra.BigOperators.Field
import Verif.Lemmas.SelTotal
import Verif.Lemmas.ErrorSpec
import Verif.Props.C14_Ridge
import Verif.Props.C31_C33_Search

/-!
# C34, C35: cross-validation
-/

set_option linter.unusedSectionVars false

namespace Hpelm.Props
open Spec Finset
variable {K : Type} [Field K] [LinearOrder K]

/-! ### C34 -/

/-- C34 (index sets).  For every dataset size and every `k ≥ 3` the index sets of the rounds are a fold plan: training, validation
and test samples partition the data in every round, and every sample is validated exactly once and tested exactly once. -/
theorem C34_folds_partition (N k : Nat) (hk : 3 ≤ k) : FoldPlan N k (cvTrain N k) (cvVal N k) (cvTest N k) := cv_plan hk

example : cvTrain 7 3 1 = [1, 4] ∧ cvVal 7 3 1 = [2, 5] ∧ cvTest 7 3 1 = [0, 3, 6] := by decide +kernel

theorem mapM_range {β : Type} {f : Nat → Except PyErr β} {k : Nat} {bs : List β} (h : (List.range k).mapM f = .ok bs) :
    bs.length = k ∧ ∀ i (h : i < bs.length), f i = .ok bs[i] := by
  obtain ⟨h1, h2⟩ := mapM_getElem h
  rw [List.length_range] at h1
  refine ⟨h1, fun i hi => ?_⟩
  have := h2 i (by rw [List.length_range]; omega) hi
  rwa [List.getElem_range] at this

/-- C34 (the rounds use these sets).  In every round of a successful cross-validation the accumulated matrices are the correlation
matrices of exactly the training samples; the validation and test arrays are those of the validation and test samples. -/
theorem C34_rounds_use_folds (env : Env K) (hx : env.Exact) (sh : Nat → List Nat) (e : ELM K) (X T : Mat K) (k : Nat) (hT : T.WF)
    (hN : X.nrows = T.nrows) {r} (h : trainCV env sh e X T k = .ok r) :
    ∃ ds : List (FoldData K), ds.length = k ∧ ∀ i (_ : i < k) d, ds[i]? = some d →
      ∃ H, e.nnet.project env (X.selRows (cvTrain X.nrows k i)) = .ok H ∧
        IsCorr H (T.selRows (cvTrain X.nrows k i)) (fun _ => 1) e.nnet.norm d.HH d.HT ∧
        e.nnet.project env (X.selRows (cvVal X.nrows k i)) = .ok d.Hvl ∧ d.Tvl = T.selRows (cvVal X.nrows k i) ∧
        e.nnet.project env (X.selRows (cvTest X.nrows k i)) = .ok d.Hts ∧ d.Tts = T.selRows (cvTest X.nrows k i) := by
  unfold trainCV at h
  obtain ⟨ds, hds, h⟩ := bind_ok h
  obtain ⟨h1, h2⟩ := mapM_range hds
  refine ⟨ds, h1, ?_⟩
  intro i hi d hd
  obtain ⟨hi2, hd⟩ := List.getElem?_eq_some_iff.1 hd
  have h3 := h2 i hi2
  rw [hd] at h3
  obtain ⟨H, a1, a2, a3, a4, a5, a6, a7, a8, a9⟩ := cvFold_ok hx hT hN h3
  exact ⟨H, a1, a4, a5, a6, a7, a8⟩

theorem refit_wc {env : Env K} {e e' : ELM K} {best : List Nat} {X T : Mat K} (h : e.refit env best X T = .ok e') : e'.wc = e.wc := by
  unfold ELM.refit at h
  obtain ⟨n1, h1, h⟩ := bind_ok h
  obtain ⟨n2, h2, h⟩ := bind_ok h
  injection h with h
  rw [← h]

theorem trainBody_cv {env : Env K} {fs rnd} {e : ELM K} {X T : Mat K} {args kw r} (hv : "V" ∉ args) (hcv : "CV" ∈ args)
    (h : e.trainBody env fs rnd X T args kw = .ok r) :
    ∃ (k : Int) (q : ELM K × K × Nat × List K), kw.k = some k ∧ 3 ≤ k ∧ trainCV env rnd.shuffles e X T k.toNat = .ok q ∧ r = (some q.2.1, q.1) := by
  unfold ELM.trainBody at h
  rw [if_neg hv, if_pos hcv] at h
  split at h
  · cases h
  · rename_i k hk
    obtain ⟨_, h1, h⟩ := bind_ok h
    obtain ⟨q, h2, h⟩ := bind_ok h
    injection h with h
    have := pyAssert_ok h1
    exact ⟨k, q, hk, by simpa using this, h2, h.symm⟩

theorem checkBoth_mat {fs : Files K} {n : NNet K} {X T X' T' : Mat K} (h : checkBoth fs n (.mat X) (.mat T) = .ok (X', T')) :
    X' = X ∧ T' = T := by
  unfold checkBoth checkData checkOne at h
  simp only [bind_assoc, pure_bind] at h
  obtain ⟨_, _, h⟩ := bind_ok h
  obtain ⟨_, _, h⟩ := bind_ok h
  obtain ⟨_, _, h⟩ := bind_ok h
  injection h with h
  injection h with h h2
  exact ⟨h.symm, h2.symm⟩

section
variable [IsStrictOrderedRing K]

/-- What `train(..., 'CV', k)` returns, and the model it leaves. -/
theorem cv_returned {env : Env K} (hl : Lawful env) (hx : env.Exact) {fs : Files K} {rnd : Rnd} {e e' : ELM K} {X T : Mat K}
    {args : List String} {kw : Kwargs K} {r : Option K} (hv : "V" ∉ args) (hcv : "CV" ∈ args) (hT : T.WF) (hnorm : 0 < e.nnet.norm)
    (h : e.train env fs rnd (.mat X) (.mat T) args kw = (.ok r, e')) :
    ∃ (k : Nat) (v : K), kw.k = some (k : Int) ∧ 3 ≤ k ∧ r = some v ∧
      IsCvError env e.nnet e.nnet.norm e'.classification e'.wc X T k (cvTrain X.nrows k) (cvTest X.nrows k) v ∧ X.nrows = T.nrows ∧
      ∃ e1 ds kopt, e1.nnet = e.nnet.reset ∧ ((List.range k).mapM fun i => cvFold env (rnd.shuffles i) e1 X T k i) = .ok ds ∧
        e1.refit env (((ds.map (·.rank)).getLastD []).take kopt) X T = .ok e' := by
  obtain ⟨X', T', e1, h1, h2, h3⟩ := train_ok h
  obtain ⟨q1, q2, q3, q4, q5⟩ := parseArgs_kw h2
  obtain ⟨c1, c2, c3⟩ := checkBoth_ok h1
  obtain ⟨rfl, rfl⟩ := checkBoth_mat h1
  obtain ⟨k, q, k1, k2, k3, k4⟩ := trainBody_cv hv hcv h3
  obtain ⟨b1, b2⟩ := trainCV_bcls k3
  injection k4 with k4 k5
  subst k4 k5
  have hk : ((k.toNat : Nat) : Int) = k := by omega
  have hk3 : 3 ≤ k.toNat := by omega
  unfold trainCV at k3
  obtain ⟨ds, hds, k3⟩ := bind_ok k3
  obtain ⟨L, hL⟩ : ∃ L, L = (ds.map (·.L)).getLastD (e1.nnet.L.getD 0) := ⟨_, rfl⟩
  simp only [← hL] at k3
  obtain ⟨full, hfull, k3⟩ := bind_ok k3
  obtain ⟨pen, hp, k3⟩ := bind_ok k3
  obtain ⟨m, hm, k3⟩ := bind_ok k3
  obtain ⟨errT, hE, k3⟩ := bind_ok k3
  obtain ⟨e2, h4, k3⟩ := bind_ok k3
  simp only [pure, Except.pure, Except.ok.injEq] at k3
  subst k3
  obtain ⟨vs, v1, v2⟩ := cvMean_sum hE
  obtain ⟨l1, l2⟩ := mapM_range hds
  obtain ⟨l3, l4⟩ := mapM_getElem v1
  refine ⟨k.toNat, _, by rw [hk]; exact k1, hk3, rfl, ⟨fun i => vs.getD i 0, ?_, ?_⟩, c3, e1, ds, m.1, q2, hds, h4⟩
  · simp only
    rw [v2, zero_add, Finset.sum_div, ← l1, ← l3, Finset.sum_range, ← List.sum_ofFn]
    congr 1
    apply List.ext_getElem
    · simp
    · intro i h1 h2
      simp at h1 h2
      simp [h1]
  · intro i hi
    have d1 := l2 i (by omega)
    obtain ⟨H, a1, a2, a3, a4, a5, a6, a7, a8, a9⟩ := cvFold_ok hx hT c3 d1
    have hn1 : 0 < e1.nnet.norm := by rw [q2]; exact hnorm
    obtain ⟨s1, s2, s3, s4⟩ := a4.solve hl hx e1.nnet hn1 (fun _ _ => zero_le_one) (Or.inl rfl)
    refine ⟨H, _, _, by rw [← a1, q2]; rfl, by rw [← a7, q2]; rfl, s2, s3, s4, ?_, ?_⟩
    · have := solve_normalEq (lam := e1.nnet.norm) a4.rowsS s3 s4 a4.sumS a4.sumT s1
      rw [q2] at this ⊢
      exact this
    · refine elmError_isError (Mat.selRows_WF hT fun j hj => ?_) (Mat.mul_WF _ _) ?_
      · rw [← c3]
        exact List.mem_range.1 (((cv_plan hk3).partition i hi).mem_iff.1 (List.mem_append_right _ hj))
      have d2 := l4 i (by omega) (by omega)
      rw [a8] at d2
      simp only at b2
      rw [b2, refit_wc h4, d2]
      show _ = Except.ok (vs.getD i 0)
      rw [List.getD_eq_getElem vs 0 (show i < vs.length by omega)]

/-- C34, C36 (what `train(..., 'CV', k)` returns, exactly).  There is a fold plan such that the returned number is the average over
the `k` rounds of the error, on the test samples of the round, of the network trained (ridge regression with the network's
regulariser) on the training samples of the round.  The network is the one with *all* its neurons, whatever size was selected. -/
theorem C34_returned_test_error (env : Env K) (hl : Lawful env) (hx : env.Exact) (fs : Files K) (rnd : Rnd) (e e' : ELM K) (X T : Mat K)
    (args : List String) (kw : Kwargs K) (r : Option K) (hv : "V" ∉ args) (hcv : "CV" ∈ args) (hT : T.WF) (hnorm : 0 < e.nnet.norm)
    (h : e.train env fs rnd (.mat X) (.mat T) args kw = (.ok r, e')) :
    ∃ (k : Nat) (tr vl ts : Nat → List Nat) (v : K), kw.k = some (k : Int) ∧ FoldPlan X.nrows k tr vl ts ∧ r = some v ∧
      IsCvError env e.nnet e.nnet.norm e'.classification e'.wc X T k tr ts v := by
  obtain ⟨k, v, a1, a2, a3, a4, _⟩ := cv_returned hl hx hv hcv hT hnorm h
  exact ⟨k, _, _, _, v, a1, cv_plan a2, a3, a4⟩

end

/-! ### C35 -/

theorem parseOne_rank (kw : Kwargs K) (e : ELM K) (a : String) (ha : a ≠ "OP") (h : e.rankingOP = false) :
    (parseOne kw e a).1.rankingOP = false := by
  unfold parseOne
  rw [if_neg ha]
  split_ifs <;> (try exact h)
  simp only
  split
  · exact h
  · split_ifs <;> exact h

theorem parseOne_weights (kw : Kwargs K) (e : ELM K) (a : String) {ws : List K} (hw : kw.w = some ws)
    (h : e.classification = some "wc" → e.wc = some (ws.map some)) :
    (parseOne kw e a).2 = .ok () → (parseOne kw e a).1.classification = some "wc" → (parseOne kw e a).1.wc = some (ws.map some) := by
  unfold parseOne
  rw [hw]
  split_ifs <;> (try (intro _; exact h)) <;> (try (intro h'; cases h'; done)) <;> (try (intro _ h'; simp at h'; done))
  simp only
  split_ifs
  · intro _ _; rfl
  · intro h'; cases h'

theorem parseLoop_inv (kw : Kwargs K) (P : ELM K → Prop) (args : List String)
    (hP : ∀ a ∈ args, ∀ e, P e → (parseOne kw e a).2 = .ok () → P (parseOne kw e a).1) {e e1 : ELM K} (h0 : P e)
    (h : parseLoop kw args e = (e1, .ok ())) : P e1 := by
  induction args generalizing e with
  | nil => injection h with h _; rw [← h]; exact h0
  | cons a args ih =>
    unfold parseLoop at h
    have hp := hP a List.mem_cons_self e h0
    split at h
    · cases h
    · rename_i e2 he2
      rw [he2] at hp
      exact ih (fun b hb => hP b (List.mem_cons_of_mem _ hb)) (hp rfl) h

theorem parseArgs_inv {kw : Kwargs K} {args : List String} {e e1 : ELM K} (h : e.parseArgs args kw = (e1, .ok ())) (P : ELM K → Prop)
    (h0 : P { e with nnet := e.nnet.reset, rankingOP := false, kmaxOp := none, classification := none, wc := none })
    (hP : ∀ a ∈ args.map upper, ∀ e, P e → (parseOne kw e a).2 = .ok () → P (parseOne kw e a).1)
    (hb : ∀ e b, P e → P { e with batch := b }) : P e1 := by
  unfold ELM.parseArgs at h
  split at h
  · cases h
  simp only at h
  split at h
  · cases h
  split at h
  · cases h
  split at h
  · cases h
  · rename_i e2 he2
    have := parseLoop_inv kw P _ hP h0 he2
    injection h with h _
    rw [← h]
    split
    · exact hb _ _ this
    · exact this

/-- C35 is false: with fewer than three neurons cross-validation never completes.  Whatever the data, targets, `k ≥ 3` and
shuffles, a call that passes argument checking raises. -/
theorem C35_small_networks_refuted :
    ¬ ∀ (fs : Files ℚ) (rnd : Rnd) (e : ELM ℚ) (X T : Mat ℚ) (k : Nat), 3 ≤ k → 10 * k ≤ X.nrows → X.nrows = T.nrows → Consistent e.nnet →
      (∃ H, e.nnet.project QEnv.env X = .ok H) → T.cols = e.nnet.outputs → T.WF →
      ∃ r e', e.train QEnv.env fs rnd (.mat X) (.mat T) ["CV"] { k := some (k : Int) } = (.ok r, e') := by
  intro h
  obtain ⟨r, e', h⟩ := h (fun _ => none) ⟨fun _ => [0, 1]⟩ (exModel 1 2 none none) ⟨2, List.replicate 30 [1, 2]⟩ ⟨1, List.replicate 30 [1]⟩ 3
    (by omega) (by decide) (by decide) (by
      refine ⟨by decide, by decide, Or.inl (by decide), ?_, ?_⟩
      · intro B hB; cases hB
      · intro a b hab; cases hab) ⟨_, rfl⟩ rfl (by
      intro r hr
      rw [List.eq_of_mem_replicate hr]; rfl)
  have h2 : ((exModel 1 2 none none).train QEnv.env (fun _ => none) ⟨fun _ => [0, 1]⟩ (.mat ⟨2, List.replicate 30 [1, 2]⟩)
    (.mat ⟨1, List.replicate 30 [1]⟩) ["CV"] { k := some ((3 : Nat) : Int) }).1 = .error .indexError := by decide +kernel
  rw [h] at h2
  cases h2

variable [IsStrictOrderedRing K]

/-- Shapes of one round's data. -/
structure FoldShapes (L C : Nat) (d : FoldData K) : Prop where
  hh : d.HH.WF ∧ d.HH.nrows = L ∧ d.HH.cols = L
  ht : d.HT.WF ∧ d.HT.nrows = L ∧ d.HT.cols = C
  vl : d.Hvl.nrows = d.Tvl.nrows ∧ 0 < d.Tvl.nrows ∧ d.Tvl.WF ∧ d.Tvl.cols = C
  ts : d.Hts.nrows = d.Tts.nrows ∧ 0 < d.Tts.nrows ∧ d.Tts.WF ∧ d.Tts.cols = C
  rank : d.rank.Perm (List.range L)
  num : d.L = L

theorem selRows_project {env : Env K} {n : NNet K} {X H : Mat K} (hp : n.project env X = .ok H) (idx : List Nat) :
    ∃ H', n.project env (X.selRows idx) = .ok H' ∧ H'.cols = H.cols ∧ H'.nrows = idx.length := by
  obtain ⟨a, b, c, rfl⟩ := (project_ok_iff _ _ _ _).1 hp
  exact ⟨_, (project_ok_iff _ _ _ _).2 ⟨a, b, c, rfl⟩, rfl, by simp [Mat.nrows, Mat.selRows]⟩

theorem cvFold_total {env : Env K} {sh : List Nat} {e : ELM K} {X T H : Mat K} {k i : Nat} (hk : 3 ≤ k) (hi : i < k) (hkN : k ≤ X.nrows)
    (hc : Consistent e.nnet) (hop : e.rankingOP = false) (hp : e.nnet.project env X = .ok H) (hN : X.nrows = T.nrows)
    (hTc : T.cols = e.nnet.outputs) (hT : T.WF) (hsh : sh.Perm (List.range (size e.nnet))) :
    ∃ d, cvFold env sh e X T k i = .ok d ∧ FoldShapes (size e.nnet) T.cols d := by
  have hHc : H.cols = size e.nnet := by
    obtain ⟨_, _, _, rfl⟩ := (project_ok_iff _ _ _ _).1 hp
    exact width_size hc
  obtain ⟨t1, t2, t3⟩ := cv_lt (N := X.nrows) (k := k) (i := i)
  obtain ⟨n1, n2⟩ := cv_nonempty hk hkN hi
  obtain ⟨Htr, p1, p2, p3⟩ := selRows_project hp (cvTrain X.nrows k i)
  obtain ⟨Hvl, v1, v2, v3⟩ := selRows_project hp (cvVal X.nrows k i)
  obtain ⟨Hts, s1, s2, s3⟩ := selRows_project hp (cvTest X.nrows k i)
  have hsel : ∀ {idx : List Nat}, (∀ n ∈ idx, n < X.nrows) → (T.selRows idx).WF := by
    intro idx h
    exact Mat.selRows_WF hT (by rw [← hN]; exact h)
  obtain ⟨S, HT, a1, a2, a3, a4, a5, a6⟩ := addBatch_total (n := e.nnet.reset) (T := T.selRows (cvTrain X.nrows k i)) rfl
    (by rw [← p1]; rfl) (by rw [p2, hHc]; rfl) (by simp) hTc (hsel t1)
  refine ⟨⟨S, HT, Hvl, T.selRows (cvVal X.nrows k i), Hts, T.selRows (cvTest X.nrows k i), sh, Hvl.cols⟩, ?_, ?_⟩
  · unfold cvFold
    simp only [a1]
    rw [show (e.nnet.project env (X.selRows (cvVal X.nrows k i))) =
      ({ e.nnet.reset with corr := some (e.nnet.reset.store S, HT) } : NNet K).project env (X.selRows (cvVal X.nrows k i)) from rfl] at v1
    rw [show (e.nnet.project env (X.selRows (cvTest X.nrows k i))) =
      ({ e.nnet.reset with corr := some (e.nnet.reset.store S, HT) } : NNet K).project env (X.selRows (cvTest X.nrows k i)) from rfl] at s1
    have hg := getCorr!_store (n := { e.nnet.reset with corr := some (e.nnet.reset.store S, HT) }) (HT := HT) a2 rfl
    simp only [bind, Except.bind, hg, v1, s1]
    unfold ELM.ranking
    rw [hop]
    rfl
  · refine ⟨⟨a2.wf, by rw [a3, p2, hHc], by rw [← a2.square, a3, p2, hHc]⟩, ⟨a4, by rw [a5, p2, hHc], a6⟩, ⟨by simp [v3], ?_, hsel t2, rfl⟩,
      ⟨by simp [s3], ?_, hsel t3, rfl⟩, hsh, by simp only; rw [v2, hHc]⟩
    · simp only [Mat.selRows_nrows]; exact List.length_pos_iff.2 n1
    · simp only [Mat.selRows_nrows]; exact List.length_pos_iff.2 n2

theorem solve_shape_total {env : Env K} (hs : Shapes env) (n : NNet K) {cls : Option String} {wc : Option (List (Option K))} {HH HT Hq Tq : Mat K}
    (h1 : HH.WF) (h2 : HT.WF) (h3 : HH.nrows = HH.cols) (h4 : HT.nrows = HH.nrows) (hT : Tq.WF) (hn : Hq.nrows = Tq.nrows)
    (hc : HT.cols = Tq.cols) (h0 : 0 < Tq.nrows) (hc0 : 0 < Tq.cols)
    (hw : cls = some "wc" → ∃ ws : List K, wc = some (ws.map some) ∧ ws.sum ≠ 0) :
    ∃ v, elmError cls wc Tq (Hq.mul (n.solveCorr env HH HT)) = .ok v := by
  obtain ⟨_, _, c⟩ := solveCorr_shape hs n h1 h2 h3 h4
  exact elmError_total hT (Mat.mul_WF _ _) (by simp [hn]) (by simp [c, hc]) h0 hc0 hw

theorem trainCV_total {env : Env K} (hs : Shapes env) {sh : Nat → List Nat} {e1 : ELM K} {X T H : Mat K} {k : Nat} (hk3 : 3 ≤ k)
    (hkN : k ≤ X.nrows) (hN : X.nrows = T.nrows) (hTc : T.cols = e1.nnet.outputs) (hT : T.WF) (ho : 0 < e1.nnet.outputs)
    (hcons1 : Consistent e1.nnet) (hL : 3 ≤ size e1.nnet) (hp1 : e1.nnet.project env X = .ok H) (hr : e1.rankingOP = false)
    (hw : e1.classification = some "wc" → ∃ ws : List K, e1.wc = some (ws.map some) ∧ ws.sum ≠ 0)
    (hsh : ∀ i < k, (sh i).Perm (List.range (size e1.nnet))) :
    ∃ e' errT m errs, trainCV env sh e1 X T k = .ok (e', errT, m, errs) ∧ 3 ≤ m ∧ m ≤ size e1.nnet ∧ size e'.nnet = m := by
  have hfold : ∀ i ∈ List.range k, ∃ d, cvFold env (sh i) e1 X T k i = .ok d := by
    intro i hi
    obtain ⟨d, hd, _⟩ := cvFold_total (sh := sh i) hk3 (List.mem_range.1 hi) hkN hcons1 hr hp1 hN hTc hT (hsh i (List.mem_range.1 hi))
    exact ⟨d, hd⟩
  obtain ⟨ds, hds⟩ := mapM_total hfold
  obtain ⟨hlen, hget⟩ := mapM_range hds
  have hshape : ∀ d ∈ ds, FoldShapes (size e1.nnet) T.cols d := by
    intro d hd
    obtain ⟨i, hi, rfl⟩ := List.getElem_of_mem hd
    obtain ⟨d, hd, hf⟩ := cvFold_total (sh := sh i) hk3 (by omega : i < k) hkN hcons1 hr hp1 hN hTc hT (hsh i (by omega))
    rw [hget i hi] at hd
    injection hd with hd
    rw [hd]
    exact hf
  have hC : 0 < T.cols := by omega
  obtain ⟨full, hfull⟩ := cvMean_total (k := k) (ds := ds)
    (f := fun d => elmError e1.classification e1.wc d.Tvl (d.Hvl.mul (e1.nnet.solveCorr env d.HH d.HT))) (fun d hd => by
      have f := hshape d hd
      exact solve_shape_total hs e1.nnet f.hh.1 f.ht.1 (by rw [f.hh.2.1, f.hh.2.2]) (by rw [f.ht.2.1, f.hh.2.1]) f.vl.2.2.1 f.vl.1
        (by rw [f.ht.2.2, f.vl.2.2.2]) f.vl.2.1 (by rw [f.vl.2.2.2]; exact hC) hw) 0
  obtain ⟨errT, hE⟩ := cvMean_total (k := k) (ds := ds)
    (f := fun d => elmError e1.classification e1.wc d.Tts (d.Hts.mul (e1.nnet.solveCorr env d.HH d.HT))) (fun d hd => by
      have f := hshape d hd
      exact solve_shape_total hs e1.nnet f.hh.1 f.ht.1 (by rw [f.hh.2.1, f.hh.2.2]) (by rw [f.ht.2.1, f.hh.2.1]) f.ts.2.2.1 f.ts.1
        (by rw [f.ht.2.2, f.ts.2.2.2]) f.ts.2.1 (by rw [f.ts.2.2.2]; exact hC) hw) 0
  have hscore : ∀ n, ∃ s, cvMean k (fun d => scoreV env e1 d.HH d.HT d.Hvl d.Tvl (d.rank.take n)) ds 0 = .ok s := by
    intro n
    apply cvMean_total
    intro d hd
    have f := hshape d hd
    unfold scoreV
    refine solve_shape_total hs e1.nnet (Mat.selCols_WF _ _) (Mat.selRows_WF f.ht.1 ?_) (by simp [subSquare]) (by simp [subSquare]) f.vl.2.2.1
      (by simp [f.vl.1]) (by simp [f.ht.2.2, f.vl.2.2.2]) f.vl.2.1 (by rw [f.vl.2.2.2]; exact hC) hw
    intro i hi
    rw [f.ht.2.1]
    exact List.mem_range.1 (f.rank.mem_iff.1 (List.mem_of_mem_take hi))
  have hLast : (ds.map (·.L)).getLastD (e1.nnet.L.getD 0) = size e1.nnet := by
    have hne : ds ≠ [] := by intro h; rw [h] at hlen; simp at hlen; omega
    rw [List.getLastD_eq_getLast?, List.getLast?_map, List.getLast?_eq_some_getLast hne]
    exact (hshape _ (List.getLast_mem hne)).num
  have hmy : ∀ pen v : K, ∃ m, myopt 3 (size e1.nnet : Int) (errArray (size e1.nnet) (size e1.nnet) v) (fun idx => do
      let s ← cvMean k (fun d => scoreV env e1 d.HH d.HT d.Hvl d.Tvl (d.rank.take idx)) ds 0
      pure (s + idx * pen)) = .ok m ∧ 3 ≤ m.1 ∧ m.1 ≤ size e1.nnet := by
    intro pen v
    rcases myopt_cases (fun idx => do
      let s ← cvMean k (fun d => scoreV env e1 d.HH d.HT d.Hvl d.Tvl (d.rank.take idx)) ds 0
      pure (s + (idx : K) * pen)) 3 (size e1.nnet) (by omega) (by omega) (errArray (size e1.nnet) (size e1.nnet) v)
        (by rw [errArray_length]; omega) with ⟨n, x, _, _, h, _⟩ | ⟨k', e', h, l1, l2, _⟩
    · obtain ⟨s, hs⟩ := hscore n
      simp only [hs] at h
      cases h
    · exact ⟨_, h, by simp only; omega, by simp only; omega⟩
  obtain ⟨m, hm, m1, m2⟩ := hmy (full * (1 / 100) / (size e1.nnet : K)) (full + (size e1.nnet : K) * (full * (1 / 100) / (size e1.nnet : K)))
  obtain ⟨e', he'⟩ := refit_total (best := ((ds.map (·.rank)).getLastD []).take m.1) hcons1 hN hT hTc hp1
  have hrank : ((ds.map (·.rank)).getLastD []).Perm (List.range (size e1.nnet)) := by
    have hne : ds ≠ [] := by intro h; rw [h] at hlen; simp at hlen; omega
    rw [List.getLastD_eq_getLast?, List.getLast?_map, List.getLast?_eq_some_getLast hne]
    exact (hshape _ (List.getLast_mem hne)).rank
  have hsz : size e'.nnet = m.1 := by
    rw [(refit_neurons hcons1 he').2, List.filter_eq_self.2 fun i hi => by
      simpa using List.mem_range.1 (hrank.mem_iff.1 (List.mem_of_mem_take hi)), List.length_take, hrank.length_eq, List.length_range]
    omega
  refine ⟨e', errT, m.1, m.2, ?_, m1, m2, hsz⟩
  · skip
    unfold trainCV
    simp only [hds, bind, Except.bind, hLast, hfull]
    unfold penaltyOf
    rw [if_neg (by omega)]
    simp only
    have := hm
    simp only [bind, Except.bind] at this
    rw [this]
    simp only [hE, he']
    rfl

/-- C35 (networks with at least three neurons).  Cross-validation with random ranking completes for every network of at least three
neurons, every data set with at least `k` samples, every `k ≥ 3` and every outcome of the shuffles; in weighted classification if
class weights of non-zero sum are given.  At least three and at most all neurons are kept.
Missing from the property: networks with one or two neurons (`C35_small_networks_refuted`); optimal-pruning ranking, which may raise on
degenerate data (see C40). -/
theorem C35_cv_completes_partial (env : Env K) (hs : Shapes env) (fs : Files K) (rnd : Rnd) (e e1 : ELM K) (X T H : Mat K) (args : List String)
    (kw : Kwargs K) (k : Nat) (hv : "V" ∉ args) (hcv : "CV" ∈ args) (hop : ¬ Given args "OP") (hk : kw.k = some (k : Int)) (hk3 : 3 ≤ k)
    (hkN : k ≤ X.nrows) (hN : X.nrows = T.nrows) (hXc : X.cols = e.nnet.inputs) (hTc : T.cols = e.nnet.outputs) (hT : T.WF)
    (ho : 0 < e.nnet.outputs) (hc : Consistent e.nnet) (hL : 3 ≤ size e.nnet) (hp : e.nnet.project env X = .ok H)
    (hpa : e.parseArgs args kw = (e1, .ok ())) (hwc : Given args "WC" → ∃ ws, kw.w = some ws ∧ ws.sum ≠ 0)
    (hsh : ∀ i < k, (rnd.shuffles i).Perm (List.range (size e.nnet))) :
    ∃ v e', e.train env fs rnd (.mat X) (.mat T) args kw = (.ok (some v), e') ∧ 3 ≤ size e'.nnet ∧ size e'.nnet ≤ size e.nnet := by
  obtain ⟨q1, q2, q3, q4, q5⟩ := parseArgs_kw hpa
  obtain ⟨w1, _⟩ := parseArgs_wc hpa
  have hr : e1.rankingOP = false := parseArgs_inv hpa (fun e => e.rankingOP = false) rfl
    (fun a ha e he _ => parseOne_rank kw e a (fun h => hop (h ▸ ha)) he) (fun e b h => h)
  have hw : e1.classification = some "wc" → ∃ ws : List K, e1.wc = some (ws.map some) ∧ ws.sum ≠ 0 := by
    intro h
    obtain ⟨ws, hws, hsum⟩ := hwc (w1 h)
    refine ⟨ws, ?_, hsum⟩
    exact parseArgs_inv hpa (fun e => e.classification = some "wc" → e.wc = some (ws.map some)) (fun h => by cases h)
      (fun a _ e he h => parseOne_weights kw e a hws he h) (fun e b h => h) h
  have hcons1 : Consistent e1.nnet := by
    rw [q2]
    exact ⟨hc.groups, hc.types, Or.inl rfl, fun B hB => by
      obtain ⟨b1, b2, b3⟩ := hc.weights B hB
      refine ⟨b1, ?_, b3⟩
      rw [b2]
      rcases hc.count with h | ⟨_, h⟩
      · exact h
      · exact absurd h q5, fun a b h => by cases h⟩
  have hsz : size e1.nnet = size e.nnet := by rw [q2]; rfl
  have hp1 : e1.nnet.project env X = .ok H := by rw [q2]; exact hp
  have ho1 : e1.nnet.outputs = e.nnet.outputs := by rw [q2]; rfl
  obtain ⟨e', v, m, errs, htr, m1, m2, m3⟩ := trainCV_total (sh := rnd.shuffles) hs hk3 hkN hN (by rw [ho1]; exact hTc) hT (by rw [ho1]; exact ho) hcons1 (by rw [hsz]; exact hL)
    hp1 hr hw (by rw [hsz]; exact hsh)
  refine ⟨v, e', ?_, by omega, by omega⟩
  unfold ELM.train
  have hchk : checkBoth fs e.nnet (.mat X) (.mat T) = .ok (X, T) := by
    unfold checkBoth checkData checkOne pyAssert
    simp [hXc, hTc, hN, bind, Except.bind, pure, Except.pure]
  rw [hchk]
  simp only
  rw [hpa]
  simp only
  unfold ELM.trainBody
  rw [if_neg hv, if_pos hcv, hk]
  unfold pyAssert
  simp only [Int.toNat_natCast, htr]
  rw [if_pos (by simp; omega)]
  rfl

theorem exModel4_consistent (cls wc outputs) : Consistent (exModel4 cls wc outputs).nnet := by
  refine ⟨?_, ?_, Or.inl ?_, ?_, ?_⟩
  · show ∀ g ∈ ([⟨1, .name "lin", [[1]], [0]⟩, ⟨3, .name "tanh", [[1], [2], [-1]], [1, 0, 1]⟩] : List (Group ℚ)),
      g.W.length = g.number ∧ g.B.length = g.number ∧ ∀ w ∈ g.W, w.length = 1
    decide
  · show ([⟨1, .name "lin", [[1]], [0]⟩, ⟨3, .name "tanh", [[1], [2], [-1]], [1, 0, 1]⟩] : List (Group ℚ)).map (·.func) |>.Nodup
    decide
  · rfl
  · intro B h; cases h
  · intro a b h; cases h

/-- The hypotheses of `C35_cv_completes_partial`, and with them those of `C34_returned_test_error`, are met: four neurons, four
samples, three rounds, over a lawful exact environment. -/
example : Lawful (lawEnv QEnv.env) ∧ (lawEnv QEnv.env).Exact ∧ (0 : ℚ) < (exModel4 none none 1).nnet.norm ∧
    ∃ v e', (exModel4 none none 1).train (lawEnv QEnv.env) (fun _ => none) ⟨fun _ => [2, 0, 3, 1]⟩ (.mat ⟨1, [[1], [2], [3], [5]]⟩)
      (.mat ⟨1, [[1], [0], [3], [2]]⟩) ["CV"] { k := some 3 } = (.ok (some v), e') ∧
      3 ≤ size e'.nnet ∧ size e'.nnet ≤ 4 :=
  ⟨lawEnv_lawful _, lawEnv_exact _, by decide +kernel,
    C35_cv_completes_partial (lawEnv QEnv.env) (lawEnv_lawful _).toShapes _ _ _ (exModel4 none none 1) _ _ _ _ _ 3 (by decide) (by decide)
      (by decide) rfl (by omega) (by decide) rfl rfl rfl (by
        show ∀ r ∈ ([[1], [0], [3], [2]] : List (List ℚ)), r.length = 1
        decide) (by decide) (exModel4_consistent _ _ _) (by decide) rfl rfl (by decide) (by
        intro i _
        show List.Perm [2, 0, 3, 1] (List.range 4)
        decide)⟩

/-- A model with three neurons. -/
def exModel3 : ELM ℚ :=
  { nnet := { solver := .python, prec := .double, inputs := 1, outputs := 1, norm := 1,
              neurons := [⟨1, .name "lin", [[1]], [0]⟩, ⟨2, .name "tanh", [[1], [2]], [1, 0]⟩], L := some 3, B := none, corr := none }
    batch := 2, prec := .double, accelerator := none, classification := none, wc := none, rankingOP := false, kmaxOp := none }

theorem exModel3_consistent : Consistent exModel3.nnet := by
  refine ⟨?_, ?_, Or.inl rfl, ?_, ?_⟩
  · show ∀ g ∈ ([⟨1, .name "lin", [[1]], [0]⟩, ⟨2, .name "tanh", [[1], [2]], [1, 0]⟩] : List (Group ℚ)),
      g.W.length = g.number ∧ g.B.length = g.number ∧ ∀ w ∈ g.W, w.length = 1
    decide
  · show ([⟨1, .name "lin", [[1]], [0]⟩, ⟨2, .name "tanh", [[1], [2]], [1, 0]⟩] : List (Group ℚ)).map (·.func) |>.Nodup
    decide
  · intro B h; cases h
  · intro a b h; cases h

end Hpelm.Props
