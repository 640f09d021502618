import Verif.Lemmas.TargetUnitsRun

/-!
# Targets in other units: the trained model
-/

set_option linter.unusedSectionVars false

namespace Hpelm
open Spec
variable {K : Type} [Field K] [LinearOrder K] [IsStrictOrderedRing K]

/-- The accumulated data for targets in other units. -/
def NNet.scaleT (c : K) (n : NNet K) : NNet K := { n with corr := n.corr.map fun p => (p.1, times c p.2) }

/-- The trained network for targets in other units. -/
def NNet.scaleE (c : K) (n : NNet K) : NNet K := { n.scaleT c with B := n.B.map (times c) }

/-- The model after accumulation of data, for targets in other units. -/
def ELM.scaleT (c : K) (e : ELM K) : ELM K := { e with nnet := e.nnet.scaleT c }

/-- The trained model for targets in other units. -/
def ELM.scaleE (c : K) (e : ELM K) : ELM K := { e with nnet := e.nnet.scaleE c }

theorem project_scaleT (env : Env K) (c : K) (n : NNet K) (X : Mat K) : (n.scaleT c).project env X = n.project env X := rfl

theorem addBatch_scale {env : Env K} (hx : env.Exact) (c : K) (n : NNet K) (X T : Mat K) :
    (n.scaleT c).addBatch env X (times c T) none = (n.addBatch env X T none).map (NNet.scaleT c) := by
  unfold NNet.addBatch
  rw [project_scaleT]
  cases n.project env X with
  | error x => rfl
  | ok H =>
    simp only [times_cast hx, weighted, bind, Except.bind, times_nrows, times_cols]
    by_cases h1 : H.nrows ≠ T.nrows ∨ T.cols ≠ n.outputs
    · have h2 : H.nrows ≠ T.nrows ∨ T.cols ≠ (n.scaleT c).outputs := h1
      rw [if_pos h1, if_pos h2]
      rfl
    · have h2 : ¬ (H.nrows ≠ T.nrows ∨ T.cols ≠ (n.scaleT c).outputs) := h1
      rw [if_neg h1, if_neg h2]
      unfold NNet.scaleT
      cases n.corr with
      | none =>
        simp only [Option.map_none]
        split
        · rfl
        · simp only [pure, Except.pure, Except.map, Except.ok.injEq, Option.map_some]
          rw [tmul_times]
          conv_lhs => rw [← times_zeros c, times_add]
          rfl
      | some p =>
        simp only [Option.map_some]
        split
        · rfl
        · simp only [pure, Except.pure, Except.map, Except.ok.injEq, Option.map_some]
          rw [tmul_times, times_add]
          rfl

theorem solveCorr_scale {env : Env K} {c : K} (hs : ScalesSolutions env c) (hx : env.Exact) (n : NNet K) (HH HT : Mat K) :
    n.solveCorr env HH (times c HT) = times c (n.solveCorr env HH HT) := by
  unfold NNet.solveCorr
  cases n.solver with
  | basic => exact mul_times c _ _
  | python =>
    simp only [hs.posv, hs.lstsq]
    split <;> rfl
  | cuda =>
    simp only [hs.posv, hs.lstsq, times_cast hx]
    split <;> rfl

theorem solve_scale {env : Env K} {c : K} (hs : ScalesSolutions env c) (hx : env.Exact) (n : NNet K) :
    (n.scaleT c).solve env = (n.solve env).map (NNet.scaleE c) := by
  unfold NNet.solve NNet.scaleT
  cases hc : n.corr with
  | none => rfl
  | some p =>
    obtain ⟨HH, HT⟩ := p
    have := solveCorr_scale hs hx n HH HT
    simp only [Option.map_some, Except.map, NNet.scaleE, NNet.scaleT]
    rw [← this]
    rfl

theorem getCorr_scale (c : K) (n : NNet K) : (n.scaleT c).getCorr! = n.getCorr!.map fun p => (p.1, times c p.2) := by
  unfold NNet.getCorr! NNet.getCorr NNet.scaleT
  cases n.solver <;> cases n.corr <;> rfl

theorem refit_scale {env : Env K} {c : K} (hs : ScalesSolutions env c) (hx : env.Exact) (e : ELM K) (best : List Nat) (X T : Mat K) :
    (e.scaleT c).refit env best X (times c T) = (e.refit env best X T).map (ELM.scaleE c) := by
  have hp : ((e.scaleT c).nnet.prune best).addBatch env X (times c T) none =
      ((e.nnet.prune best).addBatch env X T none).map (NNet.scaleT c) := addBatch_scale hx c (e.nnet.prune best) X T
  unfold ELM.refit
  simp only [hp]
  cases (e.nnet.prune best).addBatch env X T none with
  | error x => rfl
  | ok n =>
    simp only [Except.map, bind, Except.bind]
    rw [solve_scale hs hx]
    cases n.solve env <;> rfl

/-- `refit` of the model itself. -/
theorem refit_scale' {env : Env K} {c : K} (hs : ScalesSolutions env c) (hx : env.Exact) (e : ELM K) (best : List Nat) (X T : Mat K) :
    e.refit env best X (times c T) = (e.refit env best X T).map (ELM.scaleE c) := by
  rw [← refit_scale hs hx]
  rfl

theorem splitSizes_map' {α β : Type} (f : α → β) (ss : List Nat) (l : List α) : splitSizes ss (l.map f) = (splitSizes ss l).map (List.map f) := by
  induction ss generalizing l with
  | nil => rfl
  | cons s ss ih =>
    unfold splitSizes
    rw [List.map_cons, ← ih, List.map_take, List.map_drop]

theorem arraySplit_map' {α β : Type} (f : α → β) (l : List α) (k : Int) : arraySplit (l.map f) k = (arraySplit l k).map (List.map (List.map f)) := by
  unfold arraySplit
  split
  · rfl
  · simp only [Except.map, List.length_map, splitSizes_map']

theorem feed_scale {env : Env K} (hx : env.Exact) (c : K) (ic oc : Nat) (bs : List (List (List K) × List (List K))) (e : ELM K)
    (hcl : e.classification ≠ some "wc") :
    ELM.feed env ic oc (bs.map fun p => (p.1, p.2.map (List.map (c * ·)))) (e.scaleT c) = (ELM.feed env ic oc bs e).map (ELM.scaleT c) ∧
      ∀ e', ELM.feed env ic oc bs e = .ok e' → e' = { e with nnet := e'.nnet } := by
  induction bs generalizing e with
  | nil => exact ⟨rfl, fun e' h => by injection h with h; rw [← h]⟩
  | cons b bs ih =>
    obtain ⟨Xb, Tb⟩ := b
    rw [List.map_cons]
    unfold ELM.feed
    have hw : ∀ T : Mat K, batchWeights e.classification e.wc T = .ok none := fun _ => by unfold batchWeights; rw [if_neg hcl]; rfl
    have hw' : ∀ T : Mat K, batchWeights (e.scaleT c).classification (e.scaleT c).wc T = .ok none := hw
    rw [hw, hw']
    simp only [bind, Except.bind]
    have ha := addBatch_scale hx c e.nnet ⟨ic, Xb⟩ ⟨oc, Tb⟩
    have ht : (⟨oc, Tb.map (List.map (c * ·))⟩ : Mat K) = times c ⟨oc, Tb⟩ := rfl
    have hn : (e.scaleT c).nnet = e.nnet.scaleT c := rfl
    rw [ht, hn, ha]
    cases e.nnet.addBatch env ⟨ic, Xb⟩ ⟨oc, Tb⟩ none with
    | error x => exact ⟨rfl, fun _ h => by cases h⟩
    | ok n =>
      obtain ⟨i1, i2⟩ := ih { e with nnet := n } hcl
      exact ⟨i1, i2⟩

theorem addData_scale {env : Env K} (hx : env.Exact) (c : K) (e : ELM K) (X T : Mat K) (hcl : e.classification ≠ some "wc") :
    (e.scaleT c).addData env X (times c T) = (e.addData env X T).map (ELM.scaleT c) ∧
      ∀ e', e.addData env X T = .ok e' → e' = { e with nnet := e'.nnet } := by
  have hb : (e.scaleT c).batch = e.batch := rfl
  have hw : ∀ ns, e.autoWc env ns = e := by
    intro ns
    unfold ELM.autoWc
    rw [if_neg fun h => hcl h.1]
  have hw' : ∀ ns, (e.scaleT c).autoWc env ns = e.scaleT c := by
    intro ns
    unfold ELM.autoWc
    rw [if_neg fun h => hcl h.1]
  unfold ELM.addData
  simp only [hb, hw, hw', bind, Except.bind]
  split
  · exact ⟨rfl, fun _ h => by cases h⟩
  have ht : (times c T).rows = T.rows.map (List.map (c * ·)) := rfl
  rw [ht, arraySplit_map']
  cases arraySplit X.rows (ceilDiv X.nrows e.batch) with
  | error x => exact ⟨rfl, fun _ h => by cases h⟩
  | ok Xs =>
    cases arraySplit T.rows (ceilDiv X.nrows e.batch) with
    | error x => exact ⟨rfl, fun _ h => by cases h⟩
    | ok Ts =>
      have hz : Xs.zip (Ts.map (List.map (List.map (c * ·)))) = (Xs.zip Ts).map fun p => (p.1, p.2.map (List.map (c * ·))) := by
        rw [List.zip_map_right]
        rfl
      simp only [Except.map]
      rw [hz]
      exact feed_scale hx c X.cols T.cols _ e hcl

theorem ranking_scale {env : Env K} {c : K} (hc : c ≠ 0) (sh : List Nat) (e : ELM K) (L : Nat) (H T : Mat K)
    (h10 : e.rankingOP = true → (T.cols < 10 ∨ ScalesRoots env c)) : e.ranking env sh L H (times c T) = e.ranking env sh L H T := by
  unfold ELM.ranking
  by_cases h : e.rankingOP = true
  · rcases h10 h with h1 | hr
    · simp only [h, if_true, times_cols, h1, mrsr_scale env hc]
    · simp only [h, if_true, times_cols, mrsr_scale env hc, mrsr2_scale hc hr]
  · simp only [h]
    rfl

theorem scoreV_scale {env : Env K} {c δ : K} (hs : ScalesSolutions env c) (hx : env.Exact) (e : ELM K) (hcl : ErrFactor c δ e.classification)
    (HH HT Hv Tv : Mat K) (rank : List Nat) :
    scoreV env e HH (times c HT) Hv (times c Tv) rank = (scoreV env e HH HT Hv Tv rank).map (δ * ·) := by
  unfold scoreV
  simp only [selRows_times, solveCorr_scale hs hx, mul_times, elmError_units hcl]

theorem scoreLOO_scale {env : Env K} {c δ : K} (e : ELM K) (hcl : ErrFactor c δ e.classification) (HH HT H T : Mat K) :
    scoreLOO env e HH (times c HT) H (times c T) = (scoreLOO env e HH HT H T).map (δ * ·) := by
  unfold scoreLOO
  cases env.inv HH with
  | none => rfl
  | some P => simp only [mul_times, elmErrorPress_units hcl]

theorem nonnegW_none (wc : Option (List (Option K))) : NonnegW none wc := fun h => by cases h

theorem scoreV_nonneg {env : Env K} {c δ : K} {e : ELM K} (hcl : ErrFactor c δ e.classification) {HH HT Hv Tv : Mat K} {rank : List Nat} {v : K}
    (h : scoreV env e HH HT Hv Tv rank = .ok v) : 0 ≤ v := by
  unfold scoreV at h
  exact elmError_nonneg (fun h => absurd h hcl.not_wc) h

/-- What the three searches have in common: the error of all neurons, the penalty, the search and the final training, when errors change
by the factor `d`. -/
theorem search_scale {β : Type} {d : K} (hd : 0 < d) (lo : Int) (L0 L : Nat) (err : Except PyErr K) (score score' : Nat → Except PyErr K)
    (herr : ∀ v, err = .ok v → 0 ≤ v) (hs : ScoreUnits d score score') (fin fin' : Nat → Except PyErr β) (g : β → β)
    (hf : ∀ k, fin' k = (fin k).map g) :
    ((err.map (d * ·)).bind fun err => (penaltyOf err L).bind fun p =>
        (myopt lo L (errArray L0 L (err + L * p)) fun i => (score' i).bind fun s => .ok (s + i * p)).bind fun r =>
          (fin' r.1).bind fun b => .ok (b, r.1, r.2)) =
      (err.bind fun err => (penaltyOf err L).bind fun p =>
        (myopt lo L (errArray L0 L (err + L * p)) fun i => (score i).bind fun s => .ok (s + i * p)).bind fun r =>
          (fin r.1).bind fun b => .ok (b, r.1, r.2)).map fun r => (g r.1, r.2.1, r.2.2.map (unitEntry d)) := by
  cases err with
  | error x => rfl
  | ok err =>
    have h0 := herr err rfl
    show (penaltyOf (d * err) L).bind _ = Except.map _ ((penaltyOf err L).bind _)
    rw [penaltyOf_scale]
    cases hp : penaltyOf err L with
    | error x => rfl
    | ok p =>
      have hp0 := penaltyOf_nonneg h0 hp
      have h1 : 0 ≤ err + L * p := by positivity
      have hsc : ScoreUnits d (fun i => (score i).bind fun s => .ok (s + i * p)) fun i => (score' i).bind fun s => .ok (s + i * (d * p)) := by
        constructor
        · intro i
          simp only [hs.1]
          cases score i with
          | error x => rfl
          | ok s => simp only [Except.map, Except.bind, Except.ok.injEq]; ring
        · intro i v hv
          simp only at hv
          cases hsi : score i with
          | error x => rw [hsi] at hv; cases hv
          | ok s =>
            rw [hsi] at hv
            injection hv with hv
            have := hs.2 _ _ hsi
            rw [← hv]; positivity
      have he : d * err + L * (d * p) = d * (err + L * p) := by ring
      have hm := myopt_scale hd hsc lo L (errArray L0 L (err + L * p)) (errArray_entry h1 L0 L)
      show (myopt lo L (errArray L0 L (d * err + L * (d * p))) fun i => (score' i).bind fun s => .ok (s + i * (d * p))).bind _ =
        Except.map _ ((myopt lo L (errArray L0 L (err + L * p)) fun i => (score i).bind fun s => .ok (s + i * p)).bind _)
      rw [he, errArray_scale h1, hm]
      cases myopt lo (↑L) (errArray L0 L (err + ↑L * p)) (fun i => (score i).bind fun s => .ok (s + ↑i * p)) with
      | error x => rfl
      | ok r =>
        show (fin' r.1).bind _ = Except.map _ ((fin r.1).bind _)
        rw [hf]
        cases fin r.1 <;> rfl

theorem trainV_scale {env : Env K} {c δ : K} (hc : c ≠ 0) (hs : ScalesSolutions env c) (hx : env.Exact) (sh : List Nat) (e : ELM K)
    (hcl : ErrFactor c δ e.classification) (hcorr : e.nnet.corr = none) (X T Xv Tv : Mat K) (h10 : e.rankingOP = true → (Tv.cols < 10 ∨ ScalesRoots env c)) :
    trainV env sh e X (times c T) Xv (times c Tv) =
      (trainV env sh e X T Xv Tv).map fun r => (r.1.scaleE c, r.2.1, r.2.2.map (unitEntry δ)) := by
  obtain ⟨a1, a2⟩ := addData_scale hx c e X T hcl.not_wc
  have he : e.scaleT c = e := by
    unfold ELM.scaleT NNet.scaleT
    rw [hcorr]
    cases e with
    | mk n _ _ _ _ _ _ _ => cases n; simp only at hcorr; subst hcorr; rfl
  rw [he] at a1
  rw [trainV_eq, trainV_eq, a1]
  cases h1 : e.addData env X T with
  | error x => rfl
  | ok e1 =>
    have h2 := a2 e1 h1
    have c1 : ErrFactor c δ e1.classification := by rw [h2]; exact hcl
    have r1 : e1.rankingOP = e.rankingOP := by rw [h2]
    show trainVrest env sh (e1.scaleT c) X (times c T) Xv (times c Tv) = (trainVrest env sh e1 X T Xv Tv).map _
    unfold trainVrest
    rw [show (e1.scaleT c).nnet = e1.nnet.scaleT c from rfl, getCorr_scale, project_scaleT]
    cases e1.nnet.getCorr! with
    | error x => rfl
    | ok p =>
      obtain ⟨HH, HT⟩ := p
      simp only [bind, Except.bind, Except.map]
      cases e1.nnet.project env Xv with
      | error x => rfl
      | ok Hv =>
        have hrk : ∀ L, (e1.scaleT c).ranking env sh L Hv (times c Tv) = e1.ranking env sh L Hv Tv := fun L =>
          ranking_scale hc sh (e1.scaleT c) L Hv Tv (by show e1.rankingOP = true → _; rw [r1]; exact h10)
        simp only [hrk, show (NNet.scaleT c e1.nnet).L = e1.nnet.L from rfl]
        cases e1.ranking env sh (e1.nnet.L.getD 0) Hv Tv with
        | error x => rfl
        | ok rl =>
          obtain ⟨rank, L⟩ := rl
          have key := search_scale (β := ELM K) (d := δ) (hcl.pos hc) 1 (e1.nnet.L.getD 0) L
            (elmError e1.classification e1.wc Tv (Hv.mul (e1.nnet.solveCorr env HH HT)))
            (fun i => scoreV env e1 HH HT Hv Tv (rank.take i))
            (fun i => scoreV env (e1.scaleT c) HH (times c HT) Hv (times c Tv) (rank.take i))
            (fun v hv => elmError_nonneg (fun h => absurd h c1.not_wc) hv)
            ⟨fun i => scoreV_scale hs hx (e1.scaleT c) c1 HH HT Hv Tv _, fun i v hv => scoreV_nonneg c1 hv⟩
            (fun k => e1.refit env (rank.take k) X T) (fun k => (e1.scaleT c).refit env (rank.take k) X (times c T)) (ELM.scaleE c)
            (fun k => refit_scale hs hx e1 _ X T)
          have herr : elmError (e1.scaleT c).classification (e1.scaleT c).wc (times c Tv)
              (Hv.mul ((e1.nnet.scaleT c).solveCorr env HH (times c HT))) =
              (elmError e1.classification e1.wc Tv (Hv.mul (e1.nnet.solveCorr env HH HT))).map (δ * ·) := by
            rw [solveCorr_scale hs hx, mul_times, show (e1.scaleT c).classification = e1.classification from rfl, elmError_units c1]
            rfl
          rw [← herr] at key
          exact key

theorem trainLOO_scale {env : Env K} {c δ : K} (hc : c ≠ 0) (hs : ScalesSolutions env c) (hx : env.Exact) (sh : List Nat) (e : ELM K)
    (hcl : ErrFactor c δ e.classification) (hcorr : e.nnet.corr = none) (X T : Mat K) (h10 : e.rankingOP = true → (T.cols < 10 ∨ ScalesRoots env c)) :
    trainLOO env sh e X (times c T) =
      (trainLOO env sh e X T).map fun r => (r.1.scaleE c, r.2.1, r.2.2.map (unitEntry δ)) := by
  obtain ⟨a1, a2⟩ := addData_scale hx c e X T hcl.not_wc
  have he : e.scaleT c = e := by
    unfold ELM.scaleT NNet.scaleT
    rw [hcorr]
    cases e with
    | mk n _ _ _ _ _ _ _ => cases n; simp only at hcorr; subst hcorr; rfl
  rw [he] at a1
  rw [trainLOO_eq, trainLOO_eq, a1]
  cases e.nnet.project env X with
  | error x => rfl
  | ok H =>
  simp only [bind, Except.bind]
  cases h1 : e.addData env X T with
  | error x => rfl
  | ok e1 =>
    have h2 := a2 e1 h1
    have c1 : ErrFactor c δ e1.classification := by rw [h2]; exact hcl
    have r1 : e1.rankingOP = e.rankingOP := by rw [h2]
    show trainLOOrest env sh H (e1.scaleT c) X (times c T) = (trainLOOrest env sh H e1 X T).map _
    unfold trainLOOrest
    rw [show (e1.scaleT c).nnet = e1.nnet.scaleT c from rfl, getCorr_scale]
    cases e1.nnet.getCorr! with
    | error x => rfl
    | ok p =>
      obtain ⟨HH, HT⟩ := p
      simp only [bind, Except.bind, Except.map]
      have hrk : ∀ L, (e1.scaleT c).ranking env sh L H (times c T) = e1.ranking env sh L H T := fun L =>
        ranking_scale hc sh (e1.scaleT c) L H T (by show e1.rankingOP = true → _; rw [r1]; exact h10)
      simp only [hrk, show (NNet.scaleT c e1.nnet).L = e1.nnet.L from rfl]
      cases e1.ranking env sh (e1.nnet.L.getD 0) H T with
      | error x => rfl
      | ok rl =>
        obtain ⟨rank, L⟩ := rl
        have key := search_scale (β := ELM K) (d := δ) (hcl.pos hc) 1 (e1.nnet.L.getD 0) L
          (scoreLOO env e1 HH HT H T)
          (fun i => scoreLOO env e1 (subSquare HH (rank.take i)) (HT.selRows (rank.take i)) (H.selCols (rank.take i)) T)
          (fun i => scoreLOO env (e1.scaleT c) (subSquare HH (rank.take i)) ((times c HT).selRows (rank.take i)) (H.selCols (rank.take i))
            (times c T))
          (fun v hv => scoreLOO_nonneg (fun h => absurd h c1.not_wc) hv)
          ⟨fun i => by
            simp only [selRows_times]
            exact scoreLOO_scale (e1.scaleT c) c1 _ _ _ _, fun i v hv => scoreLOO_nonneg (fun h => absurd h c1.not_wc) hv⟩
          (fun k => e1.refit env (rank.take k) X T) (fun k => (e1.scaleT c).refit env (rank.take k) X (times c T)) (ELM.scaleE c)
          (fun k => refit_scale hs hx e1 _ X T)
        have herr : scoreLOO env (e1.scaleT c) HH (times c HT) H (times c T) = (scoreLOO env e1 HH HT H T).map (δ * ·) :=
          scoreLOO_scale (e1.scaleT c) c1 HH HT H T
        rw [← herr] at key
        exact key

/-! ### Cross-validation -/

theorem cv_result {α : Type} (err : Except PyErr K) (pen : K → Except PyErr K) (my : K → K → Except PyErr (Nat × List K))
    (t : Except PyErr K) (rf : Nat → Except PyErr α) :
    (err.bind fun e => (pen e).bind fun p => (my e p).bind fun r => t.bind fun t => (rf r.1).bind fun m => .ok (m, t, r.1, r.2)) =
      (err.bind fun e => (pen e).bind fun p => (my e p).bind fun r =>
        (t.bind fun t => (rf r.1).bind fun m => Except.ok (t, m)).bind fun b => .ok (b, r.1, r.2)).map
          fun r => (r.1.2, r.1.1, r.2.1, r.2.2) := by
  cases err with
  | error x => rfl
  | ok e =>
    show (pen e).bind _ = Except.map _ ((pen e).bind _)
    cases pen e with
    | error x => rfl
    | ok p =>
      show (my e p).bind _ = Except.map _ ((my e p).bind _)
      cases my e p with
      | error x => rfl
      | ok r =>
        cases t with
        | error x => rfl
        | ok t =>
          show (rf r.1).bind _ = Except.map _ (((rf r.1).bind _).bind _)
          cases rf r.1 <;> rfl

/-- The data of one round for targets in other units. -/
def FoldData.scale (c : K) (d : FoldData K) : FoldData K :=
  { d with HT := times c d.HT, Tvl := times c d.Tvl, Tts := times c d.Tts }

theorem cvFold_scale {env : Env K} {c : K} (hc : c ≠ 0) (hx : env.Exact) (sh : List Nat) (e : ELM K) (X T : Mat K) (k i : Nat)
    (h10 : e.rankingOP = true → (T.cols < 10 ∨ ScalesRoots env c)) :
    cvFold env sh e X (times c T) k i = (cvFold env sh e X T k i).map (FoldData.scale c) := by
  unfold cvFold
  simp only [selRows_times]
  have ha : e.nnet.reset.addBatch env (X.selRows (cvTrain X.nrows k i)) (times c (T.selRows (cvTrain X.nrows k i))) none =
      (e.nnet.reset.addBatch env (X.selRows (cvTrain X.nrows k i)) (T.selRows (cvTrain X.nrows k i)) none).map (NNet.scaleT c) :=
    addBatch_scale hx c e.nnet.reset _ _
  rw [ha]
  cases e.nnet.reset.addBatch env (X.selRows (cvTrain X.nrows k i)) (T.selRows (cvTrain X.nrows k i)) none with
  | error x => rfl
  | ok n =>
    simp only [bind, Except.bind, Except.map, getCorr_scale, project_scaleT]
    cases n.getCorr! with
    | error x => rfl
    | ok p =>
      simp only
      cases n.project env (X.selRows (cvVal X.nrows k i)) with
      | error x => rfl
      | ok Hv =>
        cases n.project env (X.selRows (cvTest X.nrows k i)) with
        | error x => rfl
        | ok Hs =>
          simp only [ranking_scale hc sh e _ Hv (T.selRows (cvVal X.nrows k i)) h10]
          cases e.ranking env sh Hv.cols Hv (T.selRows (cvVal X.nrows k i)) with
          | error x => rfl
          | ok rl => rfl

theorem mapM_scale {α β : Type} (g : β → β) (f f' : α → Except PyErr β) (h : ∀ a, f' a = (f a).map g) (l : List α) :
    l.mapM f' = (l.mapM f).map (List.map g) := by
  induction l with
  | nil => rfl
  | cons a l ih =>
    rw [List.mapM_cons, List.mapM_cons, ih, h]
    cases f a with
    | error x => rfl
    | ok b => cases l.mapM f <;> rfl

theorem cvMean_scale {d : K} {c : K} (k : Nat) {f f' : FoldData K → Except PyErr K} (h : ∀ x, f' (x.scale c) = (f x).map (d * ·))
    (ds : List (FoldData K)) (acc : K) : cvMean k f' (ds.map (FoldData.scale c)) (d * acc) = (cvMean k f ds acc).map (d * ·) := by
  induction ds generalizing acc with
  | nil => rfl
  | cons x ds ih =>
    rw [List.map_cons]
    unfold cvMean
    rw [h]
    cases f x with
    | error y => rfl
    | ok v =>
      simp only [bind, Except.bind, Except.map]
      rw [← mul_div_assoc', ← mul_add]
      exact ih _

theorem cvMean_scale0 {d : K} {c : K} (k : Nat) {f f' : FoldData K → Except PyErr K} (h : ∀ x, f' (x.scale c) = (f x).map (d * ·))
    (ds : List (FoldData K)) : cvMean k f' (ds.map (FoldData.scale c)) 0 = (cvMean k f ds 0).map (d * ·) := by
  have := cvMean_scale k h ds 0
  rwa [mul_zero] at this

/-- What `train_cv` does with the data of its rounds, given the number of ranked neurons and the ranking used (hpelm/mss_cv.py:56-127). -/
def cvRest (env : Env K) (e : ELM K) (X T : Mat K) (k : Nat) (ds : List (FoldData K)) (L : Nat) (rank : List Nat) :
    Except PyErr (ELM K × K × Nat × List K) :=
  (cvMean k (fun d => elmError e.classification e.wc d.Tvl (d.Hvl.mul (e.nnet.solveCorr env d.HH d.HT))) ds 0).bind fun err =>
    (penaltyOf err L).bind fun p =>
      (myopt 3 L (errArray L L (err + L * p)) fun i =>
        (cvMean k (fun d => scoreV env e d.HH d.HT d.Hvl d.Tvl (d.rank.take i)) ds 0).bind fun s => .ok (s + i * p)).bind fun r =>
          (cvMean k (fun d => elmError e.classification e.wc d.Tts (d.Hts.mul (e.nnet.solveCorr env d.HH d.HT))) ds 0).bind fun t =>
            (e.refit env (rank.take r.1) X T).bind fun m => .ok (m, t, r.1, r.2)

theorem trainCV_rest (env : Env K) (sh : Nat → List Nat) (e : ELM K) (X T : Mat K) (k : Nat) :
    trainCV env sh e X T k = ((List.range k).mapM fun i => cvFold env (sh i) e X T k i).bind fun ds =>
      cvRest env e X T k ds ((ds.map (·.L)).getLastD (e.nnet.L.getD 0)) ((ds.map (·.rank)).getLastD []) := rfl

theorem map_map_except {α β γ : Type} (f : α → β) (g : β → γ) (r : Except PyErr α) : (r.map f).map g = r.map (g ∘ f) := by
  cases r <;> rfl

theorem cvRest_scale {env : Env K} {c δ : K} (hc : c ≠ 0) (hs : ScalesSolutions env c) (hx : env.Exact) (e : ELM K)
    (hcl : ErrFactor c δ e.classification) (X T : Mat K) (k : Nat) (ds : List (FoldData K)) (L : Nat) (rank : List Nat) :
    cvRest env e X (times c T) k (ds.map (FoldData.scale c)) L rank =
      (cvRest env e X T k ds L rank).map fun r => (r.1.scaleE c, δ * r.2.1, r.2.2.1, r.2.2.2.map (unitEntry δ)) := by
  have n0 : NonnegW e.classification e.wc := fun h => absurd h hcl.not_wc
  obtain ⟨f1, hf1⟩ : ∃ f : FoldData K → Except PyErr K, f = fun d => elmError e.classification e.wc d.Tvl (d.Hvl.mul (e.nnet.solveCorr env d.HH d.HT)) := ⟨_, rfl⟩
  obtain ⟨f2, hf2⟩ : ∃ f : FoldData K → Except PyErr K, f = fun d => elmError e.classification e.wc d.Tts (d.Hts.mul (e.nnet.solveCorr env d.HH d.HT)) := ⟨_, rfl⟩
  obtain ⟨f3, hf3⟩ : ∃ f : Nat → FoldData K → Except PyErr K, f = fun i d => scoreV env e d.HH d.HT d.Hvl d.Tvl (d.rank.take i) := ⟨_, rfl⟩
  have g1 : ∀ d : FoldData K, f1 (d.scale c) = (f1 d).map (δ * ·) := by
    intro d
    rw [hf1]
    show elmError e.classification e.wc (times c d.Tvl) (d.Hvl.mul (e.nnet.solveCorr env d.HH (times c d.HT))) = _
    rw [solveCorr_scale hs hx, mul_times, elmError_units hcl]
  have g2 : ∀ d : FoldData K, f2 (d.scale c) = (f2 d).map (δ * ·) := by
    intro d
    rw [hf2]
    show elmError e.classification e.wc (times c d.Tts) (d.Hts.mul (e.nnet.solveCorr env d.HH (times c d.HT))) = _
    rw [solveCorr_scale hs hx, mul_times, elmError_units hcl]
  have g3 : ∀ (i : Nat) (d : FoldData K), f3 i (d.scale c) = (f3 i d).map (δ * ·) := by
    intro i d
    rw [hf3]
    exact scoreV_scale hs hx e hcl d.HH d.HT d.Hvl d.Tvl _
  have p1 : ∀ d v, f1 d = .ok v → 0 ≤ v := by rw [hf1]; exact fun d v h => elmError_nonneg n0 h
  have p3 : ∀ i d v, f3 i d = .ok v → 0 ≤ v := by rw [hf3]; exact fun i d v h => scoreV_nonneg hcl h
  unfold cvRest
  have u3 : ∀ i, (fun d : FoldData K => scoreV env e d.HH d.HT d.Hvl d.Tvl (d.rank.take i)) = f3 i := fun i => by rw [hf3]
  simp only [u3]
  rw [← hf1, ← hf2]
  clear u3 hf1 hf2 hf3
  have key := search_scale (β := K × ELM K) (d := δ) (hcl.pos hc) 3 L L (cvMean k f1 ds 0)
    (fun i => cvMean k (f3 i) ds 0) (fun i => cvMean k (f3 i) (ds.map (FoldData.scale c)) 0)
    (fun v hv => cvMean_nonneg p1 le_rfl hv)
    ⟨fun i => cvMean_scale0 k (g3 i) ds, fun i v hv => cvMean_nonneg (p3 i) le_rfl hv⟩
    (fun kk => (cvMean k f2 ds 0).bind fun t => (e.refit env (rank.take kk) X T).bind fun m => .ok (t, m))
    (fun kk => (cvMean k f2 (ds.map (FoldData.scale c)) 0).bind fun t => (e.refit env (rank.take kk) X (times c T)).bind fun m => .ok (t, m))
    (fun r => (δ * r.1, r.2.scaleE c))
    (by
      intro kk
      simp only [cvMean_scale0 k g2 ds]
      cases cvMean k f2 ds 0 with
      | error x => rfl
      | ok t =>
        simp only [Except.map, Except.bind]
        rw [refit_scale' hs hx]
        cases e.refit env (rank.take kk) X T <;> rfl)
  rw [← cvMean_scale0 k g1 ds] at key
  have q1 := cv_result (cvMean k f1 (ds.map (FoldData.scale c)) 0) (fun err => penaltyOf err L)
    (fun (err p : K) => myopt 3 L (errArray L L (err + L * p)) fun i =>
      (cvMean k (f3 i) (ds.map (FoldData.scale c)) 0).bind fun s => .ok (s + i * p))
    (cvMean k f2 (ds.map (FoldData.scale c)) 0) (fun kk => e.refit env (rank.take kk) X (times c T))
  have q2 := cv_result (cvMean k f1 ds 0) (fun err => penaltyOf err L)
    (fun (err p : K) => myopt 3 L (errArray L L (err + L * p)) fun i => (cvMean k (f3 i) ds 0).bind fun s => .ok (s + i * p))
    (cvMean k f2 ds 0) (fun kk => e.refit env (rank.take kk) X T)
  rw [q1, q2, key, map_map_except, map_map_except]
  rfl

theorem trainCV_scale {env : Env K} {c δ : K} (hc : c ≠ 0) (hs : ScalesSolutions env c) (hx : env.Exact) (sh : Nat → List Nat) (e : ELM K)
    (hcl : ErrFactor c δ e.classification) (X T : Mat K) (k : Nat) (h10 : e.rankingOP = true → (T.cols < 10 ∨ ScalesRoots env c)) :
    trainCV env sh e X (times c T) k =
      (trainCV env sh e X T k).map fun r => (r.1.scaleE c, δ * r.2.1, r.2.2.1, r.2.2.2.map (unitEntry δ)) := by
  rw [trainCV_rest, trainCV_rest, mapM_scale (FoldData.scale c) (fun i => cvFold env (sh i) e X T k i)
    (fun i => cvFold env (sh i) e X (times c T) k i) (fun i => cvFold_scale hc hx (sh i) e X T k i h10)]
  cases (List.range k).mapM fun i => cvFold env (sh i) e X T k i with
  | error x => rfl
  | ok ds =>
    have m1 : (ds.map (FoldData.scale c)).map (·.L) = ds.map (·.L) := by rw [List.map_map]; rfl
    have m2 : (ds.map (FoldData.scale c)).map (·.rank) = ds.map (·.rank) := by rw [List.map_map]; rfl
    show cvRest env e X (times c T) k (ds.map (FoldData.scale c)) (((ds.map (FoldData.scale c)).map (·.L)).getLastD (e.nnet.L.getD 0))
      (((ds.map (FoldData.scale c)).map (·.rank)).getLastD []) = _
    rw [m1, m2]
    exact cvRest_scale hc hs hx e hcl X T k ds _ _

end Hpelm
