import Verif.Model.Elm
import Verif.Lemmas.Myopt

/-!
# No function of the model runs out of fuel

`PyErr.nonTermination` is the marker of the model for a loop that did not stop.  It is produced only by the neuron-count
search, which `myopt_cases` shows to stop; so no call returns it.
-/

set_option linter.unusedSectionVars false

namespace Hpelm
variable {K : Type}

/-- The outcome is not the marker of a loop that did not stop. -/
def NT {α : Type} (x : Except PyErr α) : Prop := x ≠ .error .nonTermination

theorem NT_ok {α : Type} (a : α) : NT (.ok a : Except PyErr α) := by unfold NT; exact fun h => by cases h
theorem NT_pure {α : Type} (a : α) : NT (pure a : Except PyErr α) := NT_ok a
theorem NT_err {α : Type} {x : PyErr} (h : x ≠ .nonTermination) : NT (.error x : Except PyErr α) := by
  unfold NT; intro h'; injection h' with h'; exact h h'
theorem NT_bind {α β : Type} {x : Except PyErr α} {f : α → Except PyErr β} (h : NT x) (hf : ∀ a, x = .ok a → NT (f a)) : NT (x >>= f) := by
  cases x with
  | error y => intro h'; apply h; cases h'; rfl
  | ok a => exact hf a rfl

theorem NT_mapM {α β : Type} {f : α → Except PyErr β} (hf : ∀ a, NT (f a)) (l : List α) : NT (l.mapM f) := by
  induction l with
  | nil => exact NT_pure _
  | cons a l ih =>
    rw [List.mapM_cons]
    exact NT_bind (hf a) fun b _ => NT_bind ih fun _ _ => NT_pure _

theorem NT_pyAssert (c : Bool) : NT (pyAssert c) := by
  unfold pyAssert; split
  · exact NT_ok _
  · exact NT_err (by decide)

/-- Walk through a `do` block. -/
macro "nt_walk" : tactic =>
  `(tactic| repeat' (first
    | exact NT_ok _ | exact NT_pure _ | exact NT_err (by decide) | exact NT_pyAssert _ | assumption
    | (refine NT_bind ?_ ?_) | intro _ _ | split))

section
variable [Field K] [LinearOrder K]

theorem NT_checkOne (fs : Files K) (c : Nat) (a : DataArg K) : NT (checkOne fs c a) := by
  unfold checkOne
  cases a <;> simp only <;> nt_walk

theorem NT_checkData (fs : Files K) (n : NNet K) (X T : DataArg K) : NT (checkData fs n X T) := by
  unfold checkData
  refine NT_bind (NT_checkOne _ _ _) fun _ _ => NT_bind (NT_checkOne _ _ _) fun _ _ => ?_
  nt_walk

theorem NT_checkBoth (fs : Files K) (n : NNet K) (X T : DataArg K) : NT (checkBoth fs n X T) := by
  unfold checkBoth
  refine NT_bind (NT_checkData _ _ _ _) fun _ _ => ?_
  nt_walk

theorem NT_wcVector (wc : List (Option K)) (T : Mat K) : NT (wcVector wc T) := by
  unfold wcVector
  refine NT_mapM (fun j => ?_) _
  nt_walk

theorem NT_batchWeights (cls) (wc : Option (List (Option K))) (T : Mat K) : NT (batchWeights cls wc T) := by
  have := NT_wcVector (K := K)
  unfold batchWeights
  split
  · split
    · nt_walk
    · exact NT_bind (NT_wcVector _ _) fun _ _ => NT_pure _
  · nt_walk

theorem NT_hstack (Hs : List (Mat K)) : NT (hstack Hs) := by
  unfold hstack; nt_walk

theorem NT_project (env : Env K) (n : NNet K) (X : Mat K) : NT (n.project env X) := by
  have h : ∀ g, NT (applyGroup env X g) := by
    intro g; unfold applyGroup; nt_walk
  unfold NNet.project
  simp only
  split
  · exact NT_bind (NT_err (by decide)) fun _ _ => NT_bind (NT_mapM h _) fun _ _ => NT_hstack _
  · exact NT_bind (NT_mapM h _) fun _ _ => NT_hstack _

theorem NT_scaleRows (w : List K) (M : Mat K) : NT (scaleRows w M) := by
  unfold scaleRows; nt_walk

theorem NT_weighted (env : Env K) (p) (wc : Option (List K)) (H T : Mat K) : NT (weighted env p wc H T) := by
  unfold weighted
  split
  · nt_walk
  · exact NT_bind (NT_scaleRows _ _) fun _ _ => NT_bind (NT_scaleRows _ _) fun _ _ => NT_pure _

theorem NT_addBatch (env : Env K) (n : NNet K) (X T : Mat K) (wc) : NT (n.addBatch env X T wc) := by
  unfold NNet.addBatch
  refine NT_bind (NT_project _ _ _) fun _ _ => NT_bind (NT_weighted _ _ _ _ _) fun _ _ => ?_
  simp only
  nt_walk

theorem NT_solve (env : Env K) (n : NNet K) : NT (n.solve env) := by
  unfold NNet.solve; nt_walk

theorem NT_getCorr (n : NNet K) : NT n.getCorr := by
  unfold NNet.getCorr; nt_walk

theorem NT_getCorr! (n : NNet K) : NT n.getCorr! := by
  unfold NNet.getCorr!
  refine NT_bind (NT_getCorr _) fun _ _ => ?_
  nt_walk

theorem NT_feed (env : Env K) (i o : Nat) (bs) (e : ELM K) : NT (e.feed env i o bs) := by
  induction bs generalizing e with
  | nil => exact NT_ok _
  | cons b bs ih =>
    obtain ⟨Xb, Tb⟩ := b
    unfold ELM.feed
    exact NT_bind (NT_batchWeights _ _ _) fun _ _ => NT_bind (NT_addBatch _ _ _ _ _) fun _ _ => ih _

theorem NT_arraySplit {α : Type} (l : List α) (k : Int) : NT (arraySplit l k) := by
  unfold arraySplit; nt_walk

theorem NT_addData (env : Env K) (e : ELM K) (X T : Mat K) : NT (e.addData env X T) := by
  unfold ELM.addData
  simp only
  split
  · exact NT_bind (NT_err (by decide)) fun _ _ => NT_bind (NT_arraySplit _ _) fun _ _ => NT_bind (NT_arraySplit _ _) fun _ _ => NT_feed _ _ _ _ _
  · exact NT_bind (NT_arraySplit _ _) fun _ _ => NT_bind (NT_arraySplit _ _) fun _ _ => NT_feed _ _ _ _ _

theorem NT_minStep (G : List (K × K)) : NT (minStep G) := by
  unfold minStep; simp only; nt_walk

theorem NT_mrsrStep (env : Env K) (X T : Mat K) (S f l st) : NT (mrsrStep env X T S f l st) := by
  unfold mrsrStep
  have h := NT_minStep (K := K)
  simp only
  repeat' (first
    | exact NT_ok _ | exact NT_pure _ | exact NT_err (by decide) | exact h _
    | (refine NT_bind ?_ ?_) | intro _ _ | split)

theorem NT_mrsrLoop (env : Env K) (X T : Mat K) (S kmax ks st) : NT (mrsrLoop env X T S kmax ks st) := by
  induction ks generalizing st with
  | nil => exact NT_ok _
  | cons k ks ih => unfold mrsrLoop; exact NT_bind (NT_mrsrStep _ _ _ _ _ _ _) fun _ _ => ih _

theorem NT_mrsr (env : Env K) (X T : Mat K) (kmax) : NT (mrsr env X T kmax) := by
  unfold mrsr
  exact NT_bind (NT_mrsrStep _ _ _ _ _ _ _) fun _ _ => NT_bind (NT_mrsrLoop _ _ _ _ _ _ _) fun _ _ => NT_pure _

theorem NT_mrsr2Step (env : Env K) (X T : Mat K) (st) : NT (mrsr2Step env X T st) := by
  unfold mrsr2Step
  simp only
  nt_walk

theorem NT_mrsr2Loop (env : Env K) (X T : Mat K) (k st) : NT (mrsr2Loop env X T k st) := by
  induction k generalizing st with
  | zero => exact NT_ok _
  | succ k ih => unfold mrsr2Loop; exact NT_bind (NT_mrsr2Step _ _ _ _) fun _ _ => ih _

theorem NT_mrsr2 (env : Env K) (X T : Mat K) (kmax) : NT (mrsr2 env X T kmax) := by
  unfold mrsr2
  exact NT_bind (NT_mrsr2Loop _ _ _ _ _) fun _ _ => NT_pure _

theorem NT_ranking (env : Env K) (sh) (e : ELM K) (L) (H T : Mat K) : NT (e.ranking env sh L H T) := by
  unfold ELM.ranking
  split
  · simp only
    split
    · exact NT_bind (NT_mrsr _ _ _ _) fun _ _ => NT_pure _
    · exact NT_bind (NT_mrsr2 _ _ _ _) fun _ _ => NT_pure _
  · exact NT_pure _

theorem NT_notNan (r : Option K) : NT (notNan r) := by unfold notNan; nt_walk

theorem NT_weightedMean (a : List K) (b) : NT (weightedMean a b) := by unfold weightedMean; nt_walk

theorem NT_elmError (cls wc) (T Y : Mat K) : NT (elmError cls wc T Y) := by
  have h1 := NT_notNan (K := K)
  unfold elmError
  split
  · nt_walk
  split
  · exact h1 _
  split
  · simp only
    split
    · nt_walk
    · exact NT_bind (NT_weightedMean _ _) fun _ _ => h1 _
  split
  · exact h1 _
  · exact h1 _

theorem NT_sqDiv (a b : List K) : NT (sqDiv a b) := by unfold sqDiv; nt_walk

theorem NT_elmErrorPress (cls wc) (T Y : Mat K) (R) : NT (elmErrorPress cls wc T Y R) := by
  have h1 := NT_notNan (K := K)
  have h2 := NT_sqDiv (K := K)
  unfold elmErrorPress
  split
  · nt_walk
  split
  · exact NT_bind (h2 _ _) fun _ _ => h1 _
  split
  · refine NT_bind (NT_mapM (fun i => NT_bind (h2 _ _) fun _ _ => NT_pure _) _) fun _ _ => ?_
    split
    · nt_walk
    · split
      · nt_walk
      · exact h1 _
  split
  · exact NT_bind (NT_mapM (fun i => h2 _ _) _) fun _ _ => h1 _
  · exact NT_bind (NT_mapM (fun i => h2 _ _) _) fun _ _ => h1 _

theorem NT_penaltyOf (err : K) (L) : NT (penaltyOf err L) := by unfold penaltyOf; nt_walk

theorem NT_scoreLOO (env : Env K) (e : ELM K) (HH HT H T : Mat K) : NT (scoreLOO env e HH HT H T) := by
  unfold scoreLOO
  split
  · nt_walk
  · exact NT_elmErrorPress _ _ _ _ _

theorem NT_refit (env : Env K) (e : ELM K) (best) (X T : Mat K) : NT (e.refit env best X T) := by
  unfold ELM.refit
  exact NT_bind (NT_addBatch _ _ _ _ _) fun _ _ => NT_bind (NT_solve _ _) fun _ _ => NT_pure _

/-- The search itself, for every range: if the range is empty the first evaluation is out of the array. -/
theorem NT_myopt (lo hi : Int) (e : List K) (score : Nat → Except PyErr K) (hlo : 0 ≤ lo) (hh : hi < e.length)
    (he : lo ≤ hi ∨ (e.length : Int) ≤ lo) (hs : ∀ n, NT (score n)) : NT (myopt lo hi e score) := by
  rcases he with he | he
  · rcases myopt_cases score lo hi hlo he e hh with ⟨n, x, _, _, h, h'⟩ | ⟨k, e', h, _⟩
    · rw [h']; exact NT_err fun hx => hs n (hx ▸ h)
    · rw [h]; exact NT_ok _
  · have : errAt e lo = .error .indexError := by
      unfold errAt
      rw [if_neg (by omega), List.getElem?_eq_none (by omega)]
    have h2 : myopt lo hi e score = .error .indexError := by
      unfold myopt myoptLoop myoptStep
      simp only [Iv.points, Iv.init]
      unfold evalPoints
      rw [this]
      rfl
    rw [h2]
    exact NT_err (by decide)

theorem errArray_length (L0 L : Nat) (v : K) : (errArray L0 L v).length = L0 + 1 := by simp [errArray]

theorem ranking_le {env : Env K} {sh} {e : ELM K} {L0 : Nat} {H T : Mat K} {r : List Nat × Nat} (h : e.ranking env sh L0 H T = .ok r) :
    r.2 ≤ L0 := by
  unfold ELM.ranking at h
  split at h
  · simp only at h
    have hL : (match e.kmaxOp with | some k => min k L0 | none => L0) ≤ L0 := by
      split
      · exact Nat.min_le_right _ _
      · exact le_refl _
    split at h
    · obtain ⟨_, _, h⟩ := bind_ok h
      injection h with h
      rw [← h]
      exact hL
    · obtain ⟨_, _, h⟩ := bind_ok h
      injection h with h
      rw [← h]
      exact hL
  · injection h with h; rw [← h]

theorem penaltyOf_pos {err p : K} {L : Nat} (h : penaltyOf err L = .ok p) : 0 < L := by
  unfold penaltyOf at h
  split at h
  · cases h
  · omega

theorem NT_trainV (env : Env K) (sh) (e : ELM K) (X T Xv Tv : Mat K) : NT (trainV env sh e X T Xv Tv) := by
  unfold trainV
  refine NT_bind (NT_addData _ _ _ _) fun e1 _ => NT_bind (NT_getCorr! _) fun c _ => ?_
  refine NT_bind (NT_project _ _ _) fun Hv _ => NT_bind (NT_ranking _ _ _ _ _ _) fun r hr => NT_bind (NT_elmError _ _ _ _) fun err _ =>
    NT_bind (NT_penaltyOf _ _) fun p hp => NT_bind ?_ fun k _ => NT_bind (NT_refit _ _ _ _ _) fun _ _ => NT_pure _
  have h1 := ranking_le hr
  have h2 := penaltyOf_pos hp
  refine NT_myopt _ _ _ _ (by omega) (by rw [errArray_length]; omega) (Or.inl (by omega)) fun n => ?_
  exact NT_bind (by unfold scoreV; exact NT_elmError _ _ _ _) fun _ _ => NT_pure _

theorem NT_trainLOO (env : Env K) (sh) (e : ELM K) (X T : Mat K) : NT (trainLOO env sh e X T) := by
  unfold trainLOO
  refine NT_bind (NT_project _ _ _) fun H _ => NT_bind (NT_addData _ _ _ _) fun e1 _ => NT_bind (NT_getCorr! _) fun c _ => ?_
  refine NT_bind (NT_ranking _ _ _ _ _ _) fun r hr => NT_bind (NT_scoreLOO _ _ _ _ _ _) fun err _ =>
    NT_bind (NT_penaltyOf _ _) fun p hp => NT_bind ?_ fun k _ => NT_bind (NT_refit _ _ _ _ _) fun _ _ => NT_pure _
  have h1 := ranking_le hr
  have h2 := penaltyOf_pos hp
  refine NT_myopt _ _ _ _ (by omega) (by rw [errArray_length]; omega) (Or.inl (by omega)) fun n => ?_
  exact NT_bind (NT_scoreLOO _ _ _ _ _ _) fun _ _ => NT_pure _

theorem NT_cvMean (k : Nat) (f : FoldData K → Except PyErr K) (hf : ∀ d, NT (f d)) (ds acc) : NT (cvMean k f ds acc) := by
  induction ds generalizing acc with
  | nil => exact NT_ok _
  | cons d ds ih => unfold cvMean; exact NT_bind (hf d) fun _ _ => ih _

theorem NT_cvFold (env : Env K) (sh) (e : ELM K) (X T : Mat K) (k i) : NT (cvFold env sh e X T k i) := by
  unfold cvFold
  exact NT_bind (NT_addBatch _ _ _ _ _) fun _ _ => NT_bind (NT_getCorr! _) fun _ _ => NT_bind (NT_project _ _ _) fun _ _ =>
    NT_bind (NT_project _ _ _) fun _ _ => NT_bind (NT_ranking _ _ _ _ _ _) fun _ _ => NT_pure _

theorem NT_trainCV (env : Env K) (sh) (e : ELM K) (X T : Mat K) (k) : NT (trainCV env sh e X T k) := by
  unfold trainCV
  refine NT_bind (NT_mapM (fun i => NT_cvFold _ _ _ _ _ _ _) _) fun ds _ => ?_
  refine NT_bind (NT_cvMean _ _ (fun d => NT_elmError _ _ _ _) _ _) fun err _ => NT_bind (NT_penaltyOf _ _) fun p hp => ?_
  refine NT_bind ?_ fun r _ => NT_bind (NT_cvMean _ _ (fun d => NT_elmError _ _ _ _) _ _) fun _ _ => NT_bind (NT_refit _ _ _ _ _) fun _ _ => NT_pure _
  refine NT_myopt _ _ _ _ (by omega) (by rw [errArray_length]; omega) ?_ fun n => ?_
  · rw [errArray_length]
    omega
  · exact NT_bind (NT_cvMean _ _ (fun d => by unfold scoreV; exact NT_elmError _ _ _ _) _ _) fun _ _ => NT_pure _

theorem NT_trainBody (env : Env K) (fs : Files K) (rnd) (e : ELM K) (X T : Mat K) (args kw) : NT (e.trainBody env fs rnd X T args kw) := by
  unfold ELM.trainBody
  split
  · split
    · exact NT_bind (NT_checkBoth _ _ _ _) fun _ _ => NT_bind (NT_trainV _ _ _ _ _ _ _) fun _ _ => NT_pure _
    · nt_walk
  split
  · split
    · nt_walk
    · exact NT_bind (NT_pyAssert _) fun _ _ => NT_bind (NT_trainCV _ _ _ _ _ _) fun _ _ => NT_pure _
  split
  · exact NT_bind (NT_trainLOO _ _ _ _ _) fun _ _ => NT_pure _
  · exact NT_bind (NT_addData _ _ _ _) fun _ _ => NT_bind (NT_solve _ _) fun _ _ => NT_pure _

theorem NT_parseLoop (kw : Kwargs K) (as : List String) (e : ELM K) : NT (parseLoop kw as e).2 := by
  induction as generalizing e with
  | nil => exact NT_ok _
  | cons a as ih =>
    unfold parseLoop
    have h : NT (parseOne kw e a).2 := by
      unfold parseOne
      split_ifs <;> simp only <;> nt_walk
    generalize hp : parseOne kw e a = r at h ⊢
    obtain ⟨e1, r⟩ := r
    cases r with
    | error x => exact h
    | ok u => exact ih e1

theorem NT_parseArgs (e : ELM K) (args) (kw : Kwargs K) : NT (e.parseArgs args kw).2 := by
  unfold ELM.parseArgs
  split
  · nt_walk
  · simp only
    split
    · nt_walk
    split
    · nt_walk
    · generalize he : ({ e with nnet := e.nnet.reset, rankingOP := false, kmaxOp := none, classification := none, wc := none } : ELM K) = e0
      have h := NT_parseLoop kw (args.map upper) e0
      generalize parseLoop kw (args.map upper) e0 = r at h ⊢
      obtain ⟨e1, r⟩ := r
      cases r with
      | error x => exact h
      | ok u => exact NT_ok _

theorem NT_train (env : Env K) (fs : Files K) (rnd) (e : ELM K) (X T : DataArg K) (args kw) : NT (e.train env fs rnd X T args kw).1 := by
  unfold ELM.train
  have h1 := NT_checkBoth fs e.nnet X T
  generalize checkBoth fs e.nnet X T = r at h1 ⊢
  cases r with
  | error x => exact NT_err fun hx => h1 (hx ▸ rfl)
  | ok XT =>
    simp only
    have h2 := NT_parseArgs e args kw
    generalize e.parseArgs args kw = r at h2 ⊢
    obtain ⟨e1, r⟩ := r
    cases r with
    | error x => exact NT_err fun hx => h2 (hx ▸ rfl)
    | ok u =>
      simp only
      have h3 := NT_trainBody env fs rnd e1 XT.1 XT.2 args kw
      generalize e1.trainBody env fs rnd XT.1 XT.2 args kw = r at h3 ⊢
      cases r with
      | error x => exact NT_err fun hx => h3 (hx ▸ rfl)
      | ok r => exact NT_ok _

end
end Hpelm
