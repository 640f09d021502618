import Verif.Lemmas.Path
import Verif.Props.C86_Completes

/-!
# C85: optimal pruning takes the neurons in the order of the sparse-regression path
-/

set_option linter.unusedSectionVars false

namespace Hpelm.Props
open Hpelm Spec
variable {K : Type} [Field K] [LinearOrder K] [IsStrictOrderedRing K]

/-- C85 (the function `mrsr`).  Whenever it returns, the columns come in the order in which they enter along the path of multi-response
sparse regression: each is as correlated with the part of the targets not explained so far as any other column. -/
theorem C85_mrsr (env : Env K) (hl : Lawful env) (X T : Mat K) (hN : X.nrows = T.nrows) (kmax : Nat) (r : List Nat)
    (h : mrsr env X T kmax = .ok r) : PathRanking X T r := mrsr_path hl hN h

/-- The hypotheses are met: the second of two columns is found after one move along the path. -/
example : Lawful (lawEnv QEnv.env) ∧ mrsr (lawEnv QEnv.env) ⟨3, [[1, 0, 2], [0, 1, 1], [1, 1, 0], [2, 0, 1]]⟩ ⟨1, [[1], [2], [0], [3]]⟩ 2 = .ok [0, 2] := by
  refine ⟨lawEnv_lawful _, ?_⟩
  with_unfolding_all rfl

theorem ranking_path {env : Env K} (hl : Lawful env) {sh : List Nat} {e : ELM K} {L : Nat} {H T : Mat K} (hN : H.nrows = T.nrows)
    (hop : e.rankingOP = true) (hT : T.cols < 10) {r : List Nat × Nat} (h : e.ranking env sh L H T = .ok r) : PathRanking H T r.1 := by
  unfold ELM.ranking at h
  rw [if_pos hop] at h
  simp only [if_pos hT] at h
  obtain ⟨r', hr, h⟩ := bind_ok h
  injection h with h
  rw [← h]
  exact mrsr_path hl hN hr

theorem autoWc_op (env : Env K) (e : ELM K) (ns : List K) : (e.autoWc env ns).rankingOP = e.rankingOP := by
  unfold ELM.autoWc; split <;> rfl

/-- The data on which the neurons are ranked: the training data for leave-one-out, the validation data for validation, the validation
samples of the last round for cross-validation. -/
def RankedOn (X T : Mat K) (args : List String) (kw : Kwargs K) (Xr Tr : Mat K) : Prop :=
  ("V" ∈ args → ∀ Xv Tv, kw.Xv = some (.mat Xv) → kw.Tv = some (.mat Tv) → Xr = Xv ∧ Tr = Tv) ∧
  ("V" ∉ args → "CV" ∈ args → ∃ k tr vl ts, kw.k = some ((k + 1 : Nat) : Int) ∧ FoldPlan X.nrows (k + 1) tr vl ts ∧
    Xr = X.selRows (vl k) ∧ Tr = T.selRows (vl k)) ∧
  ("V" ∉ args → "CV" ∉ args → Xr = X ∧ Tr = T)

theorem selection_path {env : Env K} (hl : Lawful env) (hx : env.Exact) {fs rnd} {e : ELM K} {X T : Mat K} {args kw r}
    (hc : Consistent e.nnet) (hT : T.WF) (hN : X.nrows = T.nrows) (hTo : T.cols = e.nnet.outputs) (hop : e.rankingOP = true) (ho : e.nnet.outputs < 10)
    (hsel : "V" ∈ args ∨ "CV" ∈ args ∨ "LOO" ∈ args) (h : e.trainBody env fs rnd X T args kw = .ok r) :
    ∃ (e1 : ELM K) (rank : List Nat) (k : Nat) (Xr Tr H : Mat K), Consistent e1.nnet ∧ e1.nnet.neurons = e.nnet.neurons ∧
      e1.refit env (rank.take k) X T = .ok r.2 ∧ e.nnet.project env Xr = .ok H ∧ PathRanking H Tr rank ∧ RankedOn X T args kw Xr Tr := by
  unfold ELM.trainBody at h
  split at h
  · rename_i hV
    split at h
    · rename_i xv tv hxv htv
      obtain ⟨⟨Xv, Tv⟩, hck, h⟩ := bind_ok h
      obtain ⟨_, hTv, hNv⟩ := checkBoth_ok hck
      obtain ⟨r', hr, h⟩ := bind_ok h
      injection h with h
      rw [← h]
      unfold trainV at hr
      obtain ⟨e1, h1, hr⟩ := bind_ok hr
      obtain ⟨c, _, hr⟩ := bind_ok hr
      obtain ⟨Hv, hH, hr⟩ := bind_ok hr
      obtain ⟨rk, hrk, hr⟩ := bind_ok hr
      obtain ⟨_, _, hr⟩ := bind_ok hr
      obtain ⟨_, _, hr⟩ := bind_ok hr
      obtain ⟨m, hm, hr⟩ := bind_ok hr
      obtain ⟨e2, h2, hr⟩ := bind_ok hr
      injection hr with hr
      rw [← hr]
      have hc1 := addData_consistent hc h1
      obtain ⟨c', rfl⟩ := addData_fields h1
      have hH' : e.nnet.project env Xv = .ok Hv := hH
      have hp := ranking_path hl (by rw [(project_WF hc hH').2.1]; exact hNv) (by show (e.autoWc env _).rankingOP = true; rw [autoWc_op]; exact hop)
        (by rw [hTv]; exact ho) hrk
      refine ⟨_, rk.1, m.1, Xv, Tv, Hv, hc1, rfl, h2, hH', hp, ?_, fun h => absurd hV h, fun h => absurd hV h⟩
      intro _ Xv' Tv' e1 e2
      rw [e1] at hxv
      rw [e2] at htv
      injection hxv with hxv
      injection htv with htv
      subst hxv htv
      exact checkBoth_mats hck
    · cases h
  rename_i hV
  split at h
  · rename_i hCV
    split at h
    · cases h
    · rename_i k hk
      obtain ⟨_, hk3, h⟩ := bind_ok h
      obtain ⟨r', hr, h⟩ := bind_ok h
      injection h with h
      rw [← h]
      unfold trainCV at hr
      obtain ⟨ds, hds, hr⟩ := bind_ok hr
      obtain ⟨_, _, hr⟩ := bind_ok hr
      obtain ⟨_, _, hr⟩ := bind_ok hr
      obtain ⟨m, hm, hr⟩ := bind_ok hr
      obtain ⟨_, _, hr⟩ := bind_ok hr
      obtain ⟨e2, h2, hr⟩ := bind_ok hr
      injection hr with hr
      rw [← hr]
      have hk0 : 3 ≤ k := by
        have := pyAssert_ok hk3
        simp at this
        omega
      obtain ⟨l1, l2⟩ := mapM_range hds
      rcases List.eq_nil_or_concat ds with rfl | ⟨ds', d, rfl⟩
      · simp at l1
        omega
      have hlen : ds'.length + 1 = k.toNat := by simpa using l1
      have hd := l2 ds'.length (by simp)
      simp only [List.concat_eq_append, List.getElem_concat_length] at hd
      obtain ⟨H, a1, a2, a3, a4, a5, a6, a7, a8, a9⟩ := cvFold_ok hx hT hN hd
      have hp := ranking_path hl (by rw [(project_WF hc a5).2.1, a6]; simp) hop (by rw [a6]; exact hTo ▸ ho) a9
      simp only [List.concat_eq_append, List.map_append, List.map_cons, List.map_nil, List.getLastD_concat] at h2
      refine ⟨_, d.rank, m.1, _, _, d.Hvl, hc, rfl, h2, a5, hp, fun h => absurd h hV, ?_, fun _ h => absurd hCV h⟩
      intro _ _
      refine ⟨ds'.length, _, _, _, ?_, cv_plan (by omega), by rw [hlen], by rw [a6, hlen]⟩
      rw [hk, hlen]
      congr 1
      omega
  rename_i hCV
  split at h
  · obtain ⟨r', hr, h⟩ := bind_ok h
    injection h with h
    rw [← h]
    unfold trainLOO at hr
    obtain ⟨H, hH, hr⟩ := bind_ok hr
    obtain ⟨e1, h1, hr⟩ := bind_ok hr
    obtain ⟨c, _, hr⟩ := bind_ok hr
    obtain ⟨rk, hrk, hr⟩ := bind_ok hr
    obtain ⟨_, _, hr⟩ := bind_ok hr
    obtain ⟨_, _, hr⟩ := bind_ok hr
    obtain ⟨m, hm, hr⟩ := bind_ok hr
    obtain ⟨e2, h2, hr⟩ := bind_ok hr
    injection hr with hr
    rw [← hr]
    have hc1 := addData_consistent hc h1
    obtain ⟨c', rfl⟩ := addData_fields h1
    have hp := ranking_path hl (by rw [(project_WF hc hH).2.1]; exact hN) (by show (e.autoWc env _).rankingOP = true; rw [autoWc_op]; exact hop)
      (hTo ▸ ho) hrk
    exact ⟨_, rk.1, m.1, X, T, H, hc1, rfl, h2, hH, hp, fun h => absurd h hV, fun _ h => absurd h hCV, fun _ _ => ⟨rfl, rfl⟩⟩
  · rename_i h3
    rcases hsel with h | h | h
    · exact absurd h hV
    · exact absurd h hCV
    · exact absurd h h3

theorem parseArgs_op_flag {kw : Kwargs K} {args : List String} (hg : Given args "OP") {e e1 : ELM K}
    (h : e.parseArgs args kw = (e1, .ok ())) : e1.rankingOP = true := by
  unfold ELM.parseArgs at h
  split at h
  · cases h
  simp only at h
  split at h
  · cases h
  split at h
  · cases h
  split at h
  · cases h
  · rename_i e2 he
    injection h with h _
    have : e2.rankingOP = true := by
      have key : ∀ (l : List String) (e e2 : ELM K), ("OP" ∈ l ∨ e.rankingOP = true) → parseLoop kw l e = (e2, .ok ()) → e2.rankingOP = true := by
        intro l
        induction l with
        | nil =>
          intro e e2 hg h
          injection h with h _
          rw [← h]
          simpa using hg
        | cons a l ih =>
          intro e e2 hg h
          unfold parseLoop at h
          have hk : a = "OP" ∨ e.rankingOP = true → (parseOne kw e a).1.rankingOP = true := by
            intro hg
            unfold parseOne
            by_cases ha : a = "OP"
            · rw [if_pos ha]
            · rw [if_neg ha]
              have hg := hg.resolve_left ha
              split_ifs <;> (try exact hg)
              simp only
              split
              · exact hg
              · split_ifs <;> exact hg
          split at h
          · cases h
          · rename_i e3 he3
            rw [he3] at hk
            refine ih e3 e2 ?_ h
            rcases hg with hg | hg
            · rcases List.mem_cons.1 hg with h | h
              · exact Or.inr (hk (Or.inl h.symm))
              · exact Or.inl h
            · exact Or.inr (hk (Or.inr hg))
      exact key _ _ _ (Or.inl hg) he
    rw [← h]
    split <;> exact this

/-- C85 (optimal pruning).  With 'OP' and fewer than ten outputs, the neurons of the network returned are the first ones along the path of
multi-response sparse regression from the outputs of the hidden neurons to the targets, on the data used for the ranking. -/
theorem C85_optimal_pruning_partial (env : Env K) (hl : Lawful env) (hx : env.Exact) (e e' : ELM K) (X T : Mat K) (args : List String) (kw : Kwargs K)
    (h : SelectedTrain env e X T args kw e') (hop : Given args "OP") (ho : e.nnet.outputs < 10) :
    ∃ Xr Tr H r k, RankedOn X T args kw Xr Tr ∧ e.nnet.project env Xr = .ok H ∧ PathRanking H Tr r ∧
      (neuronList e'.nnet).Perm ((r.take k).map fun i => (neuronList e.nnet).getD i (.name "", [], 0)) := by
  obtain ⟨fs, rnd, r, hsh, hr⟩ := h.run
  obtain ⟨X', T', e0, h1, h2, h3⟩ := train_ok hr
  obtain ⟨rfl, rfl⟩ := checkBoth_mats h1
  obtain ⟨_, hTo, hN⟩ := checkBoth_ok h1
  obtain ⟨_, q2, _⟩ := parseArgs_kw h2
  have hc0 : Consistent e0.nnet := by rw [q2]; exact reset_consistent h.consistent
  obtain ⟨e1, rank, k, Xr, Tr, H, c1, c2, c3, c4, c5, c6⟩ := selection_path hl hx hc0 h.targets hN (by rw [hTo, q2]; rfl)
    (parseArgs_op_flag hop h2) (by rw [q2]; exact ho) h.selection h3
  have hg0 : e0.nnet.neurons = e.nnet.neurons := by rw [q2]; rfl
  have hl1 : neuronList e1.nnet = neuronList e.nnet := by unfold neuronList; rw [c2, hg0]
  have hs1 : size e1.nnet = size e.nnet := by unfold size; rw [c2, hg0]
  have hH : e.nnet.project env Xr = .ok H := by
    rw [← c4, q2]
    rfl
  refine ⟨Xr, Tr, H, rank, k, c6, hH, c5, ?_⟩
  obtain ⟨n1, _⟩ := refit_neurons c1 c3
  rw [n1, hl1]
  refine ((C08_prune env e1.nnet c1 (rank.take k)).1.trans ?_).map _
  rw [List.filter_eq_self.2]
  intro i hi
  have : i < H.cols := pathRanking_lt c5 i (List.mem_of_mem_take hi)
  rw [hs1, ← (project_WF h.consistent hH).2.2]
  simpa using this

/-- The hypotheses are met: a network of three neurons pruned to at most two on a validation set. -/
example : ∃ e', SelectedTrain (lawEnv QEnv.env) exModel3 ⟨1, [[1], [2], [3], [5]]⟩ ⟨1, [[1], [0], [3], [2]]⟩ ["V", "OP"] exPruning e' ∧
    Given ["V", "OP"] "OP" ∧ exModel3.nnet.outputs < 10 := by
  obtain ⟨e', h⟩ := exPruning_completes
  exact ⟨e', ⟨exModel3_consistent, by decide +kernel, by decide, (by
    show ∀ r ∈ ([[1], [0], [3], [2]] : List (List ℚ)), r.length = 1
    decide), _, _, _, fun _ => (by decide : List.Perm [2, 0, 1] (List.range 3)), h⟩, by decide, by decide⟩

/-! ### Ten or more outputs -/

/-- Three uncorrelated columns, and ten targets of which only the first is not zero. -/
def tieX : Mat ℚ := ⟨3, [[1, 0, 0], [0, 1, 0], [0, 0, 1]]⟩
def tieT : Mat ℚ := ⟨10, [[3, 0, 0, 0, 0, 0, 0, 0, 0, 0], [3, 0, 0, 0, 0, 0, 0, 0, 0, 0], [1, 0, 0, 0, 0, 0, 0, 0, 0, 0]]⟩

theorem norm2_first {env : Env ℚ} (hs : ∀ a, env.sqrt (a * a) = |a|) (a : ℚ) : norm2 env [a, 0, 0, 0, 0, 0, 0, 0, 0, 0] = |a| := by
  unfold norm2
  rw [← hs]
  simp

theorem tie_not_path : ¬ PathRanking tieX tieT [0, 2] := by
  rintro ⟨l, j, Y, hr, hp, hn⟩
  have hr' : [0] ++ [2] = l ++ [j] := hr
  obtain ⟨rfl, h2⟩ := List.append_inj' hr' rfl
  injection h2 with h2
  subst h2
  have hY : ∀ s, s < 3 → s ≠ 0 → ∀ t, t < 10 → Y.get s t = 0 := by
    generalize hl : [0] = l at hp
    cases hp with
    | start => cases hl
    | @step l' j' Y0 F _ g c p0 n0 f0 g0 g1 hY' _ _ _ =>
      obtain ⟨hl1, hl2⟩ := List.append_inj' (show [] ++ [0] = l' ++ [j'] from hl) rfl
      subst hl1
      injection hl2 with hl2
      subst hl2
      intro s hs hs0 t ht
      rw [hY' s hs t ht]
      have hF : F.get s t = 0 := by
        obtain ⟨W, hW⟩ := f0.1
        rw [hW s hs t ht]
        have : tieX.get s 0 = 0 := by
          interval_cases s
          · exact absurd rfl hs0
          · rfl
          · rfl
        simp [this]
      have h0 : Y0.get s t = 0 := by
        generalize hl : ([] : List Nat) = l at p0
        cases p0 with
        | start =>
          exact Mat.get_zeros _ _ _ _
        | step => simp at hl
      rw [hF, h0]
      ring
  have key : ∀ i, i < 3 → i ≠ 0 → resCorr tieX tieT Y i = |tieT.get i 0| := by
    intro i hi hi0
    unfold resCorr
    have hX : ∀ s, tieX.get s i = if s = i then 1 else 0 := by
      intro s
      by_cases hs : s < 3
      · interval_cases s <;> interval_cases i <;> rfl
      · rw [if_neg (by omega)]
        unfold Mat.get
        rw [List.getD_eq_default _ _ (show tieX.rows.length ≤ s by have : tieX.rows.length = 3 := rfl; omega)]
        rfl
    have : ∀ t ∈ Finset.range tieT.cols, |∑ s ∈ Finset.range tieT.nrows, (tieT.get s t - Y.get s t) * tieX.get s i| = if t = 0 then |tieT.get i 0| else 0 := by
      intro t ht
      have ht : t < 10 := Finset.mem_range.1 ht
      simp only [hX, mul_ite, mul_one, mul_zero, Finset.sum_ite_eq', Finset.mem_range]
      rw [if_pos (show i < tieT.nrows from hi), hY i hi hi0 t ht, sub_zero]
      split
      · rename_i h; rw [h]
      · have : tieT.get i t = 0 := by
          interval_cases i <;> interval_cases t <;> first | rfl | exact absurd rfl ‹_›
        rw [this, abs_zero]
    rw [Finset.sum_congr rfl this]
    simp [tieT]
  have := hn.2.2 1 (by decide)
  rw [key 1 (by omega) (by omega), key 2 (by omega) (by omega)] at this
  exact absurd this (by decide +kernel)

theorem tie_first {env : Env ℚ} (hs : ∀ a, env.sqrt (a * a) = |a|) :
    mrsr2First (fun j => norm2 env ((List.range tieT.cols).map fun t => dot (tieT.col t) (tieX.col j))) [0, 1, 2] (-1) none = some 0 := by
  have h0 : ((List.range tieT.cols).map fun t => dot (tieT.col t) (tieX.col 0)) = [3, 0, 0, 0, 0, 0, 0, 0, 0, 0] := by decide +kernel
  have h1 : ((List.range tieT.cols).map fun t => dot (tieT.col t) (tieX.col 1)) = [3, 0, 0, 0, 0, 0, 0, 0, 0, 0] := by decide +kernel
  have h2 : ((List.range tieT.cols).map fun t => dot (tieT.col t) (tieX.col 2)) = [1, 0, 0, 0, 0, 0, 0, 0, 0, 0] := by decide +kernel
  simp only [mrsr2First, h0, h1, h2, norm2_first hs]
  norm_num

theorem tie_search {env : Env ℚ} (hs : ∀ a, env.sqrt (a * a) = |a|) (hb : FindsRoots env.brentq) (p1 p2 : Nat → List ℚ)
    (h11 : p1 1 = [3, 0, 0, 0, 0, 0, 0, 0, 0, 0]) (h12 : p1 2 = [1, 0, 0, 0, 0, 0, 0, 0, 0, 0])
    (h21 : p2 1 = [0, 0, 0, 0, 0, 0, 0, 0, 0, 0]) (h22 : p2 2 = [0, 0, 0, 0, 0, 0, 0, 0, 0, 0]) :
    mrsr2Search env 3 p1 p2 [1, 2] 1 none = (2 / 3, some 2) := by
  have e1 : (fun y : ℚ => (1 - y) * 3 - norm2 env (List.zipWith (fun a b => a - y * b) (p1 1) (p2 1))) = fun y => (1 - y) * 3 - 3 := by
    funext y
    rw [h11, h21]
    simp only [List.zipWith, mul_zero, sub_zero, norm2_first hs]
    norm_num
  have e2 : (fun y : ℚ => (1 - y) * 3 - norm2 env (List.zipWith (fun a b => a - y * b) (p1 2) (p2 2))) = fun y => (1 - y) * 3 - 1 := by
    funext y
    rw [h12, h22]
    simp only [List.zipWith, mul_zero, sub_zero, norm2_first hs]
    norm_num
  have b1 : env.brentq (fun y : ℚ => (1 - y) * 3 - 3) (1 / 10 ^ 15) 1 = none := hb.1 _ _ _ (by norm_num)
  have b2 : env.brentq (fun y : ℚ => (1 - y) * 3 - 1) (1 / 10 ^ 15) 1 = some (2 / 3) :=
    hb.2 _ _ _ _ (by norm_num) (by norm_num) (by norm_num) (fun x _ h => by linarith) (fun x h _ => by linarith)
  have c1 : (1 - (1 : ℚ)) * 3 - norm2 env (List.zipWith (fun a b => a - 1 * b) (p1 1) (p2 1)) = (1 - 1) * 3 - 3 := congrFun e1 1
  have c2 : (1 - (1 : ℚ)) * 3 - norm2 env (List.zipWith (fun a b => a - 1 * b) (p1 2) (p2 2)) = (1 - 1) * 3 - 1 := congrFun e2 1
  simp only [mrsr2Search, c1, c2, e1, e2, b1, b2]
  norm_num

/-- C85 (refuted for ten or more outputs).  Whatever the square root and the root finder, as long as they are right, the ranking
used for ten or more outputs leaves the path: here the second column explains as much as the first, but the third is taken next.
(`mrsr2` looks for a crossing strictly after the start of the move, and takes a column that ties at the start for one that never
catches up.) -/
theorem C85_many_outputs_refuted (env : Env ℚ) (hs : ∀ a, env.sqrt (a * a) = |a|) (hb : FindsRoots env.brentq)
    (hlu : ∀ A b : Mat ℚ, (env.luSolve A b).cols = b.cols) :
    ∃ X T : Mat ℚ, X.nrows = T.nrows ∧ T.cols = 10 ∧ ∃ r, mrsr2 env X T 2 = .ok r ∧ ¬ PathRanking X T r := by
  refine ⟨tieX, tieT, rfl, rfl, [0, 2], ?_, tie_not_path⟩
  have hX1 : tieX.selCols [0] = ⟨1, [[1], [0], [0]]⟩ := by decide +kernel
  obtain ⟨Y1, hY1, hc1, hn1, hz⟩ : ∃ Y1 : Mat ℚ, (⟨1, [[1], [0], [0]]⟩ : Mat ℚ).mul (env.luSolve ((⟨1, [[1], [0], [0]]⟩ : Mat ℚ).tmul ⟨1, [[1], [0], [0]]⟩)
      ((⟨1, [[1], [0], [0]]⟩ : Mat ℚ).tmul tieT)) = Y1 ∧ Y1.cols = 10 ∧ Y1.nrows = 3 ∧ ∀ s, s < 3 → s ≠ 0 → ∀ t, t < 10 → Y1.get s t = 0 := by
    refine ⟨_, rfl, ?_, rfl, ?_⟩
    · rw [Mat.mul_cols, hlu]; rfl
    · intro s hs3 hs0 t ht
      rw [get_mul_sum (show s < 3 from hs3) (by rw [hlu]; exact ht)]
      apply Finset.sum_eq_zero
      intro k _
      have : (⟨1, [[1], [0], [0]]⟩ : Mat ℚ).get s k = 0 := by
        interval_cases s
        · exact absurd rfl hs0
        · rcases k with _ | k <;> rfl
        · rcases k with _ | k <;> rfl
      rw [this, zero_mul]
  have s1 : mrsr2Step env tieX tieT { rank := [], nonrank := [0, 1, 2], Y := Mat.zeros 3 10, Yk1 := Mat.zeros 3 10, jcur := 0, jmin := none } =
      .ok { rank := [0], nonrank := [1, 2], Y := Mat.zeros 3 10, Yk1 := Y1, jcur := 0, jmin := none } := by
    unfold mrsr2Step
    simp only [List.isEmpty_nil, if_true, tie_first hs]
    simp only [List.nil_append, hX1, hY1]
    rfl
  have hT2 : tieT.sub (Mat.zeros 3 10) = tieT := by decide +kernel
  have hp2 : ∀ j, j < 3 → j ≠ 0 → ((List.range (Y1.sub (Mat.zeros 3 10)).cols).map fun t => dot ((Y1.sub (Mat.zeros 3 10)).col t) (tieX.col j)) =
      [0, 0, 0, 0, 0, 0, 0, 0, 0, 0] := by
    intro j hj hj0
    have : (Y1.sub (Mat.zeros 3 10)).cols = 10 := by simp [Mat.sub, hc1]
    rw [this]
    have : ∀ t ∈ List.range 10, dot ((Y1.sub (Mat.zeros 3 10)).col t) (tieX.col j) = 0 := by
      intro t ht
      have ht := List.mem_range.1 ht
      rw [dot_col (by simp [Mat.sub, hn1]; rfl)]
      apply Finset.sum_eq_zero
      intro s hs'
      have hs' : s < 3 := by simpa [Mat.sub, hn1] using hs'
      by_cases h0 : s = 0
      · subst h0
        have : tieX.get 0 j = 0 := by
          interval_cases j
          · exact absurd rfl hj0
          · rfl
          · rfl
        rw [this, mul_zero]
      · unfold Mat.sub
        rw [Mat.get_ofFn_lt (by omega) (by omega), hz s hs' h0 t ht, Mat.get_zeros]
        ring
    rw [List.map_congr_left this]
    rfl
  have s2 : ∃ st, mrsr2Step env tieX tieT { rank := [0], nonrank := [1, 2], Y := Mat.zeros 3 10, Yk1 := Y1, jcur := 0, jmin := none } = .ok st ∧
      st.rank = [0, 2] := by
    unfold mrsr2Step
    have h0 : ((List.range tieT.cols).map fun t => dot (tieT.col t) (tieX.col 0)) = [3, 0, 0, 0, 0, 0, 0, 0, 0, 0] := by decide +kernel
    have hn : norm2 env ((List.range tieT.cols).map fun t => dot (tieT.col t) (tieX.col 0)) = 3 := by rw [h0, norm2_first hs]; norm_num
    simp only [List.isEmpty_cons, Bool.false_eq_true, if_false, hT2, hn]
    rw [tie_search hs hb _ _ (by decide +kernel) (by decide +kernel) (hp2 1 (by omega) (by omega)) (hp2 2 (by omega) (by omega))]
    rw [if_neg (by norm_num)]
    simp only
    rw [if_pos (by decide)]
    exact ⟨_, rfl, rfl⟩
  obtain ⟨st, hst, hr⟩ := s2
  unfold mrsr2
  have : min 2 tieX.nrows = 2 := rfl
  rw [this]
  show (do let st ← mrsr2Loop env tieX tieT 2 { rank := [], nonrank := [0, 1, 2], Y := Mat.zeros 3 10, Yk1 := Mat.zeros 3 10, jcur := 0, jmin := none }
           pure st.rank) = _
  simp only [mrsr2Loop, s1, hst, bind, Except.bind, pure, Except.pure, hr]

/-- The hypotheses on the routines can be met. -/
example : ∃ env : Env ℚ, (∀ a, env.sqrt (a * a) = |a|) ∧ FindsRoots env.brentq ∧ ∀ A b : Mat ℚ, (env.luSolve A b).cols = b.cols := by
  classical
  refine ⟨{ QEnv.env with
    sqrt := fun x => if h : ∃ a, a * a = x then |h.choose| else 0
    brentq := fun f a b => if 0 < f a * f b then none else
      if h : ∃ z, a ≤ z ∧ z ≤ b ∧ f z = 0 then some h.choose else none
    luSolve := fun A b => Mat.zeros A.cols b.cols }, ?_, ⟨?_, ?_⟩, fun _ _ => rfl⟩
  · intro a
    have h : ∃ c, c * c = a * a := ⟨a, rfl⟩
    simp only
    rw [dif_pos h]
    exact abs_eq_abs.2 (mul_self_eq_mul_self_iff.1 h.choose_spec)
  · intro f a b h
    exact if_pos h
  · intro f a b z h1 h2 h3 h4 h5
    have hneg : ¬ 0 < f a * f b := by
      have ha : 0 ≤ f a := by
        rcases h1.lt_or_eq with h | h
        · exact (h4 a le_rfl h).le
        · rw [h, h3]
      have hb : f b ≤ 0 := by
        rcases h2.lt_or_eq with h | h
        · exact (h5 b h le_rfl).le
        · rw [← h, h3]
      exact not_lt.2 (mul_nonpos_of_nonneg_of_nonpos ha hb)
    have h : ∃ z, a ≤ z ∧ z ≤ b ∧ f z = 0 := ⟨z, h1, h2, h3⟩
    simp only
    rw [if_neg hneg, dif_pos h]
    congr 1
    obtain ⟨c1, c2, c3⟩ := h.choose_spec
    rcases lt_trichotomy h.choose z with h' | h' | h'
    · exact absurd c3 (h4 _ c1 h').ne'
    · exact h'
    · exact absurd c3 (h5 _ h' c2).ne

end Hpelm.Props
