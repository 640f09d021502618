import Verif.Spec.Validation
import Verif.Lemmas.ValCorr
import Verif.Props.C46_Incremental

/-!
# C51: `validation_corr` compares networks by their errors and keeps the best
-/

set_option linter.unusedSectionVars false

namespace Hpelm.Props
open Hpelm Spec Finset
variable {K : Type} [Field K] [LinearOrder K] [IsStrictOrderedRing K]

/-- The candidate of size `l`: the first `l` neurons, with the output weights solved from the leading parts of the correlation
matrices. -/
def candidate (env : Env K) (e : ELM K) (HH HT : Mat K) (l : Nat) : ELM K :=
  { e with nnet := { e.nnet.prune (List.range l) with B := some (e.nnet.solveCorr env (HH.lead l l) (HT.lead l HT.cols)) } }

theorem argminNan_firstMin {l : List K} (h : l ≠ []) : FirstMin l (argminNan (l.map some)) := by
  have e : argminNan (l.map some) = argmax (l.map fun x => -x) := by
    unfold argminNan
    cases l with
    | nil => exact absurd rfl h
    | cons a l =>
      simp only [List.map_cons]
      have : ((some a : Option K) :: l.map some).findIdx? (·.isNone) = none := by
        rw [List.findIdx?_eq_none_iff]
        simp
      rw [this]
      simp [Function.comp_def]
  rw [e]
  obtain ⟨h1, h2, h3⟩ := argmax_firstMax (r := l.map fun x => -x) (by simpa using h)
  simp only [List.length_map] at h1 h2
  have hg : ∀ i, i < l.length → (l.map fun x => -x).getD i 0 = - l.getD i 0 := by
    intro i hi
    rw [List.getD_eq_getElem _ _ (by simpa using hi), List.getD_eq_getElem _ _ hi, List.getElem_map]
  refine ⟨h1, fun j hj => ?_, fun j hj => ?_⟩
  · have := h2 j hj
    rw [hg _ hj, hg _ h1] at this
    linarith
  · have := h3 j hj
    rw [hg _ (by omega), hg _ h1] at this
    linarith

theorem neuronList_length {n : NNet K} (hc : Consistent n) : (neuronList n).length = size n :=
  length_neuronList fun g hg => ⟨(hc.groups g hg).1, (hc.groups g hg).2.1⟩

theorem prune_first {env : Env K} {n : NNet K} (hc : Consistent n) (l : Nat) :
    neuronList (n.prune (List.range l)) = (neuronList n).take l ∧ (n.prune (List.range l)).L = some (min l (size n)) ∧
    ∀ X H, n.project env X = .ok H → (n.prune (List.range l)).project env X = .ok (H.lead H.nrows l) := by
  obtain ⟨_, h2, h3, h4⟩ := C08_prune env n hc (List.range l)
  have hk : byType (n.neurons.map (·.number)) 0 (List.range l) = List.range (min l (size n)) := by
    rw [byType_range, List.range_eq_range']
    rfl
  simp only [hk] at h2 h3 h4
  refine ⟨?_, by simpa using h3, ?_⟩
  · rw [h2, map_range_getD _ _ _ (by rw [neuronList_length hc]; omega)]
    rcases Nat.le_total l (size n) with h | h
    · rw [min_eq_left h]
    · rw [min_eq_right h, List.take_of_length_le, List.take_of_length_le] <;> rw [neuronList_length hc] <;> omega
  · intro X H hH
    obtain ⟨w1, _, w3⟩ := project_WF hc hH
    rw [h4 X H hH, ← w3, lead_selCols w1]

theorem candidate_firstNeurons (env : Env K) (e : ELM K) (hc : Consistent e.nnet) (HH HT : Mat K) (l : Nat) :
    FirstNeurons e (candidate env e HH HT l) l :=
  ⟨(prune_first (env := env) hc l).1, rfl, rfl, rfl, rfl, rfl, rfl⟩

/-- C51.  `validation_corr` with the files `fHH`, `fHT` holding matrices of the right shape, on a non-empty validation set `X`, `T`,
for any non-empty list of sizes, any batch size and any solver.  For every size `l` in the list there is one candidate: the network of
the first `l` neurons.  The error (and, in classification, the confusion matrix) reported for it is the error (confusion matrix) of its
predictions on the whole validation set, however the set was cut into batches.  Afterwards the model is the candidate of the first
smallest error.

Missing for the full property: weighted classification, for which the reported error depends on the batch size, see
`C51_weighted_refuted`.  That the candidates are the networks trained on the data is `C51_candidates_trained`. -/
theorem C51_validation_corr_partial (env : Env K) (hs : Shapes env) (hx : env.Exact) (fs : Files K) (e : ELM K) (hcon : Consistent e.nnet)
    (hb : 0 < e.batch) (hcls : e.classification ∈ [none, some "c", some "ml"]) (hpos : 0 < size e.nnet) (hout : 0 < e.nnet.outputs)
    -- the correlation matrices
    (fHH fHT : String) (h5 h5' : H5 K) (hf1 : fs fHH = some h5) (hf2 : fs fHT = some h5') (hw1 : h5.data.WF) (hw2 : h5'.data.WF)
    (hd1 : h5.data.nrows = size e.nnet) (hd2 : h5.data.cols = size e.nnet) (hd3 : h5'.data.nrows = size e.nnet)
    (hd4 : h5'.data.cols = e.nnet.outputs)
    -- the validation data
    (fXv fTv : DataArg K) (X T H : Mat K) (hX : Reads fs fXv (some X)) (hT : Reads fs fTv (some T)) (hTw : T.WF)
    (hXc : X.cols = e.nnet.inputs) (hTc : T.cols = e.nnet.outputs) (hN : X.nrows = T.nrows) (hN0 : 0 < X.nrows)
    (hH : e.nnet.project env X = .ok H) (Ls : List Nat) (hL : Ls ≠ []) :
    ∃ (cand : Nat → ELM K) (errs : List K) (confs : List (Mat K)) (k : Nat),
      e.validationCorr env fs fHH fHT fXv fTv Ls = .ok (cand (Ls.getD k 0), errs.map some, confs) ∧
      errs.length = Ls.length ∧ FirstMin errs k ∧ (e.classification.isSome → confs.length = Ls.length) ∧
      (∀ l, FirstNeurons e (cand l) l ∧ (cand l).nnet.B = some (e.nnet.solveCorr env (h5.data.lead l l) (h5'.data.lead l e.nnet.outputs))) ∧
      ∀ i < Ls.length, ∃ Y, (cand (Ls.getD i 0)).predict env fs fXv = .ok Y ∧
        (cand (Ls.getD i 0)).error fs (.mat T) (.mat Y) = .ok (errs.getD i 0) ∧
        (e.classification.isSome → (cand (Ls.getD i 0)).confusion fs (.mat T) (.mat Y) = .ok (confs.getD i ⟨0, []⟩)) := by
  have hnw : e.classification ≠ some "wc" := by
    intro h
    rw [h] at hcls
    simp at hcls
  obtain ⟨q, hq⟩ := elmError_mean e.classification e.wc hnw e.nnet.outputs hout
  obtain ⟨wfH, hHr, hHc⟩ := project_WF hcon hH
  have hnn : e.nnet.neurons ≠ [] := (project_rows hH).1
  have hLn : e.nnet.L = some (size e.nnet) := by
    rcases hcon.count with h | ⟨_, h⟩
    · exact h
    · exact absurd h hnn
  -- the weights of a candidate
  have hbeta : ∀ l, SolShape (h5.data.lead l l) (h5'.data.lead l h5'.data.cols) (e.nnet.solveCorr env (h5.data.lead l l) (h5'.data.lead l h5'.data.cols)) := by
    intro l
    apply solveCorr_shape hs e.nnet (lead_WF hw1 _ _) (lead_WF hw2 _ _)
    · rw [lead_nrows, lead_cols, hd1, hd2]
    · rw [lead_nrows, lead_nrows, hd1, hd3]
  have hbc : ∀ l, (e.nnet.solveCorr env (h5.data.lead l l) (h5'.data.lead l h5'.data.cols)).cols = e.nnet.outputs := by
    intro l
    rw [(hbeta l).2.2, lead_cols, hd4, min_self]
  have hbr : ∀ l, (e.nnet.solveCorr env (h5.data.lead l l) (h5'.data.lead l h5'.data.cols)).nrows = min l (size e.nnet) := by
    intro l
    rw [(hbeta l).2.1, lead_cols, hd2]
  have hcb := checkBoth_reads hX hT hXc hTc hN
  have hcc : checkCorr fs e.nnet fHH fHT = .ok (h5.data, h5'.data) := by
    have c1 : ¬ h5.data.nrows = 0 := by omega
    have c2 : ¬ h5'.data.nrows = 0 := by omega
    have r1 : readCorr fs fHH = .ok h5.data := by unfold readCorr; simp only [hf1, if_neg c1]
    have r2 : readCorr fs fHT = .ok h5'.data := by unfold readCorr; simp only [hf2, if_neg c2]
    unfold checkCorr pyAssert
    simp [r1, r2, bind, Except.bind, hnn, pure, Except.pure, hd1, hd2, hd3, hd4, hLn]
  obtain ⟨bs, b1, b2, b3, _⟩ := hBatches_spec (batch := e.batch) (istart := 0) (icount := X.nrows) hb (le_refl 0) (by omega)
  have hbs : ∀ b ∈ bs, 0 ≤ b.1 ∧ b.1 < b.2 ∧ b.2 ≤ T.nrows := by
    intro b hb
    obtain ⟨a1, a2, a3, _⟩ := b3 b hb
    exact ⟨a1, a2, by omega⟩
  obtain ⟨beta, hbe⟩ : ∃ beta : Nat → Mat K, beta = fun l => e.nnet.solveCorr env (h5.data.lead l l) (h5'.data.lead l h5'.data.cols) := ⟨_, rfl⟩
  obtain ⟨Y, hY⟩ : ∃ Y : Nat → Mat K, Y = fun l => (H.lead H.nrows l).mul (beta l) := ⟨_, rfl⟩
  have hYr : ∀ l, (Y l).nrows = T.nrows := by
    intro l
    rw [hY]
    simp only [Mat.mul_nrows, lead_nrows, min_self]
    omega
  have hfit : ∀ l, Fits (candidate env e h5.data h5'.data l) T (Y l) := fun l =>
    { wfT := hTw
      wfY := by rw [hY]; exact Mat.mul_WF _ _
      rows := (hYr l).symm
      colsT := hTc
      colsY := by rw [hY, hbe]; exact hbc l
      pos := hout }
  have hfl : ∀ l, bs.flatMap (fun b => pySlice (T.rows.zip (Y l).rows) b.1 b.2) = T.rows.zip (Y l).rows := by
    intro l
    rw [b2]
    simp only [Int.toNat_zero, List.drop_zero, Int.toNat_natCast]
    apply List.take_of_length_le
    rw [List.length_zip]
    have : T.rows.length = T.nrows := rfl
    omega
  -- the loop
  have hloop := vcLoop_eq hb hcls hout hH hN hTw hTc (cands := Ls.map fun l => (l, beta l)) (by
    intro c hc
    rw [List.mem_map] at hc
    obtain ⟨l, _, rfl⟩ := hc
    rw [hbe]
    exact hbc l) hq bs hbs (fun _ => 0) (fun _ => Mat.zeros e.nnet.outputs e.nnet.outputs) (fun _ => Mat.zeros_WF _ _) (fun _ => by simp) (fun _ => by simp)
  rw [List.map_map] at hloop
  obtain ⟨err, herr⟩ : ∃ err : Nat → K, err = fun l => ((T.rows.zip (Y l).rows).map q).sum / (X.nrows : K) := ⟨_, rfl⟩
  obtain ⟨conf, hconf⟩ : ∃ conf : Nat → Mat K, conf = fun l => confPlus e.classification e.nnet.outputs (Mat.zeros e.nnet.outputs e.nnet.outputs) (T.rows.zip (Y l).rows) := ⟨_, rfl⟩
  have hss : (List.map (fun c : Nat × Mat K =>
      ((some ((0 : K) + ((bs.flatMap fun b => pySlice (T.rows.zip ((H.lead H.nrows c.1).mul c.2).rows) b.1 b.2).map q).sum / (X.nrows : K)),
        confPlus e.classification e.nnet.outputs (Mat.zeros e.nnet.outputs e.nnet.outputs) (bs.flatMap fun b => pySlice (T.rows.zip ((H.lead H.nrows c.1).mul c.2).rows) b.1 b.2)) : Option K × Mat K))
      (Ls.map fun l => (l, beta l))) = Ls.map fun l => (some (err l), conf l) := by
    rw [List.map_map]
    apply List.map_congr_left
    intro l _
    have := hfl l
    rw [hY] at this
    simp only [Function.comp_apply, this, zero_add, herr, hconf, hY]
  rw [hss] at hloop
  have hget : ∀ {α : Type} (f : Nat → α) (d : α) i, i < Ls.length → (Ls.map f).getD i d = f (Ls.getD i 0) := by
    intro α f d i hi
    rw [List.getD_eq_getElem _ _ (by simpa using hi), List.getElem_map, List.getD_eq_getElem _ _ hi]
  refine ⟨candidate env e h5.data h5'.data, Ls.map err, if e.classification.isSome then Ls.map conf else [], argminNan ((Ls.map err).map some), ?_, by simp,
    argminNan_firstMin (by simpa using hL), ?_, ?_, ?_⟩
  · obtain ⟨k, hk⟩ : ∃ k, k = argminNan ((Ls.map err).map some) := ⟨_, rfl⟩
    have hkl : k < Ls.length := by
      have := (argminNan_firstMin (l := Ls.map err) (by simpa using hL)).1
      rw [← hk] at this
      simpa using this
    rw [← hk]
    have hset : (e.nnet.prune (List.range (Ls.getD k 0))).setB env (beta (Ls.getD k 0)) =
        .ok (candidate env e h5.data h5'.data (Ls.getD k 0)).nnet := by
      unfold NNet.setB pyAssert
      rw [(prune_first (env := env) hcon _).2.1, hbe]
      simp only [hbr, hbc]
      have hid : env.cast (e.nnet.prune (List.range (Ls.getD k 0))).prec = id := by funext x; exact hx _ x
      have ho : (e.nnet.prune (List.range (Ls.getD k 0))).outputs = e.nnet.outputs := rfl
      simp only [ho, decide_true, if_true, bind, Except.bind, pure, Except.pure, hid]
      congr 1
      unfold candidate
      simp only [Mat.map, List.map_id_fun, id, List.map_id']
      congr 1
      exact (prune_first (env := env) hcon _).2.1.symm
    unfold ELM.validationCorr
    have e1 : (Ls.map fun l => (l, e.nnet.solveCorr env (h5.data.lead l l) (h5'.data.lead l h5'.data.cols))) = Ls.map fun l => (l, beta l) := by
      rw [hbe]
    simp only [hcb, hcc, b1, bind, Except.bind, e1, List.map_map]
    have e2 : (Ls.map ((fun _ => ((some 0 : Option K), (Mat.zeros e.nnet.outputs e.nnet.outputs : Mat K))) ∘ fun l => (l, beta l))) =
        Ls.map ((fun c => (some ((fun _ : Nat × Mat K => (0 : K)) c), (fun _ : Nat × Mat K => (Mat.zeros e.nnet.outputs e.nnet.outputs : Mat K)) c)) ∘ fun l => (l, beta l)) := rfl
    rw [e2, hloop]
    have hemp : Ls.isEmpty = false := by
      cases Ls with
      | nil => exact absurd rfl hL
      | cons => rfl
    simp only [hemp, List.map_map, Function.comp_def]
    have e3 : argminNan (Ls.map fun x => some (err x)) = k := by
      rw [hk, List.map_map]
      rfl
    rw [e3, hget (fun l => (l, beta l)) _ k hkl]
    simp only [hset]
    rfl
  · intro hsome
    rw [if_pos hsome]
    simp
  · intro l
    exact ⟨candidate_firstNeurons env e hcon _ _ l, by rw [← hd4]; rfl⟩
  · intro i hi
    refine ⟨Y (Ls.getD i 0), ?_, ?_, ?_⟩
    · unfold ELM.predict
      have hck : checkOne fs e.nnet.inputs fXv = .ok (some X) := (checkOne_iff _ _ _ _).2 ⟨hX, by intro M hM; injection hM with hM; rw [← hM]; exact hXc⟩
      have hin : (candidate env e h5.data h5'.data (Ls.getD i 0)).nnet.inputs = e.nnet.inputs := rfl
      rw [hin, hck]
      simp only [bind, Except.bind]
      have hpr : (candidate env e h5.data h5'.data (Ls.getD i 0)).nnet.project env X = .ok (H.lead H.nrows (Ls.getD i 0)) :=
        (prune_first (env := env) hcon (Ls.getD i 0)).2.2 X H hH
      unfold NNet.predict
      have hB : (candidate env e h5.data h5'.data (Ls.getD i 0)).nnet.B = some (beta (Ls.getD i 0)) := by rw [hbe]; rfl
      rw [hB]
      simp only [hpr, bind, Except.bind]
      rw [if_neg (by rw [lead_cols, hHc, hbe, hbr]; simp), hY]
      rfl
    · rw [error_mat fs (hfit _), hget err 0 i hi, herr]
      have hc1 : (candidate env e h5.data h5'.data (Ls.getD i 0)).classification = e.classification := rfl
      have hc2 : (candidate env e h5.data h5'.data (Ls.getD i 0)).wc = e.wc := rfl
      rw [hc1, hc2, hq T _ hTw (hfit _).wfY (hfit _).rows hTc (hfit _).colsY (by omega), hN]
    · intro hsome
      rw [if_pos hsome, hget conf _ i hi, hconf]
      have hc : e.classification = some "c" ∨ e.classification = some "ml" := by
        simp only [List.mem_cons, List.not_mem_nil, or_false] at hcls
        rcases hcls with h | h | h
        · rw [h] at hsome; cases hsome
        · exact Or.inl h
        · exact Or.inr h
      have hc' : (candidate env e h5.data h5'.data (Ls.getD i 0)).classification ∈ [some "c", some "wc", some "ml"] := by
        have hc1 : (candidate env e h5.data h5'.data (Ls.getD i 0)).classification = e.classification := rfl
        rw [hc1]
        rcases hc with h | h <;> rw [h] <;> simp
      rw [confusion_mat fs (hfit _) hc']
      exact confusionM_confPlus (hfit _) hb hc

/-- Training at once gives the weights solved (by any solver) from correlation matrices of the same samples. -/
theorem hold_train {env : Env K} (hl : Lawful env) (hx : env.Exact) {P : List (List K × List K)} {gs : List (Group K)} {o : Nat} {lam : K}
    (hn0 : 0 < lam) {cls : Option String} {wc : Option (List (Option K))} {S' HT' : Mat K} (hold' : Hold env gs o lam (Hpelm.rowWt cls wc o) P S' HT')
    (hsq : cls = some "wc" → ∀ x : K, 0 ≤ x → env.sqrt x * env.sqrt x = x)
    {X T : Mat K} (hP : (X.rows.zip T.rows).Perm P) (hTw : T.WF) {a a' : ELM K} {fs' : Files K} {rnd : Rnd} {args : List String} {kw : Kwargs K}
    {r : Option K} (hsel : "V" ∉ args ∧ "CV" ∉ args ∧ "LOO" ∉ args) (hb : 0 < kw.batch.getD a.batch) (hT : cls = some "wc" → OneHot T)
    (hw : ∀ ws, kw.w = some ws → ∀ x ∈ ws, 0 ≤ x) (hg : a.nnet.neurons = gs) (hgn : a.nnet.norm = lam)
    (hgo : a.nnet.outputs = o) (htr : a.train env fs' rnd (.mat X) (.mat T) args kw = (.ok r, a'))
    (hcls : a'.classification = cls) (hwc : cls = some "wc" → a'.wc = wc) (n : NNet K) :
    a'.nnet.B = some (n.solveCorr env S' HT') := by
  obtain ⟨H, S, HT, w, p0, hN, p1, p2, p3, p4, p5, p6, p7, p8, p9, p10, p11, p12, p13, p14⟩ :=
    train_plain' hx (by rw [hcls]; exact hsq) hsel.1 hsel.2.1 hsel.2.2 hb hTw (by rw [hcls]; exact hT) hw htr
  have hold := hold_of_sums p1 hN p11 p6.wf p7 (by rw [← p6.square]; exact p7) p8 p9 p10 p13 p14
  rw [p4, hgo, hg, hgn] at hold
  have ew : Hpelm.rowWt a'.classification a'.wc o = Hpelm.rowWt cls wc o := by
    funext t
    unfold Hpelm.rowWt
    rw [hcls]
    by_cases hc : cls = some "wc"
    · rw [if_pos hc, if_pos hc, hwc hc]
    · rw [if_neg hc, if_neg hc]
  rw [ew] at hold
  obtain ⟨eS, eT⟩ := hold'.det (hold.perm hP)
  rw [eS, eT]
  have hcorr : IsCorr H T w lam S HT :=
    ⟨by rw [p2, hN], p6.wf, p7, by rw [← p6.square]; exact p7, p8, p9, p10, by rw [← hgn]; exact p13, p14⟩
  obtain ⟨s1, s2, s3, s4⟩ := hcorr.solve hl hx n hn0 p12 (Or.inl rfl)
  obtain ⟨t1, t2, t3, t4⟩ := hcorr.solve hl hx a.nnet hn0 p12 (A := a.nnet.store S) (Or.inr rfl)
  rw [p5, hcorr.unique hn0 p12 s2 t2 s3 t3 s1 t1]

theorem hold_lead {env : Env K} {n : NNet K} (hc : Consistent n) {X H : Mat K} (hH : n.project env X = .ok H) {o : Nat} {lam : K} {wt : List K → K}
    {P : List (List K × List K)} {S HT : Mat K} (h : Hold env n.neurons o lam wt P S HT) (l : Nat) :
    Hold env (n.prune (List.range l)).neurons o lam wt P (S.lead l l) (HT.lead l o) := by
  have hcp := prune_consistent (idx := List.range l) hc
  have hw : width n.neurons = size n := width_size hc
  have hwp : width (n.prune (List.range l)).neurons = min l (size n) := by
    rw [width_size hcp]
    have := (prune_first (env := env) hc l).2.1
    rcases hcp.count with h | ⟨h, _⟩
    · rw [h] at this
      injection this
    · rw [h] at this
      cases this
  have hhid : ∀ x i, i < l → hid env (n.prune (List.range l)).neurons x i = hid env n.neurons x i := by
    intro x i hi
    obtain ⟨p1, p2, p3, _⟩ := (project_ok_iff _ _ _ _).1 hH
    have hx := (project_ok_iff env n ⟨n.inputs, [x]⟩ ⟨width n.neurons, [x].map (rowOut env n.neurons)⟩).2 ⟨rfl, p2, p3, rfl⟩
    have := (prune_first (env := env) hc l).2.2 _ _ hx
    obtain ⟨_, _, _, h4⟩ := (project_ok_iff _ _ _ _).1 this
    unfold Mat.lead at h4
    injection h4 with _ h4
    simp [Mat.nrows] at h4
    unfold hid
    rw [← h4]
    simp only [List.getD, List.getElem?_take, if_pos hi]
  refine ⟨lead_WF h.wfS _ _, ?_, ?_, lead_WF h.wfT _ _, ?_, ?_, ?_, ?_⟩
  · rw [lead_nrows, h.rowsS, hwp, hw]
  · rw [lead_cols, h.colsS, hwp, hw]
  · rw [lead_nrows, h.rowsT, hwp, hw]
  · rw [lead_cols, h.colsT, min_self]
  · intro i hi j hj
    rw [hwp] at hi hj
    rw [lead_get (by omega) (by omega), h.sumS i (by omega) j (by omega)]
    simp only [hhid _ i (by omega), hhid _ j (by omega)]
  · intro i hi j hj
    rw [hwp] at hi
    rw [lead_get (by omega) hj, h.sumT i (by omega) j hj]
    simp only [hhid _ i (by omega)]

/-- C51, the candidates.  If the two files were filled by feeding data (any parts, any order, see C46), then the output weights of the
candidate of size `l` — in any classification mode, also weighted classification with given class weights — are those that training the
network of its `l` neurons on all the data at once gives. -/
theorem C51_candidates_trained (env : Env K) (hl : Lawful env) (hx : env.Exact) (fHH fHT : String) (hne : fHH ≠ fHT)
    (e0 : ELM K) (hw0 : GivenWeights e0)
    (hsq : e0.classification = some "wc" → ∀ x : K, 0 ≤ x → env.sqrt x * env.sqrt x = x) (hn0 : 0 < e0.nnet.norm) (fs : Files K) (P : List (List K × List K))
    (hf : Fed env fHH fHT e0 fs P)
    -- the candidate
    (e : ELM K) (hm : SameModel e e0) (hcon : Consistent e.nnet) (h5 h5' : H5 K) (hf1 : fs fHH = some h5) (hf2 : fs fHT = some h5')
    (Xv Hv : Mat K) (hHv : e.nnet.project env Xv = .ok Hv) (l : Nat) (c : ELM K) (hc : c = candidate env e h5.data h5'.data l)
    -- training at once
    (X T : Mat K) (hP : (X.rows.zip T.rows).Perm P) (hTw : T.WF) (a a' : ELM K) (fs' : Files K) (rnd : Rnd) (args : List String) (kw : Kwargs K)
    (r : Option K) (hsel : "V" ∉ args ∧ "CV" ∉ args ∧ "LOO" ∉ args) (hb : 0 < kw.batch.getD a.batch) (hT : e0.classification = some "wc" → OneHot T)
    (hw : ∀ ws, kw.w = some ws → ∀ x ∈ ws, 0 ≤ x) (hg : a.nnet.neurons = c.nnet.neurons) (hgn : a.nnet.norm = e0.nnet.norm)
    (hgo : a.nnet.outputs = e0.nnet.outputs) (htr : a.train env fs' rnd (.mat X) (.mat T) args kw = (.ok r, a'))
    (hcls : a'.classification = e0.classification) (hwc : e0.classification = some "wc" → a'.wc = e0.wc) :
    c.nnet.B = a'.nnet.B := by
  rcases fed_disk hx hne hw0 hsq hf with ⟨i1, _⟩ | ⟨g5, g5', i1, i2, _, i3⟩
  · rw [i1] at hf1; cases hf1
  rw [i1] at hf1
  rw [i2] at hf2
  injection hf1 with hf1
  injection hf2 with hf2
  subst hf1 hf2
  rw [← hm.neurons] at i3
  have hd := hold_lead hcon hHv i3 l
  rw [hold_train hl hx hn0 hd hsq hP hTw hsel hb hT hw (by rw [hg, hc]; rfl) hgn hgo htr hcls hwc e.nnet, hc]
  unfold candidate
  simp only
  rw [i3.colsT]

/-! ## Examples -/

/-- Two files with correlation matrices. -/
def vcFiles : Files ℚ := fun f =>
  if f = "hh" then some ⟨⟨2, [[7, 4], [4, 12]]⟩, none, none⟩ else if f = "ht" then some ⟨⟨2, [[3, 1], [1, 4]]⟩, none, none⟩ else none

/-- Validation samples. -/
def vcX : Mat ℚ := ⟨2, [[0, 1], [1, 0], [2, 3], [1, 1], [3, 1], [2, 1]]⟩

/-- Validation targets: two classes. -/
def vcT : Mat ℚ := ⟨2, [[0, 1], [1, 0], [0, 1], [0, 1], [1, 0], [0, 1]]⟩

/-- The hypotheses of C51 are met, with a law-abiding solver. -/
example : ∃ (cand : Nat → ELM ℚ) (errs : List ℚ) (confs : List (Mat ℚ)) (k : Nat),
    (exModel 2 4 (some "c") none).validationCorr (lawEnv QEnv.env) vcFiles "hh" "ht" (.mat vcX) (.mat vcT) [1, 2] =
      .ok (cand (([1, 2] : List Nat).getD k 0), (errs : List ℚ).map some, confs) ∧ FirstMin errs k := by
  obtain ⟨cand, errs, confs, k, h1, h2, h3, _⟩ := C51_validation_corr_partial (lawEnv QEnv.env) (lawEnv_lawful _).toShapes (lawEnv_exact _) vcFiles (exModel 2 4 (some "c") none)
    ⟨by simp [exModel], by simp [exModel], Or.inl rfl, by simp [exModel], by simp [exModel]⟩ (by decide) (by decide) (by decide) (by decide)
    "hh" "ht" _ _ rfl rfl (by simp [Mat.WF]) (by simp [Mat.WF]) rfl rfl rfl rfl (.mat vcX) (.mat vcT) vcX vcT
    ⟨2, [[0, 1], [1, 0], [2, 3], [1, 1], [3, 1], [2, 1]]⟩ (.mat _) (.mat _) (by simp [Mat.WF, vcT]) rfl rfl rfl (by decide) (by decide +kernel) [1, 2] (by decide)
  exact ⟨cand, errs, confs, k, h1, h3⟩

/-- Batches of one and of six samples: same errors, same confusion matrices, same choice. -/
example : ((exModel 2 1 (some "c") none).validationCorr QEnv.env vcFiles "hh" "ht" (.mat vcX) (.mat vcT) [1, 2]).map (fun r => (r.1.nnet, r.2)) =
      ((exModel 2 6 (some "c") none).validationCorr QEnv.env vcFiles "hh" "ht" (.mat vcX) (.mat vcT) [1, 2]).map (fun r => (r.1.nnet, r.2)) ∧
    ((exModel 2 1 (some "c") none).validationCorr QEnv.env vcFiles "hh" "ht" (.mat vcX) (.mat vcT) [1, 2]).map (fun r => r.2) =
      .ok ([some (4 / 6), some (2 / 6)], [⟨2, [[2, 0], [4, 0]]⟩, ⟨2, [[2, 0], [2, 2]]⟩]) := by decide +kernel

/-- Feed two parts, let `validation_corr` choose among networks of one neuron: the weights are those of training that neuron alone. -/
example : ((do
      let (_, fs) ← (exModel 1 2 none none).hAddData QEnv.env (fun _ => none) (.mat ⟨2, [[1, 0], [0, 1], [2, 3], [1, 1]]⟩)
        (.mat ⟨1, [[1], [2], [3], [0]]⟩) 2 none (some "hh") (some "ht")
      let (_, fs) ← (exModel 1 2 none none).hAddData QEnv.env fs (.mat ⟨2, [[1, 0], [0, 1], [2, 3], [1, 1]]⟩)
        (.mat ⟨1, [[1], [2], [3], [0]]⟩) 0 (some 2) (some "hh") (some "ht")
      let r ← (exModel 1 2 none none).validationCorr QEnv.env fs "hh" "ht" (.mat ⟨2, [[1, 0]]⟩) (.mat ⟨1, [[1]]⟩) [1]
      pure r.1) : Except PyErr (ELM ℚ)).map (·.nnet.B) = .ok (some ⟨1, [[1]]⟩) ∧
    ({ exModel 1 2 none none with nnet := (exModel 1 2 none none).nnet.prune [0] }.train QEnv.env (fun _ => none) ⟨fun _ => []⟩
      (.mat ⟨2, [[1, 0], [0, 1], [2, 3], [1, 1]]⟩) (.mat ⟨1, [[1], [2], [3], [0]]⟩) [] {}).2.nnet.B = some ⟨1, [[1]]⟩ := by decide +kernel

/-- C51 is false for weighted classification: the reported error of the same candidate on the same validation set depends on the batch
size (10/27 with batches of four, 1/3 with one batch, which is its error on the whole set); with batches of two some class is absent
from a batch, the reported errors are all NaN, and the model kept is the worse of the two. -/
theorem C51_weighted_refuted :
    ((exModel 2 6 (some "wc") (some [some 1, some 2])).validationCorr QEnv.env vcFiles "hh" "ht" (.mat vcX) (.mat vcT) [1, 2]).map
        (fun r => (r.1.nnet.L, r.2.1)) = .ok (some 2, [some (2 / 3), some (1 / 3)]) ∧
    ((exModel 2 4 (some "wc") (some [some 1, some 2])).validationCorr QEnv.env vcFiles "hh" "ht" (.mat vcX) (.mat vcT) [1, 2]).map
        (fun r => (r.1.nnet.L, r.2.1)) = .ok (some 2, [some (2 / 3), some (10 / 27)]) ∧
    ((exModel 2 2 (some "wc") (some [some 1, some 2])).validationCorr QEnv.env vcFiles "hh" "ht" (.mat vcX) (.mat vcT) [1, 2]).map
        (fun r => (r.1.nnet.L, r.2.1)) = .ok (some 1, [none, none]) := by decide +kernel

end Hpelm.Props
