import Verif.Spec.OnDisk
import Verif.Lemmas.OnDisk
import Verif.Lemmas.SelTotal
import Verif.Props.C42_C45_OutOfMemory

/-!
# C46: feeding a dataset part by part into files equals training on it at once
-/

set_option linter.unusedSectionVars false

namespace Hpelm.Props
open Hpelm Spec Finset
variable {K : Type} [Field K] [LinearOrder K] [IsStrictOrderedRing K]

/-- A data check that passed read the data. -/
theorem checkBoth_of_reads {fs : Files K} {n : NNet K} {fX fT : DataArg K} {X T : Mat K} {p : Mat K × Mat K} (hX : Reads fs fX (some X))
    (hT : Reads fs fT (some T)) (h : checkBoth fs n fX fT = .ok p) : p = (X, T) := by
  unfold checkBoth at h
  obtain ⟨q, h1, h⟩ := bind_ok h
  unfold checkData at h1
  obtain ⟨a, h2, h1⟩ := bind_ok h1
  obtain ⟨b, h3, h1⟩ := bind_ok h1
  have r1 := ((checkOne_iff fs n.inputs fX a).1 h2).1
  have r2 := ((checkOne_iff fs n.outputs fT b).1 h3).1
  have uniq : ∀ {d : DataArg K} {u v : Option (Mat K)}, Reads fs d u → Reads fs d v → u = v := by
    intro d u v hu hv
    cases hu <;> cases hv
    · rfl
    · rfl
    · rfl
    · rename_i _ hf1 _ _ _ hf2
      rw [hf1] at hf2
      injection hf2 with hf2
      rw [hf2]
  rw [uniq r1 hX, uniq r2 hT] at h1
  obtain ⟨_, _, h1⟩ := bind_ok h1
  injection h1 with h1
  subst h1
  injection h with h
  exact h.symm

theorem sameModel_rowWt {e e0 : ELM K} (h : SameModel e e0) : Hpelm.rowWt e.classification e.wc e.nnet.outputs = Hpelm.rowWt e0.classification e0.wc e0.nnet.outputs := by
  funext t
  unfold Hpelm.rowWt
  rw [h.classification, h.outputs]
  by_cases hc : e0.classification = some "wc"
  · rw [if_pos hc, if_pos hc, h.wc hc]
  · rw [if_neg hc, if_neg hc]

/-- What the files hold after feeding. -/
theorem fed_disk {env : Env K} (hx : env.Exact) {fHH fHT : String} (hne : fHH ≠ fHT) {e0 : ELM K} (hw0 : GivenWeights e0)
    (hsq : e0.classification = some "wc" → ∀ x : K, 0 ≤ x → env.sqrt x * env.sqrt x = x) {fs : Files K} {P : List (List K × List K)} (hf : Fed env fHH fHT e0 fs P) :
    DiskInv env e0.nnet.neurons e0.nnet.outputs e0.nnet.norm (Hpelm.rowWt e0.classification e0.wc e0.nnet.outputs) fHH fHT fs P := by
  induction hf with
  | start fs h1 h2 => exact Or.inl ⟨h1, h2, rfl⟩
  | other hf h1 h2 ih =>
    unfold DiskInv at ih ⊢
    rw [h1, h2]
    exact ih
  | @add fs fs' P hf e e' hm hcon hb fX fT X T hX hT hTw s ic hhot h ih =>
    have hc : ∃ p, checkBoth fs e.nnet fX fT = .ok p := by
      have h := h
      unfold ELM.hAddData at h
      obtain ⟨_, _, h⟩ := bind_ok h
      obtain ⟨p, hp, _⟩ := bind_ok h
      exact ⟨p, hp⟩
    obtain ⟨p, hc⟩ := hc
    have hp := checkBoth_of_reads hX hT hc
    subst hp
    have := hAddData_disk (P := _) hx (by rw [hm.classification]; exact hsq) hne hb hTw hcon hc
      (by
        intro hcls
        rw [hm.classification] at hcls
        obtain ⟨ws, a, b, c⟩ := hw0 hcls
        exact ⟨hhot hcls, ws, by rw [hm.wc hcls, a], b, by rw [hm.outputs, c]⟩) h
      (by rw [sameModel_rowWt hm, hm.neurons, hm.norm, hm.outputs]; exact ih)
    have h1 := this.1
    rw [hm.neurons, hm.norm, sameModel_rowWt hm, hm.outputs] at h1
    exact h1

/-- Solving from files that hold the matrices of the pairs `P`, against training on them at once. -/
theorem disk_incremental (env : Env K) (hl : Lawful env) (hx : env.Exact) (fHH fHT : String)
    (e0 : ELM K)
    (hsq : e0.classification = some "wc" → ∀ x : K, 0 ≤ x → env.sqrt x * env.sqrt x = x) (hn0 : 0 < e0.nnet.norm) (fs : Files K) (P : List (List K × List K))
    (hf : DiskInv env e0.nnet.neurons e0.nnet.outputs e0.nnet.norm (Hpelm.rowWt e0.classification e0.wc e0.nnet.outputs) fHH fHT fs P)
    -- solving from the files
    (e e' : ELM K) (hm : SameModel e e0) (h : e.hSolveCorr env fs fHH fHT = .ok e')
    -- training at once
    (X T : Mat K) (hP : (X.rows.zip T.rows).Perm P) (hTw : T.WF) (a a' : ELM K) (fs' : Files K) (rnd : Rnd) (args : List String) (kw : Kwargs K)
    (r : Option K) (hsel : "V" ∉ args ∧ "CV" ∉ args ∧ "LOO" ∉ args) (hb : 0 < kw.batch.getD a.batch) (hT : e0.classification = some "wc" → OneHot T)
    (hw : ∀ ws, kw.w = some ws → ∀ x ∈ ws, 0 ≤ x) (hg : a.nnet.neurons = e0.nnet.neurons) (hgn : a.nnet.norm = e0.nnet.norm)
    (hgo : a.nnet.outputs = e0.nnet.outputs) (htr : a.train env fs' rnd (.mat X) (.mat T) args kw = (.ok r, a'))
    (hcls : a'.classification = e0.classification) (hwc : e0.classification = some "wc" → a'.wc = e0.wc) :
    e'.nnet.B = a'.nnet.B ∧ e'.nnet.B ≠ none := by
  obtain ⟨H, S, HT, w, p0, hN, p1, p2, p3, p4, p5, p6, p7, p8, p9, p10, p11, p12, p13, p14⟩ :=
    train_plain' hx (by rw [hcls]; exact hsq) hsel.1 hsel.2.1 hsel.2.2 hb hTw (by rw [hcls]; exact hT) hw htr
  have hold := hold_of_sums p1 hN p11 p6.wf p7 (by rw [← p6.square]; exact p7) p8 p9 p10 p13 p14
  rw [p4, hgo, hg, hgn] at hold
  have ew : Hpelm.rowWt a'.classification a'.wc e0.nnet.outputs = Hpelm.rowWt e0.classification e0.wc e0.nnet.outputs := by
    funext t
    unfold Hpelm.rowWt
    rw [hcls]
    by_cases hc : e0.classification = some "wc"
    · rw [if_pos hc, if_pos hc, hwc hc]
    · rw [if_neg hc, if_neg hc]
  rw [ew] at hold
  unfold ELM.hSolveCorr at h
  obtain ⟨q, h1, h⟩ := bind_ok h
  obtain ⟨HHf, HTf⟩ := q
  simp only at h
  obtain ⟨n, h2, h⟩ := bind_ok h
  injection h with hE
  unfold checkCorr at h1
  obtain ⟨A, c1, h1⟩ := bind_ok h1
  obtain ⟨C, c2, h1⟩ := bind_ok h1
  obtain ⟨_, _, h1⟩ := bind_ok h1
  obtain ⟨_, _, h1⟩ := bind_ok h1
  obtain ⟨_, _, h1⟩ := bind_ok h1
  injection h1 with h1
  injection h1 with h1 h1'
  subst h1 h1'
  have rd : ∀ {f : String} {M : Mat K}, readCorr fs f = .ok M → ∃ h5, fs f = some h5 ∧ M = h5.data := by
    intro f M hM
    unfold readCorr at hM
    cases hfs : fs f with
    | none => rw [hfs] at hM; cases hM
    | some h5 =>
      rw [hfs] at hM
      simp only at hM
      split at hM
      · cases hM
      · injection hM with hM
        exact ⟨h5, rfl, hM.symm⟩
  obtain ⟨ha, a1, rfl⟩ := rd c1
  obtain ⟨hb', b1, rfl⟩ := rd c2
  rcases hf with ⟨i1, _⟩ | ⟨h5, h5', i1, i2, _, i3⟩
  · rw [i1] at a1; cases a1
  rw [i1] at a1
  rw [i2] at b1
  injection a1 with a1
  injection b1 with b1
  subst a1 b1
  obtain ⟨eS, eT⟩ := i3.det (hold.perm hP)
  rw [eS, eT] at h2
  have hcorr : IsCorr H T w e0.nnet.norm S HT :=
    ⟨by rw [p2, hN], p6.wf, p7, by rw [← p6.square]; exact p7, p8, p9, p10, by rw [← hgn]; exact p13, p14⟩
  obtain ⟨s1, s2, s3, s4⟩ := hcorr.solve hl hx e.nnet hn0 p12 (Or.inl rfl)
  obtain ⟨t1, t2, t3, t4⟩ := hcorr.solve hl hx a.nnet hn0 p12 (A := a.nnet.store S) (Or.inr rfl)
  have hu := hcorr.unique hn0 p12 s2 t2 s3 t3 s1 t1
  unfold NNet.setB at h2
  obtain ⟨_, _, h2⟩ := bind_ok h2
  obtain ⟨_, _, h2⟩ := bind_ok h2
  injection h2 with h2
  have hBe : e'.nnet.B = some (e.nnet.solveCorr env S HT) := by
    rw [← hE, ← h2]
    have : env.cast e.nnet.prec = id := by funext x; exact hx _ x
    simp [this, Mat.map]
  rw [hBe, p5, hu]
  exact ⟨rfl, by simp⟩

/-- C46.  Feed a dataset into two files, in any number of parts (ranges of arrays, vectors or files), in any order, by one or several
objects (with different solvers and batch sizes) that are the same model; then `solve_corr` gives exactly the output weights that
in-memory training on all the samples at once gives — with any solver, the regulariser counted once.

Missing for the full property: the class weights of weighted classification must be given by the user; automatic ones are computed from
each part alone, see `C46_auto_weights_refuted`. -/
theorem C46_incremental_partial (env : Env K) (hl : Lawful env) (hx : env.Exact) (fHH fHT : String) (hne : fHH ≠ fHT)
    (e0 : ELM K) (hw0 : GivenWeights e0)
    (hsq : e0.classification = some "wc" → ∀ x : K, 0 ≤ x → env.sqrt x * env.sqrt x = x) (hn0 : 0 < e0.nnet.norm) (fs : Files K) (P : List (List K × List K))
    (hf : Fed env fHH fHT e0 fs P)
    -- solving from the files
    (e e' : ELM K) (hm : SameModel e e0) (h : e.hSolveCorr env fs fHH fHT = .ok e')
    -- training at once
    (X T : Mat K) (hP : (X.rows.zip T.rows).Perm P) (hTw : T.WF) (a a' : ELM K) (fs' : Files K) (rnd : Rnd) (args : List String) (kw : Kwargs K)
    (r : Option K) (hsel : "V" ∉ args ∧ "CV" ∉ args ∧ "LOO" ∉ args) (hb : 0 < kw.batch.getD a.batch) (hT : e0.classification = some "wc" → OneHot T)
    (hw : ∀ ws, kw.w = some ws → ∀ x ∈ ws, 0 ≤ x) (hg : a.nnet.neurons = e0.nnet.neurons) (hgn : a.nnet.norm = e0.nnet.norm)
    (hgo : a.nnet.outputs = e0.nnet.outputs) (htr : a.train env fs' rnd (.mat X) (.mat T) args kw = (.ok r, a'))
    (hcls : a'.classification = e0.classification) (hwc : e0.classification = some "wc" → a'.wc = e0.wc) :
    e'.nnet.B = a'.nnet.B ∧ e'.nnet.B ≠ none :=
  disk_incremental env hl hx fHH fHT e0 hsq hn0 fs P (fed_disk hx hne hw0 hsq hf) e e' hm h X T hP hTw a a' fs' rnd args kw r hsel hb hT hw hg hgn hgo htr
    hcls hwc

/-- A part can always be added: on well-shaped data, a non-empty range, and an object whose neurons can be evaluated. -/
theorem C46_part_completes (env : Env K) (hx : env.Exact) (fHH fHT : String) (hne : fHH ≠ fHT) (e0 : ELM K) (hw0 : GivenWeights e0)
    (hsq : e0.classification = some "wc" → ∀ x : K, 0 ≤ x → env.sqrt x * env.sqrt x = x) (fs : Files K) (P : List (List K × List K))
    (hf : Fed env fHH fHT e0 fs P) (e : ELM K) (hm : SameModel e e0) (hcon : Consistent e.nnet) (hb : 0 < e.batch)
    (hpos : 0 < size e.nnet) (hout : 0 < e.nnet.outputs) (hwc : e0.classification ≠ some "wc" → e.wc = none)
    (fX fT : DataArg K) (X T : Mat K) (hX : Reads fs fX (some X)) (hT : Reads fs fT (some T)) (hTw : T.WF)
    (hXc : X.cols = e.nnet.inputs) (hTc : T.cols = e.nnet.outputs) (hN : X.nrows = T.nrows) (istart : Nat) (icount : Option Nat)
    (hn : 0 < (samplesIn X istart icount).nrows) (hhot : e0.classification = some "wc" → OneHot (samplesIn T istart icount))
    (H : Mat K) (hH : e.nnet.project env (samplesIn X istart icount) = .ok H) :
    ∃ r, e.hAddData env fs fX fT istart (icount.map (↑)) (some fHH) (some fHT) = .ok r := by
  have hc := checkBoth_reads hX hT hXc hTc hN
  have hnn : e.nnet.neurons ≠ [] := by
    intro h
    unfold size at hpos
    rw [h] at hpos
    simp at hpos
  have hLw : size e.nnet = width e.nnet.neurons := (width_size hcon).symm
  have hLr : e.nnet.reset.L.getD 0 = width e.nnet.neurons := by
    rw [← hLw]; rfl
  have hNs : (samplesIn X istart icount).nrows = (samplesIn T istart icount).nrows := by
    rw [samplesIn_rowsIn, samplesIn_rowsIn]
    exact rowsIn_length_congr hN _ _
  have hTsc : (samplesIn T istart icount).cols = e.nnet.outputs := by rw [samplesIn_cols, hTc]
  have hgw : e.wc = none ∨ ∃ ws : List K, e.wc = some (ws.map some) ∧ (∀ x ∈ ws, 0 ≤ x) ∧ ws.length = (samplesIn T istart icount).cols := by
    by_cases hcls : e0.classification = some "wc"
    · obtain ⟨ws, a, b, c⟩ := hw0 hcls
      exact Or.inr ⟨ws, by rw [hm.wc hcls, a], b, by rw [hTsc, hm.outputs, c]⟩
    · exact Or.inl (hwc hcls)
  -- the files are prepared
  have hprep : ∃ fs1 h1 h2, prepareFHH fs (some fHH) (some fHT) e.nnet = .ok (e.nnet.reset, fs1) ∧ fs1 fHH = some h1 ∧ fs1 fHT = some h2 ∧
      h1.data.nrows = width e.nnet.neurons ∧ h1.data.cols = width e.nnet.neurons ∧ h2.data.nrows = width e.nnet.neurons ∧
      h2.data.cols = e.nnet.outputs := by
    unfold prepareFHH prepareFile
    simp only [hLr]
    have e1 : e.nnet.reset.outputs = e.nnet.outputs := rfl
    have e2 : e.nnet.reset.norm = e.nnet.norm := rfl
    rw [e1, e2]
    have p1 : 0 < width e.nnet.neurons := by rw [← hLw]; exact hpos
    rcases fed_disk hx hne hw0 hsq hf with ⟨i1, i2, _⟩ | ⟨h5, h5', i1, i2, _, i3⟩
    · have c1 : ¬ (width e.nnet.neurons = 0 ∨ width e.nnet.neurons = 0) := by omega
      have c2 : ¬ (width e.nnet.neurons = 0 ∨ e.nnet.outputs = 0) := by omega
      simp only [i1, if_neg c1, bind, Except.bind, hne.symm, if_false, i2, if_neg c2, pure, Except.pure]
      exact ⟨_, ⟨Mat.diag (width e.nnet.neurons) e.nnet.norm, none, none⟩, ⟨Mat.zeros (width e.nnet.neurons) e.nnet.outputs, none, none⟩,
        rfl, by simp [hne], by simp, by simp, by simp, by simp, by simp⟩
    · rw [← hm.neurons, ← hm.outputs] at i3
      have c1 : pyAssert (decide (h5.data.nrows = width e.nnet.neurons ∧ h5.data.cols = width e.nnet.neurons)) = .ok () := by
        unfold pyAssert; rw [if_pos]; simp [i3.rowsS, i3.colsS]
      have c2 : pyAssert (decide (h5'.data.nrows = width e.nnet.neurons ∧ h5'.data.cols = e.nnet.outputs)) = .ok () := by
        unfold pyAssert; rw [if_pos]; simp [i3.rowsT, i3.colsT]
      simp only [i1, c1, bind, Except.bind, pure, Except.pure, i2, c2]
      exact ⟨fs, h5, h5', rfl, i1, i2, i3.rowsS, i3.colsS, i3.rowsT, i3.colsT⟩
  obtain ⟨fs1, h1, h2, hp, f1, f2, s1, s2, s3, s4⟩ := hprep
  obtain ⟨e1, he1⟩ : ∃ e1 : ELM K, e1 = { e with nnet := e.nnet.reset } := ⟨_, rfl⟩
  have hc1 : checkBoth fs1 e1.nnet (.mat X) (.mat T) = .ok (X, T) := by
    rw [he1]
    exact checkBoth_reads (.mat X) (.mat T) hXc hTc hN
  have hhot1 : e1.classification = some "wc" → OneHot (samplesIn T istart icount) := by
    rw [he1]; intro h; exact hhot (by rw [← hm.classification]; exact h)
  have hHc : H.cols = width e.nnet.neurons := by
    obtain ⟨_, _, _, rfl⟩ := (project_ok_iff _ _ _ _).1 hH
    rfl
  obtain ⟨e2, ha⟩ := addData_total (e := e1) hx (by rw [he1]; exact hb) hNs hn (by rw [he1]; exact hH) (by rw [he1]; rfl)
    (by rw [he1, hHc]; exact hLr) (by rw [he1]; exact hTsc) hhot1
    (by
      rw [he1]
      rcases hgw with h | ⟨ws, a, _, c⟩
      · exact Or.inl h
      · exact Or.inr ⟨ws, a, c⟩)
  obtain ⟨H', S, HT, w, p0, p1, p2, p3, p4, p5, p6, p7, p8, p9, p10, p11, p12, p13, p14⟩ :=
    addData_fresh hx (by rw [he1]; intro h; exact hsq (by rw [← hm.classification]; exact h)) (by rw [he1]; exact hb) hNs (samplesIn_WF hTw _ _)
      (by rw [he1]; rfl) hhot1 (by rw [he1]; exact hgw) ha
  have hHc' : H'.cols = width e.nnet.neurons := by rw [p3, he1]; exact hLr
  have hok : AutoOk env e1 (samplesIn T istart icount) :=
    ⟨fun h => oneHot_oneEach (hhot1 h), autoWc_WOk hx hhot1 (by
      rw [he1]
      rcases hgw with h | ⟨ws, a, _, c⟩
      · exact Or.inl h
      · exact Or.inr ⟨ws, a, c⟩)⟩
  have hadd := hAddData_eq (env := env) istart icount (by rw [he1]; exact hb) (by rw [he1]; exact hnn) hc1 hn hok
  rw [ha] at hadd
  -- the matrices are stored
  have hg : e2.nnet.getCorr! = .ok (S, HT) := getCorr!_store p6 (by rw [p5]; rfl)
  have hstore : ∃ r, e2.storeCorr fs1 (some fHH) (some fHT) = .ok r := by
    have k1 : h1.data.nrows = (subDiag S e2.nnet.norm).nrows ∧ h1.data.cols = (subDiag S e2.nnet.norm).cols := by
      unfold subDiag
      rw [Mat.ofFn_nrows, Mat.ofFn_cols, ← p6.square, p7, hHc']
      exact ⟨s1, s2⟩
    have k2 : h2.data.nrows = HT.nrows ∧ h2.data.cols = HT.cols := by
      rw [p9, p10, hHc', hTsc]
      exact ⟨s3, s4⟩
    unfold ELM.storeCorr writeFHH addToFile
    simp only [hg, bind, Except.bind, f1, if_pos k1, hne.symm, if_false, f2, if_pos k2, pure, Except.pure]
    exact ⟨_, rfl⟩
  obtain ⟨r, hr⟩ := hstore
  refine ⟨r, ?_⟩
  rw [← hr]
  have h0 : pyAssert (!e.nnet.neurons.isEmpty) = .ok () := by
    unfold pyAssert; rw [if_pos]
    simpa using hnn
  unfold ELM.hAddData at hadd ⊢
  have h0' : pyAssert (!e1.nnet.neurons.isEmpty) = .ok () := by rw [he1]; exact h0
  simp only [h0', hc1, prepareFHH, bind, Except.bind, pure, Except.pure, Except.map] at hadd
  simp only [h0, hc, hp, bind, Except.bind]
  rw [he1] at hadd
  cases hbt : hBatches e.batch (istart : Int) (rangeCount X.nrows istart (icount.map (↑))) with
  | error x => rw [hbt] at hadd; cases hadd
  | ok bs =>
    rw [hbt] at hadd
    simp only at hadd ⊢
    cases hfe : (({ e with nnet := e.nnet.reset } : ELM K).autoWc env (batchColSums e.nnet.reset.outputs T bs)).feed env X.cols T.cols (cutBatches X T bs) with
    | error x => rw [hfe] at hadd; cases hadd
    | ok e3 =>
      rw [hfe] at hadd
      simp only at hadd
      unfold ELM.storeCorr at hadd
      injection hadd with hadd
      injection hadd with hadd _
      subst hadd
      rfl

/-- Solving from files that hold the matrices of some pairs always works. -/
theorem disk_solve_completes (env : Env K) (hl : Shapes env) (fHH fHT : String) (e0 : ELM K)
    (fs : Files K) (P : List (List K × List K))
    (hf : DiskInv env e0.nnet.neurons e0.nnet.outputs e0.nnet.norm (Hpelm.rowWt e0.classification e0.wc e0.nnet.outputs) fHH fHT fs P) (hP : P ≠ []) (e : ELM K) (hm : SameModel e e0) (hcon : Consistent e.nnet) :
    ∃ e', e.hSolveCorr env fs fHH fHT = .ok e' := by
  have hLw : size e.nnet = width e.nnet.neurons := (width_size hcon).symm
  rcases hf with ⟨_, _, h⟩ | ⟨h5, h5', i1, i2, i0, i3⟩
  · exact absurd h hP
  · rw [← hm.neurons] at i3 i0
    rw [← hm.outputs] at i3
    have hnn : e.nnet.neurons ≠ [] := by
      intro h
      rw [h] at i0
      simp [width] at i0
    have hL : e.nnet.L = some (width e.nnet.neurons) := by
      rcases hcon.count with h | ⟨_, h⟩
      · rw [h, ← hLw]; rfl
      · exact absurd h hnn
    obtain ⟨_, b1, b2⟩ := solveCorr_shape hl e.nnet i3.wfS i3.wfT (by rw [i3.rowsS, i3.colsS]) (by rw [i3.rowsT, i3.rowsS])
    have c1 : ¬ h5.data.nrows = 0 := by rw [i3.rowsS]; omega
    have c2 : ¬ h5'.data.nrows = 0 := by rw [i3.rowsT]; omega
    have r1 : readCorr fs fHH = .ok h5.data := by unfold readCorr; simp only [i1, if_neg c1]
    have r2 : readCorr fs fHT = .ok h5'.data := by unfold readCorr; simp only [i2, if_neg c2]
    have hcc : checkCorr fs e.nnet fHH fHT = .ok (h5.data, h5'.data) := by
      unfold checkCorr pyAssert
      simp [r1, r2, bind, Except.bind, hnn, pure, Except.pure, i3.rowsS, i3.colsS, i3.rowsT, i3.colsT, hL]
    have hset : e.nnet.setB env (e.nnet.solveCorr env h5.data h5'.data) =
        .ok { e.nnet with B := some ((e.nnet.solveCorr env h5.data h5'.data).map (env.cast e.nnet.prec)) } := by
      unfold NNet.setB pyAssert
      rw [b1, b2, i3.colsS, i3.colsT, hL]
      simp [bind, Except.bind, pure, Except.pure, hL]
    unfold ELM.hSolveCorr
    simp only [hcc, bind, Except.bind, hset, pure, Except.pure]
    exact ⟨_, rfl⟩

/-- Solving from the files always works once something was fed. -/
theorem C46_solve_completes (env : Env K) (hl : Shapes env) (hx : env.Exact) (fHH fHT : String) (hne : fHH ≠ fHT) (e0 : ELM K) (hw0 : GivenWeights e0)
    (hsq : e0.classification = some "wc" → ∀ x : K, 0 ≤ x → env.sqrt x * env.sqrt x = x) (fs : Files K) (P : List (List K × List K))
    (hf : Fed env fHH fHT e0 fs P) (hP : P ≠ []) (e : ELM K) (hm : SameModel e e0) (hcon : Consistent e.nnet) :
    ∃ e', e.hSolveCorr env fs fHH fHT = .ok e' :=
  disk_solve_completes env hl fHH fHT e0 fs P (fed_disk hx hne hw0 hsq hf) hP e hm hcon

/-- Two parts in reverse order, then solving, against training at once. -/
example : ((do
      let (_, fs) ← (exModel 1 2 none none).hAddData QEnv.env (fun _ => none) (.mat ⟨2, [[1, 0], [0, 1], [2, 3], [1, 1]]⟩)
        (.mat ⟨1, [[1], [2], [3], [0]]⟩) 2 none (some "hh") (some "ht")
      let (_, fs) ← (exModel 1 2 none none).hAddData QEnv.env fs (.mat ⟨2, [[1, 0], [0, 1], [2, 3], [1, 1]]⟩)
        (.mat ⟨1, [[1], [2], [3], [0]]⟩) 0 (some 2) (some "hh") (some "ht")
      (exModel 1 2 none none).hSolveCorr QEnv.env fs "hh" "ht") : Except PyErr (ELM ℚ)).map (·.nnet.B) = .ok (some ⟨1, [[1/5], [4/5]]⟩) ∧
    ((exModel 1 2 none none).train QEnv.env (fun _ => none) ⟨fun _ => []⟩ (.mat ⟨2, [[1, 0], [0, 1], [2, 3], [1, 1]]⟩)
      (.mat ⟨1, [[1], [2], [3], [0]]⟩) [] {}).2.nnet.B = some ⟨1, [[1/5], [4/5]]⟩ := by decide +kernel

/-- The hypotheses are met under the laws of linear algebra: two parts fed (the second from a range), then solved. -/
example : ∃ fs P e', P.length = 3 ∧ Fed (lawEnv QEnv.env) "hh" "ht" exTrained fs P ∧
    exTrained.hSolveCorr (lawEnv QEnv.env) fs "hh" "ht" = .ok e' := by
  have hm : SameModel exTrained exTrained := ⟨rfl, rfl, rfl, rfl, rfl, fun _ => rfl⟩
  have hg : GivenWeights exTrained := fun h => by cases h
  have hsq : exTrained.classification = some "wc" → ∀ x : ℚ, 0 ≤ x → (lawEnv QEnv.env).sqrt x * (lawEnv QEnv.env).sqrt x = x := fun h => by cases h
  have f0 : Fed (lawEnv QEnv.env) "hh" "ht" exTrained (fun _ => none) [] := .start _ rfl rfl
  obtain ⟨⟨e1, fs1⟩, h1⟩ := C46_part_completes (lawEnv QEnv.env) (lawEnv_exact _) "hh" "ht" (by decide) exTrained hg hsq _ _ f0 exTrained hm
    exTrained_consistent (by decide) (by decide) (by decide) (fun _ => rfl) (.mat ⟨2, [[1, 0]]⟩) (.mat ⟨1, [[5]]⟩) _ _ (.mat _) (.mat _)
    (by simp [Mat.WF]) rfl rfl rfl 0 none (by decide) (fun h => by cases h) _ rfl
  have f1 := Fed.add f0 exTrained e1 hm exTrained_consistent (by decide) _ _ _ _ (.mat _) (.mat _) (by simp [Mat.WF]) 0 none (fun h => by cases h) h1
  obtain ⟨⟨e2, fs2⟩, h2⟩ := C46_part_completes (lawEnv QEnv.env) (lawEnv_exact _) "hh" "ht" (by decide) exTrained hg hsq _ _ f1 exTrained hm
    exTrained_consistent (by decide) (by decide) (by decide) (fun _ => rfl) (.mat ⟨2, [[9, 9], [1, 2], [3, 4]]⟩) (.mat ⟨1, [[9], [5], [6]]⟩) _ _
    (.mat _) (.mat _) (by simp [Mat.WF]) rfl rfl rfl 1 (some 7) (by decide) (fun h => by cases h) _ rfl
  have f2 := Fed.add f1 exTrained e2 hm exTrained_consistent (by decide) _ _ _ _ (.mat _) (.mat _) (by simp [Mat.WF]) 1 (some 7) (fun h => by cases h) h2
  obtain ⟨e', h⟩ := C46_solve_completes (lawEnv QEnv.env) (lawEnv_lawful _).toShapes (lawEnv_exact _) "hh" "ht" (by decide) exTrained hg hsq _ _ f2
    (by simp [samplesIn]) exTrained hm exTrained_consistent
  exact ⟨fs2, _, e', rfl, f2, h⟩

/-- C46 fails for automatic class weights: they are computed from each part alone.  Four samples of four classes get weight 4 each when
trained at once, and weight 1 each when fed one by one. -/
theorem C46_auto_weights_refuted :
    (([0, 1, 2, 3].foldlM (fun (fs : Files ℚ) (i : Int) => ((exModel 4 2 (some "wc") none).hAddData QEnv.env fs (.mat ⟨2, [[1, 0], [0, 1], [2, 3], [1, 1]]⟩)
        (.mat ⟨4, [[1, 0, 0, 0], [0, 1, 0, 0], [0, 0, 1, 0], [0, 0, 0, 1]]⟩) i (some 1) (some "hh") (some "ht")).map (·.2)) (fun _ => none) >>=
        fun fs => (exModel 4 2 (some "wc") none).hSolveCorr QEnv.env fs "hh" "ht").map fun e => e.nnet.B.map (·.get 0 0)) = .ok (some (12/35)) ∧
      (((exModel 4 2 none none).train QEnv.env (fun _ => none) ⟨fun _ => []⟩ (.mat ⟨2, [[1, 0], [0, 1], [2, 3], [1, 1]]⟩)
        (.mat ⟨4, [[1, 0, 0, 0], [0, 1, 0, 0], [0, 0, 1, 0], [0, 0, 0, 1]]⟩) ["wc"] {}).2.nnet.B.map (·.get 0 0)) = some (180/341) := by
  decide +kernel

end Hpelm.Props
