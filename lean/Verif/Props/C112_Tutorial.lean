import Verif.Spec.Tutorial
import Verif.Props.C46_Incremental
import Verif.Props.C52_C54_Persistence
import Verif.Props.C55_C58_Files
import Verif.Props.C108_ResultFiles

/-!
# C112: the documented parallel workflow, from the data to the predictions
-/

set_option linter.unusedSectionVars false

namespace Hpelm.Props
open Hpelm Spec Finset
variable {K : Type} [Field K] [LinearOrder K] [IsStrictOrderedRing K]

theorem rowsIn_nos {α : Type} (d : α) (l : List α) (s : Nat) (ic : Option Nat) :
    rowsIn l s ic = (sampleNos l.length s ic).map fun i => l.getD i d := by
  have hl : l = (List.range l.length).map fun i => l.getD i d := by
    apply List.ext_getElem
    · simp
    · intro i h1 h2
      simp [List.getD_eq_getElem?_getD, List.getElem?_eq_getElem h1]
  have e : sampleNos l.length s ic = rowsIn (List.range l.length) s ic := by cases ic <;> rfl
  rw [e, ← rowsIn_map, ← hl]

/-- The samples of all the parts are the samples of the dataset. -/
theorem parts_perm {X T : Mat K} (hN : X.nrows = T.nrows) (parts : List (DataPart K))
    (hp : (parts.flatMap fun p => sampleNos X.nrows p.istart p.icount).Perm (List.range X.nrows)) :
    (X.rows.zip T.rows).Perm
      (parts.flatMap fun p => (samplesIn X p.istart p.icount).rows.zip (samplesIn T p.istart p.icount).rows) := by
  have hlen : (X.rows.zip T.rows).length = X.nrows := by
    have : X.rows.length = T.rows.length := hN
    simp [this, Mat.nrows]
  have h1 : ∀ p : DataPart K, (samplesIn X p.istart p.icount).rows.zip (samplesIn T p.istart p.icount).rows =
      (sampleNos X.nrows p.istart p.icount).map fun i => (X.rows.zip T.rows).getD i ([], []) := by
    intro p
    rw [samplesIn_rowsIn, samplesIn_rowsIn, rowsIn_zip, rowsIn_nos ([], []), hlen]
  simp only [h1]
  rw [← List.map_flatMap]
  have h2 := hp.map fun i => (X.rows.zip T.rows).getD i ([], [])
  have h3 : (List.range X.nrows).map (fun i => (X.rows.zip T.rows).getD i ([], [])) = X.rows.zip T.rows := by
    have := rowsIn_nos ([], []) (X.rows.zip T.rows) 0 none
    rw [hlen] at this
    simpa [rowsIn, sampleNos] using this.symm
  rw [h3] at h2
  exact h2.symm

/-- Step 1 puts both arrays on the disk and touches nothing else. -/
theorem step1_ok {cast : K → K} (hcast : ∀ x, cast x = x) {f : Names} {X T : Mat K} {lvl : Nat} (hl : lvl < 10) (hn : 0 < X.nrows) (hm : 0 < T.nrows)
    (hi : 0 < X.cols) (ho : 0 < T.cols) (hd : f.X ≠ f.T) (fs : Files K) :
    ∃ fs', step1 cast f X T lvl fs = .ok fs' ∧ fs' f.X = some ⟨X, none, none⟩ ∧ fs' f.T = some ⟨T, none, none⟩ ∧
      ∀ g, g ≠ f.X → g ≠ f.T → fs' g = fs g := by
  have c1 : ¬ (X.nrows = 0 ∨ X.cols = 0) := by omega
  have c2 : ¬ (T.nrows = 0 ∨ T.cols = 0) := by omega
  refine ⟨(fs.put f.X ⟨X, none, none⟩).put f.T ⟨T, none, none⟩, ?_, ?_, ?_, ?_⟩
  · unfold step1 makeHdf5 makeArray pyAssert
    simp only [Mat.map_id' hcast, hl, decide_true, if_true, bind, Except.bind, if_neg c1, if_neg c2]
  · simp [Files.put, hd]
  · simp [Files.put]
  · intro g h1 h2
    simp [Files.put, h1, h2]

/-- The objects that the scripts make: no explicit solver, a positive batch size. -/
def Plain (e : ELM K) : Prop := e.accelerator = none ∧ 0 < e.batch

theorem storable_exact {env : Env K} (hx : env.Exact) (p : Prec) (n : NNet K) : Storable env p n :=
  ⟨fun _ _ _ _ _ _ => hx _ _, fun _ _ _ _ => hx _ _, fun _ _ _ _ _ _ => hx _ _⟩

theorem SameContents.sameModel {e e' : ELM K} (h : SameContents e e') : SameModel e' e :=
  ⟨h.neurons.symm, h.inputs.symm, h.outputs.symm, h.norm.symm, h.classification.symm, fun _ => h.wc.symm⟩

/-- The scripts of step 3, run one after another. -/
theorem step3_all {env : Env K} (hx : env.Exact) {f : Names} (hd : f.Distinct) {model : ELM K} (hc : Consistent model.nnet) (hnn : model.nnet.neurons ≠ [])
    (hg : GivenWeights model) (hwc : model.classification ≠ some "wc" → model.wc = none)
    (hsq : model.classification = some "wc" → ∀ x : K, 0 ≤ x → env.sqrt x * env.sqrt x = x) (hpos : 0 < size model.nnet) (hout : 0 < model.nnet.outputs)
    {X T H : Mat K} (hTw : T.WF) (hXc : X.cols = model.nnet.inputs) (hTc : T.cols = model.nnet.outputs) (hN : X.nrows = T.nrows) (hX0 : 0 < X.nrows)
    (hhot : model.classification = some "wc" → OneHot T) (hH : model.nnet.project env X = .ok H) (parts : List (DataPart K))
    (hpl : ∀ p ∈ parts, Plain p.object) (hne : ∀ p ∈ parts, sampleNos X.nrows p.istart p.icount ≠ []) (fs : Files K) (P : List (List K × List K))
    (hf : Fed env f.HH f.HT model fs P) (hfX : fs f.X = some ⟨X, none, none⟩) (hfT : fs f.T = some ⟨T, none, none⟩) :
    ∃ fs', parts.foldlM (fun fs p => step3 env f model.saved p fs) fs = .ok fs' ∧
      Fed env f.HH f.HT model fs' (P ++ parts.flatMap fun p => (samplesIn X p.istart p.icount).rows.zip (samplesIn T p.istart p.icount).rows) ∧
      fs' f.X = some ⟨X, none, none⟩ ∧ fs' f.T = some ⟨T, none, none⟩ := by
  induction parts generalizing fs P with
  | nil => exact ⟨fs, rfl, by simpa using hf, hfX, hfT⟩
  | cons p ps ih =>
    unfold Names.Distinct at hd
    simp only [List.nodup_cons, List.mem_cons, List.not_mem_nil, or_false, not_or] at hd
    obtain ⟨ha, hb⟩ := hpl p List.mem_cons_self
    have hld := load_saved (env := env) model p.object hc (fun h => absurd h hnn) ha (storable_exact hx _ _)
    obtain ⟨e, he⟩ : ∃ e, p.object.load env model.saved = .ok e := ⟨_, hld⟩
    obtain ⟨q, qc, q1, q2, q3, q4, q5, q6⟩ := load_none hc (fun h => absurd h hnn) ha (storable_exact hx _ _) he
    have qm := SameContents.sameModel q
    have hTn : 0 < T.nrows := by omega
    have rX : Reads fs (.path f.X) (some X) := .file f.X ⟨X, none, none⟩ hfX hX0
    have rT : Reads fs (.path f.T) (some T) := .file f.T ⟨T, none, none⟩ hfT hTn
    have hproj : ∃ H', e.nnet.project env (samplesIn X p.istart p.icount) = .ok H' := by
      obtain ⟨b1, b2, b3, -⟩ := (project_ok_iff _ _ _ _).1 hH
      refine ⟨_, (project_ok_iff _ _ _ _).2 ⟨?_, ?_, ?_, rfl⟩⟩
      · rw [samplesIn_cols, hXc, qm.inputs]
      · rw [qm.neurons]; exact b2
      · rw [qm.neurons]; exact b3
    obtain ⟨H', hH'⟩ := hproj
    have hnp : 0 < (samplesIn X p.istart p.icount).nrows := by
      have h0 := hne p List.mem_cons_self
      rw [samplesIn_rowsIn]
      show 0 < (rowsIn X.rows p.istart p.icount).length
      rw [rowsIn_nos [], List.length_map]
      exact List.length_pos_of_ne_nil h0
    have hhot' : model.classification = some "wc" → OneHot (samplesIn T p.istart p.icount) := fun h => by
      rw [samplesIn_rowsIn]
      exact fun r hr => hhot h r (mem_rowsIn hr)
    obtain ⟨⟨e', fs1⟩, hr⟩ := C46_part_completes env hx f.HH f.HT hd.2.2.1.1 model hg hsq fs P hf e qm qc (by rw [q5]; exact hb)
      (by unfold size; rw [qm.neurons]; exact hpos) (by rw [qm.outputs]; exact hout) (fun h => by rw [← q.wc]; exact hwc h) (.path f.X) (.path f.T) X T rX rT hTw
      (by rw [hXc, qm.inputs]) (by rw [hTc, qm.outputs]) hN p.istart p.icount hnp hhot' H' hH'
    have hf1 := Fed.add hf e e' qm qc (by rw [q5]; exact hb) _ _ X T rX rT hTw p.istart p.icount hhot' hr
    obtain ⟨_, _, _, _, _, _, _, hfr⟩ := C108_written_partial env fs fs1 e e' _ _ _ _ f.HH f.HT hd.2.2.1.1 hr
    obtain ⟨fs', k1, k2, k3, k4⟩ := ih (fun p hp => hpl p (List.mem_cons_of_mem _ hp)) (fun p hp => hne p (List.mem_cons_of_mem _ hp)) fs1 _ hf1
      (by rw [hfr _ hd.1.2.1 hd.1.2.2.1]; exact hfX) (by rw [hfr _ hd.2.1.1 hd.2.1.2.1]; exact hfT)
    refine ⟨fs', ?_, ?_, k3, k4⟩
    · rw [List.foldlM_cons]
      have : step3 env f model.saved p fs = .ok fs1 := by
        unfold step3
        simp only [he, hr, bind, Except.bind, pure, Except.pure]
      rw [this]
      exact k1
    · rw [List.flatMap_cons, ← List.append_assoc]
      exact k2

/-- The scripts of step 4, on a disk that holds the data and the matrices of all the samples. -/
theorem after_step3 (env : Env K) (hl : Lawful env) (hx : env.Exact) (f : Names) (hd : f.Distinct) (fs : Files K)
    (model : ELM K) (hc : Consistent model.nnet)
    (hsq : model.classification = some "wc" → ∀ x : K, 0 ≤ x → env.sqrt x * env.sqrt x = x) (hnorm : 0 < model.nnet.norm)
    (hout : 0 < model.nnet.outputs)
    (X T : Mat K) (hTw : T.WF) (hhot : model.classification = some "wc" → OneHot T) (o4 o5 : ELM K) (ho4 : Plain o4) (ho5 : Plain o5)
    (a a' : ELM K) (gN : a.nnet.neurons = model.nnet.neurons) (gI : a.nnet.inputs = model.nnet.inputs)
    (gO : a.nnet.outputs = model.nnet.outputs) (gn : a.nnet.norm = model.nnet.norm) (rnd : Rnd) (args : List String) (kw : Kwargs K) (r : Option K) (hsel : "V" ∉ args ∧ "CV" ∉ args ∧ "LOO" ∉ args)
    (hb : 0 < kw.batch.getD a.batch) (hw : ∀ ws, kw.w = some ws → ∀ x ∈ ws, 0 ≤ x)
    (htr : a.train env fs rnd (.mat X) (.mat T) args kw = (.ok r, a')) (hcls : a'.classification = model.classification) (hwca : a'.wc = model.wc)
    (fs3 : Files K) (P : List (List K × List K)) (hperm : (X.rows.zip T.rows).Perm P)
    (u2 : DiskInv env model.nnet.neurons model.nnet.outputs model.nnet.norm (Hpelm.rowWt model.classification model.wc model.nnet.outputs) f.HH f.HT fs3 P)
    (u3 : fs3 f.X = some ⟨X, none, none⟩) (u4 : fs3 f.T = some ⟨T, none, none⟩) :
    ∃ m last fs' Y, step4 env f model.saved o4 fs3 = .ok m ∧ step5 env f m o5 fs3 = .ok (last, fs') ∧
      a'.predict env fs (.mat X) = .ok Y ∧ fs' f.Y = some ⟨Y, none, none⟩ ∧
      last.error fs' (.path f.T) (.path f.Y) = a'.error fs (.mat T) (.mat Y) ∧
      (X.cols ≠ T.cols → last.error fs' (.path f.X) (.path f.Y) = .error .assertion) := by
  obtain ⟨X1, T1, ea, t1, -, -⟩ := train_ok htr
  have hXT := checkBoth_of_reads (.mat X) (.mat T) t1
  obtain ⟨rfl, rfl⟩ : X1 = X ∧ T1 = T := ⟨congrArg Prod.fst hXT, congrArg Prod.snd hXT⟩
  obtain ⟨H, S, HT, w, p0, hN, p1, p2, p3, p4, p5, p6, p7, p8, p9, p10, p11, p12, p13, p14⟩ :=
    train_plain' hx (by rw [hcls]; exact hsq) hsel.1 hsel.2.1 hsel.2.2 hb hTw (by rw [hcls]; exact hhot) hw htr
  obtain ⟨b1, b2, b3, bH⟩ := (project_ok_iff _ _ _ _).1 p1
  have hXc : X1.cols = model.nnet.inputs := by rw [b1, gI]
  have hTc : T1.cols = model.nnet.outputs := by rw [p4, gO]
  have hnn : model.nnet.neurons ≠ [] := by rw [← gN]; exact b3
  have hproj : model.nnet.project env X1 = .ok H := by
    rw [← p1]; unfold NNet.project; rw [gN, gI]
  have hdd := hd
  unfold Names.Distinct at hd
  simp only [List.nodup_cons, List.mem_cons, List.not_mem_nil, or_false, not_or] at hd
  -- step 4
  obtain ⟨e4, l4⟩ : ∃ e, o4.load env model.saved = .ok e := ⟨_, load_saved model o4 hc (fun h => absurd h hnn) ho4.1 (storable_exact hx _ _)⟩
  obtain ⟨q, qc, q1, q2, q3, q4, q5, q6⟩ := load_none hc (fun h => absurd h hnn) ho4.1 (storable_exact hx _ _) l4
  have qm := SameContents.sameModel q
  have hPne : P ≠ [] := by
    intro h
    rw [h] at hperm
    have := hperm.length_eq
    have hx0 : 0 < X1.rows.length := p0
    have hx1 : X1.rows.length = T1.rows.length := hN
    simp only [List.length_zip, List.length_nil] at this
    omega
  obtain ⟨e4', v4⟩ := disk_solve_completes env hl.toShapes f.HH f.HT model fs3 _ u2 hPne e4 qm qc
  obtain ⟨hB, hB0⟩ := disk_incremental env hl hx f.HH f.HT model hsq hnorm fs3 _ u2 e4 e4' qm v4 X1 T1 hperm hTw a a' fs rnd args kw r
    hsel hb hhot hw gN gn gO htr hcls (fun _ => hwca)
  have hcorr : IsCorr H T1 w a.nnet.norm S HT := ⟨by rw [p2, hN], p6.wf, p7, by rw [← p6.square]; exact p7, p8, p9, p10, p13, p14⟩
  obtain ⟨-, z2, z3, z4⟩ := hcorr.solve hl hx a.nnet (by rw [gn]; exact hnorm) p12 (A := a.nnet.store S) (Or.inr rfl)
  have haB : a'.nnet.B = some (a.nnet.solveCorr env (a.nnet.store S) HT) := by rw [p5]
  have hL4 : e4.nnet.L = some (size e4.nnet) := by
    rcases qc.count with h | ⟨_, h⟩
    · exact h
    · rw [qm.neurons] at h; exact absurd h hnn
  have he4 : e4' = { e4 with nnet := { e4.nnet with B := a'.nnet.B } } := by
    have v := v4
    unfold ELM.hSolveCorr NNet.setB at v
    obtain ⟨_, _, v⟩ := bind_ok v
    obtain ⟨n, v1, v⟩ := bind_ok v
    obtain ⟨_, _, v1⟩ := bind_ok v1
    obtain ⟨_, _, v1⟩ := bind_ok v1
    injection v1 with v1
    injection v with v
    rw [← hB, ← v, ← v1]
  have hc4 : Consistent e4'.nnet := by
    rw [he4]
    refine ⟨qc.groups, qc.types, qc.count, ?_, qc.corrs⟩
    intro B hBB
    have : B = a.nnet.solveCorr env (a.nnet.store S) HT := by
      have hBB' : a'.nnet.B = some B := hBB
      rw [haB] at hBB'
      injection hBB' with hBB'
      exact hBB'.symm
    rw [this]
    refine ⟨z2, ?_, ?_⟩
    · show some _ = e4.nnet.L
      rw [z3, hL4, p3, gN]
      unfold size
      rw [qm.neurons]
    · show _ = e4.nnet.outputs
      rw [z4, hTc, qm.outputs]
  have hnn4 : e4'.nnet.neurons ≠ [] := by
    rw [he4]; show e4.nnet.neurons ≠ []; rw [qm.neurons]; exact hnn
  -- step 5
  obtain ⟨e5, l5⟩ : ∃ e, o5.load env e4'.saved = .ok e := ⟨_, load_saved e4' o5 hc4 (fun h => absurd h hnn4) ho5.1 (storable_exact hx _ _)⟩
  obtain ⟨g, gc, g1, g2, g3, g4, g5, g6⟩ := load_none hc4 (fun h => absurd h hnn4) ho5.1 (storable_exact hx _ _) l5
  have k1 : e5.nnet.neurons = a.nnet.neurons := by
    have : e5.nnet.neurons = e4'.nnet.neurons := g.neurons.symm
    rw [this, he4]; show e4.nnet.neurons = _; rw [qm.neurons, gN]
  have k2 : e5.nnet.inputs = a.nnet.inputs := by rw [← g.inputs, he4]; show e4.nnet.inputs = _; rw [qm.inputs, gI]
  have k3 : e5.nnet.outputs = a.nnet.outputs := by rw [← g.outputs, he4]; show e4.nnet.outputs = _; rw [qm.outputs, gO]
  have k4 : e5.nnet.B = a'.nnet.B := by
    have : e5.nnet.B = e4'.nnet.B := g.weights.symm
    rw [this, hB]
  have k5 : e5.classification = a'.classification := by rw [← g.classification, he4]; show e4.classification = _; rw [qm.classification, hcls]
  have k6 : e5.wc = a'.wc := by rw [← g.wc, he4]; show e4.wc = _; rw [← q.wc, hwca]
  obtain ⟨B, hBdef⟩ : ∃ B, B = a.nnet.solveCorr env (a.nnet.store S) HT := ⟨_, rfl⟩
  rw [← hBdef] at haB z2 z3 z4
  have hpn : ∀ n : NNet K, n.neurons = a.nnet.neurons → n.inputs = a.nnet.inputs → n.B = some B → n.predict env X1 = .ok (H.mul B) := by
    intro n n1 n2 n3
    have : n.project env X1 = .ok H := by rw [← p1]; unfold NNet.project; rw [n1, n2]
    unfold NNet.predict
    simp only [n3, this, bind, Except.bind, z3, ne_eq, not_true, if_false, pure, Except.pure]
  have hY : a'.predict env fs (.mat X1) = .ok (H.mul B) := by
    have i1 : a'.nnet.inputs = a.nnet.inputs := by rw [p5]; rfl
    have c1 : checkOne fs a'.nnet.inputs (.mat X1) = .ok (some X1) :=
      (checkOne_iff _ _ _ _).2 ⟨.mat X1, by rintro M ⟨⟩; rw [i1]; exact b1⟩
    unfold ELM.predict
    rw [c1]
    exact hpn _ (by rw [p5]; rfl) i1 haB
  have rX : Reads fs3 (.path f.X) (some X1) := .file f.X ⟨X1, none, none⟩ u3 p0
  have hY5 : e5.predict env fs3 (.path f.X) = .ok (H.mul B) := by
    have c1 : checkOne fs3 e5.nnet.inputs (.path f.X) = .ok (some X1) :=
      (checkOne_iff _ _ _ _).2 ⟨rX, by rintro M ⟨⟩; rw [k2]; exact b1⟩
    unfold ELM.predict
    rw [c1]
    exact hpn _ k1 k2 (by rw [k4, haB])
  obtain ⟨Y, hYdef⟩ : ∃ Y, Y = H.mul B := ⟨_, rfl⟩
  have hYn : Y.nrows = X1.nrows ∧ Y.cols = model.nnet.outputs := by
    rw [hYdef]
    exact ⟨by rw [Mat.mul_nrows, p2], by rw [Mat.mul_cols, z4, hTc]⟩
  rw [← hYdef] at hY hY5
  have hp5 := (C44_predict env fs3 e5 (.path f.X) Y 0 none (by rw [g5]; exact ho5.2) gc hY5).2.1 (by simpa [samplesIn, Mat.nrows] using (by have := hYn.1; unfold Mat.nrows at this p0; omega))
    (by rw [k3, gO]; exact hout)
  refine ⟨e4'.saved, e5, fs3.put f.Y ⟨Y, none, none⟩, Y, ?_, ?_, hY, by simp [Files.put], ?_, ?_⟩
  · unfold step4
    simp only [l4, v4, bind, Except.bind, pure, Except.pure]
  · unfold step5
    simp only [l5, bind, Except.bind, pure, Except.pure]
    have hp5' : e5.hPredict env fs3 (.path f.X) .file 0 none = .ok Y := by simpa [samplesIn] using hp5
    rw [hp5']
  · have rT : Reads (fs3.put f.Y ⟨Y, none, none⟩) (.path f.T) (some T1) :=
      .file f.T ⟨T1, none, none⟩ (by simp [Files.put, hd.2.1.2.2, u4]) (by show 0 < T1.nrows; omega)
    have rY : Reads (fs3.put f.Y ⟨Y, none, none⟩) (.path f.Y) (some Y) :=
      .file f.Y ⟨Y, none, none⟩ (by simp [Files.put]) (by show 0 < Y.nrows; omega)
    have i1 : a'.nnet.outputs = a.nnet.outputs := by rw [p5]; rfl
    have c1 := (checkOne_iff _ e5.nnet.outputs _ _).2 ⟨rT, by rintro M ⟨⟩; rw [k3]; exact p4⟩
    have c2 := (checkOne_iff _ e5.nnet.outputs _ _).2 ⟨rY, by rintro M ⟨⟩; rw [k3, gO]; exact hYn.2⟩
    have c3 := (checkOne_iff fs a'.nnet.outputs _ _).2 ⟨.mat T1, by rintro M ⟨⟩; rw [i1]; exact p4⟩
    have c4 := (checkOne_iff fs a'.nnet.outputs _ _).2 ⟨.mat Y, by rintro M ⟨⟩; rw [i1, gO]; exact hYn.2⟩
    unfold ELM.error
    simp only [c1, c2, c3, c4, bind, Except.bind, k5, k6]

  · intro hne'
    have rX' : (fs3.put f.Y ⟨Y, none, none⟩) f.X = some ⟨X1, none, none⟩ := by simp [Files.put, hd.1.2.2.2, u3]
    have c1 : checkOne (fs3.put f.Y ⟨Y, none, none⟩) e5.nnet.outputs (.path f.X) = .error .assertion := by
      have n0 : ¬ X1.nrows = 0 := by omega
      have n1 : ¬ X1.cols = e5.nnet.outputs := by rw [k3, ← p4]; exact hne'
      unfold checkOne pyAssert
      simp [rX', n0, n1, bind, Except.bind, pure, Except.pure]
    unfold ELM.error
    rw [c1]
    rfl

/-- C112.  Run the scripts of the documentation page on parallel training: put the data on the disk, save any model with neurons (regression,
classification, or weighted classification with given weights), let any number of scripts add any ranges of the samples in any order, such that every
sample is in exactly one range; solve, save, load, predict into a file.  Whenever training the same model in memory on all the data succeeds, all the
scripts succeed; the file then holds exactly the predictions of the model that was trained in memory, and the error computed from the files is the
error of that model.

Missing for the full property: the last line of the page compares the predictions with the inputs, which raises an `AssertionError` unless there are
as many inputs as outputs (last line of the theorem, `C112_as_printed_refuted`). -/
theorem C112_workflow_partial (env : Env K) (hl : Lawful env) (hx : env.Exact) (cast : K → K) (hcast : ∀ x, cast x = x) (f : Names) (hd : f.Distinct)
    (lvl : Nat) (hlvl : lvl < 10) (fs : Files K) (h1 : fs f.HH = none) (h2 : fs f.HT = none)
    -- the model
    (model : ELM K) (hc : Consistent model.nnet) (hg : GivenWeights model) (hwc : model.classification ≠ some "wc" → model.wc = none)
    (hsq : model.classification = some "wc" → ∀ x : K, 0 ≤ x → env.sqrt x * env.sqrt x = x) (hnorm : 0 < model.nnet.norm)
    (hin : 0 < model.nnet.inputs) (hout : 0 < model.nnet.outputs) (hpos : 0 < size model.nnet)
    -- the data and the scripts
    (X T : Mat K) (hTw : T.WF) (hhot : model.classification = some "wc" → OneHot T) (parts : List (DataPart K))
    (hparts : (parts.flatMap fun p => sampleNos X.nrows p.istart p.icount).Perm (List.range X.nrows))
    (hne : ∀ p ∈ parts, sampleNos X.nrows p.istart p.icount ≠ []) (hpl : ∀ p ∈ parts, Plain p.object) (o4 o5 : ELM K) (ho4 : Plain o4) (ho5 : Plain o5)
    -- training in memory
    (a a' : ELM K) (gN : a.nnet.neurons = model.nnet.neurons) (gI : a.nnet.inputs = model.nnet.inputs)
    (gO : a.nnet.outputs = model.nnet.outputs) (gn : a.nnet.norm = model.nnet.norm) (rnd : Rnd) (args : List String) (kw : Kwargs K) (r : Option K) (hsel : "V" ∉ args ∧ "CV" ∉ args ∧ "LOO" ∉ args)
    (hb : 0 < kw.batch.getD a.batch) (hw : ∀ ws, kw.w = some ws → ∀ x ∈ ws, 0 ≤ x)
    (htr : a.train env fs rnd (.mat X) (.mat T) args kw = (.ok r, a')) (hcls : a'.classification = model.classification) (hwca : a'.wc = model.wc) :
    ∃ last fs' Y, tutorial env cast f X T lvl model parts o4 o5 fs = .ok (last, fs') ∧
      a'.predict env fs (.mat X) = .ok Y ∧ fs' f.Y = some ⟨Y, none, none⟩ ∧
      last.error fs' (.path f.T) (.path f.Y) = a'.error fs (.mat T) (.mat Y) ∧
      (X.cols ≠ T.cols → last.error fs' (.path f.X) (.path f.Y) = .error .assertion) := by
  obtain ⟨X1, T1, ea, t1, -, -⟩ := train_ok htr
  have hXT := checkBoth_of_reads (.mat X) (.mat T) t1
  obtain ⟨rfl, rfl⟩ : X1 = X ∧ T1 = T := ⟨congrArg Prod.fst hXT, congrArg Prod.snd hXT⟩
  obtain ⟨H, S, HT, w, p0, hN, p1, p2, p3, p4, p5, p6, p7, p8, p9, p10, p11, p12, p13, p14⟩ :=
    train_plain' hx (by rw [hcls]; exact hsq) hsel.1 hsel.2.1 hsel.2.2 hb hTw (by rw [hcls]; exact hhot) hw htr
  obtain ⟨b1, b2, b3, bH⟩ := (project_ok_iff _ _ _ _).1 p1
  have hXc : X1.cols = model.nnet.inputs := by rw [b1, gI]
  have hTc : T1.cols = model.nnet.outputs := by rw [p4, gO]
  have hnn : model.nnet.neurons ≠ [] := by rw [← gN]; exact b3
  have hproj : model.nnet.project env X1 = .ok H := by
    rw [← p1]; unfold NNet.project; rw [gN, gI]
  have hdd := hd
  unfold Names.Distinct at hd
  simp only [List.nodup_cons, List.mem_cons, List.not_mem_nil, or_false, not_or] at hd
  -- step 1
  obtain ⟨fs1, s1, s2, s3, s4⟩ := step1_ok hcast hlvl p0 (by omega : 0 < T1.nrows) (by omega : 0 < X1.cols) (by omega : 0 < T1.cols) hd.1.1 fs
  -- step 3
  have f1 : Fed env f.HH f.HT model fs1 [] := .start fs1 (by rw [s4 _ (Ne.symm hd.1.2.1) (Ne.symm hd.2.1.1)]; exact h1)
    (by rw [s4 _ (Ne.symm hd.1.2.2.1) (Ne.symm hd.2.1.2.1)]; exact h2)
  obtain ⟨fs3, u1, u2, u3, u4⟩ := step3_all hx hdd hc hnn hg hwc hsq hpos hout hTw hXc hTc hN p0 hhot hproj parts hpl hne fs1 [] f1 s2 s3
  rw [List.nil_append] at u2
  have hperm := parts_perm hN parts hparts
  obtain ⟨m, last, fs', Y, k1, k2, k3⟩ := after_step3 env hl hx f hdd fs model hc hsq hnorm hout X1 T1 hTw hhot o4 o5 ho4 ho5 a a' gN gI gO gn rnd args kw r hsel
    hb hw htr hcls hwca fs3 _ hperm (fed_disk hx hd.2.2.1.1 hg hsq u2) u3 u4
  refine ⟨last, fs', Y, ?_, k3⟩
  unfold tutorial
  simp only [s1, u1, bind, Except.bind, k1]
  exact k2

/-- Names of the files. -/
def exNames : Names := ⟨"x", "t", "hh", "ht", "y"⟩

/-- C112 is false of the page as it is printed: two inputs, one output, three scripts.  Everything works and the training error is 39/50, but the call
`error("dataX.hdf5", "predictedY.hdf5")` of the last script raises. -/
theorem C112_as_printed_refuted :
    (tutorial QEnv.env id exNames ⟨2, [[1, 0], [0, 1], [2, 3], [1, 1]]⟩ ⟨1, [[1], [2], [3], [0]]⟩ 9 (exModel 1 2 none none)
        [⟨exModel 1 1 none none, 2, none⟩, ⟨exModel 1 3 none none, 0, some 1⟩, ⟨exModel 1 2 none none, 1, some 1⟩]
        (exModel 1 2 none none) (exModel 1 2 none none) (fun _ => none)).map
      (fun r => (r.1.error r.2 (.path "t") (.path "y"), r.1.error r.2 (.path "x") (.path "y"))) = .ok (.ok (39/50), .error .assertion) := by
  decide +kernel

/-- The hypotheses are met: the same with three scripts, in another order than the samples, and training in memory. -/
example : ∃ a', exTrained.train (lawEnv QEnv.env) (fun _ => none) ⟨fun _ => []⟩ (.mat ⟨2, [[1, 0], [0, 1], [2, 3], [1, 1]]⟩)
      (.mat ⟨1, [[1], [2], [3], [0]]⟩) [] {} = (.ok none, a') ∧
    ∃ last fs' Y, tutorial (lawEnv QEnv.env) id exNames ⟨2, [[1, 0], [0, 1], [2, 3], [1, 1]]⟩ ⟨1, [[1], [2], [3], [0]]⟩ 9 exTrained
        [⟨exModel 1 1 none none, 2, none⟩, ⟨exModel 1 3 none none, 0, some 1⟩, ⟨exModel 1 2 none none, 1, some 1⟩]
        (exModel 1 2 none none) (exModel 1 2 none none) (fun _ => none) = .ok (last, fs') ∧
      a'.predict (lawEnv QEnv.env) (fun _ => none) (.mat ⟨2, [[1, 0], [0, 1], [2, 3], [1, 1]]⟩) = .ok Y ∧ fs' "y" = some ⟨Y, none, none⟩ := by
  obtain ⟨a', h⟩ := train_plain_total (env := lawEnv QEnv.env) (fs := fun _ => none) (rnd := ⟨fun _ => []⟩) (e := exTrained)
    (X := ⟨2, [[1, 0], [0, 1], [2, 3], [1, 1]]⟩) (T := ⟨1, [[1], [2], [3], [0]]⟩) (args := []) (kw := {}) (lawEnv_exact _) (by simp) (by simp) (by simp)
    (by decide) (by simp) rfl rfl rfl (by decide) rfl exTrained_consistent rfl
  refine ⟨a', h, ?_⟩
  obtain ⟨X1, T1, ea, -, a2, a3⟩ := train_ok h
  have hea : ea.classification = none ∧ ea.wc = none := by
    have : (exTrained.parseArgs [] {}).1 = ea := congrArg Prod.fst a2
    rw [← this]
    exact ⟨rfl, rfl⟩
  obtain ⟨_, e2, n, c1, c2, c3⟩ := trainBody_plain (by simp) (by simp) (by simp) a3
  obtain ⟨c, rfl⟩ := addData_fields c1
  have hcw : a'.classification = none ∧ a'.wc = none := by
    rw [c3]
    simp [ELM.autoWc, hea]
  obtain ⟨last, fs', Y, k1, k2, k3, -⟩ := C112_workflow_partial (lawEnv QEnv.env) (lawEnv_lawful _) (lawEnv_exact _) id (fun _ => rfl) exNames
    (by unfold Names.Distinct exNames; decide) 9 (by decide) (fun _ => none) rfl rfl exTrained exTrained_consistent (fun h => by cases h) (fun _ => rfl)
    (fun h => by cases h) (by decide +kernel) (by decide) (by decide) (by decide) ⟨2, [[1, 0], [0, 1], [2, 3], [1, 1]]⟩ ⟨1, [[1], [2], [3], [0]]⟩
    (by simp [Mat.WF]) (fun h => by cases h) [⟨exModel 1 1 none none, 2, none⟩, ⟨exModel 1 3 none none, 0, some 1⟩, ⟨exModel 1 2 none none, 1, some 1⟩]
    (by decide) (by simp [sampleNos, Mat.nrows]) (by simp [Plain, exModel]) (exModel 1 2 none none) (exModel 1 2 none none)
    ⟨rfl, by decide⟩ ⟨rfl, by decide⟩ exTrained a' rfl rfl rfl rfl ⟨fun _ => []⟩ [] {} none (by simp) (by decide) (by rintro _ ⟨⟩) h
    hcw.1 hcw.2
  exact ⟨last, fs', Y, k1, k2, k3⟩

end Hpelm.Props
