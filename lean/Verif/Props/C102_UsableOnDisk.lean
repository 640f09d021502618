import Verif.Props.C100_Usable
import Verif.Props.C01_OnDisk
import Verif.Props.C42_C45_OutOfMemory
import Verif.Props.C30_HError

/-!
# C102 — documented calls on data on disk complete
-/

set_option linter.unusedSectionVars false

namespace Hpelm.Props
open Hpelm Spec Finset
variable {K : Type} [Field K] [LinearOrder K] [IsStrictOrderedRing K]

/-- Calls of an on-disk model that use neuron types by name; loading a model from a file is left out. -/
def HNamedOp : HOp K → Prop
  | .elm op => NamedOp op
  | _ => True

theorem prepareFHH_frame {fs fs' : Files K} {fHH fHT : Option String} {n n' : NNet K} (h : prepareFHH fs fHH fHT n = .ok (n', fs')) :
    NFrame n n' := by
  unfold prepareFHH at h
  split at h
  · obtain ⟨fs1, h1, h⟩ := bind_ok h
    obtain ⟨fs2, h2, h⟩ := bind_ok h
    injection h with h
    injection h with h3 h4
    rw [← h3]
    exact reset_frame _
  · injection h with h
    injection h with h3 h4
    rw [← h3]
    exact NFrame.rfl' _

theorem hAddData_frame {env : Env K} {fs fs' : Files K} {e e' : ELM K} {fX fT : DataArg K} {istart : Int}
    {icount : Option Int} {fHH fHT : Option String} (h : e.hAddData env fs fX fT istart icount fHH fHT = .ok (e', fs')) :
    NFrame e.nnet e'.nnet := by
  unfold ELM.hAddData at h
  obtain ⟨_, _, h⟩ := bind_ok h
  obtain ⟨⟨X, T⟩, _, h⟩ := bind_ok h
  obtain ⟨⟨n, fs1⟩, h1, h⟩ := bind_ok h
  obtain ⟨bs, _, h⟩ := bind_ok h
  obtain ⟨e2, h2, h⟩ := bind_ok h
  have f1 := prepareFHH_frame h1
  have f2 : NFrame n e2.nnet := by
    obtain ⟨c, hc⟩ := feed_fields _ h2
    rw [hc, autoWc_nnet]
    exact ⟨rfl, rfl, rfl, rfl, rfl, rfl⟩
  refine (f1.trans f2).trans ?_
  unfold ELM.storeCorr at h
  split at h
  · obtain ⟨⟨HH, HT⟩, h3, h⟩ := bind_ok h
    obtain ⟨fs2, h4, h⟩ := bind_ok h
    injection h with h
    injection h with h5 h6
    rw [← h5]
    simp only
    split
    · exact ⟨rfl, rfl, rfl, rfl, rfl, rfl⟩
    · exact NFrame.rfl' _
  · injection h with h
    injection h with h5 h6
    rw [← h5]
    exact NFrame.rfl' _

/-- The on-disk calls do not touch the types of neurons, the inputs and the outputs. -/
theorem hStep_frame {env : Env K} {s s' : ELM K × Files K} {op : HOp K} (hop : ∀ o, op ≠ .elm o) (h : ELM.hStep env s op = .ok s') :
    NFrame s.1.nnet s'.1.nnet := by
  obtain ⟨e, fs⟩ := s
  cases op with
  | elm op => exact absurd rfl (hop op)
  | addData fX fT istart icount fHH fHT =>
    obtain ⟨e', fs'⟩ := s'
    exact hAddData_frame h
  | train fX fT args kw =>
    simp only [ELM.hStep] at h
    split at h
    · rename_i e1 heq
      injection h with h
      rw [← h]
      unfold ELM.hTrain at heq
      split at heq
      · injection heq with h1 _; cases h1
      · rename_i X T hX
        split at heq
        · injection heq with h1 _; cases h1
        · rename_i e2 hp
          have f2 := (parseArgs_frame kw args e).nnet
          rw [hp] at f2
          simp only at heq
          generalize (match kw.istart with | some i => max 0 i | none => 0) = st at heq
          split at heq
          · injection heq with h1 _; cases h1
          · rename_i e3 fs3 h3
            split at heq
            · injection heq with h1 _; cases h1
            · rename_i n h4
              injection heq with _ h5
              rw [← h5]
              exact (f2.trans (hAddData_frame h3)).trans (solve_frame h4)
    · cases h
  | solveCorr fHH fHT =>
    obtain ⟨e1, h1, h⟩ := bind_ok h
    injection h with h
    rw [← h]
    unfold ELM.hSolveCorr at h1
    obtain ⟨⟨HH, HT⟩, h2, h1⟩ := bind_ok h1
    obtain ⟨n, h3, h1⟩ := bind_ok h1
    injection h1 with h1
    rw [← h1]
    exact setB_frame h3
  | validationCorr fHH fHT fXv fTv Ls =>
    obtain ⟨r, h1, h⟩ := bind_ok h
    injection h with h
    rw [← h]
    unfold ELM.validationCorr at h1
    obtain ⟨⟨X, T⟩, _, h1⟩ := bind_ok h1
    obtain ⟨⟨HH, HT⟩, h2, h1⟩ := bind_ok h1
    obtain ⟨bs, _, h1⟩ := bind_ok h1
    obtain ⟨ss, _, h1⟩ := bind_ok h1
    by_cases hl : Ls.isEmpty = true
    · simp only [hl, if_true] at h1
      cases h1
    · simp only [hl] at h1
      obtain ⟨n, h3, h1⟩ := bind_ok h1
      injection h1 with h1
      rw [← h1]
      exact (prune_frame _ _).trans (setB_frame h3)
  | write f k =>
    injection h with h
    rw [← h]
    exact NFrame.rfl' _

theorem hRun_named {env : Env K} (hs : Shapes env) {acc : Option String} (ops : List (HOp K)) {e e' : ELM K} {fs fs' : Files K}
    (hacc : e.accelerator = acc) (hc : Consistent e.nnet) (hw : FilesWF fs) (hn : NamedTypes e.nnet)
    (ha : ∀ op ∈ ops, HArgsOk acc op) (ho : ∀ op ∈ ops, HNamedOp op) (h : ELM.hRun env (e, fs) ops = .ok (e', fs')) :
    NamedTypes e'.nnet ∧ Consistent e'.nnet ∧ e'.nnet.inputs = e.nnet.inputs ∧ e'.nnet.outputs = e.nnet.outputs ∧
      ((e.nnet.neurons ≠ [] ∨ ∃ rW rB sq k f W B, HOp.elm (Op.addNeurons rW rB sq k f W B) ∈ ops) → e'.nnet.neurons ≠ []) := by
  induction ops generalizing e fs with
  | nil => injection h with h; injection h with h _; subst h; exact ⟨hn, hc, rfl, rfl, by simp⟩
  | cons op ops ih =>
    obtain ⟨⟨e1, fs1⟩, h1, h⟩ := bind_ok h
    obtain ⟨c1, a1, w1⟩ := hStep_consistent hs hc hw (by rw [hacc]; exact ha op List.mem_cons_self) h1
    have hstep : NamedTypes e1.nnet ∧ (e.nnet.neurons ≠ [] → e1.nnet.neurons ≠ []) ∧ e1.nnet.inputs = e.nnet.inputs ∧
        e1.nnet.outputs = e.nnet.outputs ∧ ((∃ rW rB sq k f W B, op = .elm (Op.addNeurons rW rB sq k f W B)) → e1.nnet.neurons ≠ []) := by
      by_cases hop : ∃ o, op = .elm o
      · obtain ⟨o, rfl⟩ := hop
        obtain ⟨e2, h2, h3⟩ := bind_ok h1
        injection h3 with h3
        injection h3 with h3 _
        subst h3
        have hno : NamedOp o := ho _ List.mem_cons_self
        obtain ⟨s1, s2, s3, s4⟩ := step_named hn (ha _ List.mem_cons_self) hno h2
        refine ⟨s1, s2, s3, ?_, ?_⟩
        · refine ((step_options h2).2.2.2 ?_).2.2.1
          cases o with
          | load m => exact hno.elim
          | _ => rfl
        · rintro ⟨rW, rB, sq, k, f, W, B, hh⟩
          injection hh with hh
          exact s4 ⟨rW, rB, sq, k, f, W, B, hh⟩
      · have f := hStep_frame (fun o ho => hop ⟨o, ho⟩) h1
        refine ⟨named_of_funcs f.funcs hn, ?_, f.inputs, f.outputs, ?_⟩
        · intro hne hne'
          have := f.funcs
          simp only at this
          rw [hne'] at this
          simp only [List.map_nil] at this
          exact hne (List.map_eq_nil_iff.1 this.symm)
        · rintro ⟨rW, rB, sq, k, f, W, B, hh⟩
          exact absurd ⟨_, hh⟩ hop
    obtain ⟨s1, s2, s3, s4, s5⟩ := hstep
    obtain ⟨r1, r2, r3, r4, r5⟩ := ih (a1.trans hacc) c1 w1 s1 (fun o h => ha o (List.mem_cons_of_mem _ h))
      (fun o h => ho o (List.mem_cons_of_mem _ h)) h
    refine ⟨r1, r2, r3.trans s3, r4.trans s4, ?_⟩
    rintro (hne | ⟨rW, rB, sq, k, f, W, B, hm⟩)
    · exact r5 (Or.inl (s2 hne))
    · rcases List.mem_cons.1 hm with hm | hm
      · exact r5 (Or.inl (s5 ⟨rW, rB, sq, k, f, W, B, hm.symm⟩))
      · exact r5 (Or.inr ⟨rW, rB, sq, k, f, W, B, hm⟩)

/-- C102.  A model is created and gets neurons of the documented types, in any history of successful calls on data in memory and on disk.  Then every
documented `HPELM.train` call on a range of data given as arrays or files completes; after it every range of a data set with the right number of
features can be predicted, into memory or into a file, with one row per sample, and the error of these predictions against any targets of that shape is a number that is not
negative (for weighted classification: if every class occurs among the targets of the range). -/
theorem C102_on_disk_calls_work (env : Env K) (hs : Shapes env) (hx : env.Exact) (fs0 fs : Files K) (hw : ∀ f h, fs0 f = some h → h.data.WF)
    {inputs outputs : Nat} {cls : String} {w : Option (List K)} {batch : Int} {acc : Option String} {prec : PrecArg} {norm : Option K} {e0 e : ELM K}
    (h0 : ELM.init env inputs outputs cls w batch acc prec norm = .ok e0)
    (ops : List (HOp K)) (ha : ∀ op ∈ ops, HArgsOk acc op) (ho : ∀ op ∈ ops, HNamedOp op)
    (hadd : ∃ rW rB sq k f W B, HOp.elm (Op.addNeurons rW rB sq k f W B) ∈ ops) (h : ELM.hRun env (e0, fs0) ops = .ok (e, fs)) (hb : 0 < e.batch)
    (fX fT : DataArg K) (X T : Mat K) (hX : Reads fs fX (some X)) (hT : Reads fs fT (some T)) (hN : X.nrows = T.nrows)
    (args : List String) (kw : Kwargs K) (istart : Nat) (icount : Option Nat)
    (hi : kw.istart = some (istart : Int) ∨ (kw.istart = none ∧ istart = 0)) (hc : kw.icount = icount.map (↑))
    (hd : Documented inputs outputs (samplesIn X istart icount) (samplesIn T istart icount) args kw)
    (hsq : Given args "WC" → ∀ x : K, 0 ≤ x → env.sqrt x * env.sqrt x = x) :
    ∃ e', e.hTrain env fs fX fT args kw = (.ok (), e') ∧
      ∀ (fX' : DataArg K) (X' : Mat K), Reads fs fX' (some X') → X'.cols = inputs → ∀ (istart' : Nat) (icount' : Option Nat),
        0 < (samplesIn X' istart' icount').nrows →
        ∃ Y, e'.hPredict env fs fX' .fresh istart' (icount'.map (↑)) = .ok Y ∧ e'.hPredict env fs fX' .file istart' (icount'.map (↑)) = .ok Y ∧
          Y.WF ∧ Y.nrows = (samplesIn X' istart' icount').nrows ∧ Y.cols = outputs ∧
          ∀ T' : Mat K, T'.WF → T'.cols = outputs → T'.nrows = Y.nrows →
            (e'.classification = some "wc" → ∀ i < outputs, ∃ n, T'.get n i = 1) →
            ∃ v, e'.hErrorOf fs (.mat T') (.mat Y) 0 none = .ok (some v) ∧ 0 ≤ v := by
  have hinit : e0.accelerator = acc ∧ e0.nnet.neurons = [] ∧ e0.nnet.inputs = inputs ∧ e0.nnet.outputs = outputs := by
    unfold ELM.init at h0
    obtain ⟨_, _, h0⟩ := bind_ok h0
    simp only at h0
    split at h0
    · obtain ⟨_, _, h0⟩ := bind_ok h0
      injection h0 with h0
      rw [← h0]
      exact ⟨rfl, rfl, rfl, rfl⟩
    · injection h0 with h0
      rw [← h0]
      exact ⟨rfl, rfl, rfl, rfl⟩
  obtain ⟨i1, i2, i3, i4⟩ := hinit
  obtain ⟨r1, r2, r3, r4, r5⟩ := hRun_named hs ops i1 (elmInit_consistent h0) hw (by intro g hg; rw [i2] at hg; cases hg) ha ho h
  have e1 : e.nnet.inputs = inputs := r3.trans i3
  have e2 : e.nnet.outputs = outputs := r4.trans i4
  have rnd : Rnd := ⟨fun _ => []⟩
  obtain ⟨e', t1, t2⟩ := usable_core env hs hx fs rnd e (samplesIn X istart icount) (samplesIn T istart icount) args kw hsq r2 r1 (r5 (Or.inr hadd)) hb
    (by rw [e1, e2]; exact hd)
  obtain ⟨p1, p2, p3⟩ := hd.plain
  have g1 : "V" ∉ args := notGiven (by decide) p1
  have g2 : "CV" ∉ args := notGiven (by decide) p2
  have g3 : "LOO" ∉ args := notGiven (by decide) p3
  have hbk : 0 < kw.batch.getD e.batch := by
    cases hk : kw.batch with
    | none => exact hb
    | some b => exact hd.batch b hk
  have htr := C43_train env hx fs rnd e fX fT X T args kw istart icount hi hc g1 g2 g3 hbk hX hT
    (by rw [e1, ← hd.inputs, samplesIn_cols]) (by rw [e2, ← hd.outputs, samplesIn_cols]) hN hd.some_row (fun hw => (hd.weighted hw).1)
  simp only [t1] at htr
  have hcon' : Consistent e'.nnet := by
    have := train_consistent hs (fs := fs) (rnd := rnd) (X := .mat (samplesIn X istart icount)) (T := .mat (samplesIn T istart icount))
      (args := args) (kw := kw) r2
    rw [t1] at this
    exact this
  have hfr : EFrame e e' := by
    have := train_frame env fs rnd e (.mat (samplesIn X istart icount)) (.mat (samplesIn T istart icount)) args kw
    rw [t1] at this
    exact this
  have hin' : e'.nnet.inputs = inputs := by rw [hfr.nnet.inputs, e1]
  have hout' : e'.nnet.outputs = outputs := by rw [hfr.nnet.outputs, e2]
  have hb' : 0 < e'.batch := by
    obtain ⟨X', T', e1, _, k2, k3⟩ := train_ok t1
    obtain ⟨_, e2, n, a1, a2, a3⟩ := trainBody_plain g1 g2 g3 k3
    obtain ⟨c, hc⟩ := addData_fields a1
    rw [a3, hc]
    have : (e1.autoWc env (colSums T')).batch = e1.batch := by unfold ELM.autoWc; split <;> rfl
    simp only [this]
    rw [(parseArgs_kw k2).2.2.1]
    exact hbk
  refine ⟨e', htr, ?_⟩
  intro fX' X' hX' hXc' istart' icount' hpos
  obtain ⟨Y, y1, y2, y3, y4, y5⟩ := t2 X' (by rw [hXc', e1])
  have hpred : e'.predict env fs fX' = .ok Y := by
    rw [← y1]
    unfold ELM.predict
    rw [(checkOne_iff fs e'.nnet.inputs fX' (some X')).2 ⟨hX', by rintro M ⟨⟩; rw [hXc', hin']⟩,
      (checkOne_iff fs e'.nnet.inputs (.mat X') (some X')).2 ⟨Reads.mat X', by rintro M ⟨⟩; rw [hXc', hin']⟩]
  have hYX : (samplesIn Y istart' icount').nrows = (samplesIn X' istart' icount').nrows := by
    rw [Hpelm.samplesIn_nrows, Hpelm.samplesIn_nrows, y3]
  have hist : istart' ≤ Y.nrows := by
    rw [y3]
    by_contra hcon
    rw [samplesIn_rowsIn] at hpos
    simp only [Mat.nrows] at hpos hcon
    cases icount' <;> simp [rowsIn] at hpos <;> omega
  obtain ⟨q1, q2, _⟩ := C44_predict env fs e' fX' Y istart' icount' hb' hcon' hpred
  refine ⟨samplesIn Y istart' icount', q1 hist, q2 (by rw [hYX]; exact hpos) (by rw [hout']; exact hd.some_output), samplesIn_WF y2 _ _, hYX,
    by rw [samplesIn_cols, y4, e2], ?_⟩
  intro T' hT1 hT2 hT3 hwc
  obtain ⟨Ys, z1, _, _, _, z5⟩ := t2 (samplesIn X' istart' icount') (by rw [samplesIn_cols, hXc', e1])
  have hYs : Ys = samplesIn Y istart' icount' := by
    unfold ELM.predict at y1 z1
    rw [(checkOne_iff fs e'.nnet.inputs (.mat X') (some X')).2 ⟨Reads.mat X', by rintro M ⟨⟩; rw [hXc', hin']⟩] at y1
    rw [(checkOne_iff fs e'.nnet.inputs (.mat (samplesIn X' istart' icount')) (some (samplesIn X' istart' icount'))).2
      ⟨Reads.mat _, by rintro M ⟨⟩; rw [samplesIn_cols, hXc', hin']⟩] at z1
    have y1 : e'.nnet.predict env X' = .ok Y := y1
    have z1 : e'.nnet.predict env (samplesIn X' istart' icount') = .ok Ys := z1
    obtain ⟨hne, B, g, hB, rfl, hg⟩ := predict_rows y1
    rw [samplesIn_rowsIn, rowsIn_map]
    rw [samplesIn_rowsIn] at z1
    have := hg (rowsIn X'.rows istart' icount')
    rw [z1] at this
    injection this
  subst hYs
  have hTpos : 0 < T'.nrows := by rw [hT3, hYX]; exact hpos
  obtain ⟨v, v1, v2⟩ := z5 T' hT1 (by rw [hT2, e2]) (by rw [hT3, hYX]) hpos
  have hfit : Fits e' T' (samplesIn Y istart' icount') :=
    ⟨hT1, samplesIn_WF y2 _ _, hT3, by rw [hT2, hout'], by rw [samplesIn_cols, y4, e2, hout'], by rw [hout']; exact hd.some_output⟩
  have hid : ∀ M : Mat K, samplesIn M 0 none = M := fun M => rfl
  have := (C30_hpelm_error_partial fs e' (.mat T') (.mat (samplesIn Y istart' icount')) T' (samplesIn Y istart' icount') 0 none
    (Reads.mat _) (Reads.mat _) hfit hb' (by rw [hid]; exact hTpos) (by rw [hid, hout']; exact hwc) v).2 (by rw [hid, hid]; exact v1)
  exact ⟨v, this, v2⟩

/-- The hypotheses of `C102_on_disk_calls_work` are met by a model whose neurons are added after data files were written and which is then trained on
all but the first sample of the files. -/
example : ∃ (e0 e : ELM ℝ) (fs : Files ℝ) (ops : List (HOp ℝ)) (X T : Mat ℝ),
    ELM.init realEnv 2 1 "" none 100 none (.np .double) none = .ok e0 ∧ (∀ op ∈ ops, HArgsOk none op) ∧
    (∀ op ∈ ops, HNamedOp op) ∧ (∃ rW rB sq k f W B, HOp.elm (Op.addNeurons rW rB sq k f W B) ∈ ops) ∧
    ELM.hRun realEnv (e0, fun _ => none) ops = .ok (e, fs) ∧ 0 < e.batch ∧
    Reads fs (.path "X") (some X) ∧ Reads fs (.path "T") (some T) ∧ X.nrows = T.nrows ∧ 
    Documented 2 1 (samplesIn X 1 none) (samplesIn T 1 none) [] { istart := some 1 } ∧ Shapes realEnv ∧ realEnv.Exact := by
  have hwf : (⟨2, [[1, 0], [0, 1], [2, 3]]⟩ : Mat ℝ).WF ∧ (⟨2, [[1, -1]]⟩ : Mat ℝ).WF ∧ (⟨1, [[1], [2], [8]]⟩ : Mat ℝ).WF := by
    refine ⟨?_, ?_, ?_⟩ <;> intro r hr <;> simp only [List.mem_cons, List.not_mem_nil, or_false] at hr
    · rcases hr with rfl | rfl | rfl <;> rfl
    · subst hr; rfl
    · rcases hr with rfl | rfl | rfl <;> rfl
  refine ⟨_, _, _, [.write "X" ⟨⟨2, [[1, 0], [0, 1], [2, 3]]⟩, none, none⟩, .write "T" ⟨⟨1, [[1], [2], [8]]⟩, none, none⟩,
    .elm (.addNeurons (fun _ => ⟨2, []⟩) (fun _ => []) 0 1 (.name "sigm") (some ⟨2, [[1, -1]]⟩) (some [1]))],
    ⟨2, [[1, 0], [0, 1], [2, 3]]⟩, ⟨1, [[1], [2], [8]]⟩, rfl, ?_, ?_, ?_, rfl, by decide, ?_, ?_, rfl, ?_, (lawEnv_lawful _).toShapes, lawEnv_exact _⟩
  · intro op hop
    simp only [List.mem_cons, List.not_mem_nil, or_false] at hop
    rcases hop with rfl | rfl | rfl
    · exact hwf.1
    · exact hwf.2.2
    · exact ⟨(fun m r hr => nomatch hr), by rintro M ⟨⟩; exact hwf.2.1⟩
  · intro op hop
    simp only [List.mem_cons, List.not_mem_nil, or_false] at hop
    rcases hop with rfl | rfl | rfl
    · trivial
    · trivial
    · exact ⟨_, rfl⟩
  · exact ⟨_, _, _, _, _, _, _, List.mem_cons_of_mem _ (List.mem_cons_of_mem _ List.mem_cons_self)⟩
  · exact Reads.file "X" ⟨⟨2, [[1, 0], [0, 1], [2, 3]]⟩, none, none⟩ rfl (by simp [Mat.nrows])
  · exact Reads.file "T" ⟨⟨1, [[1], [2], [8]]⟩, none, none⟩ rfl (by simp [Mat.nrows])
  · have g : ∀ s, ¬ Given [] s := by intro s; simp [Given]
    exact ⟨rfl, rfl, by decide, rfl, by simp [samplesIn, Mat.nrows], samplesIn_WF hwf.2.2 _ _, by simp, ⟨g _, g _, g _⟩, fun a _ b _ h => (g _ h).elim,
      fun a _ h => (g _ h).elim, by simp, fun h => (g _ h).elim⟩

end Hpelm.Props
