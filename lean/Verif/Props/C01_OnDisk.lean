import Verif.Props.C01_Bookkeeping
import Verif.Model.HOps
import Verif.Lemmas.OnDisk
import Verif.Lemmas.ValCorr

/-!
# C01 for out-of-memory models: histories that mix in-memory calls, on-disk training and writes to the files
-/

set_option linter.unusedSectionVars false

namespace Hpelm.Props
open Hpelm Spec
variable {K : Type} [Field K] [LinearOrder K]

/-- Every file holds a proper 2-D array. -/
def FilesWF (fs : Files K) : Prop := ∀ f h, fs f = some h → h.data.WF

/-- Conditions on the arguments of a call (as `ArgsOk`); a written file holds a proper array. -/
def HArgsOk (acc : Option String) : HOp K → Prop
  | .elm op => ArgsOk acc op
  | .write _ h => h.data.WF
  | _ => True

theorem prepareFile_files {fs fs' : Files K} {f : String} {r c : Nat} {fresh : Mat K} (hf : fresh.WF) (hw : FilesWF fs)
    (h : prepareFile fs f r c fresh = .ok fs') : FilesWF fs' := by
  unfold prepareFile at h
  split at h
  · obtain ⟨_, _, h⟩ := bind_ok h
    injection h with h
    rw [← h]; exact hw
  · split at h
    · cases h
    · injection h with h
      rw [← h]
      intro g k hg
      simp only at hg
      split at hg
      · injection hg with hg; rw [← hg]; exact hf
      · exact hw g k hg

theorem prepareFHH_inv {fs fs' : Files K} {fHH fHT : Option String} {n n' : NNet K} (hc : Consistent n) (hw : FilesWF fs)
    (h : prepareFHH fs fHH fHT n = .ok (n', fs')) : Consistent n' ∧ FilesWF fs' := by
  unfold prepareFHH at h
  split at h
  · obtain ⟨fs1, h1, h⟩ := bind_ok h
    obtain ⟨fs2, h2, h⟩ := bind_ok h
    injection h with h
    injection h with h3 h4
    rw [← h3, ← h4]
    exact ⟨reset_consistent hc, prepareFile_files (Mat.zeros_WF _ _) (prepareFile_files (Mat.diag_WF _ _) hw h1) h2⟩
  · injection h with h
    injection h with h3 h4
    rw [← h3, ← h4]; exact ⟨hc, hw⟩

theorem addToFile_files {fs fs' : Files K} {f : String} {M : Mat K} (hw : FilesWF fs) (h : addToFile fs f M = .ok fs') :
    FilesWF fs' := by
  unfold addToFile at h
  split at h
  · cases h
  · split at h
    · injection h with h
      rw [← h]
      intro g k hg
      simp only at hg
      split at hg
      · injection hg with hg; rw [← hg]; exact Mat.add_WF _ _
      · exact hw g k hg
    · cases h

theorem getCorr!_shape {n : NNet K} (hc : Consistent n) {HH HT : Mat K} (h : n.getCorr! = .ok (HH, HT)) :
    HH.WF ∧ HT.WF ∧ some HH.nrows = n.L ∧ some HH.cols = n.L ∧ some HT.nrows = n.L ∧ HT.cols = n.outputs := by
  unfold NNet.getCorr! at h
  obtain ⟨c, h1, h⟩ := bind_ok h
  cases c with
  | none => cases h
  | some c =>
    injection h with h
    subst h
    unfold NNet.getCorr at h1
    split at h1
    · injection h1 with h1
      exact hc.corrs _ _ h1
    · cases h1
    · rename_i A C hcorr
      injection h1 with h1
      injection h1 with h1
      injection h1 with h2 h3
      obtain ⟨c1, c2, c3, c4, c5, c6⟩ := hc.corrs _ _ hcorr
      rw [← h2, ← h3]
      exact ⟨Mat.add_WF _ _, c2, by simpa using c3, by simpa using c4, c5, c6⟩
    · cases h1
    · rename_i A C hcorr
      injection h1 with h1
      injection h1 with h1
      injection h1 with h2 h3
      obtain ⟨c1, c2, c3, c4, c5, c6⟩ := hc.corrs _ _ hcorr
      rw [← h2, ← h3]
      exact ⟨Mat.add_WF _ _, c2, by simpa [triu] using c3, by simpa [triu] using c4, c5, c6⟩

theorem storeCorr_inv {e e' : ELM K} {fs fs' : Files K} {fHH fHT : Option String} (hc : Consistent e.nnet)
    (hw : FilesWF fs) (h : e.storeCorr fs fHH fHT = .ok (e', fs')) :
    Consistent e'.nnet ∧ e'.accelerator = e.accelerator ∧ FilesWF fs' := by
  unfold ELM.storeCorr at h
  split at h
  · obtain ⟨⟨HH, HT⟩, h1, h⟩ := bind_ok h
    obtain ⟨fs2, h2, h⟩ := bind_ok h
    injection h with h
    injection h with h3 h4
    obtain ⟨c1, c2, c3, c4, c5, c6⟩ := getCorr!_shape hc h1
    rw [← h3, ← h4]
    refine ⟨?_, rfl, ?_⟩
    · simp only
      split
      · refine ⟨hc.groups, hc.types, hc.count, hc.weights, ?_⟩
        intro A C heq
        simp only [Option.some.injEq, Prod.mk.injEq] at heq
        obtain ⟨rfl, rfl⟩ := heq
        exact ⟨Mat.ofFn_WF _ _ _, c2, by simpa [subDiag] using c3, by simpa [subDiag] using c4, c5, c6⟩
      · exact hc
    · unfold writeFHH at h2
      obtain ⟨fs3, h5, h6⟩ := bind_ok h2
      exact addToFile_files (addToFile_files hw h5) h6
  · injection h with h
    injection h with h3 h4
    rw [← h3, ← h4]; exact ⟨hc, rfl, hw⟩

theorem feed_accelerator {env : Env K} {ic oc : Nat} (bs : List (List (List K) × List (List K))) {e e' : ELM K}
    (h : e.feed env ic oc bs = .ok e') : e'.accelerator = e.accelerator := by
  induction bs generalizing e with
  | nil => injection h with h; rw [← h]
  | cons b bs ih =>
    obtain ⟨Xb, Tb⟩ := b
    unfold ELM.feed at h
    obtain ⟨w, _, h⟩ := bind_ok h
    obtain ⟨n, hn, h⟩ := bind_ok h
    have := ih (e := { e with nnet := n }) h
    exact this

theorem autoWc_accelerator (env : Env K) (e : ELM K) (ns : List K) : (e.autoWc env ns).accelerator = e.accelerator := by
  unfold ELM.autoWc; split <;> rfl

theorem hAddData_inv {env : Env K} {fs fs' : Files K} {e e' : ELM K} {fX fT : DataArg K} {istart : Int}
    {icount : Option Int} {fHH fHT : Option String} (hc : Consistent e.nnet) (hw : FilesWF fs)
    (h : e.hAddData env fs fX fT istart icount fHH fHT = .ok (e', fs')) :
    Consistent e'.nnet ∧ e'.accelerator = e.accelerator ∧ FilesWF fs' := by
  unfold ELM.hAddData at h
  obtain ⟨_, _, h⟩ := bind_ok h
  obtain ⟨⟨X, T⟩, _, h⟩ := bind_ok h
  obtain ⟨⟨n, fs1⟩, h1, h⟩ := bind_ok h
  obtain ⟨bs, _, h⟩ := bind_ok h
  obtain ⟨e2, h2, h⟩ := bind_ok h
  obtain ⟨c1, w1⟩ := prepareFHH_inv hc hw h1
  have c2 : Consistent e2.nnet := feed_consistent _ (by rw [autoWc_nnet]; exact c1) h2
  have a2 := feed_accelerator _ h2
  rw [autoWc_accelerator] at a2
  obtain ⟨c3, a3, w3⟩ := storeCorr_inv c2 w1 h
  exact ⟨c3, a3.trans a2, w3⟩

theorem checkCorr_shape {fs : Files K} {n : NNet K} {fHH fHT : String} {HH HT : Mat K} (hw : FilesWF fs)
    (h : checkCorr fs n fHH fHT = .ok (HH, HT)) :
    HH.WF ∧ HT.WF ∧ some HH.nrows = n.L ∧ some HH.cols = n.L ∧ some HT.nrows = n.L ∧ HT.cols = n.outputs := by
  have hr : ∀ {f : String} {M : Mat K}, readCorr fs f = .ok M → M.WF := by
    intro f M hM
    unfold readCorr at hM
    split at hM
    · cases hM
    · rename_i k hk
      split at hM
      · cases hM
      · injection hM with hM; rw [← hM]; exact hw _ _ hk
  unfold checkCorr at h
  obtain ⟨A, h1, h⟩ := bind_ok h
  obtain ⟨C, h2, h⟩ := bind_ok h
  obtain ⟨_, _, h⟩ := bind_ok h
  obtain ⟨_, h3, h⟩ := bind_ok h
  obtain ⟨_, h4, h⟩ := bind_ok h
  injection h with h
  injection h with h5 h6
  have h3 := pyAssert_ok h3
  have h4 := pyAssert_ok h4
  simp only [decide_eq_true_eq] at h3 h4
  rw [← h5, ← h6]
  exact ⟨hr h1, hr h2, h3.1, h3.2, h4.1, h4.2⟩

theorem getD_mem_or {α : Type} (l : List α) (k : Nat) (d : α) : l.getD k d ∈ l ∨ l.getD k d = d := by
  rw [List.getD_eq_getElem?_getD]
  cases h : l[k]? with
  | none => exact Or.inr rfl
  | some a => exact Or.inl (List.mem_of_getElem? h)

/-- One call on an out-of-memory model keeps the network consistent and the files proper arrays. -/
theorem hStep_consistent {env : Env K} (hs : Shapes env) {s s' : ELM K × Files K} {op : HOp K} (hc : Consistent s.1.nnet)
    (hw : FilesWF s.2) (ha : HArgsOk s.1.accelerator op) (h : ELM.hStep env s op = .ok s') :
    Consistent s'.1.nnet ∧ s'.1.accelerator = s.1.accelerator ∧ FilesWF s'.2 := by
  obtain ⟨e, fs⟩ := s
  cases op with
  | elm op =>
    obtain ⟨e1, h1, h⟩ := bind_ok h
    injection h with h
    rw [← h]
    obtain ⟨c, a⟩ := step_consistent hs hc ha h1
    exact ⟨c, a, hw⟩
  | addData fX fT istart icount fHH fHT =>
    obtain ⟨e', fs'⟩ := s'
    exact hAddData_inv hc hw h
  | train fX fT args kw =>
    simp only [ELM.hStep] at h
    split at h
    · rename_i e1 heq
      injection h with h
      rw [← h]
      unfold ELM.hTrain at heq
      split at heq
      · injection heq with h1 _; cases h1
      · rename_i X T hX
        split at heq
        · injection heq with h1 _; cases h1
        · rename_i e2 hp
          have c2 : Consistent e2.nnet := parseArgs_consistent hc hp
          have a2 : e2.accelerator = e.accelerator := by
            have := (parseArgs_frame kw args e).accelerator
            rw [hp] at this
            exact this
          simp only at heq
          generalize (match kw.istart with | some i => max 0 i | none => 0) = st at heq
          split at heq
          · injection heq with h1 _; cases h1
          · rename_i e3 fs3 h3
            split at heq
            · injection heq with h1 _; cases h1
            · rename_i n h4
              injection heq with _ h5
              rw [← h5]
              obtain ⟨c3, a3, _⟩ := hAddData_inv c2 hw h3
              exact ⟨solve_consistent hs c3 h4, a3.trans a2, hw⟩
    · cases h
  | solveCorr fHH fHT =>
    obtain ⟨e1, h1, h⟩ := bind_ok h
    injection h with h
    rw [← h]
    unfold ELM.hSolveCorr at h1
    obtain ⟨⟨HH, HT⟩, h2, h1⟩ := bind_ok h1
    obtain ⟨n, h3, h1⟩ := bind_ok h1
    injection h1 with h1
    rw [← h1]
    obtain ⟨c1, c2, c3, c4, c5, c6⟩ := checkCorr_shape hw h2
    have e1 : HH.nrows = HH.cols := by have := c3.trans c4.symm; simpa using this
    have e2 : HT.nrows = HH.nrows := by have := c5.trans c3.symm; simpa using this
    exact ⟨setB_consistent hc (solveCorr_shape hs e.nnet c1 c2 e1 e2).1 h3, rfl, hw⟩
  | validationCorr fHH fHT fXv fTv Ls =>
    obtain ⟨r, h1, h⟩ := bind_ok h
    injection h with h
    rw [← h]
    unfold ELM.validationCorr at h1
    obtain ⟨⟨X, T⟩, _, h1⟩ := bind_ok h1
    obtain ⟨⟨HH, HT⟩, h2, h1⟩ := bind_ok h1
    obtain ⟨bs, _, h1⟩ := bind_ok h1
    obtain ⟨ss, _, h1⟩ := bind_ok h1
    by_cases hl : Ls.isEmpty = true
    · simp only [hl, if_true] at h1
      cases h1
    · simp only [hl] at h1
      obtain ⟨n, h3, h1⟩ := bind_ok h1
      injection h1 with h1
      rw [← h1]
      obtain ⟨c1, c2, c3, c4, c5, c6⟩ := checkCorr_shape hw h2
      have e1 : HH.nrows = HH.cols := by have := c3.trans c4.symm; simpa using this
      have e2 : HT.nrows = HH.nrows := by have := c5.trans c3.symm; simpa using this
      refine ⟨setB_consistent (prune_consistent hc _) ?_ h3, rfl, hw⟩
      rcases getD_mem_or (Ls.map fun l => (l, e.nnet.solveCorr env (HH.lead l l) (HT.lead l HT.cols)))
        (argminNan (ss.map (·.1))) (0, Mat.zeros 0 0) with hm | hm
      · obtain ⟨l, _, hl⟩ := List.mem_map.1 hm
        rw [← hl]
        refine (solveCorr_shape hs e.nnet (lead_WF c1 _ _) (lead_WF c2 _ _) ?_ ?_).1
        · simp [lead_nrows, lead_cols, e1]
        · simp [lead_nrows, e2]
      · rw [hm]; exact Mat.zeros_WF _ _
  | write f k =>
    injection h with h
    rw [← h]
    refine ⟨hc, rfl, ?_⟩
    intro g k' hg
    simp only at hg
    split at hg
    · injection hg with hg; rw [← hg]; exact ha
    · exact hw g k' hg

/-- C01 for `HPELM`.  Whatever sequence of in-memory and on-disk calls is made on a newly constructed model (on-disk
training with or without files for the matrices, solving from such files, validation over numbers of neurons, files written
by somebody else in between), as long as no call raises, the resulting network is consistent. -/
theorem C01_bookkeeping_on_disk (env : Env K) (hs : Shapes env) (fs fs' : Files K) (hw : ∀ f h, fs f = some h → h.data.WF)
    {inputs outputs : Nat} {cls : String} {w : Option (List K)} {batch : Int} {acc : Option String} {prec : PrecArg}
    {norm : Option K} {e0 e : ELM K} (h0 : ELM.init env inputs outputs cls w batch acc prec norm = .ok e0)
    (ops : List (HOp K)) (hops : ∀ op ∈ ops, HArgsOk acc op) (h : ELM.hRun env (e0, fs) ops = .ok (e, fs')) :
    Consistent e.nnet := by
  have hacc : e0.accelerator = acc := by
    unfold ELM.init at h0
    obtain ⟨_, _, h0⟩ := bind_ok h0
    simp only at h0
    split at h0
    · obtain ⟨_, _, h0⟩ := bind_ok h0
      injection h0 with h0
      rw [← h0]
    · injection h0 with h0
      rw [← h0]
  have hc := elmInit_consistent h0
  clear h0
  have hw : FilesWF fs := hw
  induction ops generalizing e0 fs with
  | nil => injection h with h; injection h with h _; rw [← h]; exact hc
  | cons op ops ih =>
    obtain ⟨⟨e1, fs1⟩, h1, h⟩ := bind_ok h
    obtain ⟨c1, a1, w1⟩ := hStep_consistent hs hc hw (by rw [hacc]; exact hops op List.mem_cons_self) h1
    exact ih fs1 w1 (fun o ho => hops o (List.mem_cons_of_mem _ ho)) h (a1.trans hacc) c1 w1

/-! A history that meets the hypotheses: data files are written, a model is trained, fed on disk in two parts, solved from
the files, and cut down by validation. -/

/-- Calls used in the example. -/
def c01hops : List (HOp ℚ) :=
  [.write "X" ⟨⟨2, [[1, 0], [0, 1], [1, 1], [2, 1]]⟩, none, none⟩,
   .write "T" ⟨⟨1, [[1], [2], [3], [5]]⟩, none, none⟩,
   .elm (.addNeurons (fun _ => ⟨2, []⟩) (fun _ => []) 1 2 (.name "lin") none none),
   .elm (.addNeurons (fun _ => ⟨2, []⟩) (fun _ => []) 1 1 (.name "lin") (some ⟨2, [[1, 2]]⟩) (some [1])),
   .train (.path "X") (.path "T") [] {},
   .addData (.path "X") (.path "T") 0 (some 2) (some "HH") (some "HT"),
   .addData (.path "X") (.path "T") 2 none (some "HH") (some "HT"),
   .solveCorr "HH" "HT",
   .validationCorr "HH" "HT" (.path "X") (.path "T") [2, 3]]

example : ∀ op ∈ c01hops, HArgsOk none op := by
  intro op hop
  simp only [c01hops, List.mem_cons, List.not_mem_nil, or_false] at hop
  rcases hop with rfl | rfl | rfl | rfl | rfl | rfl | rfl | rfl | rfl <;> simp [HArgsOk, ArgsOk, Mat.WF]

example : ((ELM.init QEnv.env 2 1 "" none 3 none (.np .double) (some 1)).bind fun e =>
    (ELM.hRun QEnv.env (e, fun _ => none) c01hops).map fun s : ELM ℚ × Files ℚ =>
      (s.1.nnet.L, s.1.nnet.B.map (fun B => (B.nrows, B.cols)), (s.2 "HH").isSome))
    = .ok (some 3, some (3, 1), true) := by decide +kernel

end Hpelm.Props
