import Verif.Props.C108_ResultFiles
import Verif.Props.C01_OnDisk
import Verif.Model.AddDataFail

/-!
# C111: files of a call that is rejected, and files that do not fit
-/

set_option linter.unusedSectionVars false

namespace Hpelm.Props
open Hpelm Spec
variable {K : Type} [Field K] [LinearOrder K]

/-- File `f` holds an array of the given shape. -/
def Holds (fs : Files K) (f : String) (r c : Nat) : Prop := ∃ h, fs f = some h ∧ h.data.nrows = r ∧ h.data.cols = c

/-- The two files fit the network: neurons × neurons and neurons × outputs. -/
def FilesFit (fs : Files K) (n : NNet K) (fHH fHT : String) : Prop :=
  Holds fs fHH (size n) (size n) ∧ Holds fs fHT (size n) n.outputs

/-- The files a call may leave behind: every file is as it was, or was missing and is one of the two named ones, holding a matrix without
any data in it (the regularisation on the diagonal, or zeros). -/
def AsGoodAsBefore (fs fs' : Files K) (n : NNet K) (fHH fHT : String) : Prop :=
  ∀ g, fs' g = fs g ∨ (fs g = none ∧ g = fHH ∧ fs' g = some ⟨Mat.diag (size n) n.norm, none, none⟩) ∨
    (fs g = none ∧ g = fHT ∧ fs' g = some ⟨Mat.zeros (size n) n.outputs, none, none⟩)

/-- The two descriptions of the call agree. -/
theorem C111_agrees (env : Env K) (fs fs' : Files K) (e : ELM K) (fX fT : DataArg K) (istart : Int) (icount : Option Int) (fHH fHT : String) :
    (∀ e', e.hAddData env fs fX fT istart icount (some fHH) (some fHT) = .ok (e', fs') ↔
      e.hAddDataS env fs fX fT istart icount fHH fHT = (fs', .ok e')) ∧
    ∀ x, e.hAddData env fs fX fT istart icount (some fHH) (some fHT) = .error x ↔
      (e.hAddDataS env fs fX fT istart icount fHH fHT).2 = .error x := by
  unfold ELM.hAddData ELM.hAddDataS
  cases h0 : pyAssert (!e.nnet.neurons.isEmpty) with
  | error y => simp [bind, Except.bind]
  | ok u =>
  cases h1 : checkBoth fs e.nnet fX fT with
  | error y => simp [bind, Except.bind]
  | ok XT =>
  obtain ⟨X, T⟩ := XT
  simp only [bind, Except.bind, prepareFHH, prepareFHHS]
  cases h2 : prepareFile fs fHH (e.nnet.reset.L.getD 0) (e.nnet.reset.L.getD 0) (Mat.diag (e.nnet.reset.L.getD 0) e.nnet.reset.norm) with
  | error y => simp
  | ok fs1 =>
  simp only
  cases h3 : prepareFile fs1 fHT (e.nnet.reset.L.getD 0) e.nnet.reset.outputs (Mat.zeros (e.nnet.reset.L.getD 0) e.nnet.reset.outputs) with
  | error y => simp
  | ok fs2 =>
  simp only [pure, Except.pure, ELM.hFeed, bind, Except.bind]
  cases h4 : hBatches e.batch istart (rangeCount X.nrows istart icount) with
  | error y => simp
  | ok bs =>
  simp only
  cases h5 : ELM.feed env X.cols T.cols (cutBatches X T bs)
      (({ e with nnet := e.nnet.reset } : ELM K).autoWc env (batchColSums e.nnet.reset.outputs T bs)) with
  | error y => simp
  | ok e2 =>
  simp only [ELM.storeCorr, ELM.storeCorrS, writeFHH, bind, Except.bind]
  cases h6 : e2.nnet.getCorr! with
  | error y => simp
  | ok c =>
  obtain ⟨HH, HT⟩ := c
  simp only
  cases h7 : addToFile fs2 fHH (subDiag HH e2.nnet.norm) with
  | error y => simp
  | ok fs3 =>
  simp only
  cases h8 : addToFile fs3 fHT HT with
  | error y => simp
  | ok fs4 =>
  simp only [pure, Except.pure]
  constructor
  · intro e'
    constructor
    · intro h
      injection h with h
      injection h with ha hb
      rw [ha, hb]
    · intro h
      injection h with ha hb
      injection hb with hb
      rw [ha, hb]
  · intro x
    simp

theorem reset_size {n : NNet K} : n.reset.L.getD 0 = size n := rfl

theorem readCorr_iff {fs : Files K} {f : String} {M : Mat K} : readCorr fs f = .ok M ↔ ∃ h, fs f = some h ∧ h.data = M ∧ M.nrows ≠ 0 := by
  unfold readCorr
  cases hf : fs f with
  | none => simp
  | some d =>
    simp only
    by_cases h0 : d.data.nrows = 0
    · rw [if_pos h0]
      constructor
      · intro h; cases h
      · rintro ⟨h, h1, h2, h3⟩
        injection h1 with h1
        subst h1 h2
        exact absurd h0 h3
    · rw [if_neg h0]
      constructor
      · intro h
        injection h with h
        exact ⟨d, rfl, h, h ▸ h0⟩
      · rintro ⟨h, h1, h2, h3⟩
        injection h1 with h1
        subst h1 h2
        rfl

/-- Which files pass the checks of `_checkcorr`. -/
theorem checkCorr_iff {fs : Files K} {n : NNet K} (hc : Consistent n) {fHH fHT : String} :
    (∃ c, checkCorr fs n fHH fHT = .ok c) ↔ 0 < size n ∧ FilesFit fs n fHH fHT := by
  constructor
  · rintro ⟨⟨HH, HT⟩, h⟩
    unfold checkCorr at h
    obtain ⟨A, h1, h⟩ := bind_ok h
    obtain ⟨C, h2, h⟩ := bind_ok h
    obtain ⟨_, h3, h⟩ := bind_ok h
    obtain ⟨_, h4, h⟩ := bind_ok h
    obtain ⟨_, h5, h⟩ := bind_ok h
    have h3 := pyAssert_ok h3
    have h4 := pyAssert_ok h4
    have h5 := pyAssert_ok h5
    simp only [decide_eq_true_eq] at h4 h5
    obtain ⟨d, d1, d2, d3⟩ := readCorr_iff.mp h1
    obtain ⟨b, b1, b2, b3⟩ := readCorr_iff.mp h2
    have hL : n.L = some (size n) := by
      rcases hc.count with h | ⟨_, h⟩
      · exact h
      · rw [h] at h3; simp at h3
    rw [hL] at h4 h5
    simp only [Option.some.injEq] at h4 h5
    refine ⟨by omega, ⟨d, d1, ?_, ?_⟩, ⟨b, b1, ?_, ?_⟩⟩
    · rw [d2]; exact h4.1
    · rw [d2]; exact h4.2
    · rw [b2]; exact h5.1
    · rw [b2]; exact h5.2
  · rintro ⟨h0, ⟨d, d1, d2, d3⟩, ⟨b, b1, b2, b3⟩⟩
    have hnn : n.neurons ≠ [] := by
      intro h
      unfold size at h0
      rw [h] at h0
      simp at h0
    have hL : n.L = some (size n) := by
      rcases hc.count with h | ⟨_, h⟩
      · exact h
      · exact absurd h hnn
    have r1 : readCorr fs fHH = .ok d.data := readCorr_iff.mpr ⟨d, d1, rfl, by omega⟩
    have r2 : readCorr fs fHT = .ok b.data := readCorr_iff.mpr ⟨b, b1, rfl, by omega⟩
    refine ⟨(d.data, b.data), ?_⟩
    unfold checkCorr pyAssert
    simp [r1, r2, bind, Except.bind, hnn, pure, Except.pure, d2, d3, b2, b3, hL]

/-- C111, acceptance: `solve_corr` works exactly when the network has neurons and both files hold arrays of the right shape. -/
theorem C111_solve (env : Env K) (hl : Shapes env) (fs : Files K) (hw : FilesWF fs) (e : ELM K) (hc : Consistent e.nnet) (fHH fHT : String) :
    (∃ e', e.hSolveCorr env fs fHH fHT = .ok e') ↔ 0 < size e.nnet ∧ FilesFit fs e.nnet fHH fHT := by
  rw [← checkCorr_iff hc]
  constructor
  · rintro ⟨e', h⟩
    unfold ELM.hSolveCorr at h
    obtain ⟨c, h1, _⟩ := bind_ok h
    exact ⟨c, h1⟩
  · rintro ⟨⟨HH, HT⟩, h⟩
    obtain ⟨w1, w2, w3, w4, w5, w6⟩ := checkCorr_shape hw h
    have e1 : HH.nrows = HH.cols := by rw [← w3] at w4; injection w4 with w4; exact w4.symm
    have e2 : HT.nrows = HH.nrows := by rw [← w3] at w5; injection w5 with w5
    obtain ⟨_, b1, b2⟩ := solveCorr_shape hl e.nnet w1 w2 e1 e2
    have hset : e.nnet.setB env (e.nnet.solveCorr env HH HT) =
        .ok { e.nnet with B := some ((e.nnet.solveCorr env HH HT).map (env.cast e.nnet.prec)) } := by
      unfold NNet.setB pyAssert
      rw [b1, b2, w4, w6]
      simp [bind, Except.bind, pure, Except.pure]
    unfold ELM.hSolveCorr
    simp only [h, bind, Except.bind, hset, pure, Except.pure]
    exact ⟨_, rfl⟩

/-- C111, acceptance: `validation_corr` works only with files of the right shape. -/
theorem C111_validation (env : Env K) (fs : Files K) (e : ELM K) (hc : Consistent e.nnet) (fHH fHT : String) (fXv fTv : DataArg K) (Ls : List Nat)
    (r : ELM K × List (Option K) × List (Mat K)) (h : e.validationCorr env fs fHH fHT fXv fTv Ls = .ok r) :
    0 < size e.nnet ∧ FilesFit fs e.nnet fHH fHT := by
  unfold ELM.validationCorr at h
  obtain ⟨⟨X, T⟩, _, h⟩ := bind_ok h
  obtain ⟨c, h1, _⟩ := bind_ok h
  exact (checkCorr_iff hc).mp ⟨c, h1⟩

/-- What `_prepare_fHH` leaves. -/
theorem prepareFHHS_good {fs fs1 : Files K} {n : NNet K} {fHH fHT : String} (hne : fHH ≠ fHT) {r : Except PyErr (NNet K)}
    (h : prepareFHHS fs fHH fHT n = (fs1, r)) :
    AsGoodAsBefore fs fs1 n fHH fHT ∧ (∀ n', r = .ok n' → n' = n.reset ∧ FilesFit fs1 n fHH fHT ∧
      (∀ d, fs fHH = some d → d.data.nrows = size n ∧ d.data.cols = size n) ∧
      (∀ d, fs fHT = some d → d.data.nrows = size n ∧ d.data.cols = n.outputs)) := by
  unfold prepareFHHS at h
  simp only [reset_size] at h
  split at h
  · injection h with h1 h2
    subst h1 h2
    exact ⟨fun g => .inl rfl, fun n' h => by cases h⟩
  · rename_i fsa ha
    obtain ⟨a1, a2⟩ := prepareFile_ok ha
    have ga : AsGoodAsBefore fs fsa n fHH fHT := by
      intro g
      by_cases hg : g = fHH
      · subst hg
        rcases a2 with ⟨d, p1, _, _, p4⟩ | ⟨p1, p2⟩
        · exact .inl (p4.trans p1.symm)
        · exact .inr (.inl ⟨p1, rfl, p2⟩)
      · exact .inl (a1 g hg)
    split at h
    · injection h with h1 h2
      subst h1 h2
      exact ⟨ga, fun n' h => by cases h⟩
    · rename_i fsb hb
      obtain ⟨b1, b2⟩ := prepareFile_ok hb
      injection h with h1 h2
      subst h1 h2
      refine ⟨?_, ?_⟩
      · intro g
        by_cases hg : g = fHT
        · subst hg
          rw [a1 _ (Ne.symm hne)] at b2
          rcases b2 with ⟨d, p1, _, _, p4⟩ | ⟨p1, p2⟩
          · exact .inl (p4.trans p1.symm)
          · exact .inr (.inr ⟨p1, rfl, p2⟩)
        · rw [b1 g hg]
          exact ga g
      · intro n' hn
        injection hn with hn
        refine ⟨hn.symm, ⟨?_, ?_⟩, ?_, ?_⟩
        · rcases a2 with ⟨d, p1, p2, p3, p4⟩ | ⟨p1, p2⟩
          · exact ⟨d, (b1 _ hne).trans p4, p2, p3⟩
          · exact ⟨_, (b1 _ hne).trans p2, Mat.ofFn_nrows _ _ _, rfl⟩
        · rcases b2 with ⟨d, p1, p2, p3, p4⟩ | ⟨p1, p2⟩
          · exact ⟨d, p4, p2, p3⟩
          · exact ⟨_, p2, Mat.ofFn_nrows _ _ _, rfl⟩
        · intro d hd
          rcases a2 with ⟨d', p1, p2, p3, p4⟩ | ⟨p1, p2⟩
          · rw [p1] at hd; injection hd with hd; subst hd; exact ⟨p2, p3⟩
          · rw [p1] at hd; cases hd
        · intro d hd
          rw [a1 _ (Ne.symm hne)] at b2
          rcases b2 with ⟨d', p1, p2, p3, p4⟩ | ⟨p1, p2⟩
          · rw [p1] at hd; injection hd with hd; subst hd; exact ⟨p2, p3⟩
          · rw [p1] at hd; cases hd

theorem addToFile_total {fs : Files K} {f : String} {M : Mat K} (h : Holds fs f M.nrows M.cols) : ∃ fs', addToFile fs f M = .ok fs' := by
  obtain ⟨d, h1, h2, h3⟩ := h
  unfold addToFile
  rw [h1]
  simp only [h2, h3, and_self, if_true]
  exact ⟨_, rfl⟩

/-- Writing the matrices works whenever there are any. -/
theorem storeCorrS_total {e : ELM K} {fs : Files K} {fHH fHT : String} (hne : fHH ≠ fHT) (hc : Consistent e.nnet)
    (hf : FilesFit fs e.nnet fHH fHT) : (∃ x, e.storeCorrS fs fHH fHT = (fs, .error x)) ∨
      ∃ fs' e', e.storeCorrS fs fHH fHT = (fs', .ok e') ∧ FilesFit fs' e.nnet fHH fHT := by
  unfold ELM.storeCorrS
  cases h6 : e.nnet.getCorr! with
  | error y => exact .inl ⟨y, rfl⟩
  | ok c =>
    obtain ⟨HH, HT⟩ := c
    right
    obtain ⟨w1, w2, w3, w4, w5, w6⟩ := getCorr!_shape hc h6
    have hL : e.nnet.L = some (size e.nnet) := by
      rcases hc.count with h | ⟨h, _⟩
      · exact h
      · rw [h] at w3; cases w3
    rw [hL] at w3 w4 w5
    injection w3 with w3
    injection w4 with w4
    injection w5 with w5
    obtain ⟨d, d1, d2, d3⟩ := hf.1
    obtain ⟨b, b1, b2, b3⟩ := hf.2
    have n1 : (subDiag HH e.nnet.norm).nrows = size e.nnet := (Mat.ofFn_nrows _ _ _).trans w3
    have n2 : (subDiag HH e.nnet.norm).cols = size e.nnet := w4
    obtain ⟨fs1, k1⟩ := addToFile_total (fs := fs) (f := fHH) (M := subDiag HH e.nnet.norm) ⟨d, d1, by rw [n1, d2], by rw [n2, d3]⟩
    obtain ⟨c1, dc, c2, c3, c4, c5⟩ := addToFile_ok k1
    obtain ⟨fs2, k2⟩ := addToFile_total (fs := fs1) (f := fHT) (M := HT) ⟨b, (c1 _ (Ne.symm hne)).trans b1, by rw [b2, w5], by rw [b3, w6]⟩
    obtain ⟨e1, de, e2, e3, e4, e5⟩ := addToFile_ok k2
    refine ⟨fs2, { e with nnet := if e.nnet.solver = .basic then { e.nnet with corr := some (subDiag HH e.nnet.norm, HT) } else e.nnet }, ?_, ?_, ?_⟩
    · simp only [k1, k2]
    · refine ⟨_, (e1 _ hne).trans c5, ?_, ?_⟩
      · exact (Mat.ofFn_nrows _ _ _).trans (c3.trans n1)
      · exact c4.trans n2
    · refine ⟨_, e5, ?_, ?_⟩
      · exact (Mat.ofFn_nrows _ _ _).trans (e3.trans w5)
      · exact e4.trans w6

/-- The state of the network does not matter for the shape of its files. -/
theorem hFeed_shape {env : Env K} {e e' : ELM K} {X T : Mat K} {istart : Int} {icount : Option Int} (hc : Consistent e.nnet)
    (h : e.hFeed env X T istart icount = .ok e') :
    Consistent e'.nnet ∧ size e'.nnet = size e.nnet ∧ e'.nnet.outputs = e.nnet.outputs := by
  unfold ELM.hFeed at h
  obtain ⟨bs, _, h⟩ := bind_ok h
  obtain ⟨c, k⟩ := feed_fields _ h
  have k0 := autoWc_nnet env e (batchColSums e.nnet.outputs T bs)
  refine ⟨feed_consistent _ (by rw [k0]; exact hc) h, ?_, ?_⟩
  · rw [k]
    unfold size
    simp only [k0]
  · rw [k]
    simp only [k0]

/-- C111, acceptance: `add_data` works only if the named files, where they exist, have the right shape; afterwards both exist and have it. -/
theorem C111_add_data (env : Env K) (fs fs' : Files K) (e e' : ELM K) (hc : Consistent e.nnet) (fX fT : DataArg K) (istart : Int)
    (icount : Option Int) (fHH fHT : String) (hne : fHH ≠ fHT)
    (h : e.hAddData env fs fX fT istart icount (some fHH) (some fHT) = .ok (e', fs')) :
    (∀ d, fs fHH = some d → d.data.nrows = size e.nnet ∧ d.data.cols = size e.nnet) ∧
    (∀ d, fs fHT = some d → d.data.nrows = size e.nnet ∧ d.data.cols = e.nnet.outputs) ∧ FilesFit fs' e.nnet fHH fHT := by
  have h := ((C111_agrees env fs fs' e fX fT istart icount fHH fHT).1 e').mp h
  unfold ELM.hAddDataS at h
  split at h
  · injection h with _ h; cases h
  · split at h
    · injection h with _ h; cases h
    · rename_i fs1 n hp
      obtain ⟨_, g2⟩ := prepareFHHS_good hne hp
      obtain ⟨rfl, g3, g4, g5⟩ := g2 _ rfl
      refine ⟨g4, g5, ?_⟩
      split at h
      · injection h with _ h; cases h
      · rename_i e2 hf
        obtain ⟨q1, q2, q3⟩ := hFeed_shape (reset_consistent hc) hf
        have g6 : FilesFit fs1 e2.nnet fHH fHT := by
          unfold FilesFit
          rw [q2, q3]
          exact g3
        rcases storeCorrS_total hne q1 g6 with ⟨x, k⟩ | ⟨fs2, e3, k, k2⟩
        · rw [k] at h; injection h with _ h; cases h
        · rw [k] at h
          injection h with h1 _
          subst h1
          unfold FilesFit at k2
          rw [q2, q3] at k2
          exact k2

/-- C111, the part that holds: an `add_data` call that raises leaves every file that existed as it was, and at most makes the two named files,
without any data in them.

Missing for the full property: a rejected call can make a file (`C111_created_refuted`), from which `solve_corr` then solves without any
training data (`C111_untrained_refuted`). -/
theorem C111_rejected_partial (env : Env K) (fs fs' : Files K) (e : ELM K) (hc : Consistent e.nnet) (fX fT : DataArg K) (istart : Int)
    (icount : Option Int) (fHH fHT : String) (hne : fHH ≠ fHT) (x : PyErr)
    (h : e.hAddDataS env fs fX fT istart icount fHH fHT = (fs', .error x)) : AsGoodAsBefore fs fs' e.nnet fHH fHT := by
  unfold ELM.hAddDataS at h
  split at h
  · injection h with h _
    subst h
    exact fun g => .inl rfl
  · split at h
    · rename_i fs1 y hp
      injection h with h _
      subst h
      exact (prepareFHHS_good hne hp).1
    · rename_i fs1 n hp
      obtain ⟨g1, g2⟩ := prepareFHHS_good hne hp
      obtain ⟨rfl, g3, -, -⟩ := g2 _ rfl
      split at h
      · injection h with h _
        subst h
        exact g1
      · rename_i e2 hf
        obtain ⟨q1, q2, q3⟩ := hFeed_shape (reset_consistent hc) hf
        have g6 : FilesFit fs1 e2.nnet fHH fHT := by
          unfold FilesFit
          rw [q2, q3]
          exact g3
        rcases storeCorrS_total hne q1 g6 with ⟨x, k⟩ | ⟨fs2, e3, k, k2⟩
        · rw [k] at h
          injection h with h _
          subst h
          exact g1
        · rw [k] at h
          injection h with _ h
          cases h

theorem prepareFile_again {fs fs' : Files K} {f : String} {r c : Nat} {fresh : Mat K} (hr : 0 < r) (hc : 0 < c) (h1 : fresh.nrows = r) (h2 : fresh.cols = c)
    (h : fs' f = fs f ∨ (fs f = none ∧ fs' f = some ⟨fresh, none, none⟩)) :
    (∃ x, prepareFile fs' f r c fresh = .error x ∧ prepareFile fs f r c fresh = .error x) ∨
      ∃ a' a, prepareFile fs' f r c fresh = .ok a' ∧ prepareFile fs f r c fresh = .ok a ∧ a' f = a f ∧ ∀ g, g ≠ f → a' g = fs' g ∧ a g = fs g := by
  have hrc : ¬ (r = 0 ∨ c = 0) := by omega
  unfold prepareFile pyAssert
  rcases h with h | ⟨h3, h4⟩
  · rw [h]
    cases hf : fs f with
    | none =>
      simp only [if_neg hrc]
      exact .inr ⟨_, _, rfl, rfl, by simp, fun g hg => ⟨if_neg hg, if_neg hg⟩⟩
    | some d =>
      simp only
      by_cases hd : d.data.nrows = r ∧ d.data.cols = c
      · simp only [hd, and_self, decide_true, if_true, bind, Except.bind, pure, Except.pure]
        exact .inr ⟨_, _, rfl, rfl, h, fun g _ => ⟨rfl, rfl⟩⟩
      · simp only [hd, decide_false, bind, Except.bind]
        exact .inl ⟨_, rfl, rfl⟩
  · rw [h3, h4]
    simp only [h1, h2, and_self, decide_true, if_true, bind, Except.bind, pure, Except.pure, if_neg hrc]
    exact .inr ⟨_, _, rfl, rfl, by rw [h4]; simp, fun g hg => ⟨rfl, if_neg hg⟩⟩

theorem checkOne_congr {fs fs' : Files K} {c : Nat} {a : DataArg K} (h : ∀ f, a = .path f → fs' f = fs f) : checkOne fs' c a = checkOne fs c a := by
  unfold checkOne
  cases a with
  | path f => simp only [h f rfl]
  | _ => rfl

theorem checkBoth_congr {fs fs' : Files K} {n : NNet K} {a b : DataArg K} (ha : ∀ f, a = .path f → fs' f = fs f) (hb : ∀ f, b = .path f → fs' f = fs f) :
    checkBoth fs' n a b = checkBoth fs n a b := by
  unfold checkBoth checkData
  rw [checkOne_congr ha, checkOne_congr hb]

/-- C111, trying again: after a rejected call, `add_data` with the same two files, by any model of the same size, with any data that is not in these
files, does what it would have done had the rejected call not been made, to the model and to the files. -/
theorem C111_retry (env : Env K) (fs fs' : Files K) (e e2 : ELM K) (hc : Consistent e.nnet) (fX fT : DataArg K) (istart : Int)
    (icount : Option Int) (fHH fHT : String) (hne : fHH ≠ fHT) (x : PyErr)
    (h : e.hAddDataS env fs fX fT istart icount fHH fHT = (fs', .error x))
    (hs : size e2.nnet = size e.nnet) (hn : e2.nnet.norm = e.nnet.norm) (ho : e2.nnet.outputs = e.nnet.outputs)
    (hs0 : 0 < size e.nnet) (ho0 : 0 < e.nnet.outputs)
    (gX gT : DataArg K) (hX : ∀ f, gX = .path f → f ≠ fHH ∧ f ≠ fHT) (hT : ∀ f, gT = .path f → f ≠ fHH ∧ f ≠ fHT)
    (jstart : Int) (jcount : Option Int) :
    e2.hAddData env fs' gX gT jstart jcount (some fHH) (some fHT) = e2.hAddData env fs gX gT jstart jcount (some fHH) (some fHT) := by
  have hg := C111_rejected_partial env fs fs' e hc fX fT istart icount fHH fHT hne x h
  have hother : ∀ g, g ≠ fHH → g ≠ fHT → fs' g = fs g := by
    intro g h1 h2
    rcases hg g with k | ⟨_, k, _⟩ | ⟨_, k, _⟩
    · exact k
    · exact absurd k h1
    · exact absurd k h2
  have hHH : fs' fHH = fs fHH ∨ (fs fHH = none ∧ fs' fHH = some ⟨Mat.diag (size e2.nnet) e2.nnet.norm, none, none⟩) := by
    rw [hs, hn]
    rcases hg fHH with k | ⟨k1, _, k2⟩ | ⟨_, k, _⟩
    · exact .inl k
    · exact .inr ⟨k1, k2⟩
    · exact absurd k hne
  have hHT : fs' fHT = fs fHT ∨ (fs fHT = none ∧ fs' fHT = some ⟨Mat.zeros (size e2.nnet) e2.nnet.outputs, none, none⟩) := by
    rw [hs, ho]
    rcases hg fHT with k | ⟨_, k, _⟩ | ⟨k1, _, k2⟩
    · exact .inl k
    · exact absurd k.symm hne
    · exact .inr ⟨k1, k2⟩
  have key : prepareFHH fs' (some fHH) (some fHT) e2.nnet = prepareFHH fs (some fHH) (some fHT) e2.nnet := by
    unfold prepareFHH
    have r1 : e2.nnet.reset.norm = e2.nnet.norm := rfl
    have r2 : e2.nnet.reset.outputs = e2.nnet.outputs := rfl
    simp only [reset_size, r1, r2]
    rcases prepareFile_again (fresh := Mat.diag (size e2.nnet) e2.nnet.norm) (r := size e2.nnet) (c := size e2.nnet) (by omega) (by omega) (Mat.ofFn_nrows _ _ _) rfl hHH with
      ⟨y, k1, k2⟩ | ⟨a', a, k1, k2, k3, k4⟩
    · rw [k1, k2]
    · rw [k1, k2]
      simp only [bind, Except.bind]
      have hHT' : a' fHT = a fHT ∨ (a fHT = none ∧ a' fHT = some ⟨Mat.zeros (size e2.nnet) e2.nnet.outputs, none, none⟩) := by
        rw [(k4 _ (Ne.symm hne)).1, (k4 _ (Ne.symm hne)).2]
        exact hHT
      rcases prepareFile_again (fresh := Mat.zeros (size e2.nnet) e2.nnet.outputs) (r := size e2.nnet) (c := e2.nnet.outputs) (by omega) (by omega) (Mat.ofFn_nrows _ _ _) rfl hHT' with
        ⟨y, l1, l2⟩ | ⟨b', b, l1, l2, l3, l4⟩
      · rw [l1, l2]
      · rw [l1, l2]
        have : b' = b := by
          funext g
          by_cases h1 : g = fHT
          · rw [h1]; exact l3
          · rw [(l4 g h1).1, (l4 g h1).2]
            by_cases h2 : g = fHH
            · rw [h2]; exact k3
            · rw [(k4 g h2).1, (k4 g h2).2]
              exact hother g h2 h1
        rw [this]
  unfold ELM.hAddData
  rw [checkBoth_congr (fun f hf => hother f (hX f hf).1 (hX f hf).2) (fun f hf => hother f (hT f hf).1 (hT f hf).2), key]

/-- A file `"ht"` that does not fit a network with two neurons and one output. -/
def wrongFiles : Files ℚ := fun g => if g = "ht" then some ⟨⟨1, [[1], [2], [3]]⟩, none, none⟩ else none

/-- C111 is false for files that are missing: the call is rejected because of the second file, but has already made the first. -/
theorem C111_created_refuted : ∃ (e : ELM ℚ) (fs fs' : Files ℚ) (X T : Mat ℚ),
    e.hAddDataS QEnv.env fs (.mat X) (.mat T) 0 none "hh" "ht" = (fs', .error .assertion) ∧
    fs "hh" = none ∧ (fs' "hh").map (·.data) = some (Mat.diag 2 e.nnet.norm) := by
  refine ⟨exModel 1 2 none none, wrongFiles, (ELM.hAddDataS QEnv.env wrongFiles (exModel 1 2 none none) (.mat ⟨2, [[1, 0], [0, 1]]⟩) (.mat ⟨1, [[3], [2]]⟩) 0 none "hh" "ht").1,
    ⟨2, [[1, 0], [0, 1]]⟩, ⟨1, [[3], [2]]⟩, Prod.ext rfl ?_, rfl, ?_⟩
  · decide +kernel
  · decide +kernel

/-- C111: after a call that was rejected because its range of samples is empty, `solve_corr` does not complain about missing data.  The "trained"
model predicts zero. -/
theorem C111_untrained_refuted : ∃ (e : ELM ℚ) (fs' : Files ℚ) (X T : Mat ℚ) (x : PyErr),
    e.hAddDataS QEnv.env (fun _ => none) (.mat X) (.mat T) 2 none "hh" "ht" = (fs', .error x) ∧
    (e.hSolveCorr QEnv.env fs' "hh" "ht").map (·.nnet.B) = .ok (some ⟨1, [[0], [0]]⟩) := by
  refine ⟨exModel 1 2 none none, (ELM.hAddDataS QEnv.env (fun _ => none) (exModel 1 2 none none) (.mat ⟨2, [[1, 0], [0, 1]]⟩) (.mat ⟨1, [[3], [2]]⟩) 2 none "hh" "ht").1,
    ⟨2, [[1, 0], [0, 1]]⟩, ⟨1, [[3], [2]]⟩, .typeError, Prod.ext rfl ?_, ?_⟩
  · decide +kernel
  · decide +kernel

/-- The hypotheses of `C111_retry` are met: rejected for an empty range, then called with data; the result is that of the second call alone. -/
example : ((ELM.hAddDataS QEnv.env (fun _ => none) (exModel 1 2 none none) (.mat ⟨2, [[1, 0], [0, 1]]⟩) (.mat ⟨1, [[3], [2]]⟩) 2 none "hh" "ht").2 = .error .typeError) ∧
    ((exModel 1 2 none none).hAddData QEnv.env (ELM.hAddDataS QEnv.env (fun _ => none) (exModel 1 2 none none) (.mat ⟨2, [[1, 0], [0, 1]]⟩)
      (.mat ⟨1, [[3], [2]]⟩) 2 none "hh" "ht").1 (.mat ⟨2, [[1, 0], [0, 1]]⟩) (.mat ⟨1, [[3], [2]]⟩) 0 none (some "hh") (some "ht")).map
        (fun r => ((r.2 "hh").map (·.data), (r.2 "ht").map (·.data))) = .ok (some ⟨2, [[2, 0], [0, 2]]⟩, some ⟨1, [[3], [2]]⟩) := by
  decide +kernel

/-- The condition of `C111_solve` is met by the files of a successful call, and not by a file of another size. -/
example : (((exModel 1 2 none none).hAddData QEnv.env (fun _ => none) (.mat ⟨2, [[1, 0], [0, 1]]⟩) (.mat ⟨1, [[3], [2]]⟩) 0 none (some "hh") (some "ht")) >>=
      fun r => (exModel 1 2 none none).hSolveCorr QEnv.env r.2 "hh" "ht").map (·.nnet.B) = .ok (some ⟨1, [[3/2], [1]]⟩) ∧
    ((exModel 1 2 none none).hSolveCorr QEnv.env wrongFiles "ht" "ht").map (·.nnet.B) = .error .assertion := by
  decide +kernel

end Hpelm.Props
