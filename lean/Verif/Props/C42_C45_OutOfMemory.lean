import Verif.Lemmas.HRange
import Verif.Lemmas.DataArgs
import Verif.Lemmas.Plain
import Verif.Spec.Network
import Verif.Props.C09_C13_Batches

/-!
# C42–C45 — HPELM: ranges of samples, training, prediction and projection out of memory

`samplesIn M istart icount` (Spec/DataArgs.lean) are the samples `istart .. min(istart+icount, N)-1`.
-/

namespace Hpelm.Props
open Hpelm Spec
variable {K : Type} [Field K] [LinearOrder K]
set_option linter.unusedSectionVars false

theorem checkBoth_reads {fs : Files K} {n : NNet K} {fX fT : DataArg K} {X T : Mat K} (hX : Reads fs fX (some X)) (hT : Reads fs fT (some T))
    (hXc : X.cols = n.inputs) (hTc : T.cols = n.outputs) (hN : X.nrows = T.nrows) : checkBoth fs n fX fT = .ok (X, T) := by
  have h1 := (checkOne_iff fs n.inputs fX (some X)).2 ⟨hX, by rintro M ⟨⟩; exact hXc⟩
  have h2 := (checkOne_iff fs n.outputs fT (some T)).2 ⟨hT, by rintro M ⟨⟩; exact hTc⟩
  unfold checkBoth checkData pyAssert
  simp [h1, h2, hN, bind, Except.bind, pure, Except.pure]

/-! ## C42 ranges -/

/-- C42.  `add_data` with `istart` and `icount` makes a sequence of `add_batch` calls on samples paired with their targets, which put
together are exactly the samples of the range, in order; no batch is empty or larger than the batch size.  Automatic class weights are
those of the range.  This includes ranges reaching past the end of the data and empty ranges. -/
theorem C42_ranges (env : Env K) (fs : Files K) (e : ELM K) (fX fT : DataArg K) (X T : Mat K) (istart : Nat) (icount : Option Nat)
    (hb : 0 < e.batch) (hne : e.nnet.neurons ≠ []) (hX : Reads fs fX (some X)) (hT : Reads fs fT (some T)) (hXc : X.cols = e.nnet.inputs)
    (hTc : T.cols = e.nnet.outputs) (hN : X.nrows = T.nrows) :
    ∃ bs : List (Mat K × Mat K),
      e.hAddData env fs fX fT istart (icount.map (↑)) none none =
        (bs.foldlM (init := e.autoWc env (colSums (samplesIn T istart icount))) (fun (e : ELM K) (b : Mat K × Mat K) => do
          let w ← batchWeights e.classification e.wc b.2
          let n ← e.nnet.addBatch env b.1 b.2 w
          pure { e with nnet := n })).map (fun e => (e, fs)) ∧
      bs.flatMap (·.1.rows) = (samplesIn X istart icount).rows ∧ bs.flatMap (·.2.rows) = (samplesIn T istart icount).rows ∧
      (∀ b ∈ bs, b.1.cols = X.cols ∧ b.2.cols = T.cols ∧ b.1.nrows = b.2.nrows ∧ 0 < b.1.nrows ∧ (b.1.nrows : Int) ≤ e.batch) := by
  have hc := checkBoth_reads hX hT hXc hTc hN
  obtain ⟨bs, h1, h2, h3, h4⟩ := range_batches hb X.nrows istart icount
  have hT : T.rows.length = X.nrows := hN.symm
  refine ⟨(cutBatches X T bs).map fun p => (⟨X.cols, p.1⟩, ⟨T.cols, p.2⟩), ?_, ?_, ?_, ?_⟩
  · rw [hAddData_feed istart icount hne hc hTc h1 (h2 _ _ hT), feed_foldlM]
  · rw [List.flatMap_map, samplesIn_rowsIn]
    exact (cutBatches_flat X T bs).1.trans (h2 _ _ rfl)
  · rw [List.flatMap_map, samplesIn_rowsIn]
    exact (cutBatches_flat X T bs).2.trans (h2 _ _ hT)
  · intro b hbm
    obtain ⟨p, hp, rfl⟩ := List.mem_map.1 hbm
    obtain ⟨c, hcm, rfl⟩ := List.mem_map.1 hp
    obtain ⟨a1, a2, a3, a4, a5⟩ := h3 c hcm
    have l1 := pySlice_length X.rows (a := c.1) (b := c.2) (by omega) (by omega) (by exact a4)
    have l2 := pySlice_length T.rows (a := c.1) (b := c.2) (by omega) (by omega) (by omega)
    simp only [Mat.nrows_mk]
    refine ⟨trivial, trivial, by omega, by omega, by omega⟩

/-- A range in the middle of four samples, read from files. -/
example : ((exModel 1 2 none none).hAddData QEnv.env
      (fun f => if f = "x" then some ⟨⟨2, [[5, 5], [1, 0], [0, 1], [2, 3]]⟩, none, none⟩
        else if f = "t" then some ⟨⟨1, [[9], [1], [2], [3]]⟩, none, none⟩ else none) (.path "x") (.path "t") 1 (some 7) none none).map
      (·.1.nnet.corr) = .ok (some (⟨2, [[6, 6], [0, 11]]⟩, ⟨1, [[7], [11]]⟩)) := by decide +kernel

/-! ## C43 training -/

/-- C43.  Training out of memory on a non-empty range does exactly what in-memory training on those samples does: the same outcome and
the same object afterwards (in exact arithmetic; for weighted classification the targets of the range must be one-hot). -/
theorem C43_train [IsStrictOrderedRing K] (env : Env K) (hx : env.Exact) (fs : Files K) (rnd : Rnd) (e : ELM K) (fX fT : DataArg K)
    (X T : Mat K) (args : List String) (kw : Kwargs K) (istart : Nat) (icount : Option Nat)
    (hs : kw.istart = some (istart : Int) ∨ (kw.istart = none ∧ istart = 0)) (hi : kw.icount = icount.map (↑))
    (hv : "V" ∉ args) (hcv : "CV" ∉ args) (hl : "LOO" ∉ args) (hb : 0 < kw.batch.getD e.batch)
    (hX : Reads fs fX (some X)) (hT : Reads fs fT (some T)) (hXc : X.cols = e.nnet.inputs) (hTc : T.cols = e.nnet.outputs)
    (hN : X.nrows = T.nrows) (hn : 0 < (samplesIn X istart icount).nrows)
    (hhot : Given args "WC" → OneHot (samplesIn T istart icount)) :
    let r := e.train env fs rnd (.mat (samplesIn X istart icount)) (.mat (samplesIn T istart icount)) args kw
    e.hTrain env fs fX fT args kw = (r.1.map fun _ => (), r.2) := by
  intro r
  have hc := checkBoth_reads hX hT hXc hTc hN
  have hNs : (samplesIn X istart icount).nrows = (samplesIn T istart icount).nrows := by
    rw [samplesIn_rowsIn, samplesIn_rowsIn]
    exact rowsIn_length_congr hN _ _
  have hcols : (samplesIn X istart icount).cols = e.nnet.inputs ∧ (samplesIn T istart icount).cols = e.nnet.outputs := by
    rw [samplesIn_rowsIn, samplesIn_rowsIn]
    exact ⟨hXc, hTc⟩
  have hcs := checkBoth_reads (fs := fs) (.mat (samplesIn X istart icount)) (.mat (samplesIn T istart icount)) hcols.1 hcols.2 hNs
  have hr : r = e.train env fs rnd (.mat (samplesIn X istart icount)) (.mat (samplesIn T istart icount)) args kw := rfl
  unfold ELM.train at hr
  rw [hcs] at hr
  unfold ELM.hTrain
  rw [hc]
  simp only at hr ⊢
  rcases hp : e.parseArgs args kw with ⟨e1, (x | u)⟩
  · rw [hp] at hr
    rw [hr]
    rfl
  · rw [hp] at hr
    simp only at hr ⊢
    obtain ⟨q1, q2, q3, q4, q5⟩ := parseArgs_kw hp
    obtain ⟨w1, w2⟩ := parseArgs_wc hp
    have hhot' : e1.classification = some "wc" → OneHot (samplesIn T istart icount) := fun h => hhot (w1 h)
    have hok : AutoOk env e1 (samplesIn T istart icount) :=
      ⟨fun h => oneHot_oneEach (hhot' h), autoWc_WOk hx hhot' (by rw [hcols.2]; exact w2)⟩
    have hc1 : checkBoth fs e1.nnet (.mat X) (.mat T) = .ok (X, T) := by
      rw [q2]
      exact checkBoth_reads (.mat X) (.mat T) hXc hTc hN
    have hadd := hAddData_eq (env := env) istart icount (by rw [q3]; exact hb) (by rw [q2]; exact q5) hc1 hn hok
    have e0 : max 0 (istart : Int) = istart := by omega
    unfold ELM.trainBody at hr
    rw [if_neg hv, if_neg hcv, if_neg hl] at hr
    rw [hr]
    cases ha : e1.addData env (samplesIn X istart icount) (samplesIn T istart icount) with
    | error x =>
      rw [ha] at hadd
      rcases hs with hs | ⟨hs, rfl⟩
      · simp only [hs, e0, hi, hadd]
        rfl
      · rw [Nat.cast_zero] at hadd
        simp only [hs, hi, hadd]
        rfl
    | ok e2 =>
      have hcorr : e2.nnet.corr ≠ none := by
        rw [addData_wts (by rw [q3]; exact hb) hn hNs hok] at ha
        cases hab : e1.nnet.addBatch env (samplesIn X istart icount) (samplesIn T istart icount)
            (wts e1.classification (e1.autoWc env (colSums (samplesIn T istart icount))).wc (samplesIn T istart icount)) with
        | error x => rw [hab] at ha; cases ha
        | ok n =>
          rw [hab] at ha
          injection ha with ha
          rw [← ha]
          exact addBatch_corr_some hab
      obtain ⟨⟨c1, c2⟩, hcc⟩ := Option.ne_none_iff_exists'.1 hcorr
      have hsol : e2.nnet.solve env = .ok { e2.nnet with B := some (e2.nnet.solveCorr env c1 c2) } := by
        unfold NNet.solve
        simp only [hcc]
      rw [ha] at hadd
      rcases hs with hs | ⟨hs, rfl⟩
      · simp only [hs, e0, hi, hadd, Except.map, bind, Except.bind, hsol]
        rfl
      · rw [Nat.cast_zero] at hadd
        simp only [hs, hi, hadd, Except.map, bind, Except.bind, hsol]
        rfl

/-- The hypotheses are met by a range of weighted one-hot data, and both calls succeed. -/
example : ((exModel 2 5 none none).hTrain QEnv.env (fun _ => none) (.mat ⟨2, [[7, 7], [1, 0], [0, 1], [2, 3]]⟩)
      (.mat ⟨2, [[1, 0], [1, 0], [0, 1], [1, 0]]⟩) ["wc"] { batch := some 2, w := some [4, 9], istart := some 1, icount := some 3 }).2.nnet.B =
    some ⟨2, [[44/65, -36/65], [-6/65, 63/130]]⟩ := by decide +kernel

/-! ## C44 prediction -/

theorem predict_rows {env : Env K} {n : NNet K} {X Y : Mat K} (h : n.predict env X = .ok Y) :
    n.neurons ≠ [] ∧ ∃ (B : Mat K) (g : List K → List K), n.B = some B ∧ Y = ⟨B.cols, X.rows.map g⟩ ∧
      ∀ rows, n.predict env ⟨X.cols, rows⟩ = .ok ⟨B.cols, rows.map g⟩ := by
  unfold NNet.predict at h
  cases hB : n.B with
  | none => rw [hB] at h; cases h
  | some B =>
    rw [hB] at h
    simp only at h
    obtain ⟨H, hp, h⟩ := bind_ok h
    obtain ⟨p1, p2, p3, rfl⟩ := (project_ok_iff _ _ _ _).1 hp
    simp only at h
    split at h
    · cases h
    rename_i hcol
    simp only [pure, Except.pure, Except.ok.injEq] at h
    refine ⟨p3, B, fun x => Mat.vecMul (rowOut env n.neurons x) B, rfl, ?_, ?_⟩
    · rw [← h]
      simp [Mat.mul]
    · intro rows
      have := (project_ok_iff env n ⟨X.cols, rows⟩ ⟨width n.neurons, rows.map (rowOut env n.neurons)⟩).2 ⟨p1, p2, p3, rfl⟩
      unfold NNet.predict
      rw [hB]
      simp only [this, bind, Except.bind]
      rw [if_neg hcol]
      simp [Mat.mul, pure, Except.pure]

theorem project_rows {env : Env K} {n : NNet K} {X H : Mat K} (h : n.project env X = .ok H) :
    n.neurons ≠ [] ∧ ∃ g : List K → List K, H = ⟨width n.neurons, X.rows.map g⟩ ∧
      ∀ rows, n.project env ⟨X.cols, rows⟩ = .ok ⟨width n.neurons, rows.map g⟩ := by
  obtain ⟨p1, p2, p3, rfl⟩ := (project_ok_iff _ _ _ _).1 h
  exact ⟨p3, _, rfl, fun rows => (project_ok_iff _ _ _ _).2 ⟨p1, p2, p3, rfl⟩⟩

/-- The loop over the batches of a range, into any large enough array. -/
theorem rangeLoop {f : Mat K → Except PyErr (Mat K)} {g : List K → List K} {X : Mat K} {d : Nat} {batch : Int} (hb : 0 < batch) (s : Nat) (ic : Option Nat)
    (hf : ∀ rows, f ⟨X.cols, rows⟩ = .ok ⟨d, rows.map g⟩) (rows : List (List K)) (hl : (rowsIn X.rows s ic).length ≤ rows.length) :
    ∃ bs, hBatches batch s (rangeCount X.nrows s (ic.map (↑))) = .ok bs ∧
      batchLoop f (fun b => (b.1 - s, b.2 - s)) X bs ⟨d, rows⟩ = .ok ⟨d, (rowsIn X.rows s ic).map g ++ rows.drop (rowsIn X.rows s ic).length⟩ := by
  obtain ⟨bs, h1, h2, h3, h4⟩ := range_batches hb X.nrows s ic
  refine ⟨bs, h1, ?_⟩
  have h2 := h2 _ X.rows rfl
  have := batchLoop_eq (s := s) hf bs s [] rows (hBatches_contig hb h1) (by simp) (fun b hb => ⟨(h3 b hb).2.1, (h3 b hb).2.2.2.1⟩) (by rw [h2]; exact hl)
  rw [h2] at this
  simpa using this

theorem makeOut_ok {s : Nat} {ic : Option Nat} {X : Mat K} {c : Nat} {file : Bool} (hs : s ≤ X.nrows)
    (hf : file = true → 0 < (rowsIn X.rows s ic).length ∧ 0 < c) :
    (makeOut (rangeCount X.nrows s (ic.map (↑))) c file : Except PyErr (Mat K)) = .ok (Mat.zeros (rowsIn X.rows s ic).length c) := by
  have hlen := rowsIn_length X.rows s ic
  have e : X.rows.length = X.nrows := rfl
  rw [e] at hlen
  have h0 : 0 ≤ rangeCount X.nrows s (ic.map (↑)) := by
    cases ic <;> simp [rangeCount] <;> omega
  unfold makeOut
  rw [if_neg (by omega), if_neg]
  · rw [max_eq_right h0] at hlen
    rw [← hlen]
    rfl
  · rintro ⟨h1, h2⟩
    have := hf h1
    omega

theorem zeros_rows (r c : Nat) : ∃ rows : List (List K), Mat.zeros r c = ⟨c, rows⟩ ∧ rows.length = r :=
  ⟨(Mat.zeros r c : Mat K).rows, by unfold Mat.zeros Mat.ofFn; rfl, by unfold Mat.zeros Mat.ofFn; simp⟩

/-- C44.  If in-memory prediction of the whole data gives `Y`, then out-of-memory prediction of a range returns exactly the rows of `Y`
in that range: as a new array, as a new file (file arrays cannot be empty), or in the first rows of a given array whose other rows are
left alone. -/
theorem C44_predict (env : Env K) (fs : Files K) (e : ELM K) (fX : DataArg K) (Y : Mat K) (istart : Nat) (icount : Option Nat)
    (hb : 0 < e.batch) (hc : Consistent e.nnet) (h : e.predict env fs fX = .ok Y) :
    (istart ≤ Y.nrows → e.hPredict env fs fX .fresh istart (icount.map (↑)) = .ok (samplesIn Y istart icount)) ∧
    (0 < (samplesIn Y istart icount).nrows → 0 < e.nnet.outputs →
      e.hPredict env fs fX .file istart (icount.map (↑)) = .ok (samplesIn Y istart icount)) ∧
    (∀ M : Mat K, M.cols = e.nnet.outputs → (samplesIn Y istart icount).nrows ≤ M.nrows →
      e.hPredict env fs fX (.array M) istart (icount.map (↑)) =
        .ok ⟨M.cols, (samplesIn Y istart icount).rows ++ M.rows.drop (samplesIn Y istart icount).nrows⟩) := by
  unfold ELM.predict at h
  obtain ⟨r, hr, h⟩ := bind_ok h
  cases r with
  | none => cases h
  | some X =>
    simp only at h
    obtain ⟨hne, B, g, hB, rfl, hg⟩ := predict_rows h
    have hBc : B.cols = e.nnet.outputs := (hc.weights B hB).2.2
    have hs : samplesIn (⟨B.cols, X.rows.map g⟩ : Mat K) istart icount = ⟨B.cols, (rowsIn X.rows istart icount).map g⟩ := by
      rw [samplesIn_rowsIn, rowsIn_map]
    have a1 : pyAssert (!e.nnet.neurons.isEmpty) = .ok () := by
      unfold pyAssert; rw [if_pos]; simpa using hne
    have a2 : pyAssert e.nnet.B.isSome = .ok () := by
      unfold pyAssert; rw [if_pos]; rw [hB]; rfl
    rw [hs]
    have hYn : (⟨B.cols, X.rows.map g⟩ : Mat K).nrows = X.nrows := by simp [Mat.nrows]
    rw [hYn]
    simp only [Mat.nrows_mk, List.length_map]
    refine ⟨?_, ?_, ?_⟩
    · intro hle
      obtain ⟨z, hz, hzl⟩ := zeros_rows (K := K) (rowsIn X.rows istart icount).length e.nnet.outputs
      obtain ⟨bs, b1, b2⟩ := rangeLoop (f := e.nnet.predict env) hb istart icount hg z (by omega)
      unfold ELM.hPredict
      simp only [a1, a2, hr, b1, makeOut_ok (ic := icount) (c := e.nnet.outputs) (file := false) hle (fun h => by cases h), bind, Except.bind, hz]
      rw [← hBc, b2, List.drop_of_length_le (by omega), List.append_nil]
    · intro hpos ho
      have hle : istart ≤ X.nrows := by
        by_contra hgt
        have h0 := rowsIn_length X.rows istart icount
        have e1 : X.rows.length = X.nrows := rfl
        have := rangeCount_le X.nrows istart (icount.map (↑))
        rw [e1] at h0
        omega
      obtain ⟨z, hz, hzl⟩ := zeros_rows (K := K) (rowsIn X.rows istart icount).length e.nnet.outputs
      obtain ⟨bs, b1, b2⟩ := rangeLoop (f := e.nnet.predict env) hb istart icount hg z (by omega)
      unfold ELM.hPredict
      simp only [a1, a2, hr, b1, makeOut_ok hle (fun _ => ⟨hpos, ho⟩), bind, Except.bind, hz]
      rw [← hBc, b2, List.drop_of_length_le (by omega), List.append_nil]
    · intro M hM hMl
      obtain ⟨bs, b1, b2⟩ := rangeLoop (f := e.nnet.predict env) hb istart icount hg M.rows hMl
      have a3 : pyAssert (M.cols = e.nnet.outputs) = .ok () := by
        unfold pyAssert; rw [if_pos]; simpa using hM
      unfold ELM.hPredict
      simp only [a1, a2, a3, hr, b1, bind, Except.bind, pure, Except.pure]
      have : M = ⟨B.cols, M.rows⟩ := by rw [hBc, ← hM]
      rw [this]
      exact b2

/-- C44, `istart` past the end: the call is refused. -/
theorem C44_past_end (env : Env K) (fs : Files K) (e : ELM K) (fX : DataArg K) (X : Mat K) (istart : Nat) (icount : Option Nat)
    (hb : 0 < e.batch) (hne : e.nnet.neurons ≠ []) (hB : e.nnet.B ≠ none) (hX : Reads fs fX (some X)) (hXc : X.cols = e.nnet.inputs)
    (hs : X.nrows < istart) : e.hPredict env fs fX .fresh istart (icount.map (↑)) = .error .valueError := by
  have hr := (checkOne_iff fs e.nnet.inputs fX (some X)).2 ⟨hX, by rintro M ⟨⟩; exact hXc⟩
  have a1 : pyAssert (!e.nnet.neurons.isEmpty) = .ok () := by
    unfold pyAssert; rw [if_pos]; simpa using hne
  have a2 : pyAssert e.nnet.B.isSome = .ok () := by
    unfold pyAssert; rw [if_pos]; exact Option.isSome_iff_ne_none.2 hB
  have h0 := rangeCount_le X.nrows istart (icount.map (↑))
  unfold ELM.hPredict makeOut
  simp only [a1, a2, hr, hBatches_empty hb (show rangeCount X.nrows istart (icount.map (↑)) ≤ 0 by omega), bind, Except.bind]
  rw [if_pos (by omega)]

/-- A trained model used in the examples. -/
def exTrained : ELM ℚ :=
  { nnet := { solver := .python, prec := .double, inputs := 2, outputs := 1, norm := 1,
              neurons := [⟨2, .name "lin", [[1, 0], [0, 1]], [0, 1]⟩], L := some 2, B := some ⟨1, [[2], [3]]⟩, corr := none }
    batch := 2, prec := .double, accelerator := none, classification := none, wc := none, rankingOP := false, kmaxOp := none }

theorem exTrained_consistent : Consistent exTrained.nnet where
  groups := by
    intro g hg
    have : g = ⟨2, .name "lin", [[1, 0], [0, 1]], [0, 1]⟩ := by simpa [exTrained] using hg
    subst this
    exact ⟨rfl, rfl, by decide⟩
  types := by decide
  count := Or.inl rfl
  weights := by
    intro B hB
    injection hB with hB
    subst hB
    refine ⟨?_, rfl, rfl⟩
    show ∀ r ∈ ([[2], [3]] : List (List ℚ)), r.length = 1
    decide
  corrs := by intro _ _ h; cases h

example : Consistent exTrained.nnet ∧ exTrained.predict QEnv.env (fun _ => none) (.mat ⟨2, [[1, 0], [0, 1], [2, 3], [4, 4]]⟩) = .ok ⟨1, [[5], [6], [16], [23]]⟩ ∧
    exTrained.hPredict QEnv.env (fun _ => none) (.mat ⟨2, [[1, 0], [0, 1], [2, 3], [4, 4]]⟩) .fresh 1 (some 9) = .ok ⟨1, [[6], [16], [23]]⟩ ∧
    exTrained.hPredict QEnv.env (fun _ => none) (.mat ⟨2, [[1, 0], [0, 1], [2, 3], [4, 4]]⟩) (.array ⟨1, [[0], [0], [0], [7]]⟩) 1 (some 3) =
      .ok ⟨1, [[6], [16], [23], [7]]⟩ := ⟨exTrained_consistent, by decide +kernel, by decide +kernel, by decide +kernel⟩

/-! ## C45 projection -/

/-- C45 for ranges that start at the first sample.  Missing: `istart > 0`, where it is false (`C45_project_refuted`). -/
theorem C45_project_partial [IsStrictOrderedRing K] (env : Env K) (fs : Files K) (e : ELM K) (fX : DataArg K) (H : Mat K) (icount : Option Nat)
    (hb : 0 < e.batch) (hc : Consistent e.nnet) (h : e.project env fs fX = .ok H) :
    e.hProject env fs fX .fresh 0 (icount.map (↑)) = .ok (samplesIn H 0 icount) ∧
    (0 < (samplesIn H 0 icount).nrows → 0 < H.cols → e.hProject env fs fX .file 0 (icount.map (↑)) = .ok (samplesIn H 0 icount)) ∧
    (∀ M : Mat K, M.cols = H.cols → (samplesIn H 0 icount).nrows ≤ M.nrows →
      e.hProject env fs fX (.array M) 0 (icount.map (↑)) =
        .ok ⟨M.cols, (samplesIn H 0 icount).rows ++ M.rows.drop (samplesIn H 0 icount).nrows⟩) := by
  unfold ELM.project at h
  obtain ⟨r, hr, h⟩ := bind_ok h
  cases r with
  | none => cases h
  | some X =>
    simp only at h
    obtain ⟨hne, g, rfl, hg⟩ := project_rows h
    have hL : e.nnet.L.getD 0 = width e.nnet.neurons := by
      rw [width_size hc]
      rcases hc.count with h | ⟨_, h⟩
      · rw [h]; rfl
      · exact absurd h hne
    have hs : samplesIn (⟨width e.nnet.neurons, X.rows.map g⟩ : Mat K) 0 icount = ⟨width e.nnet.neurons, (rowsIn X.rows 0 icount).map g⟩ := by
      rw [samplesIn_rowsIn, rowsIn_map]
    have a1 : pyAssert (!e.nnet.neurons.isEmpty) = .ok () := by
      unfold pyAssert; rw [if_pos]; simpa using hne
    rw [hs]
    simp only [Mat.nrows_mk, List.length_map]
    have hdst : (fun b : Int × Int => (b.1 - ((0 : Nat) : Int), b.2 - ((0 : Nat) : Int))) = fun b => (b.1, b.2 - 0) := by
      funext b; simp
    have hcount := rowsIn_length X.rows 0 icount
    refine ⟨?_, ?_, ?_⟩
    · obtain ⟨z, hz, hzl⟩ := zeros_rows (K := K) (rowsIn X.rows 0 icount).length (width e.nnet.neurons)
      obtain ⟨bs, b1, b2⟩ := rangeLoop (f := e.nnet.project env) hb 0 icount hg z (by omega)
      rw [hdst] at b2
      have := makeOut_ok (s := 0) (ic := icount) (X := X) (c := width e.nnet.neurons) (file := false) (Nat.zero_le _) (by simp)
      unfold ELM.hProject
      simp only [Nat.cast_zero] at b1 this
      simp only [a1, hr, b1, hL, this, bind, Except.bind, hz]
      rw [b2, List.drop_of_length_le (by omega), List.append_nil]
    · intro hpos ho
      obtain ⟨z, hz, hzl⟩ := zeros_rows (K := K) (rowsIn X.rows 0 icount).length (width e.nnet.neurons)
      obtain ⟨bs, b1, b2⟩ := rangeLoop (f := e.nnet.project env) hb 0 icount hg z (by omega)
      rw [hdst] at b2
      have := makeOut_ok (s := 0) (ic := icount) (X := X) (c := width e.nnet.neurons) (file := true) (Nat.zero_le _) (fun _ => ⟨hpos, ho⟩)
      unfold ELM.hProject
      simp only [Nat.cast_zero] at b1 this
      simp only [a1, hr, b1, hL, this, bind, Except.bind, hz]
      rw [b2, List.drop_of_length_le (by omega), List.append_nil]
    · intro M hM hMl
      obtain ⟨bs, b1, b2⟩ := rangeLoop (f := e.nnet.project env) hb 0 icount hg M.rows hMl
      rw [hdst] at b2
      have a3 : pyAssert (M.cols = width e.nnet.neurons) = .ok () := by
        unfold pyAssert; rw [if_pos]; simpa using hM
      have a4 : pyAssert ((M.nrows : Int) ≥ rangeCount X.nrows 0 (icount.map (↑))) = .ok () := by
        unfold pyAssert
        rw [if_pos]
        have e1 : X.rows.length = X.nrows := rfl
        rw [e1] at hcount
        have : ((0 : Nat) : Int) = 0 := rfl
        rw [this] at hcount
        simp only [ge_iff_le, decide_eq_true_eq]
        omega
      unfold ELM.hProject
      simp only [Nat.cast_zero] at b1
      simp only [a1, hr, b1, hL, a3, a4, bind, Except.bind, pure, Except.pure]
      have : M = ⟨width e.nnet.neurons, M.rows⟩ := by rw [← hM]
      rw [this]
      exact b2

example : exTrained.hProject QEnv.env (fun _ => none) (.mat ⟨2, [[1, 0], [0, 1], [2, 3], [4, 4]]⟩) .fresh 0 (some 3) = .ok ⟨2, [[1, 1], [0, 2], [2, 4]]⟩ ∧
    exTrained.project QEnv.env (fun _ => none) (.mat ⟨2, [[1, 0], [0, 1], [2, 3], [4, 4]]⟩) = .ok ⟨2, [[1, 1], [0, 2], [2, 4], [4, 5]]⟩ := by
  constructor <;> decide +kernel

/-- C45 is false for `istart > 0`: the call raises, or, with one sample per batch, returns an array without the projections in it. -/
theorem C45_project_refuted :
    ∃ (e : ELM ℚ) (X H : Mat ℚ), Consistent e.nnet ∧ e.project QEnv.env (fun _ => none) (.mat X) = .ok H ∧
      e.hProject QEnv.env (fun _ => none) (.mat X) .fresh 1 none = .error .valueError ∧
      ∃ H', { e with batch := 1 }.hProject QEnv.env (fun _ => none) (.mat X) .fresh 1 none = .ok H' ∧ H' ≠ samplesIn H 1 none := by
  refine ⟨exTrained, ⟨2, [[1, 0], [0, 1], [2, 3], [4, 4]]⟩, ⟨2, [[1, 1], [0, 2], [2, 4], [4, 5]]⟩, exTrained_consistent, by decide +kernel,
    by decide +kernel, ⟨2, [[0, 0], [0, 0], [0, 0]]⟩, by decide +kernel, by decide +kernel⟩

theorem assignRows_bad {Y V : Mat K} {a b : Int} {s t : Nat} (hc : V.cols = Y.cols)
    (hs : (if a < 0 then max 0 (a + (Y.nrows : Int)) else min a Y.nrows).toNat = s)
    (ht : (if b < 0 then max 0 (b + (Y.nrows : Int)) else min b Y.nrows).toNat = t) (hn : V.nrows ≠ max s t - s) (h2 : 2 ≤ V.nrows) :
    assignRows Y a b V = .error .valueError := by
  unfold assignRows
  simp only [hs, ht, hc, ne_eq, not_true_eq_false, if_false, if_neg hn]
  unfold Mat.nrows at h2
  match h : V.rows with
  | [] => rfl
  | [v] => rw [h] at h2; simp at h2
  | _ :: _ :: _ => rfl

/-- C45, what happens instead: for every model and all data, a range with `istart > 0` whose first batch has two or more samples raises. -/
theorem C45_istart_raises [IsStrictOrderedRing K] (env : Env K) (fs : Files K) (e : ELM K) (fX : DataArg K) (H : Mat K) (istart : Nat)
    (icount : Option Nat) (hb : 2 ≤ e.batch) (hc : Consistent e.nnet) (h : e.project env fs fX = .ok H) (hs : 0 < istart)
    (hn : 2 ≤ (samplesIn H istart icount).nrows) : e.hProject env fs fX .fresh istart (icount.map (↑)) = .error .valueError := by
  unfold ELM.project at h
  obtain ⟨r, hr, h⟩ := bind_ok h
  cases r with
  | none => cases h
  | some X =>
    simp only at h
    obtain ⟨hne, g, rfl, hg⟩ := project_rows h
    have hL : e.nnet.L.getD 0 = width e.nnet.neurons := by
      rw [width_size hc]
      rcases hc.count with h | ⟨_, h⟩
      · rw [h]; rfl
      · exact absurd h hne
    rw [samplesIn_rowsIn, rowsIn_map] at hn
    simp only [Mat.nrows_mk, List.length_map] at hn
    have a1 : pyAssert (!e.nnet.neurons.isEmpty) = .ok () := by
      unfold pyAssert; rw [if_pos]; simpa using hne
    have hcount := rowsIn_length X.rows istart icount
    have e1 : X.rows.length = X.nrows := rfl
    rw [e1] at hcount
    have hle := rangeCount_le X.nrows istart (icount.map (↑))
    obtain ⟨c, hcdef⟩ : ∃ c, c = rangeCount X.nrows istart (icount.map (↑)) := ⟨_, rfl⟩
    rw [← hcdef] at hcount hle
    have hk := ceilDiv_pos (by omega : 0 < e.batch) (by omega : 0 < c)
    obtain ⟨k, hk⟩ : ∃ k, (ceilDiv c e.batch).toNat = k + 1 := ⟨(ceilDiv c e.batch).toNat - 1, by omega⟩
    have hbs : hBatches e.batch istart c = .ok ((istart, min (e.batch + istart) (c + istart)) :: (List.range' 1 k).map (batchBounds e.batch istart c)) := by
      unfold hBatches
      rw [if_neg (by omega), hk, List.range_eq_range', List.range'_succ, List.map_cons]
      simp [batchBounds]
    have hmk := makeOut_ok (s := istart) (ic := icount) (X := X) (c := width e.nnet.neurons) (file := false) (by omega) (fun h => by cases h)
    rw [← hcdef] at hmk
    obtain ⟨z, hz, hzl⟩ := zeros_rows (K := K) (rowsIn X.rows istart icount).length (width e.nnet.neurons)
    unfold ELM.hProject
    simp only [a1, hr, ← hcdef, hbs, hL, hmk, bind, Except.bind, hz]
    unfold batchLoop
    have hsl : X.slice istart (min (e.batch + istart) (c + istart)) = ⟨X.cols, pySlice X.rows istart (min (e.batch + istart) (c + istart))⟩ := rfl
    have hlen := pySlice_length X.rows (a := istart) (b := min (e.batch + istart) (c + istart)) (by omega) (by omega) (by omega)
    simp only [hsl, hg, bind, Except.bind]
    have : assignRows ⟨width e.nnet.neurons, z⟩ istart (min (e.batch + istart) (c + istart) - istart)
        ⟨width e.nnet.neurons, (pySlice X.rows istart (min (e.batch + istart) (c + istart))).map g⟩ = .error .valueError := by
      obtain ⟨V, hV⟩ : ∃ V, V = (pySlice X.rows istart (min (e.batch + istart) (c + istart))).map g := ⟨_, rfl⟩
      have hVl : (V.length : Int) = min (e.batch + istart) (c + istart) - istart := by rw [hV, List.length_map, hlen]
      rw [← hV]
      have hzc : (z.length : Int) = c := by omega
      refine assignRows_bad rfl (s := min istart z.length) (t := V.length) ?_ ?_ ?_ ?_ <;> simp only [Mat.nrows_mk]
      · rw [if_neg (by omega)]; omega
      · rw [if_neg (by omega)]; omega
      · omega
      · omega
    rw [this]

end Hpelm.Props
