import Verif.Props.C42_C45_OutOfMemory
import Verif.Model.TrainAsync

/-!
# C121 — negative start of a range
-/

set_option linter.unusedSectionVars false

namespace Hpelm.Props
open Hpelm Spec
variable {K : Type} [Field K] [LinearOrder K]

theorem pySlice_neg {α : Type} (l : List α) (s t : Int) (hs : s < 0) (ht : t < 0) (hs' : -(l.length : Int) ≤ s) (ht' : -(l.length : Int) ≤ t) :
    pySlice l s t = pySlice l (s + l.length) (t + l.length) := by
  unfold pySlice
  simp only
  rw [if_pos hs, if_pos ht, if_neg (by omega), if_neg (by omega), max_eq_right (by omega), max_eq_right (by omega), min_eq_left (by omega), min_eq_left (by omega)]

/-- Batches of a range that lies before the end, counted from the end and from the beginning. -/
theorem hBatches_neg (N m c batch : Int) (hb : 0 < batch) (hc : c < m) (hm : m ≤ N) :
    ∃ bs : List (Int × Int), hBatches batch (-m) c = .ok bs ∧ hBatches batch (N - m) c = .ok (bs.map fun b => (b.1 + N, b.2 + N)) ∧
      ∀ b ∈ bs, b.1 < 0 ∧ b.2 < 0 ∧ -N ≤ b.1 ∧ -N ≤ b.2 := by
  unfold hBatches
  rw [if_neg hb.ne']
  refine ⟨_, rfl, ?_, ?_⟩
  · rw [if_neg hb.ne', List.map_map]
    congr 1
    apply List.map_congr_left
    intro b _
    simp only [Function.comp, batchBounds, Prod.mk.injEq]
    constructor
    · ring
    · rw [← min_add_add_right]; congr 1 <;> ring
  · intro b hbm
    simp only [List.mem_map, List.mem_range] at hbm
    obtain ⟨k, hk, rfl⟩ := hbm
    have hsp := (ceilDiv_spec c batch hb).1
    have hk' : (k : Int) ≤ ceilDiv c batch - 1 := by omega
    have : (k : Int) * batch ≤ (ceilDiv c batch - 1) * batch := by nlinarith
    have h0 : 0 ≤ (k : Int) * batch := by positivity
    simp only [batchBounds]
    have h1 : ((k : Int) + 1) * batch = k * batch + batch := by ring
    rw [h1]
    refine ⟨by omega, by omega, by omega, by omega⟩

theorem slices_neg {α : Type} (l : List α) (N : Int) (hN : (l.length : Int) = N) (bs : List (Int × Int))
    (h : ∀ b ∈ bs, b.1 < 0 ∧ b.2 < 0 ∧ -N ≤ b.1 ∧ -N ≤ b.2) : ∀ b ∈ bs, pySlice l b.1 b.2 = pySlice l (b.1 + N) (b.2 + N) := by
  intro b hb
  obtain ⟨h1, h2, h3, h4⟩ := h b hb
  subst hN
  exact pySlice_neg l _ _ h1 h2 h3 h4

theorem rangeCount_neg (N m c : Int) (hN : 0 ≤ N) (hc : c < m) : rangeCount N (-m) (some c) = c ∧ rangeCount N (N - m) (some c) = c := by
  unfold rangeCount
  constructor
  · exact min_eq_left (by omega)
  · exact min_eq_left (by omega)

/-- C121, the part that holds for `add_data`: a range that starts `m` samples before the end and stops before the end is counted from the end,
as in Python: the call does in every respect what it does with the start `N - m`.

Missing for the full property: ranges with a negative start that reach the end of the data, or start before their beginning
(`C121_add_data_refuted`, `C121_predict_refuted`). -/
theorem C121_add_data_partial (env : Env K) (fs : Files K) (e : ELM K) (fX fT : DataArg K) (X T : Mat K) (m c : Int) (fHH fHT : Option String)
    (hb : 0 < e.batch) (hX : Reads fs fX (some X)) (hT : Reads fs fT (some T)) (hXc : X.cols = e.nnet.inputs) (hTc : T.cols = e.nnet.outputs)
    (hN : X.nrows = T.nrows) (hc : c < m) (hm : m ≤ X.nrows) :
    e.hAddData env fs fX fT (-m) (some c) fHH fHT = e.hAddData env fs fX fT (X.nrows - m) (some c) fHH fHT := by
  have hcb := checkBoth_reads hX hT hXc hTc hN
  obtain ⟨r1, r2⟩ := rangeCount_neg (X.nrows : Int) m c (by omega) hc
  obtain ⟨bs, h1, h2, h3⟩ := hBatches_neg (X.nrows : Int) m c e.batch hb hc hm
  have hx := slices_neg X.rows X.nrows rfl bs h3
  have ht := slices_neg T.rows X.nrows (by rw [hN]; rfl) bs h3
  have hcut : cutBatches X T (bs.map fun b => (b.1 + (X.nrows : Int), b.2 + (X.nrows : Int))) = cutBatches X T bs := by
    unfold cutBatches
    rw [List.map_map]
    apply List.map_congr_left
    intro b hbm
    simp only [Function.comp]
    rw [hx b hbm, ht b hbm]
  have hcol : ∀ o, batchColSums o T (bs.map fun b => (b.1 + (X.nrows : Int), b.2 + (X.nrows : Int))) = batchColSums o T bs := by
    intro o
    unfold batchColSums
    rw [List.foldl_map]
    apply List.foldl_ext
    intro ns b hbm
    unfold Mat.slice
    rw [ht b hbm]
  unfold ELM.hAddData
  simp only [hcb, bind, Except.bind]
  cases pyAssert (!e.nnet.neurons.isEmpty) with
  | error x => rfl
  | ok _ =>
    simp only []
    cases prepareFHH fs fHH fHT e.nnet with
    | error x => rfl
    | ok p => simp only [r1, r2, h1, h2, hcut, hcol]

/-- The hypotheses are met: from four samples, the second and the third. -/
example : ((exModel 1 2 none none).hAddData QEnv.env (fun _ => none) (.mat ⟨2, [[5, 5], [1, 0], [0, 1], [2, 3]]⟩) (.mat ⟨1, [[9], [1], [2], [3]]⟩)
      (-3) (some 2) none none).map (·.1.nnet.corr) = .ok (some (⟨2, [[2, 0], [0, 2]]⟩, ⟨1, [[1], [2]]⟩)) := by decide +kernel

/-- C121, the part that holds for `predict`: the same. -/
theorem C121_predict_partial (env : Env K) (fs : Files K) (e : ELM K) (fX : DataArg K) (X : Mat K) (out : OutArg K) (m c : Int)
    (hb : 0 < e.batch) (hX : Reads fs fX (some X)) (hXc : X.cols = e.nnet.inputs) (hc : c < m) (hm : m ≤ X.nrows) :
    e.hPredict env fs fX out (-m) (some c) = e.hPredict env fs fX out (X.nrows - m) (some c) := by
  obtain ⟨r1, r2⟩ := rangeCount_neg (X.nrows : Int) m c (by omega) hc
  obtain ⟨bs, h1, h2, h3⟩ := hBatches_neg (X.nrows : Int) m c e.batch hb hc hm
  have hx := slices_neg X.rows X.nrows rfl bs h3
  have hloop : ∀ (f : Mat K → Except PyErr (Mat K)) (cs : List (Int × Int)) (Y : Mat K), (∀ b ∈ cs, b ∈ bs) →
      batchLoop f (fun b => (b.1 - -m, b.2 - -m)) X cs Y =
        batchLoop f (fun b => (b.1 - ((X.nrows : Int) - m), b.2 - ((X.nrows : Int) - m))) X
          (cs.map fun b => (b.1 + (X.nrows : Int), b.2 + (X.nrows : Int))) Y := by
    intro f cs
    induction cs with
    | nil => intro Y _; rfl
    | cons b cs ih =>
      intro Y hcs
      simp only [List.map_cons, batchLoop, Mat.slice]
      rw [← hx b (hcs b (by simp))]
      have e1 : b.1 - -m = b.1 + (X.nrows : Int) - ((X.nrows : Int) - m) := by ring
      have e2 : b.2 - -m = b.2 + (X.nrows : Int) - ((X.nrows : Int) - m) := by ring
      rw [← e1, ← e2]
      simp only [ih _ (fun b' hb' => hcs b' (by simp [hb']))]
  have hr := (checkOne_iff fs e.nnet.inputs fX (some X)).2 ⟨hX, by rintro M ⟨⟩; exact hXc⟩
  unfold ELM.hPredict
  simp only [hr, bind, Except.bind]
  cases pyAssert (!e.nnet.neurons.isEmpty) with
  | error x => rfl
  | ok _ =>
    simp only []
    cases pyAssert e.nnet.B.isSome with
    | error x => rfl
    | ok _ =>
      simp only [r1, r2, h1, h2]
      cases out with
      | fresh =>
        simp only []
        cases (makeOut c e.nnet.outputs false : Except PyErr (Mat K)) with
        | error x => rfl
        | ok Y => exact hloop _ bs Y fun _ h => h
      | file =>
        simp only []
        cases (makeOut c e.nnet.outputs true : Except PyErr (Mat K)) with
        | error x => rfl
        | ok Y => exact hloop _ bs Y fun _ h => h
      | array M =>
        simp only []
        cases pyAssert (decide (M.cols = e.nnet.outputs)) with
        | error x => rfl
        | ok _ => exact hloop _ bs M fun _ h => h

theorem hErrLoop_cons (errb : Mat K → Mat K → Option K) (icount : Int) (T Y : Mat K) (b : Int × Int) (bs : List (Int × Int)) (acc : Option K) :
    hErrLoop errb icount T Y (b :: bs) acc =
      if (T.slice b.1 b.2).nrows ≠ (Y.slice b.1 b.2).nrows ∨ T.cols ≠ Y.cols then .error .valueError
      else hErrLoop errb icount T Y bs (match acc, errb (T.slice b.1 b.2) (Y.slice b.1 b.2) with
        | some a, some v => some (a + v * ((b.2 - b.1 : Int) : K) / ((icount : Int) : K))
        | _, _ => none) := rfl

/-- C121, the part that holds for `error`: the same. -/
theorem C121_error_partial (fs : Files K) (e : ELM K) (fT fY : DataArg K) (T Y : Mat K) (m c : Int)
    (hb : 0 < e.batch) (hT : Reads fs fT (some T)) (hY : Reads fs fY (some Y)) (hTc : T.cols = e.nnet.outputs) (hYc : Y.cols = e.nnet.outputs)
    (hN : T.nrows = Y.nrows) (hc : c < m) (hm : m ≤ T.nrows) :
    e.hErrorOf fs fT fY (-m) (some c) = e.hErrorOf fs fT fY (T.nrows - m) (some c) := by
  obtain ⟨r1, r2⟩ := rangeCount_neg (T.nrows : Int) m c (by omega) hc
  obtain ⟨bs, h1, h2, h3⟩ := hBatches_neg (T.nrows : Int) m c e.batch hb hc hm
  have ht := slices_neg T.rows T.nrows rfl bs h3
  have hy := slices_neg Y.rows T.nrows (by rw [hN]; rfl) bs h3
  have hl : ∀ (f : Mat K → Mat K → Option K) (cs : List (Int × Int)) (acc : Option K), (∀ b ∈ cs, b ∈ bs) →
      hErrLoop f c T Y (cs.map fun b => (b.1 + (T.nrows : Int), b.2 + (T.nrows : Int))) acc = hErrLoop f c T Y cs acc := by
    intro f cs
    induction cs with
    | nil => intro acc _; rfl
    | cons b cs ih =>
      intro acc hcs
      have e1 : b.2 + (T.nrows : Int) - (b.1 + (T.nrows : Int)) = b.2 - b.1 := by ring
      have t1 : T.slice (b.1 + (T.nrows : Int)) (b.2 + (T.nrows : Int)) = T.slice b.1 b.2 := by
        unfold Mat.slice; rw [← ht b (hcs b (by simp))]
      have y1 : Y.slice (b.1 + (T.nrows : Int)) (b.2 + (T.nrows : Int)) = Y.slice b.1 b.2 := by
        unfold Mat.slice; rw [← hy b (hcs b (by simp))]
      rw [List.map_cons, hErrLoop_cons, hErrLoop_cons]
      simp only
      rw [t1, y1, e1]
      simp only [ih _ (fun b' hb' => hcs b' (by simp [hb']))]
  have hcc : ∀ i, hClassCounts T Y i (bs.map fun b => (b.1 + (T.nrows : Int), b.2 + (T.nrows : Int))) = hClassCounts T Y i bs := by
    intro i
    unfold hClassCounts
    rw [List.foldl_map]
    apply List.foldl_ext
    intro s b hbm
    simp only [Mat.slice]
    rw [ht b hbm, hy b hbm]
  have hany : (bs.map fun b => (b.1 + (T.nrows : Int), b.2 + (T.nrows : Int))).any
      (fun b => decide ((T.slice b.1 b.2).nrows ≠ (Y.slice b.1 b.2).nrows)) =
      bs.any (fun b => decide ((T.slice b.1 b.2).nrows ≠ (Y.slice b.1 b.2).nrows)) := by
    have t1 : ∀ b ∈ bs, T.slice (b.1 + (T.nrows : Int)) (b.2 + (T.nrows : Int)) = T.slice b.1 b.2 := by
      intro b hbm; unfold Mat.slice; rw [← ht b hbm]
    have y1 : ∀ b ∈ bs, Y.slice (b.1 + (T.nrows : Int)) (b.2 + (T.nrows : Int)) = Y.slice b.1 b.2 := by
      intro b hbm; unfold Mat.slice; rw [← hy b hbm]
    rw [Bool.eq_iff_iff]
    simp only [List.any_eq_true, List.mem_map]
    constructor
    · rintro ⟨_, ⟨b, hbm, rfl⟩, h⟩
      simp only at h
      rw [t1 b hbm, y1 b hbm] at h
      exact ⟨b, hbm, h⟩
    · rintro ⟨b, hbm, h⟩
      refine ⟨_, ⟨b, hbm, rfl⟩, ?_⟩
      simp only
      rw [t1 b hbm, y1 b hbm]
      exact h
  have hr := (checkOne_iff fs e.nnet.outputs fT (some T)).2 ⟨hT, by rintro M ⟨⟩; exact hTc⟩
  have hr2 := (checkOne_iff fs e.nnet.outputs fY (some Y)).2 ⟨hY, by rintro M ⟨⟩; exact hYc⟩
  unfold ELM.hErrorOf hError
  simp only [hr, hr2, bind, Except.bind, r1, r2, h1, h2, hl _ bs _ (fun _ h => h), hcc, hany]

theorem parseArgs_istart (e : ELM K) (args : List String) (kw : Kwargs K) (i j : Int) :
    e.parseArgs args { kw with istart := some i } = e.parseArgs args { kw with istart := some j } := by
  have hl : ∀ (as : List String) (e : ELM K), parseLoop { kw with istart := some i } as e = parseLoop { kw with istart := some j } as e := by
    intro as
    induction as with
    | nil => intro e; rfl
    | cons a as ih =>
      intro e
      have ho : parseOne { kw with istart := some i } e a = parseOne { kw with istart := some j } e a := rfl
      simp only [parseLoop, ho, ih]
  unfold ELM.parseArgs
  simp only [hl]

/-- C121 for `train`: a negative start means the beginning of the data, for every model, data and arguments. -/
theorem C121_train (env : Env K) (fs : Files K) (e : ELM K) (fX fT : DataArg K) (args : List String) (kw : Kwargs K) (i : Int) (hi : i < 0) :
    e.hTrain env fs fX fT args { kw with istart := some i } = e.hTrain env fs fX fT args { kw with istart := some 0 } := by
  have hp := parseArgs_istart e args kw i 0
  unfold ELM.hTrain
  rw [hp]
  simp only [max_eq_left hi.le, max_self]

/-- C121 for `train_async`: the same, for every execution of the three processes. -/
theorem C121_train_async (env : Env K) (fs : Files K) (e e' : ELM K) (fX fT : String) (args : List String) (kw : Kwargs K) (i : Int) (hi : i < 0)
    (r : Except PyErr Unit) :
    TrainsAsync env fs e fX fT args { kw with istart := some i } r e' ↔ TrainsAsync env fs e fX fT args { kw with istart := some 0 } r e' := by
  have hp := parseArgs_istart e args kw i 0
  have hs : startOf { kw with istart := some i } = startOf { kw with istart := some 0 } := by
    simp only [startOf, max_eq_left hi.le, max_self]
  constructor
  · intro h
    cases h with
    | check x h => exact .check x h
    | parse d _ x h h2 => exact .parse d _ x h (hp ▸ h2)
    | start d e1 e' x h h2 h3 => exact .start d e1 e' x h (hp ▸ h2) (hs ▸ h3)
    | feed d e1 e' c e0 fs1 s x h h2 h3 h4 h5 => exact .feed d e1 e' c e0 fs1 s x h (hp ▸ h2) (hs ▸ h3) h4 h5
    | solve d e1 c e0 fs1 s x h h2 h3 h4 h5 h6 => exact .solve d e1 c e0 fs1 s x h (hp ▸ h2) (hs ▸ h3) h4 h5 h6
    | ok d e1 c e0 fs1 s n h h2 h3 h4 h5 h6 => exact .ok d e1 c e0 fs1 s n h (hp ▸ h2) (hs ▸ h3) h4 h5 h6
  · intro h
    cases h with
    | check x h => exact .check x h
    | parse d _ x h h2 => exact .parse d _ x h (hp ▸ h2)
    | start d e1 e' x h h2 h3 => exact .start d e1 e' x h (hp ▸ h2) (hs ▸ h3)
    | feed d e1 e' c e0 fs1 s x h h2 h3 h4 h5 => exact .feed d e1 e' c e0 fs1 s x h (hp ▸ h2) (hs ▸ h3) h4 h5
    | solve d e1 c e0 fs1 s x h h2 h3 h4 h5 h6 => exact .solve d e1 c e0 fs1 s x h (hp ▸ h2) (hs ▸ h3) h4 h5 h6
    | ok d e1 c e0 fs1 s n h h2 h3 h4 h5 h6 => exact .ok d e1 c e0 fs1 s n h (hp ▸ h2) (hs ▸ h3) h4 h5 h6

/-- The batches of the whole data with a start `m` before their beginning, when a batch holds at least `m` samples. -/
theorem hBatches_wrap (N m batch : Int) (hm : 0 < m) (hb : m ≤ batch) (hN : batch ≤ N) :
    ∃ bs, hBatches batch (batch - m) (N - (batch - m)) = .ok bs ∧ hBatches batch (-m) (N - -m) = .ok ((-m, batch - m) :: bs) := by
  have hb0 : 0 < batch := by omega
  unfold hBatches
  rw [if_neg hb0.ne', if_neg hb0.ne']
  refine ⟨_, rfl, ?_⟩
  have h1 : ceilDiv (N - -m) batch = ceilDiv (N - (batch - m)) batch + 1 := by
    obtain ⟨a1, a2⟩ := ceilDiv_spec (N - (batch - m)) batch hb0
    exact ceilDiv_unique hb0 (by nlinarith) (by nlinarith)
  have h2 : 0 < ceilDiv (N - (batch - m)) batch := ceilDiv_pos hb0 (by omega)
  have h3 : (ceilDiv (N - -m) batch).toNat = (ceilDiv (N - (batch - m)) batch).toNat + 1 := by omega
  rw [h3, List.range_succ_eq_map, List.map_cons, List.map_map]
  congr 2
  · unfold batchBounds
    simp only [Prod.mk.injEq]
    constructor
    · simp
    · push_cast; rw [min_eq_left (by omega)]; ring
  · apply List.map_congr_left
    intro b _
    simp only [Function.comp, batchBounds, Prod.mk.injEq]
    push_cast
    constructor
    · ring
    · congr 1 <;> ring

theorem pySlice_wrap {α : Type} (l : List α) (m batch : Int) (hm : 0 < m) (hb : m ≤ batch) (hN : batch ≤ l.length) : pySlice l (-m) (batch - m) = [] := by
  unfold pySlice
  simp only
  rw [if_pos (by omega), if_neg (by omega), max_eq_right (by omega), min_eq_left (by omega), List.drop_eq_nil_iff, List.length_take]
  omega

/-- C121 is false for `add_data`: with a start `m` before the end and no count, where a batch holds at least `m` samples and the data at least a batch, the
samples fed are neither the last `m` nor all of them, but all except the first `batch - m`. -/
theorem C121_add_data_refuted (env : Env K) (fs : Files K) (e : ELM K) (fX fT : DataArg K) (X T : Mat K) (m batch : Nat)
    (hbe : e.batch = batch) (hne : e.nnet.neurons ≠ []) (hX : Reads fs fX (some X)) (hT : Reads fs fT (some T)) (hXc : X.cols = e.nnet.inputs)
    (hTc : T.cols = e.nnet.outputs) (hN : X.nrows = T.nrows) (hm : 0 < m) (hmb : m ≤ batch) (hbN : batch ≤ X.nrows) :
    ∃ bs : List (Mat K × Mat K),
      e.hAddData env fs fX fT (-m) none none none =
        (bs.foldlM (init := e.autoWc env (colSums (samplesIn T (batch - m) none))) (fun (e : ELM K) (b : Mat K × Mat K) => do
          let w ← batchWeights e.classification e.wc b.2
          let n ← e.nnet.addBatch env b.1 b.2 w
          pure { e with nnet := n })).map (fun e => (e, fs)) ∧
      bs.flatMap (·.1.rows) = X.rows.drop (batch - m) ∧ bs.flatMap (·.2.rows) = T.rows.drop (batch - m) := by
  have hc := checkBoth_reads hX hT hXc hTc hN
  have hTl : (T.rows.length : Int) = X.nrows := by rw [hN]; rfl
  have hb0 : 0 < e.batch := by omega
  obtain ⟨bs, h1, h2⟩ := hBatches_wrap (X.nrows : Int) m e.batch (by omega) (by omega) (by omega)
  obtain ⟨bs', h1', h3, _, _⟩ := hBatches_spec (istart := e.batch - m) (icount := X.nrows - (e.batch - m)) hb0 (by omega) (by omega)
  obtain rfl : bs = bs' := by rw [h1] at h1'; injection h1'
  have ex : pySlice X.rows (-m) (e.batch - m) = [] := pySlice_wrap _ _ _ (by omega) (by omega) (by show _ ≤ (X.nrows : Int); omega)
  have et : pySlice T.rows (-m) (e.batch - m) = [] := pySlice_wrap _ _ _ (by omega) (by omega) (by omega)
  have fX' : ((-(m : Int), e.batch - m) :: bs).flatMap (fun b => pySlice X.rows b.1 b.2) = X.rows.drop (batch - m) := by
    rw [List.flatMap_cons, ex, List.nil_append, h3]
    have : (e.batch - (m : Int)).toNat = batch - m := by omega
    rw [this, List.take_of_length_le]
    have : X.rows.length = X.nrows := rfl
    rw [List.length_drop]; omega
  have fT' : ((-(m : Int), e.batch - m) :: bs).flatMap (fun b => pySlice T.rows b.1 b.2) = T.rows.drop (batch - m) := by
    rw [List.flatMap_cons, et, List.nil_append, h3]
    have : (e.batch - (m : Int)).toNat = batch - m := by omega
    rw [this, List.take_of_length_le]
    rw [List.length_drop]; omega
  refine ⟨(cutBatches X T ((-(m : Int), e.batch - m) :: bs)).map fun p => (⟨X.cols, p.1⟩, ⟨T.cols, p.2⟩), ?_, ?_, ?_⟩
  · rw [← feed_foldlM]
    unfold ELM.hAddData
    have a1 : pyAssert (!e.nnet.neurons.isEmpty) = .ok () := by
      unfold pyAssert
      rw [if_pos]
      simpa using hne
    simp only [a1, hc, bind, Except.bind, prepareFHH, pure, Except.pure, rangeCount]
    rw [h2]
    simp only
    rw [← hTc, batchColSums_eq, fT']
    rw [samplesIn_rowsIn]
    simp only [rowsIn]
    cases ((e.autoWc env (colSums ⟨T.cols, T.rows.drop (batch - m)⟩)).feed env X.cols T.cols (cutBatches X T _)) with
    | error x => rfl
    | ok e' => rfl
  · rw [List.flatMap_map]
    exact (cutBatches_flat X T _).1.trans fX'
  · rw [List.flatMap_map]
    exact (cutBatches_flat X T _).2.trans fT'

/-- A start one sample before the end, with no count: from four samples in batches of two, all but the first are fed. -/
example : ((exModel 1 2 none none).hAddData QEnv.env (fun _ => none) (.mat ⟨2, [[5, 5], [1, 0], [0, 1], [2, 3]]⟩) (.mat ⟨1, [[9], [1], [2], [3]]⟩)
      (-1) none none none).map (·.1.nnet.corr) = .ok (some (⟨2, [[6, 6], [0, 11]]⟩, ⟨1, [[7], [11]]⟩)) ∧
    ((exModel 1 2 none none).hAddData QEnv.env (fun _ => none) (.mat ⟨2, [[5, 5], [1, 0], [0, 1], [2, 3]]⟩) (.mat ⟨1, [[9], [1], [2], [3]]⟩)
      1 none none none).map (·.1.nnet.corr) = .ok (some (⟨2, [[6, 6], [0, 11]]⟩, ⟨1, [[7], [11]]⟩)) := by
  constructor <;> decide +kernel

/-- C121 is false for `predict`: with a start one before the end and no count the call raises; with the start `N - 1` it predicts the last sample.
With a count of one it raises too. -/
theorem C121_predict_refuted :
    ∃ (e : ELM ℚ) (X : Mat ℚ), Consistent e.nnet ∧ X.nrows = 4 ∧
      e.hPredict QEnv.env (fun _ => none) (.mat X) .fresh (-1) none = .error .valueError ∧
      e.hPredict QEnv.env (fun _ => none) (.mat X) .fresh (-1) (some 1) = .error .valueError ∧
      e.hPredict QEnv.env (fun _ => none) (.mat X) .fresh 3 none = .ok ⟨1, [[23]]⟩ ∧
      e.hPredict QEnv.env (fun _ => none) (.mat X) .fresh (-3) (some 2) = .ok ⟨1, [[6], [16]]⟩ := by
  refine ⟨exTrained, ⟨2, [[1, 0], [0, 1], [2, 3], [4, 4]]⟩, exTrained_consistent, rfl, ?_, ?_, ?_, ?_⟩ <;> decide +kernel

/-- C121 is false for `error`: with a start one before the end and no count the result is NaN (`none`); with the start `N - 1` it is the squared error
of the last sample. -/
theorem C121_error_refuted :
    ∃ (e : ELM ℚ) (T Y : Mat ℚ), T.nrows = 4 ∧ Y.nrows = 4 ∧
      e.hErrorOf (fun _ => none) (.mat T) (.mat Y) (-1) none = .ok none ∧
      e.hErrorOf (fun _ => none) (.mat T) (.mat Y) 3 none = .ok (some 4) ∧
      e.hErrorOf (fun _ => none) (.mat T) (.mat Y) (-3) (some 2) = .ok (some 1) := by
  refine ⟨exTrained, ⟨1, [[1], [2], [3], [4]]⟩, ⟨1, [[1], [2 + 1], [3 - 1], [6]]⟩, rfl, rfl, ?_, ?_, ?_⟩ <;> decide +kernel

end Hpelm.Props
