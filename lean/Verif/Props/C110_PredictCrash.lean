import Verif.Model.PredictCrash
import Verif.Props.C42_C45_OutOfMemory

/-!
# C110 — an interrupted prediction into a file
-/

set_option linter.unusedSectionVars false

namespace Hpelm.Props
open Hpelm Spec
variable {K : Type} [Field K] [LinearOrder K]

/-- `predict` into a file is the loop run to its end. -/
theorem predictedTo_all (env : Env K) (fs : Files K) (e : ELM K) (fX : DataArg K) (istart : Int) (icount : Option Int) :
    ∃ n, ∀ k, n ≤ k → e.predictedTo env fs fX istart icount k = e.hPredict env fs fX .file istart icount := by
  unfold ELM.predictedTo ELM.hPredict
  cases pyAssert (!e.nnet.neurons.isEmpty) with
  | error x => exact ⟨0, fun k _ => rfl⟩
  | ok _ =>
    cases pyAssert e.nnet.B.isSome with
    | error x => exact ⟨0, fun k _ => rfl⟩
    | ok _ =>
      simp only [bind, Except.bind]
      cases checkOne fs e.nnet.inputs fX with
      | error x => exact ⟨0, fun k _ => rfl⟩
      | ok o =>
        cases o with
        | none => exact ⟨0, fun k _ => rfl⟩
        | some X =>
          simp only
          cases hBatches e.batch istart (rangeCount X.nrows istart icount) with
          | error x => exact ⟨0, fun k _ => rfl⟩
          | ok bs =>
            refine ⟨bs.length, fun k hk => ?_⟩
            simp only
            rw [List.take_of_length_le hk]

theorem contig_take {a : Int} {bs : List (Int × Int)} (h : Contig a bs) (k : Nat) : Contig a (bs.take k) := by
  induction bs generalizing a k with
  | nil => simp [Contig]
  | cons b bs ih =>
    cases k with
    | zero => simp [Contig]
    | succ k => exact ⟨h.1, ih h.2 k⟩

/-- The first `k` passes of a loop that writes the values of a range of the data into a new array. -/
def outLoop (f : Mat K → Except PyErr (Mat K)) (batch : Int) (X : Mat K) (d : Nat) (istart : Nat) (icount : Option Nat) (k : Nat) : Except PyErr (Mat K) := do
  let bs ← hBatches batch istart (rangeCount X.nrows istart (icount.map (↑)))
  let Y ← makeOut (rangeCount X.nrows istart (icount.map (↑))) d true
  batchLoop f (fun b => (b.1 - (istart : Int), b.2 - (istart : Int))) X (bs.take k) Y

/-- The array after `k` passes: the first rows are right, the other rows are zero. -/
theorem outLoop_form {f : Mat K → Except PyErr (Mat K)} {g : List K → List K} {X : Mat K} {d : Nat} {batch : Int} (hb : 0 < batch)
    (hg : ∀ rows, f ⟨X.cols, rows⟩ = .ok ⟨d, rows.map g⟩) {istart : Nat} {icount : Option Nat} {k : Nat} {V : Mat K}
    (hV : outLoop f batch X d istart icount k = .ok V) :
    V.cols = d ∧ V.nrows = (rowsIn X.rows istart icount).length ∧
      ∃ m m' : Nat, (m ≤ m' ∧ (m' : Int) ≤ m + batch) ∧
        V.rows = ((rowsIn X.rows istart icount).map g).take m ++ (Mat.zeros (rowsIn X.rows istart icount).length V.cols : Mat K).rows.drop m ∧
        ∀ V', outLoop f batch X d istart icount (k + 1) = .ok V' →
          V'.rows = ((rowsIn X.rows istart icount).map g).take m' ++ (Mat.zeros (rowsIn X.rows istart icount).length V.cols : Mat K).rows.drop m' := by
  obtain ⟨bs, h1, h2, h3, h4⟩ := range_batches hb X.nrows istart icount
  have h2 := h2 _ X.rows rfl
  have form : ∀ (k : Nat) (V : Mat K), outLoop f batch X d istart icount k = .ok V →
      V = ⟨d, ((bs.take k).flatMap fun b => pySlice X.rows b.1 b.2).map g ++
        (Mat.zeros (rowsIn X.rows istart icount).length d : Mat K).rows.drop ((bs.take k).flatMap fun b => pySlice X.rows b.1 b.2).length⟩ := by
    intro k V hV
    unfold outLoop at hV
    obtain ⟨bs', hb', hV⟩ := bind_ok hV
    rw [h1] at hb'
    injection hb' with hb'
    subst hb'
    obtain ⟨Y0, hY0, hV⟩ := bind_ok hV
    unfold makeOut at hY0
    split at hY0
    · cases hY0
    rename_i hneg
    split at hY0
    · cases hY0
    injection hY0 with hY0
    have hlen := rowsIn_length X.rows istart icount
    have e1 : X.rows.length = X.nrows := rfl
    rw [e1] at hlen
    have hcount : (rangeCount X.nrows istart (icount.map (↑))).toNat = (rowsIn X.rows istart icount).length := by omega
    rw [hcount] at hY0
    obtain ⟨z, hz, hzl⟩ := zeros_rows (K := K) (rowsIn X.rows istart icount).length d
    have hle : ((bs.take k).flatMap fun b => pySlice X.rows b.1 b.2).length ≤ z.length := by
      rw [hzl, ← h2]
      conv_rhs => rw [← List.take_append_drop k bs, List.flatMap_append, List.length_append]
      omega
    have := batchLoop_eq (s := istart) hg (bs.take k) istart [] z (contig_take (hBatches_contig hb h1) k) (by simp)
      (fun b hb => ⟨(h3 b (List.mem_of_mem_take hb)).2.1, (h3 b (List.mem_of_mem_take hb)).2.2.2.1⟩) hle
    rw [← hY0, hz] at hV
    simp only [List.nil_append] at this
    rw [this] at hV
    injection hV with hV
    rw [← hV, hz]
  have pre : ∀ k, ((bs.take k).flatMap fun b => pySlice X.rows b.1 b.2) =
      (rowsIn X.rows istart icount).take ((bs.take k).flatMap fun b => pySlice X.rows b.1 b.2).length := by
    intro k
    rw [← h2]
    conv_rhs => rw [← List.take_append_drop k bs]
    rw [List.flatMap_append]
    simp only [List.take_append_drop, List.take_left]
  have fV := form k V hV
  have hlek : ∀ k, ((bs.take k).flatMap fun b => pySlice X.rows b.1 b.2).length ≤ (rowsIn X.rows istart icount).length := by
    intro k
    rw [pre k, List.length_take]
    omega
  refine ⟨by rw [fV], ?_, ((bs.take k).flatMap fun b => pySlice X.rows b.1 b.2).length,
    ((bs.take (k + 1)).flatMap fun b => pySlice X.rows b.1 b.2).length, ⟨?_, ?_⟩, ?_, ?_⟩
  · rw [fV]
    have := hlek k
    simp only [Mat.nrows_mk, List.length_append, List.length_map, List.length_drop, Mat.zeros, Mat.ofFn, List.length_range] at *
    omega
  · rw [List.take_add_one, List.flatMap_append, List.length_append]
    omega
  · rw [List.take_add_one, List.flatMap_append, List.length_append]
    cases hk : bs[k]? with
    | none => simp; omega
    | some b =>
      have hm := List.mem_of_getElem? hk
      obtain ⟨b1, b2, b3, b4, b5⟩ := h3 b hm
      have := pySlice_length X.rows (a := b.1) (b := b.2) (by omega) (by omega) b4
      simp only [Option.toList_some, List.flatMap_cons, List.flatMap_nil, List.append_nil]
      push_cast
      omega
  · rw [fV]
    rw [← List.map_take, ← pre k]
  · intro V' hV'
    rw [form (k + 1) V' hV', fV]
    rw [← List.map_take, ← pre (k + 1)]

/-- The array after `k` passes of `predict`. -/
theorem predictedTo_form {env : Env K} {fs : Files K} {e : ELM K} {fX : DataArg K} {Y V : Mat K} {istart : Nat} {icount : Option Nat}
    (hb : 0 < e.batch) (hc : Consistent e.nnet) (h : e.predict env fs fX = .ok Y) {k : Nat}
    (hV : e.predictedTo env fs fX istart (icount.map (↑)) k = .ok V) :
    V.cols = (samplesIn Y istart icount).cols ∧ V.nrows = (samplesIn Y istart icount).nrows ∧
      ∃ m m' : Nat, (m ≤ m' ∧ (m' : Int) ≤ m + e.batch) ∧
        V.rows = (samplesIn Y istart icount).rows.take m ++ (Mat.zeros (samplesIn Y istart icount).nrows V.cols : Mat K).rows.drop m ∧
        ∀ V', e.predictedTo env fs fX istart (icount.map (↑)) (k + 1) = .ok V' →
          V'.rows = (samplesIn Y istart icount).rows.take m' ++ (Mat.zeros (samplesIn Y istart icount).nrows V.cols : Mat K).rows.drop m' := by
  unfold ELM.predict at h
  obtain ⟨r, hr, h⟩ := bind_ok h
  cases r with
  | none => cases h
  | some X =>
    simp only at h
    obtain ⟨hne, B, g, hB, rfl, hg⟩ := predict_rows h
    have hBc : B.cols = e.nnet.outputs := (hc.weights B hB).2.2
    have hs : samplesIn (⟨B.cols, X.rows.map g⟩ : Mat K) istart icount = ⟨B.cols, (rowsIn X.rows istart icount).map g⟩ := by
      rw [samplesIn_rowsIn, rowsIn_map]
    have hrun : ∀ k V, e.predictedTo env fs fX istart (icount.map (↑)) k = .ok V → outLoop (e.nnet.predict env) e.batch X B.cols istart icount k = .ok V := by
      intro k V hV
      unfold ELM.predictedTo at hV
      obtain ⟨_, _, hV⟩ := bind_ok hV
      obtain ⟨_, _, hV⟩ := bind_ok hV
      obtain ⟨o, ho, hV⟩ := bind_ok hV
      rw [hr] at ho
      injection ho with ho
      subst ho
      rw [← hBc] at hV
      exact hV
    obtain ⟨a1, a2, m, m', a3, a4, a5⟩ := outLoop_form hb hg (hrun k V hV)
    rw [hs]
    simp only [Mat.nrows_mk, List.length_map]
    exact ⟨a1, a2, m, m', a3, a4, fun V' hV' => a5 V' (hrun _ V' hV')⟩

/-- The array after `k` passes of `project`. -/
theorem projectedTo_form [IsStrictOrderedRing K] {env : Env K} {fs : Files K} {e : ELM K} {fX : DataArg K} {H V : Mat K} {icount : Option Nat}
    (hb : 0 < e.batch) (hc : Consistent e.nnet) (h : e.project env fs fX = .ok H) {k : Nat}
    (hV : e.projectedTo env fs fX 0 (icount.map (↑)) k = .ok V) :
    V.cols = (samplesIn H 0 icount).cols ∧ V.nrows = (samplesIn H 0 icount).nrows ∧
      ∃ m m' : Nat, (m ≤ m' ∧ (m' : Int) ≤ m + e.batch) ∧
        V.rows = (samplesIn H 0 icount).rows.take m ++ (Mat.zeros (samplesIn H 0 icount).nrows V.cols : Mat K).rows.drop m ∧
        ∀ V', e.projectedTo env fs fX 0 (icount.map (↑)) (k + 1) = .ok V' →
          V'.rows = (samplesIn H 0 icount).rows.take m' ++ (Mat.zeros (samplesIn H 0 icount).nrows V.cols : Mat K).rows.drop m' := by
  unfold ELM.project at h
  obtain ⟨r, hr, h⟩ := bind_ok h
  cases r with
  | none => cases h
  | some X =>
    simp only at h
    obtain ⟨hne, g, rfl, hg⟩ := project_rows h
    have hL : e.nnet.L.getD 0 = width e.nnet.neurons := by
      rw [width_size hc]
      rcases hc.count with h | ⟨_, h⟩
      · rw [h]; rfl
      · exact absurd h hne
    have hs : samplesIn (⟨width e.nnet.neurons, X.rows.map g⟩ : Mat K) 0 icount = ⟨width e.nnet.neurons, (rowsIn X.rows 0 icount).map g⟩ := by
      rw [samplesIn_rowsIn, rowsIn_map]
    have hrun : ∀ k V, e.projectedTo env fs fX 0 (icount.map (↑)) k = .ok V →
        outLoop (e.nnet.project env) e.batch X (width e.nnet.neurons) 0 icount k = .ok V := by
      intro k V hV
      unfold ELM.projectedTo at hV
      obtain ⟨_, _, hV⟩ := bind_ok hV
      obtain ⟨o, ho, hV⟩ := bind_ok hV
      rw [hr] at ho
      injection ho with ho
      subst ho
      simp only [hL] at hV
      unfold outLoop
      simpa using hV
    obtain ⟨a1, a2, m, m', a3, a4, a5⟩ := outLoop_form hb hg (hrun k V hV)
    rw [hs]
    simp only [Mat.nrows_mk, List.length_map]
    exact ⟨a1, a2, m, m', a3, a4, fun V' hV' => a5 V' (hrun _ V' hV')⟩

/-- `project` into a file is the loop run to its end. -/
theorem projectedTo_all (env : Env K) (fs : Files K) (e : ELM K) (fX : DataArg K) (istart : Int) (icount : Option Int) :
    ∃ n, ∀ k, n ≤ k → e.projectedTo env fs fX istart icount k = e.hProject env fs fX .file istart icount := by
  unfold ELM.projectedTo ELM.hProject
  cases pyAssert (!e.nnet.neurons.isEmpty) with
  | error x => exact ⟨0, fun k _ => rfl⟩
  | ok _ =>
    simp only [bind, Except.bind]
    cases checkOne fs e.nnet.inputs fX with
    | error x => exact ⟨0, fun k _ => rfl⟩
    | ok o =>
      cases o with
      | none => exact ⟨0, fun k _ => rfl⟩
      | some X =>
        simp only
        cases hBatches e.batch istart (rangeCount X.nrows istart icount) with
        | error x => exact ⟨0, fun k _ => rfl⟩
        | ok bs =>
          refine ⟨bs.length, fun k hk => ?_⟩
          simp only
          rw [List.take_of_length_le hk]

/-- Entry of a matrix made of the first `m` rows of one and zeros. -/
theorem prefix_get {R V : Mat K} {m c : Nat} (h : V.rows = R.rows.take m ++ (Mat.zeros R.nrows c : Mat K).rows.drop m) (i j : Nat)
    (hi : i < R.nrows) : V.get i j = if i < m then R.get i j else 0 := by
  have hR : R.rows.length = R.nrows := rfl
  unfold Mat.get
  rw [h]
  simp only [List.getD_eq_getElem?_getD]
  by_cases hm : i < m
  · rw [if_pos hm, List.getElem?_append_left (by rw [List.length_take]; omega), List.getElem?_take_of_lt hm]
  · rw [if_neg hm, List.getElem?_append_right (by rw [List.length_take]; omega), List.length_take, List.getElem?_drop]
    have : m + (i - min m R.rows.length) = i := by omega
    rw [this]
    unfold Mat.zeros Mat.ofFn
    simp only [List.getElem?_map, List.getElem?_range hi, Option.map_some, Option.getD_some]
    rcases Nat.lt_or_ge j c with hj | hj
    · rw [List.getElem?_range hj]; rfl
    · rw [List.getElem?_eq_none (by simpa using hj)]; rfl

/-- C110 (contents), the part that holds.  In-memory prediction of all data gives `Y`.  Prediction of a range into a file dies at any point.  Then the
file is as it was before, or holds no array, or holds an array of the final shape in which each value is the right prediction or zero: up to
some row the right predictions, from one batch further on zeros.

Missing for the full property: an earlier complete result in that file is destroyed (`C110_previous_refuted`), and nothing in the file tells
the zeros that were never written from predictions. -/
theorem C110_contents_partial (env : Env K) (fs : Files K) (e : ELM K) (fX : DataArg K) (Y : Mat K) (istart : Nat) (icount : Option Nat)
    (hb : 0 < e.batch) (hc : Consistent e.nnet) (h : e.predict env fs fX = .ok Y) (old left : Option (H5 K))
    (hl : PredictLeft env fs e fX istart (icount.map (↑)) old left) :
    left = old ∨ left = none ∨ ∃ f, left = some f ∧ f.data.cols = (samplesIn Y istart icount).cols ∧
      f.data.nrows = (samplesIn Y istart icount).nrows ∧
      ∃ m : Nat, ∀ i < f.data.nrows, ∀ j < f.data.cols,
        (i < m → f.data.get i j = (samplesIn Y istart icount).get i j) ∧ ((m : Int) + e.batch ≤ i → f.data.get i j = 0) ∧
        (f.data.get i j = (samplesIn Y istart icount).get i j ∨ f.data.get i j = 0) := by
  cases hl with
  | before => exact .inl rfl
  | truncated => exact .inr (.inl rfl)
  | batches k V hV =>
    obtain ⟨a1, a2, m, m', ⟨a3, a4⟩, a5, a6⟩ := predictedTo_form hb hc h hV
    refine .inr (.inr ⟨_, rfl, a1, a2, m, fun i hi j hj => ?_⟩)
    simp only at hi hj ⊢
    rw [prefix_get a5 i j (by omega)]
    split
    · exact ⟨fun _ => rfl, fun _ => by omega, .inl rfl⟩
    · exact ⟨fun _ => by omega, fun _ => rfl, .inr rfl⟩
  | torn k V V' Z hV hV' hw hc' hn hz =>
    obtain ⟨a1, a2, m, m', ⟨a3, a4⟩, a5, a6⟩ := predictedTo_form hb hc h hV
    refine .inr (.inr ⟨_, rfl, hc'.trans a1, hn.trans a2, m, fun i hi j hj => ?_⟩)
    simp only at hi hj ⊢
    have hz := hz i (by omega) j (by omega)
    rw [prefix_get a5 i j (by omega), prefix_get (a6 V' hV') i j (by omega)] at hz
    by_cases h1 : i < m
    · rw [if_pos h1, if_pos (by omega)] at hz
      have hz : Z.get i j = (samplesIn Y istart icount).get i j := by tauto
      exact ⟨fun _ => hz, fun _ => by omega, .inl hz⟩
    · rw [if_neg h1] at hz
      by_cases h2 : i < m'
      · rw [if_pos h2] at hz
        exact ⟨fun _ => by omega, fun _ => by omega, by tauto⟩
      · rw [if_neg h2] at hz
        have hz : Z.get i j = 0 := by tauto
        exact ⟨fun _ => by omega, fun _ => hz, .inr hz⟩

/-- C110 (contents, projection), the part that holds.  In-memory projection of all data gives `H`.  Projection of the first samples into a file dies at any point.  Then the
file is as it was before, or holds no array, or holds an array of the final shape in which each value is the right neuron output or zero: up to
some row the right outputs, from one batch further on zeros.

Missing for the full property: an earlier complete result in that file is destroyed (as for predictions), and nothing in the file tells
the zeros that were never written from outputs of neurons.  Ranges that do not start at the first sample fail anyway (C45). -/
theorem C110_project_contents_partial [IsStrictOrderedRing K] (env : Env K) (fs : Files K) (e : ELM K) (fX : DataArg K) (H : Mat K) (icount : Option Nat)
    (hb : 0 < e.batch) (hc : Consistent e.nnet) (h : e.project env fs fX = .ok H) (old left : Option (H5 K))
    (hl : ProjectLeft env fs e fX 0 (icount.map (↑)) old left) :
    left = old ∨ left = none ∨ ∃ f, left = some f ∧ f.data.cols = (samplesIn H 0 icount).cols ∧
      f.data.nrows = (samplesIn H 0 icount).nrows ∧
      ∃ m : Nat, ∀ i < f.data.nrows, ∀ j < f.data.cols,
        (i < m → f.data.get i j = (samplesIn H 0 icount).get i j) ∧ ((m : Int) + e.batch ≤ i → f.data.get i j = 0) ∧
        (f.data.get i j = (samplesIn H 0 icount).get i j ∨ f.data.get i j = 0) := by
  cases hl with
  | before => exact .inl rfl
  | truncated => exact .inr (.inl rfl)
  | batches k V hV =>
    obtain ⟨a1, a2, m, m', ⟨a3, a4⟩, a5, a6⟩ := projectedTo_form hb hc h hV
    refine .inr (.inr ⟨_, rfl, a1, a2, m, fun i hi j hj => ?_⟩)
    simp only at hi hj ⊢
    rw [prefix_get a5 i j (by omega)]
    split
    · exact ⟨fun _ => rfl, fun _ => by omega, .inl rfl⟩
    · exact ⟨fun _ => by omega, fun _ => rfl, .inr rfl⟩
  | torn k V V' Z hV hV' hw hc' hn hz =>
    obtain ⟨a1, a2, m, m', ⟨a3, a4⟩, a5, a6⟩ := projectedTo_form hb hc h hV
    refine .inr (.inr ⟨_, rfl, hc'.trans a1, hn.trans a2, m, fun i hi j hj => ?_⟩)
    simp only at hi hj ⊢
    have hz := hz i (by omega) j (by omega)
    rw [prefix_get a5 i j (by omega), prefix_get (a6 V' hV') i j (by omega)] at hz
    by_cases h1 : i < m
    · rw [if_pos h1, if_pos (by omega)] at hz
      have hz : Z.get i j = (samplesIn H 0 icount).get i j := by tauto
      exact ⟨fun _ => hz, fun _ => by omega, .inl hz⟩
    · rw [if_neg h1] at hz
      by_cases h2 : i < m'
      · rw [if_pos h2] at hz
        exact ⟨fun _ => by omega, fun _ => by omega, by tauto⟩
      · rw [if_neg h2] at hz
        have hz : Z.get i j = 0 := by tauto
        exact ⟨fun _ => by omega, fun _ => hz, .inr hz⟩

/-- C110 (repetition).  After an interrupted prediction into the file `fY`, the same call on the same data (in another file, or in
memory) writes exactly what it would have written the first time. -/
theorem C110_repeat (env : Env K) (fs : Files K) (e : ELM K) (fX : DataArg K) (fY : String) (hne : fX ≠ .path fY) (istart : Int)
    (icount : Option Int) (left : Option (H5 K)) :
    e.hPredict env (fun g => if g = fY then left else fs g) fX .file istart icount = e.hPredict env fs fX .file istart icount := by
  have : checkOne (fun g => if g = fY then left else fs g) e.nnet.inputs fX = checkOne fs e.nnet.inputs fX := by
    unfold checkOne
    cases fX with
    | path f =>
      have : f ≠ fY := fun h => hne (by rw [h])
      simp only [if_neg this]
    | _ => rfl
  unfold ELM.hPredict
  rw [this]

/-- C110 (repetition, projection).  The same for `project`. -/
theorem C110_project_repeat (env : Env K) (fs : Files K) (e : ELM K) (fX : DataArg K) (fH : String) (hne : fX ≠ .path fH) (istart : Int)
    (icount : Option Int) (left : Option (H5 K)) :
    e.hProject env (fun g => if g = fH then left else fs g) fX .file istart icount = e.hProject env fs fX .file istart icount := by
  have : checkOne (fun g => if g = fH then left else fs g) e.nnet.inputs fX = checkOne fs e.nnet.inputs fX := by
    unfold checkOne
    cases fX with
    | path f =>
      have : f ≠ fH := fun h => hne (by rw [h])
      simp only [if_neg this]
    | _ => rfl
  unfold ELM.hProject
  rw [this]

/-- C110 (previous result), refuted: a complete result of an earlier call in that file does not survive. -/
theorem C110_previous_refuted :
    ¬ ∀ (e : ELM ℚ) (fs : Files ℚ) (fX : DataArg ℚ) (old left : H5 ℚ), e.hPredict QEnv.env fs fX .file 0 none = .ok old.data →
        PredictLeft QEnv.env fs e fX 0 none (some old) (some left) → left.data = old.data := by
  intro h
  have h1 : exTrained.hPredict QEnv.env (fun _ => none) (.mat ⟨2, [[1, 0], [0, 1], [1, 1]]⟩) .file 0 none = .ok ⟨1, [[5], [6], [8]]⟩ := by
    decide +kernel
  have h2 := h exTrained (fun _ => none) (.mat ⟨2, [[1, 0], [0, 1], [1, 1]]⟩) ⟨⟨1, [[5], [6], [8]]⟩, none, none⟩ ⟨⟨1, [[5], [6], [0]]⟩, none, none⟩ h1
    (.batches 1 _ (by decide +kernel))
  exact absurd h2 (by decide +kernel)

/-- The hypotheses are met: three samples in batches of two, prediction dies in the second batch. -/
example : exTrained.predict QEnv.env (fun _ => none) (.mat ⟨2, [[1, 0], [0, 1], [1, 1]]⟩) = .ok ⟨1, [[5], [6], [8]]⟩ ∧
    0 < exTrained.batch ∧ Consistent exTrained.nnet ∧
    PredictLeft QEnv.env (fun _ => none) exTrained (.mat ⟨2, [[1, 0], [0, 1], [1, 1]]⟩) (0 : Nat) (Option.map (↑) (none : Option Nat)) none
      (some ⟨⟨1, [[5], [6], [0]]⟩, none, none⟩) :=
  ⟨by decide +kernel, by decide +kernel, exTrained_consistent, .batches 1 _ (by decide +kernel)⟩

/-- The same for a projection that dies while its second batch is written. -/
example : exTrained.project QEnv.env (fun _ => none) (.mat ⟨2, [[1, 0], [0, 1], [2, 3], [4, 4]]⟩) = .ok ⟨2, [[1, 1], [0, 2], [2, 4], [4, 5]]⟩ ∧
    ProjectLeft QEnv.env (fun _ => none) exTrained (.mat ⟨2, [[1, 0], [0, 1], [2, 3], [4, 4]]⟩) 0 (Option.map (↑) (none : Option Nat)) none
      (some ⟨⟨2, [[1, 1], [0, 2], [0, 4], [4, 0]]⟩, none, none⟩) :=
  ⟨by decide +kernel, .torn 1 ⟨2, [[1, 1], [0, 2], [0, 0], [0, 0]]⟩ ⟨2, [[1, 1], [0, 2], [2, 4], [4, 5]]⟩ _ (by decide +kernel) (by decide +kernel)
    (by simp [Mat.WF]) rfl rfl (by decide +kernel)⟩

end Hpelm.Props
