import Verif.Props.C14_Ridge

/-!
# C18–C20 — sample weights in weighted classification
-/

namespace Hpelm.Props
open Hpelm Spec Finset
variable {K : Type} [Field K] [LinearOrder K] [IsStrictOrderedRing K]
set_option linter.unusedSectionVars false

/-! ## C18 -/

/-- C18.  After plain training the accumulated matrices are exactly the regulariser plus the sum over the samples of
(weight of the sample's class) × hₛ hₛᵀ, and the sum of weight × hₛ tₛᵀ.  This holds for every batch size. -/
theorem C18_weighted_sums (env : Env K) (hx : env.Exact)
    (fs : Files K) (rnd : Rnd) (e e' : ELM K) (X T : Mat K) (args : List String) (kw : Kwargs K) (r : Option K)
    (hsel : "V" ∉ args ∧ "CV" ∉ args ∧ "LOO" ∉ args) (hb : 0 < kw.batch.getD e.batch) (hTw : T.WF)
    (hsq : Given args "WC" → ∀ x : K, 0 ≤ x → env.sqrt x * env.sqrt x = x)
    (hT : Given args "WC" → OneHot T) (hw : ∀ ws, kw.w = some ws → ∀ x ∈ ws, 0 ≤ x)
    (h : e.train env fs rnd (.mat X) (.mat T) args kw = (.ok r, e')) :
    ∃ (H HH HT : Mat K) (w : Nat → K), e'.nnet.project env X = .ok H ∧ e'.nnet.getCorr = .ok (some (HH, HT)) ∧
      SampleWeights e'.classification e'.wc T w ∧
      (∀ i < H.cols, ∀ j < H.cols, HH.get i j = (if i = j then e.nnet.norm else 0) + ∑ s ∈ range T.nrows, w s * (H.get s i * H.get s j)) ∧
      (∀ i < H.cols, ∀ j < T.cols, HT.get i j = ∑ s ∈ range T.nrows, w s * (H.get s i * T.get s j)) := by
  obtain ⟨H, S, HT, w, p0, hN, p1, p2, p3, p4, p5, p6, p7, p8, p9, p10, p11, p12, p13, p14⟩ :=
    train_plain hx hsq hsel.1 hsel.2.1 hsel.2.2 hb hTw hT hw h
  refine ⟨H, S, HT, w, by rw [p5]; exact p1, getCorr_store _ p6 (by rw [p5]; rfl), p11, ?_, ?_⟩
  · intro i hi j hj
    rw [p13 i hi j hj]
    simp only [mul_assoc]
  · intro i hi j hj
    rw [p14 i hi j hj]
    simp only [mul_assoc]

/-- C18 for `add_data` on an object that holds no accumulated data. -/
theorem C18_weighted_sums_add_data (env : Env K) (hx : env.Exact)
    (e e' : ELM K) (X T : Mat K) (hb : 0 < e.batch) (hN : X.nrows = T.nrows) (hTw : T.WF) (hc : e.nnet.corr = none)
    (hsq : e.classification = some "wc" → ∀ x : K, 0 ≤ x → env.sqrt x * env.sqrt x = x)
    (hT : e.classification = some "wc" → OneHot T)
    (hw : e.wc = none ∨ ∃ ws : List K, e.wc = some (ws.map some) ∧ (∀ x ∈ ws, 0 ≤ x) ∧ ws.length = T.cols)
    (h : e.addData env X T = .ok e') :
    ∃ (H HH HT : Mat K) (w : Nat → K), e'.nnet.project env X = .ok H ∧ e'.nnet.getCorr = .ok (some (HH, HT)) ∧
      SampleWeights e'.classification e'.wc T w ∧
      (∀ i < H.cols, ∀ j < H.cols, HH.get i j = (if i = j then e.nnet.norm else 0) + ∑ s ∈ range T.nrows, w s * (H.get s i * H.get s j)) ∧
      (∀ i < H.cols, ∀ j < T.cols, HT.get i j = ∑ s ∈ range T.nrows, w s * (H.get s i * T.get s j)) := by
  obtain ⟨H, S, HT, w, p0, p1, p2, p3, p4, p5, p6, p7, p8, p9, p10, p11, p12, p13, p14⟩ :=
    addData_fresh hx hsq hb hN hTw hc hT hw h
  refine ⟨H, S, HT, w, by rw [p5]; exact p1, getCorr_store _ p6 (by rw [p5]; rfl), p11, ?_, ?_⟩
  · intro i hi j hj
    rw [p13 i hi j hj]
    simp only [mul_assoc]
  · intro i hi j hj
    rw [p14 i hi j hj]
    simp only [mul_assoc]

/-- Weights 4 and 9 for the two classes (exact square roots in `QEnv`), batches of 2: sample 1 counts 4-fold, the others 9-fold. -/
example : ((exModel 2 2 (some "wc") (some [some 4, some 9])).addData QEnv.env ⟨2, [[1, 0], [0, 1], [0, 2]]⟩ ⟨2, [[1, 0], [0, 1], [0, 1]]⟩).bind
    (fun e => e.nnet.getCorr) = .ok (some (⟨2, [[5, 0], [0, 46]]⟩, ⟨2, [[4, 0], [0, 27]]⟩)) := by decide +kernel

/-! ## C19 -/

theorem sum_colSums {T : Mat K} (hT : OneHot T) : (colSums T).sum = (T.nrows : K) := by
  obtain ⟨c, rows⟩ := T
  unfold colSums
  simp only [Mat.nrows_mk]
  rw [sum_range_list]
  induction rows with
  | nil => simp
  | cons r rows ih =>
    obtain ⟨k, hk⟩ := hT r List.mem_cons_self
    have := ih (fun r' hr' => hT r' (List.mem_cons_of_mem _ hr'))
    simp only [List.map_cons, List.sum_cons, List.length_cons]
    rw [Finset.sum_add_distrib, this]
    have h1 : ∑ j ∈ range c, r.getD j 0 = ∑ j ∈ range c, if j = k then (1 : K) else 0 := by
      apply Finset.sum_congr rfl
      intro j hj
      exact hk.2.2 j (Finset.mem_range.1 hj)
    rw [h1, Finset.sum_ite_eq' (range c) k, if_pos (Finset.mem_range.2 hk.1)]
    push_cast; ring

/-- C19.  Training with 'wc' and no explicit weights on one-hot targets where every class occurs: the weight of class k times
the number of samples of class k is the number of samples, for every class. -/
theorem C19_auto_weights_balance (env : Env K) (hx : env.Exact)
    (fs : Files K) (rnd : Rnd) (e e' : ELM K) (X T : Mat K) (args : List String) (kw : Kwargs K) (r : Option K)
    (hsel : "V" ∉ args ∧ "CV" ∉ args ∧ "LOO" ∉ args) (hw : kw.w = none) (hT : OneHot T)
    (hall : ∀ k < T.cols, ∃ row ∈ T.rows, row.getD k 0 = 1)
    (h : e.train env fs rnd (.mat X) (.mat T) args kw = (.ok r, e')) (hwc : e'.classification = some "wc") :
    ∃ ws, e'.wc = some ws ∧ ws.length = T.cols ∧ ∀ k < T.cols, ∃ x, ws[k]? = some (some x) ∧
      ((T.rows.filter fun row => row.getD k 0 = 1).length : K) * x = (T.nrows : K) := by
  obtain ⟨X', T', e1, h1, h2, h3⟩ := train_ok h
  have hXT : T' = T := by
    unfold checkBoth checkData checkOne at h1
    simp only [bind_assoc, pure_bind] at h1
    obtain ⟨_, _, h1⟩ := bind_ok h1
    obtain ⟨_, _, h1⟩ := bind_ok h1
    obtain ⟨_, _, h1⟩ := bind_ok h1
    injection h1 with h1
    injection h1 with h1 h2
    exact h2.symm
  subst hXT
  obtain ⟨q1, q2, q3, q4, q5⟩ := parseArgs_kw h2
  obtain ⟨_, e2, n, a1, a2, a3⟩ := trainBody_plain hsel.1 hsel.2.1 hsel.2.2 h3
  obtain ⟨c, rfl⟩ := addData_fields a1
  have hcls : e1.classification = some "wc" := by
    rw [a3] at hwc
    have : (e1.autoWc env (colSums T')).classification = some "wc" := hwc
    rwa [autoWc_cls] at this
  have hnone : e1.wc = none := by
    rcases q1 with q1 | ⟨ws, k1, _⟩
    · exact q1
    · rw [hw] at k1; cases k1
  have hwc' : e'.wc = some (autoWeights (colSums T')) := by
    rw [a3]
    show (e1.autoWc env (colSums T')).wc = _
    unfold ELM.autoWc
    rw [if_pos ⟨hcls, hnone⟩, Mat.map_of_exact (hx _)]
  have hlen : (colSums T').length = T'.cols := by simp [colSums]
  refine ⟨_, hwc', by simp [autoWeights, hlen], ?_⟩
  intro k hk
  have hcs := colSums_oneHot hT k hk
  have hkl : k < (colSums T').length := by rw [hlen]; exact hk
  rw [List.getD_eq_getElem?_getD, List.getElem?_eq_getElem hkl] at hcs
  simp only [Option.getD_some] at hcs
  have hcount : (T'.rows.filter fun row => row.getD k 0 = 1).length = T'.rows.countP fun r => decide (classOf T'.cols r = k) := by
    rw [← List.countP_eq_length_filter]
    apply List.countP_congr
    intro row hrow
    obtain ⟨k', hk'⟩ := hT row hrow
    rw [classOf_isClass hk']
    simp only [decide_eq_true_eq]
    rw [hk'.2.2 k hk]
    constructor
    · intro h
      by_contra hne
      rw [if_neg (fun h' => hne h'.symm)] at h
      exact zero_ne_one h
    · intro h; rw [if_pos h.symm]
  have hpos : 0 < (T'.rows.filter fun row => row.getD k 0 = 1).length := by
    obtain ⟨row, hr1, hr2⟩ := hall k hk
    exact List.length_pos_of_mem (List.mem_filter.2 ⟨hr1, by simpa using hr2⟩)
  have hne : (colSums T')[k] ≠ 0 := by
    rw [hcs, ← hcount]
    exact Nat.cast_ne_zero.2 (by omega)
  refine ⟨(colSums T').sum / (colSums T')[k], ?_, ?_⟩
  · unfold autoWeights
    rw [List.getElem?_map, List.getElem?_eq_getElem hkl]
    simp only [Option.map_some]
    rw [if_neg hne]
  · rw [sum_colSums hT, hcount, ← hcs]
    field_simp

/-- Two samples of class 0 and one of class 1: weights 3/2 and 3. -/
example : (((exModel 2 2 none none).train QEnv.env (fun _ => none) ⟨fun _ => []⟩ (.mat ⟨2, [[1, 0], [0, 1], [0, 2]]⟩)
    (.mat ⟨2, [[1, 0], [0, 1], [1, 0]]⟩) ["wc"] {}).2).wc = some [some (3 / 2), some 3] := by decide +kernel

/-! ## C20 -/

/-- C20 is false.  The targets [[1,1],[1,0],[0,0]] are accepted with class weights (4, 9); the second sample is one-hot of class 0,
yet no assignment of sample weights that gives it the weight 4 of its class explains the accumulated matrix: it is weighted
with 9, the weight of a label of the sample before it. -/
theorem C20_shift_refuted :
    ¬ ∀ (e e' : ELM ℚ) (X T H HH HT : Mat ℚ) (ws : List ℚ), e.classification = some "wc" → e.wc = some (ws.map some) → ws.length = T.cols →
        0 < e.batch → e.nnet.corr = none → X.nrows = T.nrows → e.addData QEnv.env X T = .ok e' → e.nnet.project QEnv.env X = .ok H →
        e'.nnet.getCorr = .ok (some (HH, HT)) →
        ∃ w : Nat → ℚ, (∀ s < T.nrows, ∀ k, IsClass T.cols (T.rows.getD s []) k → w s = ws.getD k 0) ∧
          ∀ i < H.cols, ∀ j < H.cols, HH.get i j = (if i = j then e.nnet.norm else 0) + ∑ s ∈ range T.nrows, w s * (H.get s i * H.get s j) := by
  intro h
  obtain ⟨w, hw, hHH⟩ := h (exModel 2 3 (some "wc") (some [some 4, some 9]))
    { exModel 2 3 (some "wc") (some [some 4, some 9]) with
      nnet := { (exModel 2 3 none none).nnet with corr := some (⟨2, [[10, 0], [0, 5]]⟩, ⟨2, [[9, 0], [0, 0]]⟩) } }
    ⟨2, [[0, 0], [1, 0], [0, 1]]⟩ ⟨2, [[1, 1], [1, 0], [0, 0]]⟩ ⟨2, [[0, 0], [1, 0], [0, 1]]⟩ ⟨2, [[10, 0], [0, 5]]⟩ ⟨2, [[9, 0], [0, 0]]⟩ [4, 9]
    rfl rfl rfl (by decide +kernel) rfl rfl (by decide +kernel) (by decide +kernel) (by decide +kernel)
  have h1 := hw 1 (by decide +kernel) 0 (by
    refine ⟨Nat.two_pos, rfl, ?_⟩
    intro j hj
    replace hj : j < 2 := hj
    have : j = 0 ∨ j = 1 := by omega
    rcases this with rfl | rfl <;> rfl)
  have h2 := hHH 0 Nat.two_pos 0 Nat.two_pos
  have h3 : (⟨2, [[1, 1], [1, 0], [0, 0]]⟩ : Mat ℚ).nrows = 3 := rfl
  rw [h3, Finset.sum_range_succ, Finset.sum_range_succ, Finset.sum_range_one, h1] at h2
  simp [Mat.get, exModel] at h2
  norm_num at h2

/-- A further defect of the same kind: if a batch contains a single 1 in total, its weight is used for every sample. -/
example : ((exModel 2 3 (some "wc") (some [some 4, some 9])).addData QEnv.env ⟨2, [[1, 0], [0, 1]]⟩ ⟨2, [[0, 0], [0, 1]]⟩).map (·.nnet.corr) =
    .ok (some (⟨2, [[10, 0], [0, 10]]⟩, ⟨2, [[0, 0], [0, 9]]⟩)) := by decide +kernel

/-- C20 for one-hot targets: every sample has exactly the weight of its class. -/
theorem C20_shift_partial (env : Env K) (hx : env.Exact) (hsq : ∀ x : K, 0 ≤ x → env.sqrt x * env.sqrt x = x)
    (e e' : ELM K) (X T : Mat K) (ws : List K) (hcls : e.classification = some "wc") (hwc : e.wc = some (ws.map some)) (hlen : ws.length = T.cols)
    (hpos : ∀ x ∈ ws, 0 ≤ x) (hb : 0 < e.batch) (hN : X.nrows = T.nrows) (hc : e.nnet.corr = none) (hT : OneHot T)
    (h : e.addData env X T = .ok e') :
    ∃ (H HH HT : Mat K) (w : Nat → K), e'.nnet.project env X = .ok H ∧ e'.nnet.getCorr = .ok (some (HH, HT)) ∧
      (∀ s < T.nrows, ∀ k, IsClass T.cols (T.rows.getD s []) k → w s = ws.getD k 0) ∧
      (∀ i < H.cols, ∀ j < H.cols, HH.get i j = (if i = j then e.nnet.norm else 0) + ∑ s ∈ range T.nrows, w s * (H.get s i * H.get s j)) ∧
      (∀ i < H.cols, ∀ j < T.cols, HT.get i j = ∑ s ∈ range T.nrows, w s * (H.get s i * T.get s j)) := by
  have hTw : T.WF := fun r hr => by obtain ⟨k, hk⟩ := hT r hr; exact hk.2.1
  obtain ⟨c, hc'⟩ := addData_fields h
  obtain ⟨H, HH, HT, w, a1, a2, a3, a4, a5⟩ := C18_weighted_sums_add_data env hx e e' X T hb hN hTw hc (fun _ => hsq) (fun _ => hT)
    (Or.inr ⟨ws, hwc, hpos, hlen⟩) h
  refine ⟨H, HH, HT, w, a1, a2, ?_, a4, a5⟩
  intro s hs k hk
  have e1 : e'.classification = some "wc" := by rw [hc']; exact (autoWc_cls env e _).trans hcls
  have e2 : e'.wc = some (ws.map some) := by
    rw [hc']
    show (e.autoWc env (colSums T)).wc = _
    unfold ELM.autoWc; rw [if_neg (by rw [hwc]; simp), hwc]
  obtain ⟨l, k', i1, i2, i3⟩ := (a3 s hs).2 e1
  rw [e2] at i1
  injection i1 with i1
  have hkk : k' = k := by rw [← classOf_isClass i2, ← classOf_isClass hk]
  rw [hkk, ← i1, List.getElem?_map] at i3
  rw [List.getD_eq_getElem?_getD]
  cases hg : ws[k]? with
  | none => rw [hg] at i3; cases i3
  | some x =>
    rw [hg] at i3
    simp only [Option.map_some] at i3
    injection i3 with i3
    injection i3 with i3
    rw [← i3]; rfl

/-- A wrong number of weights is noticed (unless it is one, which is used for all samples). -/
theorem C20_length_checked (env : Env K) (n n' : NNet K) (X T : Mat K) (v : List K) (h : n.addBatch env X T (some v) = .ok n') :
    v.length = X.nrows ∨ v.length = 1 := by
  rw [addBatch_eq] at h
  cases hp : n.project env X with
  | error x => rw [hp] at h; cases h
  | ok H =>
    rw [hp] at h
    simp only [Except.bind] at h
    unfold NNet.accum at h
    obtain ⟨⟨H', T'⟩, hw, h⟩ := bind_ok h
    unfold weighted at hw
    obtain ⟨H2, hw1, hw⟩ := bind_ok hw
    have hHn : H.nrows = X.nrows := by
      obtain ⟨_, _, _, rfl⟩ := (project_ok_iff _ _ _ _).1 hp
      simp [Mat.nrows]
    unfold scaleRows at hw1
    split at hw1
    · left; rename_i hl; rw [← hHn, ← hl]; simp
    · right
      split at hw1
      · rename_i heq
        have := congrArg List.length heq
        simpa using this
      · cases hw1

end Hpelm.Props
