import Verif.Props.C93_WeightEffect
import Verif.Props.C09_C13_Batches

/-!
# C109 — training continued with more data
-/

set_option linter.unusedSectionVars false

namespace Hpelm.Props
open Hpelm Spec Finset
variable {K : Type} [Field K] [LinearOrder K]

/-- `model.add_data(X, T)` followed by `model.nnet.solve()`. -/
def continueWith (env : Env K) (e : ELM K) (X T : Mat K) : Except PyErr (ELM K) := do
  let e ← e.addData env X T
  let n ← e.nnet.solve env
  pure { e with nnet := n }

theorem solve_core {env : Env K} {a b : ELM K} (h : a.core = b.core) (hb : a.batch = b.batch) (hc : a.accelerator = b.accelerator) :
    (a.nnet.solve env >>= fun n => (pure { a with nnet := n } : Except PyErr (ELM K))) =
      b.nnet.solve env >>= fun n => pure { b with nnet := n } := by
  obtain ⟨n, b1, p1, a1, c1, w1, r1, k1⟩ := a
  obtain ⟨m, b2, p2, a2, c2, w2, r2, k2⟩ := b
  obtain ⟨h1, h2, h3, h4, h5, h6⟩ := core_of_eq h
  simp only at hb hc h1 h2 h3 h4 h5 h6
  subst hb hc h1 h2 h3 h4 h5
  have hm : m = { n with B := m.B } := by
    unfold NNet.noB at h6
    obtain ⟨⟩ := n
    obtain ⟨⟩ := m
    simp only [NNet.mk.injEq] at h6 ⊢
    tauto
  rw [hm]
  cases hcorr : n.corr with
  | none => simp only [NNet.solve, hcorr]
  | some c => simp only [NNet.solve, hcorr]; rfl

theorem addData_flags {env : Env K} {e e' : ELM K} {X T : Mat K} (h : e.addData env X T = .ok e') :
    e'.batch = e.batch ∧ e'.accelerator = e.accelerator := by
  obtain ⟨c, rfl⟩ := addData_fields h
  unfold ELM.autoWc
  split <;> exact ⟨rfl, rfl⟩

/-- C109 (continuation).  A model trained on a first part of the data (any kind of problem; in weighted classification with given
weights) and then given the second part by `add_data` and `solve` is exactly the model that one training on all the data gives. -/
theorem C109_continue (env : Env K) (fs : Files K) (rnd : Rnd) (e e' f : ELM K) (X1 T1 X2 T2 : Mat K) (args : List String) (kw : Kwargs K)
    (r : Option K) (hsel : "V" ∉ args ∧ "CV" ∉ args ∧ "LOO" ∉ args) (hb : 0 < kw.batch.getD e.batch)
    (h2 : X2.nrows = T2.nrows) (p1 : 0 < X1.nrows) (p2 : 0 < X2.nrows) (hXc : X2.cols = X1.cols) (hTc : T2.cols = T1.cols)
    (hw : Given args "WC" → kw.w ≠ none ∧ OneHot T1 ∧ OneHot T2)
    (h : e.train env fs rnd (.mat X1) (.mat T1) args kw = (.ok r, e')) :
    continueWith env e' X2 T2 = .ok f ↔
      e.train env fs rnd (.mat (vstack X1 X2)) (.mat (vstack T1 T2)) args kw = (.ok none, f) := by
  obtain ⟨X', T', e1, c1, c2, c3⟩ := train_ok h
  have hXT : X' = X1 ∧ T' = T1 ∧ X1.cols = e.nnet.inputs ∧ T1.cols = e.nnet.outputs ∧ X1.nrows = T1.nrows := by
    have := checkBoth_ok c1
    unfold checkBoth checkData checkOne at c1
    simp only [bind_assoc, pure_bind] at c1
    obtain ⟨_, _, c1⟩ := bind_ok c1
    obtain ⟨_, _, c1⟩ := bind_ok c1
    obtain ⟨_, _, c1⟩ := bind_ok c1
    injection c1 with c1
    injection c1 with c1 c2
    subst c1 c2
    exact ⟨rfl, rfl, this⟩
  obtain ⟨rfl, rfl, x1, x2, x3⟩ := hXT
  obtain ⟨rfl, e2, n, a1, a2, rfl⟩ := trainBody_plain hsel.1 hsel.2.1 hsel.2.2 c3
  obtain ⟨q1, q2, q3, q4, q5⟩ := parseArgs_kw c2
  have hparts := C11_parts_partial env e1 X' T' X2 T2 (by rw [q3]; exact hb) x3 h2 p1 p2 hXc.symm hTc.symm
    (fun hc => by
      have hg := (parseArgs_wc c2).1 hc
      obtain ⟨w1, w2, w3⟩ := hw hg
      cases hk : kw.w with
      | none => exact absurd hk w1
      | some ws =>
        obtain ⟨g1, g2⟩ := parseArgs_given hk hg c2
        exact ⟨⟨ws, g2, by rw [g1, x2]⟩, w2, w3⟩)
  rw [a1] at hparts
  have hparts : e2.addData env X2 T2 = e1.addData env (vstack X' X2) (vstack T' T2) := hparts
  -- the old output weights do not matter
  have hn : ({ e2 with nnet := n } : ELM K).core = e2.core := by
    unfold NNet.solve at a2
    split at a2
    · cases a2
    · injection a2 with a2
      rw [← a2]
      rfl
  have hsame := addData_core_same (env := env) X2 T2 hn rfl
  have hcont : continueWith env { e2 with nnet := n } X2 T2 = continueWith env e2 X2 T2 := by
    unfold continueWith
    cases hA : ({ e2 with nnet := n } : ELM K).addData env X2 T2 with
    | error x =>
      cases hB : e2.addData env X2 T2 with
      | error y => rw [hA, hB] at hsame; injection hsame with hsame; rw [hsame]
      | ok b => rw [hA, hB] at hsame; cases hsame
    | ok a =>
      cases hB : e2.addData env X2 T2 with
      | error y => rw [hA, hB] at hsame; cases hsame
      | ok b =>
        rw [hA, hB] at hsame
        injection hsame with hsame
        obtain ⟨d1, d2⟩ := addData_flags hA
        obtain ⟨d3, d4⟩ := addData_flags hB
        exact solve_core hsame (d1.trans d3.symm) (d2.trans d4.symm)
  have htrain : e.train env fs rnd (.mat (vstack X' X2)) (.mat (vstack T' T2)) args kw =
      (match continueWith env e2 X2 T2 with
        | .error x => (.error x, e1)
        | .ok f => (.ok none, f)) := by
    have hcb : checkBoth fs e.nnet (.mat (vstack X' X2)) (.mat (vstack T' T2)) = .ok (vstack X' X2, vstack T' T2) := by
      unfold checkBoth checkData checkOne pyAssert
      have y1 : (vstack X' X2).cols = e.nnet.inputs := x1
      have y2 : (vstack T' T2).cols = e.nnet.outputs := x2
      have y3 : (vstack X' X2).nrows = (vstack T' T2).nrows := by
        unfold vstack Mat.nrows at *
        simp only [List.length_append]
        omega
      simp [y1, y2, y3, bind, Except.bind, pure, Except.pure]
    unfold ELM.train
    rw [hcb]
    simp only [c2]
    have hbody : e1.trainBody env fs rnd (vstack X' X2) (vstack T' T2) args kw = (continueWith env e2 X2 T2).map fun f => (none, f) := by
      unfold ELM.trainBody continueWith
      rw [if_neg hsel.1, if_neg hsel.2.1, if_neg hsel.2.2, hparts]
      cases e1.addData env (vstack X' X2) (vstack T' T2) with
      | error x => rfl
      | ok a =>
        simp only [bind, Except.bind]
        cases a.nnet.solve env <;> rfl
    rw [hbody]
    cases continueWith env e2 X2 T2 <;> rfl
  rw [hcont, htrain]
  cases continueWith env e2 X2 T2 with
  | error x => simp
  | ok g => simp

variable [IsStrictOrderedRing K]

theorem isClass_unique {c : Nat} {r : List K} {k k' : Nat} (h : IsClass c r k) (h' : IsClass c r k') : k = k' := by
  by_contra hne
  have a := h.2.2 k h.1
  have b := h'.2.2 k h.1
  rw [a, if_pos rfl, if_neg hne] at b
  exact one_ne_zero b

theorem sampleWeights_unique {cls wc} {T T' : Mat K} {w w' : Nat → K} (h : SampleWeights cls wc T w) (h' : SampleWeights cls wc T' w')
    (hc : T'.cols = T.cols) (s s' : Nat) (hs : s < T.nrows) (hs' : s' < T'.nrows) (hr : T'.rows.getD s' [] = T.rows.getD s []) :
    w' s' = w s := by
  by_cases hk : cls = some "wc"
  · obtain ⟨l, k, a1, a2, a3⟩ := (h s hs).2 hk
    obtain ⟨l', k', b1, b2, b3⟩ := (h' s' hs').2 hk
    rw [a1] at b1
    injection b1 with b1
    subst b1
    rw [hc, hr] at b2
    rw [← isClass_unique a2 b2, a3] at b3
    injection b3 with b3
    injection b3 with b3
    exact b3.symm
  · rw [(h s hs).1 hk, (h' s' hs').1 hk]

theorem vstack_nrows (A B : Mat K) : (vstack A B).nrows = A.nrows + B.nrows := by
  unfold vstack Mat.nrows
  simp

theorem vstack_row_left {A B : Mat K} {s : Nat} (h : s < A.nrows) : (vstack A B).rows.getD s [] = A.rows.getD s [] := by
  unfold vstack
  simp only [List.getD_eq_getElem?_getD]
  rw [List.getElem?_append_left h]

theorem vstack_row_right {A B : Mat K} (s : Nat) : (vstack A B).rows.getD (A.nrows + s) [] = B.rows.getD s [] := by
  unfold vstack Mat.nrows
  simp only [List.getD_eq_getElem?_getD]
  rw [List.getElem?_append_right (by omega)]
  simp

/-- The loss on stacked data is the loss on the first part plus the fit on the second. -/
theorem ridgeLoss_vstack {H1 H2 T1 T2 B P : Mat K} {w w1 w2 : Nat → K} {lam : K} (hH : H1.nrows = T1.nrows) (hc : H2.cols = H1.cols)
    (hT : T2.cols = T1.cols)
    (h1 : ∀ s < T1.nrows, w s = w1 s) (h2 : ∀ s < T2.nrows, w (T1.nrows + s) = w2 s)
    (hP : ∀ s < T2.nrows, ∀ j < T2.cols, P.get s j = predEntry H2 B s j) :
    ridgeLoss (vstack H1 H2) (vstack T1 T2) w lam B = ridgeLoss H1 T1 w1 lam B + fitError w2 P T2 := by
  unfold ridgeLoss fitError
  have hcols : (vstack T1 T2).cols = T1.cols := rfl
  have hcolsH : (vstack H1 H2).cols = H1.cols := rfl
  rw [vstack_nrows, Finset.sum_range_add, hcols, hcolsH]
  have e1 : ∀ s < T1.nrows, ∀ j, predEntry (vstack H1 H2) B s j = predEntry H1 B s j := by
    intro s hs j
    unfold predEntry Mat.get
    rw [vstack_row_left (by omega)]
    rfl
  have e2 : ∀ s j, predEntry (vstack H1 H2) B (T1.nrows + s) j = predEntry H2 B s j := by
    intro s j
    unfold predEntry Mat.get
    rw [← hH, vstack_row_right, hcolsH, hc]
  have s1 : ∑ x ∈ range T1.nrows, w x * ∑ j ∈ range T1.cols, (predEntry (vstack H1 H2) B x j - (vstack T1 T2).get x j) ^ 2 =
      ∑ x ∈ range T1.nrows, w1 x * ∑ j ∈ range T1.cols, (predEntry H1 B x j - T1.get x j) ^ 2 := by
    refine Finset.sum_congr rfl fun s hs => ?_
    have hs := Finset.mem_range.1 hs
    rw [h1 s hs]
    congr 1
    refine Finset.sum_congr rfl fun j _ => ?_
    rw [e1 s hs]
    unfold Mat.get
    rw [vstack_row_left hs]
  have s2 : ∑ x ∈ range T2.nrows, w (T1.nrows + x) * ∑ j ∈ range T1.cols,
        (predEntry (vstack H1 H2) B (T1.nrows + x) j - (vstack T1 T2).get (T1.nrows + x) j) ^ 2 =
      ∑ x ∈ range T2.nrows, w2 x * ∑ j ∈ range T2.cols, (P.get x j - T2.get x j) ^ 2 := by
    refine Finset.sum_congr rfl fun s hs => ?_
    have hs := Finset.mem_range.1 hs
    rw [h2 s hs, hT]
    congr 1
    refine Finset.sum_congr rfl fun j hj => ?_
    rw [hP s hs j (by rw [hT]; exact Finset.mem_range.1 hj), e2]
    unfold Mat.get
    rw [vstack_row_right]
  rw [s1, s2]
  ring

/-- C109 (new data).  A trained model (any kind of problem; in weighted classification with given weights) is given further data by
`add_data` and `solve`.  If its predictions for the further data were right, the output weights stay as they were.  In every case
either the output weights stay as they were, or the (weighted) squared error on the further data becomes strictly smaller. -/
theorem C109_new_data (env : Env K) (hl : Lawful env) (hx : env.Exact) (e e' f : ELM K) (X1 T1 X2 T2 : Mat K) (args : List String)
    (kw : Kwargs K) (h : PlainTrain env e X1 T1 args kw e') (hT2 : T2.WF) (h2 : X2.nrows = T2.nrows) (p1 : 0 < X1.nrows) (p2 : 0 < X2.nrows)
    (hXc : X2.cols = X1.cols) (hTc : T2.cols = T1.cols) (hw : Given args "WC" → kw.w ≠ none ∧ OneHot T2)
    (hf : continueWith env e' X2 T2 = .ok f) (P Q B C : Mat K) (p : Predicts env e' X2 P) (q : Predicts env f X2 Q)
    (hB : e'.nnet.getB = some B) (hC : f.nnet.getB = some C) (w2 : Nat → K) (sw : SampleWeights e'.classification e'.wc T2 w2) :
    (P = T2 → C = B) ∧ (C = B ∨ fitError w2 Q T2 < fitError w2 P T2) := by
  obtain ⟨H1, B0, w1, t⟩ := h.trained hl hx
  obtain rfl : B = B0 := by have := t.getB; rw [hB] at this; injection this
  obtain ⟨fs, rnd, r, hr⟩ := h.run
  have hrun := (C109_continue env fs rnd e e' f X1 T1 X2 T2 args kw r h.noSelection h.batch h2 p1 p2 hXc hTc
    (fun hg => ⟨(hw hg).1, h.oneHot hg, (hw hg).2⟩) hr).1 hf
  have hpt : PlainTrain env e (vstack X1 X2) (vstack T1 T2) args kw f := by
    refine ⟨h.consistent, h.norm, h.batch, h.noSelection, ?_, h.sqrt, ?_, h.weights, fs, rnd, none, hrun⟩
    · intro x hx
      rcases List.mem_append.1 hx with hx | hx
      · exact h.targets x hx
      · rw [hT2 x hx, hTc]; rfl
    · intro hg x hx
      rcases List.mem_append.1 hx with hx | hx
      · exact h.oneHot hg x hx
      · have := (hw hg).2 x hx
        rw [hTc] at this
        exact this
  obtain ⟨H, C0, w, t'⟩ := hpt.trained hl hx
  obtain rfl : C = C0 := by have := t'.getB; rw [hC] at this; injection this
  obtain ⟨H2, g1, g2, g3, g4⟩ := t.pred X2 P p
  obtain ⟨H2', g1', g2', g3', g4'⟩ := t'.pred X2 Q q
  obtain rfl : H2' = H2 := by rw [g1] at g1'; injection g1' with g1'; exact g1'.symm
  have hH : H = vstack H1 H2' := by
    rw [project_ok_spec h.consistent t'.proj, project_ok_spec h.consistent t.proj, project_ok_spec h.consistent g1]
    unfold vstack
    simp
  subst hH
  -- the weights of the samples
  have hflags : f.classification = e'.classification ∧ f.wc = e'.wc := by
    unfold continueWith at hf
    obtain ⟨e2, b1, hf⟩ := bind_ok hf
    obtain ⟨n, b2, hf⟩ := bind_ok hf
    injection hf with hf
    have ha : e'.autoWc env (colSums T2) = e' := by
      unfold ELM.autoWc
      rw [if_neg]
      rintro ⟨c1, c2⟩
      obtain ⟨l, k, c3, _⟩ := (t.sw 0 (by rw [← t.rowsX]; exact p1)).2 c1
      rw [c2] at c3
      cases c3
    obtain ⟨c, hc⟩ := addData_fields b1
    rw [ha] at hc
    rw [← hf, hc]
    exact ⟨rfl, rfl⟩
  have sw' := t'.sw
  rw [hflags.1, hflags.2] at sw'
  have hw1 : ∀ s < T1.nrows, w s = w1 s := fun s hs =>
    sampleWeights_unique t.sw sw' rfl s s hs (by rw [vstack_nrows]; omega) (vstack_row_left hs)
  have hw2 : ∀ s < T2.nrows, w (T1.nrows + s) = w2 s := fun s hs =>
    sampleWeights_unique sw sw' hTc.symm s _ hs (by rw [vstack_nrows]; omega) (vstack_row_right s)
  have hP : ∀ s < T2.nrows, ∀ j < T2.cols, P.get s j = predEntry H2' B s j := fun s hs j hj =>
    t.predGet (Xn := X2) g2 g3 s (by rw [g4, h2]; exact hs) j (by rw [← hTc]; exact hj)
  have hQ : ∀ s < T2.nrows, ∀ j < T2.cols, Q.get s j = predEntry H2' C s j := fun s hs j hj =>
    t'.predGet (Xn := X2) g2' g3' s (by rw [g4, h2]; exact hs) j (by rw [hTc] at hj; exact hj)
  have lB := ridgeLoss_vstack (lam := e.nnet.norm) t.rowsH g3 hTc hw1 hw2 hP
  have lC := ridgeLoss_vstack (lam := e.nnet.norm) t.rowsH g3 hTc hw1 hw2 hQ
  have hCrows : C.nrows = H1.cols := t'.rows
  have hCcols : C.cols = T1.cols := t'.cols
  have m1 := normalEq_minimises h.norm t.nonneg t.wf t.rows t.cols t.normal C t'.wf hCrows hCcols
  have m2 := t'.best B t.wf t.rows t.cols
  rw [lB, lC] at m2
  have second : C = B ∨ fitError w2 Q T2 < fitError w2 P T2 := by
    by_cases hlt : ridgeLoss H1 T1 w1 e.nnet.norm B = ridgeLoss H1 T1 w1 e.nnet.norm C
    · exact Or.inl (m1.2 hlt.symm)
    · right
      have := lt_of_le_of_ne m1.1 hlt
      linarith
  refine ⟨fun hPT => ?_, second⟩
  rcases second with h0 | h0
  · exact h0
  · exfalso
    have z : fitError w2 P T2 = 0 := by
      rw [hPT]
      unfold fitError
      simp
    have nn : 0 ≤ fitError w2 Q T2 := by
      unfold fitError
      refine Finset.sum_nonneg fun s hs => mul_nonneg ?_ (Finset.sum_nonneg fun j _ => sq_nonneg _)
      have hs := Finset.mem_range.1 hs
      rw [← hw2 s hs]
      exact t'.nonneg _ (by rw [vstack_nrows]; omega)
    linarith

/-- The hypotheses are met, for every solver: two neurons, two samples at first, two more afterwards. -/
example (s : Solver) : ∃ (e' f : ELM ℝ) (P Q B C : Mat ℝ),
    PlainTrain realEnv (linModel s 1 1 [[1, 0], [0, 1]]) ⟨2, [[1, 0], [0, 1]]⟩ ⟨1, [[1], [2]]⟩ [] {} e' ∧
    continueWith realEnv e' ⟨2, [[1, 1], [2, 3]]⟩ ⟨1, [[5], [7]]⟩ = .ok f ∧ Predicts realEnv e' ⟨2, [[1, 1], [2, 3]]⟩ P ∧
    Predicts realEnv f ⟨2, [[1, 1], [2, 3]]⟩ Q ∧ e'.nnet.getB = some B ∧ f.nnet.getB = some C ∧
    SampleWeights e'.classification e'.wc ⟨1, [[5], [7]]⟩ fun _ => 1 := by
  obtain ⟨e', h, hc, _⟩ := linModel_train s 1 1 one_pos [[1, 0], [0, 1]] (by simp) ⟨2, [[1, 0], [0, 1]]⟩ ⟨1, [[1], [2]]⟩
    rfl rfl (by simp [Mat.WF]) rfl (by simp [Mat.nrows])
  obtain ⟨fs, rnd, r, hr⟩ := h.run
  obtain ⟨X', T', e1, c1, c2, c3⟩ := train_ok hr
  obtain ⟨H, hH⟩ := linModel_project s 1 1 [[1, 0], [0, 1]] (vstack ⟨2, [[1, 0], [0, 1]]⟩ ⟨2, [[1, 1], [2, 3]]⟩) rfl
  obtain ⟨H2, hH2⟩ := linModel_project s 1 1 [[1, 0], [0, 1]] ⟨2, [[1, 1], [2, 3]]⟩ rfl
  obtain ⟨f, hf⟩ := train_plain_total (env := realEnv) (fs := fs) (rnd := rnd)
    (X := vstack ⟨2, [[1, 0], [0, 1]]⟩ ⟨2, [[1, 1], [2, 3]]⟩) (T := vstack ⟨1, [[1], [2]]⟩ ⟨1, [[5], [7]]⟩) (args := []) (kw := {})
    (lawEnv_exact _) (by simp) (by simp) (by simp) (by simp [linModel]) (by simp) rfl rfl rfl (by simp [vstack, Mat.nrows]) c2
    (linModel_consistent s 1 1 [[1, 0], [0, 1]] (by simp)) hH
  have hcont := (C109_continue realEnv fs rnd (linModel s 1 1 [[1, 0], [0, 1]]) e' f ⟨2, [[1, 0], [0, 1]]⟩ ⟨1, [[1], [2]]⟩ ⟨2, [[1, 1], [2, 3]]⟩
    ⟨1, [[5], [7]]⟩ [] {} r h.noSelection h.batch (by simp [Mat.nrows]) (by simp [Mat.nrows]) (by simp [Mat.nrows]) rfl rfl
    (by simp [Given]) hr).2 hf
  have hpf : PlainTrain realEnv (linModel s 1 1 [[1, 0], [0, 1]]) (vstack ⟨2, [[1, 0], [0, 1]]⟩ ⟨2, [[1, 1], [2, 3]]⟩)
      (vstack ⟨1, [[1], [2]]⟩ ⟨1, [[5], [7]]⟩) [] {} f :=
    ⟨h.consistent, h.norm, h.batch, h.noSelection, by simp [Mat.WF, vstack], h.sqrt, by simp [Given], h.weights, fs, rnd, none, hf⟩
  obtain ⟨P, hP⟩ := PlainTrain_predicts (lawEnv_lawful _) (lawEnv_exact _) h _ H2 hH2
  obtain ⟨Q, hQ⟩ := PlainTrain_predicts (lawEnv_lawful _) (lawEnv_exact _) hpf _ H2 hH2
  obtain ⟨_, B, _, t⟩ := h.trained (lawEnv_lawful _) (lawEnv_exact _)
  obtain ⟨_, C, _, t'⟩ := hpf.trained (lawEnv_lawful _) (lawEnv_exact _)
  exact ⟨e', f, P, Q, B, C, h, hcont, hP, hQ, t.getB, t'.getB, fun _ _ => ⟨fun _ => rfl, fun hk => absurd hk hc⟩⟩

end Hpelm.Props
