import Verif.Spec.Representable
import Verif.Props.C02_C04_Network
import Verif.Props.C79_C81_Fit
import Verif.Props.C25_C29_Errors
import Verif.Lemmas.DataArgs

/-!
# C101 — what a network can represent, it learns
-/

set_option linter.unusedSectionVars false

namespace Hpelm.Props
open Hpelm Spec Finset
variable {K : Type} [Field K] [LinearOrder K] [IsStrictOrderedRing K]

/-- One output: if the target is `H v`, the solution of the normal equations misses it by at most `lam/4 ‖v‖²`. -/
theorem normalEq_representable {H T B : Mat K} {w : Nat → K} {lam : K} (h : NormalEq H T w lam B) (hl : 0 < lam) {j : Nat} (hj : j < T.cols)
    (v : Nat → K) (hv : ∀ s < T.nrows, T.get s j = ∑ k ∈ range H.cols, H.get s k * v k) :
    ∑ s ∈ range T.nrows, w s * (predEntry H B s j - T.get s j) ^ 2 ≤ lam / 4 * ∑ k ∈ range H.cols, v k ^ 2 := by
  have e1 : ∀ s ∈ range T.nrows, w s * (predEntry H B s j - T.get s j) ^ 2 =
      ∑ k ∈ range H.cols, (B.get k j - v k) * (w s * H.get s k * predEntry H B s j - w s * H.get s k * T.get s j) := by
    intro s hs
    have : predEntry H B s j - T.get s j = ∑ k ∈ range H.cols, H.get s k * (B.get k j - v k) := by
      rw [hv s (Finset.mem_range.1 hs)]
      unfold predEntry
      rw [← Finset.sum_sub_distrib]
      exact Finset.sum_congr rfl fun k _ => by ring
    rw [sq]
    nth_rewrite 1 [this]
    rw [Finset.sum_mul, Finset.mul_sum]
    exact Finset.sum_congr rfl fun k _ => by ring
  rw [Finset.sum_congr rfl e1, Finset.sum_comm, Finset.mul_sum]
  apply Finset.sum_le_sum
  intro k hk
  rw [← Finset.mul_sum, Finset.sum_sub_distrib, ← h k (Finset.mem_range.1 hk) j hj]
  nlinarith [mul_nonneg hl.le (sq_nonneg (B.get k j - v k / 2))]

theorem elmProject_mat {env : Env K} {fs : Files K} {e : ELM K} {X H : Mat K} (h : e.project env fs (.mat X) = .ok H) :
    e.nnet.project env X = .ok H := by
  unfold ELM.project at h
  obtain ⟨o, ho, h⟩ := bind_ok h
  have ho' : o = some X := by
    unfold checkOne at ho
    simp only at ho
    obtain ⟨M, hM, ho⟩ := bind_ok ho
    obtain ⟨_, _, ho⟩ := bind_ok ho
    injection ho with ho
    injection hM with hM
    rw [hM, ho]
  rw [ho'] at h
  exact h

/-- C101.  If the targets are a linear function `W` of the outputs of the model's neurons, then after training the (weighted) sum of
squared training errors of every output is at most a quarter of the regularisation parameter times the sum of squares of the coefficients:
it goes to zero with the regularisation. -/
theorem C101_representable (env : Env K) (hl : Lawful env) (hx : env.Exact) (e e' : ELM K) (X T : Mat K) (args : List String) (kw : Kwargs K)
    (h : PlainTrain env e X T args kw e') (fs : Files K) (H : Mat K) (hH : e.project env fs (.mat X) = .ok H)
    (W : Nat → Nat → K) (hW : LinearIn H T W) (P : Mat K) (p : Predicts env e' X P)
    (w : Nat → K) (hw : SampleWeights e'.classification e'.wc T w) :
    ∀ j < T.cols, ∑ s ∈ range T.nrows, w s * (P.get s j - T.get s j) ^ 2 ≤ e.nnet.norm / 4 * ∑ k ∈ range H.cols, W k j ^ 2 := by
  obtain ⟨H', B, w', t⟩ := h.trained hl hx
  have hH' : H' = H := by
    have := t.proj
    rw [elmProject_mat hH] at this
    injection this with this
    exact this.symm
  subst hH'
  intro j hj
  obtain ⟨p1, p2, p3⟩ := pred_shape t p
  have hww := sampleWeights_unique hw t.sw
  refine le_trans (le_of_eq ?_) (normalEq_representable t.normal h.norm hj (fun k => W k j) (fun s hs => hW s hs j hj))
  exact Finset.sum_congr rfl fun s hs => by rw [hww s (Finset.mem_range.1 hs), p3 s (Finset.mem_range.1 hs) j hj]

/-- C101, new samples.  The training was not weighted.  A new sample whose neuron outputs are a linear combination, with coefficients `a`, of those of
the training samples gets a prediction close to what the linear function `W` says about it. -/
theorem C101_new_samples (env : Env K) (hl : Lawful env) (hx : env.Exact) (e e' : ELM K) (X T : Mat K) (args : List String) (kw : Kwargs K)
    (h : PlainTrain env e X T args kw e') (hc : e'.classification ≠ some "wc") (fs : Files K) (H : Mat K) (hH : e.project env fs (.mat X) = .ok H)
    (W : Nat → Nat → K) (hW : LinearIn H T W) (Xn Hn Y : Mat K) (hHn : e.project env fs (.mat Xn) = .ok Hn) (p : Predicts env e' Xn Y)
    (s : Nat) (hs : s < Xn.nrows) (a : Nat → K) (ha : ∀ k < H.cols, Hn.get s k = ∑ i ∈ range X.nrows, a i * H.get i k) :
    ∀ j < T.cols, (Y.get s j - ∑ k ∈ range H.cols, Hn.get s k * W k j) ^ 2 ≤
      (∑ i ∈ range X.nrows, a i ^ 2) * (e.nnet.norm / 4 * ∑ k ∈ range H.cols, W k j ^ 2) := by
  obtain ⟨H', B, w', t⟩ := h.trained hl hx
  have hH' : H' = H := by
    have := t.proj
    rw [elmProject_mat hH] at this
    injection this with this
    exact this.symm
  subst hH'
  intro j hj
  obtain ⟨G, g, eP, d, m⟩ := t.pred Xn Y p
  obtain rfl : G = Hn := by
    rw [elmProject_mat hHn] at g
    injection g with g
    exact g.symm
  have hY := t.predGet (Xn := Xn) eP d s (by rw [m]; exact hs) j hj
  have hw1 : ∀ i < T.nrows, w' i = 1 := fun i hi => (t.sw i hi).1 hc
  have hkey := normalEq_representable t.normal h.norm hj (fun k => W k j) (fun s hs => hW s hs j hj)
  have e1 : Y.get s j - ∑ k ∈ range H'.cols, G.get s k * W k j =
      ∑ i ∈ range X.nrows, a i * (predEntry H' B i j - T.get i j) := by
    rw [hY]
    unfold predEntry
    rw [d, ← Finset.sum_sub_distrib]
    have : ∀ i ∈ range X.nrows, a i * (∑ k ∈ range H'.cols, H'.get i k * B.get k j - T.get i j) =
        ∑ k ∈ range H'.cols, a i * H'.get i k * (B.get k j - W k j) := by
      intro i hi
      rw [hW i (by rw [← t.rowsX]; exact Finset.mem_range.1 hi) j hj, ← Finset.sum_sub_distrib, Finset.mul_sum]
      exact Finset.sum_congr rfl fun k _ => by ring
    rw [Finset.sum_congr rfl this, Finset.sum_comm]
    apply Finset.sum_congr rfl
    intro k hk
    rw [← Finset.sum_mul, ← ha k (Finset.mem_range.1 hk)]
    ring
  rw [e1]
  refine (Finset.sum_mul_sq_le_sq_mul_sq _ _ _).trans (mul_le_mul_of_nonneg_left ?_ (Finset.sum_nonneg fun i _ => sq_nonneg _))
  refine le_trans (le_of_eq ?_) hkey
  rw [t.rowsX]
  exact Finset.sum_congr rfl fun i hi => by rw [hw1 i (Finset.mem_range.1 hi), one_mul]

/-- What `add_neurons(number, "lin")` adds. -/
theorem default_lin_neurons {env : Env K} {rW : Nat → Mat K} {rB : Nat → List K} {sq : K} {e e' : ELM K} {number : Nat}
    (h0 : env.cast e.prec 0 = 0) (h1 : env.cast e.prec 1 = 1) (hc : Consistent e.nnet)
    (h : e.addNeurons env rW rB sq number (.name "lin") none none = .ok e') :
    Consistent e'.nnet ∧ e'.nnet.inputs = e.nnet.inputs ∧ ∃ P Q, neuronList e'.nnet = P ++ ((List.range (min number e.nnet.inputs)).map fun j =>
      (.name "lin", (List.range e.nnet.inputs).map fun i => if i = j then (1 : K) else 0, (0 : K))) ++ Q := by
  set d := e.nnet.inputs with hd
  set k := min number d with hk
  have hcast : ((Mat.ofFn k d fun j i => if i = j then (1 : K) else 0).map (env.cast e.prec)).rows
      = (List.range k).map fun j => (List.range d).map fun i => if i = j then (1 : K) else 0 := by
    simp only [Mat.ofFn, Mat.map, List.map_map]
    apply List.map_congr_left
    intro j _
    simp only [Function.comp, List.map_map]
    apply List.map_congr_left
    intro i _
    simp only [Function.comp]
    split
    · exact h1
    · exact h0
  have hcastB : (List.replicate k (0 : K)).map (env.cast e.prec) = List.replicate k 0 := by simp [h0]
  have he : e' = { e with nnet := (e.nnet.addNeurons k (.name "lin")
              ((List.range k).map fun j => (List.range d).map fun i => if i = j then (1 : K) else 0) (List.replicate k 0)) } := by
    have hfo : funcOk (.name "lin") = true := by decide
    simp only [ELM.addNeurons, hfo, pyAssert, bind, Except.bind, pure, Except.pure, ← hd, if_true, ← hk] at h
    simp only [Mat.ofFn_cols, Mat.ofFn_nrows, decide_true, and_self, if_true, List.length_replicate, hcastB] at h
    rw [hcast] at h
    injection h with h
    exact h.symm
  subst he
  refine ⟨addNeurons_consistent (f := .name "lin") (k := k) (B := List.replicate k 0) hc
      (W := (List.range k).map fun j => (List.range d).map fun i => if i = j then (1 : K) else 0)
      (by simp) (by simp) (by intro w hw; simp only [List.mem_map] at hw; obtain ⟨j, _, rfl⟩ := hw; simp [hd]), rfl, ?_⟩
  obtain ⟨P, Q, _, q2⟩ := addNeurons_insert e.nnet hc k (.name "lin")
      ((List.range k).map fun j => (List.range d).map fun i => if i = j then (1 : K) else 0) (List.replicate k 0)
  refine ⟨P, Q, q2.trans ?_⟩
  congr 2
  apply List.ext_getElem
  · simp
  · intro i i1 i2
    simp

/-- C101, linear functions.  A model gets linear neurons by `add_neurons(number, "lin")` with at least as many neurons as there are inputs, besides any other
neurons.  If the targets are a linear function `W` of the inputs and training is for regression, then the error reported on the training data is at most
`norm / 4` times the sum of squares of the coefficients, divided by the number of target values. -/
theorem C101_linear (env : Env K) (hl : Lawful env) (hx : env.Exact) (rW : Nat → Mat K) (rB : Nat → List K) (sq : K) (number : Nat)
    (e0 e e' : ELM K) (hc : Consistent e0.nnet) (hn : e0.nnet.inputs ≤ number)
    (hadd : e0.addNeurons env rW rB sq number (.name "lin") none none = .ok e)
    (X T : Mat K) (hX : X.WF) (args : List String) (kw : Kwargs K) (h : PlainTrain env e X T args kw e') (hr : e'.classification = none)
    (W : Nat → Nat → K) (hW : LinearIn X T W) (P : Mat K) (p : Predicts env e' X P) (fs : Files K) (hC : 0 < T.cols) :
    ∃ v, e'.error fs (.mat T) (.mat P) = .ok v ∧ v ≤ e.nnet.norm / 4 * (∑ k ∈ range X.cols, ∑ j ∈ range T.cols, W k j ^ 2) / ((T.nrows * T.cols : Nat) : K) := by
  obtain ⟨H, B, w, t⟩ := h.trained hl hx
  obtain ⟨p1, p2, p3⟩ := pred_shape t p
  obtain ⟨c1, hin0, L, R, hL⟩ := default_lin_neurons (hx _ _) (hx _ _) hc hadd
  rw [Nat.min_eq_right hn] at hL
  have hin : X.cols = e.nnet.inputs := ((project_ok_iff _ _ _ _).1 t.proj).1
  set d := e0.nnet.inputs with hd
  have hXd : X.cols = d := by rw [hin, hin0]
  have hsz : H.cols = L.length + d + R.length := by
    rw [t.colsH, size_neuronList c1, hL]
    simp [Nat.add_assoc]
  let V : Nat → Nat → K := fun k j => if L.length ≤ k ∧ k < L.length + d then W (k - L.length) j else 0
  have hsum : ∀ (f g : Nat → K), (∀ i < d, f (L.length + i) = g i) → (∀ k, ¬ (L.length ≤ k ∧ k < L.length + d) → f k = 0) →
      ∑ k ∈ range H.cols, f k = ∑ i ∈ range d, g i := by
    intro f g h1 h2
    rw [hsz, Finset.sum_range_add, Finset.sum_range_add]
    rw [Finset.sum_eq_zero (s := range L.length) (fun k hk => h2 k (by have := Finset.mem_range.1 hk; omega)),
      Finset.sum_eq_zero (s := range R.length) (fun k hk => h2 _ (by omega)), zero_add, add_zero]
    exact Finset.sum_congr rfl fun i hi => h1 i (Finset.mem_range.1 hi)
  have hlin : ∀ s < T.nrows, ∀ i < d, H.get s (L.length + i) = X.get s i := by
    intro s hs i hi
    have hs' : s < X.nrows := by rw [t.rowsX]; exact hs
    have hj : (neuronList e.nnet)[L.length + i]? = some (.name "lin", (List.range d).map fun m => if m = i then (1 : K) else 0, (0 : K)) := by
      rw [hL, List.append_assoc, List.getElem?_append_right (by omega), Nat.add_sub_cancel_left, List.getElem?_append_left (by simpa using hi)]
      simp [hi]
    rw [project_entry c1 t.proj hs' hj (a := fun x w b => dot x w + b) rfl]
    have hlen : (X.rows.getD s []).length = d := by
      rw [← hXd]
      have hs'' : s < X.rows.length := hs'
      rw [List.getD_eq_getElem?_getD, List.getElem?_eq_getElem hs'', Option.getD_some]
      exact hX _ (List.getElem_mem hs'')
    simp only [add_zero]
    exact dot_unit _ d i hlen hi
  have hV : ∀ j, ∑ k ∈ range H.cols, V k j ^ 2 = ∑ i ∈ range d, W i j ^ 2 := by
    intro j
    refine hsum _ _ (fun i hi => ?_) (fun k hk => ?_)
    · simp only [V]; rw [if_pos (by omega), Nat.add_sub_cancel_left]
    · simp only [V]; rw [if_neg hk]; ring
  have hfit : ∀ j ∈ range T.cols, ∑ s ∈ range T.nrows, (P.get s j - T.get s j) ^ 2 ≤ e.nnet.norm / 4 * ∑ k ∈ range X.cols, W k j ^ 2 := by
    intro j hj
    have hj' := Finset.mem_range.1 hj
    have := normalEq_representable t.normal h.norm hj' (fun k => V k j) (by
      intro s hs
      rw [hW s hs j hj', hXd]
      symm
      refine hsum _ _ (fun i hi => ?_) (fun k hk => ?_)
      · simp only [V]; rw [if_pos (by omega), Nat.add_sub_cancel_left, hlin s hs i hi]
      · simp only [V]; rw [if_neg hk, mul_zero])
    rw [hV, ← hXd] at this
    refine le_trans (le_of_eq ?_) this
    exact Finset.sum_congr rfl fun s hs => by
      rw [(t.sw s (Finset.mem_range.1 hs)).1 (by rw [hr]; simp), one_mul, p3 s (Finset.mem_range.1 hs) j hj']
  obtain ⟨fs', rnd, r, hrun⟩ := h.run
  obtain ⟨_, _, _, _, hN0, hN1, _, _, _, hPT0, hnet, _⟩ :=
    train_plain hx h.sqrt h.noSelection.1 h.noSelection.2.1 h.noSelection.2.2 h.batch h.targets h.oneHot h.weights hrun
  have hPT : T.cols = e'.nnet.outputs := by rw [hnet]; exact hPT0
  have hN : 0 < T.nrows := by omega
  have hPw : P.WF := by
    obtain ⟨G, _, eP, _, _⟩ := t.pred X P p
    rw [eP]
    exact Mat.mul_WF _ _
  obtain ⟨v', v1, v2, _, _⟩ := C28_regression_error fs e' T P
    ⟨h.targets, hPw, p1.symm, hPT, by rw [p2, hPT], by rw [← hPT]; exact hC⟩ hN hr
  refine ⟨v', v1, ?_⟩
  rw [v2]
  have hpos : (0 : K) < ((T.nrows * T.cols : Nat) : K) := by exact_mod_cast Nat.mul_pos hN hC
  apply div_le_div_of_nonneg_right _ hpos.le
  rw [Finset.sum_comm, Finset.sum_comm (s := range X.cols), Finset.mul_sum]
  exact Finset.sum_le_sum hfit

/-- A model that meets the hypotheses of the three theorems: linear neurons added to a new network, three samples of a linear function. -/
example (s : Solver) : ∃ (e0 e e' : ELM ℝ) (P : Mat ℝ), Consistent e0.nnet ∧ e0.nnet.inputs ≤ 5 ∧
    e0.addNeurons realEnv (fun _ => ⟨2, []⟩) (fun _ => []) 0 5 (.name "lin") none none = .ok e ∧
    PlainTrain realEnv e ⟨2, [[1, 0], [0, 1], [2, 3]]⟩ ⟨1, [[1], [2], [8]]⟩ [] {} e' ∧ e'.classification = none ∧
    LinearIn (⟨2, [[1, 0], [0, 1], [2, 3]]⟩ : Mat ℝ) ⟨1, [[1], [2], [8]]⟩ (fun k _ => k + 1) ∧
    Predicts realEnv e' ⟨2, [[1, 0], [0, 1], [2, 3]]⟩ P := by
  obtain ⟨e', h, _, hc, _⟩ := linModel_train s 1 1 one_pos [[1, 0], [0, 1]] (by simp) ⟨2, [[1, 0], [0, 1], [2, 3]]⟩ ⟨1, [[1], [2], [8]]⟩
    rfl rfl (by simp [Mat.WF]) rfl (by simp [Mat.nrows])
  obtain ⟨H, hH⟩ := linModel_project s 1 1 [[1, 0], [0, 1]] ⟨2, [[1, 0], [0, 1], [2, 3]]⟩ rfl
  obtain ⟨P, hP⟩ := PlainTrain_predicts (lawEnv_lawful _) (lawEnv_exact _) h _ _ hH
  refine ⟨{ linModel s 1 1 [] with nnet := { (linModel s 1 1 []).nnet with neurons := [], L := some 0 } }, _, e', P, ?_, ?_, rfl, h, hc, ?_, hP⟩
  · exact ⟨by simp, by simp, Or.inl rfl, by intro B h; (cases h), by intro HH HT h; (cases h)⟩
  · simp [linModel]
  · intro s hs j hj
    simp only [Mat.nrows, List.length_cons, List.length_nil] at hs hj
    have : s = 0 ∨ s = 1 ∨ s = 2 := by omega
    obtain rfl : j = 0 := by omega
    rcases this with rfl | rfl | rfl <;> simp [Mat.get, Finset.sum_range_succ] <;> norm_num

/-- The bound is attained: one sample, one linear neuron, regularisation 1, target 1.  The error is exactly `1/4`, so a representable target
is in general not reproduced exactly. -/
example : ((ELM.init QEnv.env 1 1 "" none 2 none (.np .double) (some 1)).bind fun e =>
    (e.addNeurons QEnv.env (fun _ => ⟨1, []⟩) (fun _ => []) 1 1 (.name "lin") none none).bind fun e =>
      let e' := (e.train QEnv.env (fun _ => none) ⟨fun _ => []⟩ (.mat ⟨1, [[1]]⟩) (.mat ⟨1, [[1]]⟩) [] {}).2
      (e'.predict QEnv.env (fun _ => none) (.mat ⟨1, [[1]]⟩)).bind fun P => e'.error (fun _ => none) (.mat ⟨1, [[1]]⟩) (.mat P))
    = .ok (1 / 4) := by decide +kernel

end Hpelm.Props
