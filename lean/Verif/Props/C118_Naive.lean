import Verif.Model.Naive
import Verif.Props.C100_Usable

/-!
# C118 — the demonstration script
-/

set_option linter.unusedSectionVars false

namespace Hpelm.Props
open Hpelm Spec Finset
variable {K : Type} [Field K] [LinearOrder K] [IsStrictOrderedRing K]

theorem hits_misses (T Y : List (List K)) (h : T.length = Y.length) :
    ((List.zipWith (fun y yh => decide (argmax y = argmax yh)) T Y).countP id) + ((List.zipWith (fun t y => argmax y != argmax t) T Y).countP id) = T.length := by
  induction T generalizing Y with
  | nil => simp
  | cons t T ih =>
    cases Y with
    | nil => simp at h
    | cons y Y =>
      have := ih Y (by simpa using h)
      simp only [List.zipWith_cons_cons, List.countP_cons, id, List.length_cons]
      by_cases c : argmax t = argmax y
      · simp [c]; omega
      · have c' : ¬ argmax y = argmax t := fun h => c h.symm
        simp [c, c']; omega

/-- C118.  For every data set with at least one sample, 4 features and 3 classes, and whatever random weights are drawn, the demonstration script completes;
the number it prints is 100 times the classification error that the library's own `error` reports for the same predictions, and 100 times the fraction of
wrongly classified samples. -/
theorem C118_demonstration (env : Env K) (hs : Shapes env) (hx : env.Exact) (fs : Files K) (rnd : Rnd) (rW : Nat → Mat K) (rB : Nat → List K) (sq : K)
    (hw : ∀ m, (rW m).WF) (hW : (rW 15).nrows = 15 ∧ (rW 15).cols = 4) (hB : (rB 15).length = 15) (X Y : Mat K) (hX : X.cols = 4) (hY : Y.WF) (hc : Y.cols = 3)
    (hr : X.nrows = Y.nrows) (hn : 0 < X.nrows) :
    ∃ v, naiveScript env fs rnd rW rB sq X Y = .ok v ∧ 0 ≤ v ∧ v ≤ 100 ∧
      ∃ e0 e1 e2 Yh, ELM.init env 4 3 "" none 1000 none (.str "double") none = .ok e0 ∧ e0.addNeurons env rW rB sq 15 (.name "sigm") none none = .ok e1 ∧
        e1.train env fs rnd (.mat X) (.mat Y) ["c"] {} = (.ok none, e2) ∧ e2.predict env fs (.mat X) = .ok Yh ∧
        e2.error fs (.mat Y) (.mat Yh) = .ok (v / 100) ∧ v = 100 * ((countSamples Y.nrows (Misclassified Y Yh) : K) / Y.nrows) := by
  obtain ⟨e0, h0⟩ : ∃ e0, ELM.init env 4 3 "" none 1000 none (.str "double") none = .ok e0 := ⟨_, rfl⟩
  have i0 : e0.nnet.inputs = 4 ∧ e0.nnet.outputs = 3 ∧ e0.batch = 1000 := by
    have := h0
    unfold ELM.init at this
    simp only [pyAssert] at this
    injection this with this
    rw [← this]
    exact ⟨rfl, rfl, rfl⟩
  obtain ⟨e1, h1, b1, o1⟩ : ∃ e1, e0.addNeurons env rW rB sq 15 (.name "sigm") none none = .ok e1 ∧ e1.batch = 1000 ∧ e1.nnet.outputs = 3 := by
    refine ⟨{ e0 with nnet := e0.nnet.addNeurons 15 (.name "sigm") (((rW 15).map (· * sq)).map (env.cast e0.prec)).rows ((rB 15).map (env.cast e0.prec)) },
      ?_, i0.2.2, i0.2.1⟩
    unfold ELM.addNeurons
    have c2 : ((rW 15).map (· * sq)).nrows = 15 := by simpa [Mat.map, Mat.nrows] using hW.1
    simp [funcOk, flist, rbfNames, pyAssert, i0.1, c2, hW.2, hB, bind, Except.bind, pure, Except.pure]
  have g : ∀ s, Given ["c"] s ↔ s = "C" := by
    intro s
    simp only [Given, List.map_cons, List.map_nil, List.mem_singleton]
    exact Eq.congr_right (by decide +kernel)
  have hd : Documented 4 3 X Y ["c"] {} := by
    refine ⟨hX, hc, by omega, hr, hn, hY, by simp, by simp only [g]; decide, ?_, ?_, by simp, ?_⟩
    · intro a _ b _ h1 h2
      rw [(g a).1 h1, (g b).1 h2]
    · intro _ _ _; omega
    · intro h; rw [g] at h; exact absurd h (by decide)
  obtain ⟨e2, h2, h3⟩ := C100_documented_calls_work env hs hx fs rnd h0 [.addNeurons rW rB sq 15 (.name "sigm") none none]
    (by
      intro op hop
      rw [List.mem_singleton] at hop
      subst hop
      exact ⟨hw, by rintro M ⟨⟩⟩)
    (by
      intro op hop
      rw [List.mem_singleton] at hop
      subst hop
      exact ⟨_, rfl⟩) ⟨_, _, _, _, _, _, _, List.mem_cons_self⟩ (by
        show e0.run env fs _ = .ok e1
        unfold ELM.run ELM.run ELM.step
        simp only
        rw [h1]; rfl) (by rw [b1]; decide) X Y ["c"] {} hd (by intro h; rw [g] at h; exact absurd h (by decide))
  obtain ⟨Yh, p1, p2, p3, p4, -⟩ := h3 X hX
  have hcls : e2.classification = some "c" := (C21_kind_partial env fs rnd e1 e2 _ _ _ _ _ h2 (by rw [g]; decide)).1 (by rw [g])
  have hb2 : 0 < e2.batch := by
    obtain ⟨X', T', e3, _, t2, t3⟩ := train_ok h2
    rw [(trainBody_bcls t3).1, (parseArgs_kw t2).2.2.1]
    simp [b1]
  have ho2 : e2.nnet.outputs = 3 := by
    have := (train_frame env fs rnd e1 (.mat X) (.mat Y) ["c"] {}).nnet.outputs
    rw [h2] at this
    rw [this, o1]
  have hf : Fits e2 Y Yh := ⟨hY, p2, by rw [p3, hr], by rw [hc, ho2], by rw [p4, ho2], by rw [ho2]; decide⟩
  obtain ⟨v, C, v1, -, v2, v3, v4, -⟩ := C27_classification_error fs e2 Y Yh hf hb2 (by omega) hcls
  have hlen : Y.rows.length = Yh.rows.length := hf.rows
  have hm := hits_misses Y.rows Yh.rows hlen
  have hN : (0 : K) < Y.nrows := by exact_mod_cast (by omega : 0 < Y.nrows)
  have hcnt : (misses Y Yh).countP id = countSamples Y.nrows (Misclassified Y Yh) := by
    rw [misses_count, countP_zip hf.rows]
    intro n hn
    rw [bne_iff_ne]
    exact missed_iff hf hn
  refine ⟨100 * v, ?_, by linarith, by linarith, e0, e1, e2, Yh, h0, h1, h2, p1, by rw [v1]; congr 1; field_simp, by rw [v2]⟩
  unfold naiveScript
  rw [h0]
  simp only [bind, Except.bind]
  rw [h1]
  simp only [h2, p1]
  rw [if_neg (by omega)]
  simp only [pure, Except.pure]
  congr 1
  have hh : ((List.zipWith (fun y yh => decide (argmax y = argmax yh)) Y.rows Yh.rows).countP id : K) = Y.nrows - (countSamples Y.nrows (Misclassified Y Yh) : K) := by
    rw [← hcnt, eq_sub_iff_add_eq]
    exact_mod_cast hm
  rw [hh, v2]
  field_simp
  ring

/-- The hypotheses are met by a real data set of two samples. -/
example : Shapes realEnv ∧ realEnv.Exact ∧ (∀ m, (Mat.zeros m 4 : Mat ℝ).WF) ∧ ((Mat.zeros 15 4 : Mat ℝ).nrows = 15 ∧ (Mat.zeros 15 4 : Mat ℝ).cols = 4) ∧
    (List.replicate 15 (1 : ℝ)).length = 15 ∧ (⟨3, [[1, 0, 0], [0, 0, 1]]⟩ : Mat ℝ).WF ∧
    (⟨4, [[1, 2, 3, 4], [2, 0, 1, 1]]⟩ : Mat ℝ).nrows = (⟨3, [[1, 0, 0], [0, 0, 1]]⟩ : Mat ℝ).nrows :=
  ⟨(lawEnv_lawful _).toShapes, lawEnv_exact _, fun m r hr => by simp [Mat.zeros, Mat.ofFn] at hr; obtain ⟨_, _, rfl⟩ := hr; simp [Mat.zeros, Mat.ofFn],
    by simp [Mat.zeros, Mat.ofFn, Mat.nrows], by simp, by simp [Mat.WF], rfl⟩

end Hpelm.Props
