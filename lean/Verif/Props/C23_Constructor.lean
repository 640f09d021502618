import Verif.Props.C82_ClassWeights
import Verif.Props.C90_Options
import Verif.Lemmas.ErrorSpec

/-!
# C23 — the kind of problem given to the constructor
-/

namespace Hpelm.Props
open Hpelm Spec
variable {K : Type} [Field K] [LinearOrder K] [IsStrictOrderedRing K]
set_option linter.unusedSectionVars false

/-- C23 is false for upper-case kinds: a model built with classification "C" is accepted, but `error()` computes the mean squared
error (1/2 here) instead of the fraction of misclassified samples (0). -/
theorem C23_constructor_case_refuted :
    ¬ ∀ (cls : String) (e : ELM ℚ) (T Y : Mat ℚ) (v : ℚ), SameLetters cls "c" →
        ELM.init QEnv.env 2 2 cls none 10 none (.np .double) none = .ok e → e.error (fun _ => none) (.mat T) (.mat Y) = .ok v →
        IsError (some "c") none T Y v := by
  intro h
  have := h "C" { nnet := NNet.init QEnv.env .python 2 2 none .double, batch := 10, prec := .double, accelerator := none,
                  classification := some "C", wc := none, rankingOP := false, kmaxOp := none }
    ⟨2, [[1, 0]]⟩ ⟨2, [[2, 0]]⟩ (1 / 2) (by unfold SameLetters; decide +kernel) (by decide +kernel) (by decide +kernel)
  have h2 : IsError (some "c") none (⟨2, [[1, 0]]⟩ : Mat ℚ) ⟨2, [[2, 0]]⟩ 0 :=
    elmError_isError (by unfold Mat.WF; decide) (by unfold Mat.WF; decide) (by decide +kernel)
  exact absurd (this.unique h2) (by norm_num)

/-- C23 is false for training: the kind "c" given to the constructor is discarded by a call of `train` that names no kind, and `error()` then
computes the mean squared error (1/2 here) instead of the fraction of misclassified samples (0). -/
theorem C23_constructor_train_refuted :
    ¬ ∀ (e0 e e' : ELM ℚ) (ops : List (Op ℚ)) (X T X' Y' : Mat ℚ) (r : Option ℚ) (v : ℚ),
        ELM.init QEnv.env 2 2 "c" none 10 none (.np .double) none = .ok e0 → e0.run QEnv.env (fun _ => none) ops = .ok e →
        e.train QEnv.env (fun _ => none) ⟨fun _ => []⟩ (.mat X) (.mat T) [] {} = (.ok r, e') →
        e'.error (fun _ => none) (.mat X') (.mat Y') = .ok v → IsError (some "c") none X' Y' v := by
  intro h
  have := h { nnet := NNet.init QEnv.env .python 2 2 none .double, batch := 10, prec := .double, accelerator := none,
              classification := some "c", wc := none, rankingOP := false, kmaxOp := none }
    { nnet := { NNet.init QEnv.env .python 2 2 none .double with neurons := [⟨2, .name "lin", [[1, 0], [0, 1]], [0, 0]⟩], L := some 2 }, batch := 10,
      prec := .double, accelerator := none, classification := some "c", wc := none, rankingOP := false, kmaxOp := none }
    ((ELM.mk { NNet.init QEnv.env .python 2 2 none .double with neurons := [⟨2, .name "lin", [[1, 0], [0, 1]], [0, 0]⟩], L := some 2 } 10
      .double none (some "c") none false none).train QEnv.env (fun _ => none) ⟨fun _ => []⟩ (.mat ⟨2, [[1, 0], [0, 1]]⟩) (.mat ⟨2, [[1, 0], [0, 1]]⟩) [] {}).2
    [.addNeurons (fun _ => ⟨2, []⟩) (fun _ => []) 1 2 (.name "lin") none none] ⟨2, [[1, 0], [0, 1]]⟩ ⟨2, [[1, 0], [0, 1]]⟩
    ⟨2, [[1, 0]]⟩ ⟨2, [[2, 0]]⟩ none (1 / 2) (by decide +kernel) (by decide +kernel) (by decide +kernel) (by decide +kernel)
  have h2 : IsError (some "c") none (⟨2, [[1, 0]]⟩ : Mat ℚ) ⟨2, [[2, 0]]⟩ 0 :=
    elmError_isError (by unfold Mat.WF; decide) (by unfold Mat.WF; decide) (by decide +kernel)
  exact absurd (this.unique h2) (by norm_num)

/-- C23, the part that holds: after any history of calls that does not train or load, `error()` of targets and predictions of matching shapes
gives the error of the kind named to the constructor in lower case ("mc" means "ml"), with the class weights given to the constructor, if
any; with no samples it gives no number, except in weighted classification. -/
theorem C23_constructor_partial (env : Env K) (fs : Files K) {inputs outputs : Nat} {cls : String}
    {w : Option (List K)} {batch : Int} {acc : Option String} {prec : PrecArg} {norm : Option K} {e0 e : ELM K}
    (h0 : ELM.init env inputs outputs cls w batch acc prec norm = .ok e0) (hc : cls ∈ ["c", "wc", "ml", "mc"])
    (ops : List (Op K)) (ho : ∀ op ∈ ops, setsKind op = false) (h : e0.run env fs ops = .ok e) :
    ∃ wc, (∀ ws, w = some ws → wc = some (ws.map some)) ∧
      ∀ (T Y : Mat K) (v : K), T.WF → Y.WF → T.cols = outputs → Y.cols = outputs → T.nrows = Y.nrows → 0 < outputs →
        (e.error fs (.mat T) (.mat Y) = .ok v ↔ (cls ≠ "wc" → 0 < T.nrows) ∧ IsError (some (if cls = "mc" then "ml" else cls)) wc T Y v) := by
  obtain ⟨k1, k2⟩ := init_kind h0 hc
  have k3 := run_kind ops e0 ho h
  have k4 : e.nnet.outputs = outputs := by
    have : ∀ (ops : List (Op K)) (e0 : ELM K), (∀ op ∈ ops, setsKind op = false) → e0.run env fs ops = .ok e → e.nnet.outputs = e0.nnet.outputs := by
      intro ops
      induction ops with
      | nil => intro e0 _ h; injection h with h; rw [h]
      | cons op ops ih =>
        intro e0 ho h
        unfold ELM.run at h
        obtain ⟨e1, h1, h⟩ := bind_ok h
        rw [ih e1 (fun o hm => ho o (List.mem_cons_of_mem _ hm)) h]
        refine ((step_options h1).2.2.2 ?_).2.2.1
        have := ho op List.mem_cons_self
        cases op <;> first | rfl | cases this
    rw [this ops e0 ho h, k2]
  refine ⟨e.wc, ?_, ?_⟩
  · rintro ws rfl
    exact (C82_constructor_weights_partial env fs h0 ops ho h).1
  intro T Y v hT hY cT cY hr ho'
  have hkind : (if cls = "mc" then "ml" else cls) = "wc" ↔ cls = "wc" := by
    by_cases h : cls = "mc"
    · rw [if_pos h, h]; decide
    · rw [if_neg h]
  rw [error_mat fs (⟨hT, hY, hr, cT.trans k4.symm, cY.trans k4.symm, k4 ▸ ho'⟩ : Fits e T Y), k3, k1, elmError_iff hT hY]
  constructor
  · rintro ⟨_, _, a, _, b⟩
    exact ⟨fun h => a fun h' => h (hkind.1 (Option.some.inj h')), b⟩
  · rintro ⟨a, b⟩
    exact ⟨hr, cT.trans cY.symm, fun h => a fun h' => h (congrArg some (hkind.2 h')), fun _ _ => cT ▸ ho', b⟩

/-- The hypotheses of `C23_constructor_partial` are met, and `error()` gives a number: "mc" and a history of two calls. -/
example : ∃ e0 e, ELM.init QEnv.env 2 2 "mc" none 10 none (.np .double) none = .ok e0 ∧
    e0.run QEnv.env (fun _ => none) [.addNeurons (fun _ => ⟨2, []⟩) (fun _ => []) 1 2 (.name "lin") none none,
      .addData ⟨2, [[1, 0], [0, 1]]⟩ ⟨2, [[1, 0], [1, 1]]⟩] = .ok e ∧
    e.error (fun _ => none) (.mat ⟨2, [[1, 0], [1, 1]]⟩) (.mat ⟨2, [[3, 0], [0, 1]]⟩) = .ok (1 / 4) := by
  refine ⟨_, _, rfl, rfl, ?_⟩
  decide +kernel

end Hpelm.Props
