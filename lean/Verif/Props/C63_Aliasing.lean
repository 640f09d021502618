import Verif.Props.C01_OnDisk
import Verif.Props.C50_AsyncTrain

/-!
# C63 On-disk training leaves the model's own matrices intact
-/

set_option linter.unusedSectionVars false

namespace Hpelm.Props
open Hpelm Spec
variable {K : Type} [Field K] [LinearOrder K]

/-- What `add_data` with files does to the model, for all solvers: it is `add_data` without files on the reset model, except that
the basic solver then subtracts the regularisation from the diagonal of its own matrix. -/
theorem hAddData_files_model {env : Env K} {fs fs' : Files K} {e e' : ELM K} {fX fT : DataArg K} {istart : Int} {icount : Option Int}
    {fHH fHT : String} (h : e.hAddData env fs fX fT istart icount (some fHH) (some fHT) = .ok (e', fs')) :
    ∃ e1, ({ e with nnet := e.nnet.reset } : ELM K).hAddData env fs fX fT istart icount none none = .ok (e1, fs) ∧
      ∃ HH HT, e1.nnet.getCorr = .ok (some (HH, HT)) ∧
        e' = { e1 with nnet := if e1.nnet.solver = .basic then { e1.nnet with corr := some (subDiag HH e1.nnet.norm, HT) } else e1.nnet } := by
  unfold ELM.hAddData at h
  obtain ⟨_, h0, h⟩ := bind_ok h
  obtain ⟨⟨X, T⟩, h1, h⟩ := bind_ok h
  obtain ⟨⟨n, fs1⟩, h2, h⟩ := bind_ok h
  obtain ⟨bs, h3, h⟩ := bind_ok h
  obtain ⟨e2, h4, h8⟩ := bind_ok h
  clear h
  have hn : n = e.nnet.reset := by
    unfold prepareFHH at h2
    simp only at h2
    obtain ⟨_, _, h2⟩ := bind_ok h2
    obtain ⟨_, _, h2⟩ := bind_ok h2
    injection h2 with h2
    injection h2 with h2 _
    exact h2.symm
  subst hn
  refine ⟨e2, ?_, ?_⟩
  · unfold ELM.hAddData
    have h0' : pyAssert (!e.nnet.reset.neurons.isEmpty) = .ok () := h0
    have h1' : checkBoth fs e.nnet.reset fX fT = .ok (X, T) := h1
    simp only at h3
    simp only [h0', h1', prepareFHH, bind, Except.bind, pure, Except.pure, h3, h4, ELM.storeCorr]
  · unfold ELM.storeCorr at h8
    simp only at h8
    obtain ⟨⟨HH, HT⟩, h5, h⟩ := bind_ok h8
    obtain ⟨fs2, h6, h⟩ := bind_ok h
    injection h with h
    injection h with h _
    refine ⟨HH, HT, ?_, h.symm⟩
    unfold NNet.getCorr! at h5
    obtain ⟨c, h7, h5⟩ := bind_ok h5
    cases c with
    | none => cases h5
    | some c => injection h5 with h5; rw [h7, h5]

/-- C63 (partial: not for the basic solver).  With the default and the GPU solver, after `add_data` with files the model is
exactly what it would be after `add_data` without files on the reset model: it can be solved, or fed further, in memory. -/
theorem C63_model_kept_partial (env : Env K) (fs fs' : Files K) (e e' : ELM K) (hs : e.nnet.solver ≠ .basic) (fX fT : DataArg K)
    (istart : Int) (icount : Option Int) (fHH fHT : String)
    (h : e.hAddData env fs fX fT istart icount (some fHH) (some fHT) = .ok (e', fs')) :
    ({ e with nnet := e.nnet.reset } : ELM K).hAddData env fs fX fT istart icount none none = .ok (e', fs) := by
  obtain ⟨e1, h1, HH, HT, _, h3⟩ := hAddData_files_model h
  have hsol : e1.nnet.solver = e.nnet.solver := by
    unfold ELM.hAddData at h1
    obtain ⟨_, _, h1⟩ := bind_ok h1
    obtain ⟨⟨X, T⟩, _, h1⟩ := bind_ok h1
    obtain ⟨⟨n, fs1⟩, h2, h1⟩ := bind_ok h1
    obtain ⟨bs, _, h1⟩ := bind_ok h1
    obtain ⟨e2, h4, h1⟩ := bind_ok h1
    injection h1 with h1
    injection h1 with h1 _
    injection h2 with h2
    injection h2 with h2 _
    subst h1 h2
    obtain ⟨c, rfl⟩ := feed_fields _ h4
    rw [autoWc_nnet]
    rfl
  rw [if_neg (by rw [hsol]; exact hs)] at h3
  rw [h3]; exact h1

/-- C63 fails for the basic solver: the matrix held by the model loses its regularisation (the method subtracts it in place from
the array that `get_corr` returns). -/
theorem C63_basic_refuted : ∃ (e e' e1 : ELM ℚ) (fs' fs1 : Files ℚ), e.nnet.solver = .basic ∧
    e.hAddData QEnv.env exFiles (.path "x") (.path "t") 0 none (some "hh") (some "ht") = .ok (e', fs') ∧
    ({ e with nnet := e.nnet.reset } : ELM ℚ).hAddData QEnv.env exFiles (.path "x") (.path "t") 0 none none none = .ok (e1, fs1) ∧
    e'.nnet.corr ≠ e1.nnet.corr := by
  let e : ELM ℚ := { exModel 1 2 none none with nnet := { (exModel 1 2 none none).nnet with solver := .basic } }
  have h1 : (e.hAddData QEnv.env exFiles (.path "x") (.path "t") 0 none (some "hh") (some "ht")).map (fun r => r.1.nnet.corr)
      ≠ (({ e with nnet := e.nnet.reset } : ELM ℚ).hAddData QEnv.env exFiles (.path "x") (.path "t") 0 none none none).map
        (fun r => r.1.nnet.corr) := by decide +kernel
  have h2 : (e.hAddData QEnv.env exFiles (.path "x") (.path "t") 0 none (some "hh") (some "ht")).isOk = true := by decide +kernel
  cases h : e.hAddData QEnv.env exFiles (.path "x") (.path "t") 0 none (some "hh") (some "ht") with
  | error x => rw [h] at h2; cases h2
  | ok r =>
    obtain ⟨e', fs'⟩ := r
    obtain ⟨e1, h3, _⟩ := hAddData_files_model h
    refine ⟨e, e', e1, fs', _, rfl, h, h3, ?_⟩
    intro hc
    rw [h, h3] at h1
    exact h1 (by simp [Except.map, hc])

/-- The hypotheses of `C63_model_kept_partial` are met. -/
example : (exModel 1 2 none none).nnet.solver ≠ .basic ∧
    ((exModel 1 2 none none).hAddData QEnv.env exFiles (.path "x") (.path "t") 0 none (some "hh") (some "ht")).isOk = true := by
  decide +kernel

end Hpelm.Props
