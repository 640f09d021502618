import Verif.Props.C09_C13_Batches
import Verif.Lemmas.OnDisk
import Verif.Lemmas.Twin

/-!
# C13 — training from data on disk forgets previous training
-/

set_option linter.unusedSectionVars false

namespace Hpelm.Props
open Hpelm Spec
variable {K : Type} [Field K] [LinearOrder K]

theorem feed_core_same {env : Env K} {e e' : ELM K} {ic oc : Nat} (bs : List (List (List K) × List (List K))) (h : e.core = e'.core)
    (hb : e.batch = e'.batch) (ha : e.accelerator = e'.accelerator) :
    RelE (fun a b => a.core = b.core ∧ a.batch = b.batch ∧ a.accelerator = b.accelerator) (e.feed env ic oc bs) (e'.feed env ic oc bs) := by
  have h1 := feed_core env ic oc bs e
  have h2 := feed_core env ic oc bs e'
  rw [h, ← h2] at h1
  cases k1 : e.feed env ic oc bs with
  | error x =>
    cases k2 : e'.feed env ic oc bs with
    | error y => rw [k1, k2] at h1; injection h1
    | ok y => rw [k1, k2] at h1; cases h1
  | ok x =>
    cases k2 : e'.feed env ic oc bs with
    | error y => rw [k1, k2] at h1; cases h1
    | ok y =>
      rw [k1, k2] at h1
      injection h1 with h1
      obtain ⟨c, hc⟩ := feed_fields _ k1
      obtain ⟨c', hc'⟩ := feed_fields _ k2
      exact ⟨h1, by rw [hc, hc']; exact hb, by rw [hc, hc']; exact ha⟩

theorem hAddData_core_same {env : Env K} {fs : Files K} {e e' : ELM K} (fX fT : DataArg K) (istart : Int) (icount : Option Int)
    (h : e.core = e'.core) (hb : e.batch = e'.batch) (ha : e.accelerator = e'.accelerator) :
    RelE (fun a b => a.1.core = b.1.core ∧ a.1.batch = b.1.batch ∧ a.1.accelerator = b.1.accelerator)
      (e.hAddData env fs fX fT istart icount none none) (e'.hAddData env fs fX fT istart icount none none) := by
  have hn : e.nnet.noB = e'.nnet.noB := (core_of_eq h).2.2.2.2.2
  have h1 : e.nnet.neurons = e'.nnet.neurons := by have := congrArg NNet.neurons hn; exact this
  have h3 : e.nnet.outputs = e'.nnet.outputs := by have := congrArg NNet.outputs hn; exact this
  have h2 : checkBoth fs e.nnet fX fT = checkBoth fs e'.nnet fX fT := by
    have a : e.nnet.inputs = e'.nnet.inputs := by have := congrArg NNet.inputs hn; exact this
    unfold checkBoth checkData
    rw [a, h3]
  unfold ELM.hAddData
  rw [h1, h2]
  refine RelE.same fun _ => RelE.same fun c => ?_
  obtain ⟨X, T⟩ := c
  show RelE _ (do
      let bs ← hBatches e.batch istart (rangeCount X.nrows istart icount)
      let e ← (e.autoWc env (batchColSums e.nnet.outputs T bs)).feed env X.cols T.cols (cutBatches X T bs)
      pure (e, fs)) (do
      let bs ← hBatches e'.batch istart (rangeCount X.nrows istart icount)
      let e ← (e'.autoWc env (batchColSums e'.nnet.outputs T bs)).feed env X.cols T.cols (cutBatches X T bs)
      pure (e, fs))
  rw [hb, h3]
  refine RelE.same fun bs => RelE.bind (feed_core_same _ ?_ ?_ ?_) fun a b hab => hab
  · rw [autoWc_core, autoWc_core, h]
  · unfold ELM.autoWc; split <;> split <;> exact hb
  · unfold ELM.autoWc; split <;> split <;> exact ha

/-- C13, data on disk.  Two objects with the same neurons, regularisation, sizes and solver, but any difference in accumulated data, output
weights, classification kind, class weights and ranking settings: the on-disk `train` call, on any range, returns the same or raises the same
exception, and if it succeeds the two objects are identical afterwards. -/
theorem C13_forgets_disk (env : Env K) (fs : Files K) (e e' : ELM K) (fX fT : DataArg K) (args : List String) (kw : Kwargs K)
    (h1 : e.nnet.neurons = e'.nnet.neurons) (h2 : e.nnet.norm = e'.nnet.norm) (h3 : e.nnet.inputs = e'.nnet.inputs)
    (h4 : e.nnet.outputs = e'.nnet.outputs) (h5 : e.nnet.solver = e'.nnet.solver) (h6 : e.nnet.prec = e'.nnet.prec)
    (h7 : e.prec = e'.prec) (h8 : e.accelerator = e'.accelerator) (h9 : kw.batch = none → e.batch = e'.batch) :
    (e.hTrain env fs fX fT args kw).1 = (e'.hTrain env fs fX fT args kw).1 ∧
    ((e.hTrain env fs fX fT args kw).1 = .ok () → (e.hTrain env fs fX fT args kw).2 = (e'.hTrain env fs fX fT args kw).2) := by
  have hcb : checkBoth fs e.nnet fX fT = checkBoth fs e'.nnet fX fT := by
    unfold checkBoth checkData
    rw [h3, h4]
  by_cases hne : e.nnet.neurons.isEmpty = true
  · have hne' : e'.nnet.neurons.isEmpty = true := by rw [← h1]; exact hne
    unfold ELM.hTrain
    rw [hcb]
    cases checkBoth fs e'.nnet fX fT with
    | error x => exact ⟨rfl, fun hr => by cases hr⟩
    | ok p =>
      simp only [ELM.parseArgs, hne, hne', if_true]
      exact ⟨trivial, fun hr => by cases hr⟩
  · have hne' : ¬ e'.nnet.neurons.isEmpty = true := by rw [← h1]; exact hne
    obtain ⟨e1, e1', r, hp, hp', hcore, hbat, hacc⟩ := parse_forgets e e' args kw h1 h2 h3 h4 h5 h6 h7 h8 h9 hne hne'
    unfold ELM.hTrain
    rw [hcb]
    cases checkBoth fs e'.nnet fX fT with
    | error x => exact ⟨rfl, fun hr => by cases hr⟩
    | ok p =>
      obtain ⟨X, T⟩ := p
      simp only
      rw [hp, hp']
      rcases r with x | u
      · exact ⟨rfl, fun hr => by cases hr⟩
      simp only
      have key : ∀ st : Int, (match e1.hAddData env fs (.mat X) (.mat T) st kw.icount none none with
          | .error x => (Except.error x, e1)
          | .ok (e2, _) => match e2.nnet.solve env with
            | .error x => (.error x, e2)
            | .ok n => (.ok (), { e2 with nnet := n }) : Except PyErr Unit × ELM K).1 =
        (match e1'.hAddData env fs (.mat X) (.mat T) st kw.icount none none with
          | .error x => (Except.error x, e1')
          | .ok (e2, _) => match e2.nnet.solve env with
            | .error x => (.error x, e2)
            | .ok n => (.ok (), { e2 with nnet := n }) : Except PyErr Unit × ELM K).1 ∧ (
        (match e1.hAddData env fs (.mat X) (.mat T) st kw.icount none none with
          | .error x => (Except.error x, e1)
          | .ok (e2, _) => match e2.nnet.solve env with
            | .error x => (.error x, e2)
            | .ok n => (.ok (), { e2 with nnet := n }) : Except PyErr Unit × ELM K).1 = .ok () →
        (match e1.hAddData env fs (.mat X) (.mat T) st kw.icount none none with
          | .error x => (Except.error x, e1)
          | .ok (e2, _) => match e2.nnet.solve env with
            | .error x => (.error x, e2)
            | .ok n => (.ok (), { e2 with nnet := n }) : Except PyErr Unit × ELM K).2 =
        (match e1'.hAddData env fs (.mat X) (.mat T) st kw.icount none none with
          | .error x => (Except.error x, e1')
          | .ok (e2, _) => match e2.nnet.solve env with
            | .error x => (.error x, e2)
            | .ok n => (.ok (), { e2 with nnet := n }) : Except PyErr Unit × ELM K).2) := by
        intro st
        have hadd := hAddData_core_same (env := env) (fs := fs) (.mat X) (.mat T) st kw.icount (hcore rfl) (hbat rfl) (hacc rfl)
        cases k1 : e1.hAddData env fs (.mat X) (.mat T) st kw.icount none none with
        | error x =>
          cases k2 : e1'.hAddData env fs (.mat X) (.mat T) st kw.icount none none with
          | error y =>
            rw [k1, k2] at hadd
            have hadd : x = y := hadd
            subst hadd
            exact ⟨rfl, fun hr => by cases hr⟩
          | ok y => rw [k1, k2] at hadd; exact hadd.elim
        | ok y =>
          cases k2 : e1'.hAddData env fs (.mat X) (.mat T) st kw.icount none none with
          | error z => rw [k1, k2] at hadd; exact hadd.elim
          | ok z =>
            rw [k1, k2] at hadd
            obtain ⟨y1, y2⟩ := y
            obtain ⟨z1, z2⟩ := z
            obtain ⟨g1, g2, g3⟩ := hadd
            simp only at g1 g2 g3 ⊢
            obtain ⟨q1, q2, q3, q4, q5, q6⟩ := core_of_eq g1
            obtain ⟨n, _, _, _, _, _, _, _⟩ := y1
            obtain ⟨n', _, _, _, _, _, _, _⟩ := z1
            simp only at q1 q2 q3 q4 q5 q6 g2 g3 ⊢
            subst q1 q2 q3 q4 q5 g2 g3
            obtain ⟨_, _, _, _, _, _, _, B, c⟩ := n
            obtain ⟨_, _, _, _, _, _, _, B', c'⟩ := n'
            unfold NNet.noB at q6
            injection q6 with w1 w2 w3 w4 w5 w6 w7 w8 w9
            subst w1 w2 w3 w4 w5 w6 w7 w9
            unfold NNet.solve
            cases c with
            | none => exact ⟨rfl, fun hr => by cases hr⟩
            | some c => exact ⟨rfl, fun _ => rfl⟩
      exact key _

/-- A used model and a fresh one, trained on the same range of data: the objects are the same afterwards. -/
example : ((exModel 2 2 none none).hTrain QEnv.env (fun _ => none) (.mat ⟨2, [[1, 0], [0, 1], [2, 3]]⟩)
      (.mat ⟨2, [[1, 0], [0, 1], [1, 0]]⟩) ["c"] { istart := some 1 }) =
    (({ exModel 2 2 (some "wc") (some [some 1, some 2]) with
        nnet := { (exModel 2 2 none none).nnet with B := some ⟨2, [[1, 1], [1, 1]]⟩, corr := some (⟨2, [[1, 1], [1, 1]]⟩, ⟨2, [[1, 1], [1, 1]]⟩) } }
      : ELM ℚ).hTrain QEnv.env (fun _ => none) (.mat ⟨2, [[1, 0], [0, 1], [2, 3]]⟩)
      (.mat ⟨2, [[1, 0], [0, 1], [1, 0]]⟩) ["c"] { istart := some 1 }) ∧
    ((exModel 2 2 none none).hTrain QEnv.env (fun _ => none) (.mat ⟨2, [[1, 0], [0, 1], [2, 3]]⟩)
      (.mat ⟨2, [[1, 0], [0, 1], [1, 0]]⟩) ["c"] { istart := some 1 }).1 = .ok () := by decide +kernel

end Hpelm.Props
