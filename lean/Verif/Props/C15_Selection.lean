import Verif.Lemmas.SolverSim
import Verif.Props.C52_C54_Persistence
import Verif.Props.C86_Completes

/-!
# C15, C54 — every kind of training gives the same model under every solver
-/

set_option linter.unusedSectionVars false

namespace Hpelm.Props
open Hpelm Spec
variable {K : Type} [Field K] [LinearOrder K] [IsStrictOrderedRing K]

/-- Two models that agree in everything but solver class, precision, accelerator and the way accumulated data is stored. -/
structure SameButSolver (a b : ELM K) : Prop where
  neurons : b.nnet.neurons = a.nnet.neurons
  count : b.nnet.L = a.nnet.L
  sizes : b.nnet.inputs = a.nnet.inputs ∧ b.nnet.outputs = a.nnet.outputs
  norm : b.nnet.norm = a.nnet.norm
  weights : b.nnet.getB = a.nnet.getB
  kind : b.classification = a.classification ∧ b.wc = a.wc
  settings : b.batch = a.batch ∧ b.rankingOP = a.rankingOP ∧ b.kmaxOp = a.kmaxOp

theorem SameButSolver.of_conv {a b c : ELM K} {s1 s2 : Solver} {p1 p2 q1 q2 : Prec} {c1 c2 : Option String}
    (h1 : DoneS s1 p1 q1 c1 a b) (h2 : DoneS s2 p2 q2 c2 a c) :
    SameButSolver b c ∧ c.nnet.getCorr = b.nnet.getCorr ∧ ∃ HH HT, b.nnet.getCorr = .ok (some (HH, HT)) := by
  obtain ⟨rfl, g, hc⟩ := h1
  obtain ⟨rfl, _, _⟩ := h2
  refine ⟨⟨rfl, rfl, ⟨rfl, rfl⟩, rfl, rfl, ⟨rfl, rfl⟩, ⟨rfl, rfl, rfl⟩⟩, ?_⟩
  obtain ⟨⟨S, HT⟩, hcc⟩ := Option.ne_none_iff_exists'.1 hc
  have hS := (g.shape hcc).1.sym
  have k : ∀ s p, (conv s p a.nnet).getCorr = .ok (some (S, HT)) := fun s p => getCorr_store _ hS (by simp [conv, hcc]; rfl)
  exact ⟨(k s2 p2).trans (k s1 p1).symm, S, HT, k s1 p1⟩

/-- C15, every kind of training.  Two objects that differ only in solver class, working precision and accelerator, and a call of `train` —
plain, or with validation, cross-validation or leave-one-out selection, random or optimal pruning, valid or invalid data — with the same
random choices: both calls return the same value or raise the same exception, and leave models that agree in their neurons (in particular
the selected ones), output weights, kind of problem and class weights; if they succeed also in the correlation matrices `get_corr()` returns. -/
theorem C15_same_train (env : Env K) (hl : Lawful env) (hx : env.Exact) (fs : Files K) (rnd : Rnd) (e : ELM K) (s : Solver) (p q : Prec)
    (acc : Option String) (X T : DataArg K) (args : List String) (kw : Kwargs K) (hc : Consistent e.nnet) (hnorm : 0 < e.nnet.norm)
    (hsh : ∀ i, (rnd.shuffles i).Perm (List.range (size e.nnet))) (r1 r2 : Except PyErr (Option K)) (e1 e2 : ELM K)
    (h1 : e.train env fs rnd X T args kw = (r1, e1))
    (h2 : ELM.train env fs rnd { e with nnet := withSolver e.nnet s p, prec := q, accelerator := acc } X T args kw = (r2, e2)) :
    r2 = r1 ∧ SameButSolver e1 e2 ∧
    ∀ v, r1 = .ok v → e2.nnet.getCorr = e1.nnet.getCorr ∧ ∃ HH HT, e1.nnet.getCorr = .ok (some (HH, HT)) := by
  have hck : checkBoth fs (withSolver e.nnet s p) X T = checkBoth fs e.nnet X T := rfl
  unfold ELM.train at h1 h2
  rw [hck] at h2
  cases hd : checkBoth fs e.nnet X T with
  | error x =>
    rw [hd] at h1 h2
    simp only at h1 h2
    injection h1 with h1 h1'
    injection h2 with h2 h2'
    subst h1 h1' h2 h2'
    exact ⟨rfl, ⟨rfl, rfl, ⟨rfl, rfl⟩, rfl, rfl, ⟨rfl, rfl⟩, ⟨rfl, rfl, rfl⟩⟩, fun v hv => (by cases hv)⟩
  | ok XT =>
    obtain ⟨X', T'⟩ := XT
    rw [hd] at h1 h2
    simp only at h1 h2
    rw [parseArgs_solver] at h2
    have hnn := parseArgs_nnet kw args e
    cases hp : e.parseArgs args kw with
    | mk ea ra =>
      rw [hp] at h1 h2 hnn
      simp only at h1 h2 hnn
      cases ra with
      | error x =>
        simp only at h1 h2
        injection h1 with h1 h1'
        injection h2 with h2 h2'
        subst h1 h1' h2 h2'
        exact ⟨rfl, ⟨rfl, rfl, ⟨rfl, rfl⟩, rfl, rfl, ⟨rfl, rfl⟩, ⟨rfl, rfl, rfl⟩⟩, fun v hv => (by cases hv)⟩
      | ok u =>
        simp only at h1 h2
        have hne : e.nnet.neurons.isEmpty = false := by
          cases hn : e.nnet.neurons.isEmpty with
          | false => rfl
          | true =>
            unfold ELM.parseArgs at hp
            rw [if_pos hn] at hp
            cases hp
        rw [if_neg (by rw [hne]; decide)] at hnn
        -- the run of the basic solver
        obtain ⟨b, hb⟩ : ∃ b : ELM K, b = { ea with nnet := withSolver ea.nnet .basic .double } := ⟨_, rfl⟩
        have hbn : b.nnet = withSolver e.nnet.reset .basic .double := by rw [hb, hnn]
        have hcr := reset_consistent hc
        have hg : GoodN b.nnet := by
          rw [hbn]
          exact GoodN.fresh rfl hnorm ⟨hcr.groups, hcr.types, hcr.count, hcr.weights, hcr.corrs⟩ rfl rfl
        have hsz : size b.nnet = size e.nnet := by rw [hbn]; rfl
        have hcorr : ea.nnet.corr = none := by rw [hnn]; rfl
        have ha : ea = convE ea.nnet.solver ea.nnet.prec ea.prec ea.accelerator b := by
          have hm : ∀ m : NNet K, m.corr = none → conv m.solver m.prec (withSolver m .basic .double) = m := by
            rintro ⟨⟩ h
            simp only at h
            subst h
            rfl
          rw [hb]
          unfold convE
          simp only [hm ea.nnet hcorr]
        have hb2 : ({ ea with nnet := withSolver ea.nnet s p, prec := q, accelerator := acc } : ELM K) = convE s p q acc b := by
          rw [hb]
          simp only [convE, conv, withSolver, hcorr, Option.map_none]
        rw [hb2] at h2
        rw [ha] at h1
        have t1 := sim_trainBody (s := ea.nnet.solver) (p := ea.nnet.prec) (q := ea.prec) (acc := ea.accelerator) hl hx hg
          (by rw [hsz]; exact hsh) fs X' T' args kw
        have t2 := sim_trainBody (s := s) (p := p) (q := q) (acc := acc) hl hx hg (by rw [hsz]; exact hsh) fs X' T' args kw
        cases k0 : b.trainBody env fs rnd X' T' args kw with
        | error x =>
          rw [k0] at t1 t2
          cases k1 : (convE ea.nnet.solver ea.nnet.prec ea.prec ea.accelerator b).trainBody env fs rnd X' T' args kw with
          | ok y => rw [k1] at t1; exact t1.elim
          | error y =>
            cases k2 : (convE s p q acc b).trainBody env fs rnd X' T' args kw with
            | ok z => rw [k2] at t2; exact t2.elim
            | error z =>
              rw [k1] at t1 h1
              rw [k2] at t2 h2
              have hy : x = y := t1
              have hz : x = z := t2
              injection h1 with h1 h1'
              injection h2 with h2 h2'
              subst h1 h1' h2 h2' hy hz
              exact ⟨rfl, ⟨rfl, rfl, ⟨rfl, rfl⟩, rfl, rfl, ⟨rfl, rfl⟩, ⟨rfl, rfl, rfl⟩⟩, fun v hv => (by cases hv)⟩
        | ok y0 =>
          rw [k0] at t1 t2
          cases k1 : (convE ea.nnet.solver ea.nnet.prec ea.prec ea.accelerator b).trainBody env fs rnd X' T' args kw with
          | error y => rw [k1] at t1; exact t1.elim
          | ok y =>
            cases k2 : (convE s p q acc b).trainBody env fs rnd X' T' args kw with
            | error z => rw [k2] at t2; exact t2.elim
            | ok z =>
              rw [k1] at t1 h1
              rw [k2] at t2 h2
              obtain ⟨v0, f0⟩ := y0
              obtain ⟨v1, f1⟩ := y
              obtain ⟨v2, f2⟩ := z
              obtain ⟨d1, w1⟩ := t1
              obtain ⟨d2, w2⟩ := t2
              simp only at d1 d2 w1 w2 h1 h2
              injection h1 with h1 h1'
              injection h2 with h2 h2'
              subst h1 h1' h2 h2'
              obtain ⟨m1, m2, m3⟩ := SameButSolver.of_conv d1 d2
              exact ⟨by rw [w1, w2], m1, fun _ _ => ⟨m2, m3⟩⟩

/-- The hypotheses of `C15_same_train` are met by a selection run with optimal pruning that succeeds. -/
example : (∃ e', exModel3.train (lawEnv QEnv.env) (fun _ => none) ⟨fun _ => [2, 0, 1]⟩ (.mat ⟨1, [[1], [2], [3], [5]]⟩)
      (.mat ⟨1, [[1], [0], [3], [2]]⟩) ["V", "OP"] exPruning = (.ok none, e')) ∧ Lawful (lawEnv QEnv.env) ∧ (lawEnv QEnv.env).Exact ∧
    Consistent exModel3.nnet ∧ 0 < exModel3.nnet.norm ∧ List.Perm [2, 0, 1] (List.range (size exModel3.nnet)) :=
  ⟨exPruning_completes, lawEnv_lawful _, lawEnv_exact _, exModel3_consistent, by decide +kernel, by decide⟩

/-- C54, every kind of training, for a model with any solver, precision and accelerator.  After saving it and loading it into an object made
without an explicit solver choice (with the same batch size), every call of `train` gives the same value or exception as without the round trip, and if it succeeds
the two objects agree in everything but the solver: the same neurons (in particular the selected ones), output weights, kind of problem and
class weights. -/
theorem C54_train_any_solver (env : Env K) (hl : Lawful env) (hx : env.Exact) (fs : Files K) (rnd : Rnd) (e loader e' : ELM K) (X T : DataArg K)
    (args : List String) (kw : Kwargs K) (hc : Consistent e.nnet) (hB : e.nnet.neurons = [] → e.nnet.B = none) (ha : loader.accelerator = none)
    (hb : kw.batch = none → e.batch = loader.batch) (hnorm : 0 < e.nnet.norm) (hsh : ∀ i, (rnd.shuffles i).Perm (List.range (size e.nnet)))
    (h : loader.load env e.saved = .ok e') :
    (e'.train env fs rnd X T args kw).1 = (e.train env fs rnd X T args kw).1 ∧
    (∀ r, (e.train env fs rnd X T args kw).1 = .ok r →
      SameButSolver (e.train env fs rnd X T args kw).2 (e'.train env fs rnd X T args kw).2) := by
  have hs : Storable env loader.prec e.nnet := ⟨fun _ _ _ _ _ _ => hx _ _, fun _ _ _ _ => hx _ _, fun _ _ _ _ _ _ => hx _ _⟩
  obtain ⟨t, _, q1, q2, q3, q4, q5, _⟩ := load_none hc hB ha hs h
  have k1 := C13_forgets env fs rnd { e with nnet := withSolver e.nnet .basic loader.prec, prec := loader.prec, accelerator := none } e' X T args kw
    t.neurons t.norm t.inputs t.outputs q1.symm q2.symm q3.symm q4.symm (by rw [q5]; exact hb)
  have k2 := C15_same_train env hl hx fs rnd e .basic loader.prec loader.prec none X T args kw hc hnorm hsh _ _ _ _ rfl rfl
  refine ⟨k1.1.symm.trans k2.1, fun r hr => ?_⟩
  rw [← k1.2 r (k2.1.trans hr)]
  exact k2.2.1

end Hpelm.Props
