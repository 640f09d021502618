import Verif.Spec.Persistence
import Verif.Props.C51_ValidationCorr
import Verif.Props.C15_Solvers

/-!
# C52 – C54: saving, loading, and going on
-/

set_option linter.unusedSectionVars false

namespace Hpelm.Props
open Hpelm Spec Finset
variable {K : Type} [Field K] [LinearOrder K]

theorem addGroup_new (gs : List (Group K)) (k : Nat) (f : Func) (W : List (List K)) (B : List K) (h : f ∉ gs.map (·.func)) :
    addGroup gs k f W B = gs ++ [⟨k, f, W, B⟩] := by
  induction gs with
  | nil => rfl
  | cons g gs ih =>
    simp only [List.map_cons, List.mem_cons, not_or] at h
    unfold addGroup
    rw [if_neg (fun he => h.1 he.symm), ih h.2]
    rfl

theorem map_fix {f : K → K} {l : List K} (h : ∀ x ∈ l, f x = x) : l.map f = l := by
  conv_rhs => rw [← List.map_id l]
  exact List.map_congr_left h

/-- Adding groups of new types one after another. -/
theorem addGroups_fold {env : Env K} {p : Prec} (gs : List (Group K)) (n : NNet K)
    (hd : ((n.neurons ++ gs).map (·.func)).Nodup) (h1 : ∀ g ∈ gs, ∀ w ∈ g.W, ∀ x ∈ w, env.cast p x = x)
    (h2 : ∀ g ∈ gs, ∀ x ∈ g.B, env.cast p x = x) (h0 : gs ≠ []) :
    gs.foldl (fun (n : NNet K) g => n.addNeurons g.number g.func (g.W.map (List.map (env.cast p))) (g.B.map (env.cast p))) n =
      { n with neurons := n.neurons ++ gs, L := some ((n.neurons ++ gs).map (·.number)).sum, corr := none, B := none } := by
  induction gs generalizing n with
  | nil => exact absurd rfl h0
  | cons g gs ih =>
    have hW : g.W.map (List.map (env.cast p)) = g.W := by
      conv_rhs => rw [← List.map_id g.W]
      apply List.map_congr_left
      intro w hw
      exact map_fix (h1 g List.mem_cons_self w hw)
    have hB : g.B.map (env.cast p) = g.B := map_fix (h2 g List.mem_cons_self)
    have hnew : g.func ∉ n.neurons.map (·.func) := by
      rw [List.map_append, List.map_cons, List.nodup_append] at hd
      intro hm
      exact hd.2.2 _ hm _ List.mem_cons_self rfl
    rw [List.foldl_cons, hW, hB]
    have hadd : n.addNeurons g.number g.func g.W g.B =
        { n with neurons := n.neurons ++ [g], L := some ((n.neurons ++ [g]).map (·.number)).sum, corr := none, B := none } := by
      unfold NNet.addNeurons NNet.reset
      simp only [addGroup_new _ _ _ _ _ hnew]
    rw [hadd]
    rcases eq_or_ne gs [] with rfl | hne
    · rfl
    · rw [ih _ (by simpa using hd) (fun g' hg' => h1 g' (List.mem_cons_of_mem _ hg')) (fun g' hg' => h2 g' (List.mem_cons_of_mem _ hg')) hne]
      simp

/-- The network after loading model `e` into an object that had no neurons: everything of `e`, but the solver and precision of `n`. -/
def loadedNet (n : NNet K) (e : ELM K) : NNet K :=
  { n with neurons := e.nnet.neurons, norm := e.nnet.norm, B := e.nnet.B
           L := if e.nnet.neurons = [] then n.L else some (size e.nnet)
           corr := if e.nnet.neurons = [] then n.corr else none }

theorem load_empty {env : Env K} {p : Prec} {n : NNet K} (e : ELM K) (hc : Consistent e.nnet) (hB : e.nnet.neurons = [] → e.nnet.B = none)
    (hs : Storable env p e.nnet) (hs' : Storable env n.prec e.nnet) (hn : n.neurons = []) (hnB : n.B = none) (ho : n.outputs = e.nnet.outputs) :
    (do
      let n := e.saved.neurons.foldl (fun (n : NNet K) g =>
        n.addNeurons g.number g.func (g.W.map (List.map (env.cast p))) (g.B.map (env.cast p))) n
      let n := { n with norm := e.saved.norm }
      match e.saved.beta with
        | none => pure n
        | some B => n.setB env (B.map (env.cast p)) : Except PyErr (NNet K)) = .ok (loadedNet n e) := by
  unfold ELM.saved loadedNet NNet.getNeurons NNet.getB
  simp only
  rcases eq_or_ne e.nnet.neurons [] with h0 | h0
  · rw [h0, hB h0]
    simp only [List.foldl_nil, if_true]
    simp only [pure, Except.pure]
    congr 1
    cases n
    simp only at hn hnB
    simp only [hn, hnB]
  · rw [addGroups_fold _ _ (by rw [hn]; exact hc.types) hs.weights hs.biases h0, hn]
    simp only [List.nil_append, if_neg h0]
    have hL : e.nnet.L = some (size e.nnet) := by
      rcases hc.count with h | ⟨_, h⟩
      · exact h
      · exact absurd h h0
    cases hb : e.nnet.B with
    | none => rfl
    | some B =>
      obtain ⟨w1, w2, w3⟩ := hc.weights B hb
      have m1 : B.map (env.cast p) = B := by
        unfold Mat.map
        congr 1
        conv_rhs => rw [← List.map_id B.rows]
        exact List.map_congr_left fun r hr => map_fix (hs.outputs B hb r hr)
      have m2 : B.map (env.cast n.prec) = B := by
        unfold Mat.map
        congr 1
        conv_rhs => rw [← List.map_id B.rows]
        exact List.map_congr_left fun r hr => map_fix (hs'.outputs B hb r hr)
      simp only [m1]
      unfold NNet.setB pyAssert
      rw [hL] at w2
      simp only [w2, w3, ho]
      have : (List.map (fun x => x.number) e.nnet.neurons).sum = size e.nnet := rfl
      simp only [this, decide_true, if_true, bind, Except.bind, pure, Except.pure, m2]

theorem load_saved {env : Env K} (e loader : ELM K) (hc : Consistent e.nnet) (hB : e.nnet.neurons = [] → e.nnet.B = none)
    (ha : loader.accelerator = none) (hs : Storable env loader.prec e.nnet) :
    loader.load env e.saved = .ok { loader with
      nnet := loadedNet (NNet.init env .basic e.nnet.inputs e.nnet.outputs none loader.prec) e, classification := e.classification, wc := e.wc } := by
  have := load_empty (n := NNet.init env .basic e.nnet.inputs e.nnet.outputs none loader.prec) e hc hB hs hs rfl rfl rfl
  unfold ELM.load
  rw [if_pos ha]
  have e1 : e.saved.inputs = e.nnet.inputs := rfl
  have e2 : e.saved.outputs = e.nnet.outputs := rfl
  have e3 : e.saved.classification = e.classification := rfl
  have e4 : e.saved.wc = e.wc := rfl
  simp only [e1, e2, e3, e4]
  cases hb : e.saved.beta with
  | none =>
    simp only [hb, pure, Except.pure] at this
    injection this with this
    simp only [pure, Except.pure, bind, Except.bind, this]
  | some B =>
    simp only [hb] at this
    simp only [this, bind, Except.bind, pure, Except.pure]

/-- The same with an object whose solver was chosen explicitly, if it is empty and has the right sizes. -/
theorem load_saved_chosen {env : Env K} (e loader : ELM K) (hc : Consistent e.nnet) (hB : e.nnet.neurons = [] → e.nnet.B = none)
    (ha : loader.accelerator ≠ none) (hs : Storable env loader.prec e.nnet) (hs' : Storable env loader.nnet.prec e.nnet)
    (hn : loader.nnet.neurons = []) (hnB : loader.nnet.B = none) (ho : loader.nnet.outputs = e.nnet.outputs) :
    loader.load env e.saved = .ok { loader with nnet := loadedNet loader.nnet e, classification := e.classification, wc := e.wc } := by
  have := load_empty (n := loader.nnet) e hc hB hs hs' hn hnB ho
  unfold ELM.load
  rw [if_neg ha]
  have e3 : e.saved.classification = e.classification := rfl
  have e4 : e.saved.wc = e.wc := rfl
  simp only [e3, e4]
  cases hb : e.saved.beta with
  | none =>
    simp only [hb, pure, Except.pure] at this
    injection this with this
    simp only [pure, Except.pure, bind, Except.bind, this]
  | some B =>
    simp only [hb] at this
    simp only [this, bind, Except.bind, pure, Except.pure]

/-- Projections, predictions and errors are determined by the contents. -/
theorem sameContents_use [IsStrictOrderedRing K] (env : Env K) {e e' : ELM K} (h : SameContents e e') :
    (∀ fs X, e'.project env fs X = e.project env fs X) ∧ (∀ fs X, e'.predict env fs X = e.predict env fs X) ∧
    (∀ fs T Y, e'.error fs T Y = e.error fs T Y) ∧
    (0 < e.batch → 0 < e'.batch → ∀ fs T Y, Fits e T Y → e'.confusion fs (.mat T) (.mat Y) = e.confusion fs (.mat T) (.mat Y)) := by
  have hn : e'.nnet.neurons = e.nnet.neurons := h.neurons.symm
  have hb : e'.nnet.B = e.nnet.B := h.weights.symm
  have hp : ∀ X, e'.nnet.project env X = e.nnet.project env X := by
    intro X
    unfold NNet.project
    rw [hn, h.inputs]
  refine ⟨?_, ?_, ?_, ?_⟩
  · intro fs X
    unfold ELM.project
    rw [h.inputs]
    simp only [hp]
  · intro fs X
    unfold ELM.predict NNet.predict
    rw [h.inputs, hb]
    simp only [hp]
  · intro fs T Y
    unfold ELM.error
    rw [h.outputs, h.classification, h.wc]
  · intro h1 h2 fs T Y hf
    have hf' : Fits e' T Y := ⟨hf.wfT, hf.wfY, hf.rows, by rw [← h.outputs]; exact hf.colsT, by rw [← h.outputs]; exact hf.colsY, by rw [← h.outputs]; exact hf.pos⟩
    by_cases hm : e.classification ∈ [some "c", some "wc", some "ml"]
    · rw [confusion_mat fs hf hm, confusion_mat fs hf' (by rw [← h.classification]; exact hm)]
      obtain ⟨C, c1, c2, c3, c4⟩ := confusion_counts hf h1 hm (confQ e.classification) (by
        intro T Y i j
        unfold confQ
        by_cases hml : e.classification = some "ml"
        · simp only [if_pos hml]
          exact length_filter_countP _ _
        · simp only [if_neg hml]
          exact length_filter_countP _ _)
      obtain ⟨C', d1, d2, d3, d4⟩ := confusion_counts hf' h2 (by rw [← h.classification]; exact hm) (confQ e.classification) (by
        intro T Y i j
        rw [← h.classification]
        unfold confQ
        by_cases hml : e.classification = some "ml"
        · simp only [if_pos hml]
          exact length_filter_countP _ _
        · simp only [if_neg hml]
          exact length_filter_countP _ _)
      have w1 : C.WF := by
        rw [confusionM_eq hf h1 hm] at c1
        injection c1 with c1
        rw [← c1]
        exact confLoop_WF _ _ _ _ _ _ _ (Mat.zeros_WF _ _)
      have w2 : C'.WF := by
        rw [confusionM_eq hf' h2 (by rw [← h.classification]; exact hm)] at d1
        injection d1 with d1
        rw [← d1]
        exact confLoop_WF _ _ _ _ _ _ _ (Mat.zeros_WF _ _)
      rw [c1, d1]
      congr 1
      apply Mat.ext_get w2 w1 (by rw [c2, d2, h.outputs]) (by rw [c3, d3, h.outputs])
      intro i j hi hj
      rw [d2, ← h.outputs] at hi
      rw [d3, ← h.outputs] at hj
      rw [c4 i j hi hj, d4 i j (by rw [← h.outputs]; exact hi) (by rw [← h.outputs]; exact hj)]
    · unfold ELM.confusion
      have hm' : e'.classification ∉ [some "c", some "wc", some "ml"] := by rw [← h.classification]; exact hm
      have q1 : pyAssert (decide (e.classification ∈ [some "c", some "wc", some "ml"])) = .error .assertion := by
        unfold pyAssert; rw [if_neg (by simpa using hm)]
      have q2 : pyAssert (decide (e'.classification ∈ [some "c", some "wc", some "ml"])) = .error .assertion := by
        unfold pyAssert; rw [if_neg (by simpa using hm')]
      rw [q1, q2]
      rfl

/-- C52.  Save any model, load it into any object made without an explicit solver choice — whatever that object held before, whatever its
batch size and precision (as long as the model's numbers can be stored in it).  Loading succeeds; the object then holds the same model,
and its projections, predictions, errors and confusion matrices are the same, for every data, valid or not. -/
theorem C52_round_trip [IsStrictOrderedRing K] (env : Env K) (e loader : ELM K) (hc : Consistent e.nnet) (hB : e.nnet.neurons = [] → e.nnet.B = none)
    (ha : loader.accelerator = none) (hs : Storable env loader.prec e.nnet) :
    ∃ e', loader.load env e.saved = .ok e' ∧ SameContents e e' ∧
      (∀ fs X, e'.project env fs X = e.project env fs X) ∧ (∀ fs X, e'.predict env fs X = e.predict env fs X) ∧
      (∀ fs T Y, e'.error fs T Y = e.error fs T Y) ∧
      (0 < e.batch → 0 < e'.batch → ∀ fs T Y, Fits e T Y → e'.confusion fs (.mat T) (.mat Y) = e.confusion fs (.mat T) (.mat Y)) := by
  refine ⟨_, load_saved e loader hc hB ha hs, ?_⟩
  have : SameContents e { loader with
      nnet := loadedNet (NNet.init env .basic e.nnet.inputs e.nnet.outputs none loader.prec) e, classification := e.classification, wc := e.wc } :=
    ⟨rfl, rfl, rfl, rfl, rfl, rfl, rfl⟩
  exact ⟨this, sameContents_use env this⟩

/-- Loading the same saved model twice, or loading it after anything else was loaded, changes nothing more. -/
theorem C52_load_last (env : Env K) (e other loader l1 l2 : ELM K) (hc : Consistent e.nnet) (hB : e.nnet.neurons = [] → e.nnet.B = none)
    (ha : loader.accelerator = none) (hs : Storable env loader.prec e.nnet)
    (h1 : loader.load env other.saved = .ok l1) (h2 : loader.load env e.saved = .ok l2) : l1.load env e.saved = .ok l2 := by
  have hf : l1.accelerator = loader.accelerator ∧ l1.prec = loader.prec ∧ l1.batch = loader.batch ∧ l1.rankingOP = loader.rankingOP ∧ l1.kmaxOp = loader.kmaxOp := by
    unfold ELM.load at h1
    simp only at h1
    split at h1 <;>
    · obtain ⟨n, _, h1⟩ := bind_ok h1
      injection h1 with h1
      rw [← h1]
      exact ⟨rfl, rfl, rfl, rfl, rfl⟩
  rw [load_saved e loader hc hB ha hs] at h2
  rw [load_saved e l1 hc hB (by rw [hf.1]; exact ha) (by rw [hf.2.1]; exact hs)]
  injection h2 with h2
  rw [← h2]
  cases l1
  obtain ⟨a, b, c, d, f⟩ := hf
  simp only at a b c d f
  simp only [a, b, c, d, f]

/-! ## C53 -/

/-- C53, the part that holds: an object with an explicitly chosen solver that is still empty (no neurons, no output weights) and has the
right numbers of inputs and outputs takes the saved model and keeps its solver.

Missing for the full property: objects that already have neurons (`C53_merge_refuted`), objects without an explicit solver, which lose
theirs (`C53_solver_lost_refuted`), objects of other sizes (`C53_sizes_refuted`). -/
theorem C53_chosen_solver_partial [IsStrictOrderedRing K] (env : Env K) (e loader : ELM K) (hc : Consistent e.nnet)
    (hB : e.nnet.neurons = [] → e.nnet.B = none) (ha : loader.accelerator ≠ none) (hs : Storable env loader.prec e.nnet)
    (hs' : Storable env loader.nnet.prec e.nnet) (hn : loader.nnet.neurons = []) (hnB : loader.nnet.B = none)
    (hi : loader.nnet.inputs = e.nnet.inputs) (ho : loader.nnet.outputs = e.nnet.outputs) :
    ∃ e', loader.load env e.saved = .ok e' ∧ SameContents e e' ∧ e'.nnet.solver = loader.nnet.solver ∧
      (∀ fs X, e'.project env fs X = e.project env fs X) ∧ (∀ fs X, e'.predict env fs X = e.predict env fs X) ∧
      (∀ fs T Y, e'.error fs T Y = e.error fs T Y) := by
  refine ⟨_, load_saved_chosen e loader hc hB ha hs hs' hn hnB ho, ?_⟩
  have : SameContents e { loader with nnet := loadedNet loader.nnet e, classification := e.classification, wc := e.wc } :=
    ⟨hi.symm, ho.symm, rfl, rfl, rfl, rfl, rfl⟩
  obtain ⟨a, b, c, _⟩ := sameContents_use env this
  exact ⟨this, rfl, a, b, c⟩

/-- A small trained model: one linear neuron `x ↦ x₁`, one output. -/
def smallModel : ELM ℚ :=
  { nnet := { solver := .python, prec := .double, inputs := 2, outputs := 1, norm := 1, neurons := [⟨1, .name "lin", [[1, 0]], [0]⟩],
              L := some 1, B := some ⟨1, [[3]]⟩, corr := none }
    batch := 10, prec := .double, accelerator := none, classification := none, wc := none, rankingOP := false, kmaxOp := none }

/-- An object of the same size that already has a neuron, made with the "basic" solver. -/
def usedBasic : ELM ℚ :=
  { smallModel with
    accelerator := some "basic"
    nnet := { smallModel.nnet with solver := .basic, neurons := [⟨1, .name "lin", [[0, 5]], [0]⟩], B := none } }

/-- C53 is false for an object that already has neurons and an explicitly chosen solver: the saved neurons are added to the old ones.
A trained model is refused; an untrained one is loaded as a network with the old neurons too. -/
theorem C53_merge_refuted :
    usedBasic.load QEnv.env smallModel.saved = .error .assertion ∧
    (usedBasic.load QEnv.env { smallModel with nnet := { smallModel.nnet with B := none } }.saved).map (·.nnet.neurons) =
      .ok [⟨2, .name "lin", [[0, 5], [1, 0]], [0, 0]⟩] := by decide +kernel

/-- C53 is false for every object made without choosing a solver: whatever solver it had, after loading it has the basic one. -/
theorem C53_solver_lost_refuted (env : Env K) (e loader : ELM K) (hc : Consistent e.nnet) (hB : e.nnet.neurons = [] → e.nnet.B = none)
    (ha : loader.accelerator = none) (hs : Storable env loader.prec e.nnet) :
    ∃ e', loader.load env e.saved = .ok e' ∧ e'.nnet.solver = .basic :=
  ⟨_, load_saved e loader hc hB ha hs, rfl⟩

/-- C53 is false for an object of another size with an explicitly chosen solver: it keeps its number of inputs, so that the loaded network
cannot be used on the data it was trained on. -/
theorem C53_sizes_refuted :
    (ELM.load QEnv.env { smallModel with accelerator := some "basic", nnet := NNet.init QEnv.env .basic 3 1 none .double } smallModel.saved).map
        (fun e' : ELM ℚ => (e'.nnet.inputs, e'.predict QEnv.env (fun _ => none) (.mat ⟨2, [[1, 2]]⟩))) = .ok (3, .error .assertion) ∧
    smallModel.predict QEnv.env (fun _ => none) (.mat ⟨2, [[1, 2]]⟩) = .ok ⟨1, [[3]]⟩ := by decide +kernel

/-- The hypotheses of C52 and C53 are met. -/
example : Consistent smallModel.nnet ∧ Storable QEnv.env .double smallModel.nnet ∧ (smallModel.nnet.neurons = [] → smallModel.nnet.B = none) := by
  refine ⟨⟨by simp [smallModel], by simp [smallModel], Or.inl rfl, by simp [smallModel, Mat.WF, Mat.nrows], by simp [smallModel]⟩, ⟨?_, ?_, ?_⟩, by simp [smallModel]⟩
  · intro g hg w hw x hx; rfl
  · intro g hg x hx; rfl
  · intro B hB r hr x hx; rfl

/-- An object with other neurons, three inputs and two outputs, a solver and a batch size of its own. -/
def otherModel : ELM ℚ := { exModel 2 7 (some "c") none with nnet := { (exModel 2 7 (some "c") none).nnet with inputs := 3 } }

/-- The small model is loaded into it completely. -/
example : (otherModel.load QEnv.env smallModel.saved).map (fun e' : ELM ℚ => (e'.nnet.inputs, e'.nnet.outputs, e'.nnet.neurons)) =
      .ok (2, 1, [⟨1, .name "lin", [[1, 0]], [0]⟩]) ∧
    (otherModel.load QEnv.env smallModel.saved).map (fun e' : ELM ℚ => (e'.nnet.B, e'.classification, e'.batch)) =
      .ok (some ⟨1, [[3]]⟩, none, 7) := by decide +kernel

/-! ## C54 -/

/-- Argument parsing looks at nothing but the number of outputs and whether there are neurons. -/
theorem parseArgs_settings (e f : ELM K) (args : List String) (kw : Kwargs K) (ho : e.nnet.outputs = f.nnet.outputs)
    (h1 : e.nnet.neurons ≠ []) (h2 : f.nnet.neurons ≠ []) :
    (e.parseArgs args kw).2 = (f.parseArgs args kw).2 ∧ (e.parseArgs args kw).1.classification = (f.parseArgs args kw).1.classification ∧
    (e.parseArgs args kw).1.wc = (f.parseArgs args kw).1.wc := by
  have one : ∀ (a : String) (e f : ELM K), e.nnet.outputs = f.nnet.outputs → e.classification = f.classification → e.wc = f.wc →
      (parseOne kw e a).2 = (parseOne kw f a).2 ∧ (parseOne kw e a).1.classification = (parseOne kw f a).1.classification ∧
      (parseOne kw e a).1.wc = (parseOne kw f a).1.wc ∧ (parseOne kw e a).1.nnet.outputs = (parseOne kw f a).1.nnet.outputs := by
    intro a e f ho hc hw
    unfold parseOne
    rw [ho]
    split
    · exact ⟨rfl, hc, hw, ho⟩
    split
    · split
      · exact ⟨rfl, rfl, hw, ho⟩
      · exact ⟨rfl, hc, hw, ho⟩
    split
    · split
      · cases kw.w with
        | none => exact ⟨rfl, rfl, hw, ho⟩
        | some w =>
          simp only [ho]
          split
          · exact ⟨rfl, rfl, rfl, by simp only [ho]⟩
          · exact ⟨rfl, rfl, hw, by simp only [ho]⟩
      · exact ⟨rfl, hc, hw, ho⟩
    split
    · split
      · exact ⟨rfl, rfl, hw, ho⟩
      · exact ⟨rfl, hc, hw, ho⟩
    split
    · exact ⟨rfl, rfl, hw, ho⟩
    · exact ⟨rfl, hc, hw, ho⟩
  have loop : ∀ (as : List String) (e f : ELM K), e.nnet.outputs = f.nnet.outputs → e.classification = f.classification → e.wc = f.wc →
      (parseLoop kw as e).2 = (parseLoop kw as f).2 ∧ (parseLoop kw as e).1.classification = (parseLoop kw as f).1.classification ∧
      (parseLoop kw as e).1.wc = (parseLoop kw as f).1.wc := by
    intro as
    induction as with
    | nil => intro e f _ hc hw; exact ⟨rfl, hc, hw⟩
    | cons a as ih =>
      intro e f ho hc hw
      obtain ⟨k1, k2, k3, k4⟩ := one a e f ho hc hw
      unfold parseLoop
      revert k1 k2 k3 k4
      rcases parseOne kw e a with ⟨e1, r1⟩
      rcases parseOne kw f a with ⟨f1, r2⟩
      intro k1 k2 k3 k4
      simp only at k1 k2 k3 k4
      subst k1
      rcases r1 with x | u
      · exact ⟨rfl, k2, k3⟩
      · exact ih e1 f1 k4 k2 k3
  have i1 : e.nnet.neurons.isEmpty = false := by simpa using h1
  have i2 : f.nnet.neurons.isEmpty = false := by simpa using h2
  unfold ELM.parseArgs
  simp only [i1, i2]
  simp only [Bool.false_eq_true, if_false]
  split
  · exact ⟨rfl, rfl, rfl⟩
  split
  · exact ⟨rfl, rfl, rfl⟩
  have := loop (args.map upper) { e with nnet := e.nnet.reset, rankingOP := false, kmaxOp := none, classification := none, wc := none }
    { f with nnet := f.nnet.reset, rankingOP := false, kmaxOp := none, classification := none, wc := none } ho rfl rfl
  revert this
  rcases parseLoop kw (args.map upper) { e with nnet := e.nnet.reset, rankingOP := false, kmaxOp := none, classification := none, wc := none } with ⟨e1, r1⟩
  rcases parseLoop kw (args.map upper) { f with nnet := f.nnet.reset, rankingOP := false, kmaxOp := none, classification := none, wc := none } with ⟨f1, r2⟩
  rintro ⟨k1, k2, k3⟩
  simp only at k1 k2 k3
  subst k1
  rcases r1 with x | u
  · exact ⟨rfl, k2, k3⟩
  · cases kw.batch <;> exact ⟨rfl, k2, k3⟩

/-- Two objects with the same neurons, outputs and regularisation, trained in the same call: same kind of problem, class weights and output
weights, whatever their solvers, batch sizes and histories. -/
theorem train_same [IsStrictOrderedRing K] {env : Env K} (hl : Lawful env) (hx : env.Exact) {fs : Files K} {rnd : Rnd} {e f e1 f1 : ELM K}
    (hn : e.nnet.neurons = f.nnet.neurons) (ho : e.nnet.outputs = f.nnet.outputs) (hg : e.nnet.norm = f.nnet.norm)
    {X T : Mat K} {args : List String} {kw : Kwargs K} {r1 r2 : Option K}
    (hsel : "V" ∉ args ∧ "CV" ∉ args ∧ "LOO" ∉ args) (hb : 0 < kw.batch.getD e.batch) (hb' : 0 < kw.batch.getD f.batch) (hnorm : 0 < e.nnet.norm)
    (hTw : T.WF) (hsq : Given args "WC" → ∀ x : K, 0 ≤ x → env.sqrt x * env.sqrt x = x)
    (hT : Given args "WC" → OneHot T) (hw : ∀ ws, kw.w = some ws → ∀ x ∈ ws, 0 ≤ x)
    (h1 : e.train env fs rnd (.mat X) (.mat T) args kw = (.ok r1, e1)) (h2 : f.train env fs rnd (.mat X) (.mat T) args kw = (.ok r2, f1)) :
    e1.classification = f1.classification ∧ e1.wc = f1.wc ∧ e1.nnet.B = f1.nnet.B ∧ e1.nnet.B ≠ none := by
  obtain ⟨X1, T1, ea, a1, a2, a3⟩ := train_ok h1
  obtain ⟨X2, T2, eb, b1, b2, b3⟩ := train_ok h2
  have hnn : e.nnet.neurons ≠ [] := by
    intro h
    unfold ELM.parseArgs at a2
    rw [if_pos (by rw [h]; rfl)] at a2
    cases a2
  have hT1 : T1 = T2 := by
    have t1 : ∀ {n : NNet K} {X' T' : Mat K}, checkBoth fs n (.mat X) (.mat T) = .ok (X', T') → T' = T := by
      intro n X' T' h
      have := checkBoth_of_reads (.mat X) (.mat T) h
      injection this
    rw [t1 a1, t1 b1]
  subst hT1
  obtain ⟨_, k1, k2⟩ := parseArgs_settings e f args kw ho hnn (by rw [← hn]; exact hnn)
  rw [a2, b2] at k1 k2
  simp only at k1 k2
  have hpre : e1.classification = f1.classification ∧ e1.wc = f1.wc := by
    obtain ⟨_, g1, n1, c1, c2, c3⟩ := trainBody_plain hsel.1 hsel.2.1 hsel.2.2 a3
    obtain ⟨_, g2, n2, d1, d2, d3⟩ := trainBody_plain hsel.1 hsel.2.1 hsel.2.2 b3
    obtain ⟨c, rfl⟩ := addData_fields c1
    obtain ⟨c', rfl⟩ := addData_fields d1
    rw [c3, d3]
    unfold ELM.autoWc
    rw [k1, k2]
    split
    · have i : ∀ p, env.cast p = id := by intro p; funext x; exact hx _ x
      simp only [i, k1, and_self]
    · exact ⟨k1, k2⟩
  refine ⟨hpre.1, hpre.2, ?_⟩
  have hwc1 : e1.classification = some "wc" → "WC" ∈ args.map upper := by
    intro hc
    obtain ⟨w1, w2⟩ := parseArgs_wc a2
    obtain ⟨_, e2, n, c1, c2, c3⟩ := trainBody_plain hsel.1 hsel.2.1 hsel.2.2 a3
    obtain ⟨c, rfl⟩ := addData_fields c1
    apply w1
    rw [c3] at hc
    have := autoWc_cls env ea (colSums T1)
    rw [← this]
    exact hc
  obtain ⟨H, S, HT, w, p0, hN, p1, p2, p3, p4, p5, p6, p7, p8, p9, p10, p11, p12, p13, p14⟩ :=
    train_plain hx hsq hsel.1 hsel.2.1 hsel.2.2 hb hTw hT hw h1
  have hold := hold_of_sums p1 hN p11 p6.wf p7 (by rw [← p6.square]; exact p7) p8 p9 p10 p13 p14
  rw [p4] at hold
  have q1 := hold_train hl hx hnorm hold (fun h => hsq (hwc1 h)) (List.Perm.refl _) hTw hsel hb (fun h => hT (hwc1 h)) hw rfl rfl rfl h1 rfl (fun _ => rfl) e.nnet
  have q2 := hold_train hl hx hnorm hold (fun h => hsq (hwc1 h)) (List.Perm.refl _) hTw hsel hb' (fun h => hT (hwc1 h)) hw hn.symm hg.symm ho.symm h2
    hpre.1.symm (fun _ => hpre.2.symm) e.nnet
  rw [q1, q2]
  exact ⟨rfl, by simp⟩

theorem load_none {env : Env K} {e loader e' : ELM K} (hc : Consistent e.nnet) (hB : e.nnet.neurons = [] → e.nnet.B = none)
    (ha : loader.accelerator = none) (hs : Storable env loader.prec e.nnet) (h : loader.load env e.saved = .ok e') :
    SameContents e e' ∧ Consistent e'.nnet ∧ e'.nnet.solver = .basic ∧ e'.nnet.prec = loader.prec ∧ e'.prec = loader.prec ∧
      e'.accelerator = none ∧ e'.batch = loader.batch ∧ (e.nnet.neurons ≠ [] → e'.nnet.corr = none) := by
  rw [load_saved e loader hc hB ha hs] at h
  injection h with h
  subst h
  refine ⟨⟨rfl, rfl, rfl, rfl, rfl, rfl, rfl⟩, ⟨hc.groups, hc.types, ?_, ?_, ?_⟩, rfl, rfl, rfl, ha, rfl, fun h => if_neg h⟩
  · unfold loadedNet
    rcases eq_or_ne e.nnet.neurons [] with h0 | h0
    · exact Or.inr ⟨if_pos h0, h0⟩
    · exact Or.inl (if_neg h0)
  · intro B hb
    obtain ⟨w1, w2, w3⟩ := hc.weights B hb
    refine ⟨w1, ?_, w3⟩
    have h0 : e.nnet.neurons ≠ [] := fun h0 => by
      have : e.nnet.B = some B := hb
      rw [hB h0] at this
      cases this
    have : (loadedNet (NNet.init env .basic e.nnet.inputs e.nnet.outputs none loader.prec) e).L = some (size e.nnet) := if_neg h0
    rw [this, w2]
    rcases hc.count with h | ⟨_, h⟩
    · rw [h]; rfl
    · exact absurd h h0
  · intro c d hc'
    exfalso
    have : (loadedNet (NNet.init env .basic e.nnet.inputs e.nnet.outputs none loader.prec) e).corr = none := by
      unfold loadedNet
      simp only
      split <;> rfl
    rw [this] at hc'
    cases hc'

/-- C54, training.  A model that uses the basic solver: after saving it and loading it into an object of the same precision (made without an
explicit solver choice), every call of `train` — plain or with any structure selection, on valid or invalid data — gives the same
result or exception as without the round trip, and when it succeeds the two objects are the same in everything. -/
theorem C54_train_identical [IsStrictOrderedRing K] (env : Env K) (fs : Files K) (rnd : Rnd) (e loader e' : ELM K) (X T : DataArg K) (args : List String)
    (kw : Kwargs K) (hc : Consistent e.nnet) (hB : e.nnet.neurons = [] → e.nnet.B = none) (ha : loader.accelerator = none)
    (hs : Storable env loader.prec e.nnet) (hbasic : e.nnet.solver = .basic) (hae : e.accelerator = none) (hp : e.prec = loader.prec)
    (hnp : e.nnet.prec = loader.prec) (hb : kw.batch = none → e.batch = loader.batch) (h : loader.load env e.saved = .ok e') :
    (e'.train env fs rnd X T args kw).1 = (e.train env fs rnd X T args kw).1 ∧
    (∀ r, (e.train env fs rnd X T args kw).1 = .ok r → (e'.train env fs rnd X T args kw).2 = (e.train env fs rnd X T args kw).2) := by
  obtain ⟨q, _, q1, q2, q3, q4, q5, _⟩ := load_none hc hB ha hs h
  have := C13_forgets env fs rnd e e' X T args kw q.neurons q.norm q.inputs q.outputs (by rw [q1, hbasic]) (by rw [q2, hnp])
    (by rw [q3, hp]) (by rw [q4, hae]) (by rw [q5]; exact hb)
  exact ⟨this.1.symm, fun r hr => (this.2 r hr).symm⟩

/-- C54, training, for a model with any solver, precision and batch size: plain training after the round trip succeeds whenever it would have
without it, and gives the same kind of problem, class weights and output weights.  (Structure selections, with the same batch size: `C54_train_any_solver` in `C15_Selection.lean`.)  Missing: data fed before saving (`C54_fed_data_lost_refuted`). -/
theorem C54_train_after_load_partial [IsStrictOrderedRing K] (env : Env K) (hl : Lawful env) (hx : env.Exact) (fs : Files K) (rnd : Rnd)
    (e loader e' e1 : ELM K) (X T : Mat K) (args : List String) (kw : Kwargs K) (r : Option K) (hc : Consistent e.nnet)
    (ha : loader.accelerator = none) (h : loader.load env e.saved = .ok e')
    (hsel : "V" ∉ args ∧ "CV" ∉ args ∧ "LOO" ∉ args) (hb : 0 < kw.batch.getD e.batch) (hb' : 0 < kw.batch.getD loader.batch) (hnorm : 0 < e.nnet.norm)
    (hTw : T.WF) (hsq : Given args "WC" → ∀ x : K, 0 ≤ x → env.sqrt x * env.sqrt x = x)
    (hT : Given args "WC" → OneHot T) (hw : ∀ ws, kw.w = some ws → ∀ x ∈ ws, 0 ≤ x)
    (h1 : e.train env fs rnd (.mat X) (.mat T) args kw = (.ok r, e1)) :
    ∃ e2, e'.train env fs rnd (.mat X) (.mat T) args kw = (.ok none, e2) ∧ e2.classification = e1.classification ∧ e2.wc = e1.wc ∧
      e2.nnet.getB = e1.nnet.getB ∧ e2.nnet.getB ≠ none := by
  obtain ⟨X1, T1, ea, a1, a2, a3⟩ := train_ok h1
  have hnn : e.nnet.neurons ≠ [] := by
    intro h
    unfold ELM.parseArgs at a2
    rw [if_pos (by rw [h]; rfl)] at a2
    cases a2
  have hs : Storable env loader.prec e.nnet := ⟨fun _ _ _ _ _ _ => hx _ _, fun _ _ _ _ => hx _ _, fun _ _ _ _ _ _ => hx _ _⟩
  obtain ⟨q, qc, q1, q2, q3, q4, q5, _⟩ := load_none hc (fun h => absurd h hnn) ha hs h
  obtain ⟨H, S, HT, w, p0, hN, p1, p2, p3, p4, p5, p6, p7, p8, p9, p10, p11, p12, p13, p14⟩ :=
    train_plain hx hsq hsel.1 hsel.2.1 hsel.2.2 hb hTw hT hw h1
  have hnn' : e'.nnet.neurons ≠ [] := by
    have : e'.nnet.neurons = e.nnet.neurons := q.neurons.symm
    rw [this]; exact hnn
  obtain ⟨k0, _, _⟩ := parseArgs_settings e e' args kw q.outputs hnn hnn'
  rw [a2] at k0
  obtain ⟨ep, hep⟩ : ∃ ep, e'.parseArgs args kw = (ep, .ok ()) := ⟨_, Prod.ext rfl k0.symm⟩
  have hX : X1 = X ∧ T1 = T := by
    have := checkBoth_of_reads (.mat X) (.mat T) a1
    exact ⟨congrArg Prod.fst this, congrArg Prod.snd this⟩
  obtain ⟨c1, c2, _⟩ := checkBoth_ok a1
  rw [hX.1] at c1
  rw [hX.2] at c2
  have hproj : e'.nnet.project env X = .ok H := by
    rw [← p1]
    have : e'.nnet.neurons = e.nnet.neurons := q.neurons.symm
    unfold NNet.project
    rw [this, q.inputs]
  obtain ⟨e2, h2⟩ := train_plain_total (fs := fs) (rnd := rnd) (e := e') (X := X) (T := T) hx hsel.1 hsel.2.1 hsel.2.2 (by rw [q5]; exact hb') hT (by rw [← q.inputs]; exact c1)
    (by rw [← q.outputs]; exact c2) hN p0 hep qc hproj
  refine ⟨e2, h2, ?_⟩
  obtain ⟨r1, r2, r3, r4⟩ := train_same hl hx q.neurons q.outputs q.norm hsel hb (by rw [q5]; exact hb') hnorm hTw hsq hT hw h1 h2
  exact ⟨r1.symm, r2.symm, r3.symm, by show e2.nnet.B ≠ none; rw [← r3]; exact r4⟩

/-- C54, feeding.  A model nothing was fed to since its neurons were last changed: feeding data after the round trip gives the same correlation
matrices and, solved, the same output weights as without it, whatever the solvers and batch sizes. -/
theorem C54_feed_after_load_partial [IsStrictOrderedRing K] (env : Env K) (hl : Lawful env) (hx : env.Exact) (e loader e' e1 : ELM K) (X T : Mat K)
    (hc : Consistent e.nnet) (hn : e.nnet.neurons ≠ []) (ha : loader.accelerator = none) (h : loader.load env e.saved = .ok e')
    (hfresh : e.nnet.corr = none) (hb : 0 < e.batch) (hb' : 0 < loader.batch) (hnorm : 0 < e.nnet.norm) (hN : X.nrows = T.nrows) (hTw : T.WF)
    (hsq : e.classification = some "wc" → ∀ x : K, 0 ≤ x → env.sqrt x * env.sqrt x = x) (hT : e.classification = some "wc" → OneHot T)
    (hw : e.wc = none ∨ ∃ ws : List K, e.wc = some (ws.map some) ∧ (∀ x ∈ ws, 0 ≤ x) ∧ ws.length = T.cols)
    (h1 : e.addData env X T = .ok e1) :
    ∃ e2 n1 n2, e'.addData env X T = .ok e2 ∧ e2.wc = e1.wc ∧ e2.nnet.getCorr = e1.nnet.getCorr ∧
      e1.nnet.solve env = .ok n1 ∧ e2.nnet.solve env = .ok n2 ∧ n2.getB = n1.getB := by
  have hs : Storable env loader.prec e.nnet := ⟨fun _ _ _ _ _ _ => hx _ _, fun _ _ _ _ => hx _ _, fun _ _ _ _ _ _ => hx _ _⟩
  obtain ⟨q, qc, q1, q2, q3, q4, q5, q6⟩ := load_none hc (fun h => absurd h hn) ha hs h
  have qn : e'.nnet.neurons = e.nnet.neurons := q.neurons.symm
  obtain ⟨H, S, HT, w, p0, p1, p2, p3, p4, p5, p6, p7, p8, p9, p10, p11, p12, p13, p14⟩ := addData_fresh hx hsq hb hN hTw hfresh hT hw h1
  have hproj : e'.nnet.project env X = .ok H := by
    rw [← p1]
    unfold NNet.project
    rw [qn, q.inputs]
  have hw' : e'.wc = none ∨ ∃ ws : List K, e'.wc = some (ws.map some) ∧ (∀ x ∈ ws, 0 ≤ x) ∧ ws.length = T.cols := by rw [← q.wc]; exact hw
  have hH : H.cols = size e'.nnet := by
    obtain ⟨_, _, _, rfl⟩ := (project_ok_iff _ _ _ _).1 hproj
    exact width_size qc
  have hL' : e'.nnet.L = some (size e'.nnet) := by
    rcases qc.count with h | ⟨_, h⟩
    · exact h
    · rw [qn] at h; exact absurd h hn
  obtain ⟨e2, h2⟩ := addData_total (e := e') (X := X) (T := T) hx (by rw [q5]; exact hb') hN p0 hproj (q6 hn) (by rw [hL', hH]; rfl)
    (by rw [← q.outputs]; exact p4) (by rw [← q.classification]; exact hT)
    (by rcases hw' with h | ⟨ws, a, _, b⟩; exacts [Or.inl h, Or.inr ⟨ws, a, b⟩])
  obtain ⟨H', S', HT', w', r0, r1, r2, r3, r4, r5, r6, r7, r8, r9, r10, r11, r12, r13, r14⟩ :=
    addData_fresh hx (by rw [← q.classification]; exact hsq) (by rw [q5]; exact hb') hN hTw (q6 hn) (by rw [← q.classification]; exact hT) hw' h2
  have hHH : H' = H := by
    rw [hproj] at r1
    injection r1 with r1
    exact r1.symm
  subst hHH
  have hcw : e2.classification = e1.classification ∧ e2.wc = e1.wc := by
    rw [p5, r5]
    unfold ELM.autoWc
    rw [← q.classification, ← q.wc]
    have i : ∀ p, env.cast p = id := by intro p; funext x; exact hx _ x
    split
    · simp only [i, q.classification, and_self]
    · exact ⟨q.classification.symm, q.wc.symm⟩
  have hold := hold_of_sums p1 hN p11 p6.wf p7 (by rw [← p6.square]; exact p7) p8 p9 p10 p13 p14
  have hold' := hold_of_sums r1 hN r11 r6.wf r7 (by rw [← r6.square]; exact r7) r8 r9 r10 r13 r14
  rw [qn, ← q.norm, hcw.1, hcw.2] at hold'
  obtain ⟨eS, eT⟩ := hold'.det hold
  subst eS eT
  have c1 : e1.nnet.corr = some (e1.nnet.store S', HT') := by rw [p5]; rfl
  have c2 : e2.nnet.corr = some (e2.nnet.store S', HT') := by rw [r5]; rfl
  refine ⟨e2, _, _, h2, hcw.2, ?_, by unfold NNet.solve; rw [c1], by unfold NNet.solve; rw [c2], ?_⟩
  · rw [getCorr_store _ p6 c1, getCorr_store _ p6 c2]
  · have hcorr : IsCorr H' T w e.nnet.norm S' HT' := ⟨by rw [p2, hN], p6.wf, p7, by rw [← p6.square]; exact p7, p8, p9, p10, p13, p14⟩
    obtain ⟨s1, s2, s3, s4⟩ := hcorr.solve hl hx e1.nnet hnorm p12 (A := e1.nnet.store S') (Or.inr rfl)
    obtain ⟨t1, t2, t3, t4⟩ := hcorr.solve hl hx e2.nnet hnorm p12 (A := e2.nnet.store S') (Or.inr rfl)
    show some _ = some _
    rw [hcorr.unique hnorm p12 s2 t2 s3 t3 s1 t1]

/-- The data fed before saving. -/
def fedModel : ELM ℚ :=
  { exModel 1 7 none none with nnet := { (exModel 1 7 none none).nnet with corr := some (⟨2, [[2, 0], [0, 2]]⟩, ⟨1, [[4], [6]]⟩) } }

/-- C54 is false for a model that data was fed to but that was not solved, and for feeding more data: what was fed is not saved.  Feeding
`([1,0],4), ([0,1],6)` and then `([1,0],0)` gives weights `4/3, 3`; with a save/load in between `0, 0`; solving without feeding more
is not possible at all after loading. -/
theorem C54_fed_data_lost_refuted :
    (exModel 1 7 none none).addData QEnv.env ⟨2, [[1, 0], [0, 1]]⟩ ⟨1, [[4], [6]]⟩ = .ok fedModel ∧
    (fedModel.addData QEnv.env ⟨2, [[1, 0]]⟩ ⟨1, [[0]]⟩ >>= fun e : ELM ℚ => e.nnet.solve QEnv.env).map (·.getB) = .ok (some ⟨1, [[4 / 3], [3]]⟩) ∧
    (fedModel.load QEnv.env fedModel.saved >>= fun e : ELM ℚ => e.addData QEnv.env ⟨2, [[1, 0]]⟩ ⟨1, [[0]]⟩ >>=
      fun e : ELM ℚ => e.nnet.solve QEnv.env).map (·.getB) = .ok (some ⟨1, [[0], [0]]⟩) ∧
    (fedModel.nnet.solve QEnv.env).map (·.getB) = .ok (some ⟨1, [[2], [3]]⟩) ∧
    (fedModel.load QEnv.env fedModel.saved >>= fun e : ELM ℚ => e.nnet.solve QEnv.env).map (·.getB) = .error .typeError := by decide +kernel

/-- A round trip between a python-solver object and the basic-solver object it is loaded into, then training with other batch sizes. -/
example : ((exModel 1 7 none none).train QEnv.env (fun _ => none) ⟨fun _ => []⟩ (.mat ⟨2, [[1, 0], [0, 1], [2, 3]]⟩) (.mat ⟨1, [[1], [2], [3]]⟩) [] {}).2.nnet.getB =
    some ⟨1, [[11 / 30], [4 / 5]]⟩ ∧
    (otherModel.load QEnv.env (exModel 1 7 none none).saved).map (fun e : ELM ℚ =>
      (e.train QEnv.env (fun _ => none) ⟨fun _ => []⟩ (.mat ⟨2, [[1, 0], [0, 1], [2, 3]]⟩) (.mat ⟨1, [[1], [2], [3]]⟩) [] { batch := some 1 }).2.nnet.getB) =
      .ok (some ⟨1, [[11 / 30], [4 / 5]]⟩) := by decide +kernel

/-- The hypotheses of the three theorems are met: `lawEnv` is a lawful exact environment over any ordered field; the model is one that was loaded before. -/
example : Lawful (lawEnv QEnv.env) ∧ (lawEnv QEnv.env).Exact ∧ Consistent (exModel 1 7 none none).nnet ∧ (exModel 1 7 none none).nnet.corr = none ∧
    (otherModel.load QEnv.env smallModel.saved).map (fun e' : ELM ℚ => (e'.nnet.solver, e'.accelerator, e'.prec, e'.nnet.prec)) =
      .ok (.basic, none, .double, .double) :=
  ⟨lawEnv_lawful _, lawEnv_exact _, ⟨by simp [exModel], by simp [exModel], Or.inl rfl, by simp [exModel], by simp [exModel]⟩, rfl, by decide +kernel⟩

end Hpelm.Props
