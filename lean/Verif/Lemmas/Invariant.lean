import Verif.Lemmas.Network
import Verif.Spec.EnvLaws
import Verif.Model.Ops

/-! Every public operation keeps a network consistent. -/

set_option linter.unusedSectionVars false

namespace Hpelm
variable {K : Type}
open Spec

section
variable [Field K] [LinearOrder K]

theorem bind_ok {α β : Type} {x : Except PyErr α} {f : α → Except PyErr β} {r : β} (h : (x >>= f) = .ok r) :
    ∃ a, x = .ok a ∧ f a = .ok r := by
  cases x with
  | error e => cases h
  | ok a => exact ⟨a, rfl, h⟩

theorem pyAssert_ok {c : Bool} {u} (h : pyAssert c = .ok u) : c = true := by
  unfold pyAssert at h
  split at h
  · assumption
  · cases h

theorem corrOk_congr {n n' : NNet K} (h1 : n'.neurons = n.neurons) (h2 : n'.inputs = n.inputs) (h3 : n'.outputs = n.outputs)
    (h4 : n'.L = n.L) (h5 : n'.B = n.B) (hc : Consistent n)
    (h6 : ∀ HH HT, n'.corr = some (HH, HT) →
      HH.WF ∧ HT.WF ∧ some HH.nrows = n.L ∧ some HH.cols = n.L ∧ some HT.nrows = n.L ∧ HT.cols = n.outputs) :
    Consistent n' := by
  refine ⟨?_, ?_, ?_, ?_, ?_⟩
  · rw [h1, h2]; exact hc.groups
  · rw [h1]; exact hc.types
  · rw [h1, h4]; exact hc.count
  · rw [h5, h4, h3]; exact hc.weights
  · rw [h4, h3]; exact h6

theorem L_of_ne {n : NNet K} (hc : Consistent n) (h : n.neurons ≠ []) : n.L = some (size n) := by
  rcases hc.count with h1 | ⟨_, h1⟩
  · exact h1
  · exact absurd h1 h

theorem accum_consistent {env : Env K} {n n' : NNet K} {H T : Mat K} {w} (hc : Consistent n) (hL : n.L.isSome)
    (h : n.accum env H T w = .ok n') : Consistent n' := by
  unfold NNet.accum at h
  obtain ⟨⟨H', T'⟩, hw, h⟩ := bind_ok h
  have h : n.accum env H' T' none = .ok n' := h
  rw [accum_none] at h
  split at h
  · cases h
  split at h
  · cases h
  injection h with h
  obtain ⟨l, hl⟩ := Option.isSome_iff_exists.1 hL
  rw [← h]
  refine corrOk_congr (n := n) rfl rfl rfl rfl rfl hc ?_
  intro HH HT heq
  simp only [Option.some.injEq, Prod.mk.injEq] at heq
  obtain ⟨rfl, rfl⟩ := heq
  have h0 : some n.corr0.1.nrows = n.L ∧ some n.corr0.1.cols = n.L ∧ some n.corr0.2.nrows = n.L ∧
      n.corr0.2.cols = n.outputs := by
    unfold NNet.corr0
    cases hcorr : n.corr with
    | none => simp [hl]
    | some c =>
      obtain ⟨A, C⟩ := c
      exact (hc.corrs A C hcorr).2.2
  refine ⟨updHH_WF _ _ _, Mat.add_WF _ _, ?_, ?_, ?_, ?_⟩
  · simpa using h0.1
  · simpa using h0.2.1
  · simpa using h0.2.2.1
  · simpa using h0.2.2.2

theorem addBatch_consistent {env : Env K} {n n' : NNet K} {X T : Mat K} {w} (hc : Consistent n)
    (h : n.addBatch env X T w = .ok n') : Consistent n' := by
  rw [addBatch_eq] at h
  obtain ⟨H, hH, h⟩ := bind_ok h
  have hne := ((project_ok_iff env n X H).1 hH).2.2.1
  exact accum_consistent hc (by rw [L_of_ne hc hne]; rfl) h

theorem reset_consistent {n : NNet K} (hc : Consistent n) : Consistent n.reset := by
  refine ⟨hc.groups, hc.types, Or.inl rfl, ?_, ?_⟩
  · intro B hB
    obtain ⟨h1, h2, h3⟩ := hc.weights B hB
    refine ⟨h1, ?_, h3⟩
    rcases hc.count with h | ⟨h, _⟩
    · rw [h2, h]; rfl
    · rw [h] at h2; cases h2
  · intro HH HT h; simp [NNet.reset] at h

theorem feed_consistent {env : Env K} {ic oc : Nat} (bs : List (List (List K) × List (List K))) {e e' : ELM K}
    (hc : Consistent e.nnet) (h : e.feed env ic oc bs = .ok e') : Consistent e'.nnet := by
  induction bs generalizing e with
  | nil => injection h with h; rw [← h]; exact hc
  | cons b bs ih =>
    obtain ⟨Xb, Tb⟩ := b
    unfold ELM.feed at h
    obtain ⟨w, _, h⟩ := bind_ok h
    obtain ⟨n, hn, h⟩ := bind_ok h
    exact ih (addBatch_consistent hc hn) h

theorem autoWc_nnet (env : Env K) (e : ELM K) (ns : List K) : (e.autoWc env ns).nnet = e.nnet := by
  unfold ELM.autoWc; split <;> rfl

theorem addData_consistent {env : Env K} {e e' : ELM K} {X T : Mat K} (hc : Consistent e.nnet)
    (h : e.addData env X T = .ok e') : Consistent e'.nnet := by
  unfold ELM.addData at h
  split at h
  · cases h
  obtain ⟨Xs, _, h⟩ := bind_ok h
  obtain ⟨Ts, _, h⟩ := bind_ok h
  exact feed_consistent _ (by rw [autoWc_nnet]; exact hc) h

theorem solveCorr_shape {env : Env K} (hs : Shapes env) (n : NNet K) {HH HT : Mat K} (h1 : HH.WF) (h2 : HT.WF)
    (h3 : HH.nrows = HH.cols) (h4 : HT.nrows = HH.nrows) : SolShape HH HT (n.solveCorr env HH HT) := by
  unfold NNet.solveCorr
  split
  · obtain ⟨_, p2, _⟩ := hs.pinv HH h1 h3
    exact ⟨Mat.mul_WF _ _, by simpa using p2, rfl⟩
  · simp only
    split
    · have := hs.lstsq (HH.add (triu1T HH)) HT (Mat.add_WF _ _) h2 (by simpa using h3) (by simpa using h4)
      simpa [SolShape] using this
    · exact hs.posv HH HT h1 h2 h3 h4
  · simp only
    have hm : ∀ (c : K → K) (M : Mat K), SolShape HH HT M → SolShape HH HT (M.map c) := by
      intro c M ⟨a, b, d⟩
      refine ⟨Mat.map_WF a, by simpa using b, by simpa using d⟩
    apply hm
    split
    · have := hs.lstsq ((triu HH).add (triu1T HH)) HT (Mat.add_WF _ _) h2 (by simpa [triu] using h3) (by simpa [triu] using h4)
      simpa [SolShape, triu] using this
    · exact hs.posv HH HT h1 h2 h3 h4

theorem solve_consistent {env : Env K} (hs : Shapes env) {n n' : NNet K} (hc : Consistent n)
    (h : n.solve env = .ok n') : Consistent n' := by
  unfold NNet.solve at h
  split at h
  · cases h
  rename_i HH HT hcorr
  injection h with h
  rw [← h]
  have hco := hc.corrs HH HT hcorr
  obtain ⟨c1, c2, c3, c4, c5, c6⟩ := hco
  refine ⟨hc.groups, hc.types, hc.count, ?_, hc.corrs⟩
  intro B hB
  simp only [Option.some.injEq] at hB
  subst hB
  have e1 : HH.nrows = HH.cols := by have := c3.trans c4.symm; simpa using this
  have e2 : HT.nrows = HH.nrows := by have := c5.trans c3.symm; simpa using this
  obtain ⟨s1, s2, s3⟩ := solveCorr_shape hs n c1 c2 e1 e2
  exact ⟨s1, by rw [s2]; exact c4, by rw [s3]; exact c6⟩

theorem setB_consistent {env : Env K} {n n' : NNet K} {B : Mat K} (hc : Consistent n) (hB : B.WF)
    (h : n.setB env B = .ok n') : Consistent n' := by
  unfold NNet.setB at h
  obtain ⟨_, h1, h⟩ := bind_ok h
  obtain ⟨_, h2, h⟩ := bind_ok h
  have h1 := pyAssert_ok h1
  have h2 := pyAssert_ok h2
  simp only [decide_eq_true_eq] at h1 h2
  simp only [pure, Except.pure] at h
  injection h with h
  rw [← h]
  refine ⟨hc.groups, hc.types, hc.count, ?_, hc.corrs⟩
  intro B' hB'
  simp only [Option.some.injEq] at hB'
  subst hB'
  exact ⟨Mat.map_WF hB, by simpa using h1, by simpa using h2⟩

theorem setCorr_consistent {env : Env K} {n n' : NNet K} {HH HT : Mat K} (hc : Consistent n) (h1 : HH.WF) (h2 : HT.WF)
    (h : n.setCorr env HH HT = .ok n') : Consistent n' := by
  unfold NNet.setCorr at h
  obtain ⟨_, a1, h⟩ := bind_ok h
  obtain ⟨_, a2, h⟩ := bind_ok h
  obtain ⟨_, a3, h⟩ := bind_ok h
  obtain ⟨_, a4, h⟩ := bind_ok h
  have a1 := pyAssert_ok a1
  have a2 := pyAssert_ok a2
  have a3 := pyAssert_ok a3
  have a4 := pyAssert_ok a4
  simp only [decide_eq_true_eq] at a1 a2 a3 a4
  simp only [pure, Except.pure] at h
  injection h with h
  rw [← h]
  refine ⟨hc.groups, hc.types, hc.count, hc.weights, ?_⟩
  intro A C heq
  simp only [Option.some.injEq, Prod.mk.injEq] at heq
  obtain ⟨rfl, rfl⟩ := heq
  exact ⟨Mat.map_WF h1, Mat.map_WF h2, by simpa using a2, by simpa [← a1] using a2, by simpa [← a3] using a2,
    by simpa using a4⟩

theorem parseOne_nnet (kw : Kwargs K) (e : ELM K) (a : String) : (parseOne kw e a).1.nnet = e.nnet := by
  unfold parseOne
  repeat' split
  all_goals first | rfl | (simp only []; repeat' split)
  all_goals rfl

theorem parseLoop_nnet (kw : Kwargs K) (as : List String) (e : ELM K) : (parseLoop kw as e).1.nnet = e.nnet := by
  induction as generalizing e with
  | nil => rfl
  | cons a as ih =>
    unfold parseLoop
    have := parseOne_nnet kw e a
    split
    · rename_i e' x heq; rw [heq] at this; exact this
    · rename_i e' heq; rw [heq] at this; rw [ih]; exact this

theorem parseArgs_nnet (kw : Kwargs K) (args : List String) (e : ELM K) :
    (e.parseArgs args kw).1.nnet = if e.nnet.neurons.isEmpty then e.nnet else e.nnet.reset := by
  unfold ELM.parseArgs
  by_cases h : e.nnet.neurons.isEmpty
  · rw [if_pos h, if_pos h]
  · rw [if_neg h, if_neg h]
    simp only
    split
    · rfl
    split
    · rfl
    have := parseLoop_nnet kw (args.map upper)
      { e with nnet := e.nnet.reset, rankingOP := false, kmaxOp := none, classification := none, wc := none }
    split
    · rename_i heq; rw [heq] at this; exact this
    · rename_i heq; rw [heq] at this
      simp only at this ⊢
      split <;> exact this

theorem parseArgs_consistent {kw : Kwargs K} {args : List String} {e e' : ELM K} {r} (hc : Consistent e.nnet)
    (h : e.parseArgs args kw = (e', r)) : Consistent e'.nnet := by
  have := parseArgs_nnet kw args e
  rw [h] at this
  simp only at this
  rw [this]
  split
  · exact hc
  · exact reset_consistent hc

theorem refit_consistent {env : Env K} (hs : Shapes env) {e e' : ELM K} {best : List Nat} {X T : Mat K}
    (hc : Consistent e.nnet) (h : e.refit env best X T = .ok e') : Consistent e'.nnet := by
  unfold ELM.refit at h
  obtain ⟨n1, h1, h⟩ := bind_ok h
  obtain ⟨n2, h2, h⟩ := bind_ok h
  simp only [pure, Except.pure] at h
  injection h with h
  rw [← h]
  exact solve_consistent hs (addBatch_consistent (prune_consistent hc best) h1) h2

theorem trainV_consistent {env : Env K} (hs : Shapes env) {sh} {e : ELM K} {X T Xv Tv : Mat K} {r}
    (hc : Consistent e.nnet) (h : trainV env sh e X T Xv Tv = .ok r) : Consistent r.1.nnet := by
  unfold trainV at h
  obtain ⟨e1, h1, h⟩ := bind_ok h
  obtain ⟨_, _, h⟩ := bind_ok h
  obtain ⟨_, _, h⟩ := bind_ok h
  obtain ⟨_, _, h⟩ := bind_ok h
  obtain ⟨_, _, h⟩ := bind_ok h
  obtain ⟨_, _, h⟩ := bind_ok h
  obtain ⟨_, _, h⟩ := bind_ok h
  obtain ⟨e2, h2, h⟩ := bind_ok h
  simp only [pure, Except.pure] at h
  injection h with h
  rw [← h]
  exact refit_consistent hs (addData_consistent hc h1) h2

theorem trainLOO_consistent {env : Env K} (hs : Shapes env) {sh} {e : ELM K} {X T : Mat K} {r}
    (hc : Consistent e.nnet) (h : trainLOO env sh e X T = .ok r) : Consistent r.1.nnet := by
  unfold trainLOO at h
  obtain ⟨_, _, h⟩ := bind_ok h
  obtain ⟨e1, h1, h⟩ := bind_ok h
  obtain ⟨_, _, h⟩ := bind_ok h
  obtain ⟨_, _, h⟩ := bind_ok h
  obtain ⟨_, _, h⟩ := bind_ok h
  obtain ⟨_, _, h⟩ := bind_ok h
  obtain ⟨_, _, h⟩ := bind_ok h
  obtain ⟨e2, h2, h⟩ := bind_ok h
  simp only [pure, Except.pure] at h
  injection h with h
  rw [← h]
  exact refit_consistent hs (addData_consistent hc h1) h2

theorem trainCV_consistent {env : Env K} (hs : Shapes env) {sh} {e : ELM K} {X T : Mat K} {k} {r}
    (hc : Consistent e.nnet) (h : trainCV env sh e X T k = .ok r) : Consistent r.1.nnet := by
  unfold trainCV at h
  obtain ⟨_, _, h⟩ := bind_ok h
  obtain ⟨_, _, h⟩ := bind_ok h
  obtain ⟨_, _, h⟩ := bind_ok h
  obtain ⟨_, _, h⟩ := bind_ok h
  obtain ⟨_, _, h⟩ := bind_ok h
  obtain ⟨e2, h2, h⟩ := bind_ok h
  simp only [pure, Except.pure] at h
  injection h with h
  rw [← h]
  exact refit_consistent hs hc h2

theorem trainBody_consistent {env : Env K} (hs : Shapes env) {fs rnd} {e : ELM K} {X T : Mat K} {args kw r}
    (hc : Consistent e.nnet) (h : e.trainBody env fs rnd X T args kw = .ok r) : Consistent r.2.nnet := by
  unfold ELM.trainBody at h
  split at h
  · split at h
    · obtain ⟨_, _, h⟩ := bind_ok h
      obtain ⟨r', hr, h⟩ := bind_ok h
      simp only [pure, Except.pure] at h
      injection h with h
      rw [← h]
      exact trainV_consistent hs hc hr
    · cases h
  split at h
  · split at h
    · cases h
    · obtain ⟨_, _, h⟩ := bind_ok h
      obtain ⟨r', hr, h⟩ := bind_ok h
      simp only [pure, Except.pure] at h
      injection h with h
      rw [← h]
      exact trainCV_consistent hs hc hr
  split at h
  · obtain ⟨r', hr, h⟩ := bind_ok h
    simp only [pure, Except.pure] at h
    injection h with h
    rw [← h]
    exact trainLOO_consistent hs hc hr
  · obtain ⟨e1, h1, h⟩ := bind_ok h
    obtain ⟨n1, h2, h⟩ := bind_ok h
    simp only [pure, Except.pure] at h
    injection h with h
    rw [← h]
    exact solve_consistent hs (addData_consistent hc h1) h2

theorem train_consistent {env : Env K} (hs : Shapes env) {fs rnd} {e : ELM K} {X T args kw}
    (hc : Consistent e.nnet) : Consistent (e.train env fs rnd X T args kw).2.nnet := by
  unfold ELM.train
  split
  · exact hc
  · split
    · rename_i heq; exact parseArgs_consistent hc heq
    · rename_i heq
      have h1 := parseArgs_consistent hc heq
      split
      · exact h1
      · rename_i h2; exact trainBody_consistent hs h1 h2

theorem init_consistent (env : Env K) (s : Solver) (i o : Nat) (norm : Option K) (p : Prec) :
    Consistent (NNet.init env s i o norm p) := by
  refine ⟨?_, ?_, Or.inr ⟨rfl, rfl⟩, ?_, ?_⟩ <;> simp [NNet.init]

theorem elmInit_consistent {env : Env K} {i o : Nat} {c w b a p norm} {e : ELM K}
    (h : ELM.init env i o c w b a p norm = .ok e) : Consistent e.nnet := by
  unfold ELM.init at h
  obtain ⟨_, _, h⟩ := bind_ok h
  simp only at h
  split at h
  · obtain ⟨_, _, h⟩ := bind_ok h
    simp only [pure, Except.pure] at h
    injection h with h
    rw [← h]
    exact init_consistent _ _ _ _ _ _
  · simp only [pure, Except.pure, bind, Except.bind] at h
    injection h with h
    rw [← h]
    exact init_consistent _ _ _ _ _ _

theorem elmAddNeurons_nnet {env : Env K} {rW rB sq} {e e' : ELM K} {k f W B}
    (hr : ∀ m, (rW m).WF) (hW : ∀ M, W = some M → M.WF)
    (h : e.addNeurons env rW rB sq k f W B = .ok e') :
    ∃ k' W' B', e' = { e with nnet := e.nnet.addNeurons k' f W' B' } ∧ funcOk f = true ∧ W'.length = k' ∧ B'.length = k' ∧
      ∀ w ∈ W', w.length = e.nnet.inputs := by
  unfold ELM.addNeurons at h
  obtain ⟨_, h0, h⟩ := bind_ok h
  have h0 := pyAssert_ok h0
  obtain ⟨_, h1, h⟩ := bind_ok h
  obtain ⟨_, h2, h⟩ := bind_ok h
  have h1 := pyAssert_ok h1
  have h2 := pyAssert_ok h2
  simp only [decide_eq_true_eq] at h1 h2
  simp only [pure, Except.pure] at h
  injection h with h
  refine ⟨_, _, _, h.symm, h0, ?_, ?_, ?_⟩
  · have := h1.2; simpa [Mat.nrows, Mat.map] using this
  · simpa using h2
  · intro w hw
    have := Mat.map_WF (f := env.cast e.prec) ?_ w hw
    · rw [this]
      exact h1.1
    · clear hw h1 h2 h
      cases W with
      | some M => exact hW M rfl
      | none =>
        simp only
        by_cases hf : f = Func.name "lin"
        · rw [if_pos hf]; exact Mat.ofFn_WF _ _ _
        · rw [if_neg hf]
          simp only
          have hif : ∀ c : Bool, (if c = true then rW k else Mat.map (fun x => x * sq) (rW k)).WF := by
            intro c
            cases c
            · exact Mat.map_WF (hr k)
            · exact hr k
          exact hif _

theorem load_consistent {env : Env K} {e e' : ELM K} {m : Saved K} (ha : e.accelerator = none)
    (hm : ∀ g ∈ m.neurons, g.W.length = g.number ∧ g.B.length = g.number ∧ ∀ w ∈ g.W, w.length = m.inputs)
    (hb : ∀ B, m.beta = some B → B.WF) (h : e.load env m = .ok e') : Consistent e'.nnet := by
  have hfold : ∀ (gs : List (Group K)) (n : NNet K), Consistent n → n.inputs = m.inputs →
      (∀ g ∈ gs, g.W.length = g.number ∧ g.B.length = g.number ∧ ∀ w ∈ g.W, w.length = m.inputs) →
      Consistent (gs.foldl (fun (n : NNet K) g =>
        n.addNeurons g.number g.func (g.W.map (List.map (env.cast e.prec))) (g.B.map (env.cast e.prec))) n) := by
    intro gs
    induction gs with
    | nil => intro n hc _ _; exact hc
    | cons g gs ih =>
      intro n hc hi hg
      rw [List.foldl_cons]
      apply ih
      · obtain ⟨g1, g2, g3⟩ := hg g List.mem_cons_self
        apply addNeurons_consistent hc
        · simpa using g1
        · simpa using g2
        · intro w hw
          simp only [List.mem_map] at hw
          obtain ⟨w', hw', rfl⟩ := hw
          rw [List.length_map, g3 w' hw', hi]
      · exact hi
      · intro g' hg'; exact hg g' (List.mem_cons_of_mem _ hg')
  unfold ELM.load at h
  rw [if_pos ha] at h
  simp only at h
  have hc := hfold m.neurons (NNet.init env .basic m.inputs m.outputs none e.prec) (init_consistent _ _ _ _ _ _) rfl hm
  revert h hc
  generalize m.neurons.foldl _ _ = n
  intro h hc
  have hc' : Consistent { n with norm := m.norm } := ⟨hc.groups, hc.types, hc.count, hc.weights, hc.corrs⟩
  split at h
  · simp only [pure, Except.pure, bind, Except.bind] at h
    injection h with h
    rw [← h]
    exact hc'
  · rename_i B hB
    obtain ⟨n2, h2, h⟩ := bind_ok h
    simp only [pure, Except.pure] at h
    injection h with h
    rw [← h]
    exact setB_consistent hc' (Mat.map_WF (hb B hB)) h2

end
end Hpelm
