import Verif.Props.C37_C39_Selection
import Verif.Props.C36_TestError
import Verif.Props.C64_C68_TrainAlgebra
import Verif.Props.C21_C24_Arguments

/-!
# C83: what a structure selection returns
-/

set_option linter.unusedSectionVars false

namespace Hpelm.Props
open Hpelm Spec Finset
variable {K : Type} [Field K] [LinearOrder K] [IsStrictOrderedRing K]

/-- Every selection method ends by re-training the first neurons of a ranking of distinct existing neurons. -/
theorem selection_refit {env : Env K} (hs : Shapes env) (hx : env.Exact) {fs rnd} {e : ELM K} {X T : Mat K} {args kw r}
    (hc : Consistent e.nnet) (hT : T.WF) (hN : X.nrows = T.nrows) (hsel : "V" ∈ args ∨ "CV" ∈ args ∨ "LOO" ∈ args)
    (hsh : ∀ i, (rnd.shuffles i).Perm (List.range (size e.nnet))) (h : e.trainBody env fs rnd X T args kw = .ok r) :
    ∃ (e1 : ELM K) (rank : List Nat) (k : Nat), Consistent e1.nnet ∧ e1.nnet.neurons = e.nnet.neurons ∧ e1.nnet.norm = e.nnet.norm ∧
      rank.Nodup ∧ (∀ i ∈ rank, i < size e.nnet) ∧ e1.refit env (rank.take k) X T = .ok r.2 := by
  unfold ELM.trainBody at h
  split at h
  · split at h
    · obtain ⟨_, _, h⟩ := bind_ok h
      obtain ⟨r', hr, h⟩ := bind_ok h
      injection h with h
      rw [← h]
      unfold trainV at hr
      obtain ⟨e1, h1, hr⟩ := bind_ok hr
      obtain ⟨c, _, hr⟩ := bind_ok hr
      obtain ⟨Hv, hH, hr⟩ := bind_ok hr
      obtain ⟨rk, hrk, hr⟩ := bind_ok hr
      obtain ⟨_, _, hr⟩ := bind_ok hr
      obtain ⟨_, _, hr⟩ := bind_ok hr
      obtain ⟨m, hm, hr⟩ := bind_ok hr
      obtain ⟨e2, h2, hr⟩ := bind_ok hr
      injection hr with hr
      rw [← hr]
      have hc1 := addData_consistent hc h1
      obtain ⟨c', rfl⟩ := addData_fields h1
      have hcols : Hv.cols = size e.nnet := (project_WF hc1 hH).2.2
      obtain ⟨b1, b2, _⟩ := C40_ranking_partial env (rnd.shuffles 0) _ _ Hv _ (by rw [hcols]; exact hsh 0)
        (by rw [size_L hc1, hcols]; rfl) (r := rk.1) (k := rk.2) hrk
      exact ⟨_, rk.1, m.1, hc1, rfl, rfl, b1, fun i hi => by rw [← hcols]; exact b2 i hi, h2⟩
    · cases h
  split at h
  · split at h
    · cases h
    · rename_i k hk
      obtain ⟨_, _, h⟩ := bind_ok h
      obtain ⟨r', hr, h⟩ := bind_ok h
      injection h with h
      rw [← h]
      unfold trainCV at hr
      obtain ⟨ds, hds, hr⟩ := bind_ok hr
      obtain ⟨_, _, hr⟩ := bind_ok hr
      obtain ⟨_, _, hr⟩ := bind_ok hr
      obtain ⟨m, _, hr⟩ := bind_ok hr
      obtain ⟨_, _, hr⟩ := bind_ok hr
      obtain ⟨e2, h2, hr⟩ := bind_ok hr
      injection hr with hr
      rw [← hr]
      obtain ⟨b1, b2⟩ := cv_last_rank hx hT hN hc (fun i _ => hsh i) hds
      exact ⟨_, _, m.1, hc, rfl, rfl, b1, b2, h2⟩
  split at h
  · obtain ⟨r', hr, h⟩ := bind_ok h
    injection h with h
    rw [← h]
    unfold trainLOO at hr
    obtain ⟨H, hH, hr⟩ := bind_ok hr
    obtain ⟨e1, h1, hr⟩ := bind_ok hr
    obtain ⟨c, _, hr⟩ := bind_ok hr
    obtain ⟨rk, hrk, hr⟩ := bind_ok hr
    obtain ⟨_, _, hr⟩ := bind_ok hr
    obtain ⟨_, _, hr⟩ := bind_ok hr
    obtain ⟨m, hm, hr⟩ := bind_ok hr
    obtain ⟨e2, h2, hr⟩ := bind_ok hr
    injection hr with hr
    rw [← hr]
    have hc1 := addData_consistent hc h1
    obtain ⟨c', rfl⟩ := addData_fields h1
    have hcols : H.cols = size e.nnet := (project_WF hc hH).2.2
    obtain ⟨b1, b2, _⟩ := C40_ranking_partial env (rnd.shuffles 0) _ _ H _ (by rw [hcols]; exact hsh 0)
      (by rw [size_L hc1, hcols]; rfl) (r := rk.1) (k := rk.2) hrk
    exact ⟨_, rk.1, m.1, hc1, rfl, rfl, b1, fun i hi => by rw [← hcols]; exact b2 i hi, h2⟩
  · rename_i h1 h2 h3
    rcases hsel with h | h | h
    · exact absurd h h1
    · exact absurd h h2
    · exact absurd h h3

theorem mem_positions_subperm {α : Type} (l : List α) (d : α) {keep : List Nat} (hn : keep.Nodup) (hb : ∀ i ∈ keep, i < l.length) :
    (keep.map fun i => l.getD i d).Subperm l := by
  have h1 : keep.Subperm (List.range l.length) := hn.subperm fun i hi => List.mem_range.2 (hb i hi)
  have h2 : ((List.range l.length).map fun i => l.getD i d) = l := by
    apply List.ext_getElem (by simp)
    intro i h1 h2
    simp [List.getD_eq_getElem?_getD, h2]
  obtain ⟨l2, p1, p2⟩ := h1
  have h3 := p2.map fun i => l.getD i d
  rw [h2] at h3
  exact ⟨_, p1.map _, h3⟩

/-- The model a selection returns, as a trained model in its own right. -/
theorem selected_trained {env : Env K} (hl : Lawful env) (hx : env.Exact) {e e' : ELM K} {X T : Mat K} {args kw}
    (h : SelectedTrain env e X T args kw e') :
    Consistent e'.nnet ∧ e'.nnet.norm = e.nnet.norm ∧ (neuronList e'.nnet).Subperm (neuronList e.nnet) ∧
      ∃ H B, Trained env e' X T { e' with classification := none } H B fun _ => 1 := by
  obtain ⟨fs, rnd, r, hsh, hr⟩ := h.run
  obtain ⟨X', T', e0, h1, h2, h3⟩ := train_ok hr
  have hXT : X' = X ∧ T' = T := by
    unfold checkBoth checkData checkOne at h1
    simp only [bind_assoc, pure_bind] at h1
    obtain ⟨_, _, h1⟩ := bind_ok h1
    obtain ⟨_, _, h1⟩ := bind_ok h1
    obtain ⟨_, _, h1⟩ := bind_ok h1
    injection h1 with h1
    injection h1 with h1 h2
    exact ⟨h1.symm, h2.symm⟩
  obtain ⟨rfl, rfl⟩ := hXT
  obtain ⟨_, _, hN⟩ := checkBoth_ok h1
  obtain ⟨_, q2, _⟩ := parseArgs_kw h2
  have hc0 : Consistent e0.nnet := by rw [q2]; exact reset_consistent h.consistent
  have hs0 : size e0.nnet = size e.nnet := by rw [q2]; rfl
  obtain ⟨e1, rank, k, c1, c2, c3, c4, c5, c6⟩ := selection_refit hl.toShapes hx hc0 h.targets hN h.selection (by rw [hs0]; exact hsh) h3
  have hn0 : e0.nnet.norm = e.nnet.norm := by rw [q2]; rfl
  have hg0 : e0.nnet.neurons = e.nnet.neurons := by rw [q2]; rfl
  have hnn : e'.nnet.norm = e.nnet.norm := by
    have := (refit_frame c6).nnet.norm
    rw [this, c3, hn0]
  have hl1 : neuronList e1.nnet = neuronList e.nnet := by unfold neuronList; rw [c2, hg0]
  have hs1 : size e1.nnet = size e.nnet := by unfold size; rw [c2, hg0]
  obtain ⟨n1, n2⟩ := refit_neurons c1 c6
  have hcon := refit_consistent hl.toShapes c1 c6
  refine ⟨hcon, hnn, ?_, ?_⟩
  · rw [n1, hl1]
    have hp := (C08_prune env e1.nnet c1 (rank.take k)).1
    have hnd : (rank.take k).Nodup := c4.sublist (List.take_sublist _ _)
    apply mem_positions_subperm
    · exact hp.nodup_iff.2 (hnd.filter _)
    · intro i hi
      have := (List.mem_filter.1 (hp.mem_iff.1 hi)).2
      rw [← size_neuronList h.consistent, ← hs1]
      simpa using this
  · obtain ⟨H, B, d1, d2, d3, d4, d5, d6⟩ := refit_normalEq hl hx hN h.targets (by rw [c3, hn0]; exact h.norm) c6
    rw [c3, hn0, ← hnn] at d6
    obtain ⟨w1, w2, w3⟩ := project_WF hcon d1
    refine ⟨H, B, ⟨d1, hN, by rw [w2, hN], w3, d2, d3, d4, d5, ?_, fun _ _ => zero_le_one, d6, ?_, ?_⟩⟩
    · intro s hs
      exact ⟨fun _ => rfl, fun h => by cases h⟩
    · intro B' h1 h2 h3
      exact (normalEq_minimises (by rw [hnn]; exact h.norm) (fun _ _ => zero_le_one) d3 d4 d5 d6 B' h1 h2 h3).1
    · rintro Xn P ⟨fs, hp⟩
      unfold ELM.predict at hp
      obtain ⟨o, ho, hp⟩ := bind_ok hp
      have ho' : o = some Xn := by
        unfold checkOne at ho
        simp only at ho
        obtain ⟨M, hM, ho⟩ := bind_ok ho
        obtain ⟨_, _, ho⟩ := bind_ok ho
        injection ho with ho
        injection hM with hM
        rw [hM, ho]
      rw [ho'] at hp
      unfold NNet.predict at hp
      have d2' : e'.nnet.B = some B := d2
      rw [d2'] at hp
      simp only at hp
      obtain ⟨Hn, g1, hp⟩ := bind_ok hp
      have hw := project_WF hcon g1
      refine ⟨Hn, g1, ?_, by rw [hw.2.2, w3], hw.2.1⟩
      split at hp
      · cases hp
      · injection hp with hp; exact hp.symm

/-! ### C83 -/

/-- C83 (the neurons).  The neurons of the model returned by a structure selection are neurons of the network it was called on, none of
them used twice. -/
theorem C83_kept_neurons (env : Env K) (hl : Lawful env) (hx : env.Exact) (e e' : ELM K) (X T : Mat K) (args : List String) (kw : Kwargs K)
    (h : SelectedTrain env e X T args kw e') : (neuronList e'.nnet).Subperm (neuronList e.nnet) := (selected_trained hl hx h).2.2.1

/-- C83 (the weights).  A structure selection has no effect but the choice of the neurons: the returned model predicts the same as any
model that consists of the same neurons (in any order) and regularisation and was trained on the same data without selection, not as a
weighted classification. -/
theorem C83_as_trained_directly (env : Env K) (hl : Lawful env) (hx : env.Exact) (e e' f f' : ELM K) (X T : Mat K) (args argsf : List String)
    (kw kwf : Kwargs K) (h : SelectedTrain env e X T args kw e') (hf : PlainTrain env f X T argsf kwf f') (hc : f'.classification ≠ some "wc")
    (hn : (neuronList e'.nnet).Perm (neuronList f.nnet)) (hr : e.nnet.norm = f.nnet.norm)
    (Xn P Q : Mat K) (p : Predicts env e' Xn P) (q : Predicts env f' Xn Q) : P = Q := by
  obtain ⟨c1, c2, _, H, B, t⟩ := selected_trained hl hx h
  obtain ⟨H', B', w', t'⟩ := hf.trained hl hx
  refine trained_order t t' c1 hf.consistent (by rw [c2]; exact h.norm) ?_ hn (c2.trans hr) Xn P Q p q
  intro s hs
  exact (t'.sw s hs).1 hc

/-- C83 (validation data and folds).  Two structure selections on the same data, by any methods, with any validation data, numbers of folds,
random rankings and kinds of problems, that keep the same neurons give the same predictions. -/
theorem C83_only_selects (env : Env K) (hl : Lawful env) (hx : env.Exact) (e e' f f' : ELM K) (X T : Mat K) (args argsf : List String)
    (kw kwf : Kwargs K) (h : SelectedTrain env e X T args kw e') (hf : SelectedTrain env f X T argsf kwf f')
    (hn : (neuronList e'.nnet).Perm (neuronList f'.nnet)) (hr : e.nnet.norm = f.nnet.norm)
    (Xn P Q : Mat K) (p : Predicts env e' Xn P) (q : Predicts env f' Xn Q) : P = Q := by
  obtain ⟨c1, c2, _, H, B, t⟩ := selected_trained hl hx h
  obtain ⟨d1, d2, _, H', B', t'⟩ := selected_trained hl hx hf
  exact trained_order t t' c1 d1 (by rw [c2]; exact h.norm) (fun _ _ => rfl) hn (by rw [c2, d2, hr]) Xn P Q p q

/-- The hypotheses of the three theorems are met: selection by cross-validation on three neurons and direct training of the same model. -/
example : Lawful (lawEnv QEnv.env) ∧ (lawEnv QEnv.env).Exact ∧ ∃ e' f',
    SelectedTrain (lawEnv QEnv.env) exModel3 ⟨1, [[1], [2], [3], [5]]⟩ ⟨1, [[1], [0], [3], [2]]⟩ ["CV"] { k := some 3 } e' ∧
    PlainTrain (lawEnv QEnv.env) exModel3 ⟨1, [[1], [2], [3], [5]]⟩ ⟨1, [[1], [0], [3], [2]]⟩ [] {} f' ∧
    (neuronList e'.nnet).Perm (neuronList exModel3.nnet) ∧ f'.classification = none := by
  have hT : (⟨1, [[1], [0], [3], [2]]⟩ : Mat ℚ).WF := by
    show ∀ r ∈ ([[1], [0], [3], [2]] : List (List ℚ)), r.length = 1
    decide
  obtain ⟨v, e', h1, h2, h3⟩ := C35_cv_completes_partial (lawEnv QEnv.env) (lawEnv_lawful _).toShapes (fun _ => none) ⟨fun _ => [2, 0, 1]⟩
    exModel3 exModel3 ⟨1, [[1], [2], [3], [5]]⟩ ⟨1, [[1], [0], [3], [2]]⟩ _ ["CV"] { k := some 3 } 3 (by decide) (by decide)
      (by decide) rfl (by omega) (by decide) rfl rfl rfl hT (by decide) exModel3_consistent (by decide) rfl rfl (by decide) (by
        intro i _
        show List.Perm [2, 0, 1] (List.range 3)
        decide)
  have hs : SelectedTrain (lawEnv QEnv.env) exModel3 ⟨1, [[1], [2], [3], [5]]⟩ ⟨1, [[1], [0], [3], [2]]⟩ ["CV"] { k := some 3 } e' :=
    ⟨exModel3_consistent, by decide +kernel, by decide, hT, _, _, _, fun i => (by decide : List.Perm [2, 0, 1] (List.range 3)), h1⟩
  obtain ⟨c1, _, c3, _⟩ := selected_trained (lawEnv_lawful _) (lawEnv_exact _) hs
  obtain ⟨f', h4⟩ := train_plain_total (lawEnv_exact QEnv.env) (fs := fun _ => none) (rnd := ⟨fun _ => []⟩) (e := exModel3) (e1 := exModel3)
    (X := ⟨1, [[1], [2], [3], [5]]⟩) (T := ⟨1, [[1], [0], [3], [2]]⟩) (args := []) (kw := {}) (by simp) (by simp) (by simp) (by decide) (by simp)
    rfl rfl rfl (by decide) rfl exModel3_consistent rfl
  have hf : PlainTrain (lawEnv QEnv.env) exModel3 ⟨1, [[1], [2], [3], [5]]⟩ ⟨1, [[1], [0], [3], [2]]⟩ [] {} f' :=
    ⟨exModel3_consistent, by decide +kernel, by decide, by simp, hT, by simp [Given], by simp [Given], by simp, _, _, _, h4⟩
  refine ⟨lawEnv_lawful _, lawEnv_exact _, e', f', hs, hf, ?_, ?_⟩
  · exact c3.perm_of_length_le (by rw [← size_neuronList c1, ← size_neuronList exModel3_consistent]; exact h2)
  · exact (C21_kind_partial _ _ _ _ _ _ _ _ _ _ h4 (by simp [Given])).2.2.2 (by simp [Given])

end Hpelm.Props
