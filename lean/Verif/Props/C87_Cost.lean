import Verif.Props.C86_Completes

/-!
# C87: what the smaller network may cost
-/

set_option linter.unusedSectionVars false

namespace Hpelm.Props
open Hpelm Spec Finset
variable {K : Type} [Field K] [LinearOrder K] [IsStrictOrderedRing K]

theorem normalEq_weights {H T B : Mat K} {w w' : Nat → K} {lam : K} (hw : ∀ s < T.nrows, w s = w' s) (h : NormalEq H T w lam B) :
    NormalEq H T w' lam B := by
  intro k hk j hj
  have h1 : ∀ g : Nat → K, ∑ s ∈ range T.nrows, w' s * H.get s k * g s = ∑ s ∈ range T.nrows, w s * H.get s k * g s := fun g =>
    Finset.sum_congr rfl fun s hs => by rw [hw s (Finset.mem_range.1 hs)]
  rw [h1, h1]
  exact h k hk j hj

/-- `kmax` is only taken from the keyword. -/
theorem parseArgs_kmax {kw : Kwargs K} {args : List String} {e e1 : ELM K} (h : e.parseArgs args kw = (e1, .ok ())) {km : Nat}
    (hk : e1.kmaxOp = some km) : kw.kmax = some km := by
  refine parseArgs_inv h (fun e => e.kmaxOp = some km → kw.kmax = some km) (by simp) ?_ (fun _ _ h => h) hk
  intro a _ e he _
  unfold parseOne
  split_ifs
  · intro hk
    simp only at hk
    split at hk
    · rename_i k hk'; rw [hk', hk]
    · exact he hk
  · exact he
  · exact he
  · simp only
    split
    · exact he
    · split_ifs <;> exact he
  all_goals exact he

/-- The kind of problem stays regression unless an argument asks for another. -/
theorem parseArgs_regression {kw : Kwargs K} {args : List String} {e e1 : ELM K} (h : e.parseArgs args kw = (e1, .ok ()))
    (hg : ¬ Given args "C" ∧ ¬ Given args "WC" ∧ ¬ Given args "ML" ∧ ¬ Given args "MC") : e1.classification = none := by
  refine parseArgs_inv h (fun e => e.classification = none) rfl ?_ (fun _ _ h => h)
  intro a ha e he _
  obtain ⟨g1, g2, g3, g4⟩ := hg
  unfold parseOne
  split_ifs with h1 h2 h3 h4 h5 h6 h7 h8
  · exact he
  · exact absurd (h2 ▸ ha) g1
  · exact absurd (h2 ▸ ha) g1
  · exact absurd (h4 ▸ ha) g2
  · exact absurd (h4 ▸ ha) g2
  · rcases h6 with h6 | h6
    · exact absurd (h6 ▸ ha) g3
    · exact absurd (h6 ▸ ha) g4
  · rcases h6 with h6 | h6
    · exact absurd (h6 ▸ ha) g3
    · exact absurd (h6 ▸ ha) g4
  · rfl
  · exact he

/-- The ranking covers the whole network: no 'OP', or 'OP' with fewer than ten outputs and no `kmax` below the number of neurons. -/
def RanksAll (e : ELM K) (args : List String) (kw : Kwargs K) : Prop :=
  ¬ Given args "OP" ∨ (e.nnet.outputs < 10 ∧ ∀ m, kw.kmax = some m → size e.nnet ≤ m)

theorem RanksAll.full {e e1 : ELM K} {args : List String} {kw : Kwargs K} {T : Mat K} (h : RanksAll e args kw) (hp : e.parseArgs args kw = (e1, .ok ()))
    (hT : T.cols = e.nnet.outputs) : FullRanking e1 T := by
  obtain ⟨_, q2, _⟩ := parseArgs_kw hp
  rcases h with h | ⟨h1, h2⟩
  · exact Or.inl (parseArgs_inv hp (fun e => e.rankingOP = false) rfl (fun a ha e he _ => parseOne_rank kw e a (fun h' => h (h' ▸ ha)) he) (fun _ _ h => h))
  · refine Or.inr ⟨by omega, fun km hk => ?_⟩
    rw [q2]
    exact h2 km (parseArgs_kmax hp hk)

theorem cost_arith {s full : K} {k L : Nat} (hL : 0 < L) (h : s + k * (full * (1 / 100) / L) ≤ full + L * (full * (1 / 100) / L)) :
    s ≤ full * (1 + (1 - k / L) / 100) := by
  have hL' : (L : K) ≠ 0 := by positivity
  have e1 : (L : K) * (full * (1 / 100) / L) = full / 100 := by field_simp
  have e2 : full * (1 + (1 - (k : K) / L) / 100) = full + full / 100 - k * (full * (1 / 100) / L) := by field_simp; ring
  rw [e1] at h
  rw [e2]
  linarith

theorem error_mats {fs : Files K} {e : ELM K} {T Y : Mat K} {s : K} (h : e.error fs (.mat T) (.mat Y) = .ok s) :
    elmError e.classification e.wc T Y = .ok s := by
  unfold ELM.error checkOne at h
  simp only [bind_assoc, pure_bind] at h
  obtain ⟨_, _, h⟩ := bind_ok h
  obtain ⟨_, _, h⟩ := bind_ok h
  exact h

theorem predicts_nnet {env : Env K} {e : ELM K} {X P : Mat K} (h : Predicts env e X P) : e.nnet.predict env X = .ok P := by
  obtain ⟨fs, hp⟩ := h
  unfold ELM.predict at hp
  obtain ⟨o, ho, hp⟩ := bind_ok hp
  have ho' : o = some X := by
    unfold checkOne at ho
    simp only at ho
    obtain ⟨M, hM, ho⟩ := bind_ok ho
    obtain ⟨_, _, ho⟩ := bind_ok ho
    injection ho with ho
    injection hM with hM
    rw [hM, ho]
  rw [ho'] at hp
  exact hp

theorem addData_kind {env : Env K} {e e' : ELM K} {X T : Mat K} (hc : e.classification ≠ some "wc") (h : e.addData env X T = .ok e') :
    e'.classification = e.classification ∧ e'.wc = e.wc := by
  obtain ⟨c, rfl⟩ := addData_fields h
  have : e.autoWc env (colSums T) = e := by unfold ELM.autoWc; rw [if_neg (fun h => hc h.1)]
  rw [this]
  exact ⟨rfl, rfl⟩

theorem trainV_kind {env : Env K} {sh : List Nat} {e : ELM K} {X T Xv Tv : Mat K} {r} (hc : e.classification ≠ some "wc")
    (h : trainV env sh e X T Xv Tv = .ok r) : r.1.classification = e.classification ∧ r.1.wc = e.wc := by
  unfold trainV at h
  obtain ⟨e1, h1, h⟩ := bind_ok h
  obtain ⟨_, _, h⟩ := bind_ok h
  obtain ⟨_, _, h⟩ := bind_ok h
  obtain ⟨_, _, h⟩ := bind_ok h
  obtain ⟨_, _, h⟩ := bind_ok h
  obtain ⟨_, _, h⟩ := bind_ok h
  obtain ⟨_, _, h⟩ := bind_ok h
  obtain ⟨e2, h2, h⟩ := bind_ok h
  injection h with h
  obtain ⟨a1, a2⟩ := addData_kind hc h1
  rw [← h]
  exact ⟨(refit_bcls h2).2.trans a1, (refit_wc h2).trans a2⟩

/-- A plain training without 'WC' leaves no weighted classification. -/
theorem plain_unweighted {env : Env K} {e f : ELM K} {X T : Mat K} {args kw} (hf : PlainTrain env e X T args kw f) (hwf : ¬ Given args "WC") :
    f.classification ≠ some "wc" := by
  obtain ⟨fs', rnd, r, hr'⟩ := hf.run
  obtain ⟨_, _, f0, _, k2, k3⟩ := train_ok hr'
  have hc0 : f0.classification ≠ some "wc" := fun hc => hwf ((parseArgs_wc k2).1 hc)
  unfold ELM.trainBody at k3
  rw [if_neg hf.noSelection.1, if_neg hf.noSelection.2.1, if_neg hf.noSelection.2.2] at k3
  obtain ⟨f1, k4, k3⟩ := bind_ok k3
  obtain ⟨f2, k5, k3⟩ := bind_ok k3
  injection k3 with k3
  injection k3 with _ k3
  rw [← k3]
  exact (addData_kind hc0 k4).1 ▸ hc0

/-- C87 (validation; partial: a ranking of the whole network, no weighted classification).  Let `s` be the error on the validation data of the
model returned by a selection on that validation data, and `s0` the error there of the same network trained without selection.  Then `s` is
at most 1% larger than `s0`, and the more neurons are kept the less the excess: with a fraction `q` of the neurons it is at most `1 - q` percent. -/
theorem C87_validation_partial (env : Env K) (hl : Lawful env) (hx : env.Exact) (e e' f : ELM K) (X T Xv Tv : Mat K) (args argsf : List String)
    (kw kwf : Kwargs K) (h : SelectedTrain env e X T args kw e') (hb : 0 < kw.batch.getD e.batch) (hv : "V" ∈ args) (hwc : ¬ Given args "WC")
    (hr : RanksAll e args kw) (hxv : kw.Xv = some (.mat Xv)) (htv : kw.Tv = some (.mat Tv)) (hTv : Tv.WF)
    (hf : PlainTrain env e X T argsf kwf f) (hwf : ¬ Given argsf "WC") (P Q : Mat K) (p : Predicts env e' Xv P) (q : Predicts env f Xv Q)
    (fs : Files K) (s s0 : K) (hs : e'.error fs (.mat Tv) (.mat P) = .ok s) (hs0 : e'.error fs (.mat Tv) (.mat Q) = .ok s0) :
    s ≤ s0 * (1 + (1 - size e'.nnet / size e.nnet) / 100) := by
  obtain ⟨fs', rnd, r, hsh, hr'⟩ := h.run
  obtain ⟨X', T', e0, h1, h2, h3⟩ := train_ok hr'
  obtain ⟨rfl, rfl⟩ := checkBoth_mats h1
  obtain ⟨_, hTo, hN⟩ := checkBoth_ok h1
  obtain ⟨_, q2, q3, _⟩ := parseArgs_kw h2
  have hc0 : Consistent e0.nnet := by rw [q2]; exact reset_consistent h.consistent
  have hs0' : size e0.nnet = size e.nnet := by rw [q2]; rfl
  have hproj : ∀ A, e0.nnet.project env A = e.nnet.project env A := fun A => by rw [q2]; rfl
  have hwc0 : e0.classification ≠ some "wc" := fun hc => hwc ((parseArgs_wc h2).1 hc)
  unfold ELM.trainBody at h3
  rw [if_pos hv, hxv, htv] at h3
  simp only at h3
  obtain ⟨⟨Xv', Tv'⟩, hcv, h3'⟩ := bind_ok h3
  obtain ⟨rfl, rfl⟩ := checkBoth_mats hcv
  obtain ⟨_, hTvo, _⟩ := checkBoth_ok hcv
  obtain ⟨⟨e2, k, errs⟩, ht, h4⟩ := bind_ok h3'
  clear h3 h3'
  injection h4 with h3
  injection h3 with _ h3
  simp only at h3
  subst h3
  obtain ⟨H, Hv, rank, full, B, a1, a2, a3, a4, a5, a6, a7, a8, a9, a10, a11, a12, Y, v, b1, b2, b3, b4⟩ :=
    C38_validation_partial env hl hx (rnd.shuffles 0) e0 X' T' Xv' Tv' hwc0 hc0 (by rw [q2]; rfl)
      (by rw [q2]; exact h.norm) (by rw [q3]; exact hb) hN h.targets hTv (by rw [hs0']; exact hsh 0) (hr.full h2 (by rw [hTvo, q2]; rfl)) ht
  have hYP : Y = P := by
    have := predicts_nnet p
    rw [b1] at this
    injection this
  subst hYP
  have hsv : v = s := by
    refine b2.unique ?_
    have hY : Y.WF := by
      unfold NNet.predict at b1
      cases hB : e2.nnet.B with
      | none => rw [hB] at b1; cases b1
      | some B =>
        rw [hB] at b1
        simp only at b1
        obtain ⟨_, _, b1⟩ := bind_ok b1
        split at b1
        · cases b1
        · injection b1 with b1; rw [← b1]; exact Mat.mul_WF _ _
    exact elmError_isError hTv hY (error_mats hs)
  subst hsv
  -- the network trained without selection
  obtain ⟨H', B', w, t⟩ := hf.trained hl hx
  have hH : H' = H := by
    have := t.proj
    rw [← hproj, a1] at this
    injection this with this
    exact this.symm
  subst hH
  obtain ⟨Hv', g1, g2, _⟩ := t.pred _ _ q
  have hHv : Hv' = Hv := by
    rw [← hproj, a2] at g1
    injection g1 with g1
    exact g1.symm
  subst hHv
  have hfc := plain_unweighted hf hwf
  have hB : B' = B := by
    refine normalEq_unique (by rw [q2]; exact h.norm : 0 < e0.nnet.norm) (fun _ _ => zero_le_one) a4 a5 a6 a7 B' t.wf t.rows t.cols ?_
    have := normalEq_weights (w' := fun _ => 1) (fun s hs => (t.sw s hs).1 hfc) t.normal
    rw [q2]
    exact this
  subst hB
  have hfull : full = s0 := by
    have := error_mats hs0
    obtain ⟨k1, k2⟩ := trainV_kind hwc0 ht
    rw [k1, k2, g2] at this
    exact a8.unique (elmError_isError hTv (Mat.mul_WF _ _) this)
  subst hfull
  have hpos : 0 < size e0.nnet := by
    rw [hs0']
    rcases Nat.eq_zero_or_pos (size e.nnet) with hz | hz
    · have := (C31_returned_size env hx e e2 X' T' args kw h).1
      have h1 := ((C31_returned_size env hx e e2 X' T' args kw h).2.2 (hr.imp id (·.1))).1
      omega
    · exact hz
  rw [a12, ← hs0']
  exact cost_arith hpos (b3 ▸ b4)

/-- C87 (leave-one-out; partial: regression, a ranking of the whole network).  Let `s` be the leave-one-out error of the neurons of the model
returned by a leave-one-out selection (`H'` are their values on the training inputs), and `s0` that of all neurons (with values `H`).  Then
`s` exceeds `s0` by at most 1%, and by at most `1 - q` percent if the fraction `q` of the neurons is kept.  (The leave-one-out error of given
neurons is unique, `isLooError_unique`.) -/
theorem C87_leave_one_out_partial (env : Env K) (hl : Lawful env) (hx : env.Exact) (e e' : ELM K) (X T : Mat K) (args : List String)
    (kw : Kwargs K) (h : SelectedTrain env e X T args kw e') (hb : 0 < kw.batch.getD e.batch)
    (hm : "V" ∉ args ∧ "CV" ∉ args ∧ "LOO" ∈ args) (hg : ¬ Given args "C" ∧ ¬ Given args "WC" ∧ ¬ Given args "ML" ∧ ¬ Given args "MC")
    (hr : RanksAll e args kw) (hC : 0 < T.cols) :
    ∃ H H' s s0, e.nnet.project env X = .ok H ∧ e'.nnet.project env X = .ok H' ∧ IsLooError H' T e.nnet.norm s ∧
      IsLooError H T e.nnet.norm s0 ∧ s ≤ s0 * (1 + (1 - size e'.nnet / size e.nnet) / 100) := by
  obtain ⟨fs', rnd, r, hsh, hr'⟩ := h.run
  obtain ⟨X', T', e0, h1, h2, h3⟩ := train_ok hr'
  obtain ⟨rfl, rfl⟩ := checkBoth_mats h1
  obtain ⟨_, hTo, hN⟩ := checkBoth_ok h1
  obtain ⟨_, q2, q3, _⟩ := parseArgs_kw h2
  have hc0 : Consistent e0.nnet := by rw [q2]; exact reset_consistent h.consistent
  have hs0' : size e0.nnet = size e.nnet := by rw [q2]; rfl
  have hcls := parseArgs_regression h2 hg
  unfold ELM.trainBody at h3
  rw [if_neg hm.1, if_neg hm.2.1, if_pos hm.2.2] at h3
  obtain ⟨⟨e2, k, errs⟩, ht, h3⟩ := bind_ok h3
  injection h3 with h3
  injection h3 with _ h3
  simp only at h3
  subst h3
  obtain ⟨a0, G, G', full, v, a1, a2, a3, a4, a5, a6⟩ := C38_loo_partial env hl hx (rnd.shuffles 0) e0 X' T' (by rw [hcls]; simp) hc0 (by rw [q2]; rfl)
    (by rw [q2]; exact h.norm) (by rw [q3]; exact hb) hN h.targets hC (by rw [hs0']; exact hsh 0) (hr.full h2 hTo) ht
  have hno : e0.nnet.norm = e.nnet.norm := by rw [q2]; rfl
  rw [hno] at a2 a4
  have hG : e0.nnet.project env X' = e.nnet.project env X' := by rw [q2]; rfl
  rw [hG] at a1
  have hpos : 0 < size e0.nnet := by
    rw [hs0']
    rcases Nat.eq_zero_or_pos (size e.nnet) with hz | hz
    · have := (C31_returned_size env hx e e2 X' T' args kw h).1
      have h1 := ((C31_returned_size env hx e e2 X' T' args kw h).2.2 (hr.imp id (·.1))).1
      omega
    · exact hz
  refine ⟨G, G', v, full, a1, a3, a4, a2, ?_⟩
  rw [a0, ← hs0']
  exact cost_arith hpos (a5 ▸ a6)

theorem predicts_of {env : Env K} {e : ELM K} {Xn Hn B : Mat K} (hp : e.nnet.project env Xn = .ok Hn) (hB : e.nnet.B = some B)
    (hn : Hn.cols = B.nrows) : Predicts env e Xn (Hn.mul B) := by
  have hcol : Xn.cols = e.nnet.inputs := ((project_ok_iff _ _ _ _).1 hp).1
  have h1 : checkOne (fun _ => none) e.nnet.inputs (.mat Xn) = .ok (some Xn) := by
    unfold checkOne
    simp only [pure_bind, hcol, pyAssert, decide_true, if_true]
    rfl
  refine ⟨fun _ => none, ?_⟩
  unfold ELM.predict
  rw [h1]
  show e.nnet.predict env Xn = _
  unfold NNet.predict
  rw [hB]
  simp only [hp, bind, Except.bind]
  rw [if_neg (by simpa using hn)]
  rfl

/-- Predictions of a model returned by a selection. -/
theorem SelectedTrain_predicts {env : Env K} (hl : Lawful env) (hx : env.Exact) {e e' : ELM K} {X T : Mat K} {args kw}
    (h : SelectedTrain env e X T args kw e') {Xn : Mat K} (hc : Xn.cols = X.cols) : ∃ P, Predicts env e' Xn P ∧ P.WF ∧ P.cols = T.cols ∧ P.nrows = Xn.nrows := by
  obtain ⟨c1, _, _, H, B, t⟩ := selected_trained hl hx h
  obtain ⟨p1, p2, p3, p4⟩ := (project_ok_iff _ _ _ _).1 t.proj
  have hp := (project_ok_iff env e'.nnet Xn _).2 ⟨hc.trans p1, p2, p3, rfl⟩
  have := project_WF c1 hp
  refine ⟨_, predicts_of hp t.getB (by rw [t.rows, t.colsH, this.2.2]), Mat.mul_WF _ _, ?_, ?_⟩
  · rw [← t.cols]; rfl
  · rw [← this.2.1]
    simp [Mat.mul, Mat.nrows]

theorem error_total {fs : Files K} {e : ELM K} {T Y : Mat K} (hk : e.classification ≠ some "wc") (hT : T.WF) (hY : Y.WF) (hn : T.nrows = Y.nrows)
    (hc : T.cols = e.nnet.outputs) (hc' : Y.cols = e.nnet.outputs) (h0 : 0 < T.nrows) (hc0 : 0 < T.cols) :
    ∃ v, e.error fs (.mat T) (.mat Y) = .ok v := by
  obtain ⟨v, hv⟩ := elmError_total (cls := e.classification) (wc := e.wc) hT hY hn (hc.trans hc'.symm) h0 hc0 (fun h => absurd h hk)
  refine ⟨v, ?_⟩
  unfold ELM.error checkOne
  simp only [pure_bind, hc, hc', pyAssert, decide_true, if_true]
  exact hv

/-- A call with selection on a validation set. -/
def exValid : Kwargs ℚ := { Xv := some (.mat ⟨1, [[1], [2], [-1]]⟩), Tv := some (.mat ⟨1, [[1], [0], [2]]⟩) }

theorem exValid_selected : ∃ e', SelectedTrain (lawEnv QEnv.env) exModel3 ⟨1, [[1], [2], [3], [5]]⟩ ⟨1, [[1], [0], [3], [2]]⟩ ["V"] exValid e' := by
  obtain ⟨H, h⟩ := exModel3_trainable ["V"] exValid (by decide) rfl (by decide)
  obtain ⟨e', he⟩ := C86_validation_completes_partial _ (lawEnv_lawful _) (lawEnv_exact _) (fun _ => none) ⟨fun _ => [2, 0, 1]⟩ _ _ _ _ _ _ _ _ _ _ h (by decide) rfl rfl rfl rfl
    rfl (by decide) (by
    show ∀ r ∈ ([[1], [0], [2]] : List (List ℚ)), r.length = 1
    decide) rfl (fun h => absurd h (by decide)) (by show List.Perm [2, 0, 1] (List.range 3); decide)
  exact ⟨e', exModel3_consistent, by decide +kernel, by decide, h.targets, _, _, _, fun i => (by decide : List.Perm [2, 0, 1] (List.range 3)), he⟩

/-- A network trained with selection, the same network trained without, and their validation errors. -/
theorem exValid_direct : ∃ e' f P Q s s0, SelectedTrain (lawEnv QEnv.env) exModel3 ⟨1, [[1], [2], [3], [5]]⟩ ⟨1, [[1], [0], [3], [2]]⟩ ["V"] exValid e' ∧
    PlainTrain (lawEnv QEnv.env) exModel3 ⟨1, [[1], [2], [3], [5]]⟩ ⟨1, [[1], [0], [3], [2]]⟩ [] {} f ∧
    Predicts (lawEnv QEnv.env) e' ⟨1, [[1], [2], [-1]]⟩ P ∧ Predicts (lawEnv QEnv.env) f ⟨1, [[1], [2], [-1]]⟩ Q ∧
    e'.error (fun _ => none) (.mat ⟨1, [[1], [0], [2]]⟩) (.mat P) = .ok s ∧
    e'.error (fun _ => none) (.mat ⟨1, [[1], [0], [2]]⟩) (.mat Q) = .ok s0 := by
  obtain ⟨e', h⟩ := exValid_selected
  obtain ⟨f, h4⟩ := train_plain_total (lawEnv_exact QEnv.env) (fs := fun _ => none) (rnd := ⟨fun _ => []⟩) (e := exModel3) (e1 := exModel3)
    (X := ⟨1, [[1], [2], [3], [5]]⟩) (T := ⟨1, [[1], [0], [3], [2]]⟩) (args := []) (kw := {}) (by simp) (by simp) (by simp) (by decide) (by simp)
    rfl rfl rfl (by decide) rfl exModel3_consistent rfl
  have hf : PlainTrain (lawEnv QEnv.env) exModel3 ⟨1, [[1], [2], [3], [5]]⟩ ⟨1, [[1], [0], [3], [2]]⟩ [] {} f :=
    ⟨exModel3_consistent, by decide +kernel, by decide, by simp, h.targets, by simp [Given], by simp [Given], by simp, _, _, _, h4⟩
  have hTv : (⟨1, [[1], [0], [2]]⟩ : Mat ℚ).WF := by
    show ∀ r ∈ ([[1], [0], [2]] : List (List ℚ)), r.length = 1
    decide
  obtain ⟨P, p1, p2, p3, p4⟩ := SelectedTrain_predicts (lawEnv_lawful _) (lawEnv_exact _) h (Xn := ⟨1, [[1], [2], [-1]]⟩) rfl
  obtain ⟨Q, q1⟩ := PlainTrain_predicts (lawEnv_lawful _) (lawEnv_exact _) hf ⟨1, [[1], [2], [-1]]⟩ _ rfl
  obtain ⟨H, B, w, t⟩ := hf.trained (lawEnv_lawful _) (lawEnv_exact _)
  obtain ⟨Hn, g1, g2, g3, g4⟩ := t.pred _ _ q1
  obtain ⟨fs', rnd, r, hsh, hr'⟩ := h.run
  have ho : e'.nnet.outputs = 1 := by
    have := (train_frame (lawEnv QEnv.env) fs' rnd exModel3 (.mat ⟨1, [[1], [2], [3], [5]]⟩) (.mat ⟨1, [[1], [0], [3], [2]]⟩) ["V"] exValid).nnet.outputs
    rw [hr'] at this
    exact this
  have hk : e'.classification = none := (C21_kind_partial _ _ _ _ _ _ _ _ _ _ hr' (by decide)).2.2.2 (by decide)
  obtain ⟨s, hs⟩ := error_total (fs := fun _ => none) (e := e') (by rw [hk]; simp) hTv p2 (by rw [p4]; rfl) (by rw [ho]) (by rw [ho, p3]) (by decide) (by decide)
  obtain ⟨s0, hs0⟩ := error_total (fs := fun _ => none) (e := e') (T := ⟨1, [[1], [0], [2]]⟩) (Y := Q) (by rw [hk]; simp) hTv (by rw [g2]; exact Mat.mul_WF _ _)
    (by rw [g2, Mat.mul_nrows, g4]; rfl) (by rw [ho]) (by rw [ho, g2]; exact t.cols) (by decide) (by decide)
  exact ⟨e', f, P, Q, s, s0, h, hf, p1, q1, hs, hs0⟩

/-- The hypotheses of `C87_validation_partial` are met. -/
example : ∃ e' f P Q s s0, SelectedTrain (lawEnv QEnv.env) exModel3 ⟨1, [[1], [2], [3], [5]]⟩ ⟨1, [[1], [0], [3], [2]]⟩ ["V"] exValid e' ∧
    PlainTrain (lawEnv QEnv.env) exModel3 ⟨1, [[1], [2], [3], [5]]⟩ ⟨1, [[1], [0], [3], [2]]⟩ [] {} f ∧
    Predicts (lawEnv QEnv.env) e' ⟨1, [[1], [2], [-1]]⟩ P ∧ Predicts (lawEnv QEnv.env) f ⟨1, [[1], [2], [-1]]⟩ Q ∧
    e'.error (fun _ => none) (.mat ⟨1, [[1], [0], [2]]⟩) (.mat P) = .ok s ∧
    e'.error (fun _ => none) (.mat ⟨1, [[1], [0], [2]]⟩) (.mat Q) = .ok s0 ∧
    s ≤ s0 * (1 + (1 - size e'.nnet / 3) / 100) := by
  obtain ⟨e', f, P, Q, s, s0, h, hf, p1, q1, hs, hs0⟩ := exValid_direct
  exact ⟨e', f, P, Q, s, s0, h, hf, p1, q1, hs, hs0, C87_validation_partial _ (lawEnv_lawful _) (lawEnv_exact _) _ _ _ _ _ _ _ _ _ _ _ h (by decide) (by decide)
    (by decide) (Or.inl (by decide)) rfl rfl (by unfold Mat.WF; decide) hf (by decide) _ _ p1 q1 _ _ _ hs hs0⟩

/-- The hypotheses of `C87_leave_one_out_partial` are met. -/
example : ∃ e', SelectedTrain (lawEnv QEnv.env) exModel3 ⟨1, [[1], [2], [3], [5]]⟩ ⟨1, [[1], [0], [3], [2]]⟩ ["LOO"] {} e' ∧
    ∃ H H' s s0, exModel3.nnet.project (lawEnv QEnv.env) ⟨1, [[1], [2], [3], [5]]⟩ = .ok H ∧
      e'.nnet.project (lawEnv QEnv.env) ⟨1, [[1], [2], [3], [5]]⟩ = .ok H' ∧ IsLooError H' ⟨1, [[1], [0], [3], [2]]⟩ 1 s ∧
      IsLooError H ⟨1, [[1], [0], [3], [2]]⟩ 1 s0 ∧ s ≤ s0 * (1 + (1 - size e'.nnet / 3) / 100) := by
  obtain ⟨H, h⟩ := exModel3_trainable ["LOO"] {} (by decide) rfl (by decide)
  obtain ⟨e', he⟩ := C86_loo_completes_partial _ (lawEnv_lawful _) (lawEnv_exact _) (fun _ => none) ⟨fun _ => [2, 0, 1]⟩ _ _ _ _ _ _ _ h (by decide)
    (by decide) (by decide) (fun h => absurd h (by decide)) (by show List.Perm [2, 0, 1] (List.range 3); decide)
  have hs : SelectedTrain (lawEnv QEnv.env) exModel3 ⟨1, [[1], [2], [3], [5]]⟩ ⟨1, [[1], [0], [3], [2]]⟩ ["LOO"] {} e' :=
    ⟨exModel3_consistent, by decide +kernel, by decide, h.targets, _, _, _, fun i => (by decide : List.Perm [2, 0, 1] (List.range 3)), he⟩
  exact ⟨e', hs, C87_leave_one_out_partial _ (lawEnv_lawful _) (lawEnv_exact _) _ _ _ _ _ _ hs (by decide) (by decide) (by decide) (Or.inl (by decide)) (by decide)⟩

/-- C87 is false for optimal pruning limited by `kmax`: of four neurons one is kept, and the validation error of the returned model is over 7%
larger than that of the same network trained without selection. -/
theorem C87_cutoff_refuted : ∃ (e e' f : ELM ℚ) (X T Xv Tv P Q : Mat ℚ) (r r' : Option ℚ) (s s0 : ℚ),
    e.train QEnv.env (fun _ => none) ⟨fun _ => []⟩ (.mat X) (.mat T) ["V", "OP"] { Xv := some (.mat Xv), Tv := some (.mat Tv), kmax := some 1 } = (.ok r, e') ∧
    e.train QEnv.env (fun _ => none) ⟨fun _ => []⟩ (.mat X) (.mat T) [] {} = (.ok r', f) ∧
    Predicts QEnv.env e' Xv P ∧ Predicts QEnv.env f Xv Q ∧
    e'.error (fun _ => none) (.mat Tv) (.mat P) = .ok s ∧ e'.error (fun _ => none) (.mat Tv) (.mat Q) = .ok s0 ∧ s0 * (107 / 100) < s := by
  have hP : ∀ {e : ELM ℚ} {P : Mat ℚ}, e.predict QEnv.env (fun _ => none) (.mat ⟨1, [[2], [0], [1]]⟩) = .ok P → Predicts QEnv.env e ⟨1, [[2], [0], [1]]⟩ P :=
    fun h => ⟨_, h⟩
  refine ⟨exModel4 none none 1, _, _, ⟨1, [[1], [2], [3], [-1]]⟩, ⟨1, [[1], [0], [3], [5]]⟩, ⟨1, [[2], [0], [1]]⟩, ⟨1, [[1], [0], [4]]⟩, ⟨1, [[5 / 8], [0], [5 / 16]]⟩,
    ⟨1, [[206156829 / 327482609], [9277834491 / 6549652180], [9581003237 / 13099304360]]⟩, none, none,
    3517 / 768, 2201092961874909281533 / 514775324147745028800, Prod.ext ?_ rfl, Prod.ext ?_ rfl, hP ?_, hP ?_, ?_, ?_, ?_⟩ <;> decide +kernel

end Hpelm.Props
