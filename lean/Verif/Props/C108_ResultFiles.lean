import Verif.Props.C63_Aliasing

/-!
# C108: the files named in `add_data`
-/

set_option linter.unusedSectionVars false

namespace Hpelm.Props
open Hpelm Spec
variable {K : Type} [Field K] [LinearOrder K]

/-- What file `f` contributes to the entry `(i, j)` before the call; nothing if there was no such file. -/
def before (fs : Files K) (f : String) (i j : Nat) : K :=
  match fs f with
  | some h => h.data.get i j
  | none => 0

/-- Entry `(i, j)` of file `f` after the call. -/
def after (fs : Files K) (f : String) (i j : Nat) (x : K) : Prop := ∃ h, fs f = some h ∧ h.data.get i j = x

theorem prepareFile_ok {fs fs' : Files K} {f : String} {r c : Nat} {fresh : Mat K} (h : prepareFile fs f r c fresh = .ok fs') :
    (∀ g, g ≠ f → fs' g = fs g) ∧ ((∃ d, fs f = some d ∧ d.data.nrows = r ∧ d.data.cols = c ∧ fs' f = some d) ∨
      (fs f = none ∧ fs' f = some ⟨fresh, none, none⟩)) := by
  unfold prepareFile at h
  cases hf : fs f with
  | none =>
    rw [hf] at h
    simp only at h
    split_ifs at h
    injection h with h
    subst h
    exact ⟨fun g hg => if_neg hg, .inr ⟨rfl, if_pos rfl⟩⟩
  | some d =>
    rw [hf] at h
    simp only at h
    obtain ⟨_, h1, h⟩ := bind_ok h
    injection h with h
    subst h
    unfold pyAssert at h1
    split_ifs at h1 with hd
    obtain ⟨h2, h3⟩ := of_decide_eq_true hd
    exact ⟨fun _ _ => rfl, .inl ⟨d, rfl, h2, h3, hf⟩⟩

theorem addToFile_ok {fs fs' : Files K} {f : String} {M : Mat K} (h : addToFile fs f M = .ok fs') :
    (∀ g, g ≠ f → fs' g = fs g) ∧ ∃ d, fs f = some d ∧ d.data.nrows = M.nrows ∧ d.data.cols = M.cols ∧
      fs' f = some { d with data := d.data.add M } := by
  unfold addToFile at h
  cases hf : fs f with
  | none => rw [hf] at h; cases h
  | some d =>
    rw [hf] at h
    simp only at h
    split_ifs at h with hd
    injection h with h
    subst h
    exact ⟨fun g hg => if_neg hg, d, rfl, hd.1, hd.2, if_pos rfl⟩

/-- C108, the part that holds.  Two different names: the entries of `HH` (without its regularisation, if the file existed before) and of `HT`, as
the same call without files accumulates them in the reset model, are added to what the files contained; files that did not exist then
contain exactly the matrices of `get_corr`.  No other file changes.

Missing for the full property: one name alone is ignored (`C108_one_name_refuted`), and the same name for both can mix up the matrices
(`C108_same_name_refuted`). -/
theorem C108_written_partial (env : Env K) (fs fs' : Files K) (e e' : ELM K) (fX fT : DataArg K) (istart : Int) (icount : Option Int)
    (fHH fHT : String) (hne : fHH ≠ fHT) (h : e.hAddData env fs fX fT istart icount (some fHH) (some fHT) = .ok (e', fs')) :
    ∃ e1 HH HT, ({ e with nnet := e.nnet.reset } : ELM K).hAddData env fs fX fT istart icount none none = .ok (e1, fs) ∧
      e1.nnet.getCorr = .ok (some (HH, HT)) ∧
      (∀ i < HH.nrows, ∀ j < HH.cols, after fs' fHH i j
        (before fs fHH i j + HH.get i j - if i = j ∧ fs fHH ≠ none then e1.nnet.norm else 0)) ∧
      (∀ i < HT.nrows, ∀ j < HT.cols, after fs' fHT i j (before fs fHT i j + HT.get i j)) ∧
      ∀ g, g ≠ fHH → g ≠ fHT → fs' g = fs g := by
  obtain ⟨e1, h1, HH, HT, hc, -⟩ := hAddData_files_model h
  refine ⟨e1, HH, HT, h1, hc, ?_⟩
  unfold ELM.hAddData at h h1
  obtain ⟨_, k0, h⟩ := bind_ok h
  obtain ⟨⟨X, T⟩, k1, h⟩ := bind_ok h
  obtain ⟨⟨n, fs1⟩, k2, h⟩ := bind_ok h
  obtain ⟨bs, k3, h⟩ := bind_ok h
  obtain ⟨e2, k4, h8⟩ := bind_ok h
  clear h
  unfold prepareFHH at k2
  simp only at k2
  obtain ⟨fa, ka, k2⟩ := bind_ok k2
  obtain ⟨fb, kb, k2⟩ := bind_ok k2
  injection k2 with k2
  injection k2 with kn kf
  subst kn kf
  have he : e2 = e1 := by
    have k0' : pyAssert (!e.nnet.reset.neurons.isEmpty) = .ok () := k0
    have k1' : checkBoth fs e.nnet.reset fX fT = .ok (X, T) := k1
    simp only at k3
    simp only [k0', k1', prepareFHH, bind, Except.bind, pure, Except.pure, k3, k4, ELM.storeCorr] at h1
    injection h1 with h1
    injection h1 with h1 _
  subst he
  have hnorm : e2.nnet.norm = e.nnet.norm := by
    obtain ⟨c, k5⟩ := feed_fields _ k4
    have k6 := congrArg (fun a => a.nnet.norm) k5
    exact k6.trans (autoWc_frame _ _ _).nnet.norm
  unfold ELM.storeCorr at h8
  simp only at h8
  obtain ⟨⟨HH', HT'⟩, k5, h8⟩ := bind_ok h8
  obtain ⟨fs2, k6, h8⟩ := bind_ok h8
  injection h8 with h8
  injection h8 with _ h8
  subst h8
  have hh : HH' = HH ∧ HT' = HT := by
    unfold NNet.getCorr! at k5
    rw [hc] at k5
    simp only [bind, Except.bind, pure, Except.pure] at k5
    injection k5 with k5
    injection k5 with a b
    exact ⟨a.symm, b.symm⟩
  obtain ⟨rfl, rfl⟩ := hh
  unfold writeFHH at k6
  obtain ⟨fc, kc, kd⟩ := bind_ok k6
  obtain ⟨a1, a2⟩ := prepareFile_ok ka
  obtain ⟨b1, b2⟩ := prepareFile_ok kb
  obtain ⟨c1, dc, c2, c3, c4, c5⟩ := addToFile_ok kc
  obtain ⟨d1, dd, d2, d3, d4, d5⟩ := addToFile_ok kd
  refine ⟨?_, ?_, ?_⟩
  · intro i hi j hj
    refine ⟨_, (d1 _ hne).trans c5, ?_⟩
    have e3 : dc.data.nrows = HH'.nrows := c3.trans (Mat.ofFn_nrows _ _ _)
    have e4 : dc.data.cols = HH'.cols := c4
    simp only
    rw [Mat.get_add (by omega) (by omega), subDiag, Mat.get_ofFn_lt hi hj]
    rw [b1 _ hne] at c2
    unfold before
    rcases a2 with ⟨d, p1, p2, p3, p4⟩ | ⟨p1, p2⟩
    · rw [p4] at c2
      injection c2 with c2
      subst c2
      rw [p1]
      by_cases hij : i = j <;> simp [hij] <;> ring
    · rw [p2] at c2
      injection c2 with c2
      subst c2
      simp only [Mat.diag_nrows, Mat.diag_cols] at e3 e4
      rw [p1]
      simp only
      rw [Mat.get_diag (by omega) (by omega)]
      have hr : e.nnet.reset.norm = e.nnet.norm := rfl
      by_cases hij : i = j <;> simp [hij, hnorm, hr]
  · intro i hi j hj
    refine ⟨_, d5, ?_⟩
    simp only at d3 d4 ⊢
    rw [Mat.get_add (by omega) (by omega)]
    rw [c1 _ (Ne.symm hne)] at d2
    unfold before
    rcases b2 with ⟨d, p1, p2, p3, p4⟩ | ⟨p1, p2⟩
    · rw [p4] at d2
      injection d2 with d2
      subst d2
      rw [← a1 _ (Ne.symm hne), p1]
    · rw [p2] at d2
      injection d2 with d2
      subst d2
      rw [← a1 _ (Ne.symm hne), p1]
      simp only [Mat.get_zeros]
  · intro g hg1 hg2
    rw [d1 _ hg2, c1 _ hg1, b1 _ hg2, a1 _ hg1]

/-- C108 is false for a single name, for every model and data: the name is ignored.  Nothing is written, and the call does what it does without
any name. -/
theorem C108_one_name_refuted (env : Env K) (fs : Files K) (e : ELM K) (fX fT : DataArg K) (istart : Int) (icount : Option Int) (f : String) :
    (e.hAddData env fs fX fT istart icount (some f) none = e.hAddData env fs fX fT istart icount none none ∧
      e.hAddData env fs fX fT istart icount none (some f) = e.hAddData env fs fX fT istart icount none none) ∧
    ∀ e' fs', e.hAddData env fs fX fT istart icount none none = .ok (e', fs') → fs' = fs := by
  refine ⟨⟨rfl, rfl⟩, ?_⟩
  intro e' fs' h
  unfold ELM.hAddData at h
  obtain ⟨_, k0, h⟩ := bind_ok h
  obtain ⟨⟨X, T⟩, k1, h⟩ := bind_ok h
  obtain ⟨⟨n, fs1⟩, k2, h⟩ := bind_ok h
  obtain ⟨bs, k3, h⟩ := bind_ok h
  obtain ⟨e2, k4, h8⟩ := bind_ok h
  injection k2 with k2
  injection k2 with _ k2
  injection h8 with h8
  injection h8 with _ h8
  exact h8.symm.trans k2.symm

/-- C108 is false when the same name is given twice and there are as many outputs as neurons: the file then contains the sum of the two matrices,
and solving from it gives other weights than training. -/
theorem C108_same_name_refuted : ∃ (e e' a : ELM ℚ) (b : NNet ℚ) (fs' : Files ℚ) (X T : Mat ℚ),
    e.hAddData QEnv.env (fun _ => none) (.mat X) (.mat T) 0 none (some "f") (some "f") = .ok (e', fs') ∧
    (fs' "f").map (·.data) = some ⟨2, [[5, 1], [2, 7]]⟩ ∧
    e'.hSolveCorr QEnv.env fs' "f" "f" = .ok a ∧ e'.nnet.solve QEnv.env = .ok b ∧ a.nnet.B ≠ b.B := by
  have h1 : ((exModel 2 2 none none).hAddData QEnv.env (fun _ => none) (.mat ⟨2, [[1, 0], [0, 1]]⟩) (.mat ⟨2, [[3, 1], [2, 5]]⟩) 0 none
      (some "f") (some "f")).map (fun r => (r.2 "f").map (·.data)) = .ok (some ⟨2, [[5, 1], [2, 7]]⟩) := by decide +kernel
  have h2 : ((exModel 2 2 none none).hAddData QEnv.env (fun _ => none) (.mat ⟨2, [[1, 0], [0, 1]]⟩) (.mat ⟨2, [[3, 1], [2, 5]]⟩) 0 none
      (some "f") (some "f") >>= fun r => do
        let a ← r.1.hSolveCorr QEnv.env r.2 "f" "f"
        let b ← r.1.nnet.solve QEnv.env
        pure (decide (a.nnet.B ≠ b.B))) = .ok true := by decide +kernel
  cases h : (exModel 2 2 none none).hAddData QEnv.env (fun _ => none) (.mat ⟨2, [[1, 0], [0, 1]]⟩) (.mat ⟨2, [[3, 1], [2, 5]]⟩) 0 none
      (some "f") (some "f") with
  | error x => rw [h] at h1; cases h1
  | ok r =>
    obtain ⟨e', fs'⟩ := r
    rw [h] at h1 h2
    simp only [Except.map, Except.ok.injEq] at h1
    obtain ⟨_, k1, h2⟩ := bind_ok h2
    injection k1 with k1
    subst k1
    obtain ⟨a, k2, h2⟩ := bind_ok h2
    obtain ⟨b, k3, h2⟩ := bind_ok h2
    injection h2 with h2
    exact ⟨_, e', a, b, fs', _, _, h, h1, k2, k3, of_decide_eq_true h2⟩

/-- The hypotheses are met: a call with two names on files that do not exist. -/
example : ((exModel 1 2 none none).hAddData QEnv.env exFiles (.path "x") (.path "t") 1 none (some "hh") (some "ht")).map
    (fun r => ((r.2 "hh").map (·.data), (r.2 "ht").map (·.data))) = .ok (some ⟨2, [[6, 6], [6, 11]]⟩, some ⟨1, [[7], [11]]⟩) := by
  decide +kernel

end Hpelm.Props
