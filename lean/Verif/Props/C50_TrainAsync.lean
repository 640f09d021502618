import Verif.Model.TrainAsync
import Verif.Props.C50_AsyncTrain
import Verif.Lemmas.Frame

/-!
# C50 for the whole training: `train_async` equals `train`
-/

set_option linter.unusedSectionVars false

namespace Hpelm.Props
open Hpelm Spec
variable {K : Type} [Field K] [LinearOrder K]

theorem checkOne_mat {fs : Files K} {c : Nat} {a : DataArg K} {M : Mat K} (h : checkOne fs c a = .ok (some M)) :
    checkOne fs c (.mat M) = .ok (some M) := by
  have hc : M.cols = c := by
    unfold checkOne at h
    cases a with
    | absent => simp [pure, Except.pure, bind, Except.bind] at h
    | nonNumeric => simp [bind, Except.bind] at h
    | otherDim => simp [bind, Except.bind] at h
    | path f =>
      simp only at h
      cases hf : fs f with
      | none => rw [hf] at h; simp [bind, Except.bind] at h
      | some k =>
        rw [hf] at h
        simp only at h
        by_cases h0 : k.data.nrows = 0
        · rw [if_pos h0] at h; simp [bind, Except.bind] at h
        · rw [if_neg h0] at h
          obtain ⟨_, h1, h⟩ := bind_ok h
          injection h1 with h1
          subst h1
          obtain ⟨_, h2, h⟩ := bind_ok h
          injection h with h; injection h with h
          rw [← h]
          simpa using pyAssert_ok h2
    | vec v =>
      obtain ⟨_, h1, h⟩ := bind_ok h
      injection h1 with h1
      subst h1
      obtain ⟨_, h2, h⟩ := bind_ok h
      injection h with h; injection h with h
      rw [← h]
      simpa using pyAssert_ok h2
    | mat v =>
      obtain ⟨_, h1, h⟩ := bind_ok h
      injection h1 with h1
      subst h1
      obtain ⟨_, h2, h⟩ := bind_ok h
      injection h with h; injection h with h
      rw [← h]
      simpa using pyAssert_ok h2
  simp [checkOne, hc, pyAssert, pure, Except.pure, bind, Except.bind]

theorem checkBoth_mat_async {fs : Files K} {n n' : NNet K} (hi : n'.inputs = n.inputs) (ho : n'.outputs = n.outputs) {a b : DataArg K}
    {X T : Mat K} (h : checkBoth fs n a b = .ok (X, T)) :
    checkBoth fs n' (.mat X) (.mat T) = .ok (X, T) ∧ checkBoth fs n' a b = .ok (X, T) := by
  have h0 : checkBoth fs n' a b = checkBoth fs n a b := by unfold checkBoth checkData; rw [hi, ho]
  refine ⟨?_, h0.trans h⟩
  unfold checkBoth checkData at h
  obtain ⟨d, h1, h2⟩ := bind_ok h
  obtain ⟨oX, e1, h1⟩ := bind_ok h1
  obtain ⟨oT, e2, h1⟩ := bind_ok h1
  cases oX with
  | none =>
    injection h1 with h1; subst h1; cases h2
  | some X' =>
    cases oT with
    | none =>
      injection h1 with h1; subst h1; cases h2
    | some T' =>
      obtain ⟨_, h3, h1⟩ := bind_ok h1
      injection h1 with h1; subst h1
      injection h2 with h2
      injection h2 with h4 h5
      subst h4 h5
      have hr := pyAssert_ok h3
      unfold checkBoth checkData
      rw [hi, ho, checkOne_mat e1, checkOne_mat e2]
      simp only [decide_eq_true_eq] at hr
      simp [bind, Except.bind, pyAssert, hr, pure, Except.pure]

/-- C50 for `train_async`.  Let the batch size in force (after the keyword arguments were read) be positive and let the range not
start behind the end of the data by a batch or more.  Then `train_async` always finishes (some outcome is possible, and by
`C50_async_train_ends` every execution of the processes can be continued to an end), and every possible outcome is that of
`train`: the same exception, or a normal return with the same model. -/
theorem C50_train_async (env : Env K) (fs : Files K) (e : ELM K) (fX fT : String) (args : List String) (kw : Kwargs K)
    (hb : 0 < (e.parseArgs args kw).1.batch)
    (hr : ∀ X T, checkBoth fs e.nnet (.path fX) (.path fT) = .ok (X, T) →
      -(e.parseArgs args kw).1.batch < rangeCount X.nrows (startOf kw) kw.icount) :
    (∃ r e', TrainsAsync env fs e fX fT args kw r e') ∧
      ∀ r e', TrainsAsync env fs e fX fT args kw r e' →
        (e.hTrain env fs (.path fX) (.path fT) args kw).1 = r ∧
          (r = .ok () → (e.hTrain env fs (.path fX) (.path fT) args kw).2 = e') := by
  have hf := parseArgs_frame kw args e
  -- `add_data` with the arrays is `add_data` with the files
  have hadd : ∀ {X T : Mat K} {e1 : ELM K}, checkBoth fs e.nnet (.path fX) (.path fT) = .ok (X, T) →
      e.parseArgs args kw = (e1, .ok ()) →
      e1.hAddData env fs (.mat X) (.mat T) (startOf kw) kw.icount none none
        = e1.hAddData env fs (.path fX) (.path fT) (startOf kw) kw.icount none none := by
    intro X T e1 h hp
    rw [hp] at hf
    obtain ⟨a, b⟩ := checkBoth_mat_async (n' := e1.nnet) hf.nnet.inputs hf.nnet.outputs h
    unfold ELM.hAddData
    rw [a, b]
  have hrange : ∀ {X T : Mat K} {e1 : ELM K} {c e0 fs1}, checkBoth fs e.nnet (.path fX) (.path fT) = .ok (X, T) →
      e.parseArgs args kw = (e1, .ok ()) → e1.asyncStart env fs fX fT (startOf kw) kw.icount none none = .ok (c, e0, fs1) →
      0 < e1.batch ∧ -e1.batch < rangeCount c.X.nrows (startOf kw) kw.icount := by
    intro X T e1 c e0 fs1 h hp hs
    rw [hp] at hf hb hr
    obtain ⟨_, b⟩ := checkBoth_mat_async (n' := e1.nnet) hf.nnet.inputs hf.nnet.outputs h
    refine ⟨hb, ?_⟩
    have : c.X = X := by
      unfold ELM.asyncStart at hs
      obtain ⟨_, _, hs⟩ := bind_ok hs
      obtain ⟨⟨X', T'⟩, h1, hs⟩ := bind_ok hs
      rw [b] at h1
      injection h1 with h1
      injection h1 with h1 _
      obtain ⟨⟨n1, fs2⟩, _, hs⟩ := bind_ok hs
      obtain ⟨bs, _, hs⟩ := bind_ok hs
      injection hs with hs
      injection hs with hs _
      rw [← hs, h1]; rfl
    rw [this]
    exact hr X T h
  have hst : ∀ (X T : Mat K) (e1 : ELM K), checkBoth fs e.nnet (.path fX) (.path fT) = .ok (X, T) →
      e.parseArgs args kw = (e1, .ok ()) →
      e.hTrain env fs (.path fX) (.path fT) args kw =
        match e1.hAddData env fs (.path fX) (.path fT) (startOf kw) kw.icount none none with
        | .error x => (.error x, e1)
        | .ok (e2, _) =>
          match e2.nnet.solve env with
          | .error x => (.error x, e2)
          | .ok n => (.ok (), { e2 with nnet := n }) := by
    intro X T e1 h hp
    rw [← hadd h hp]
    unfold ELM.hTrain
    rw [h, hp]
    rfl
  constructor
  · cases h : checkBoth fs e.nnet (.path fX) (.path fT) with
    | error x => exact ⟨_, _, .check x h⟩
    | ok d =>
      obtain ⟨X, T⟩ := d
      cases hp : e.parseArgs args kw with
      | mk e1 o =>
        cases o with
        | error x => exact ⟨_, _, .parse _ e1 x h hp⟩
        | ok u =>
          cases hs : e1.asyncStart env fs fX fT (startOf kw) kw.icount none none with
          | error x => exact ⟨_, _, .start _ e1 e1 x h hp hs⟩
          | ok r =>
            obtain ⟨c, e0, fs1⟩ := r
            obtain ⟨hb1, hr1⟩ := hrange h hp hs
            obtain ⟨t, ht, hd⟩ := C50_async_train_ends env fs e1 fX fT (startOf kw) kw.icount none none c e0 fs1 hb1 hs hr1 _ .refl
            rcases hd with hd | ⟨x, hd⟩
            · cases hsol : t.model.nnet.solve env with
              | error x => exact ⟨_, _, .solve _ e1 c e0 fs1 t x h hp hs ht hd hsol⟩
              | ok n => exact ⟨_, _, .ok _ e1 c e0 fs1 t n h hp hs ht hd hsol⟩
            · exact ⟨_, _, .feed _ e1 e1 c e0 fs1 t x h hp hs ht hd⟩
  · intro r e' ht
    cases ht with
    | check x h =>
      unfold ELM.hTrain
      rw [h]
      exact ⟨rfl, fun hc => by cases hc⟩
    | parse d _ x h hp =>
      unfold ELM.hTrain
      rw [h, hp]
      exact ⟨rfl, fun hc => by cases hc⟩
    | start d e1 _ x h hp hs =>
      have := C50_start_fails env fs e1 fX fT (startOf kw) kw.icount none none x hs
      rw [hst d.1 d.2 e1 h hp, this]
      exact ⟨rfl, fun hc => by cases hc⟩
    | feed d e1 _ c e0 fs1 s x h hp hs hrun hd =>
      obtain ⟨hb1, hr1⟩ := hrange h hp hs
      have := ((C50_async_train_partial env fs e1 fX fT (startOf kw) kw.icount none none c e0 fs1 hb1 hs hr1).2 s hrun).2.2 x hd
      rw [hst d.1 d.2 e1 h hp, this]
      exact ⟨rfl, fun hc => by cases hc⟩
    | solve d e1 c e0 fs1 s x h hp hs hrun hd hx =>
      obtain ⟨hb1, hr1⟩ := hrange h hp hs
      have := ((C50_async_train_partial env fs e1 fX fT (startOf kw) kw.icount none none c e0 fs1 hb1 hs hr1).2 s hrun).2.1 hd
      rw [hst d.1 d.2 e1 h hp, ← this]
      simp only [ELM.storeCorr, pure, Except.pure, hx]
      exact ⟨trivial, fun hc => by cases hc⟩
    | ok d e1 c e0 fs1 s n h hp hs hrun hd hx =>
      obtain ⟨hb1, hr1⟩ := hrange h hp hs
      have := ((C50_async_train_partial env fs e1 fX fT (startOf kw) kw.icount none none c e0 fs1 hb1 hs hr1).2 s hrun).2.1 hd
      rw [hst d.1 d.2 e1 h hp, ← this]
      simp only [ELM.storeCorr, pure, Except.pure, hx]
      exact ⟨trivial, fun _ => trivial⟩

/-- The hypotheses are met: classification is off, three samples from row 1 on, batches of two. -/
example : 0 < ((exModel 1 2 none none).parseArgs [] { istart := some 1 }).1.batch ∧
    (∀ X T, checkBoth exFiles (exModel 1 2 none none).nnet (.path "x") (.path "t") = .ok (X, T) →
      -((exModel 1 2 none none).parseArgs [] { istart := some 1 }).1.batch < rangeCount X.nrows (startOf (K := ℚ) { istart := some 1 }) none) ∧
    ((exModel 1 2 none none).hTrain QEnv.env exFiles (.path "x") (.path "t") [] { istart := some 1 }).1 = .ok () := by
  refine ⟨by decide +kernel, ?_, by decide +kernel⟩
  intro X T h
  have : checkBoth exFiles (exModel 1 2 none none).nnet (.path "x") (.path "t")
      = .ok (⟨2, [[5, 5], [1, 0], [0, 1], [2, 3]]⟩, ⟨1, [[9], [1], [2], [3]]⟩) := by decide +kernel
  rw [this] at h
  injection h with h
  injection h with h _
  subst h
  decide +kernel

end Hpelm.Props
