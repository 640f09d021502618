import Verif.Lemmas.TargetUnitsTrain
import Verif.Spec.LetterCase
import Verif.Props.C34_C35_CrossValidation

/-!
# C123: the units of the targets do not matter
-/

set_option linter.unusedSectionVars false

namespace Hpelm.Props
open Hpelm Spec
variable {K : Type} [Field K] [LinearOrder K] [IsStrictOrderedRing K]

/-- The two models make the same predictions up to the factor `c`. -/
theorem predict_scale (env : Env K) (fs : Files K) (c : K) (e : ELM K) (Xn : DataArg K) :
    (e.scaleE c).predict env fs Xn = (e.predict env fs Xn).map (times c) := by
  have hp : ∀ (n : NNet K) (X : Mat K), (n.scaleE c).predict env X = (n.predict env X).map (times c) := by
    intro n X
    unfold NNet.predict NNet.scaleE NNet.scaleT
    cases n.B with
    | none => rfl
    | some B =>
      show ((n.project env X).bind fun H => _) = Except.map _ ((n.project env X).bind fun H => _)
      cases n.project env X with
      | error x => rfl
      | ok H =>
        simp only [Except.bind, bind, times_nrows]
        split
        · rfl
        · exact congrArg Except.ok (mul_times c H B)
  unfold ELM.predict
  show ((checkOne fs e.nnet.inputs Xn).bind fun _ => _) = Except.map _ ((checkOne fs e.nnet.inputs Xn).bind fun _ => _)
  cases checkOne fs e.nnet.inputs Xn with
  | error x => rfl
  | ok o =>
    cases o with
    | none => rfl
    | some X => exact hp e.nnet X

theorem parseArgs_units {kw : Kwargs K} {args : List String} {e e1 : ELM K} (h : e.parseArgs args kw = (e1, .ok ()))
    (hreg : ∀ a ∈ ["C", "WC", "ML", "MC"], ¬ Given args a) :
    e1.classification = none ∧ e1.nnet.corr = none ∧ e1.nnet.outputs = e.nnet.outputs ∧ (e1.rankingOP = true → Given args "OP") := by
  refine parseArgs_inv h (fun f => f.classification = none ∧ f.nnet.corr = none ∧ f.nnet.outputs = e.nnet.outputs ∧
    (f.rankingOP = true → Given args "OP")) ⟨rfl, rfl, rfl, fun h => by cases h⟩ ?_ (fun _ _ h => h)
  intro a ha f hf _
  have hne : ∀ b ∈ ["C", "WC", "ML", "MC"], a ≠ b := by
    rintro b hb rfl
    exact hreg a hb ha
  have h1 := hne "C" (by simp)
  have h2 := hne "WC" (by simp)
  have h3 := hne "ML" (by simp)
  have h4 := hne "MC" (by simp)
  unfold parseOne
  by_cases h5 : a = "OP"
  · rw [if_pos h5]
    exact ⟨hf.1, hf.2.1, hf.2.2.1, fun _ => by rw [h5] at ha; exact ha⟩
  · rw [if_neg h5, if_neg h1, if_neg h2, if_neg (by rintro (h | h) <;> contradiction)]
    split
    · exact ⟨rfl, hf.2⟩
    · exact hf

theorem checkBoth_scale (fs : Files K) (n : NNet K) (c : K) (X : DataArg K) (T : Mat K) :
    checkBoth fs n X (.mat (times c T)) = (checkBoth fs n X (.mat T)).map (fun p => (p.1, times c p.2)) ∧
      ∀ p, checkBoth fs n X (.mat T) = .ok p → p.2.cols = n.outputs := by
  have h1 : ∀ M : Mat K, checkOne fs n.outputs (.mat M) = if M.cols = n.outputs then .ok (some M) else .error .assertion := by
    intro M
    unfold checkOne
    simp only [pure, Except.pure, bind, Except.bind, pyAssert]
    by_cases a : M.cols = n.outputs <;> simp [a]
  unfold checkBoth checkData
  simp only [h1, times_cols]
  cases checkOne fs n.inputs X with
  | error x => exact ⟨rfl, fun _ h => by cases h⟩
  | ok o =>
    by_cases hT : T.cols = n.outputs
    · simp only [hT, if_true, bind, Except.bind]
      cases o with
      | none => exact ⟨rfl, fun _ h => by cases h⟩
      | some M =>
        simp only [times_nrows]
        by_cases hn : M.nrows = T.nrows
        · simp only [hn, decide_true, pyAssert, if_true]
          exact ⟨rfl, fun p h => by injection h with h; rw [← h]; exact hT⟩
        · simp only [hn, decide_false, pyAssert]
          exact ⟨rfl, fun _ h => by cases h⟩
    · simp only [hT, if_false, bind, Except.bind]
      exact ⟨rfl, fun _ h => by cases h⟩

/-- The arguments of `train` with validation targets in other units. -/
theorem trainBody_scale {env : Env K} {c d : K} (hc : c ≠ 0) (hs : ScalesSolutions env c) (hx : env.Exact) (fs : Files K) (rnd : Rnd)
    (e : ELM K) (hcl : ErrFactor c d e.classification) (hcorr : e.nnet.corr = none) (X T : Mat K) (args : List String) (kw : Kwargs K)
    (hT : T.cols = e.nnet.outputs) (h10 : e.rankingOP = true → (e.nnet.outputs < 10 ∨ ScalesRoots env c))
    (hTv : ∀ a, kw.Tv = some a → ∃ M, a = .mat M) :
    e.trainBody env fs rnd X (times c T) args { kw with Tv := kw.Tv.map (rescaled c) } =
      (e.trainBody env fs rnd X T args kw).map fun r => (r.1.map (d * ·), r.2.scaleE c) := by
  have hT10 : e.rankingOP = true → (T.cols < 10 ∨ ScalesRoots env c) := by rw [hT]; exact h10
  unfold ELM.trainBody
  by_cases hV : "V" ∈ args
  · simp only [hV, if_true]
    cases kw.Xv with
    | none => cases kw.Tv <;> rfl
    | some Xv =>
      cases hk : kw.Tv with
      | none => rfl
      | some Tv =>
        obtain ⟨M, rfl⟩ := hTv Tv hk
        obtain ⟨b1, b2⟩ := checkBoth_scale fs e.nnet c Xv M
        simp only [Option.map_some, rescaled]
        rw [b1]
        cases h1 : checkBoth fs e.nnet Xv (.mat M) with
        | error x => rfl
        | ok p =>
          obtain ⟨xv, tv⟩ := p
          have hcols : tv.cols = e.nnet.outputs := b2 _ h1
          simp only [Except.map, bind, Except.bind]
          rw [trainV_scale hc hs hx (rnd.shuffles 0) e hcl hcorr X T xv tv (by rw [hcols]; exact h10)]
          cases trainV env (rnd.shuffles 0) e X T xv tv <;> rfl
  · simp only [hV, if_false]
    by_cases hC : "CV" ∈ args
    · simp only [hC, if_true]
      cases kw.k with
      | none => rfl
      | some k =>
        simp only [bind, Except.bind]
        cases pyAssert (k ≥ 3) with
        | error x => rfl
        | ok u =>
          simp only
          rw [trainCV_scale hc hs hx rnd.shuffles e hcl X T k.toNat hT10]
          cases trainCV env rnd.shuffles e X T k.toNat <;> rfl
    · simp only [hC, if_false]
      by_cases hL : "LOO" ∈ args
      · simp only [hL, if_true, bind, Except.bind]
        rw [trainLOO_scale hc hs hx (rnd.shuffles 0) e hcl hcorr X T hT10]
        cases trainLOO env (rnd.shuffles 0) e X T <;> rfl
      · simp only [hL, if_false, bind, Except.bind]
        have he : e.scaleT c = e := by
          unfold ELM.scaleT NNet.scaleT
          rw [hcorr]
          cases e with
          | mk n _ _ _ _ _ _ _ => cases n; simp only at hcorr; subst hcorr; rfl
        obtain ⟨a1, _⟩ := addData_scale hx c e X T hcl.not_wc
        rw [he] at a1
        rw [a1]
        cases e.addData env X T with
        | error x => rfl
        | ok e1 =>
          simp only [Except.map]
          rw [show (e1.scaleT c).nnet = e1.nnet.scaleT c from rfl, solve_scale hs hx]
          cases e1.nnet.solve env <;> rfl

theorem parseArgs_Tv (e : ELM K) (args : List String) (kw : Kwargs K) (tv : Option (DataArg K)) :
    e.parseArgs args { kw with Tv := tv } = e.parseArgs args kw := by
  have hp1 : ∀ (e : ELM K) (a : String), parseOne { kw with Tv := tv } e a = parseOne kw e a := fun _ _ => rfl
  have hp2 : ∀ (as : List String) (e : ELM K), parseLoop { kw with Tv := tv } as e = parseLoop kw as e := by
    intro as
    induction as with
    | nil => intro e; rfl
    | cons a as ih =>
      intro e
      unfold parseLoop
      rw [hp1]
      split <;> simp [*]
  unfold ELM.parseArgs
  simp only [hp2]

/-- C123.  Regression with the targets (and the validation targets, if any) in other units, or with the opposite sign, that is all
multiplied by the same number `c`, not zero: training — plain, or with selection of neurons by a validation set, cross-validation or
leave-one-out, ranked at random or by optimal pruning — raises the same exception or none in both cases; if none, it keeps the same neurons, a
returned error is multiplied by the square of `c`, and all predictions are multiplied by `c`. -/
theorem C123_units (env : Env K) (hx : env.Exact) (c : K) (hc : c ≠ 0) (hs : ScalesSolutions env c) (fs : Files K) (rnd : Rnd) (e : ELM K)
    (X : DataArg K) (T : Mat K) (args : List String) (kw : Kwargs K) (hreg : ∀ a ∈ ["C", "WC", "ML", "MC"], ¬ Given args a)
    (hop : Given args "OP" → (e.nnet.outputs < 10 ∨ ScalesRoots env c)) (hTv : ∀ a, kw.Tv = some a → ∃ M, a = .mat M) :
    let old := e.train env fs rnd X (.mat T) args kw
    let new := e.train env fs rnd X (.mat (times c T)) args { kw with Tv := kw.Tv.map (rescaled c) }
    (∀ x, old.1 = .error x → new.1 = .error x) ∧
      ∀ r, old.1 = .ok r → new.1 = .ok (r.map (c * c * ·)) ∧ new.2.nnet.getNeurons = old.2.nnet.getNeurons ∧
        ∀ Xn, new.2.predict env fs Xn = (old.2.predict env fs Xn).map (times c) := by
  obtain ⟨b1, b2⟩ := checkBoth_scale fs e.nnet c X T
  unfold ELM.train
  rw [b1, parseArgs_Tv e args kw (kw.Tv.map (rescaled c))]
  cases h1 : checkBoth fs e.nnet X (.mat T) with
  | error x => exact ⟨fun y h => h, fun _ h => by cases h⟩
  | ok p =>
    obtain ⟨x, t⟩ := p
    simp only [Except.map]
    rcases h2 : e.parseArgs args kw with ⟨e1, r1⟩
    cases r1 with
    | error y => exact ⟨fun y h => h, fun _ h => by cases h⟩
    | ok u =>
      obtain ⟨p1, p2, p3, p4⟩ := parseArgs_units h2 hreg
      have ht : t.cols = e1.nnet.outputs := by rw [p3]; exact b2 _ h1
      simp only
      rw [trainBody_scale hc hs hx fs rnd e1 (Or.inl ⟨p1, rfl⟩) p2 x t args kw ht (fun h => by rw [p3]; exact hop (p4 h)) hTv]
      cases e1.trainBody env fs rnd x t args kw with
      | error y => exact ⟨fun y h => h, fun _ h => by cases h⟩
      | ok r =>
        refine ⟨fun _ h => (by cases h), fun r' h => ?_⟩
        injection h with h
        rw [← h]
        exact ⟨rfl, rfl, fun Xn => predict_scale env fs c r.2 Xn⟩

/-- An environment in which systems of linear equations are solved by a pseudo-inverse. -/
def unitsEnv : Env ℚ :=
  { QEnv.env with posv := fun A b => ((QEnv.env.pinv A).mul b, 0), lstsq := fun A b => (QEnv.env.pinv A).mul b }

/-- Hypotheses of C123 in a concrete case: heights in metres and depths in millimetres as targets, three neurons; selection by leave-one-out with optimal
pruning, by a validation set and by cross-validation, none of which raises, and cross-validation returns an error that is not zero. -/
example : unitsEnv.Exact ∧ ScalesSolutions unitsEnv (-1000) ∧ (∀ a ∈ ["C", "WC", "ML", "MC"], ¬ Given ["LOO", "OP"] a) ∧
    exModel3.nnet.outputs < 10 ∧
    (exModel3.train unitsEnv (fun _ => none) ⟨fun _ => [2, 0, 1]⟩ (.mat ⟨1, [[1], [2], [3], [5]]⟩) (.mat ⟨1, [[1], [0], [3], [2]]⟩)
      ["LOO", "OP"] {}).1 = .ok none ∧
    (exModel3.train unitsEnv (fun _ => none) ⟨fun _ => [2, 0, 1]⟩ (.mat ⟨1, [[1], [2], [3], [5]]⟩) (.mat ⟨1, [[1], [0], [3], [2]]⟩)
      ["V"] { Xv := some (.mat ⟨1, [[1], [2]]⟩), Tv := some (.mat ⟨1, [[1], [0]]⟩) }).1 = .ok none ∧
    (∃ v, (exModel3.train unitsEnv (fun _ => none) ⟨fun _ => [2, 0, 1]⟩ (.mat ⟨1, [[1], [2], [3], [5]]⟩) (.mat ⟨1, [[1], [0], [3], [2]]⟩)
      ["CV"] { k := some 3 }).1 = .ok (some v) ∧ v ≠ 0) := by
  refine ⟨fun _ _ => rfl, ⟨fun A b => ?_, fun A b => mul_times _ _ _⟩, by decide, by decide, by decide +kernel, by decide +kernel, ?_⟩
  · show ((QEnv.env.pinv A).mul (times (-1000) b), 0) = (times (-1000) ((QEnv.env.pinv A).mul b), 0)
    rw [mul_times]
  · have h : (match (exModel3.train unitsEnv (fun _ => none) ⟨fun _ => [2, 0, 1]⟩ (.mat ⟨1, [[1], [2], [3], [5]]⟩)
        (.mat ⟨1, [[1], [0], [3], [2]]⟩) ["CV"] { k := some 3 }).1 with
        | .ok (some v) => decide (v ≠ 0)
        | _ => false) = true := by decide +kernel
    revert h
    generalize (exModel3.train unitsEnv (fun _ => none) ⟨fun _ => [2, 0, 1]⟩ (.mat ⟨1, [[1], [2], [3], [5]]⟩)
        (.mat ⟨1, [[1], [0], [3], [2]]⟩) ["CV"] { k := some 3 }).1 = r
    intro h
    match r, h with
    | .ok (some v), h => exact ⟨v, rfl, of_decide_eq_true h⟩

/-- Some number with the property, if there is one. -/
noncomputable def pickSome (P : ℝ → Prop) : Option ℝ := open Classical in if h : ∃ z, P z then some h.choose else none

/-- Real numbers with a root finder that picks some root in the interval, if there is one, and linear equations solved by a
pseudo-inverse. -/
noncomputable def rootsEnv : Env ℝ :=
  { realEnv with
    sqrt := Real.sqrt
    brentq := fun f a b => pickSome fun z => a ≤ z ∧ z ≤ b ∧ f z = 0
    luSolve := fun A b => (realEnv.pinv A).mul b }

/-- The hypothesis of C123 about ranking with ten or more outputs in a concrete case: it holds for every `c` that is not zero. -/
example (c : ℝ) (hc : c ≠ 0) : ScalesRoots rootsEnv c := by
  refine ⟨fun x => ?_, fun x => Real.sqrt_nonneg x, fun f a b => ?_, fun A b => mul_times _ _ _⟩
  · show Real.sqrt (c * c * x) = |c| * Real.sqrt x
    rw [Real.sqrt_mul (mul_self_nonneg c), Real.sqrt_mul_self_eq_abs]
  · have h : (fun z => a ≤ z ∧ z ≤ b ∧ |c| * f z = 0) = fun z => a ≤ z ∧ z ≤ b ∧ f z = 0 := by
      funext z
      simp [hc]
    exact congrArg pickSome h

end Hpelm.Props
