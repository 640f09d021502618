import Verif.Props.C123_TargetUnits

/-!
# C125: the number that marks the class of a sample does not matter
-/

set_option linter.unusedSectionVars false

namespace Hpelm.Props
open Hpelm Spec
variable {K : Type} [Field K] [LinearOrder K] [IsStrictOrderedRing K]

theorem parseLoop_codes {kw : Kwargs K} {as : List String} {e e1 : ELM K} (h : parseLoop kw as e = (e1, .ok ()))
    (ho : ∀ a ∈ as, a ∉ ["WC", "ML", "MC", "R"]) (hc : e.classification = some "c" ∨ "C" ∈ as) : e1.classification = some "c" := by
  induction as generalizing e with
  | nil =>
    rcases hc with hc | hc
    · injection h with h1 _
      rw [← h1]; exact hc
    · cases hc
  | cons a as ih =>
    have ha := ho a List.mem_cons_self
    simp only [List.mem_cons, List.not_mem_nil, or_false, not_or] at ha
    have ho' : ∀ b ∈ as, b ∉ ["WC", "ML", "MC", "R"] := fun b hb => ho b (List.mem_cons_of_mem _ hb)
    unfold parseLoop at h
    rcases hp : parseOne kw e a with ⟨e2, r⟩
    rw [hp] at h
    cases r with
    | error x => cases h
    | ok u =>
      refine ih h ho' ?_
      unfold parseOne at hp
      by_cases h1 : a = "OP"
      · rw [if_pos h1] at hp
        injection hp with hp _
        rcases hc with hc | hc
        · left; rw [← hp]; exact hc
        · right
          rcases List.mem_cons.1 hc with hc | hc
          · rw [h1] at hc; exact absurd hc (by decide)
          · exact hc
      · rw [if_neg h1] at hp
        by_cases h2 : a = "C"
        · rw [if_pos h2] at hp
          split at hp
          · injection hp with hp _
            left; rw [← hp]
          · cases hp
        · rw [if_neg h2, if_neg ha.1, if_neg (by rintro (h | h); exacts [ha.2.1 h, ha.2.2.1 h]), if_neg ha.2.2.2] at hp
          injection hp with hp _
          rcases hc with hc | hc
          · left; rw [← hp]; exact hc
          · right
            rcases List.mem_cons.1 hc with hc | hc
            · exact absurd hc.symm h2
            · exact hc

theorem parseArgs_codes {kw : Kwargs K} {args : List String} {e e1 : ELM K} (h : e.parseArgs args kw = (e1, .ok ()))
    (hC : Given args "C") (ho : ∀ a ∈ ["WC", "ML", "MC", "R"], ¬ Given args a) :
    e1.classification = some "c" ∧ e1.nnet.corr = none ∧ e1.nnet.outputs = e.nnet.outputs ∧ (e1.rankingOP = true → Given args "OP") := by
  have h2 : e1.nnet.corr = none ∧ e1.nnet.outputs = e.nnet.outputs ∧ (e1.rankingOP = true → Given args "OP") := by
    refine parseArgs_inv h (fun f => f.nnet.corr = none ∧ f.nnet.outputs = e.nnet.outputs ∧
      (f.rankingOP = true → Given args "OP")) ⟨rfl, rfl, fun h => by cases h⟩ ?_ (fun _ _ h => h)
    intro a ha f hf _
    unfold parseOne
    by_cases h5 : a = "OP"
    · rw [if_pos h5]
      exact ⟨hf.1, hf.2.1, fun _ => by rw [h5] at ha; exact ha⟩
    · have h6 : a ≠ "WC" := by rintro rfl; exact ho _ (by simp) ha
      rw [if_neg h5]
      by_cases h7 : a = "C"
      · rw [if_pos h7]
        split <;> exact hf
      · rw [if_neg h7, if_neg h6]
        repeat' split
        all_goals exact hf
  refine ⟨?_, h2⟩
  unfold ELM.parseArgs at h
  split at h
  · cases h
  simp only at h
  split at h
  · cases h
  split at h
  · cases h
  rcases hl : parseLoop kw (args.map upper) { e with nnet := e.nnet.reset, rankingOP := false, kmaxOp := none, classification := none, wc := none }
    with ⟨e2, r⟩
  rw [hl] at h
  cases r with
  | error x => cases h
  | ok u =>
    have := parseLoop_codes hl (fun a ha hm => ho a hm ha) (Or.inr hC)
    injection h with h _
    rw [← h]
    split <;> exact this

/-- C125.  Classification with the class of a sample marked by the number `c` instead of 1, more generally with all targets (and the
validation targets, if any) multiplied by the same positive number `c`: training — plain, or with selection of neurons by a validation set,
cross-validation or leave-one-out, ranked at random or by optimal pruning — raises the same exception or none in both cases; if none, it keeps
the same neurons, returns the same error, and every sample gets the same class: predictions are multiplied by `c`. -/
theorem C125_codes (env : Env K) (hx : env.Exact) (c : K) (hc : 0 < c) (hs : ScalesSolutions env c) (fs : Files K) (rnd : Rnd) (e : ELM K)
    (X : DataArg K) (T : Mat K) (args : List String) (kw : Kwargs K) (hC : Given args "C")
    (ho : ∀ a ∈ ["WC", "ML", "MC", "R"], ¬ Given args a)
    (hop : Given args "OP" → (e.nnet.outputs < 10 ∨ ScalesRoots env c)) (hTv : ∀ a, kw.Tv = some a → ∃ M, a = .mat M) :
    let old := e.train env fs rnd X (.mat T) args kw
    let new := e.train env fs rnd X (.mat (times c T)) args { kw with Tv := kw.Tv.map (rescaled c) }
    new.1 = old.1 ∧
      ∀ r, old.1 = .ok r → new.2.nnet.getNeurons = old.2.nnet.getNeurons ∧
        ∀ Xn, new.2.predict env fs Xn = (old.2.predict env fs Xn).map (times c) ∧
          ∀ Y Y', old.2.predict env fs Xn = .ok Y → new.2.predict env fs Xn = .ok Y' → Y'.rows.map argmax = Y.rows.map argmax := by
  obtain ⟨b1, b2⟩ := checkBoth_scale fs e.nnet c X T
  unfold ELM.train
  rw [b1, parseArgs_Tv e args kw (kw.Tv.map (rescaled c))]
  cases h1 : checkBoth fs e.nnet X (.mat T) with
  | error x => exact ⟨rfl, fun _ h => by cases h⟩
  | ok p =>
    obtain ⟨x, t⟩ := p
    simp only [Except.map]
    rcases h2 : e.parseArgs args kw with ⟨e1, r1⟩
    cases r1 with
    | error y => exact ⟨rfl, fun _ h => by cases h⟩
    | ok u =>
      obtain ⟨p1, p2, p3, p4⟩ := parseArgs_codes h2 hC ho
      have ht : t.cols = e1.nnet.outputs := by rw [p3]; exact b2 _ h1
      simp only
      rw [trainBody_scale hc.ne' hs hx fs rnd e1 (d := 1) (Or.inr ⟨p1, rfl, hc⟩) p2 x t args kw ht
        (fun h => by rw [p3]; exact hop (p4 h)) hTv]
      cases e1.trainBody env fs rnd x t args kw with
      | error y => exact ⟨rfl, fun _ h => by cases h⟩
      | ok r =>
        have hp := fun Xn => predict_scale env fs c r.2 Xn
        refine ⟨?_, fun r' _ => ⟨rfl, fun Xn => ⟨hp Xn, fun Y Y' hY hY' => ?_⟩⟩⟩
        · show Except.ok (r.1.map (1 * ·)) = Except.ok r.1
          cases r.1 <;> simp
        · have hq := hp Xn
          have hY1 : r.2.predict env fs Xn = .ok Y := hY
          have hY2 : (r.2.scaleE c).predict env fs Xn = .ok Y' := hY'
          rw [hY1, hY2] at hq
          injection hq with hq
          rw [hq]
          unfold times
          simp only [List.map_map]
          apply List.map_congr_left
          intro l _
          exact argmax_scale hc l

/-- Three neurons, two outputs. -/
def codesModel : ELM ℚ := { exModel3 with nnet := { exModel3.nnet with outputs := 2 } }

/-- Four samples of one feature. -/
def codesX : DataArg ℚ := .mat ⟨1, [[1], [2], [3], [5]]⟩

/-- Classes of the samples. -/
def codesT : Mat ℚ := ⟨2, [[1, 0], [0, 1], [1, 0], [0, 1]]⟩

/-- Hypotheses of C125 in a concrete case: two classes, marked by 1 and by 5; selection by leave-one-out with optimal pruning and by
cross-validation, and cross-validation returns an error that is not zero. -/
example : unitsEnv.Exact ∧ ScalesSolutions unitsEnv 5 ∧ Given ["C", "LOO", "OP"] "C" ∧
    (∀ a ∈ ["WC", "ML", "MC", "R"], ¬ Given ["C", "LOO", "OP"] a) ∧ codesModel.nnet.outputs < 10 ∧
    times 5 codesT = ⟨2, [[5, 0], [0, 5], [5, 0], [0, 5]]⟩ ∧
    (codesModel.train unitsEnv (fun _ => none) ⟨fun _ => [2, 0, 1]⟩ codesX (.mat codesT) ["C", "LOO", "OP"] {}).1 = .ok none ∧
    (codesModel.train unitsEnv (fun _ => none) ⟨fun _ => [2, 0, 1]⟩ codesX (.mat codesT) ["C", "CV"] { k := some 3 }).1 = .ok (some (5 / 6)) :=
  ⟨fun _ _ => rfl, ⟨fun A b => by
    show ((QEnv.env.pinv A).mul (times 5 b), 0) = (times 5 ((QEnv.env.pinv A).mul b), 0)
    rw [mul_times], fun A b => mul_times _ _ _⟩, by decide, by decide, by decide, by decide +kernel, by decide +kernel, by decide +kernel⟩

end Hpelm.Props
