import Verif.Props.C09_C13_Batches
import Verif.Lemmas.Plain
import Verif.Lemmas.DataArgs

/-!
# C21–C24 — training flags, constructor classification, data validation
-/

namespace Hpelm.Props
open Hpelm Spec
variable {K : Type} [Field K] [LinearOrder K]
set_option linter.unusedSectionVars false

/-! ## C21 conflicting modes -/

theorem two_in_filter {args s : List String} {a b : String} (ha : a ∈ args) (hb : b ∈ args) (hsa : a ∈ s) (hsb : b ∈ s) (hab : a ≠ b) :
    atMostOne args s = false := by
  unfold atMostOne
  simp only [decide_eq_false_iff_not, not_le]
  have h1 : a ∈ s.filter (· ∈ args) := List.mem_filter.2 ⟨hsa, by simpa using ha⟩
  have h2 : b ∈ s.filter (· ∈ args) := List.mem_filter.2 ⟨hsb, by simpa using hb⟩
  match hm : s.filter (· ∈ args) with
  | [] => rw [hm] at h1; cases h1
  | [x] =>
    rw [hm] at h1 h2
    simp only [List.mem_singleton] at h1 h2
    exact absurd (h1.trans h2.symm) hab
  | x :: y :: l => simp

theorem parseLoop_single (kw : Kwargs K) (as : List String) (e : ELM K) (ho : e.nnet.outputs ≤ 1)
    (h : ∃ a ∈ as, a ∈ ["C", "WC", "ML", "MC"]) : ∃ e' x, parseLoop kw as e = (e', .error x) := by
  induction as generalizing e with
  | nil => obtain ⟨a, ha, _⟩ := h; cases ha
  | cons a as ih =>
    unfold parseLoop
    by_cases hk : a ∈ ["C", "WC", "ML", "MC"]
    · have : (parseOne kw e a).2 = .error .assertion := by
        have hno : ¬ e.nnet.outputs > 1 := by omega
        simp only [List.mem_cons, List.not_mem_nil, or_false] at hk
        rcases hk with rfl | rfl | rfl | rfl <;> simp [parseOne, hno]
      rcases hp : parseOne kw e a with ⟨e1, r⟩
      rw [hp] at this
      simp only at this
      subst this
      exact ⟨_, _, rfl⟩
    · have ho' : (parseOne kw e a).1.nnet.outputs ≤ 1 := by
        have : (parseOne kw e a).1.nnet = e.nnet := by
          unfold parseOne
          repeat' first | rfl | split | (simp only; split)
          all_goals rfl
        rw [this]; exact ho
      rcases hp : parseOne kw e a with ⟨e1, (x | u)⟩
      · exact ⟨_, _, rfl⟩
      · rw [hp] at ho'
        obtain ⟨b, hb, hb2⟩ := h
        simp only [List.mem_cons] at hb
        rcases hb with rfl | hb
        · exact absurd hb2 hk
        · exact ih e1 ho' ⟨b, hb, hb2⟩

/-- C21, rejection.  `train` raises if the flags, in any letter case, order and multiplicity, name two structure selection
methods, or two classification kinds, or any classification kind when the model has a single output. -/
theorem C21_conflicts_rejected (env : Env K) (fs : Files K) (rnd : Rnd) (e : ELM K) (X T : DataArg K) (args : List String) (kw : Kwargs K)
    (h : (∃ a ∈ ["V", "CV", "LOO"], ∃ b ∈ ["V", "CV", "LOO"], a ≠ b ∧ Given args a ∧ Given args b) ∨
         (∃ a ∈ ["C", "WC", "ML", "MC"], ∃ b ∈ ["C", "WC", "ML", "MC"], a ≠ b ∧ Given args a ∧ Given args b) ∨
         (e.nnet.outputs ≤ 1 ∧ ∃ a ∈ ["C", "WC", "ML", "MC"], Given args a)) :
    ∃ x, (e.train env fs rnd X T args kw).1 = .error x := by
  have hp : ∃ e1 x, e.parseArgs args kw = (e1, .error x) := by
    unfold ELM.parseArgs
    split
    · exact ⟨_, _, rfl⟩
    simp only
    rcases h with ⟨a, sa, b, sb, hab, ha, hb⟩ | ⟨a, sa, b, sb, hab, ha, hb⟩ | ⟨ho, a, sa, ha⟩
    · rw [two_in_filter (args := args.map upper) ha hb sa sb hab]
      exact ⟨_, _, rfl⟩
    · rw [two_in_filter (args := args.map upper) (s := ["C", "WC", "ML", "MC"]) ha hb sa sb hab]
      split
      · exact ⟨_, _, rfl⟩
      · exact ⟨_, _, rfl⟩
    · split
      · exact ⟨_, _, rfl⟩
      split
      · exact ⟨_, _, rfl⟩
      · obtain ⟨e', x, hl⟩ := parseLoop_single kw (args.map upper)
          { e with nnet := e.nnet.reset, rankingOP := false, kmaxOp := none, classification := none, wc := none } ho
          ⟨a, ha, sa⟩
        rw [hl]
        exact ⟨_, _, rfl⟩
  obtain ⟨e1, x, hp⟩ := hp
  unfold ELM.train
  split
  · exact ⟨_, rfl⟩
  · rw [hp]
    exact ⟨_, rfl⟩

example : ((exModel 2 2 none none).train QEnv.env (fun _ => none) ⟨fun _ => []⟩ (.mat ⟨2, [[1, 0], [0, 1]]⟩) (.mat ⟨2, [[1, 0], [0, 1]]⟩)
    ["c", "op", "WC"] {}).1 = .error .assertion := by decide +kernel

/-- The classification kind an (upper-case) flag names. -/
def kindOf (a : String) : Option (Option String) :=
  if a = "C" then some (some "c") else if a = "WC" then some (some "wc") else if a = "ML" ∨ a = "MC" then some (some "ml")
  else if a = "R" then some none else none

theorem parseOne_kind (kw : Kwargs K) (e e' : ELM K) (a : String) (h : parseOne kw e a = (e', .ok ())) :
    e'.classification = (kindOf a).getD e.classification := by
  unfold parseOne at h
  unfold kindOf
  split at h
  · rename_i ha
    subst ha
    injection h with h
    rw [← h]; rfl
  split at h
  · rename_i ha
    rw [if_pos ha]
    split at h
    · injection h with h; rw [← h]; rfl
    · injection h with _ h; cases h
  rename_i hc
  rw [if_neg hc]
  split at h
  · rename_i ha
    rw [if_pos ha]
    split at h
    · cases hw : kw.w with
      | none =>
        rw [hw] at h
        injection h with h; rw [← h]; rfl
      | some w =>
        rw [hw] at h
        simp only at h
        split at h
        · injection h with h; rw [← h]; rfl
        · injection h with _ h; cases h
    · injection h with _ h; cases h
  rename_i hc
  rw [if_neg hc]
  split at h
  · rename_i ha
    rw [if_pos ha]
    split at h
    · injection h with h; rw [← h]; rfl
    · injection h with _ h; cases h
  rename_i hc
  rw [if_neg hc]
  split at h
  · rename_i ha
    rw [if_pos ha]
    injection h with h; rw [← h]; rfl
  · rename_i ha
    rw [if_neg ha]
    injection h with h; rw [← h]; rfl

theorem parseLoop_kind (kw : Kwargs K) (as : List String) (e e' : ELM K) (h : parseLoop kw as e = (e', .ok ())) :
    e'.classification = as.foldl (fun c a => (kindOf a).getD c) e.classification := by
  induction as generalizing e with
  | nil => injection h with h; rw [← h]; rfl
  | cons a as ih =>
    unfold parseLoop at h
    rcases hp : parseOne kw e a with ⟨e1, (x | u)⟩
    · rw [hp] at h; injection h with _ h; cases h
    · rw [hp] at h
      rw [List.foldl_cons, ← parseOne_kind kw e e1 a hp]
      exact ih e1 h

theorem foldl_kind (as : List String) (v : Option String) (c : Option String) (h : ∀ a ∈ as, ∀ v', kindOf a = some v' → v' = v) :
    as.foldl (fun c a => (kindOf a).getD c) c = if ∃ a ∈ as, (kindOf a).isSome then v else c := by
  induction as generalizing c with
  | nil => simp
  | cons a as ih =>
    rw [List.foldl_cons, ih _ (fun b hb => h b (List.mem_cons_of_mem _ hb))]
    cases hk : kindOf a with
    | none => simp [hk]
    | some v' =>
      have := h a List.mem_cons_self v' hk
      subst this
      simp [hk]

theorem parseArgs_kind {kw : Kwargs K} {args : List String} {e e1 : ELM K} (h : e.parseArgs args kw = (e1, .ok ())) :
    e1.classification = (args.map upper).foldl (fun c a => (kindOf a).getD c) none ∧
      atMostOne (args.map upper) ["C", "WC", "ML", "MC"] = true := by
  unfold ELM.parseArgs at h
  split at h
  · cases h
  simp only at h
  split at h
  · cases h
  split at h
  · cases h
  rename_i hc
  refine ⟨?_, by simpa using hc⟩
  split at h
  · cases h
  rename_i e' hp
  have := parseLoop_kind kw _ _ _ hp
  injection h with h1 h2
  rw [← h1]
  cases kw.batch <;> exact this

/-- C21, the kind in force.  If `train` accepts flags that do not contain 'r', the classification kind in force afterwards (and
during training) is the one named, and none if none is named; any letter case, order and multiplicity. -/
theorem C21_kind_partial (env : Env K) (fs : Files K) (rnd : Rnd) (e e' : ELM K) (X T : DataArg K) (args : List String) (kw : Kwargs K)
    (r : Option K) (h : e.train env fs rnd X T args kw = (.ok r, e')) (hr : ¬ Given args "R") :
    (Given args "C" → e'.classification = some "c") ∧
    (Given args "WC" → e'.classification = some "wc") ∧
    (Given args "ML" ∨ Given args "MC" → e'.classification = some "ml") ∧
    ((∀ a ∈ ["C", "WC", "ML", "MC"], ¬ Given args a) → e'.classification = none) := by
  obtain ⟨X', T', e1, h1, h2, h3⟩ := train_ok h
  obtain ⟨k1, k2⟩ := parseArgs_kind h2
  have hcl := (trainBody_bcls h3).2
  simp only at hcl
  rw [hcl, k1]
  have uniq : ∀ a ∈ args, upper a ∈ ["C", "WC", "ML", "MC"] → ∀ b ∈ args.map upper, ∀ v', kindOf b = some v' → b = upper a := by
    intro a ha hka b hb v' hv
    by_contra hne
    have hkb : b ∈ ["C", "WC", "ML", "MC"] := by
      obtain ⟨b0, hb0, rfl⟩ := List.mem_map.1 hb
      have hnr : upper b0 ≠ "R" := fun h => hr (List.mem_map.2 ⟨b0, hb0, h⟩)
      unfold kindOf at hv
      simp only [List.mem_cons, List.not_mem_nil, or_false]
      split_ifs at hv with c1 c2 c3
      · exact Or.inl c1
      · exact Or.inr (Or.inl c2)
      · rcases c3 with c3 | c3
        · exact Or.inr (Or.inr (Or.inl c3))
        · exact Or.inr (Or.inr (Or.inr c3))
    have := two_in_filter hb (List.mem_map_of_mem ha) hkb hka hne
    rw [this] at k2
    cases k2
  have one : ∀ (a : String) (v : Option String), a ∈ args → upper a ∈ ["C", "WC", "ML", "MC"] → kindOf (upper a) = some v →
      (args.map upper).foldl (fun c a => (kindOf a).getD c) none = v := by
    intro a v ha hka hv
    rw [foldl_kind _ v none ?_, if_pos ⟨upper a, List.mem_map_of_mem ha, by rw [hv]; rfl⟩]
    intro b hb v' hv'
    have := uniq a ha hka b hb v' hv'
    rw [this, hv] at hv'
    injection hv' with hv'
    exact hv'.symm
  refine ⟨?_, ?_, ?_, ?_⟩
  · intro hg
    obtain ⟨a, ha, hu⟩ : ∃ a ∈ args, upper a = "C" := List.mem_map.1 hg
    exact one a _ ha (by rw [hu]; decide) (by rw [hu]; decide)
  · intro hg
    obtain ⟨a, ha, hu⟩ : ∃ a ∈ args, upper a = "WC" := List.mem_map.1 hg
    exact one a _ ha (by rw [hu]; decide) (by rw [hu]; decide)
  · rintro (hg | hg)
    · obtain ⟨a, ha, hu⟩ : ∃ a ∈ args, upper a = "ML" := List.mem_map.1 hg
      exact one a _ ha (by rw [hu]; decide) (by rw [hu]; decide)
    · obtain ⟨a, ha, hu⟩ : ∃ a ∈ args, upper a = "MC" := List.mem_map.1 hg
      exact one a _ ha (by rw [hu]; decide) (by rw [hu]; decide)
  · intro hno
    rw [foldl_kind _ none none ?_]
    · split <;> rfl
    · intro b hb v' hv'
      obtain ⟨b0, hb0, rfl⟩ := List.mem_map.1 hb
      have h1 : upper b0 ∉ ["C", "WC", "ML", "MC"] := fun h => hno _ h (List.mem_map.2 ⟨b0, hb0, rfl⟩)
      have h2 : upper b0 ≠ "R" := fun h => hr (List.mem_map.2 ⟨b0, hb0, h⟩)
      unfold kindOf at hv'
      simp only [List.mem_cons, List.not_mem_nil, or_false, not_or] at h1
      rw [if_neg h1.1, if_neg h1.2.1, if_neg (by rintro (h | h); exact h1.2.2.1 h; exact h1.2.2.2 h), if_neg h2] at hv'
      cases hv'

example : ((exModel 2 2 none none).train QEnv.env (fun _ => none) ⟨fun _ => []⟩ (.mat ⟨2, [[1, 0], [0, 1]]⟩) (.mat ⟨2, [[1, 0], [0, 1]]⟩)
    ["Mc", "mC"] {}).2.classification = some "ml" := by decide +kernel

/-- The last sentence of C21 is false when 'r' (regression) is among the flags: 'c' together with 'r' is accepted although
classification was named, and then trains a regression model; in the other order it trains a classifier. -/
theorem C21_kind_refuted :
    ¬ ∀ (e e' : ELM ℚ) (X T : DataArg ℚ) (args : List String) (r : Option ℚ),
        e.train QEnv.env (fun _ => none) ⟨fun _ => []⟩ X T args {} = (.ok r, e') → Given args "C" → e'.classification = some "c" := by
  intro h
  have h1 := h (exModel 2 2 none none)
    ((exModel 2 2 none none).train QEnv.env (fun _ => none) ⟨fun _ => []⟩ (.mat ⟨2, [[1, 0], [0, 1]]⟩) (.mat ⟨2, [[1, 0], [0, 1]]⟩) ["c", "r"] {}).2
    (.mat ⟨2, [[1, 0], [0, 1]]⟩) (.mat ⟨2, [[1, 0], [0, 1]]⟩) ["c", "r"] none (by decide +kernel) (by unfold Given; decide +kernel)
  revert h1
  decide +kernel

/-! ## C22 letter case -/

/-- C22 is false for the structure selection flags: 'V' demands validation data, 'v' silently trains without selection. -/
theorem C22_case_refuted :
    ¬ ∀ (e : ELM ℚ) (X T : DataArg ℚ) (args args' : List String), List.Forall₂ SameLetters args args' →
        e.train QEnv.env (fun _ => none) ⟨fun _ => []⟩ X T args {} = e.train QEnv.env (fun _ => none) ⟨fun _ => []⟩ X T args' {} := by
  intro h
  have := h (exModel 2 2 none none) (.mat ⟨2, [[1, 0], [0, 1]]⟩) (.mat ⟨2, [[1, 0], [0, 1]]⟩) ["V"] ["v"] (.cons (by unfold SameLetters; decide +kernel) .nil)
  revert this
  decide +kernel

/-- C22 for all other flags: two argument lists that agree up to letter case, and exactly on the three selection flags, do the
same. -/
theorem C22_case_partial (env : Env K) (fs : Files K) (rnd : Rnd) (e : ELM K) (X T : DataArg K) (args args' : List String) (kw : Kwargs K)
    (h : List.Forall₂ SameLetters args args') (hs : ∀ s ∈ ["V", "CV", "LOO"], s ∈ args ↔ s ∈ args') :
    e.train env fs rnd X T args kw = e.train env fs rnd X T args' kw := by
  have hu : args.map upper = args'.map upper := by
    clear hs
    induction h with
    | nil => rfl
    | cons hab _ ih => rw [List.map_cons, List.map_cons, ih]; exact congrArg (· :: _) hab
  have hp : e.parseArgs args kw = e.parseArgs args' kw := by
    unfold ELM.parseArgs
    rw [hu]
  have hb : ∀ (e : ELM K) (X T : Mat K), e.trainBody env fs rnd X T args kw = e.trainBody env fs rnd X T args' kw := by
    intro e X T
    unfold ELM.trainBody
    have h1 := hs "V" (by simp)
    have h2 := hs "CV" (by simp)
    have h3 := hs "LOO" (by simp)
    simp only [h1, h2, h3]
  unfold ELM.train
  rw [hp]
  simp only [hb]

example : List.Forall₂ SameLetters ["wC", "Op", "LOO"] ["WC", "oP", "LOO"] := by simp only [List.forall₂_cons, List.Forall₂.nil, SameLetters]; decide +kernel

/-! ## C23 constructor classification (see also `C23_Constructor.lean`) -/

/-- Operations that may set the classification kind. -/
def setsKind : Op K → Bool
  | .train .. => true
  | .load .. => true
  | _ => false

theorem init_kind {env : Env K} {inputs outputs : Nat} {cls : String} {w : Option (List K)} {batch : Int} {acc : Option String} {prec : PrecArg}
    {norm : Option K} {e0 : ELM K} (h0 : ELM.init env inputs outputs cls w batch acc prec norm = .ok e0) (hc : cls ∈ ["c", "wc", "ml", "mc"]) :
    e0.classification = some (if cls = "mc" then "ml" else cls) ∧ e0.nnet.outputs = outputs := by
  unfold ELM.init at h0
  obtain ⟨_, _, h0⟩ := bind_ok h0
  simp only at h0
  have hl : lower cls ∈ ["c", "wc", "ml", "mc"] := by
    simp only [List.mem_cons, List.not_mem_nil, or_false] at hc
    rcases hc with rfl | rfl | rfl | rfl <;> decide +kernel
  rw [if_pos hl] at h0
  split at h0
  · obtain ⟨_, _, h0⟩ := bind_ok h0
    injection h0 with h0
    rw [← h0]
    exact ⟨rfl, rfl⟩
  · injection h0 with h0
    rw [← h0]
    exact ⟨rfl, rfl⟩

theorem run_kind {env : Env K} {fs : Files K} {e : ELM K} : ∀ (ops : List (Op K)) (e0 : ELM K), (∀ op ∈ ops, setsKind op = false) →
    e0.run env fs ops = .ok e → e.classification = e0.classification := by
  intro ops
  induction ops with
  | nil => intro e0 _ h; injection h with h; rw [h]
  | cons op ops ih =>
    intro e0 ho h
    unfold ELM.run at h
    obtain ⟨e1, h1, h⟩ := bind_ok h
    rw [ih e1 (fun o hm => ho o (List.mem_cons_of_mem _ hm)) h]
    have hk := ho op List.mem_cons_self
    unfold ELM.step at h1
    cases op with
    | addNeurons rW rB sq k f W B =>
      simp only at h1
      unfold ELM.addNeurons at h1
      obtain ⟨_, _, h1⟩ := bind_ok h1
      simp only at h1
      obtain ⟨_, _, h1⟩ := bind_ok h1
      obtain ⟨_, _, h1⟩ := bind_ok h1
      injection h1 with h1
      rw [← h1]
    | addData X T => exact (addData_bcls h1).2
    | addBatch X T wc =>
      obtain ⟨n, _, h1⟩ := bind_ok h1
      injection h1 with h1
      rw [← h1]
    | reset => injection h1 with h1; rw [← h1]
    | prune idx => injection h1 with h1; rw [← h1]
    | setB B =>
      obtain ⟨n, _, h1⟩ := bind_ok h1
      injection h1 with h1
      rw [← h1]
    | setCorr HH HT =>
      obtain ⟨n, _, h1⟩ := bind_ok h1
      injection h1 with h1
      rw [← h1]
    | solve =>
      obtain ⟨n, _, h1⟩ := bind_ok h1
      injection h1 with h1
      rw [← h1]
    | train => cases hk
    | load => cases hk

/-! ## C24 data validation -/

/-- C24.  Data is accepted exactly when every argument given is a numeric 1- or 2-dimensional array (or a non-empty file) with the
model's number of inputs / outputs as columns, and the numbers of samples agree if both are given; a vector is read as a
single column, a matrix is passed on unchanged. -/
theorem C24_checkdata (fs : Files K) (n : NNet K) (X T : DataArg K) (X' T' : Option (Mat K)) :
    checkData fs n X T = .ok (X', T') ↔
      Reads fs X X' ∧ Reads fs T T' ∧ (∀ M, X' = some M → M.cols = n.inputs) ∧ (∀ M, T' = some M → M.cols = n.outputs) ∧
      (∀ A B, X' = some A → T' = some B → A.nrows = B.nrows) := by
  constructor
  · intro h
    unfold checkData at h
    obtain ⟨a, h1, h⟩ := bind_ok h
    obtain ⟨b, h2, h⟩ := bind_ok h
    obtain ⟨r1, c1⟩ := (checkOne_iff _ _ _ _).1 h1
    obtain ⟨r2, c2⟩ := (checkOne_iff _ _ _ _).1 h2
    rcases a with _ | A
    · injection h with h
      injection h with ha hb
      subst ha hb
      exact ⟨r1, r2, c1, c2, by intro A B h; cases h⟩
    · rcases b with _ | B
      · injection h with h
        injection h with ha hb
        subst ha hb
        exact ⟨r1, r2, c1, c2, by intro A B _ h; cases h⟩
      · simp only at h
        obtain ⟨_, h3, h⟩ := bind_ok h
        have h3 := pyAssert_ok h3
        injection h with h
        injection h with ha hb
        subst ha hb
        refine ⟨r1, r2, c1, c2, ?_⟩
        rintro A' B' ⟨⟩ ⟨⟩
        simpa using h3
  · rintro ⟨r1, r2, c1, c2, hn⟩
    unfold checkData
    rw [(checkOne_iff _ _ _ _).2 ⟨r1, c1⟩, (checkOne_iff _ _ _ _).2 ⟨r2, c2⟩]
    cases X' with
    | none => rfl
    | some A =>
      cases T' with
      | none => rfl
      | some B => simp [pyAssert, hn A B rfl rfl, bind, Except.bind, pure, Except.pure]

/-- Everything else raises: the outcome is an exception unless the conditions of `C24_checkdata` hold. -/
theorem C24_rejects (fs : Files K) (n : NNet K) (X T : DataArg K)
    (h : ¬ ∃ X' T', Reads fs X X' ∧ Reads fs T T' ∧ (∀ M, X' = some M → M.cols = n.inputs) ∧ (∀ M, T' = some M → M.cols = n.outputs) ∧
      (∀ A B, X' = some A → T' = some B → A.nrows = B.nrows)) : ∃ x, checkData fs n X T = .error x := by
  cases hc : checkData fs n X T with
  | error x => exact ⟨x, rfl⟩
  | ok p =>
    obtain ⟨X', T'⟩ := p
    exact absurd ⟨X', T', (C24_checkdata fs n X T X' T').1 hc⟩ h

example : checkData (fun _ => none) (exModel 1 2 none none).nnet (.mat ⟨2, [[1, 2], [3, 4]]⟩) (.vec [5, 6])
    = .ok (some ⟨2, [[1, 2], [3, 4]]⟩, some ⟨1, [[5], [6]]⟩) := by decide +kernel

example : checkData (fun _ => none) (exModel 1 2 none none).nnet (.mat ⟨2, [[1, 2], [3, 4]]⟩) (.vec [5]) = .error .assertion := by decide +kernel

end Hpelm.Props
