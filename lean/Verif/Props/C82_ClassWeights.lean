import Verif.Props.C21_C24_Arguments
import Verif.Props.C34_C35_CrossValidation
import Verif.Model.HOps

/-!
# C82: class weights in force
-/

set_option linter.unusedSectionVars false

namespace Hpelm.Props
open Spec
variable {K : Type} [Field K] [LinearOrder K]

theorem parseOne_keeps (kw : Kwargs K) (e : ELM K) (a : String) {ws : List K} (hw : kw.w = some ws) (h : e.wc = some (ws.map some)) :
    (parseOne kw e a).1.wc = some (ws.map some) := by
  unfold parseOne
  rw [hw]
  split_ifs <;> (try exact h)
  simp only
  split_ifs
  · rfl
  · exact h

theorem parseLoop_keeps (kw : Kwargs K) {ws : List K} (hw : kw.w = some ws) (as : List String) (e : ELM K) (h : e.wc = some (ws.map some)) :
    (parseLoop kw as e).1.wc = some (ws.map some) := by
  induction as generalizing e with
  | nil => exact h
  | cons a as ih =>
    have hp := parseOne_keeps kw e a hw h
    unfold parseLoop
    split
    · rename_i e1 x h1
      rw [h1] at hp
      exact hp
    · rename_i e1 h1
      rw [h1] at hp
      exact ih e1 hp

theorem parseOne_outputs (kw : Kwargs K) (e : ELM K) (a : String) : (parseOne kw e a).1.nnet = e.nnet := by
  unfold parseOne
  split_ifs <;> try rfl
  simp only
  split <;> try rfl
  split_ifs <;> rfl

/-- Flags containing 'WC' that are accepted together with class weights. -/
theorem parseLoop_given (kw : Kwargs K) {ws : List K} (hw : kw.w = some ws) (as : List String) (e e1 : ELM K) (hm : "WC" ∈ as)
    (h : parseLoop kw as e = (e1, .ok ())) : ws.length = e.nnet.outputs ∧ e1.wc = some (ws.map some) := by
  induction as generalizing e with
  | nil => simp at hm
  | cons a as ih =>
    have ho := parseOne_outputs kw e a
    by_cases ha : a = "WC"
    · subst ha
      unfold parseLoop at h
      have hp : parseOne kw e "WC" = if e.nnet.outputs > 1 then
          if ws.length = e.nnet.outputs then ({ e with classification := some "wc", wc := some (ws.map some) }, .ok ())
          else ({ e with classification := some "wc" }, .error .assertion) else (e, .error .assertion) := by
        unfold parseOne
        rw [hw]
        simp
      rw [hp] at h
      by_cases h1 : e.nnet.outputs > 1
      swap
      · rw [if_neg h1] at h
        cases h
      by_cases h2 : ws.length = e.nnet.outputs
      swap
      · rw [if_pos h1, if_neg h2] at h
        cases h
      rw [if_pos h1, if_pos h2] at h
      simp only at h
      refine ⟨h2, ?_⟩
      have := parseLoop_keeps kw hw as { e with classification := some "wc", wc := some (ws.map some) } rfl
      rw [h] at this
      exact this
    · have hm' : "WC" ∈ as := by
        rcases List.mem_cons.1 hm with h | h
        · exact absurd h.symm ha
        · exact h
      unfold parseLoop at h
      split at h
      · cases h
      · rename_i e2 he2
        rw [he2] at ho
        have := ih e2 hm' h
        rw [show e2.nnet = e.nnet from ho] at this
        exact this

theorem parseArgs_given {kw : Kwargs K} {args : List String} {e e1 : ELM K} {ws : List K} (hw : kw.w = some ws) (hg : Given args "WC")
    (h : e.parseArgs args kw = (e1, .ok ())) : ws.length = e.nnet.outputs ∧ e1.wc = some (ws.map some) := by
  unfold ELM.parseArgs at h
  split at h
  · cases h
  simp only at h
  split at h
  · cases h
  split at h
  · cases h
  split at h
  · cases h
  rename_i e2 hp
  have := parseLoop_given kw hw (args.map upper) _ e2 hg hp
  injection h with h _
  cases hb : kw.batch with
  | none => rw [hb] at h; rw [← h]; exact this
  | some b => rw [hb] at h; rw [← h]; exact this

theorem parseOne_nowc (kw : Kwargs K) (e : ELM K) (a : String) (ha : a ≠ "WC") (h : e.wc = none) : (parseOne kw e a).1.wc = none := by
  unfold parseOne
  rw [if_neg ha]
  split_ifs <;> exact h

theorem autoWc_some {env : Env K} {e : ELM K} {ns ws} (h : e.wc = some ws) : (e.autoWc env ns).wc = some ws := by
  unfold ELM.autoWc
  rw [if_neg (by simp [h])]
  exact h

theorem autoWc_other {env : Env K} {e : ELM K} {ns} (h : e.classification ≠ some "wc") : (e.autoWc env ns).wc = e.wc := by
  unfold ELM.autoWc
  rw [if_neg (by simp [h])]

theorem addData_wc {env : Env K} {e e' : ELM K} {X T : Mat K} (h : e.addData env X T = .ok e') : e'.wc = (e.autoWc env (colSums T)).wc := by
  obtain ⟨c, rfl⟩ := addData_fields h
  rfl

/-- Class weights after training, given those after reading the flags. -/
theorem trainBody_weights {env : Env K} {fs rnd} {e : ELM K} {X T : Mat K} {args kw r} (h : e.trainBody env fs rnd X T args kw = .ok r) :
    r.2.wc = e.wc ∨ r.2.wc = (e.autoWc env (colSums T)).wc := by
  unfold ELM.trainBody at h
  split at h
  · split at h
    · obtain ⟨_, _, h⟩ := bind_ok h
      obtain ⟨r', hr, h⟩ := bind_ok h
      injection h with h
      rw [← h]
      unfold trainV at hr
      obtain ⟨e1, h1, hr⟩ := bind_ok hr
      obtain ⟨_, _, hr⟩ := bind_ok hr
      obtain ⟨_, _, hr⟩ := bind_ok hr
      obtain ⟨_, _, hr⟩ := bind_ok hr
      obtain ⟨_, _, hr⟩ := bind_ok hr
      obtain ⟨_, _, hr⟩ := bind_ok hr
      obtain ⟨_, _, hr⟩ := bind_ok hr
      obtain ⟨e2, h2, hr⟩ := bind_ok hr
      injection hr with hr
      rw [← hr]
      exact Or.inr ((refit_wc h2).trans (addData_wc h1))
    · cases h
  split at h
  · split at h
    · cases h
    · obtain ⟨_, _, h⟩ := bind_ok h
      obtain ⟨r', hr, h⟩ := bind_ok h
      injection h with h
      rw [← h]
      unfold trainCV at hr
      obtain ⟨_, _, hr⟩ := bind_ok hr
      obtain ⟨_, _, hr⟩ := bind_ok hr
      obtain ⟨_, _, hr⟩ := bind_ok hr
      obtain ⟨_, _, hr⟩ := bind_ok hr
      obtain ⟨_, _, hr⟩ := bind_ok hr
      obtain ⟨e2, h2, hr⟩ := bind_ok hr
      injection hr with hr
      rw [← hr]
      exact Or.inl (refit_wc h2)
  split at h
  · obtain ⟨r', hr, h⟩ := bind_ok h
    injection h with h
    rw [← h]
    unfold trainLOO at hr
    obtain ⟨_, _, hr⟩ := bind_ok hr
    obtain ⟨e1, h1, hr⟩ := bind_ok hr
    obtain ⟨_, _, hr⟩ := bind_ok hr
    obtain ⟨_, _, hr⟩ := bind_ok hr
    obtain ⟨_, _, hr⟩ := bind_ok hr
    obtain ⟨_, _, hr⟩ := bind_ok hr
    obtain ⟨_, _, hr⟩ := bind_ok hr
    obtain ⟨e2, h2, hr⟩ := bind_ok hr
    injection hr with hr
    rw [← hr]
    exact Or.inr ((refit_wc h2).trans (addData_wc h1))
  · obtain ⟨e1, h1, h⟩ := bind_ok h
    obtain ⟨n1, h2, h⟩ := bind_ok h
    injection h with h
    rw [← h]
    have h3 := addData_wc h1
    exact Or.inr h3

theorem storeCorr_wc {e e' : ELM K} {fs fs' : Files K} {a b} (h : e.storeCorr fs a b = .ok (e', fs')) :
    e'.wc = e.wc ∧ e'.classification = e.classification := by
  unfold ELM.storeCorr at h
  split at h
  · obtain ⟨_, _, h⟩ := bind_ok h
    obtain ⟨_, _, h⟩ := bind_ok h
    injection h with h
    injection h with h _
    rw [← h]
    exact ⟨rfl, rfl⟩
  · injection h with h
    injection h with h _
    rw [h]
    exact ⟨rfl, rfl⟩

theorem hAddData_wc {env : Env K} {e e' : ELM K} {fs fs' : Files K} {X T : DataArg K} {i c a b}
    (h : e.hAddData env fs X T i c a b = .ok (e', fs')) : ∃ ns, e'.wc = (e.autoWc env ns).wc ∧ e'.classification = e.classification := by
  unfold ELM.hAddData at h
  obtain ⟨_, _, h⟩ := bind_ok h
  obtain ⟨p, hp, h⟩ := bind_ok h
  obtain ⟨q, hq, h⟩ := bind_ok h
  obtain ⟨bs, hbs, h⟩ := bind_ok h
  obtain ⟨e2, h2, h⟩ := bind_ok h
  obtain ⟨c, rfl⟩ := feed_fields _ h2
  obtain ⟨s1, s2⟩ := storeCorr_wc h
  refine ⟨batchColSums q.1.outputs p.2 bs, s1.trans ?_, s2.trans (autoWc_cls _ _ _)⟩
  unfold ELM.autoWc
  simp only
  split_ifs <;> rfl

theorem ok_of_not_error {α : Type} {x : Except PyErr α} (h : ¬ ∃ y, x = .error y) : ∃ a, x = .ok a := by
  cases x with
  | ok a => exact ⟨a, rfl⟩
  | error y => exact absurd ⟨y, rfl⟩ h

/-- A successful on-disk `train` goes through its stages. -/
theorem hTrain_ok {env : Env K} {fs} {e e' : ELM K} {X T : DataArg K} {args kw} (h : e.hTrain env fs X T args kw = (.ok (), e')) :
    ∃ X' T' e1 e2 fs2 n i, checkBoth fs e.nnet X T = .ok (X', T') ∧ e.parseArgs args kw = (e1, .ok ()) ∧
      e1.hAddData env fs (.mat X') (.mat T') i kw.icount none none = .ok (e2, fs2) ∧ e2.nnet.solve env = .ok n ∧ e' = { e2 with nnet := n } := by
  unfold ELM.hTrain at h
  split at h
  · cases h
  rename_i X' T' h1
  split at h
  · cases h
  rename_i e1 h2
  simp only at h
  split at h
  · cases h
  rename_i e2 fs2 h3
  split at h
  · cases h
  rename_i n h4
  injection h with _ h
  exact ⟨X', T', e1, e2, fs2, n, _, h1, h2, h3, h4, h.symm⟩

/-! ### C82 -/

/-- C82, rejection.  Class weights given to `train` of an in-memory or on-disk model together with the flag 'wc' (in any letter case) are
rejected if their number is not the number of outputs. -/
theorem C82_wrong_count_rejected (env : Env K) (fs : Files K) (rnd : Rnd) (e : ELM K) (X T : DataArg K) (args : List String) (kw : Kwargs K)
    (w : List K) (hg : Given args "WC") (hw : kw.w = some w) (hl : w.length ≠ e.nnet.outputs) :
    (∃ x, (e.train env fs rnd X T args kw).1 = .error x) ∧ ∃ x, (e.hTrain env fs X T args kw).1 = .error x := by
  constructor
  · by_contra hne
    obtain ⟨r, hr⟩ := ok_of_not_error hne
    obtain ⟨X', T', e1, h1, h2, h3⟩ := train_ok (r := r) (Prod.ext hr rfl)
    exact hl (parseArgs_given hw hg h2).1
  · by_contra hne
    obtain ⟨r, hr⟩ := ok_of_not_error hne
    obtain ⟨X', T', e1, e2, fs2, n, i, h1, h2, h3, h4, h5⟩ := hTrain_ok (Prod.ext hr rfl)
    exact hl (parseArgs_given hw hg h2).1

/-- C82, the weights in force.  After `train` accepted the flag 'wc' with class weights, exactly these weights are in force, one per class,
in the given order; with every selection method, in memory and on disk, whatever weights were in force before. -/
theorem C82_given_weights (env : Env K) (fs : Files K) (rnd : Rnd) (e e' : ELM K) (X T : DataArg K) (args : List String) (kw : Kwargs K)
    (w : List K) (hg : Given args "WC") (hw : kw.w = some w)
    (h : (∃ r, e.train env fs rnd X T args kw = (.ok r, e')) ∨ e.hTrain env fs X T args kw = (.ok (), e')) :
    e'.wc = some (w.map some) ∧ w.length = e.nnet.outputs := by
  rcases h with ⟨r, h⟩ | h
  · obtain ⟨X', T', e1, h1, h2, h3⟩ := train_ok h
    obtain ⟨a1, a2⟩ := parseArgs_given hw hg h2
    refine ⟨?_, a1⟩
    rcases trainBody_weights h3 with h4 | h4
    · exact h4.trans a2
    · exact h4.trans (autoWc_some a2)
  · obtain ⟨X', T', e1, e2, fs2, n, i, h1, h2, h3, h4, rfl⟩ := hTrain_ok h
    obtain ⟨a1, a2⟩ := parseArgs_given hw hg h2
    refine ⟨?_, a1⟩
    obtain ⟨ns, h5, h6⟩ := hAddData_wc h3
    exact h5.trans (autoWc_some a2)

/-- C82, other kinds.  Without the flag 'wc' no class weights are in force after training: weights given without the flag, to an earlier
`train` or to the constructor have no effect. -/
theorem C82_no_weights (env : Env K) (fs : Files K) (rnd : Rnd) (e e' : ELM K) (X T : DataArg K) (args : List String) (kw : Kwargs K)
    (hg : ¬ Given args "WC")
    (h : (∃ r, e.train env fs rnd X T args kw = (.ok r, e')) ∨ e.hTrain env fs X T args kw = (.ok (), e')) :
    e'.wc = none ∧ e'.classification ≠ some "wc" := by
  have key : ∀ e1, e.parseArgs args kw = (e1, .ok ()) → e1.wc = none ∧ e1.classification ≠ some "wc" := by
    intro e1 h2
    refine ⟨parseArgs_inv h2 (fun e => e.wc = none) rfl (fun a ha e he _ => parseOne_nowc kw e a (fun h => hg (h ▸ ha)) he) (fun e b h => h), ?_⟩
    intro h
    exact hg ((parseArgs_wc h2).1 h)
  rcases h with ⟨r, h⟩ | h
  · obtain ⟨X', T', e1, h1, h2, h3⟩ := train_ok h
    obtain ⟨a1, a2⟩ := key e1 h2
    refine ⟨?_, by rw [(trainBody_bcls h3).2]; exact a2⟩
    rcases trainBody_weights h3 with h4 | h4
    · exact h4.trans a1
    · exact h4.trans ((autoWc_other a2).trans a1)
  · obtain ⟨X', T', e1, e2, fs2, n, i, h1, h2, h3, h4, rfl⟩ := hTrain_ok h
    obtain ⟨a1, a2⟩ := key e1 h2
    obtain ⟨ns, h5, h6⟩ := hAddData_wc h3
    refine ⟨h5.trans ((autoWc_other a2).trans a1), ?_⟩
    show e2.classification ≠ _
    rw [h6]
    exact a2

/-- C82, history.  The kind and the class weights in force before `train` have no effect on it. -/
theorem C82_previous_ignored (env : Env K) (fs : Files K) (rnd : Rnd) (e : ELM K) (X T : DataArg K) (args : List String) (kw : Kwargs K)
    (cls : Option String) (wc : Option (List (Option K))) (e' : ELM K) :
    (∀ r, ({ e with classification := cls, wc := wc } : ELM K).train env fs rnd X T args kw = (.ok r, e') ↔
      e.train env fs rnd X T args kw = (.ok r, e')) ∧
    (({ e with classification := cls, wc := wc } : ELM K).hTrain env fs X T args kw = (.ok (), e') ↔
      e.hTrain env fs X T args kw = (.ok (), e')) := by
  have hp : ({ e with classification := cls, wc := wc } : ELM K).parseArgs args kw = e.parseArgs args kw ∨
      ((∃ x, (({ e with classification := cls, wc := wc } : ELM K).parseArgs args kw).2 = .error x) ∧ ∃ x, (e.parseArgs args kw).2 = .error x) := by
    unfold ELM.parseArgs
    by_cases hn : e.nnet.neurons.isEmpty
    · exact Or.inr ⟨⟨.assertion, by simp [hn]⟩, ⟨.assertion, by simp [hn]⟩⟩
    · exact Or.inl (by rw [if_neg hn, if_neg hn])
  constructor
  · intro r
    unfold ELM.train
    simp only
    split
    · exact ⟨fun h => (by cases h), fun h => (by cases h)⟩
    · rcases hp with hp | ⟨⟨x, h1⟩, ⟨y, h2⟩⟩
      · rw [hp]
      · obtain ⟨⟨a, b⟩, h3⟩ : ∃ p, p = ({ e with classification := cls, wc := wc } : ELM K).parseArgs args kw := ⟨_, rfl⟩
        obtain ⟨⟨c, d⟩, h4⟩ : ∃ p, p = e.parseArgs args kw := ⟨_, rfl⟩
        rw [← h3] at h1 ⊢
        rw [← h4] at h2 ⊢
        simp only at h1 h2
        subst h1 h2
        exact ⟨fun h => (by cases h), fun h => (by cases h)⟩
  · unfold ELM.hTrain
    simp only
    split
    · exact ⟨fun h => (by cases h), fun h => (by cases h)⟩
    · rcases hp with hp | ⟨⟨x, h1⟩, ⟨y, h2⟩⟩
      · rw [hp]
      · obtain ⟨⟨a, b⟩, h3⟩ : ∃ p, p = ({ e with classification := cls, wc := wc } : ELM K).parseArgs args kw := ⟨_, rfl⟩
        obtain ⟨⟨c, d⟩, h4⟩ : ∃ p, p = e.parseArgs args kw := ⟨_, rfl⟩
        rw [← h3] at h1 ⊢
        rw [← h4] at h2 ⊢
        simp only at h1 h2
        subst h1 h2
        exact ⟨fun h => (by cases h), fun h => (by cases h)⟩

/-- C82 is false for class weights given to the constructor: they are discarded by `train` even if the flag 'wc' is repeated there; the
automatic weights (3/2, 3) are used in their place. -/
theorem C82_constructor_weights_refuted :
    ¬ ∀ (w : List ℚ) (ops : List (Op ℚ)) (e0 e e' : ELM ℚ) (X T : Mat ℚ) (r : Option ℚ),
        ELM.init QEnv.env 1 2 "wc" (some w) 10 none (.np .double) none = .ok e0 → e0.run QEnv.env (fun _ => none) ops = .ok e →
        e.train QEnv.env (fun _ => none) ⟨fun _ => []⟩ (.mat X) (.mat T) ["wc"] {} = (.ok r, e') → e'.wc = some (w.map some) := by
  intro h
  have := h [1, 5] [.addNeurons (fun _ => ⟨1, []⟩) (fun _ => []) 1 1 (.name "lin") none none]
    { nnet := NNet.init QEnv.env .python 1 2 none .double, batch := 10, prec := .double, accelerator := none,
      classification := some "wc", wc := some [some 1, some 5], rankingOP := false, kmaxOp := none }
    { nnet := { NNet.init QEnv.env .python 1 2 none .double with neurons := [⟨1, .name "lin", [[1]], [0]⟩], L := some 1 }, batch := 10,
      prec := .double, accelerator := none, classification := some "wc", wc := some [some 1, some 5], rankingOP := false, kmaxOp := none }
    (ELM.train QEnv.env (fun _ => none) ⟨fun _ => []⟩
      { nnet := { NNet.init QEnv.env .python 1 2 none .double with neurons := [⟨1, .name "lin", [[1]], [0]⟩], L := some 1 }, batch := 10,
        prec := .double, accelerator := none, classification := some "wc", wc := some [some 1, some 5], rankingOP := false, kmaxOp := none }
      (.mat ⟨1, [[1], [2], [3]]⟩) (.mat ⟨2, [[1, 0], [1, 0], [0, 1]]⟩) ["wc"] {}).2
    ⟨1, [[1], [2], [3]]⟩ ⟨2, [[1, 0], [1, 0], [0, 1]]⟩ none (by decide +kernel) (by decide +kernel) (by decide +kernel)
  revert this
  decide +kernel

/-- C82, the part about the constructor that holds: class weights given to the constructor stay in force over any history of calls that
does not train or load. -/
theorem C82_constructor_weights_partial (env : Env K) (fs : Files K) {inputs outputs : Nat} {cls : String}
    {w : List K} {batch : Int} {acc : Option String} {prec : PrecArg} {norm : Option K} {e0 e : ELM K}
    (h0 : ELM.init env inputs outputs cls (some w) batch acc prec norm = .ok e0)
    (ops : List (Op K)) (ho : ∀ op ∈ ops, setsKind op = false) (h : e0.run env fs ops = .ok e) :
    e.wc = some (w.map some) ∧ w.length = outputs := by
  have hinit : e0.wc = some (w.map some) ∧ w.length = outputs := by
    unfold ELM.init at h0
    obtain ⟨_, _, h0⟩ := bind_ok h0
    simp only at h0
    obtain ⟨_, h1, h0⟩ := bind_ok h0
    injection h0 with h0
    rw [← h0]
    exact ⟨rfl, of_decide_eq_true (pyAssert_ok h1)⟩
  refine ⟨?_, hinit.2⟩
  have hrun : ∀ (ops : List (Op K)) (e0 : ELM K), (∀ op ∈ ops, setsKind op = false) → e0.run env fs ops = .ok e →
      e0.wc = some (w.map some) → e.wc = some (w.map some) := by
    intro ops
    induction ops with
    | nil => intro e0 _ h; injection h with h; rw [h]; exact id
    | cons op ops ih =>
      intro e0 ho h hw
      unfold ELM.run at h
      obtain ⟨e1, h1, h⟩ := bind_ok h
      refine ih e1 (fun o hm => ho o (List.mem_cons_of_mem _ hm)) h ?_
      have hk := ho op List.mem_cons_self
      unfold ELM.step at h1
      cases op with
      | addNeurons rW rB sq k f W B =>
        simp only at h1
        unfold ELM.addNeurons at h1
        obtain ⟨_, _, h1⟩ := bind_ok h1
        simp only at h1
        obtain ⟨_, _, h1⟩ := bind_ok h1
        obtain ⟨_, _, h1⟩ := bind_ok h1
        injection h1 with h1
        rw [← h1]
        exact hw
      | addData X T => exact (addData_wc h1).trans (autoWc_some hw)
      | addBatch X T wc =>
        obtain ⟨n, _, h1⟩ := bind_ok h1
        injection h1 with h1
        rw [← h1]
        exact hw
      | reset => injection h1 with h1; rw [← h1]; exact hw
      | prune idx => injection h1 with h1; rw [← h1]; exact hw
      | setB B =>
        obtain ⟨n, _, h1⟩ := bind_ok h1
        injection h1 with h1
        rw [← h1]
        exact hw
      | setCorr HH HT =>
        obtain ⟨n, _, h1⟩ := bind_ok h1
        injection h1 with h1
        rw [← h1]
        exact hw
      | solve =>
        obtain ⟨n, _, h1⟩ := bind_ok h1
        injection h1 with h1
        rw [← h1]
        exact hw
      | train => cases hk
      | load => cases hk
  exact hrun ops e0 ho h hinit.1

/-- The hypotheses of `C82_constructor_weights_partial` are met: weights (1, 5), neurons added, data fed, solved. -/
example : ∃ e0 e, ELM.init QEnv.env 1 2 "wc" (some [1, 5]) 10 none (.np .double) none = .ok e0 ∧
    e0.run QEnv.env (fun _ => none) [.addNeurons (fun _ => ⟨1, []⟩) (fun _ => []) 1 1 (.name "lin") none none,
      .addData ⟨1, [[1], [2], [3]]⟩ ⟨2, [[1, 0], [1, 0], [0, 1]]⟩, .solve] = .ok e := by
  have h : ((ELM.init QEnv.env 1 2 "wc" (some [1, 5]) 10 none (.np .double) none).bind fun e0 =>
      e0.run QEnv.env (fun _ => none) [.addNeurons (fun _ => ⟨1, []⟩) (fun _ => []) 1 1 (.name "lin") none none,
        .addData ⟨1, [[1], [2], [3]]⟩ ⟨2, [[1, 0], [1, 0], [0, 1]]⟩, .solve]).toBool = true := by decide +kernel
  cases h0 : ELM.init QEnv.env 1 2 "wc" (some [1, 5]) 10 none (.np .double) none with
  | error x => rw [h0] at h; cases h
  | ok e0 =>
    rw [h0] at h
    simp only [Except.bind] at h
    cases h1 : e0.run QEnv.env (fun _ => none) [.addNeurons (fun _ => ⟨1, []⟩) (fun _ => []) 1 1 (.name "lin") none none,
        .addData ⟨1, [[1], [2], [3]]⟩ ⟨2, [[1, 0], [1, 0], [0, 1]]⟩, .solve] with
    | error x => rw [h1] at h; cases h
    | ok e => exact ⟨e0, e, rfl, h1⟩

/-- The hypotheses of `C82_given_weights` are met: explicit weights, in memory with and without leave-one-out, and on disk. -/
example :
    ((exModel 2 2 none none).train QEnv.env (fun _ => none) ⟨fun _ => [1, 0]⟩ (.mat ⟨2, [[1, 0], [0, 1], [1, 1]]⟩)
      (.mat ⟨2, [[1, 0], [0, 1], [1, 0]]⟩) ["wC"] { w := some [1, 4] }).1 = .ok none ∧
    ((exModel 2 2 none none).train QEnv.env (fun _ => none) ⟨fun _ => [1, 0]⟩ (.mat ⟨2, [[1, 0], [0, 1], [1, 1]]⟩)
      (.mat ⟨2, [[1, 0], [0, 1], [1, 0]]⟩) ["LOO", "wc"] { w := some [1, 4] }).1 = .ok none ∧
    ((exModel 2 2 none none).hTrain QEnv.env (fun _ => none) (.mat ⟨2, [[1, 0], [0, 1], [1, 1]]⟩)
      (.mat ⟨2, [[1, 0], [0, 1], [1, 0]]⟩) ["wc"] { w := some [1, 4] }).1 = .ok () := by
  refine ⟨?_, ?_, ?_⟩ <;> decide +kernel

/-- The hypotheses of `C82_no_weights` and `C82_previous_ignored` are met: a model with weights in force is trained as a classifier. -/
example :
    ((exModel 2 2 (some "wc") (some [some 1, some 4])).train QEnv.env (fun _ => none) ⟨fun _ => []⟩ (.mat ⟨2, [[1, 0], [0, 1], [1, 1]]⟩)
      (.mat ⟨2, [[1, 0], [0, 1], [1, 0]]⟩) ["c"] { w := some [1, 4] }).1 = .ok none ∧ ¬ Given ["c"] "WC" ∧ Given ["wC"] "WC" := by
  refine ⟨?_, ?_, ?_⟩ <;> decide +kernel

end Hpelm.Props
