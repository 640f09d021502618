import Verif.Spec.Options
import Verif.Model.Ops
import Verif.Lemmas.Frame
import Verif.Lemmas.QEnv

/-!
# C90 — the options given to the constructor take effect and stay in force
-/

set_option linter.unusedSectionVars false

namespace Hpelm.Props
open Hpelm Spec
variable {K : Type} [Field K] [LinearOrder K]

theorem ascii_case (c : Char) : c.toLower.toUpper = c.toUpper ∧ c.toUpper.toLower = c.toLower := by
  by_cases h : c.toNat < 128
  · have key : ∀ n < 128, (Char.ofNat n).toLower.toUpper = (Char.ofNat n).toUpper ∧ (Char.ofNat n).toUpper.toLower = (Char.ofNat n).toLower := by
      decide +kernel
    have := key c.toNat h
    rwa [Char.ofNat_toNat] at this
  · have h1 : ¬ (c.val ≥ 'A'.val ∧ c.val ≤ 'Z'.val) := by
      rintro ⟨_, h2⟩
      have := UInt32.le_iff_toNat_le.1 h2
      exact h (lt_of_le_of_lt this (by decide))
    have h2 : ¬ (c.val ≥ 'a'.val ∧ c.val ≤ 'z'.val) := by
      rintro ⟨_, h2⟩
      have := UInt32.le_iff_toNat_le.1 h2
      exact h (lt_of_le_of_lt this (by decide))
    have e1 : c.toLower = c := by unfold Char.toLower; exact dif_neg h1
    have e2 : c.toUpper = c := by unfold Char.toUpper; exact dif_neg h2
    rw [e1, e2, e1]
    exact ⟨rfl, rfl⟩

theorem isInfix_iff (sub s : List Char) : isInfix sub s = true ↔ sub <:+: s := by
  induction s with
  | nil => simp [isInfix]
  | cons c cs ih => simp [isInfix, ih, List.infix_cons_iff]

/-- A lower-case word occurs in the lower-case string iff the string mentions it. -/
theorem lower_infix (s word : String) (hw : word.toList.map Char.toLower = word.toList) :
    word.toList <:+: (lower s).toList ↔ Mentions s word := by
  unfold lower Mentions capitals
  simp only [String.toList_ofList]
  constructor
  · intro h
    have := h.map Char.toUpper
    rwa [List.map_map, show Char.toUpper ∘ Char.toLower = Char.toUpper from funext fun c => (ascii_case c).1] at this
  · intro h
    have := h.map Char.toLower
    rwa [List.map_map, List.map_map, show Char.toLower ∘ Char.toUpper = Char.toLower from funext fun c => (ascii_case c).2, hw] at this

theorem infix_mentions {s word : String} (h : word.toList <:+: s.toList) : Mentions s word := by
  unfold Mentions capitals
  simp only [String.toList_ofList]
  exact h.map _

/-- A word without letters occurs as it is or not at all. -/
theorem digits_infix {s : String} {word : String} (hw : ∀ c ∈ word.toList, ∀ d : Char, d.toUpper = c.toUpper → d = c) :
    word.toList <:+: s.toList ↔ Mentions s word := by
  refine ⟨infix_mentions, ?_⟩
  unfold Mentions capitals
  simp only [String.toList_ofList]
  intro h
  obtain ⟨l1, l2, l3, e, e1⟩ : ∃ a b c, s.toList = a ++ b ++ c ∧ b.map Char.toUpper = word.toList.map Char.toUpper := by
    obtain ⟨a, b, hab⟩ := h
    obtain ⟨l, lc, e, hl, _⟩ := List.map_eq_append_iff.1 hab.symm
    obtain ⟨la, lb, e2, _, hb⟩ := List.map_eq_append_iff.1 hl
    exact ⟨la, lb, lc, by rw [e, e2], hb⟩
  have : l2 = word.toList := by
    clear e h
    generalize word.toList = w at *
    induction w generalizing l2 with
    | nil => simpa using e1
    | cons c cs ih =>
      cases l2 with
      | nil => simp at e1
      | cons d ds =>
        simp only [List.map_cons, List.cons.injEq] at e1
        rw [hw c List.mem_cons_self d e1.1, ih ds (fun c hc => hw c (List.mem_cons_of_mem _ hc)) e1.2]
  exact ⟨l1, l3, by rw [e, this]⟩

theorem digit_upper (n : Nat) (hn : n < 10) (d : Char) (h : d.toUpper = (Char.ofNat (48 + n)).toUpper) : d = Char.ofNat (48 + n) := by
  by_cases hd : d.toNat < 128
  · have key : ∀ k < 128, ∀ n < 10, (Char.ofNat k).toUpper = (Char.ofNat (48 + n)).toUpper → Char.ofNat k = Char.ofNat (48 + n) := by
      decide +kernel
    have := key d.toNat hd n hn
    rw [Char.ofNat_toNat] at this
    exact this h
  · have h2 : ¬ (d.val ≥ 'a'.val ∧ d.val ≤ 'z'.val) := by
      rintro ⟨_, h2⟩
      have := UInt32.le_iff_toNat_le.1 h2
      exact hd (lt_of_le_of_lt this (by decide))
    have e2 : d.toUpper = d := by unfold Char.toUpper; exact dif_neg h2
    rw [e2] at h
    rw [h]
    have : ∀ n < 10, (Char.ofNat (48 + n)).toUpper = Char.ofNat (48 + n) := by decide +kernel
    exact this n hn

/-- The precision in force is the one asked for, if "single" is spelled in lower case. -/
theorem parsePrec_asks {s : String} (hs : Mentions s "single" → "single".toList <:+: s.toList) : parsePrec (.str s) = asksFor s := by
  have h1 := lower_infix s "double" (by decide +kernel)
  have h2 : "64".toList <:+: s.toList ↔ Mentions s "64" := digits_infix (by
    have h6 := digit_upper 6 (by omega)
    have h4 := digit_upper 4 (by omega)
    intro c hc
    have : c = '6' ∨ c = '4' := by simpa using hc
    rcases this with rfl | rfl
    · exact h6
    · exact h4)
  have h3 : "32".toList <:+: s.toList ↔ Mentions s "32" := digits_infix (by
    have h6 := digit_upper 3 (by omega)
    have h4 := digit_upper 2 (by omega)
    intro c hc
    have : c = '3' ∨ c = '2' := by simpa using hc
    rcases this with rfl | rfl
    · exact h6
    · exact h4)
  have h4 : "single".toList <:+: s.toList ↔ Mentions s "single" := ⟨infix_mentions, hs⟩
  unfold parsePrec asksFor
  simp only [Bool.or_eq_true, isInfix_iff, h1, h2, h3, h4]

/-- C90 is false as stated for `precision`: "Single" asks for single precision and silently gives double precision. -/
theorem C90_precision_refuted :
    ¬ ∀ (s : String) (e : ELM ℚ), ELM.init QEnv.env 2 1 "" none 10 none (.str s) none = .ok e → e.prec = asksFor s := by
  intro h
  have := h "Single" { nnet := NNet.init QEnv.env .python 2 1 none .double, batch := 10, prec := .double, accelerator := none,
                       classification := none, wc := none, rankingOP := false, kmaxOp := none } (by decide +kernel)
  revert this
  decide +kernel

/-- The precision asked for by a constructor argument. -/
def wanted : PrecArg → Prec
  | .np p => p
  | .str s => asksFor s

/-- The call loads a saved model. -/
def isLoad : Op K → Bool
  | .load .. => true
  | _ => false

/-- One call keeps the precision and the accelerator; unless it loads a model, also the solver, the sizes and the norm. -/
theorem step_options {env : Env K} {fs : Files K} {e e' : ELM K} {op : Op K} (h : e.step env fs op = .ok e') :
    e'.prec = e.prec ∧ e'.accelerator = e.accelerator ∧ (e.nnet.prec = e.prec → e'.nnet.prec = e.prec) ∧
      (isLoad op = false → e'.nnet.solver = e.nnet.solver ∧ e'.nnet.inputs = e.nnet.inputs ∧ e'.nnet.outputs = e.nnet.outputs ∧
        e'.nnet.norm = e.nnet.norm) := by
  have fr : EFrame e e' → e'.prec = e.prec ∧ e'.accelerator = e.accelerator ∧ (e.nnet.prec = e.prec → e'.nnet.prec = e.prec) ∧
      (isLoad op = false → e'.nnet.solver = e.nnet.solver ∧ e'.nnet.inputs = e.nnet.inputs ∧ e'.nnet.outputs = e.nnet.outputs ∧
        e'.nnet.norm = e.nnet.norm) := fun f =>
    ⟨f.prec, f.accelerator, fun hp => by rw [f.nnet.prec, hp], fun _ => ⟨f.nnet.solver, f.nnet.inputs, f.nnet.outputs, f.nnet.norm⟩⟩
  have an : ∀ (n : NNet K) k f W B, (n.addNeurons k f W B).solver = n.solver ∧ (n.addNeurons k f W B).prec = n.prec ∧
      (n.addNeurons k f W B).inputs = n.inputs ∧ (n.addNeurons k f W B).outputs = n.outputs ∧ (n.addNeurons k f W B).norm = n.norm := by
    intro n k f W B
    unfold NNet.addNeurons NNet.reset
    exact ⟨rfl, rfl, rfl, rfl, rfl⟩
  unfold ELM.step at h
  cases op with
  | addNeurons rW rB sq k f W B =>
    simp only at h
    unfold ELM.addNeurons at h
    obtain ⟨_, _, h⟩ := bind_ok h
    simp only at h
    obtain ⟨_, _, h⟩ := bind_ok h
    obtain ⟨_, _, h⟩ := bind_ok h
    injection h with h
    rw [← h]
    exact ⟨rfl, rfl, fun hp => (an _ _ _ _ _).2.1.trans hp,
      fun _ => ⟨(an _ _ _ _ _).1, (an _ _ _ _ _).2.2.1, (an _ _ _ _ _).2.2.2.1, (an _ _ _ _ _).2.2.2.2⟩⟩
  | addData X T => exact fr (addData_frame h)
  | addBatch X T wc =>
    obtain ⟨n, h1, h⟩ := bind_ok h
    injection h with h
    rw [← h] at fr ⊢
    exact fr ⟨addBatch_frame h1, rfl, rfl⟩
  | reset => injection h with h; rw [← h] at fr ⊢; exact fr ⟨reset_frame _, rfl, rfl⟩
  | prune idx => injection h with h; rw [← h] at fr ⊢; exact fr ⟨prune_frame _ _, rfl, rfl⟩
  | setB B =>
    obtain ⟨n, h1, h⟩ := bind_ok h
    injection h with h
    rw [← h] at fr ⊢
    exact fr ⟨setB_frame h1, rfl, rfl⟩
  | setCorr HH HT =>
    obtain ⟨n, h1, h⟩ := bind_ok h
    injection h with h
    rw [← h] at fr ⊢
    exact fr ⟨setCorr_frame h1, rfl, rfl⟩
  | solve =>
    obtain ⟨n, h1, h⟩ := bind_ok h
    injection h with h
    rw [← h] at fr ⊢
    exact fr ⟨solve_frame h1, rfl, rfl⟩
  | train rnd X T args kw =>
    simp only at h
    have hf := train_frame env fs rnd e X T args kw
    split at h
    · rename_i heq
      injection h with h
      rw [heq, h] at hf
      exact fr hf
    · cases h
  | load m =>
    simp only at h
    unfold ELM.load at h
    have fold : ∀ (gs : List (Group K)) (n : NNet K), (gs.foldl (fun (n : NNet K) g =>
        n.addNeurons g.number g.func (g.W.map (List.map (env.cast e.prec))) (g.B.map (env.cast e.prec))) n).prec = n.prec := by
      intro gs
      induction gs with
      | nil => intro n; rfl
      | cons g gs ih => intro n; rw [List.foldl_cons, ih, (an _ _ _ _ _).2.1]
    simp only at h
    generalize hn : m.neurons.foldl (fun (n : NNet K) g =>
        n.addNeurons g.number g.func (g.W.map (List.map (env.cast e.prec))) (g.B.map (env.cast e.prec)))
          (if e.accelerator = none then NNet.init env .basic m.inputs m.outputs none e.prec else e.nnet) = n at h
    have hn : e.nnet.prec = e.prec → n.prec = e.prec := by
      intro hp
      rw [← hn, fold]
      split
      · rfl
      · exact hp
    cases hm : m.beta with
    | none =>
      rw [hm] at h
      obtain ⟨n', h1, h⟩ := bind_ok h
      injection h1 with h1
      injection h with h
      rw [← h, ← h1]
      exact ⟨rfl, rfl, hn, fun hl => by cases hl⟩
    | some B =>
      rw [hm] at h
      obtain ⟨n', h1, h⟩ := bind_ok h
      injection h with h
      rw [← h]
      exact ⟨rfl, rfl, fun hp => (setB_frame h1).prec.trans (hn hp), fun hl => by cases hl⟩

/-- C90, the part that holds: with "single" spelled in lower case (or not at all), after any history of successful calls the model and
its network work in the precision asked for and with the accelerator asked for; unless a model was loaded, the solver, the numbers of
inputs and outputs and the regularisation are the given ones too, the default regularisation being 50 machine epsilons of the precision
in force.  A new model uses the given batch size and has no neurons. -/
theorem C90_options_partial {env : Env K} {fs : Files K} {inputs outputs : Nat} {cls : String} {w : Option (List K)} {batch : Int}
    {acc : Option String} {prec : PrecArg} {norm : Option K} {e0 e : ELM K}
    (h0 : ELM.init env inputs outputs cls w batch acc prec norm = .ok e0)
    (hs : ∀ s, prec = .str s → Mentions s "single" → "single".toList <:+: s.toList)
    (ops : List (Op K)) (h : e0.run env fs ops = .ok e) :
    (0 < batch ∧ e0.batch = batch ∧ e0.nnet.neurons = []) ∧
    (e.prec = wanted prec ∧ e.nnet.prec = wanted prec ∧ e.accelerator = acc) ∧
    ((∀ op ∈ ops, isLoad op = false) →
      e.nnet.solver = (if acc = some "GPU" then .cuda else if acc = some "basic" then .basic else .python) ∧
      e.nnet.inputs = inputs ∧ e.nnet.outputs = outputs ∧
      e.nnet.norm = norm.getD (50 * env.eps (wanted prec))) := by
  have hp : parsePrec prec = wanted prec := by
    cases prec with
    | np p => rfl
    | str s => exact parsePrec_asks (hs s rfl)
  have hi : (0 < batch ∧ e0.batch = batch ∧ e0.nnet.neurons = []) ∧ e0.prec = wanted prec ∧ e0.nnet.prec = wanted prec ∧ e0.accelerator = acc ∧
      e0.nnet.solver = (if acc = some "GPU" then .cuda else if acc = some "basic" then .basic else .python) ∧
      e0.nnet.inputs = inputs ∧ e0.nnet.outputs = outputs ∧ e0.nnet.norm = norm.getD (50 * env.eps (wanted prec)) := by
    unfold ELM.init at h0
    obtain ⟨_, hb, h0⟩ := bind_ok h0
    have hb := pyAssert_ok hb
    simp only [decide_eq_true_eq] at hb
    have h0 : Except.ok (ELM.mk
        (NNet.init env (if acc = some "GPU" then .cuda else if acc = some "basic" then .basic else .python) inputs outputs norm (parsePrec prec))
        batch (parsePrec prec) acc (if lower cls ∈ ["c", "wc", "ml", "mc"] then some (if cls = "mc" then "ml" else cls) else none)
        (w.map (List.map some)) false none) = (Except.ok e0 : Except PyErr _) := by
      simp only at h0
      cases w with
      | none => exact h0
      | some w =>
        obtain ⟨_, _, h0⟩ := bind_ok h0
        exact h0
    injection h0 with h0
    rw [← h0]
    refine ⟨⟨hb, rfl, rfl⟩, hp, hp, rfl, rfl, rfl, rfl, ?_⟩
    simp only [NNet.init, hp]
    cases norm <;> rfl
  have hrun : ∀ (ops : List (Op K)) (e0 : ELM K), e0.run env fs ops = .ok e → e0.nnet.prec = e0.prec →
      e.prec = e0.prec ∧ e.nnet.prec = e0.prec ∧ e.accelerator = e0.accelerator ∧
      ((∀ op ∈ ops, isLoad op = false) → e.nnet.solver = e0.nnet.solver ∧ e.nnet.inputs = e0.nnet.inputs ∧
        e.nnet.outputs = e0.nnet.outputs ∧ e.nnet.norm = e0.nnet.norm) := by
    intro ops
    induction ops with
    | nil => intro e0 h hp; injection h with h; rw [h] at hp ⊢; exact ⟨rfl, hp, rfl, fun _ => ⟨rfl, rfl, rfl, rfl⟩⟩
    | cons op ops ih =>
      intro e0 h hp
      unfold ELM.run at h
      obtain ⟨e1, h1, h⟩ := bind_ok h
      obtain ⟨s1, s2, s3, s4⟩ := step_options h1
      obtain ⟨i1, i2, i3, i4⟩ := ih e1 h ((s3 hp).trans s1.symm)
      refine ⟨i1.trans s1, i2.trans s1, i3.trans s2, fun hl => ?_⟩
      obtain ⟨a1, a2, a3, a4⟩ := i4 fun o ho => hl o (List.mem_cons_of_mem _ ho)
      obtain ⟨b1, b2, b3, b4⟩ := s4 (hl op List.mem_cons_self)
      exact ⟨a1.trans b1, a2.trans b2, a3.trans b3, a4.trans b4⟩
  obtain ⟨hn, p1, p2, p3, p4, p5, p6, p7⟩ := hi
  obtain ⟨r1, r2, r3, r4⟩ := hrun ops e0 h (p2.trans p1.symm)
  refine ⟨hn, ⟨r1.trans p1, r2.trans p1, r3.trans p3⟩, fun hl => ?_⟩
  obtain ⟨a1, a2, a3, a4⟩ := r4 hl
  exact ⟨a1.trans p4, a2.trans p5, a3.trans p6, a4.trans p7⟩

/-- `load` is documented to keep the solver type of the loading object; a model with the default solver gets the basic one. -/
theorem C90_load_solver_refuted :
    ¬ ∀ (e e' : ELM ℚ) (m : Saved ℚ), e.accelerator = none → e.load QEnv.env m = .ok e' → e'.nnet.solver = e.nnet.solver := by
  intro h
  let e : ELM ℚ := { nnet := NNet.init QEnv.env .python 2 1 none .double, batch := 10, prec := .double, accelerator := none,
                     classification := none, wc := none, rankingOP := false, kmaxOp := none }
  have := h e { e with nnet := NNet.init QEnv.env .basic 2 1 none .double } e.saved rfl (by decide +kernel)
  revert this
  decide +kernel

/-- The documented spellings of the precision satisfy the hypothesis, and both precisions occur. -/
example : (∀ s ∈ ["double", "Double", "float64", "single", "float32", "DOUBLE", "numpy.float32", "anything"],
      Mentions s "single" → "single".toList <:+: s.toList) ∧
    asksFor "single" = .single ∧ asksFor "numpy.float32" = .single ∧ asksFor "DOUBLE" = .double ∧ asksFor "anything" = .double := by
  decide +kernel

/-- A new model with an own precision, solver and norm, for the example. -/
def exOptions : ELM ℚ :=
  { nnet := NNet.init QEnv.env .basic 1 1 (some 2) .single, batch := 3, prec := .single, accelerator := some "basic"
    classification := none, wc := none, rankingOP := false, kmaxOp := none }

/-- A history with every kind of option: single precision, the basic solver, an own norm, then neurons and training data. -/
example : ELM.init QEnv.env 1 1 "" none 3 (some "basic") (.str "single") (some 2) = .ok exOptions ∧
    (exOptions.run QEnv.env (fun _ => none)
      [.addNeurons (fun _ => ⟨1, []⟩) (fun _ => []) 1 1 (.name "lin") (some ⟨1, [[2]]⟩) (some [1]),
       .addData ⟨1, [[1], [2]]⟩ ⟨1, [[1], [3]]⟩]).toOption.map
        (fun e => (e.nnet.corr.isSome, e.nnet.prec, e.nnet.solver, e.nnet.norm)) = some (true, .single, .basic, 2) := by
  decide +kernel

end Hpelm.Props
