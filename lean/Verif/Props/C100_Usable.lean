import Verif.Props.C86_Weighted
import Verif.Props.C06_C08_Structure
import Verif.Props.C90_Options
import Verif.Spec.Usable

/-!
# C100: documented calls work
-/

set_option linter.unusedSectionVars false

namespace Hpelm.Props
open Hpelm Spec Finset
variable {K : Type} [Field K] [LinearOrder K] [IsStrictOrderedRing K]

theorem parseOne_accepts {kw : Kwargs K} {args : List String} {o : Nat} (hk : ∀ a ∈ kindFlags, Given args a → 1 < o)
    (hw : Given args "WC" → ∀ ws, kw.w = some ws → ws.length = o) {a : String} (ha : a ∈ args.map upper) {e : ELM K} (he : e.nnet.outputs = o) :
    (parseOne kw e a).2 = .ok () ∧ (parseOne kw e a).1.nnet.outputs = o := by
  have g : ∀ s, a = s → Given args s := fun s h => h ▸ ha
  unfold parseOne
  split_ifs with h1 h2 h3 h4 h5 h6 h7 h8
  · exact ⟨rfl, he⟩
  · exact ⟨rfl, he⟩
  · exact absurd (hk "C" (by decide) (g _ h2)) (by omega)
  · cases hkw : kw.w with
    | none => exact ⟨rfl, he⟩
    | some w => simp only [he, hw (g _ h4) w hkw, if_true, true_and]
  · exact absurd (hk "WC" (by decide) (g _ h4)) (by omega)
  · exact ⟨rfl, he⟩
  · rcases h6 with h | h
    · exact absurd (hk "ML" (by decide) (g _ h)) (by omega)
    · exact absurd (hk "MC" (by decide) (g _ h)) (by omega)
  · exact ⟨rfl, he⟩
  · exact ⟨rfl, he⟩

theorem parseLoop_accepts {kw : Kwargs K} {args : List String} {o : Nat} (hk : ∀ a ∈ kindFlags, Given args a → 1 < o)
    (hw : Given args "WC" → ∀ ws, kw.w = some ws → ws.length = o) (as : List String) (ha : ∀ a ∈ as, a ∈ args.map upper) {e : ELM K}
    (he : e.nnet.outputs = o) : ∃ e1, parseLoop kw as e = (e1, .ok ()) := by
  induction as generalizing e with
  | nil => exact ⟨e, rfl⟩
  | cons a as ih =>
    obtain ⟨h1, h2⟩ := parseOne_accepts hk hw (ha a (by simp)) he
    obtain ⟨e1, h3⟩ := ih (fun b hb => ha b (by simp [hb])) h2
    refine ⟨e1, ?_⟩
    unfold parseLoop
    have : parseOne kw e a = ((parseOne kw e a).1, .ok ()) := by rw [← h1]
    rw [this]
    exact h3

theorem atMostOne_of {args : List String} : ∀ {s : List String}, s.Nodup → (∀ a ∈ s, ∀ b ∈ s, a ∈ args → b ∈ args → a = b) → atMostOne args s = true := by
  intro s hn h
  unfold atMostOne
  by_contra hc
  simp only [decide_eq_true_eq, not_le] at hc
  have hn' : (s.filter (· ∈ args)).Nodup := hn.filter _
  obtain ⟨a, b, l, e⟩ : ∃ a b l, s.filter (· ∈ args) = a :: b :: l := by
    rcases hl : s.filter (· ∈ args) with _ | ⟨a, _ | ⟨b, l⟩⟩
    · rw [hl] at hc; simp at hc
    · rw [hl] at hc; simp at hc
    · exact ⟨a, b, l, rfl⟩
  have ma : a ∈ s.filter (· ∈ args) := by rw [e]; simp
  have mb : b ∈ s.filter (· ∈ args) := by rw [e]; simp
  simp only [List.mem_filter, decide_eq_true_eq] at ma mb
  have := h a ma.1 b mb.1 ma.2 mb.2
  rw [e, this] at hn'
  simp at hn'

/-- The options of a documented call are accepted. -/
theorem documented_accepted {X T : Mat K} {args : List String} {kw : Kwargs K} {e : ELM K} (h : Documented e.nnet.inputs e.nnet.outputs X T args kw)
    (hne : e.nnet.neurons ≠ []) : ∃ e1, e.parseArgs args kw = (e1, .ok ()) := by
  obtain ⟨e1, he1⟩ := parseLoop_accepts (kw := kw) (args := args) (o := e.nnet.outputs) h.classes (by
      intro hg ws hws
      rcases (h.weighted hg).2 with ⟨ws', a, b, _⟩ | ⟨a, _⟩
      · rw [hws] at a; injection a with a; rw [a]; exact b
      · rw [hws] at a; cases a) (args.map upper) (fun _ h => h)
    (e := { e with nnet := e.nnet.reset, rankingOP := false, kmaxOp := none, classification := none, wc := none }) rfl
  have m1 : atMostOne (args.map upper) ["V", "CV", "LOO"] = true := by
    apply atMostOne_of (by decide)
    intro a ha b hb h1 h2
    obtain ⟨p1, p2, p3⟩ := h.plain
    simp only [List.mem_cons, List.not_mem_nil, or_false] at ha
    rcases ha with rfl | rfl | rfl
    · exact absurd h1 p1
    · exact absurd h1 p2
    · exact absurd h1 p3
  have m2 : atMostOne (args.map upper) ["C", "WC", "ML", "MC"] = true :=
    atMostOne_of (by decide) fun a ha b hb h1 h2 => h.one_kind a ha b hb h1 h2
  refine ⟨match kw.batch with | some b => { e1 with batch := b } | none => e1, ?_⟩
  unfold ELM.parseArgs
  rw [if_neg (by simpa using hne)]
  simp only [m1, m2, Bool.not_true, Bool.false_eq_true, if_false]
  rw [he1]
  rfl

theorem parseArgs_kinds {kw : Kwargs K} {args : List String} {e e1 : ELM K} (h : e.parseArgs args kw = (e1, .ok ())) :
    e1.classification = none ∨ e1.classification = some "c" ∨ e1.classification = some "wc" ∨ e1.classification = some "ml" := by
  refine parseArgs_inv h (fun e => e.classification = none ∨ e.classification = some "c" ∨ e.classification = some "wc" ∨ e.classification = some "ml")
    (Or.inl rfl) (fun a _ e he hok => ?_) (fun _ _ h => h)
  unfold parseOne at hok ⊢
  split_ifs at hok ⊢
  · exact he
  · exact .inr (.inl rfl)
  · cases kw.w with
    | none => exact .inr (.inr (.inl rfl))
    | some w =>
      simp only
      split_ifs <;> exact .inr (.inr (.inl rfl))
  · exact .inr (.inr (.inr rfl))
  · exact .inl rfl
  · exact he

theorem notGiven {args : List String} {s : String} (hs : upper s = s) (h : ¬ Given args s) : s ∉ args :=
  fun hm => h (List.mem_map.2 ⟨s, hm, hs⟩)

/-- Training, predicting and measuring the error, for a network of documented neurons. -/
theorem usable_core (env : Env K) (hs : Shapes env) (hx : env.Exact) (fs : Files K) (rnd : Rnd) (e : ELM K) (X T : Mat K) (args : List String)
    (kw : Kwargs K) (hsq : Given args "WC" → ∀ x : K, 0 ≤ x → env.sqrt x * env.sqrt x = x) (hcon : Consistent e.nnet)
    (hnamed : NamedTypes e.nnet) (hne : e.nnet.neurons ≠ []) (hb0 : 0 < e.batch)
    (h : Documented e.nnet.inputs e.nnet.outputs X T args kw) :
    ∃ e', e.train env fs rnd (.mat X) (.mat T) args kw = (.ok none, e') ∧
      ∀ X' : Mat K, X'.cols = e.nnet.inputs → ∃ Y, e'.predict env fs (.mat X') = .ok Y ∧ Y.WF ∧ Y.nrows = X'.nrows ∧ Y.cols = e.nnet.outputs ∧
        ∀ T' : Mat K, T'.WF → T'.cols = e.nnet.outputs → T'.nrows = X'.nrows → 0 < X'.nrows →
          ∃ v, e'.error fs (.mat T') (.mat Y) = .ok v ∧ 0 ≤ v := by
  obtain ⟨e1, hpa⟩ := documented_accepted h hne
  obtain ⟨q1, q2, q3, q4, q5⟩ := parseArgs_kw hpa
  obtain ⟨w1, w2⟩ := parseArgs_wc hpa
  have hkind := parseArgs_kinds hpa
  have hb1 : 0 < e1.batch := by
    rw [q3]
    cases hk : kw.batch with
    | none => exact hb0
    | some b => exact h.batch b hk
  have hcon1 : Consistent e1.nnet := by rw [q2]; exact reset_consistent hcon
  have hcorr : e1.nnet.corr = none := by rw [q2]; rfl
  have ho1 : e1.nnet.outputs = e.nnet.outputs := by rw [q2]; rfl
  have hproj : ∀ X', e1.nnet.project env X' = e.nnet.project env X' := fun X' => by rw [q2]; rfl
  have hp : ∀ X' : Mat K, X'.cols = e.nnet.inputs → ∃ H, e.nnet.project env X' = .ok H := fun X' hX' =>
    ⟨_, project_isOk env e.nnet X' hcon hX' (named_act hnamed) hne⟩
  obtain ⟨H, hH⟩ := hp X h.inputs
  obtain ⟨_, n2, n3⟩ := project_WF hcon hH
  have hL : e1.nnet.L.getD 0 = H.cols := by rw [size_L hcon1, n3, q2]; rfl
  have hone : e1.classification = some "wc" → OneHot T := fun hc => (h.weighted (w1 hc)).1
  have hwt : e1.wc = none ∨ ∃ ws : List K, e1.wc = some (ws.map some) ∧ (∀ x ∈ ws, 0 ≤ x) ∧ ws.length = T.cols := by
    rcases q1 with a | ⟨ws, a, b⟩
    · exact Or.inl a
    · rcases w2 with w2 | ⟨ws', c, d⟩
      · exact Or.inl w2
      · refine Or.inr ⟨ws, b, h.weights ws a, ?_⟩
        rw [b] at c
        injection c with c
        have := congrArg List.length c
        simp only [List.length_map] at this
        rw [this, d, h.outputs]
  obtain ⟨e2, he2⟩ := addData_total (T := T) hx hb1 h.rows h.some_row (by rw [hproj]; exact hH) hcorr hL (by rw [ho1]; exact h.outputs) hone (by
      rcases hwt with hw | ⟨ws, a, _, b⟩
      · exact Or.inl hw
      · exact Or.inr ⟨ws, a, b⟩)
  obtain ⟨S, HT, w, a1, a2, a3, a4, a5⟩ := addData_isCorr hx (fun hc => hsq (w1 hc)) hb1 h.rows h.targets hcorr hone hwt
    (by rw [hproj]; exact hH) he2
  have hcorr2 : e2.nnet.corr = some (e1.nnet.store S, HT) := by rw [a2]
  have hsolve : e2.nnet.solve env = .ok { e2.nnet with B := some (e2.nnet.solveCorr env (e1.nnet.store S) HT) } := by
    unfold NNet.solve; rw [hcorr2]; simp only [hcorr2]
  refine ⟨{ e2 with nnet := { e2.nnet with B := some (e2.nnet.solveCorr env (e1.nnet.store S) HT) } }, ?_, ?_⟩
  · have hchk : checkBoth fs e.nnet (.mat X) (.mat T) = .ok (X, T) := by
      unfold checkBoth checkData checkOne pyAssert
      simp [h.inputs, h.outputs, h.rows, bind, Except.bind, pure, Except.pure]
    obtain ⟨p1, p2, p3⟩ := h.plain
    unfold ELM.train
    rw [hchk]
    simp only
    rw [hpa]
    simp only
    unfold ELM.trainBody
    rw [if_neg (notGiven (by decide) p1), if_neg (notGiven (by decide) p2), if_neg (notGiven (by decide) p3), he2]
    simp only [bind, Except.bind, hsolve]
    rfl
  · intro X' hX'
    obtain ⟨H', hH'⟩ := hp X' hX'
    obtain ⟨m1, m2, m3⟩ := project_WF hcon hH'
    have hst : (e1.nnet.store S).WF := by
      unfold NNet.store
      split
      · exact Mat.ofFn_WF _ _ _
      · exact a5.wfS
    obtain ⟨b1, b2, b3⟩ := solveCorr_shape hs e2.nnet hst a5.wfT (by rw [store_nrows, store_cols, a5.rowsS, a5.colsS])
      (by rw [store_nrows, a5.rowsT, a5.rowsS])
    set B := e2.nnet.solveCorr env (e1.nnet.store S) HT with hB
    rw [store_cols, a5.colsS] at b2
    rw [a5.colsT, h.outputs] at b3
    have hin2 : e2.nnet.inputs = e.nnet.inputs := by rw [a2]; show e1.nnet.inputs = _; rw [q2]; rfl
    have hout2 : e2.nnet.outputs = e.nnet.outputs := by rw [a2]; exact ho1
    have hpr2 : e2.nnet.project env X' = .ok H' := by rw [a2]; show e1.nnet.project env X' = _; rw [hproj]; exact hH'
    have hpr3 : NNet.project env { e2.nnet with B := some B } X' = .ok H' := hpr2
    refine ⟨H'.mul B, ?_, Mat.mul_WF _ _, by simp [m2], by simpa using b3, ?_⟩
    · unfold ELM.predict checkOne pyAssert
      have hX2 : X'.cols = e2.nnet.inputs := by rw [hX', hin2]
      simp only [hX2, decide_true, if_true, bind, Except.bind, pure, Except.pure]
      show NNet.predict env { e2.nnet with B := some B } X' = _
      have hpre : ∀ n : NNet K, n.B = some B → n.project env X' = .ok H' → n.predict env X' = .ok (H'.mul B) := by
        intro n k1 k2
        unfold NNet.predict
        simp only [k1, k2, bind, Except.bind, pure, Except.pure]
        rw [if_neg (by rw [m3, b2, n3]; simp)]
      exact hpre _ rfl hpr3
    · intro T' t1 t2 t3 t4
      have hcls : e2.classification = e1.classification := by rw [a2]; exact autoWc_cls env e1 _
      have hwc2 : e2.wc = (e1.autoWc env (colSums T)).wc := by rw [a2]
      have hbt : e2.batch = e1.batch := by rw [a2]; exact autoWc_batch env e1 _
      have hfit : Fits { e2 with nnet := { e2.nnet with B := some B } } T' (H'.mul B) :=
        ⟨t1, Mat.mul_WF _ _, by simp [m2, t3], by simpa [hout2] using t2, by simpa [hout2] using b3, by simpa [hout2] using h.some_output⟩
      rcases hkind with hk | hk | hk | hk
      · obtain ⟨v, c1, _, c2, _⟩ := C28_regression_error fs _ T' _ hfit (by omega) (by rw [← hk, ← hcls])
        exact ⟨v, c1, c2⟩
      · obtain ⟨v, _, c1, _, _, c2, _⟩ := C27_classification_error fs _ T' _ hfit (by show 0 < e2.batch; rw [hbt]; exact hb1) (by omega) (by rw [← hk, ← hcls])
        exact ⟨v, c1, c2⟩
      · have hg := w1 hk
        have huse : ∃ ws : List K, e2.wc = some (ws.map some) ∧ (∀ x ∈ ws, 0 ≤ x) ∧ (∃ x ∈ ws, x ≠ 0) ∧ ws.length = e.nnet.outputs := by
          rw [hwc2]
          rcases (h.weighted hg).2 with ⟨ws, c1, c2, c3⟩ | ⟨c1, c2⟩
          · obtain ⟨_, d⟩ := parseArgs_given c1 hg hpa
            exact ⟨ws, autoWc_some d, h.weights ws c1, c3, c2⟩
          · obtain ⟨ws, d1, d2, d3⟩ := autoWc_usable hx hk (h.weighted hg).1 (Or.inr ⟨parseArgs_auto hpa c1, by rw [h.outputs]; exact c2⟩)
            have hw0 : ws ≠ [] := by
              intro h0
              rw [h0, h.outputs] at d3
              have := h.some_output
              simp only [List.length_nil] at d3
              omega
            obtain ⟨x, l, rfl⟩ := List.exists_cons_of_ne_nil hw0
            exact ⟨_, d1, fun y hy => zero_le_one.trans (d2 y hy), ⟨x, by simp, fun h0 => absurd (d2 x (by simp)) (by rw [h0]; exact not_le.2 zero_lt_one)⟩,
              by rw [d3, h.outputs]⟩
        obtain ⟨ws, d1, d2, d3, d4⟩ := huse
        obtain ⟨v, c1, _, c2, _⟩ := C29_weighted_error fs _ T' _ ws hfit (by rw [← hk, ← hcls]) d1 (by rw [d4]; exact hout2.symm) d2 d3
        exact ⟨v, c1, c2⟩
      · obtain ⟨v, c1, _, c2, _⟩ := C28_multilabel_error fs _ T' _ hfit (by omega) (by rw [← hk, ← hcls])
        exact ⟨v, c1, c2⟩

/-- C100.  A model is created and gets neurons of the documented types, in any history of successful calls.  Then every documented training call
without structure selection completes (its batch size is positive); after it every data set with the right number of features can be predicted, with one
row per sample and one column per output, and the error against any targets of that shape is a number that is not negative. -/
theorem C100_documented_calls_work (env : Env K) (hs : Shapes env) (hx : env.Exact) (fs : Files K) (rnd : Rnd) {inputs outputs : Nat} {cls : String}
    {w : Option (List K)} {batch : Int} {acc : Option String} {prec : PrecArg} {norm : Option K} {e0 e : ELM K}
    (h0 : ELM.init env inputs outputs cls w batch acc prec norm = .ok e0)
    (ops : List (Op K)) (ha : ∀ op ∈ ops, ArgsOk acc op) (ho : ∀ op ∈ ops, NamedOp op)
    (hadd : ∃ rW rB sq k f W B, Op.addNeurons rW rB sq k f W B ∈ ops) (h : e0.run env fs ops = .ok e) (hb : 0 < e.batch)
    (X T : Mat K) (args : List String) (kw : Kwargs K) (hd : Documented inputs outputs X T args kw)
    (hsq : Given args "WC" → ∀ x : K, 0 ≤ x → env.sqrt x * env.sqrt x = x) :
    ∃ e', e.train env fs rnd (.mat X) (.mat T) args kw = (.ok none, e') ∧
      ∀ X' : Mat K, X'.cols = inputs → ∃ Y, e'.predict env fs (.mat X') = .ok Y ∧ Y.WF ∧ Y.nrows = X'.nrows ∧ Y.cols = outputs ∧
        ∀ T' : Mat K, T'.WF → T'.cols = outputs → T'.nrows = X'.nrows → 0 < X'.nrows →
          ∃ v, e'.error fs (.mat T') (.mat Y) = .ok v ∧ 0 ≤ v := by
  have hinit : e0.accelerator = acc ∧ e0.nnet.neurons = [] ∧ e0.nnet.inputs = inputs ∧ e0.nnet.outputs = outputs := by
    unfold ELM.init at h0
    obtain ⟨_, _, h0⟩ := bind_ok h0
    simp only at h0
    split at h0
    · obtain ⟨_, _, h0⟩ := bind_ok h0
      injection h0 with h0
      rw [← h0]
      exact ⟨rfl, rfl, rfl, rfl⟩
    · injection h0 with h0
      rw [← h0]
      exact ⟨rfl, rfl, rfl, rfl⟩
  obtain ⟨i1, i2, i3, i4⟩ := hinit
  obtain ⟨r1, r2, r3, r4⟩ := run_named hs ops i1 (elmInit_consistent h0) (by intro g hg; rw [i2] at hg; cases hg) ha ho h
  have hout : ∀ (ops : List (Op K)) (e0 : ELM K), (∀ op ∈ ops, NamedOp op) → e0.run env fs ops = .ok e → e.nnet.outputs = e0.nnet.outputs := by
    intro ops
    induction ops with
    | nil => intro e0 _ h; injection h with h; rw [h]
    | cons op ops ih =>
      intro e0 ho h
      obtain ⟨e1, h1, h⟩ := bind_ok h
      rw [ih e1 (fun o hm => ho o (List.mem_cons_of_mem _ hm)) h]
      refine ((step_options h1).2.2.2 ?_).2.2.1
      have := ho op List.mem_cons_self
      cases op with
      | load m => exact this.elim
      | _ => rfl
  have e1 : e.nnet.inputs = inputs := r3.trans i3
  have e2 : e.nnet.outputs = outputs := (hout ops e0 ho h).trans i4
  have := usable_core env hs hx fs rnd e X T args kw hsq r2 r1 (r4 (Or.inr hadd)) hb (by rw [e1, e2]; exact hd)
  rw [e1, e2] at this
  exact this

/-- The hypotheses of `C100_documented_calls_work` are met by a model with two linear and one sigmoid neuron over the real numbers, trained for weighted
classification with automatic weights. -/
example : ∃ (e0 e : ELM ℝ) (ops : List (Op ℝ)), ELM.init realEnv 2 2 "" none 100 none (.np .double) none = .ok e0 ∧ (∀ op ∈ ops, ArgsOk none op) ∧
    (∀ op ∈ ops, NamedOp op) ∧ (∃ rW rB sq k f W B, Op.addNeurons rW rB sq k f W B ∈ ops) ∧ e0.run realEnv (fun _ => none) ops = .ok e ∧
    0 < e.batch ∧ Documented 2 2 (⟨2, [[1, 0], [0, 1], [2, 3]]⟩ : Mat ℝ) ⟨2, [[1, 0], [0, 1], [1, 0]]⟩ ["wc"] {} ∧
    Shapes realEnv ∧ realEnv.Exact ∧ ∀ x : ℝ, 0 ≤ x → realEnv.sqrt x * realEnv.sqrt x = x := by
  have hwf : (⟨2, [[1, 0], [0, 1]]⟩ : Mat ℝ).WF ∧ (⟨2, [[1, -1]]⟩ : Mat ℝ).WF ∧ (⟨2, [[1, 0], [0, 1], [1, 0]]⟩ : Mat ℝ).WF := by
    refine ⟨?_, ?_, ?_⟩ <;> intro r hr <;> simp only [List.mem_cons, List.not_mem_nil, or_false] at hr
    · rcases hr with rfl | rfl <;> rfl
    · subst hr; rfl
    · rcases hr with rfl | rfl | rfl <;> rfl
  refine ⟨_, _, [.addNeurons (fun _ => ⟨2, []⟩) (fun _ => []) 0 2 (.name "lin") (some ⟨2, [[1, 0], [0, 1]]⟩) (some [0, 0]),
    .addNeurons (fun _ => ⟨2, []⟩) (fun _ => []) 0 1 (.name "sigm") (some ⟨2, [[1, -1]]⟩) (some [1])], rfl, ?_, ?_, ?_, rfl, by decide, ?_,
    (lawEnv_lawful _).toShapes, lawEnv_exact _, fun x hx => Real.mul_self_sqrt hx⟩
  · intro op hop
    simp only [List.mem_cons, List.not_mem_nil, or_false] at hop
    rcases hop with rfl | rfl
    · exact ⟨(fun m r hr => nomatch hr), by rintro M ⟨⟩; exact hwf.1⟩
    · exact ⟨(fun m r hr => nomatch hr), by rintro M ⟨⟩; exact hwf.2.1⟩
  · intro op hop
    simp only [List.mem_cons, List.not_mem_nil, or_false] at hop
    rcases hop with rfl | rfl <;> exact ⟨_, rfl⟩
  · exact ⟨_, _, _, _, _, _, _, List.mem_cons_self⟩
  · have g : ∀ s, Given ["wc"] s ↔ s = "WC" := by
      intro s
      simp only [Given, List.map_cons, List.map_nil, List.mem_singleton]
      exact Eq.congr_right (by decide +kernel)
    refine ⟨rfl, rfl, by decide, rfl, by decide, hwf.2.2, by simp, by simp only [g]; decide, ?_, by simp, by simp, ?_⟩
    · intro a _ b _ h1 h2
      rw [(g a).1 h1, (g b).1 h2]
    · intro _
      refine ⟨exOneHot, Or.inr ⟨rfl, ?_⟩⟩
      intro k hk
      have : k = 0 ∨ k = 1 := by omega
      rcases this with rfl | rfl
      · exact ⟨[1, 0], by simp, isClass_two.1⟩
      · exact ⟨[0, 1], by simp, isClass_two.2⟩

end Hpelm.Props
