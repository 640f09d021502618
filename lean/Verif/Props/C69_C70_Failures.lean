import Verif.Lemmas.FailSelect
import Verif.Lemmas.Core
import Verif.Props.C01_Bookkeeping
import Verif.Props.C09_C13_Batches
import Verif.Props.C52_C54_Persistence

/-!
# C69, C70 — calls that raise

Histories in which the user catches exceptions and goes on (`ELM.runS`, Verif/Model/Failures.lean).
-/

namespace Hpelm.Props
open Hpelm Spec
variable {K : Type} [Field K] [LinearOrder K]

theorem trainS_ok {env : Env K} {fs rnd} {e e' : ELM K} {X T : DataArg K} {args kw r} (hc : Consistent e.nnet)
    (h : e.train env fs rnd X T args kw = (.ok r, e')) : e.trainS env fs rnd X T args kw = (some e', .ok ()) := by
  unfold ELM.train at h
  unfold ELM.trainS
  cases h1 : checkBoth fs e.nnet X T with
  | error x => rw [h1] at h; cases h
  | ok p =>
    obtain ⟨X, T⟩ := p
    rw [h1] at h
    simp only at h ⊢
    cases h2 : e.parseArgs args kw with
    | mk e1 r1 =>
      rw [h2] at h
      cases r1 with
      | error x => cases h
      | ok u =>
        simp only at h ⊢
        cases h3 : e1.trainBody env fs rnd X T args kw with
        | error x => rw [h3] at h; cases h
        | ok q =>
          obtain ⟨r', e2⟩ := q
          rw [h3] at h
          injection h with _ h
          rw [trainBodyS_of_ok (parseArgs_consistent hc h2) h3, h]
          rfl

/-- What the state after an exception looks like, for every call but `load`. -/
theorem stepS_error {env : Env K} {fs : Files K} {e e' : ELM K} {op : Op K} {x} (hc : Consistent e.nnet)
    (hl : ∀ m, op ≠ .load m) (h : e.stepS env fs op = (some e', .error x)) :
    Kept e e' ∧ (e'.batch = e.batch ∨ ∃ rnd X T args kw, op = .train rnd X T args kw ∧ kw.batch = some e'.batch) := by
  have same : ∀ r : Except PyErr (ELM K), (some (orElseSame e r).1, (orElseSame e r).2) = (some e', Except.error x) → e' = e := by
    intro r hr
    cases r with
    | ok e1 => injection hr with _ hr; cases hr
    | error y => injection hr with hr _; injection hr with hr; exact hr.symm
  cases op with
  | addData X T =>
    obtain ⟨rfl, _⟩ := known_some h
    have hs := addDataS_same env e X T
    exact ⟨hs.kept, Or.inl hs.batch⟩
  | addBatch X T wc =>
    injection h with h _
    injection h with h
    rw [← h]
    exact ⟨SameModel.kept ⟨addBatchS_same _ _ _ _ _, rfl, rfl, rfl, rfl⟩, Or.inl rfl⟩
  | train rnd X T args kw =>
    simp only [ELM.stepS, ELM.trainS] at h
    cases h1 : checkBoth fs e.nnet X T with
    | error y =>
      rw [h1] at h
      injection h with h _
      injection h with h
      rw [← h]; exact ⟨Kept.rfl' _, Or.inl rfl⟩
    | ok p =>
      obtain ⟨X', T'⟩ := p
      rw [h1] at h
      simp only at h
      have hk := parseArgs_kept kw args e
      have hbat : (e.parseArgs args kw).1.batch = e.batch ∨ kw.batch = some (e.parseArgs args kw).1.batch := by
        unfold ELM.parseArgs
        split
        · exact Or.inl rfl
        simp only
        split
        · exact Or.inl rfl
        split
        · exact Or.inl rfl
        have hloop : ∀ (as : List String) (f : ELM K), (parseLoop kw as f).1.batch = f.batch := by
          intro as
          induction as with
          | nil => intro f; rfl
          | cons a as ih =>
            intro f
            have hone : (parseOne kw f a).1.batch = f.batch := by
              unfold parseOne
              split
              · rfl
              split
              · split <;> rfl
              split
              · split
                · simp only
                  split
                  · rfl
                  · split <;> rfl
                · rfl
              split
              · split <;> rfl
              split <;> rfl
            unfold parseLoop
            cases hp : parseOne kw f a with
            | mk g r =>
              rw [hp] at hone
              cases r with
              | error y => exact hone
              | ok u => exact (ih g).trans hone
        have hl := hloop (args.map upper) { e with nnet := e.nnet.reset, rankingOP := false, kmaxOp := none, classification := none, wc := none }
        revert hl
        cases parseLoop kw (args.map upper) _ with
        | mk g r =>
          intro hl
          cases r with
          | error y => exact Or.inl hl
          | ok u =>
            simp only
            cases hkb : kw.batch with
            | none => exact Or.inl hl
            | some b => exact Or.inr rfl
      cases h2 : e.parseArgs args kw with
      | mk e1 r1 =>
        rw [h2] at h hk hbat
        simp only at hk hbat
        have fin : Kept e e1 ∧ (e1.batch = e.batch ∨ kw.batch = some e1.batch) := ⟨hk, hbat⟩
        have fin2 : ∀ e2, Kept e1 e2 → e2.batch = e1.batch → e' = e2 → Kept e e' ∧ (e'.batch = e.batch ∨
            ∃ rnd' X' T' args' kw', Op.train rnd X T args kw = .train rnd' X' T' args' kw' ∧ kw'.batch = some e'.batch) := by
          intro e2 k hb2 he
          rw [he]
          refine ⟨hk.trans k, ?_⟩
          rw [hb2]
          rcases hbat with hb | hb
          · exact Or.inl hb
          · exact Or.inr ⟨rnd, X, T, args, kw, rfl, hb⟩
        cases r1 with
        | error y =>
          injection h with h _
          injection h with h
          exact fin2 e1 (Kept.rfl' _) rfl h.symm
        | ok u =>
          simp only at h
          obtain ⟨_, hTo, hN⟩ := checkBoth_ok h1
          obtain ⟨h, hr⟩ := known_some h
          obtain ⟨k1, k2⟩ := trainBodyS_error (parseArgs_consistent hc h2) hN (by rw [hk.outputs]; exact hTo) (Prod.ext rfl hr.symm)
          exact fin2 _ k1 k2 h
  | load m => exact absurd rfl (hl m)
  | addNeurons _ _ _ _ _ _ _ => rw [same _ h]; exact ⟨Kept.rfl' _, Or.inl rfl⟩
  | reset => rw [same _ h]; exact ⟨Kept.rfl' _, Or.inl rfl⟩
  | prune _ => rw [same _ h]; exact ⟨Kept.rfl' _, Or.inl rfl⟩
  | setB _ => rw [same _ h]; exact ⟨Kept.rfl' _, Or.inl rfl⟩
  | setCorr _ _ => rw [same _ h]; exact ⟨Kept.rfl' _, Or.inl rfl⟩
  | solve => rw [same _ h]; exact ⟨Kept.rfl' _, Or.inl rfl⟩

theorem stepS_consistent {env : Env K} (hs : Shapes env) {fs : Files K} {e e' : ELM K} {op : Op K} {r}
    (hc : Consistent e.nnet) (ha : ArgsOk e.accelerator op) (h : e.stepS env fs op = (some e', r)) :
    Consistent e'.nnet ∧ e'.accelerator = e.accelerator := by
  have same : ∀ op, ArgsOk e.accelerator op →
      (some (orElseSame e (e.step env fs op)).1, (orElseSame e (e.step env fs op)).2) = (some e', r) →
      Consistent e'.nnet ∧ e'.accelerator = e.accelerator := by
    intro op ha hr
    cases h1 : e.step env fs op with
    | ok e1 =>
      rw [h1] at hr
      injection hr with hr _
      injection hr with hr
      rw [← hr]
      exact step_consistent hs hc ha h1
    | error y =>
      rw [h1] at hr
      injection hr with hr _
      injection hr with hr
      rw [← hr]
      exact ⟨hc, rfl⟩
  cases op with
  | addData X T =>
    obtain ⟨rfl, _⟩ := known_some h
    exact ⟨addDataS_consistent hc, (addDataS_same env e X T).accelerator⟩
  | addBatch X T wc =>
    injection h with h _
    injection h with h
    rw [← h]
    exact ⟨addBatchS_consistent hc, rfl⟩
  | train rnd X T args kw =>
    simp only [ELM.stepS, ELM.trainS] at h
    split at h
    · injection h with h _
      injection h with h
      rw [← h]; exact ⟨hc, rfl⟩
    · have hk := (parseArgs_frame kw args e).accelerator
      split at h
      · rename_i e1 _ hp
        injection h with h _
        injection h with h
        rw [hp] at hk
        rw [← h]; exact ⟨parseArgs_consistent hc hp, hk⟩
      · rename_i X' T' _ _ e1 hp
        rw [hp] at hk
        obtain ⟨h, _⟩ := known_some h
        rw [h]
        obtain ⟨h1, h2⟩ := trainBodyS_consistent (env := env) hs (fs := fs) (rnd := rnd) (X := X') (T := T') (args := args) (kw := kw) (parseArgs_consistent hc hp)
        exact ⟨h1, h2.trans hk⟩
  | load m =>
    simp only [ELM.stepS] at h
    split at h
    · rename_i e1 hok
      injection h with h _
      injection h with h
      rw [← h]
      exact step_consistent (op := .load m) (fs := fs) hs hc ha hok
    · injection h with h _
      injection h with h
      rw [← h]
      refine ⟨?_, rfl⟩
      have := load_consistent (env := env) (e := e) (m := { m with beta := none }) ha.1 ha.2.2 nofun rfl
      exact this
  | addNeurons _ _ _ _ _ _ _ => exact same _ ha h
  | reset => exact same _ ha h
  | prune _ => exact same _ ha h
  | setB _ => exact same _ ha h
  | setCorr _ _ => exact same _ ha h
  | solve => exact same _ ha h

/-- Successful histories are the same in both models of execution. -/
theorem C69_agrees (env : Env K) (hs : Shapes env) (fs : Files K) {e0 e : ELM K} (hc : Consistent e0.nnet)
    (ops : List (Op K)) (hops : ∀ op ∈ ops, ArgsOk e0.accelerator op) (h : e0.run env fs ops = .ok e) :
    e0.runS env fs ops = (some e, ops.map fun _ => .ok ()) := by
  induction ops generalizing e0 with
  | nil => injection h with h; rw [← h]; rfl
  | cons op ops ih =>
    obtain ⟨e1, h1, h⟩ := bind_ok h
    have ha := hops op List.mem_cons_self
    obtain ⟨c1, a1⟩ := step_consistent hs hc ha h1
    have hstep : e0.stepS env fs op = (some e1, .ok ()) := by
      cases op with
      | addData X T =>
        simp only [ELM.stepS]
        rw [addDataS_of_ok hc h1]; rfl
      | addBatch X T wc =>
        obtain ⟨n, hn, h1⟩ := bind_ok h1
        injection h1 with h1
        simp only [ELM.stepS]
        rw [addBatchS_of_ok hc hn, ← h1]
      | train rnd X T args kw =>
        simp only [ELM.step] at h1
        split at h1
        · rename_i heq
          injection h1 with h1
          rw [h1] at heq
          exact trainS_ok hc heq
        · cases h1
      | load m =>
        have h1 : e0.load env m = .ok e1 := h1
        simp only [ELM.stepS]
        rw [h1]
      | addNeurons _ _ _ _ _ _ _ => simp only [ELM.stepS]; rw [h1]; rfl
      | reset => simp only [ELM.stepS]; rw [h1]; rfl
      | prune _ => simp only [ELM.stepS]; rw [h1]; rfl
      | setB _ => simp only [ELM.stepS]; rw [h1]; rfl
      | setCorr _ _ => simp only [ELM.stepS]; rw [h1]; rfl
      | solve => simp only [ELM.stepS]; rw [h1]; rfl
    unfold ELM.runS
    rw [hstep]
    simp only [ih c1 (fun o ho => by rw [a1]; exact hops o (List.mem_cons_of_mem _ ho)) h, List.map_cons]

/-! ## C69 the model stays usable after an exception -/

/-- C69, bookkeeping.  Whatever sequence of calls is made on a newly constructed model, with any data, some of the calls raising
exceptions that the user catches: the network is consistent at the end. -/
theorem C69_consistent (env : Env K) (hs : Shapes env) (fs : Files K) {inputs outputs : Nat} {cls : String}
    {w : Option (List K)} {batch : Int} {acc : Option String} {prec : PrecArg} {norm : Option K} {e0 e : ELM K}
    (h0 : ELM.init env inputs outputs cls w batch acc prec norm = .ok e0)
    (ops : List (Op K)) (hops : ∀ op ∈ ops, ArgsOk acc op) (h : (e0.runS env fs ops).1 = some e) : Consistent e.nnet := by
  have hacc : e0.accelerator = acc := by
    unfold ELM.init at h0
    obtain ⟨_, _, h0⟩ := bind_ok h0
    simp only at h0
    split at h0
    · obtain ⟨_, _, h0⟩ := bind_ok h0
      injection h0 with h0
      rw [← h0]
    · injection h0 with h0
      rw [← h0]
  have hc := elmInit_consistent h0
  clear h0
  induction ops generalizing e0 with
  | nil => injection h with h; rw [← h]; exact hc
  | cons op ops ih =>
    unfold ELM.runS at h
    split at h
    · cases h
    · rename_i e1 r h1
      obtain ⟨c1, a1⟩ := stepS_consistent hs hc (by rw [hacc]; exact hops op List.mem_cons_self) h1
      exact ih (fun o ho => hops o (List.mem_cons_of_mem _ ho)) h (a1.trans hacc) c1

/-- C69, behaviour.  A call other than `load` that raises does not change what the model predicts, and a later `train` gives the
same result as if the failed call had never been made (same batch size assumed: a failing `train` may have stored the batch size it
was given). -/
theorem C69_failed_call (env : Env K) (fs : Files K) {e e' : ELM K} {op : Op K} {x : PyErr} (hc : Consistent e.nnet)
    (hl : ∀ m, op ≠ .load m) (h : e.stepS env fs op = (some e', .error x)) :
    (∀ X, e'.predict env fs X = e.predict env fs X) ∧
    (e'.batch = e.batch ∨ ∃ rnd X T args kw, op = .train rnd X T args kw ∧ kw.batch = some e'.batch) ∧
    ∀ rnd X T args kw, (kw.batch = none → e'.batch = e.batch) →
      (e'.train env fs rnd X T args kw).1 = (e.train env fs rnd X T args kw).1 ∧
      ∀ r, (e'.train env fs rnd X T args kw).1 = .ok r →
        (e'.train env fs rnd X T args kw).2 = (e.train env fs rnd X T args kw).2 := by
  obtain ⟨k, hb⟩ := stepS_error hc hl h
  refine ⟨?_, hb, ?_⟩
  · intro X
    have hp : ∀ M, e'.nnet.predict env M = e.nnet.predict env M := by
      intro M
      unfold NNet.predict NNet.project
      rw [k.B, k.neurons, k.inputs]
    unfold ELM.predict
    rw [k.inputs]
    simp only [hp]
  · intro rnd X T args kw hbat
    exact C13_forgets env fs rnd e' e X T args kw k.neurons k.norm k.inputs k.outputs k.solver k.nprec k.prec k.accelerator hbat

/-- A trained model with the "basic" solver. -/
def trainedBasic : ELM ℚ := { usedBasic with nnet := { usedBasic.nnet with B := some ⟨1, [[2]]⟩ } }

/-- C69 is false for `load`: loading a valid saved model into a trained model with an explicitly chosen solver raises, and the trained
model is lost: it has other neurons and cannot predict any more. -/
theorem C69_load_refuted :
    ((trainedBasic.stepS QEnv.env (fun _ => none) (.load smallModel.saved)).2,
      ((trainedBasic.stepS QEnv.env (fun _ => none) (.load smallModel.saved)).1.map
        fun e => (e.predict QEnv.env (fun _ => none) (.mat ⟨2, [[1, 1]]⟩), e.nnet.neurons)),
      trainedBasic.predict QEnv.env (fun _ => none) (.mat ⟨2, [[1, 1]]⟩)) =
    (.error .assertion, some (.error .assertion, [⟨2, .name "lin", [[0, 5], [1, 0]], [0, 0]⟩]), .ok ⟨1, [[10]]⟩) := by
  decide +kernel

/-- The hypotheses are met, and the model is indeed changed by failing calls: a history with two failing calls (targets with two
columns; a kind of classification that needs several outputs) between successful ones. -/
example : ((ELM.init QEnv.env 2 1 "" none 2 none (.np .double) none).map fun e =>
    let r := e.runS QEnv.env (fun _ => none) (c01ops ++
      [.addData ⟨2, [[2, 2]]⟩ ⟨2, [[5, 6]]⟩, .train ⟨fun _ => []⟩ (.mat ⟨2, [[1, 0]]⟩) (.vec [1]) ["c"] {}, .addData ⟨2, [[2, 2]]⟩ ⟨1, [[5]]⟩])
    (r.2, r.1.map fun e => (e.nnet.L, e.nnet.corr.isSome)))
    = .ok ([.ok (), .ok (), .ok (), .ok (), .ok (), .error .valueError, .error .assertion, .ok ()], some (some 4, true)) := by
  decide +kernel

/-! ## C70 a call of `add_data` that raises adds nothing -/

/-- C70 is false: (1) targets with a wrong number of columns are refused, but the inputs have been added to the first matrix already,
so a later solution differs; (2) targets with a single column are accepted by a model with two outputs. -/
theorem C70_add_data_refuted :
    (((exModel 1 2 none none).addDataS QEnv.env ⟨2, [[1, 0]]⟩ ⟨2, [[5, 6]]⟩).2,
      ((exModel 1 2 none none).addDataS QEnv.env ⟨2, [[1, 0]]⟩ ⟨2, [[5, 6]]⟩).1.nnet.corr) =
      (.error .valueError, some (⟨2, [[2, 0], [0, 1]]⟩, ⟨1, [[0], [0]]⟩)) ∧
    (((exModel 2 2 none none).addDataS QEnv.env ⟨2, [[1, 0]]⟩ ⟨1, [[5]]⟩).2,
      ((exModel 2 2 none none).addDataS QEnv.env ⟨2, [[1, 0]]⟩ ⟨1, [[5]]⟩).1.nnet.corr) =
      (.ok (), some (⟨2, [[2, 0], [0, 1]]⟩, ⟨2, [[5, 5], [0, 0]]⟩)) := by
  decide +kernel

/-- What is proved of C70: data whose inputs have a wrong number of columns, or that come before any neurons are added, or a batch
size of zero, are refused without any trace in the network. -/
theorem C70_add_data_partial (env : Env K) (e : ELM K) (X T : Mat K)
    (h : e.batch = 0 ∨ X.cols ≠ e.nnet.inputs ∨ e.nnet.neurons = []) :
    (e.addDataS env X T).1.nnet = e.nnet := by
  have hfeed : ∀ (bs : List (List (List K) × List (List K))) (f : ELM K), (X.cols ≠ f.nnet.inputs ∨ f.nnet.neurons = []) →
      (f.feedS env X.cols T.cols bs).1.nnet = f.nnet := by
    intro bs f hf
    cases bs with
    | nil => rfl
    | cons b bs =>
      obtain ⟨Xb, Tb⟩ := b
      unfold ELM.feedS
      split
      · rfl
      · rename_i w _
        have : ∃ x, f.nnet.addBatchS env ⟨X.cols, Xb⟩ ⟨T.cols, Tb⟩ w = (f.nnet, .error x) := by
          rw [addBatchS_eq]
          cases hp : f.nnet.project env ⟨X.cols, Xb⟩ with
          | error x => exact ⟨x, rfl⟩
          | ok H =>
            exfalso
            obtain ⟨a, _, b, _⟩ := (project_ok_iff _ _ _ _).1 hp
            rcases hf with hf | hf
            · exact hf a
            · exact b hf
        obtain ⟨x, hx⟩ := this
        rw [hx]
  unfold ELM.addDataS
  split
  · rfl
  · rename_i hb
    have h' := h.resolve_left hb
    simp only
    split
    · exact autoWc_nnet _ _ _
    · exact autoWc_nnet _ _ _
    · rw [hfeed _ _ (by rw [autoWc_nnet]; exact h')]
      exact autoWc_nnet _ _ _

example : ((exModel 1 2 none none).addDataS QEnv.env ⟨3, [[1, 0, 4]]⟩ ⟨1, [[5]]⟩).2 = .error .valueError := by decide +kernel

end Hpelm.Props
