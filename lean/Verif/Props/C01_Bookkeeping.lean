import Verif.Lemmas.Frame
import Verif.Lemmas.QEnv

/-!
# C01 — after any history of successful calls the network's bookkeeping is consistent

`Spec.Consistent` (Verif/Spec/Network.lean) says what consistent means: per type as many weight vectors (each of the
input dimension) and biases as the stored count, no type twice, `L` the total, output weights of shape `L × outputs`,
correlation matrices of shapes `L × L` and `L × outputs`.
-/

namespace Hpelm.Props
open Hpelm Spec
variable {K : Type} [Field K] [LinearOrder K]

/-- Conditions on the arguments of a call that hold of every NumPy array / of every dictionary written by `save`:
rows of an array have equal length; a loaded dictionary describes neurons of its declared input dimension, and is loaded
into an object built with the default (`None`) accelerator (see C53 for the other case). -/
def ArgsOk (acc : Option String) : Op K → Prop
  | .addNeurons randW _ _ _ _ W _ => (∀ m, (randW m).WF) ∧ ∀ M, W = some M → M.WF
  | .setB B => B.WF
  | .setCorr HH HT => HH.WF ∧ HT.WF
  | .load m => acc = none ∧ (∀ B, m.beta = some B → B.WF) ∧
      ∀ g ∈ m.neurons, g.W.length = g.number ∧ g.B.length = g.number ∧ ∀ w ∈ g.W, w.length = m.inputs
  | _ => True

/-- One call keeps the network consistent (and the accelerator setting unchanged). -/
theorem step_consistent {env : Env K} (hs : Shapes env) {fs : Files K} {e e' : ELM K} {op : Op K}
    (hc : Consistent e.nnet) (ha : ArgsOk e.accelerator op) (h : e.step env fs op = .ok e') :
    Consistent e'.nnet ∧ e'.accelerator = e.accelerator := by
  cases op with
  | addNeurons randW randB sq number func W B =>
    obtain ⟨k, W', B', rfl, _, h1, h2, h3⟩ := elmAddNeurons_nnet ha.1 ha.2 h
    exact ⟨addNeurons_consistent hc h1 h2 h3, rfl⟩
  | addData X T => exact ⟨addData_consistent hc h, (addData_frame h).accelerator⟩
  | addBatch X T wc =>
    obtain ⟨n, hn, h⟩ := bind_ok h
    injection h with h
    rw [← h]
    exact ⟨addBatch_consistent hc hn, rfl⟩
  | reset => injection h with h; rw [← h]; exact ⟨reset_consistent hc, rfl⟩
  | prune idx => injection h with h; rw [← h]; exact ⟨prune_consistent hc idx, rfl⟩
  | setB B =>
    obtain ⟨n, hn, h⟩ := bind_ok h
    injection h with h
    rw [← h]
    exact ⟨setB_consistent hc ha hn, rfl⟩
  | setCorr HH HT =>
    obtain ⟨n, hn, h⟩ := bind_ok h
    injection h with h
    rw [← h]
    exact ⟨setCorr_consistent hc ha.1 ha.2 hn, rfl⟩
  | solve =>
    obtain ⟨n, hn, h⟩ := bind_ok h
    injection h with h
    rw [← h]
    exact ⟨solve_consistent hs hc hn, rfl⟩
  | train rnd X T args kw =>
    have h1 := train_consistent (fs := fs) (rnd := rnd) (X := X) (T := T) (args := args) (kw := kw) hs hc
    have h2 := train_frame env fs rnd e X T args kw
    simp only [ELM.step] at h
    split at h
    · rename_i heq
      rw [heq] at h1 h2
      injection h with h
      rw [← h]
      exact ⟨h1, h2.accelerator⟩
    · cases h
  | load m =>
    refine ⟨load_consistent ha.1 ha.2.2 ha.2.1 h, ?_⟩
    simp only [ELM.step, ELM.load] at h
    split at h
    · injection h with h
      rw [← h]
    · obtain ⟨n, _, h⟩ := bind_ok h
      injection h with h
      rw [← h]

/-- C01.  Whatever sequence of calls is made on a newly constructed model, with any data, as long as no call raises, the
resulting network is consistent. -/
theorem C01_bookkeeping (env : Env K) (hs : Shapes env) (fs : Files K) {inputs outputs : Nat} {cls : String}
    {w : Option (List K)} {batch : Int} {acc : Option String} {prec : PrecArg} {norm : Option K} {e0 e : ELM K}
    (h0 : ELM.init env inputs outputs cls w batch acc prec norm = .ok e0)
    (ops : List (Op K)) (hops : ∀ op ∈ ops, ArgsOk acc op) (h : e0.run env fs ops = .ok e) : Consistent e.nnet := by
  have hacc : e0.accelerator = acc := by
    unfold ELM.init at h0
    obtain ⟨_, _, h0⟩ := bind_ok h0
    simp only at h0
    split at h0
    · obtain ⟨_, _, h0⟩ := bind_ok h0
      injection h0 with h0
      rw [← h0]
    · injection h0 with h0
      rw [← h0]
  have hc := elmInit_consistent h0
  clear h0
  induction ops generalizing e0 with
  | nil => injection h with h; rw [← h]; exact hc
  | cons op ops ih =>
    obtain ⟨e1, h1, h⟩ := bind_ok h
    obtain ⟨c1, a1⟩ := step_consistent hs hc (by rw [hacc]; exact hops op List.mem_cons_self) h1
    exact ih (fun o ho => hops o (List.mem_cons_of_mem _ ho)) h (a1.trans hacc) c1

/-! A history that meets the hypotheses: two kinds of neurons added in three calls, data, training, more data. -/

/-- Arguments used in the example. -/
def c01ops : List (Op ℚ) :=
  [.addNeurons (fun _ => ⟨2, []⟩) (fun _ => []) 1 1 (.name "sigm") (some ⟨2, [[1, 2]]⟩) (some [1]),
   .addNeurons (fun _ => ⟨2, []⟩) (fun _ => []) 1 2 (.name "lin") none none,
   .addNeurons (fun _ => ⟨2, []⟩) (fun _ => []) 1 1 (.name "sigm") (some ⟨2, [[0, 1]]⟩) (some [2]),
   .train ⟨fun _ => []⟩ (.mat ⟨2, [[1, 0], [0, 1], [1, 1]]⟩) (.vec [1, 2, 3]) [] {},
   .addData ⟨2, [[2, 2]]⟩ ⟨1, [[5]]⟩]

example : ∀ op ∈ c01ops, ArgsOk none op := by
  intro op hop
  simp only [c01ops, List.mem_cons, List.not_mem_nil, or_false] at hop
  rcases hop with rfl | rfl | rfl | rfl | rfl <;> simp [ArgsOk, Mat.WF]

example : ((ELM.init QEnv.env 2 1 "" none 2 none (.np .double) none).bind fun e =>
    (e.run QEnv.env (fun _ => none) c01ops).map fun e =>
      (e.nnet.L, e.nnet.neurons.map (·.number), e.nnet.B.map (fun B => (B.nrows, B.cols)), e.nnet.corr.isSome))
    = .ok (some 4, [2, 2], some (4, 1), true) := by decide +kernel

end Hpelm.Props
