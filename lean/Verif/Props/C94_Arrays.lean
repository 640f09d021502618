import Verif.Lemmas.HeapRun
import Verif.Lemmas.QEnv
import Verif.Lemmas.Invariant

/-!
# C94, C95: arrays shared between a program and the model

NumPy arrays are mutable objects.  C94: what a user passes in is never changed by the model and is not used after the call, so the
model behaves as if matrices were values.  C95: what a user gets out stays as it was returned.
-/

namespace Hpelm.Props
open Hpelm Spec
variable {K : Type} [Field K] [LinearOrder K]

/-- C94.  In every program, started on a new network, an array the user creates at some point contains, at the end, exactly what
the user last wrote into it: no method call changes it, whether or not it was an argument of the call, and also when the call
raises. -/
theorem C94_arguments_kept (env : Env K) (n : NNet K) (before after : List (ArrOp K)) (M : Mat K)
    (hv : Valid env (.start n) (before ++ .create M :: after)) :
    ∃ a, (((RState.start n).run env before).step env (.create M)).2 = .ok [a] ∧
      ((RState.start n).run env (before ++ .create M :: after)).heap.cell a = lastWritten a M after := by
  obtain ⟨h1, h2⟩ := valid_append env before _ _ hv
  have hs := (RState.run_keeps env before _ (RState.Sound.start n) h1).1
  rw [RState.run_append]
  generalize (RState.start n).run env before = s at h2 hs
  cases h2 with
  | cons _ _ _ hu h2 =>
    refine ⟨s.heap.next, rfl, ?_⟩
    have h := (RState.run_keeps env after _ (RState.step_sound env s hs (.create M) hu) h2).2 s.heap.next (Nat.lt_succ_self _)
      (not_acc_new hs le_rfl)
    refine h.2.2.1.trans ?_
    rw [show (s.step env (.create M)).1.heap.cell s.heap.next = M from Heap.alloc_new _ _]

/-- C94.  A program that only writes into arrays of its own (created by it, or obtained as hidden layer outputs or predictions)
sees a model that works on values: the network at the end is the one that the calls produce on the contents their arguments had at
the time of the call, whatever the program later did with these arrays. -/
theorem C94_value_semantics (env : Env K) (n : NNet K) (ops : List (ArrOp K)) (hv : Valid env (.start n) ops)
    (hw : OwnWrites env (.start n) [] ops) :
    ((RState.start n).run env ops).net.view ((RState.start n).run env ops).heap =
      valueRun env (.start n) { n with corr := none, B := none } ops :=
  RState.run_view env ops _ (RState.Sound.start n) hv
    (own_polite env ops _ [] (RState.Sound.start n) hv (fun _ h => by simp at h) hw)

/-- C94.  In such a program every call also returns what it returns on values, or raises the same exception. -/
theorem C94_value_results (env : Env K) (n : NNet K) (ops : List (ArrOp K)) (op : ArrOp K)
    (hv : Valid env (.start n) (ops ++ [op])) (hw : OwnWrites env (.start n) [] (ops ++ [op])) :
    let s := (RState.start n).run env ops
    (s.step env op).2.map (List.map (s.step env op).1.heap.cell) =
      (valueCall env s.heap.cell (valueRun env (.start n) { n with corr := none, B := none } ops) op).2 := by
  have hp := own_polite env _ _ [] (RState.Sound.start n) hv (fun _ h => by simp at h) hw
  obtain ⟨h1, h2⟩ := valid_append env ops _ _ hv
  have hs := (RState.run_keeps env ops _ (RState.Sound.start n) h1).1
  obtain ⟨p1, p2⟩ : Polite env (.start n) ops ∧ Polite env ((RState.start n).run env ops) [op] := by
    clear hv h1 h2 hs hw
    revert hp
    generalize RState.start n = s
    induction ops generalizing s with
    | nil => exact fun h => ⟨.nil s, h⟩
    | cons o ops ih =>
      intro h
      cases h with
      | cons _ _ _ hw hp =>
        have := ih _ hp
        exact ⟨.cons s o ops hw this.1, this.2⟩
  have hvw := RState.run_view env ops _ (RState.Sound.start n) h1 p1
  simp only
  rw [show valueRun env (.start n) { n with corr := none, B := none } ops = _ from hvw.symm]
  cases h2 with
  | cons _ _ _ hu _ =>
    cases p2 with
    | cons _ _ _ hw _ => exact (RState.step_view env _ hs op hu hw).2

/-- C94.  The call on values used above for storing the matrices on disk is the one of the rest of the model
(`add_data` with files, hpelm/hp_elm.py:168-170), for all solvers. -/
theorem C94_store_agrees (env : Env K) (cell : Nat → Mat K) (e e' : ELM K) (fs fs' : Files K) (fHH fHT : String)
    (h : e.storeCorr fs (some fHH) (some fHT) = .ok (e', fs')) :
    (valueCall env cell e.nnet .storeCorr).1 = e'.nnet ∧
    ∃ HH HT, (valueCall env cell e.nnet .storeCorr).2 = .ok [HH, HT] ∧ writeFHH fs fHH fHT HH HT = .ok fs' := by
  unfold ELM.storeCorr at h
  simp only at h
  obtain ⟨c, hc, h⟩ := bind_ok h
  obtain ⟨fs1, hf, h⟩ := bind_ok h
  simp only [pure, Except.pure, Except.ok.injEq, Prod.mk.injEq] at h
  obtain ⟨rfl, rfl⟩ := h
  have hg : e.nnet.getCorr = .ok (some c) := by
    unfold NNet.getCorr! at hc
    cases hx : e.nnet.getCorr with
    | error x => rw [hx] at hc; simp [bind, Except.bind] at hc
    | ok o =>
      rw [hx] at hc
      cases o with
      | none => simp [bind, Except.bind] at hc
      | some d => simp [bind, Except.bind, pure, Except.pure] at hc; rw [hc]
  simp only [valueCall, hg]
  exact ⟨by trivial, _, _, rfl, hf⟩

/-- C95 (partial: not the matrices handed out by `get_corr` with the CPU solvers).  Hidden layer outputs, predictions, and everything
the GPU solver hands out keep their contents in every continuation of the program, apart from what the user writes into them. -/
theorem C95_results_kept_partial (env : Env K) (n : NNet K) (before after : List (ArrOp K)) (op : ArrOp K)
    (hv : Valid env (.start n) (before ++ op :: after)) (a : Nat)
    (ha : a ∈ handsFresh env ((RState.start n).run env before) op) :
    ((RState.start n).run env (before ++ op :: after)).heap.cell a =
      lastWritten a ((((RState.start n).run env before).step env op).1.heap.cell a) after := by
  obtain ⟨h1, h2⟩ := valid_append env before _ _ hv
  have hs := (RState.run_keeps env before _ (RState.Sound.start n) h1).1
  rw [RState.run_append]
  generalize (RState.start n).run env before = s at h2 hs ha
  cases h2 with
  | cons _ _ _ hu h2 =>
    have hf := handsFresh_spec env s hs op hu a ha
    exact ((RState.run_keeps env after _ (RState.step_sound env s hs op hu) h2).2 a hf.1 fun h => hf.2 (.inl h)).2.2.1

/-- C95 (partial).  With the default solver the matrix `HH` returned by `get_corr` is a copy and keeps its contents. -/
theorem C95_corr_HH_kept_partial (env : Env K) (n : NNet K) (before after : List (ArrOp K))
    (hv : Valid env (.start n) (before ++ .getCorr :: after)) (a b : Nat)
    (hs : ((RState.start n).run env before).net.base.solver = .python)
    (ha : (((RState.start n).run env before).step env .getCorr).2 = .ok [a, b]) :
    ((RState.start n).run env (before ++ .getCorr :: after)).heap.cell a =
      lastWritten a ((((RState.start n).run env before).step env .getCorr).1.heap.cell a) after := by
  obtain ⟨h1, h2⟩ := valid_append env before _ _ hv
  have hss := (RState.run_keeps env before _ (RState.Sound.start n) h1).1
  rw [RState.run_append]
  generalize (RState.start n).run env before = s at h2 hs ha hss
  cases h2 with
  | cons _ _ _ hu h2 =>
    have key : a < (s.step env .getCorr).1.heap.next ∧ ¬ Accumulates (s.step env .getCorr).1.net a := by
      simp only [RState.step, RState.getCorr, hs] at ha ⊢
      cases hc : s.net.corr with
      | none => rw [hc] at ha; simp at ha
      | some c =>
        rw [hc] at ha
        simp only [Except.ok.injEq, List.cons.injEq, and_true] at ha
        obtain ⟨rfl, -⟩ := ha
        exact ⟨Nat.lt_succ_self _, not_acc_new hss le_rfl⟩
    exact ((RState.run_keeps env after _ (RState.step_sound env s hss .getCorr hu) h2).2 a key.1 key.2).2.2.1

/-- C95 (partial).  The array returned by `get_B` is never changed by the model, with any solver: a later `solve` puts the new
weights into a new array. -/
theorem C95_weights_kept_partial (env : Env K) (n : NNet K) (before after : List (ArrOp K))
    (hv : Valid env (.start n) (before ++ .getB :: after)) (a : Nat)
    (ha : (((RState.start n).run env before).step env .getB).2 = .ok [a]) :
    ((RState.start n).run env (before ++ .getB :: after)).heap.cell a =
      lastWritten a ((((RState.start n).run env before).step env .getB).1.heap.cell a) after := by
  obtain ⟨h1, h2⟩ := valid_append env before _ _ hv
  have hs := (RState.run_keeps env before _ (RState.Sound.start n) h1).1
  by_cases hf : a ∈ handsFresh env ((RState.start n).run env before) .getB
  · exact C95_results_kept_partial env n before after .getB hv a hf
  rw [RState.run_append]
  generalize (RState.start n).run env before = s at h2 hs ha hf
  cases h2 with
  | cons _ _ _ hu h2 =>
    have hB : s.net.B = some a ∧ (s.step env .getB).1 = s := by
      have hc : s.net.base.solver ≠ .cuda := fun h => hf (by simp [handsFresh, ha, h])
      simp only [RState.step, RState.getB] at ha ⊢
      cases hb : s.net.B with
      | none => rw [hb] at ha; simp at ha
      | some b =>
        rw [hb] at ha
        cases hsol : s.net.base.solver with
        | cuda => exact absurd hsol hc
        | basic => simp only [Except.ok.injEq, List.cons.injEq, and_true] at ha; subst ha; exact ⟨rfl, rfl⟩
        | python => simp only [Except.ok.injEq, List.cons.injEq, and_true] at ha; subst ha; exact ⟨rfl, rfl⟩
    have hb := hs.B a hB.1
    refine ((RState.run_keeps env after _ (RState.step_sound env s hs .getB hu) h2).2 a ?_ ?_).2.2.1
    · rw [hB.2]; exact hb.1
    · rw [hB.2]
      rintro ⟨c, hc, h⟩
      exact h.elim (hb.2 c hc).1 (hb.2 c hc).2

/-- C95 (partial).  Any array, also one handed out by `get_corr`, keeps its contents from the next `reset` on (`train` starts with
one): new data are then accumulated in new arrays. -/
theorem C95_after_reset_partial (env : Env K) (n : NNet K) (before after : List (ArrOp K))
    (hv : Valid env (.start n) (before ++ .reset :: after)) (a : Nat) (ha : a < ((RState.start n).run env before).heap.next) :
    ((RState.start n).run env (before ++ .reset :: after)).heap.cell a =
      lastWritten a (((RState.start n).run env before).heap.cell a) after := by
  obtain ⟨h1, h2⟩ := valid_append env before _ _ hv
  have hs := (RState.run_keeps env before _ (RState.Sound.start n) h1).1
  rw [RState.run_append]
  generalize (RState.start n).run env before = s at h2 hs ha
  cases h2 with
  | cons _ _ _ hu h2 =>
    refine ((RState.run_keeps env after _ (RState.step_sound env s hs .reset hu) h2).2 a ha ?_).2.2.1
    rintro ⟨c, hc, -⟩
    cases hc

/-- One linear neuron, one input, one output. -/
def arrNet (s : Solver) : NNet ℚ :=
  { solver := s, prec := .double, inputs := 1, outputs := 1, norm := 1, neurons := [⟨1, .name "lin", [[1]], [0]⟩], L := some 1, B := none, corr := none }

/-- Two arrays, one batch of training. -/
def arrTrain : List (ArrOp ℚ) := [.create ⟨1, [[1], [2]]⟩, .create ⟨1, [[3], [4]]⟩, .addBatch 0 1 none]

/-- C95 (refuted, default solver).  `HH, HT = get_corr()` after a batch, then another `add_data`: the array `HT` in the user's hands
changes, `HH` does not, and the pair is now that of no data set.  Restoring it with `set_corr` gives other output weights than the
model had when the pair was taken. -/
theorem C95_corr_torn_refuted : ∃ (before : List (ArrOp ℚ)) (a b : Nat) (s : RState ℚ),
    Valid QEnv.env (.start (arrNet .python)) (before ++ [.getCorr, .addBatch 0 1 none, .setCorr a b, .solve]) ∧
    s = (RState.start (arrNet .python)).run QEnv.env before ∧
    (s.step QEnv.env .getCorr).2 = .ok [a, b] ∧
    (s.run QEnv.env [.getCorr, .addBatch 0 1 none]).heap.cell a = (s.run QEnv.env [.getCorr]).heap.cell a ∧
    (s.run QEnv.env [.getCorr, .addBatch 0 1 none]).heap.cell b ≠ (s.run QEnv.env [.getCorr]).heap.cell b ∧
    (s.run QEnv.env [.getCorr, .solve]).net.B.map (s.run QEnv.env [.getCorr, .solve]).heap.cell ≠
      (s.run QEnv.env [.getCorr, .addBatch 0 1 none, .setCorr a b, .solve]).net.B.map
        (s.run QEnv.env [.getCorr, .addBatch 0 1 none, .setCorr a b, .solve]).heap.cell := by
  refine ⟨arrTrain, 7, 5, _, ?_, rfl, by decide +kernel, by decide +kernel, by decide +kernel, by decide +kernel⟩
  repeat' (first | exact .nil _ | refine .cons _ _ _ (by decide +kernel) ?_)

/-- C95 (refuted, basic solver).  Both matrices from `get_corr` are the model's own arrays and change with every batch. -/
theorem C95_corr_basic_refuted : ∃ (before : List (ArrOp ℚ)) (a b : Nat) (s : RState ℚ),
    Valid QEnv.env (.start (arrNet .basic)) (before ++ [.getCorr, .addBatch 0 1 none]) ∧
    s = (RState.start (arrNet .basic)).run QEnv.env before ∧
    (s.step QEnv.env .getCorr).2 = .ok [a, b] ∧
    (s.run QEnv.env [.getCorr, .addBatch 0 1 none]).heap.cell a ≠ (s.run QEnv.env [.getCorr]).heap.cell a ∧
    (s.run QEnv.env [.getCorr, .addBatch 0 1 none]).heap.cell b ≠ (s.run QEnv.env [.getCorr]).heap.cell b := by
  refine ⟨arrTrain, 4, 5, _, ?_, rfl, by decide +kernel, by decide +kernel, by decide +kernel⟩
  repeat' (first | exact .nil _ | refine .cons _ _ _ (by decide +kernel) ?_)

/-- C95 (refuted).  The array returned by `get_B` is the model's own: writing into it changes the predictions. -/
theorem C95_weights_shared_refuted : ∃ (before : List (ArrOp ℚ)) (a : Nat) (M : Mat ℚ) (s : RState ℚ),
    Valid QEnv.env (.start (arrNet .python)) (before ++ [.getB, .write a M, .predict 0]) ∧
    s = (RState.start (arrNet .python)).run QEnv.env before ∧ (s.step QEnv.env .getB).2 = .ok [a] ∧
    ((s.run QEnv.env [.getB, .write a M]).net.view (s.run QEnv.env [.getB, .write a M]).heap).predict QEnv.env ⟨1, [[1], [2]]⟩ ≠
      (s.net.view s.heap).predict QEnv.env ⟨1, [[1], [2]]⟩ := by
  refine ⟨arrTrain ++ [.solve], 7, ⟨1, [[0]]⟩, _, ?_, rfl, by decide +kernel, by decide +kernel⟩
  repeat' (first | exact .nil _ | refine .cons _ _ _ (by decide +kernel) ?_)

/-- A program in the scope of C94: data are created, accumulated, overwritten, accumulated again, and a prediction is overwritten. -/
def arrProgram : List (ArrOp ℚ) := arrTrain ++ [.write 0 ⟨1, [[5], [7]]⟩, .addBatch 0 1 (some [4, 9]), .solve, .predict 0]

example : Valid QEnv.env (.start (arrNet .python)) arrProgram ∧ OwnWrites QEnv.env (.start (arrNet .python)) [] arrProgram ∧
    ((RState.start (arrNet .python)).run QEnv.env arrProgram).heap.cell 0 = ⟨1, [[5], [7]]⟩ ∧
    valueRun QEnv.env (.start (arrNet .python)) (arrNet .python) arrProgram ≠ valueRun QEnv.env (.start (arrNet .python)) (arrNet .python) arrTrain := by
  refine ⟨?_, ?_, by decide +kernel, by decide +kernel⟩
  · repeat' (first | exact .nil _ | refine .cons _ _ _ (by decide +kernel) ?_)
  · repeat' (first | exact .nil _ _ | refine .cons _ _ _ _ (by intro a h; first | exact absurd h id | (cases h; decide +kernel)) ?_)

example : handsFresh QEnv.env ((RState.start (arrNet .python)).run QEnv.env (arrTrain ++ [.solve])) (.predict 0) = [9] ∧
    handsFresh QEnv.env ((RState.start (arrNet .cuda)).run QEnv.env arrTrain) .getCorr = [6, 7] := by decide +kernel

end Hpelm.Props
