import Verif.Lemmas.Selection
import Verif.Lemmas.QEnv
import Verif.Spec.Search
import Verif.Props.C09_C13_Batches
import Mathlib.Data.Rat.Cast.Order
import Mathlib.Algebra.Order.Ring.Abs

/-!
# C31–C33: the neuron-count search
-/

set_option linter.unusedSectionVars false

namespace Hpelm.Props
open Spec
variable {K : Type} [Field K] [LinearOrder K]

/-! ### C31 -/

/-- C31 (every error curve and network size).  On every range of sizes `lo … hi` and for every scoring function (which may fail)
the search either stops with the failure of a size in the range, or returns a size in the range; and scores of sizes outside the
range do not matter (they are never evaluated).  The marker `nonTermination` of the model is never returned. -/
theorem C31_search_in_range (lo hi : Int) (h0 : 0 ≤ lo) (hle : lo ≤ hi) (e : List K) (he : hi < e.length) (score : Nat → Except PyErr K) :
    ((∃ (n : Nat) (x : PyErr), lo ≤ n ∧ (n : Int) ≤ hi ∧ score n = .error x ∧ myopt lo hi e score = .error x) ∨
      (∃ k e', myopt lo hi e score = .ok (k, e') ∧ lo ≤ (k : Int) ∧ (k : Int) ≤ hi)) ∧
    (∀ score' : Nat → Except PyErr K, (∀ n : Nat, lo ≤ n → (n : Int) ≤ hi → score' n = score n) → myopt lo hi e score' = myopt lo hi e score) := by
  refine ⟨?_, fun s' hs => myopt_congr h0 hle hs e he⟩
  rcases myopt_cases score lo hi h0 hle e he with h | ⟨k, e', h1, h2, h3, _⟩
  · exact Or.inl h
  · exact Or.inr ⟨k, e', h1, h2, h3⟩

/-- The hypotheses are met and both outcomes occur: sizes 1 to 9 with a curve, and with a score that fails. -/
example : (myopt 1 9 (errArray 9 9 (7 : ℚ)) (fun n => .ok (if n < 4 then (8 : ℚ) - n else n))).map (·.1) = .ok 4 ∧
    (myopt 1 9 (errArray 9 9 (7 : ℚ)) (fun n => if n = 3 then .error .linAlg else .ok 1)).map (·.1) = .error .linAlg := by decide +kernel

/-- C31 (the library call).  `train` terminates for every model, data, mode and keyword arguments: no loop runs out of fuel. -/
theorem C31_train_terminates (env : Env K) (fs : Files K) (rnd : Rnd) (e : ELM K) (X T : DataArg K) (args : List String) (kw : Kwargs K) :
    (e.train env fs rnd X T args kw).1 ≠ .error .nonTermination :=
  NT_train env fs rnd e X T args kw

/-- C31 (selected size).  A successful selection keeps between 1 (validation, LOO) or 3 (cross-validation) neurons and the size of
the network (or `kmax`, when given). -/
theorem C31_selected_in_range (env : Env K) (e : ELM K) (X T Xv Tv : Mat K) :
    (∀ sh r, trainV env sh e X T Xv Tv = .ok r → 1 ≤ r.2.1 ∧ r.2.1 + 1 ≤ r.2.2.length) ∧
    (∀ sh r, trainLOO env sh e X T = .ok r → 1 ≤ r.2.1 ∧ r.2.1 + 1 ≤ r.2.2.length) ∧
    (∀ sh k r, trainCV env sh e X T k = .ok r → 3 ≤ r.2.2.1 ∧ r.2.2.1 + 1 ≤ r.2.2.2.length) := by
  have key : ∀ {lo L0 L : Nat} {v : K} {score : Nat → Except PyErr K} {r : Nat × List K}, 0 < L → L ≤ L0 → (lo ≤ L ∨ L0 < lo) →
      myopt lo L (errArray L0 L v) score = .ok r → lo ≤ r.1 ∧ r.1 + 1 ≤ r.2.length := by
    intro lo L0 L v score r hL hL0 hlo h
    have hlen := errArray_length L0 L v
    by_cases hl : lo ≤ L
    · rcases myopt_cases score lo L (by omega) (by omega) (errArray L0 L v) (by rw [hlen]; omega) with ⟨n, x, _, _, _, h'⟩ | ⟨k', e', h', h1, h2, hE, _⟩
      · rw [h'] at h; cases h
      · rw [h'] at h
        injection h with h
        rw [← h]
        simp only
        rw [hE.len, hlen]
        omega
    · rw [myopt_small (by omega)] at h
      cases h
  refine ⟨?_, ?_, ?_⟩
  · intro sh r h
    unfold trainV at h
    obtain ⟨e1, h1, h⟩ := bind_ok h
    obtain ⟨_, _, h⟩ := bind_ok h
    obtain ⟨_, _, h⟩ := bind_ok h
    obtain ⟨rk, hr, h⟩ := bind_ok h
    obtain ⟨_, _, h⟩ := bind_ok h
    obtain ⟨_, hp, h⟩ := bind_ok h
    obtain ⟨m, hm, h⟩ := bind_ok h
    obtain ⟨e2, h2, h⟩ := bind_ok h
    injection h with h
    rw [← h]
    exact key (lo := 1) (penaltyOf_pos hp) (ranking_le hr) (Or.inl (penaltyOf_pos hp)) hm
  · intro sh r h
    unfold trainLOO at h
    obtain ⟨_, _, h⟩ := bind_ok h
    obtain ⟨e1, h1, h⟩ := bind_ok h
    obtain ⟨_, _, h⟩ := bind_ok h
    obtain ⟨rk, hr, h⟩ := bind_ok h
    obtain ⟨_, _, h⟩ := bind_ok h
    obtain ⟨_, hp, h⟩ := bind_ok h
    obtain ⟨m, hm, h⟩ := bind_ok h
    obtain ⟨e2, h2, h⟩ := bind_ok h
    injection h with h
    rw [← h]
    exact key (lo := 1) (penaltyOf_pos hp) (ranking_le hr) (Or.inl (penaltyOf_pos hp)) hm
  · intro sh k r h
    unfold trainCV at h
    obtain ⟨ds, _, h⟩ := bind_ok h
    obtain ⟨_, _, h⟩ := bind_ok h
    obtain ⟨_, hp, h⟩ := bind_ok h
    obtain ⟨m, hm, h⟩ := bind_ok h
    obtain ⟨_, _, h⟩ := bind_ok h
    obtain ⟨e2, h2, h⟩ := bind_ok h
    injection h with h
    rw [← h]
    exact key (lo := 3) (penaltyOf_pos hp) (le_refl _) (by omega) hm

/-! ### C32 -/

section
variable [IsStrictOrderedRing K]

/-- What a successful selection guarantees.  `lo` smallest size, `L` number of ranked neurons, `errs` the table of penalised errors
(the entry of a size that was not tried is -1), `full` the error of the full network, `score n` the error of the first `n` ranked
neurons, `pen` the penalty per neuron, `k` the selected size. -/
structure BestTried (lo L : Nat) (full pen : K) (score : Nat → Except PyErr K) (k : Nat) (errs : List K) : Prop where
  pen_eq : pen = full * (1 / 100) / (L : K)
  pen_nonneg : 0 ≤ pen
  range : lo ≤ k ∧ k ≤ L
  /-- the full network was tried, with its penalised error -/
  top : errs.getD L 0 = full + L * pen
  /-- the entry of every other size that was tried is its penalised error -/
  entry : ∀ n < errs.length, n ≠ L → errs.getD n 0 ≠ -1 → lo ≤ n ∧ n < L ∧ ∃ s, score n = .ok s ∧ 0 ≤ s ∧ errs.getD n 0 = s + n * pen
  /-- the selected size was tried, and is best -/
  tried : errs.getD k 0 ≠ -1
  best : ∀ n < errs.length, errs.getD n 0 ≠ -1 → errs.getD k 0 ≤ errs.getD n 0
  /-- in particular it is no worse than the full network -/
  full_le : errs.getD k 0 ≤ full + L * pen

theorem bestTried_of {lo L0 L : Nat} {full pen : K} {sc : Nat → Except PyErr K} {k : Nat} {errs : List K} (h0 : 0 < lo) (hlo : lo ≤ L) (hL : L ≤ L0)
    (hp : penaltyOf full L = .ok pen) (hf : 0 ≤ full) (hs : ∀ n s, sc n = .ok s → 0 ≤ s)
    (h : myopt lo L (errArray L0 L (full + L * pen)) (fun idx => do let s ← sc idx; pure (s + idx * pen)) = .ok (k, errs)) :
    BestTried lo L full pen sc k errs := by
  have hpe : pen = full * (1 / 100) / (L : K) := by
    unfold penaltyOf at hp
    split at hp
    · cases hp
    · injection hp with hp; exact hp.symm
  have hpn : 0 ≤ pen := by
    rw [hpe]
    exact div_nonneg (mul_nonneg hf (by norm_num)) (Nat.cast_nonneg _)
  obtain ⟨a1, a2, a3, a4, a5, a6, a7⟩ := myopt_errArray h0 hlo hL (add_nonneg hf (mul_nonneg (Nat.cast_nonneg _) hpn))
    (fun n s hs' => by
      obtain ⟨u, hu, hs'⟩ := bind_ok hs'
      injection hs' with hs'
      rw [← hs']
      exact add_nonneg (hs n u hu) (mul_nonneg (Nat.cast_nonneg _) hpn)) h
  have hfn : full + L * pen ≠ -1 := by
    intro hx
    have : 0 ≤ full + L * pen := add_nonneg hf (mul_nonneg (Nat.cast_nonneg _) hpn)
    rw [hx] at this
    exact absurd this (by norm_num)
  refine ⟨hpe, hpn, ⟨a1, a2⟩, a4, ?_, a5, fun n hn hne => a6 n (by omega) hne, ?_⟩
  · intro n hn hnL hne
    obtain ⟨b1, b2, b3⟩ := a7 n (by omega) hnL hne
    obtain ⟨u, hu, b3⟩ := bind_ok b3
    injection b3 with b3
    exact ⟨b1, b2, u, hu, hs n u hu, b3.symm⟩
  · rw [← a4]
    exact a6 L hL (by rw [a4]; exact hfn)

/-- C32 (validation).  Whenever `train(…, 'V')` succeeds, the size it keeps has the smallest penalised validation error of all sizes
tried, the full network included. -/
theorem C32_best_tried_validation (env : Env K) (hx : env.Exact) (sh : List Nat) (e : ELM K) (X T Xv Tv : Mat K)
    (hw : NonnegW e.classification e.wc) (ht : e.classification = some "wc" → e.wc = none → ∀ r ∈ T.rows, ∀ t ∈ r, 0 ≤ t)
    {e' : ELM K} {k : Nat} {errs : List K} (h : trainV env sh e X T Xv Tv = .ok (e', k, errs)) :
    ∃ e1 HH HT Hv rank L full pen, e.addData env X T = .ok e1 ∧ e1.nnet.getCorr = .ok (some (HH, HT)) ∧ e1.nnet.project env Xv = .ok Hv ∧
      e1.ranking env sh (e1.nnet.L.getD 0) Hv Tv = .ok (rank, L) ∧
      elmError e1.classification e1.wc Tv (Hv.mul (e1.nnet.solveCorr env HH HT)) = .ok full ∧
      BestTried 1 L full pen (fun n => scoreV env e1 HH HT Hv Tv (rank.take n)) k errs ∧
      e1.refit env (rank.take k) X T = .ok e' := by
  unfold trainV at h
  obtain ⟨e1, h1, h⟩ := bind_ok h
  obtain ⟨c, hc, h⟩ := bind_ok h
  obtain ⟨Hv, hHv, h⟩ := bind_ok h
  obtain ⟨rk, hr, h⟩ := bind_ok h
  obtain ⟨full, hfull, h⟩ := bind_ok h
  obtain ⟨pen, hp, h⟩ := bind_ok h
  obtain ⟨m, hm, h⟩ := bind_ok h
  obtain ⟨e2, h2, h⟩ := bind_ok h
  injection h with h
  injection h with he h
  injection h with hk herr
  subst he hk herr
  have hw1 := addData_nonnegW hx h1 hw ht
  have hc' : e1.nnet.getCorr = .ok (some (c.1, c.2)) := by
    unfold NNet.getCorr! at hc
    obtain ⟨o, ho, hc⟩ := bind_ok hc
    cases o with
    | none => cases hc
    | some o => injection hc with hc; rw [ho, ← hc]
  refine ⟨e1, c.1, c.2, Hv, rk.1, rk.2, full, pen, h1, hc', hHv, hr, hfull, ?_, h2⟩
  refine bestTried_of (L0 := e1.nnet.L.getD 0) (by omega) (penaltyOf_pos hp) (ranking_le hr) hp (elmError_nonneg hw1 hfull) ?_ hm
  intro n s hs
  exact elmError_nonneg hw1 hs

/-- C32 (leave-one-out). -/
theorem C32_best_tried_loo (env : Env K) (hx : env.Exact) (sh : List Nat) (e : ELM K) (X T : Mat K)
    (hw : NonnegW e.classification e.wc) (ht : e.classification = some "wc" → e.wc = none → ∀ r ∈ T.rows, ∀ t ∈ r, 0 ≤ t)
    {e' : ELM K} {k : Nat} {errs : List K} (h : trainLOO env sh e X T = .ok (e', k, errs)) :
    ∃ H e1 HH HT rank L full pen, e.nnet.project env X = .ok H ∧ e.addData env X T = .ok e1 ∧ e1.nnet.getCorr = .ok (some (HH, HT)) ∧
      e1.ranking env sh (e1.nnet.L.getD 0) H T = .ok (rank, L) ∧ scoreLOO env e1 HH HT H T = .ok full ∧
      BestTried 1 L full pen
        (fun n => scoreLOO env e1 (subSquare HH (rank.take n)) (HT.selRows (rank.take n)) (H.selCols (rank.take n)) T) k errs ∧
      e1.refit env (rank.take k) X T = .ok e' := by
  unfold trainLOO at h
  obtain ⟨H, hH, h⟩ := bind_ok h
  obtain ⟨e1, h1, h⟩ := bind_ok h
  obtain ⟨c, hc, h⟩ := bind_ok h
  obtain ⟨rk, hr, h⟩ := bind_ok h
  obtain ⟨full, hfull, h⟩ := bind_ok h
  obtain ⟨pen, hp, h⟩ := bind_ok h
  obtain ⟨m, hm, h⟩ := bind_ok h
  obtain ⟨e2, h2, h⟩ := bind_ok h
  injection h with h
  injection h with he h
  injection h with hk herr
  subst he hk herr
  have hw1 := addData_nonnegW hx h1 hw ht
  have hc' : e1.nnet.getCorr = .ok (some (c.1, c.2)) := by
    unfold NNet.getCorr! at hc
    obtain ⟨o, ho, hc⟩ := bind_ok hc
    cases o with
    | none => cases hc
    | some o => injection hc with hc; rw [ho, ← hc]
  refine ⟨H, e1, c.1, c.2, rk.1, rk.2, full, pen, hH, h1, hc', hr, hfull, ?_, h2⟩
  refine bestTried_of (L0 := e1.nnet.L.getD 0) (by omega) (penaltyOf_pos hp) (ranking_le hr) hp (scoreLOO_nonneg hw1 hfull) ?_ hm
  intro n s hs
  exact scoreLOO_nonneg hw1 hs

/-- C32 (cross-validation).  `score n` is the mean over the rounds of the validation error of the first `n` neurons of that round's
ranking. -/
theorem C32_best_tried_cv (env : Env K) (sh : Nat → List Nat) (e : ELM K) (X T : Mat K) (folds : Nat) (hw : NonnegW e.classification e.wc)
    {e' : ELM K} {errT : K} {k : Nat} {errs : List K} (h : trainCV env sh e X T folds = .ok (e', errT, k, errs)) :
    ∃ ds L full pen, ((List.range folds).mapM fun i => cvFold env (sh i) e X T folds i) = .ok ds ∧
      L = (ds.map (·.L)).getLastD (e.nnet.L.getD 0) ∧
      cvMean folds (fun d => elmError e.classification e.wc d.Tvl (d.Hvl.mul (e.nnet.solveCorr env d.HH d.HT))) ds 0 = .ok full ∧
      BestTried 3 L full pen (fun n => cvMean folds (fun d => scoreV env e d.HH d.HT d.Hvl d.Tvl (d.rank.take n)) ds 0) k errs ∧
      e.refit env (((ds.map (·.rank)).getLastD []).take k) X T = .ok e' := by
  unfold trainCV at h
  obtain ⟨ds, hds, h⟩ := bind_ok h
  obtain ⟨L, hL⟩ : ∃ L, L = (ds.map (·.L)).getLastD (e.nnet.L.getD 0) := ⟨_, rfl⟩
  simp only [← hL] at h
  obtain ⟨full, hfull, h⟩ := bind_ok h
  obtain ⟨pen, hp, h⟩ := bind_ok h
  obtain ⟨m, hm, h⟩ := bind_ok h
  obtain ⟨_, _, h⟩ := bind_ok h
  obtain ⟨e2, h2, h⟩ := bind_ok h
  simp only [pure, Except.pure, Except.ok.injEq, Prod.mk.injEq] at h
  obtain ⟨he, _, hk, herr⟩ := h
  obtain ⟨k', errs'⟩ := m
  simp only at hk herr h2
  subst he hk herr
  refine ⟨ds, L, full, pen, hds, hL, hfull, ?_, h2⟩
  have hL3 : 3 ≤ L := by
    by_contra hlt
    have hm' := myopt_small (K := K) (lo := 3) (not_le.1 hlt) L
    rw [show ((3 : Nat) : Int) = 3 from rfl] at hm'
    rw [hm'] at hm
    cases hm
  refine bestTried_of (L0 := L) (by omega) hL3 (le_refl _) hp
    (cvMean_nonneg (fun d v hv => elmError_nonneg hw hv) (le_refl _) hfull) ?_ hm
  intro n s hs
  exact cvMean_nonneg (fun d v hv => elmError_nonneg hw hv) (le_refl _) hs

end

/-- A small model used in the examples: four neurons of two types on one input. -/
def exModel4 (cls : Option String) (wc : Option (List (Option ℚ))) (outputs : Nat) : ELM ℚ :=
  { nnet := { solver := .python, prec := .double, inputs := 1, outputs := outputs, norm := 1,
              neurons := [⟨1, .name "lin", [[1]], [0]⟩, ⟨3, .name "tanh", [[1], [2], [-1]], [1, 0, 1]⟩], L := some 4, B := none, corr := none }
    batch := 2, prec := .double, accelerator := none, classification := cls, wc := wc, rankingOP := false, kmaxOp := none }

/-- The hypotheses are met: selection by validation (regression and weighted classification), LOO and cross-validation succeed. -/
example : ((trainV QEnv.env [2, 0, 3, 1] (exModel4 none none 1) ⟨1, [[1], [2], [3]]⟩ ⟨1, [[1], [0], [3]]⟩ ⟨1, [[2], [0]]⟩ ⟨1, [[1], [0]]⟩).map
      fun r => (r.2.1, r.1.nnet.L)) = .ok (1, some 1) ∧
    ((trainV QEnv.env [2, 0, 3, 1] (exModel4 (some "wc") none 2) ⟨1, [[1], [2], [3]]⟩ ⟨2, [[1, 0], [0, 1], [1, 0]]⟩ ⟨1, [[2], [0]]⟩
      ⟨2, [[1, 0], [0, 1]]⟩).map (·.2)) = .ok (1, [-1, 401 / 400, 201 / 200, 403 / 400, 101 / 100]) ∧
    ((trainLOO QEnv.env [2, 0, 3, 1] (exModel4 none none 1) ⟨1, [[1], [2], [3]]⟩ ⟨1, [[1], [0], [3]]⟩).map fun r => (r.2.1, r.1.nnet.L)) = .ok (1, some 1) ∧
    ((trainCV QEnv.env (fun _ => [2, 0, 3, 1]) (exModel4 none none 1) ⟨1, [[1], [2], [3]]⟩ ⟨1, [[1], [0], [3]]⟩ 3).map
      fun r => (r.2.2.1, r.1.nnet.L)) = .ok (3, some 3) := by decide +kernel

example : NonnegW (exModel4 (some "wc") none 2).classification (exModel4 (some "wc") none 2).wc := by
  intro _ l hl; cases hl

/-! ### C33 -/

/-- C33 is false: for 23 neurons and the curve `|n - 11|` the search keeps 12 neurons although 11 is the (unique) minimum. -/
theorem C33_unimodal_refuted :
    ¬ ∀ (L p : Nat) (f : Nat → ℚ), (∀ n, 0 ≤ f n) → Unimodal f 1 L p →
      ∃ e', myopt 1 (L : Int) (errArray L L (f L)) (fun n => .ok (f n)) = .ok (p, e') := by
  intro h
  obtain ⟨e', he⟩ := h 23 11 (fun n => |(n : ℚ) - 11|) (fun n => abs_nonneg _) (by
    refine ⟨by omega, by omega, ?_, ?_⟩
    · intro i j _ hij hj
      have h1 : (i : ℚ) < j := by exact_mod_cast hij
      have h2 : (j : ℚ) ≤ 11 := by exact_mod_cast hj
      show |(j : ℚ) - 11| < |(i : ℚ) - 11|
      rw [abs_of_nonpos (by linarith), abs_of_nonpos (by linarith)]
      linarith
    · intro i j hi hij _
      have h1 : (i : ℚ) < j := by exact_mod_cast hij
      have h2 : (11 : ℚ) ≤ i := by exact_mod_cast hi
      show |(i : ℚ) - 11| < |(j : ℚ) - 11|
      rw [abs_of_nonneg (by linarith), abs_of_nonneg (by linarith)]
      linarith)
  have : (myopt 1 ((23 : Nat) : Int) (errArray 23 23 |((23 : Nat) : ℚ) - 11|) (fun n => .ok |(n : ℚ) - 11|)).map (·.1) = .ok 12 := by
    decide +kernel
  rw [he] at this
  injection this with this
  cases this

/-- The array agrees with the curve where it is filled in. -/
def Agrees (f : Nat → K) (lo hi : Nat) (e : List K) : Prop := hi < e.length ∧ ∀ n, lo ≤ n → n ≤ hi → e.getD n 0 = -1 ∨ e.getD n 0 = f n

/-- One pass on a curve that is never -1. -/
theorem myoptStep_val (f : Nat → K) {lo hi : Nat} (hf : ∀ n, f n ≠ -1) (v : Iv) (e : List K) (hv : v.In lo hi) (he : Agrees f lo hi e) :
    ∃ e' m, Agrees f lo hi e' ∧ m = min (min (min (min (f v.A.toNat) (f v.B.toNat)) (f v.C.toNat)) (f v.D.toNat)) (f v.E.toNat) ∧
      myoptStep (fun n => .ok (f n)) v e =
        .ok (
          (if m = f v.A.toNat ∨ m = f v.B.toNat then Iv.redo v.A v.B v.C
            else if m = f v.D.toNat ∨ m = f v.E.toNat then Iv.redo v.C v.D v.E else Iv.redo v.B v.C v.D), e', m) := by
  rcases evalPoints_cases (fun n => .ok (f n)) lo hi (by omega) v.points e hv (by have := he.1; omega) with
    ⟨n, x, _, _, c, _⟩ | ⟨e', a, b, c, d⟩
  · cases c
  · have hd := d (fun n s hs => by injection hs with hs; rw [← hs]; exact hf n)
    have hag : Agrees f lo hi e' := by
      refine ⟨by rw [b.len]; exact he.1, fun n h1 h2 => ?_⟩
      rcases b.val n with h | ⟨_, _, _, h⟩
      · rw [h]; exact he.2 n h1 h2
      · injection h with h; exact Or.inr h.symm
    have hval : ∀ p ∈ v.points, at' e' p = f p.toNat := by
      intro p hp
      have h1 := hd p hp
      have h2 := hv p hp
      rcases hag.2 p.toNat (by omega) (by omega) with h | h
      · exact absurd h h1
      · exact h
    refine ⟨e', _, hag, rfl, ?_⟩
    have hin := (Iv.in_iff v lo hi).1 hv
    have hl := hag.1
    unfold myoptStep
    rw [a]
    simp only [bind, Except.bind]
    rw [errAt_ok (p := v.A) (by omega) (by omega), errAt_ok (p := v.B) (by omega) (by omega), errAt_ok (p := v.C) (by omega) (by omega),
      errAt_ok (p := v.D) (by omega) (by omega), errAt_ok (p := v.E) (by omega) (by omega)]
    simp only
    rw [hval v.A (by simp [Iv.points]), hval v.B (by simp [Iv.points]), hval v.C (by simp [Iv.points]), hval v.D (by simp [Iv.points]),
      hval v.E (by simp [Iv.points])]
    split_ifs <;> rfl

/-- The loop on a strictly unimodal curve whose current interval of length `4 * 2^i` contains the minimum. -/
theorem myoptLoop_unimodal (f : Nat → K) {lo hi p : Nat} (hf : ∀ n, f n ≠ -1) (hu : Unimodal f lo hi p) (i : Nat) (A : Nat) (e : List K) (he : Agrees f lo hi e)
    (hA : lo ≤ A) (hE : A + 4 * 2 ^ i ≤ hi) (hp : A ≤ p) (hp' : p ≤ A + 4 * 2 ^ i) (fuel : Nat) (hfuel : i < fuel) :
    ∃ v' e', Agrees f lo hi e' ∧ myoptLoop (fun n => .ok (f n)) fuel
      ⟨A, A + 2 ^ i, A + 2 * 2 ^ i, A + 3 * 2 ^ i, A + 4 * 2 ^ i⟩ e = .ok (some (v', e', f p)) := by
  obtain ⟨_, _, hdec, hinc⟩ := hu
  induction i generalizing A e fuel with
  | zero =>
    cases fuel with
    | zero => omega
    | succ fuel =>
      simp only [Nat.pow_zero, Nat.cast_one, pow_zero, mul_one] at hE hp' ⊢
      unfold myoptLoop
      obtain ⟨e', m, h1, hm, h2⟩ := myoptStep_val f hf ⟨A, A + 1, A + 2, A + 3, A + 4⟩ e
        ((Iv.in_iff _ lo hi).2 (by simp only; omega)) he
      rw [h2]
      simp only [bind, Except.bind]
      have e1 : ((A : Int) + 1).toNat = A + 1 := by omega
      have e2 : ((A : Int) + 2).toNat = A + 2 := by omega
      have e3 : ((A : Int) + 3).toNat = A + 3 := by omega
      have e4 : ((A : Int) + 4).toNat = A + 4 := by omega
      simp only [e1, e2, e3, e4, Int.toNat_natCast] at hm ⊢
      have hm' : m = f p := by
        rw [hm]
        change min (min (min (min (f A) (f (A + 1))) (f (A + 2))) (f (A + 3))) (f (A + 4)) = f p
        have hle : ∀ q, A ≤ q → q ≤ A + 4 → f p ≤ f q := by
          intro q hq1 hq2
          rcases lt_trichotomy q p with h | h | h
          · exact le_of_lt (hdec q p (by omega) h (le_refl _))
          · rw [h]
          · exact le_of_lt (hinc p q (le_refl _) h (by omega))
        apply le_antisymm
        · have : p = A ∨ p = A + 1 ∨ p = A + 2 ∨ p = A + 3 ∨ p = A + 4 := by omega
          rcases this with h | h | h | h | h <;> subst h <;> simp
        · simp only [le_min_iff]
          exact ⟨⟨⟨⟨hle _ (by omega) (by omega), hle _ (by omega) (by omega)⟩, hle _ (by omega) (by omega)⟩, hle _ (by omega) (by omega)⟩,
            hle _ (by omega) (by omega)⟩
      rw [← hm']
      rw [if_neg]
      · exact ⟨_, e', h1, rfl⟩
      · split_ifs <;> simp only [Iv.redo] <;> omega
  | succ i ih =>
    cases fuel with
    | zero => omega
    | succ fuel =>
      unfold myoptLoop
      obtain ⟨q, hq⟩ : ∃ q : Nat, q = 2 ^ i := ⟨_, rfl⟩
      have hq1 : 1 ≤ q := by rw [hq]; exact Nat.one_le_two_pow
      have hqi : ((2 : Int) ^ i) = (q : Int) := by rw [hq]; push_cast; rfl
      have hpow : (2 : Nat) ^ (i + 1) = 2 * q := by rw [hq, pow_succ]; omega
      have hpowi : (2 : Int) ^ (i + 1) = 2 * (q : Int) := by rw [pow_succ, hqi]; omega
      rw [hpow] at hE hp'
      simp only [← hq, hqi] at ih
      rw [hpowi]
      obtain ⟨e', m, h1, hm, h2⟩ := myoptStep_val f hf ⟨A, A + 2 * q, A + 2 * (2 * q), A + 3 * (2 * q), A + 4 * (2 * q)⟩ e
        ((Iv.in_iff _ lo hi).2 (by simp only; omega)) he
      rw [h2]
      simp only [bind, Except.bind]
      have e1 : ((A : Int) + 2 * q).toNat = A + 2 * q := by omega
      have e2 : ((A : Int) + 2 * (2 * q)).toNat = A + 4 * q := by omega
      have e3 : ((A : Int) + 3 * (2 * q)).toNat = A + 6 * q := by omega
      have e4 : ((A : Int) + 4 * (2 * q)).toNat = A + 8 * q := by omega
      simp only [e1, e2, e3, e4, Int.toNat_natCast] at hm ⊢
      replace hm := hm.symm
      have hmle : m ≤ f A ∧ m ≤ f (A + 2 * q) ∧ m ≤ f (A + 4 * q) ∧ m ≤ f (A + 6 * q) ∧ m ≤ f (A + 8 * q) := by
        rw [← hm]; refine ⟨?_, ?_, ?_, ?_, ?_⟩ <;> simp
      obtain ⟨g1, g2, g3, g4, g5⟩ := hmle
      by_cases hc1 : m = f A ∨ m = f (A + 2 * q)
      · rw [if_pos hc1]
        have hpC : p ≤ A + 4 * q := by
          by_contra hlt
          have d1 := hdec (A + 2 * q) (A + 4 * q) (by omega) (by omega) (by omega)
          have d2 := hdec A (A + 4 * q) (by omega) (by omega) (by omega)
          rcases hc1 with h | h
          · rw [← h] at d2; exact absurd g3 (not_le.2 d2)
          · rw [← h] at d1; exact absurd g3 (not_le.2 d1)
        have hv : Iv.redo (A : Int) (A + 2 * q) (A + 2 * (2 * q)) = ⟨A, A + q, A + 2 * q, A + 3 * q, A + 4 * q⟩ := by
          simp only [Iv.redo, Iv.mk.injEq, true_and]; refine ⟨?_, ?_, ?_⟩ <;> omega
        rw [hv]
        rw [if_pos (by simp only; omega)]
        exact ih A e' h1 hA (by omega) hp hpC fuel (by omega)
      · rw [if_neg hc1]
        by_cases hc2 : m = f (A + 6 * q) ∨ m = f (A + 8 * q)
        · rw [if_pos hc2]
          have hpC : A + 4 * q ≤ p := by
            by_contra hlt
            have d1 := hinc (A + 4 * q) (A + 6 * q) (by omega) (by omega) (by omega)
            have d2 := hinc (A + 4 * q) (A + 8 * q) (by omega) (by omega) (by omega)
            rcases hc2 with h | h
            · rw [← h] at d1; exact absurd g3 (not_le.2 d1)
            · rw [← h] at d2; exact absurd g3 (not_le.2 d2)
          have hv : Iv.redo ((A : Int) + 2 * (2 * q)) (A + 3 * (2 * q)) (A + 4 * (2 * q)) =
              ⟨(A + 4 * q : Nat), (A + 4 * q : Nat) + q, (A + 4 * q : Nat) + 2 * q, (A + 4 * q : Nat) + 3 * q, (A + 4 * q : Nat) + 4 * q⟩ := by
            simp only [Iv.redo, Iv.mk.injEq]; push_cast; omega
          rw [hv]
          rw [if_pos (by simp only; omega)]
          exact ih (A + 4 * q) e' h1 (by omega) (by omega) hpC (by omega) fuel (by omega)
        · rw [if_neg hc2]
          have hmC : m = f (A + 4 * q) := by
            push Not at hc1 hc2
            rw [← hm]
            rw [← hm] at hc1 hc2
            rcases min_choice (min (min (min (f A) (f (A + 2 * q))) (f (A + 4 * q))) (f (A + 6 * q))) (f (A + 8 * q)) with h | h
            · rcases min_choice (min (min (f A) (f (A + 2 * q))) (f (A + 4 * q))) (f (A + 6 * q)) with h' | h'
              · rcases min_choice (min (f A) (f (A + 2 * q))) (f (A + 4 * q)) with h'' | h''
                · rcases min_choice (f A) (f (A + 2 * q)) with h3 | h3
                  · exact absurd (by rw [h, h', h'', h3]) hc1.1
                  · exact absurd (by rw [h, h', h'', h3]) hc1.2
                · rw [h, h', h'']
              · exact absurd (by rw [h, h']) hc2.1
            · exact absurd h hc2.2
          push Not at hc1 hc2
          have hpB : A + 2 * q ≤ p := by
            by_contra hlt
            have d := hinc (A + 2 * q) (A + 4 * q) (by omega) (by omega) (by omega)
            rw [← hmC] at d
            exact absurd g2 (not_le.2 d)
          have hpD : p ≤ A + 6 * q := by
            by_contra hlt
            have d := hdec (A + 4 * q) (A + 6 * q) (by omega) (by omega) (by omega)
            rw [← hmC] at d
            exact absurd g4 (not_le.2 d)
          have hv : Iv.redo ((A : Int) + 2 * q) (A + 2 * (2 * q)) (A + 3 * (2 * q)) =
              ⟨(A + 2 * q : Nat), (A + 2 * q : Nat) + q, (A + 2 * q : Nat) + 2 * q, (A + 2 * q : Nat) + 3 * q, (A + 2 * q : Nat) + 4 * q⟩ := by
            simp only [Iv.redo, Iv.mk.injEq]; push_cast; omega
          rw [hv]
          rw [if_pos (by simp only; omega)]
          exact ih (A + 2 * q) e' h1 (by omega) (by omega) hpB (by omega) fuel (by omega)

/-- C33 (what holds).  If the number of sizes is one more than a power of two (at least four), the search finds the minimum of every strictly
unimodal curve. -/
theorem C33_unimodal_partial [IsStrictOrderedRing K] (f : Nat → K) (hf : ∀ n, 0 ≤ f n) (lo i p : Nat) (hlo : 0 < lo)
    (hu : Unimodal f lo (lo + 4 * 2 ^ i) p) (L0 : Nat) (hL0 : lo + 4 * 2 ^ i ≤ L0) :
    ∃ e', myopt lo (lo + 4 * 2 ^ i : Nat) (errArray L0 (lo + 4 * 2 ^ i) (f (lo + 4 * 2 ^ i))) (fun n => .ok (f n)) = .ok (p, e') := by
  have hf' : ∀ n, f n ≠ -1 := fun n hn => by
    have := hf n
    rw [hn] at this
    exact absurd this (by norm_num)
  obtain ⟨hi, hhi⟩ : ∃ hi, hi = lo + 4 * 2 ^ i := ⟨_, rfl⟩
  rw [← hhi] at hu hL0 ⊢
  have hag : Agrees f lo hi (errArray L0 hi (f hi)) := by
    refine ⟨by rw [errArray_length]; omega, fun n h1 h2 => ?_⟩
    unfold errArray
    rw [List.getD_eq_getElem?_getD, List.getElem?_set]
    by_cases hn : hi = n
    · subst hn; right; simp [Nat.lt_succ_of_le hL0]
    · left; simp [hn, show n < L0 + 1 by omega]
  have hinit : Iv.init (lo : Int) (hi : Int) = ⟨lo, lo + 2 ^ i, lo + 2 * 2 ^ i, lo + 3 * 2 ^ i, lo + 4 * 2 ^ i⟩ := by
    obtain ⟨q, hq⟩ : ∃ q : Nat, q = 2 ^ i := ⟨_, rfl⟩
    have hqi : ((2 : Int) ^ i) = (q : Int) := by rw [hq]; push_cast; rfl
    rw [hqi]
    rw [← hq] at hhi
    simp only [Iv.init, Iv.mk.injEq, true_and]
    refine ⟨?_, ?_, ?_, ?_⟩ <;> omega
  have hi2 : i < 2 ^ i := Nat.lt_two_pow_self
  obtain ⟨v', e', h1, h2⟩ := myoptLoop_unimodal f hf' hu i lo (errArray L0 hi (f hi)) hag (le_refl _) (by omega) hu.1 (by rw [← hhi]; exact hu.2.1)
    (3 * ((hi : Int) - lo).toNat + 4) (by omega)
  rcases myopt_cases (fun n => .ok (f n)) lo hi (by omega) (by omega) (errArray L0 hi (f hi)) (by rw [errArray_length]; omega) with
    ⟨n, x, _, _, c, _⟩ | ⟨k, e'', a, b1, b2, _⟩
  · cases c
  · have a' := a
    unfold myopt at a
    rw [hinit, h2] at a
    simp only [bind, Except.bind] at a
    have hk : e'' = e' ∧ at' e' k = f p := by
      cases hpick : pickOpt e' (f p) v'.points with
      | error x => rw [hpick] at a; cases a
      | ok k' =>
        rw [hpick] at a
        injection a with a
        injection a with ak ae
        subst ak ae
        refine ⟨rfl, ?_⟩
        have : ∀ ps, pickOpt e' (f p) ps = .ok k' → at' e' k' = f p := by
          intro ps
          induction ps with
          | nil => intro h; cases h
          | cons q ps ih =>
            intro h
            unfold pickOpt at h
            obtain ⟨w, hw, h⟩ := bind_ok h
            split at h
            · rename_i hwf
              injection h with h
              unfold errAt at hw
              split at hw
              · cases hw
              · split at hw
                · rename_i hg
                  injection hw with hw
                  unfold at'
                  rw [← h, Int.toNat_natCast, List.getD_eq_getElem?_getD, hg, ← hwf, ← hw]
                  rfl
                · cases hw
            · exact ih h
        exact this _ hpick
    have hfk : f k = f p := by
      rcases h1.2 k (by omega) (by omega) with h | h
      · have := hk.2
        unfold at' at this
        rw [Int.toNat_natCast, h] at this
        exact absurd this.symm (hf' p)
      · have := hk.2
        unfold at' at this
        rw [Int.toNat_natCast, h] at this
        exact this
    have hkp : k = p := by
      rcases lt_trichotomy k p with h | h | h
      · exact absurd hfk (ne_of_gt (hu.2.2.1 k p (by omega) h (le_refl _)))
      · exact h
      · exact absurd hfk (ne_of_gt (hu.2.2.2 p k (le_refl _) h (by omega)))
    exact ⟨e'', by rw [← hkp]; exact a'⟩

/-- The hypotheses are met: 33 neurons, minimum at 11. -/
example : Unimodal (fun n => |(n : ℚ) - 11|) 1 (1 + 4 * 2 ^ 3) 11 := by
  refine ⟨by omega, by omega, ?_, ?_⟩
  · intro i j _ hij hj
    have h1 : (i : ℚ) < j := by exact_mod_cast hij
    have h2 : (j : ℚ) ≤ 11 := by exact_mod_cast hj
    show |(j : ℚ) - 11| < |(i : ℚ) - 11|
    rw [abs_of_nonpos (by linarith), abs_of_nonpos (by linarith)]
    linarith
  · intro i j hi hij _
    have h1 : (i : ℚ) < j := by exact_mod_cast hij
    have h2 : (11 : ℚ) ≤ i := by exact_mod_cast hi
    show |(i : ℚ) - 11| < |(j : ℚ) - 11|
    rw [abs_of_nonneg (by linarith), abs_of_nonneg (by linarith)]
    linarith

end Hpelm.Props
