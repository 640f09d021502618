import Verif.Props.C37_C39_Selection
import Verif.Props.C31_ReturnedSize

/-!
# C86: structure selection by validation and by leave-one-out completes
-/

set_option linter.unusedSectionVars false

namespace Hpelm.Props
open Hpelm Spec
variable {K : Type} [Field K] [LinearOrder K] [IsStrictOrderedRing K]

theorem sqDiv_ok {l R : List K} (h : ∀ r ∈ R, r ≠ 0) : ∃ v, sqDiv l R = .ok v ∧ v.length = min l.length R.length := by
  unfold sqDiv
  rw [if_neg (fun h0 => h 0 h0 rfl)]
  exact ⟨_, rfl, by simp⟩

/-- The leave-one-out error of the unweighted kinds is defined if no leverage is 1. -/
theorem elmErrorPress_total {cls : Option String} {wc : Option (List (Option K))} {T Y : Mat K} {R : List K} (hcls : cls ≠ some "wc")
    (hT : T.WF) (hY : Y.WF) (hr : T.nrows = Y.nrows) (hc : T.cols = Y.cols) (hR : R.length = T.nrows) (hN : 0 < T.nrows) (hC : 0 < T.cols)
    (h0 : ∀ r ∈ R, r ≠ 0) : ∃ v, elmErrorPress cls wc T Y R = .ok v := by
  unfold elmErrorPress
  rw [if_neg (by simp [hr, hc, hR])]
  have hN' : 0 < T.rows.length := hN
  have hrr : T.rows.length = Y.rows.length := hr
  have hRR : R.length = T.rows.length := hR
  have key : ∀ {γ : Type} (f : List γ → List K) (hf : ∀ l, (f l).length = l.length) (A : List (List γ)),
      A.length = T.rows.length → (∀ a ∈ A, a.length = T.cols) →
      ∃ v, (List.zip A R).mapM (fun p => sqDiv (f p.1) (List.replicate p.1.length p.2)) = .ok v ∧ v.flatten ≠ [] := by
    intro γ f hf A hA hAc
    obtain ⟨vs, hvs⟩ := mapM_total (f := fun p : List γ × K => sqDiv (f p.1) (List.replicate p.1.length p.2)) (l := List.zip A R) (by
      intro p hp
      obtain ⟨v, hv, _⟩ := sqDiv_ok (l := f p.1) (R := List.replicate p.1.length p.2) (by
        intro r hr
        rw [(List.mem_replicate.1 hr).2]
        exact h0 _ (List.of_mem_zip hp).2)
      exact ⟨v, hv⟩)
    refine ⟨vs, hvs, ?_⟩
    obtain ⟨l1, l2⟩ := mapM_getElem hvs
    have hlen : (List.zip A R).length = T.rows.length := by simp [hA, hRR]
    have hz : 0 < (List.zip A R).length := by omega
    have hv := l2 0 hz (by omega)
    obtain ⟨v, hv', hl⟩ := sqDiv_ok (l := f (List.zip A R)[0].1) (R := List.replicate (List.zip A R)[0].1.length (List.zip A R)[0].2) (by
      intro r hr
      rw [(List.mem_replicate.1 hr).2]
      exact h0 _ (List.of_mem_zip (List.getElem_mem hz)).2)
    rw [hv'] at hv
    injection hv with hv
    intro hf0
    rw [List.flatten_eq_nil_iff] at hf0
    have : v = [] := hf0 v (by rw [hv]; exact List.getElem_mem _)
    rw [this, hf, List.length_replicate, Nat.min_self] at hl
    have hm := hAc _ (List.of_mem_zip (List.getElem_mem hz)).1
    simp only [List.length_nil] at hl
    have hz0 : 0 = T.cols := hl.trans hm
    omega
  split
  · have hlen : (misses T Y).length = T.rows.length := by unfold misses; simp [← hrr]
    obtain ⟨v, hv, hl⟩ := sqDiv_ok (l := (misses T Y).map (b2k (K := K))) h0
    rw [hv]
    refine mean?_total (l := v) ?_
    intro h
    rw [h, List.length_map, hlen, hRR] at hl
    simp at hl
    omega
  split
  · obtain ⟨v, hv, hne⟩ := key (fun l => l.map (b2k (K := K))) (by simp) (labelMisses T Y) (by unfold labelMisses; simp [← hrr]) (by
      intro a ha
      unfold labelMisses at ha
      obtain ⟨i, hi, rfl⟩ := List.getElem_of_mem ha
      simp only [List.length_zipWith] at hi
      simp only [List.getElem_zipWith, List.length_zipWith]
      rw [hT _ (List.getElem_mem _), hY _ (List.getElem_mem _), hc, Nat.min_self])
    simp only [hv]
    exact mean?_total hne
  · obtain ⟨v, hv, hne⟩ := key (fun l => l) (by simp) (List.zipWith (List.zipWith fun t y => y - t) T.rows Y.rows) (by simp [← hrr]) (by
      intro a ha
      obtain ⟨i, hi, rfl⟩ := List.getElem_of_mem ha
      simp only [List.length_zipWith] at hi
      simp only [List.getElem_zipWith, List.length_zipWith]
      rw [hT _ (List.getElem_mem _), hY _ (List.getElem_mem _), hc, Nat.min_self])
    simp only [hv]
    exact mean?_total hne

theorem scoreLOO_total {env : Env K} (hlw : Lawful env) (e : ELM K) {H T S HT : Mat K} {lam : K} (hcls : e.classification ≠ some "wc")
    (h : IsCorr H T (fun _ => 1) lam S HT) (hl : 0 < lam) (hH : H.WF) (hT : T.WF) (hN : 0 < T.nrows) (hC : 0 < T.cols) :
    ∃ v, scoreLOO env e S HT H T = .ok v := by
  obtain ⟨v, hv, _⟩ := scoreLOO_exact hlw { e with classification := none } ⟨by simp, by simp, by simp⟩ h hl hH hT hN hC
  unfold scoreLOO at hv ⊢
  cases hi : env.inv S with
  | none => rw [hi] at hv; cases hv
  | some P =>
    rw [hi] at hv
    simp only at hv ⊢
    unfold elmErrorPress at hv
    split at hv
    · cases hv
    rename_i hsh
    rw [if_neg (by simp), if_neg (by simp), if_neg (by simp)] at hv
    simp only [ne_eq, not_or, not_not] at hsh
    obtain ⟨vs, hvs, _⟩ := bind_ok hv
    obtain ⟨l1, l2⟩ := mapM_getElem hvs
    refine elmErrorPress_total hcls hT (Mat.mul_WF _ _) hsh.1 hsh.2.1 hsh.2.2 hN hC ?_
    intro r hr hr0
    obtain ⟨i, hi, rfl⟩ := List.getElem_of_mem hr
    have hn1 : i < T.rows.length := by have := hsh.2.2; unfold Mat.nrows at this; omega
    have hn2 : i < (H.mul (P.mul HT)).rows.length := by have := hsh.1; unfold Mat.nrows at this; omega
    have hz : i < (List.zip (List.zipWith (List.zipWith fun t y => y - t) T.rows (H.mul (P.mul HT)).rows) (pressR H P)).length := by
      simp only [List.length_zip, List.length_zipWith]
      omega
    have := l2 i hz (by rw [l1]; exact hz)
    simp only [List.getElem_zip, List.getElem_zipWith, hr0] at this
    unfold sqDiv at this
    rw [if_pos] at this
    · cases this
    · rw [List.mem_replicate]
      refine ⟨?_, rfl⟩
      rw [List.length_zipWith, hT _ (List.getElem_mem _), (Mat.mul_WF _ _) _ (List.getElem_mem _), ← hsh.2.1]
      omega

/-- The search ends with a size if every size can be scored. -/
theorem myopt_total {lo L0 L : Nat} {v pen : K} {score : Nat → Except PyErr K} (hlo : lo ≤ L) (hL : L ≤ L0) (h : ∀ n, ∃ s, score n = .ok s) :
    ∃ m, myopt lo L (errArray L0 L v) (fun idx => do let s ← score idx; pure (s + (idx : K) * pen)) = .ok m := by
  rcases myopt_cases (fun idx => do let s ← score idx; pure (s + (idx : K) * pen)) lo L (by omega) (by omega) (errArray L0 L v)
      (by rw [errArray_length]; omega) with ⟨n, x, _, _, h', _⟩ | ⟨k', e', h', _⟩
  · obtain ⟨s, hs⟩ := h n
    simp only [hs] at h'
    cases h'
  · exact ⟨_, h'⟩

theorem trainLOO_total {env : Env K} (hlw : Lawful env) (hx : env.Exact) {sh : List Nat} {e : ELM K} {X T H : Mat K} {rk : List Nat × Nat}
    (hc : e.classification ≠ some "wc") (hcon : Consistent e.nnet) (hcorr : e.nnet.corr = none) (hnorm : 0 < e.nnet.norm) (hb : 0 < e.batch)
    (hN : X.nrows = T.nrows) (hn : 0 < X.nrows) (hT : T.WF) (hC : 0 < T.cols) (hTc : T.cols = e.nnet.outputs)
    (hp : e.nnet.project env X = .ok H) (hsh : sh.Perm (List.range (size e.nnet)))
    (hrk : e.ranking env sh (size e.nnet) H T = .ok rk) (hpos : 0 < rk.2) : ∃ r, trainLOO env sh e X T = .ok r := by
  obtain ⟨w1, w2, w3⟩ := project_WF hcon hp
  have hL : e.nnet.L.getD 0 = H.cols := by rw [size_L hcon, w3]
  obtain ⟨e1, he1⟩ := addData_unw_total hc hb hN hn hT hcorr hp hL hTc
  obtain ⟨H', S, HT', _, a1, a2, a3, a4, a5⟩ := addData_unw hx hc hb hN hT hcorr he1
  rw [hp] at a1
  injection a1 with a1
  subst a1
  have hg : e1.nnet.getCorr! = .ok (S, HT') := by
    rw [a2]; exact getCorr!_store a5.symm rfl
  have hc1 : e1.classification ≠ some "wc" := by rw [a2]; exact hc
  have hNT : 0 < T.nrows := by omega
  have hL1 : e1.nnet.L.getD 0 = size e.nnet := by rw [a2, ← w3]; exact hL
  have hrk1 : e1.ranking env sh (e1.nnet.L.getD 0) H T = .ok rk := by
    rw [ranking_congr (e := e) (by rw [a2]) (by rw [a2]), hL1, hrk]
  obtain ⟨b1, b2, _⟩ := C40_ranking_partial env sh e (size e.nnet) H T (by rw [w3]; exact hsh) w3.symm (r := rk.1) (k := rk.2) hrk
  have hle : rk.2 ≤ size e.nnet := ranking_le hrk
  obtain ⟨full, hfull⟩ := scoreLOO_total hlw e1 hc1 a5 hnorm w1 hT hNT hC
  have hscore : ∀ n, ∃ v, scoreLOO env e1 (subSquare S (rk.1.take n)) (HT'.selRows (rk.1.take n)) (H.selCols (rk.1.take n)) T = .ok v := by
    intro n
    exact scoreLOO_total hlw e1 hc1 (a5.sub (b1.sublist (List.take_sublist _ _)) (fun i hi => b2 i (List.mem_of_mem_take hi))) hnorm
      (Mat.selCols_WF _ _) hT hNT hC
  obtain ⟨m, hm⟩ := myopt_total (lo := 1) (v := full + (rk.2 : K) * (full * (1 / 100) / (rk.2 : K))) (pen := full * (1 / 100) / (rk.2 : K))
    (by omega) hle hscore
  have hcon1 : Consistent e1.nnet := addData_consistent hcon he1
  obtain ⟨e', he'⟩ := refit_total (best := rk.1.take m.1) hcon1 hN hT (by rw [a2]; exact hTc) (by rw [a2]; exact hp : e1.nnet.project env X = .ok H)
  refine ⟨(e', m.1, m.2), ?_⟩
  unfold trainLOO
  simp only [hp, he1, hg, hrk1, hfull, bind, Except.bind]
  unfold penaltyOf
  rw [if_neg (by omega)]
  simp only [hL1]
  have := hm
  simp only [bind, Except.bind, Nat.cast_one] at this
  rw [this]
  simp only [he']
  rfl

theorem trainV_total {env : Env K} (hlw : Lawful env) (hx : env.Exact) {sh : List Nat} {e : ELM K} {X T Xv Tv H Hv : Mat K} {rk : List Nat × Nat}
    (hc : e.classification ≠ some "wc") (hcon : Consistent e.nnet) (hcorr : e.nnet.corr = none) (hb : 0 < e.batch)
    (hN : X.nrows = T.nrows) (hn : 0 < X.nrows) (hT : T.WF) (hTc : T.cols = e.nnet.outputs) (hTv : Tv.WF) (hTvc : Tv.cols = e.nnet.outputs)
    (hNv : Xv.nrows = Tv.nrows) (hnv : 0 < Xv.nrows) (ho : 0 < e.nnet.outputs)
    (hp : e.nnet.project env X = .ok H) (hpv : e.nnet.project env Xv = .ok Hv)
    (hsh : sh.Perm (List.range (size e.nnet))) (hrk : e.ranking env sh (size e.nnet) Hv Tv = .ok rk) (hpos : 0 < rk.2) :
    ∃ r, trainV env sh e X T Xv Tv = .ok r := by
  obtain ⟨w1, w2, w3⟩ := project_WF hcon hp
  obtain ⟨v1, v2, v3⟩ := project_WF hcon hpv
  have hL : e.nnet.L.getD 0 = H.cols := by rw [size_L hcon, w3]
  obtain ⟨e1, he1⟩ := addData_unw_total hc hb hN hn hT hcorr hp hL hTc
  obtain ⟨H', S, HT', _, a1, a2, a3, a4, a5⟩ := addData_unw hx hc hb hN hT hcorr he1
  rw [hp] at a1
  injection a1 with a1
  subst a1
  have hg : e1.nnet.getCorr! = .ok (S, HT') := by
    rw [a2]; exact getCorr!_store a5.symm rfl
  have hc1 : e1.classification ≠ some "wc" := by rw [a2]; exact hc
  have hL1 : e1.nnet.L.getD 0 = size e.nnet := by rw [a2, ← w3]; exact hL
  have hrk1 : e1.ranking env sh (e1.nnet.L.getD 0) Hv Tv = .ok rk := by
    rw [ranking_congr (e := e) (by rw [a2]) (by rw [a2]), hL1, hrk]
  obtain ⟨b1, b2, _⟩ := C40_ranking_partial env sh e (size e.nnet) Hv Tv (by rw [v3]; exact hsh) v3.symm (r := rk.1) (k := rk.2) hrk
  have hle : rk.2 ≤ size e.nnet := ranking_le hrk
  have hpv1 : e1.nnet.project env Xv = .ok Hv := by rw [a2]; exact hpv
  have hcol : HT'.cols = Tv.cols := by rw [a5.colsT, hTc, hTvc]
  obtain ⟨full, hfull⟩ := solve_shape_total hlw.toShapes e1.nnet (cls := e1.classification) (wc := e1.wc) (Hq := Hv) (Tq := Tv) a5.wfS a5.wfT
    (by rw [a5.rowsS, a5.colsS]) (by rw [a5.rowsT, a5.rowsS]) hTv (by omega) hcol (by omega) (by omega) (fun h => absurd h hc1)
  have hscore : ∀ n, ∃ v, scoreV env e1 S HT' Hv Tv (rk.1.take n) = .ok v := by
    intro n
    have hsub := a5.sub (idx := rk.1.take n) (b1.sublist (List.take_sublist _ _))
      (fun i hi => by rw [w3, ← v3]; exact b2 i (List.mem_of_mem_take hi))
    exact solve_shape_total hlw.toShapes e1.nnet hsub.wfS hsub.wfT (by rw [hsub.rowsS, hsub.colsS]) (by rw [hsub.rowsT, hsub.rowsS]) hTv
      (by simp; omega) (by simpa using hcol) (by omega) (by omega) (fun h => absurd h hc1)
  obtain ⟨m, hm⟩ := myopt_total (lo := 1) (v := full + (rk.2 : K) * (full * (1 / 100) / (rk.2 : K))) (pen := full * (1 / 100) / (rk.2 : K))
    (by omega) hle hscore
  have hcon1 : Consistent e1.nnet := addData_consistent hcon he1
  obtain ⟨e', he'⟩ := refit_total (best := rk.1.take m.1) hcon1 hN hT (by rw [a2]; exact hTc) (by rw [a2]; exact hp : e1.nnet.project env X = .ok H)
  refine ⟨(e', m.1, m.2), ?_⟩
  unfold trainV
  simp only [he1, hg, hpv1, hrk1, hfull, bind, Except.bind]
  unfold penaltyOf
  rw [if_neg (by omega)]
  simp only [hL1]
  have := hm
  simp only [bind, Except.bind, Nat.cast_one] at this
  rw [this]
  simp only [he']
  rfl

/-- A model, training data and options on which training makes sense: the network is consistent with a positive ridge constant, there is
at least one sample and one output, the shapes fit, the neurons can be evaluated, the options are accepted and do not ask for weighted
classification. -/
structure Trainable (env : Env K) (e e1 : ELM K) (X T H : Mat K) (args : List String) (kw : Kwargs K) : Prop where
  consistent : Consistent e.nnet
  norm : 0 < e.nnet.norm
  neurons : 0 < size e.nnet
  batch : 0 < kw.batch.getD e.batch
  inputs : X.cols = e.nnet.inputs
  outputs : T.cols = e.nnet.outputs
  some_output : 0 < T.cols
  rows : X.nrows = T.nrows
  some_row : 0 < X.nrows
  targets : T.WF
  project : e.nnet.project env X = .ok H
  options : e.parseArgs args kw = (e1, .ok ())
  unweighted : ¬ Given args "WC"

theorem Trainable.parsed {env : Env K} {e e1 : ELM K} {X T H : Mat K} {args : List String} {kw : Kwargs K} (h : Trainable env e e1 X T H args kw) :
    e1.classification ≠ some "wc" ∧ Consistent e1.nnet ∧ e1.nnet.corr = none ∧ e1.nnet.norm = e.nnet.norm ∧ 0 < e1.batch ∧
      e1.nnet.outputs = e.nnet.outputs ∧ size e1.nnet = size e.nnet ∧ (∀ X, e1.nnet.project env X = e.nnet.project env X) ∧
      e1.nnet.inputs = e.nnet.inputs := by
  obtain ⟨q1, q2, q3, q4, q5⟩ := parseArgs_kw h.options
  obtain ⟨w1, _⟩ := parseArgs_wc h.options
  refine ⟨fun hc => h.unweighted (w1 hc), by rw [q2]; exact reset_consistent h.consistent, by rw [q2]; rfl, by rw [q2]; rfl, by rw [q3]; exact h.batch,
    by rw [q2]; rfl, by rw [q2]; rfl, fun X => by rw [q2]; rfl, by rw [q2]; rfl⟩

theorem Trainable.ranked {env : Env K} {e e1 : ELM K} {X T H : Mat K} {args : List String} {kw : Kwargs K} (h : Trainable env e e1 X T H args kw)
    {sh : List Nat} {Hr Tr : Mat K} (hop : Given args "OP" → ∃ r L, e1.ranking env sh (size e.nnet) Hr Tr = .ok (r, L) ∧ 0 < L) :
    ∃ rk, e1.ranking env sh (size e.nnet) Hr Tr = .ok rk ∧ 0 < rk.2 := by
  by_cases hg : Given args "OP"
  · obtain ⟨r, L, h1, h2⟩ := hop hg
    exact ⟨_, h1, h2⟩
  · have : e1.rankingOP = false := parseArgs_inv h.options (fun e => e.rankingOP = false) rfl
      (fun a ha e he _ => parseOne_rank kw e a (fun h => hg (h ▸ ha)) he) (fun _ _ h => h)
    refine ⟨(sh, size e.nnet), ?_, h.neurons⟩
    unfold ELM.ranking
    rw [if_neg (by simp [this])]
    rfl

theorem Trainable.checked {env : Env K} {e e1 : ELM K} {X T H : Mat K} {args : List String} {kw : Kwargs K} (h : Trainable env e e1 X T H args kw)
    (fs : Files K) : checkBoth fs e.nnet (.mat X) (.mat T) = .ok (X, T) := by
  unfold checkBoth checkData checkOne pyAssert
  simp [h.inputs, h.outputs, h.rows, bind, Except.bind, pure, Except.pure]

/-- C86 (leave-one-out).  Training with leave-one-out selection completes for every network with at least one neuron and every non-empty
data set, in regression, classification and multi-label classification; with 'OP' whenever the ranking of the neurons does. -/
theorem C86_loo_completes_partial (env : Env K) (hl : Lawful env) (hx : env.Exact) (fs : Files K) (rnd : Rnd) (e e1 : ELM K) (X T H : Mat K)
    (args : List String) (kw : Kwargs K) (h : Trainable env e e1 X T H args kw) (hv : "V" ∉ args) (hcv : "CV" ∉ args) (hloo : "LOO" ∈ args)
    (hop : Given args "OP" → ∃ r L, e1.ranking env (rnd.shuffles 0) (size e.nnet) H T = .ok (r, L) ∧ 0 < L)
    (hsh : (rnd.shuffles 0).Perm (List.range (size e.nnet))) :
    ∃ e', e.train env fs rnd (.mat X) (.mat T) args kw = (.ok none, e') := by
  obtain ⟨p1, p2, p3, p4, p5, p6, p7, p8, _⟩ := h.parsed
  obtain ⟨rk, hrk, hpos⟩ := h.ranked hop
  obtain ⟨r, hr⟩ := trainLOO_total (sh := rnd.shuffles 0) hl hx p1 p2 p3 (by rw [p4]; exact h.norm) p5 h.rows h.some_row h.targets h.some_output
    (by rw [p6]; exact h.outputs) (by rw [p8]; exact h.project) (by rw [p7]; exact hsh) (by rw [p7]; exact hrk) hpos
  refine ⟨r.1, ?_⟩
  unfold ELM.train
  rw [h.checked]
  simp only
  rw [h.options]
  simp only
  unfold ELM.trainBody
  rw [if_neg hv, if_neg hcv, if_pos hloo, hr]
  rfl

/-- C86 (validation).  Training with selection on a validation set completes for every network with at least one neuron and all non-empty
training and validation sets of the right shapes, in regression, classification and multi-label classification; with 'OP' whenever the
ranking of the neurons does. -/
theorem C86_validation_completes_partial (env : Env K) (hl : Lawful env) (hx : env.Exact) (fs : Files K) (rnd : Rnd) (e e1 : ELM K) (X T H Xv Tv Hv : Mat K)
    (args : List String) (kw : Kwargs K) (h : Trainable env e e1 X T H args kw) (hv : "V" ∈ args) (hxv : kw.Xv = some (.mat Xv))
    (htv : kw.Tv = some (.mat Tv)) (hvi : Xv.cols = e.nnet.inputs) (hvo : Tv.cols = e.nnet.outputs) (hvn : Xv.nrows = Tv.nrows)
    (hvp : 0 < Xv.nrows) (hvw : Tv.WF) (hpv : e.nnet.project env Xv = .ok Hv)
    (hop : Given args "OP" → ∃ r L, e1.ranking env (rnd.shuffles 0) (size e.nnet) Hv Tv = .ok (r, L) ∧ 0 < L)
    (hsh : (rnd.shuffles 0).Perm (List.range (size e.nnet))) :
    ∃ e', e.train env fs rnd (.mat X) (.mat T) args kw = (.ok none, e') := by
  obtain ⟨p1, p2, p3, p4, p5, p6, p7, p8, p9⟩ := h.parsed
  obtain ⟨rk, hrk, hpos⟩ := h.ranked hop
  have ho := h.some_output
  rw [h.outputs] at ho
  obtain ⟨r, hr⟩ := trainV_total (sh := rnd.shuffles 0) hl hx (Xv := Xv) (Tv := Tv) p1 p2 p3 p5 h.rows h.some_row h.targets
    (by rw [p6]; exact h.outputs) hvw (by rw [p6]; exact hvo) hvn hvp (by rw [p6]; exact ho) (by rw [p8]; exact h.project)
    (by rw [p8]; exact hpv) (by rw [p7]; exact hsh) (by rw [p7]; exact hrk) hpos
  refine ⟨r.1, ?_⟩
  have hcv : checkBoth fs e1.nnet (.mat Xv) (.mat Tv) = .ok (Xv, Tv) := by
    unfold checkBoth checkData checkOne pyAssert
    simp [hvi, hvo, hvn, p6, p9, bind, Except.bind, pure, Except.pure]
  unfold ELM.train
  rw [h.checked]
  simp only
  rw [h.options]
  simp only
  unfold ELM.trainBody
  rw [if_pos hv, hxv, htv]
  simp only [hcv, bind, Except.bind, hr]
  rfl

theorem exModel3_trainable (args : List String) (kw : Kwargs ℚ) {e1 : ELM ℚ} (hb : 0 < kw.batch.getD 2) (ho : exModel3.parseArgs args kw = (e1, .ok ()))
    (hw : ¬ Given args "WC") : ∃ H, Trainable (lawEnv QEnv.env) exModel3 e1 ⟨1, [[1], [2], [3], [5]]⟩ ⟨1, [[1], [0], [3], [2]]⟩ H args kw :=
  ⟨_, exModel3_consistent, by decide +kernel, by decide, hb, rfl, rfl, by decide, rfl, by decide, (by
    show ∀ r ∈ ([[1], [0], [3], [2]] : List (List ℚ)), r.length = 1
    decide), rfl, ho, hw⟩

/-- The hypotheses of `C86_loo_completes_partial` are met: three neurons, leave-one-out. -/
example : ∃ e', exModel3.train (lawEnv QEnv.env) (fun _ => none) ⟨fun _ => [2, 0, 1]⟩ (.mat ⟨1, [[1], [2], [3], [5]]⟩)
      (.mat ⟨1, [[1], [0], [3], [2]]⟩) ["LOO"] {} = (.ok none, e') := by
  obtain ⟨H, h⟩ := exModel3_trainable ["LOO"] {} (by decide) rfl (by decide)
  exact C86_loo_completes_partial _ (lawEnv_lawful _) (lawEnv_exact _) _ _ _ _ _ _ _ _ _ h (by decide) (by decide) (by decide) (fun h => absurd h (by decide))
    (by show List.Perm [2, 0, 1] (List.range 3); decide)

/-- A call with optimal pruning limited to two neurons, on a validation set. -/
def exPruning : Kwargs ℚ := { Xv := some (.mat ⟨1, [[1], [2], [-1]]⟩), Tv := some (.mat ⟨1, [[1], [0], [2]]⟩), kmax := some 2 }

/-- The hypotheses of `C86_validation_completes_partial` are met, with optimal pruning. -/
theorem exPruning_completes : ∃ e', exModel3.train (lawEnv QEnv.env) (fun _ => none) ⟨fun _ => [2, 0, 1]⟩ (.mat ⟨1, [[1], [2], [3], [5]]⟩)
      (.mat ⟨1, [[1], [0], [3], [2]]⟩) ["V", "OP"] exPruning = (.ok none, e') := by
  obtain ⟨H, h⟩ := exModel3_trainable ["V", "OP"] exPruning (by decide) rfl (by decide)
  refine C86_validation_completes_partial _ (lawEnv_lawful _) (lawEnv_exact _) _ _ _ _ _ _ _ _ _ _ _ _ h (by decide) rfl rfl rfl rfl rfl (by decide) (by
    show ∀ r ∈ ([[1], [0], [2]] : List (List ℚ)), r.length = 1
    decide) rfl (fun _ => ?_) (by show List.Perm [2, 0, 1] (List.range 3); decide)
  refine ⟨[0, 1], 2, ?_, by decide⟩
  with_unfolding_all rfl

/-- A network with a single neuron. -/
def oneNeuron : ELM ℚ :=
  { nnet := { solver := .python, prec := .double, inputs := 1, outputs := 1, norm := 1, neurons := [⟨1, .name "lin", [[1]], [0]⟩], L := some 1, B := none, corr := none }
    batch := 2, prec := .double, accelerator := none, classification := none, wc := none, rankingOP := false, kmaxOp := none }

/-- C86 (refuted).  Optimal pruning of a network with a single neuron raises `ValueError`, whatever the linear algebra. -/
theorem C86_single_neuron_refuted (env : Env ℚ) (hx : env.Exact) : ∃ e1 X T H, Trainable env oneNeuron e1 X T H ["LOO", "OP"] {} ∧
    (oneNeuron.train env (fun _ => none) ⟨fun _ => [0]⟩ (.mat X) (.mat T) ["LOO", "OP"] {}).1 = .error .valueError := by
  have hp : oneNeuron.nnet.project env ⟨1, [[1], [2]]⟩ = .ok ⟨1, [[1], [2]]⟩ := by
    with_unfolding_all rfl
  have hT : (⟨1, [[1], [2]]⟩ : Mat ℚ).WF := by
    show ∀ r ∈ ([[1], [2]] : List (List ℚ)), r.length = 1
    decide
  have hcon : Consistent oneNeuron.nnet := by
    refine ⟨?_, by decide, Or.inl rfl, ?_, ?_⟩
    · show ∀ g ∈ ([⟨1, .name "lin", [[1]], [0]⟩] : List (Group ℚ)), g.W.length = g.number ∧ g.B.length = g.number ∧ ∀ w ∈ g.W, w.length = 1
      decide
    · intro B h; cases h
    · intro a b h; cases h
  have htr : Trainable env oneNeuron { oneNeuron with rankingOP := true } ⟨1, [[1], [2]]⟩ ⟨1, [[1], [2]]⟩ _ ["LOO", "OP"] {} :=
    ⟨hcon, by decide +kernel, by decide, by decide, rfl, rfl, by decide, rfl, by decide, hT, hp, rfl, by decide⟩
  refine ⟨_, _, _, _, htr, ?_⟩
  obtain ⟨p1, p2, p3, p4, p5, p6, p7, p8, _⟩ := htr.parsed
  obtain ⟨e2, he2⟩ := addData_unw_total p1 p5 htr.rows htr.some_row hT p3 (by rw [p8]; exact hp) rfl rfl
  obtain ⟨H, S, HT, _, a1, a2, a3, a4, a5⟩ := addData_unw hx p1 p5 htr.rows hT p3 he2
  have hg : e2.nnet.getCorr! = .ok (S, HT) := by
    rw [a2]; exact getCorr!_store a5.symm rfl
  unfold ELM.train
  rw [htr.checked]
  simp only
  rw [htr.options]
  simp only
  have : trainLOO env [0] { oneNeuron with rankingOP := true } ⟨1, [[1], [2]]⟩ ⟨1, [[1], [2]]⟩ = .error .valueError := by
    unfold trainLOO
    rw [p8, hp]
    simp only [bind, Except.bind, he2, hg]
    rw [show e2.ranking env [0] (e2.nnet.L.getD 0) ⟨1, [[1], [2]]⟩ ⟨1, [[1], [2]]⟩ = .error .valueError by
      rw [a2]
      with_unfolding_all rfl]
  unfold ELM.trainBody
  rw [if_neg (by decide), if_neg (by decide), if_pos (by decide)]
  simp only [bind, Except.bind, this]

end Hpelm.Props
