import Verif.Props.C86_Completes
import Verif.Props.C93_WeightEffect
import Verif.Lemmas.WeightedTotal

/-!
# C86 for weighted classification
-/

set_option linter.unusedSectionVars false

namespace Hpelm.Props
open Hpelm Spec Finset
variable {K : Type} [Field K] [LinearOrder K] [IsStrictOrderedRing K]

/-- A model, training data and options on which weighted classification makes sense: as `Trainable`, with one-hot targets; the class weights
are given, none of them negative and not all zero, or chosen automatically from targets in which every class occurs. -/
structure WTrainable (env : Env K) (e e1 : ELM K) (X T H : Mat K) (args : List String) (kw : Kwargs K) : Prop where
  consistent : Consistent e.nnet
  norm : 0 < e.nnet.norm
  neurons : 0 < size e.nnet
  batch : 0 < kw.batch.getD e.batch
  inputs : X.cols = e.nnet.inputs
  outputs : T.cols = e.nnet.outputs
  some_output : 0 < T.cols
  rows : X.nrows = T.nrows
  some_row : 0 < X.nrows
  targets : T.WF
  project : e.nnet.project env X = .ok H
  options : e.parseArgs args kw = (e1, .ok ())
  weighted : Given args "WC"
  sqrt : ∀ x : K, 0 ≤ x → env.sqrt x * env.sqrt x = x
  oneHot : OneHot T
  weights : (∃ ws, kw.w = some ws ∧ (∀ x ∈ ws, 0 ≤ x) ∧ 0 < ws.sum) ∨ (kw.w = none ∧ ∀ k < T.cols, ∃ r ∈ T.rows, IsClass T.cols r k)

theorem parseArgs_auto {e e1 : ELM K} {args : List String} {kw : Kwargs K} (h : e.parseArgs args kw = (e1, .ok ())) (hw : kw.w = none) : e1.wc = none := by
  refine parseArgs_inv h (fun e => e.wc = none) rfl (fun a' _ e he _ => ?_) (fun _ _ h => h)
  unfold parseOne
  rw [hw]
  split_ifs <;> exact he

/-- What `train` does before selecting: the options are read and the weighted correlation matrices collected. -/
theorem WTrainable.collected {env : Env K} (hx : env.Exact) {e e1 : ELM K} {X T H : Mat K} {args : List String} {kw : Kwargs K}
    (h : WTrainable env e e1 X T H args kw) :
    Consistent e1.nnet ∧ e1.nnet.norm = e.nnet.norm ∧ e1.nnet.outputs = e.nnet.outputs ∧ e1.nnet.inputs = e.nnet.inputs ∧ size e1.nnet = size e.nnet ∧
      (∀ X, e1.nnet.project env X = e.nnet.project env X) ∧
      ∃ (e2 : ELM K) (S HT : Mat K) (w : Nat → K) (ws : List K), e1.addData env X T = .ok e2 ∧ e2.nnet.getCorr! = .ok (S, HT) ∧ e2.nnet = { e1.nnet with corr := e2.nnet.corr } ∧
        e2.rankingOP = e1.rankingOP ∧ e2.kmaxOp = e1.kmaxOp ∧ IsCorr H T w e.nnet.norm S HT ∧ (∀ s < T.nrows, 0 ≤ w s) ∧
        (e2.classification = some "wc" → e2.wc = some (ws.map some) ∧ 0 < ws.sum ∧ ws.length = T.cols) ∧
        ((∀ v, kw.w = some v → ∀ x ∈ v, 1 ≤ x) → ∀ s < T.nrows, 1 ≤ w s) ∧ e2.classification = e1.classification ∧
        SampleWeights e2.classification e2.wc T w := by
  obtain ⟨q1, q2, q3, q4, q5⟩ := parseArgs_kw h.options
  have hcon1 : Consistent e1.nnet := by rw [q2]; exact reset_consistent h.consistent
  have hcorr : e1.nnet.corr = none := by rw [q2]; rfl
  have hp : ∀ X, e1.nnet.project env X = e.nnet.project env X := fun X => by rw [q2]; rfl
  have hb : 0 < e1.batch := by rw [q3]; exact h.batch
  have ho : e1.nnet.outputs = e.nnet.outputs := by rw [q2]; rfl
  obtain ⟨_, _, w3⟩ := project_WF h.consistent h.project
  have hL : e1.nnet.L.getD 0 = H.cols := by rw [size_L hcon1, w3, q2]; rfl
  have hwt : e1.wc = none ∨ ∃ ws : List K, e1.wc = some (ws.map some) ∧ (∀ x ∈ ws, 0 ≤ x) ∧ ws.length = T.cols := by
    rcases h.weights with ⟨ws, a, b, _⟩ | ⟨a, _⟩
    · obtain ⟨c, d⟩ := parseArgs_given a h.weighted h.options
      exact Or.inr ⟨ws, d, b, by rw [c, h.outputs]⟩
    · left
      exact parseArgs_auto h.options a
  obtain ⟨e2, he2⟩ := addData_total (T := T) hx hb h.rows h.some_row (by rw [hp]; exact h.project) hcorr hL (by rw [ho]; exact h.outputs)
    (fun _ => h.oneHot) (by
      rcases hwt with hw | ⟨ws, a, _, b⟩
      · exact Or.inl hw
      · exact Or.inr ⟨ws, a, b⟩)
  obtain ⟨S, HT, w, a1, a2, a3, a4, a5⟩ := addData_isCorr hx (fun _ => h.sqrt) hb h.rows h.targets hcorr (fun _ => h.oneHot) hwt
    (by rw [hp]; exact h.project) he2
  have hg : e2.nnet.getCorr! = .ok (S, HT) := by
    rw [a2]; exact getCorr!_store a5.symm rfl
  have hn : e1.nnet.norm = e.nnet.norm := by rw [q2]; rfl
  rw [hn] at a5
  have hcls : e2.classification = e1.classification := by rw [a2]; exact autoWc_cls env e1 _
  have hfr : (e1.autoWc env (colSums T)).rankingOP = e1.rankingOP ∧ (e1.autoWc env (colSums T)).kmaxOp = e1.kmaxOp := by
    unfold ELM.autoWc
    split <;> exact ⟨rfl, rfl⟩
  have hwc2 : e2.wc = (e1.autoWc env (colSums T)).wc := by rw [a2]
  have huse : e1.classification = some "wc" → ∃ ws : List K, e2.wc = some (ws.map some) ∧ 0 < ws.sum ∧ ws.length = T.cols ∧
      ((∀ v, kw.w = some v → ∀ x ∈ v, 1 ≤ x) → ∀ x ∈ ws, 1 ≤ x) := by
    intro hc
    rw [hwc2]
    rcases h.weights with ⟨ws, a, b, b'⟩ | ⟨a, b⟩
    · obtain ⟨c, d⟩ := parseArgs_given a h.weighted h.options
      exact ⟨ws, autoWc_some d, b', by rw [c, h.outputs], fun h1 => h1 ws a⟩
    · have hnone : e1.wc = none := parseArgs_auto h.options a
      obtain ⟨ws, c1, c2, c3⟩ := autoWc_usable hx hc h.oneHot (Or.inr ⟨hnone, b⟩)
      refine ⟨ws, c1, ?_, c3, fun _ => c2⟩
      have : ws ≠ [] := by
        intro h0
        rw [h0] at c3
        have := h.some_output
        simp only [List.length_nil] at c3
        omega
      exact List.sum_pos _ (fun x hx => zero_lt_one.trans_le (c2 x hx)) this
  refine ⟨hcon1, hn, ho, by rw [q2]; rfl, by rw [q2]; rfl, hp, ?_⟩
  by_cases hc : e1.classification = some "wc"
  · obtain ⟨ws, d1, d2, d3, d4⟩ := huse hc
    refine ⟨e2, S, HT, w, ws, he2, hg, by rw [a2], by rw [a2]; exact hfr.1, by rw [a2]; exact hfr.2, a5, a4, fun _ => ⟨d1, d2, d3⟩, ?_, hcls, a3⟩
    intro hv s hs
    obtain ⟨l, k, b1, b2, b3⟩ := (a3 s hs).2 (by rw [hcls]; exact hc)
    rw [d1] at b1
    injection b1 with b1
    subst b1
    rw [List.getElem?_map] at b3
    cases hk : ws[k]? with
    | none => rw [hk] at b3; cases b3
    | some x =>
      rw [hk] at b3
      injection b3 with b3
      injection b3 with b3
      rw [← b3]
      exact d4 hv x (List.mem_of_getElem? hk)
  · refine ⟨e2, S, HT, w, [], he2, hg, by rw [a2], by rw [a2]; exact hfr.1, by rw [a2]; exact hfr.2, a5, a4, fun h => absurd (hcls ▸ h) hc, ?_, hcls, a3⟩
    intro _ s hs
    rw [(a3 s hs).1 (by rw [hcls]; exact hc)]


theorem WTrainable.ranked {env : Env K} {e e1 : ELM K} {X T H : Mat K} {args : List String} {kw : Kwargs K} (h : WTrainable env e e1 X T H args kw)
    {sh : List Nat} {Hr Tr : Mat K} (hop : Given args "OP" → ∃ r L, e1.ranking env sh (size e.nnet) Hr Tr = .ok (r, L) ∧ 0 < L) :
    ∃ rk, e1.ranking env sh (size e.nnet) Hr Tr = .ok rk ∧ 0 < rk.2 := by
  by_cases hg : Given args "OP"
  · obtain ⟨r, L, h1, h2⟩ := hop hg
    exact ⟨_, h1, h2⟩
  · have : e1.rankingOP = false := parseArgs_inv h.options (fun e => e.rankingOP = false) rfl
      (fun a ha e he _ => parseOne_rank kw e a (fun h => hg (h ▸ ha)) he) (fun _ _ h => h)
    refine ⟨(sh, size e.nnet), ?_, h.neurons⟩
    unfold ELM.ranking
    rw [if_neg (by simp [this])]
    rfl

theorem WTrainable.checked {env : Env K} {e e1 : ELM K} {X T H : Mat K} {args : List String} {kw : Kwargs K} (h : WTrainable env e e1 X T H args kw)
    (fs : Files K) : checkBoth fs e.nnet (.mat X) (.mat T) = .ok (X, T) := by
  unfold checkBoth checkData checkOne pyAssert
  simp [h.inputs, h.outputs, h.rows, bind, Except.bind, pure, Except.pure]

theorem bind_pure_total {α β : Type} {a : Except PyErr α} {f : α → β} (h : ∃ v, a = .ok v) : ∃ b, (do let v ← a; pure (f v)) = Except.ok (ε := PyErr) b := by
  obtain ⟨v, rfl⟩ := h
  exact ⟨_, rfl⟩

/-- The leave-one-out error of any kind is defined if no leverage is 1 and the class weights are numbers. -/
theorem elmErrorPress_total_w {cls : Option String} {wc : Option (List (Option K))} {T Y : Mat K} {R : List K}
    (hw : cls = some "wc" → ∃ ws : List K, wc = some (ws.map some) ∧ ws.length = T.cols)
    (hT : T.WF) (hY : Y.WF) (hr : T.nrows = Y.nrows) (hc : T.cols = Y.cols) (hR : R.length = T.nrows) (hN : 0 < T.nrows) (hC : 0 < T.cols)
    (h0 : ∀ r ∈ R, r ≠ 0) : ∃ v, elmErrorPress cls wc T Y R = .ok v := by
  by_cases hcls : cls = some "wc"
  swap
  · exact elmErrorPress_total hcls hT hY hr hc hR hN hC h0
  obtain ⟨ws, hws, hl⟩ := hw hcls
  unfold elmErrorPress
  rw [if_neg (by simp [hr, hc, hR]), if_neg (by rw [hcls]; decide), if_pos hcls, hws]
  have key : ∀ i ∈ List.range T.cols, ∃ b, (do
      let v ← sqDiv (((T.rows.zip (Y.rows.zip R)).filter fun p => decide (p.1.getD i 0 = 1)).map fun p => b2k (K := K) (argmax p.2.1 != i))
        (((T.rows.zip (Y.rows.zip R)).filter fun p => decide (p.1.getD i 0 = 1)).map fun p => p.2.2)
      pure ((mean? v).getD 0) : Except PyErr K) = .ok b := by
    intro i _
    have hz : ∀ r ∈ ((T.rows.zip (Y.rows.zip R)).filter fun p => decide (p.1.getD i 0 = 1)).map (fun p => p.2.2), r ≠ 0 := by
      intro r hr
      obtain ⟨p, hp, rfl⟩ := List.mem_map.1 hr
      exact h0 _ (List.of_mem_zip (List.of_mem_zip (List.mem_of_mem_filter hp)).2).2
    exact bind_pure_total (let ⟨v, hv, _⟩ := sqDiv_ok hz; ⟨v, hv⟩)
  obtain ⟨errc, he⟩ := mapM_total key
  have hlen : errc.length = T.cols := by
    have := (mapM_getElem he).1
    simpa using this
  simp only
  rw [he]
  simp only [bind, Except.bind, mapM_id_some]
  refine mean?_total ?_
  intro h
  have := congrArg List.length h
  simp only [List.length_zipWith, List.length_nil] at this
  omega

theorem scoreLOO_total_w {env : Env K} (hlw : Lawful env) (e : ELM K) {H T S HT : Mat K} {w : Nat → K} {lam : K}
    (hw : e.classification = some "wc" → ∃ ws : List K, e.wc = some (ws.map some) ∧ ws.length = T.cols)
    (h : IsCorr H T w lam S HT) (hl : 0 < lam) (h1 : ∀ s < T.nrows, 1 ≤ w s) (hH : H.WF) (hT : T.WF) (hN : 0 < T.nrows) (hC : 0 < T.cols) :
    ∃ v, scoreLOO env e S HT H T = .ok v := by
  obtain ⟨P, hP⟩ := inv_total hlw h hl (fun s hs => zero_le_one.trans (h1 s hs))
  have hsq : S.nrows = S.cols := by rw [h.rowsS, h.colsS]
  obtain ⟨p1, p2, p3, p4, p5⟩ := hlw.inv_sol S P h.wfS hsq hP
  rw [h.rowsS] at p2 p3
  unfold scoreLOO
  rw [hP]
  refine elmErrorPress_total_w hw hT (Mat.mul_WF _ _) (by simp [h.samples]) (by simp [h.colsT]) (by simpa [pressR, Mat.nrows] using h.samples) hN hC ?_
  intro r hr hr0
  obtain ⟨i, hi, rfl⟩ := List.getElem_of_mem hr
  have hi' : i < H.nrows := by simpa [pressR, Mat.nrows] using hi
  have := pressR_getD hH p2 p3 hi'
  rw [List.getD_eq_getElem _ _ hi, hr0] at this
  exact weighted_leverage h hl p2 p3 p5 h1 (by rw [← h.samples]; exact hi') (by linear_combination this)

/-- C86 (weighted leave-one-out).  Weighted classification with leave-one-out selection completes for every network with at least one neuron
and every non-empty data set if the class weights are chosen automatically and every class occurs, or are given and none is less than 1. -/
theorem C86_weighted_loo_partial (env : Env K) (hl : Lawful env) (hx : env.Exact) (fs : Files K) (rnd : Rnd) (e e1 : ELM K) (X T H : Mat K)
    (args : List String) (kw : Kwargs K) (h : WTrainable env e e1 X T H args kw) (h1 : ∀ ws, kw.w = some ws → ∀ x ∈ ws, 1 ≤ x)
    (hv : "V" ∉ args) (hcv : "CV" ∉ args) (hloo : "LOO" ∈ args)
    (hop : Given args "OP" → ∃ r L, e1.ranking env (rnd.shuffles 0) (size e.nnet) H T = .ok (r, L) ∧ 0 < L)
    (hsh : (rnd.shuffles 0).Perm (List.range (size e.nnet))) :
    ∃ e', e.train env fs rnd (.mat X) (.mat T) args kw = (.ok none, e') := by
  obtain ⟨p2, p4, p6, _, p7, p8, e2, S, HT, w, ws, he2, hg, hnn, hr1, hr2, a5, hw0, hws, hw1, _, _⟩ := h.collected hx
  obtain ⟨rk, hrk, hpos⟩ := h.ranked hop
  obtain ⟨w1, _, w3⟩ := project_WF h.consistent h.project
  have hNT : 0 < T.nrows := by rw [← h.rows]; exact h.some_row
  have hC := h.some_output
  have hcon2 : Consistent e2.nnet := addData_consistent p2 he2
  have hsz : size e2.nnet = size e.nnet := by rw [hnn]; exact p7
  have hL2 : e2.nnet.L.getD 0 = size e.nnet := by rw [size_L hcon2, hsz]
  have hrk2 : e2.ranking env (rnd.shuffles 0) (e2.nnet.L.getD 0) H T = .ok rk := by
    rw [ranking_congr (e := e1) hr1 hr2, hL2, hrk]
  obtain ⟨b1, b2, _⟩ := C40_ranking_partial env (rnd.shuffles 0) e1 (size e.nnet) H T (by rw [w3]; exact hsh) w3.symm (r := rk.1) (k := rk.2) hrk
  have hle : rk.2 ≤ size e.nnet := ranking_le hrk
  have hwc : e2.classification = some "wc" → ∃ ws : List K, e2.wc = some (ws.map some) ∧ ws.length = T.cols := fun hc =>
    ⟨ws, (hws hc).1, (hws hc).2.2⟩
  obtain ⟨full, hfull⟩ := scoreLOO_total_w hl e2 hwc a5 h.norm (hw1 h1) w1 h.targets hNT hC
  have hscore : ∀ n, ∃ v, scoreLOO env e2 (subSquare S (rk.1.take n)) (HT.selRows (rk.1.take n)) (H.selCols (rk.1.take n)) T = .ok v := by
    intro n
    exact scoreLOO_total_w hl e2 hwc (a5.sub (b1.sublist (List.take_sublist _ _)) (fun i hi => b2 i (List.mem_of_mem_take hi))) h.norm (hw1 h1)
      (Mat.selCols_WF _ _) h.targets hNT hC
  obtain ⟨m, hm⟩ := myopt_total (lo := 1) (v := full + (rk.2 : K) * (full * (1 / 100) / (rk.2 : K))) (pen := full * (1 / 100) / (rk.2 : K))
    (by omega) hle hscore
  have ho2 : e2.nnet.outputs = e.nnet.outputs := by rw [hnn]; exact p6
  have hp2 : e2.nnet.project env X = .ok H := by
    rw [hnn, ← h.project, ← p8]; rfl
  obtain ⟨e', he'⟩ := refit_total (best := rk.1.take m.1) hcon2 h.rows h.targets (by rw [ho2]; exact h.outputs) hp2
  have hr : trainLOO env (rnd.shuffles 0) e1 X T = .ok (e', m.1, m.2) := by
    unfold trainLOO
    simp only [p8, h.project, he2, hg, hrk2, hfull, bind, Except.bind]
    unfold penaltyOf
    rw [if_neg (by omega)]
    simp only [hL2]
    have := hm
    simp only [bind, Except.bind, Nat.cast_one] at this
    rw [this]
    simp only [he']
    rfl
  refine ⟨e', ?_⟩
  unfold ELM.train
  rw [h.checked]
  simp only
  rw [h.options]
  simp only
  unfold ELM.trainBody
  rw [if_neg hv, if_neg hcv, if_pos hloo, hr]
  rfl

/-- C86 (weighted validation).  Weighted classification with selection on a validation set completes for every network with at least one
neuron and all non-empty training and validation sets of the right shapes, with given and with automatic class weights. -/
theorem C86_weighted_validation_partial (env : Env K) (hl : Lawful env) (hx : env.Exact) (fs : Files K) (rnd : Rnd) (e e1 : ELM K)
    (X T H Xv Tv Hv : Mat K) (args : List String) (kw : Kwargs K) (h : WTrainable env e e1 X T H args kw) (hv : "V" ∈ args)
    (hxv : kw.Xv = some (.mat Xv)) (htv : kw.Tv = some (.mat Tv)) (hvi : Xv.cols = e.nnet.inputs) (hvo : Tv.cols = e.nnet.outputs)
    (hvn : Xv.nrows = Tv.nrows) (hvp : 0 < Xv.nrows) (hvw : Tv.WF) (hpv : e.nnet.project env Xv = .ok Hv)
    (hop : Given args "OP" → ∃ r L, e1.ranking env (rnd.shuffles 0) (size e.nnet) Hv Tv = .ok (r, L) ∧ 0 < L)
    (hsh : (rnd.shuffles 0).Perm (List.range (size e.nnet))) :
    ∃ e', e.train env fs rnd (.mat X) (.mat T) args kw = (.ok none, e') := by
  obtain ⟨p2, p4, p6, p9, p7, p8, e2, S, HT, w, ws, he2, hg, hnn, hr1, hr2, a5, hw0, hws, _, _, _⟩ := h.collected hx
  obtain ⟨rk, hrk, hpos⟩ := h.ranked hop
  obtain ⟨w1, _, w3⟩ := project_WF h.consistent h.project
  obtain ⟨v1, v2, v3⟩ := project_WF h.consistent hpv
  have hC := h.some_output
  have hcon2 : Consistent e2.nnet := addData_consistent p2 he2
  have hsz : size e2.nnet = size e.nnet := by rw [hnn]; exact p7
  have hL2 : e2.nnet.L.getD 0 = size e.nnet := by rw [size_L hcon2, hsz]
  have hrk2 : e2.ranking env (rnd.shuffles 0) (e2.nnet.L.getD 0) Hv Tv = .ok rk := by
    rw [ranking_congr (e := e1) hr1 hr2, hL2, hrk]
  obtain ⟨b1, b2, _⟩ := C40_ranking_partial env (rnd.shuffles 0) e1 (size e.nnet) Hv Tv (by rw [v3]; exact hsh) v3.symm (r := rk.1) (k := rk.2) hrk
  have hle : rk.2 ≤ size e.nnet := ranking_le hrk
  have ho2 : e2.nnet.outputs = e.nnet.outputs := by rw [hnn]; exact p6
  have hp2 : ∀ X, e2.nnet.project env X = e.nnet.project env X := by
    intro X
    rw [hnn, ← p8]; rfl
  have hcol : HT.cols = Tv.cols := by rw [a5.colsT, h.outputs, hvo]
  have hwc : e2.classification = some "wc" → ∃ ws : List K, e2.wc = some (ws.map some) ∧ ws.sum ≠ 0 := fun hc =>
    ⟨ws, (hws hc).1, (hws hc).2.1.ne'⟩
  have hTvc : 0 < Tv.cols := by rw [hvo, ← h.outputs]; exact hC
  obtain ⟨full, hfull⟩ := solve_shape_total hl.toShapes e2.nnet (cls := e2.classification) (wc := e2.wc) (Hq := Hv) (Tq := Tv) a5.wfS a5.wfT
    (by rw [a5.rowsS, a5.colsS]) (by rw [a5.rowsT, a5.rowsS]) hvw (by omega) hcol (by omega) hTvc hwc
  have hscore : ∀ n, ∃ v, scoreV env e2 S HT Hv Tv (rk.1.take n) = .ok v := by
    intro n
    have hsub := a5.sub (idx := rk.1.take n) (b1.sublist (List.take_sublist _ _))
      (fun i hi => by rw [w3, ← v3]; exact b2 i (List.mem_of_mem_take hi))
    exact solve_shape_total hl.toShapes e2.nnet hsub.wfS hsub.wfT (by rw [hsub.rowsS, hsub.colsS]) (by rw [hsub.rowsT, hsub.rowsS]) hvw
      (by simp; omega) (by simpa using hcol) (by omega) hTvc hwc
  obtain ⟨m, hm⟩ := myopt_total (lo := 1) (v := full + (rk.2 : K) * (full * (1 / 100) / (rk.2 : K))) (pen := full * (1 / 100) / (rk.2 : K))
    (by omega) hle hscore
  obtain ⟨e', he'⟩ := refit_total (best := rk.1.take m.1) hcon2 h.rows h.targets (by rw [ho2]; exact h.outputs) ((hp2 X).trans h.project)
  have hr : trainV env (rnd.shuffles 0) e1 X T Xv Tv = .ok (e', m.1, m.2) := by
    unfold trainV
    simp only [he2, hg, hp2, hpv, hrk2, hfull, bind, Except.bind]
    unfold penaltyOf
    rw [if_neg (by omega)]
    simp only [hL2]
    have := hm
    simp only [bind, Except.bind, Nat.cast_one] at this
    rw [this]
    simp only [he']
    rfl
  refine ⟨e', ?_⟩
  have hcv : checkBoth fs e1.nnet (.mat Xv) (.mat Tv) = .ok (Xv, Tv) := by
    unfold checkBoth checkData checkOne pyAssert
    simp [hvi, hvo, hvn, p6, p9, bind, Except.bind, pure, Except.pure]
  unfold ELM.train
  rw [h.checked]
  simp only
  rw [h.options]
  simp only
  unfold ELM.trainBody
  rw [if_pos hv, hxv, htv]
  simp only [hcv, bind, Except.bind, hr]
  rfl

theorem isClass_two : IsClass 2 ([1, 0] : List ℝ) 0 ∧ IsClass 2 ([0, 1] : List ℝ) 1 := by
  constructor
  · refine ⟨by omega, rfl, fun j hj => ?_⟩
    have : j = 0 ∨ j = 1 := by omega
    rcases this with rfl | rfl <;> simp
  · refine ⟨by omega, rfl, fun j hj => ?_⟩
    have : j = 0 ∨ j = 1 := by omega
    rcases this with rfl | rfl <;> simp

theorem linModel_parse_wc (s : Solver) (W : List (List ℝ)) (flag : String) (hf : flag = "LOO" ∨ flag = "V") (kw : Kwargs ℝ)
    (hw : ∀ ws, kw.w = some ws → ws.length = 2) (hb : kw.batch = none) :
    (linModel s 2 1 W).parseArgs ["wc", flag] kw =
      (ELM.mk (linModel s 2 1 W).nnet.reset 2 .double none (some "wc") (kw.w.map fun ws => ws.map some) false none, .ok ()) := by
  have hupper : (["wc", flag] : List String).map upper = ["WC", flag] := by
    rcases hf with rfl | rfl <;> decide +kernel
  unfold ELM.parseArgs
  rw [hupper, if_neg (by simp [linModel])]
  have h1 : atMostOne ["WC", flag] ["V", "CV", "LOO"] = true := by rcases hf with rfl | rfl <;> decide +kernel
  have h2 : atMostOne ["WC", flag] ["C", "WC", "ML", "MC"] = true := by rcases hf with rfl | rfl <;> decide +kernel
  have h3 : flag ≠ "C" ∧ flag ≠ "WC" ∧ flag ≠ "ML" ∧ flag ≠ "MC" ∧ flag ≠ "R" ∧ flag ≠ "OP" := by rcases hf with rfl | rfl <;> decide
  simp only [h1, h2, Bool.not_true, Bool.false_eq_true, if_false, parseLoop, parseOne, hb, h3]
  cases hk : kw.w with
  | none => rfl
  | some ws =>
    have := hw ws hk
    simp only [linModel, reduceIte, NNet.reset, this]
    rfl

theorem linModel_wtrainable (s : Solver) (flag : String) (hf : flag = "LOO" ∨ flag = "V") (kw : Kwargs ℝ) (hb : kw.batch = none)
    (hw : kw.w = none ∨ kw.w = some [1, 3]) :
    ∃ e1 H, WTrainable realEnv (linModel s 2 1 [[1, 0], [0, 1]]) e1 ⟨2, [[1, 0], [0, 1], [2, 3]]⟩ ⟨2, [[1, 0], [0, 1], [1, 0]]⟩ H ["wc", flag] kw := by
  obtain ⟨H, hH⟩ := linModel_project s 2 1 [[1, 0], [0, 1]] ⟨2, [[1, 0], [0, 1], [2, 3]]⟩ rfl
  refine ⟨_, H, linModel_consistent s 2 1 [[1, 0], [0, 1]] (by simp), by simp [linModel], by simp [linModel, size], by simp [linModel, hb], rfl, rfl, by simp, rfl,
    by simp [Mat.nrows], by simp [Mat.WF], hH, linModel_parse_wc s _ flag hf kw (fun ws h => by rcases hw with h' | h' <;> rw [h'] at h <;> cases h; rfl) hb, ?_,
    fun x hx => Real.mul_self_sqrt hx, exOneHot, ?_⟩
  · unfold Given
    rcases hf with rfl | rfl <;> decide +kernel
  · rcases hw with h | h
    · refine Or.inr ⟨h, fun k hk => ?_⟩
      have hk' : k < 2 := hk
      have : k = 0 ∨ k = 1 := by omega
      rcases this with rfl | rfl
      · exact ⟨[1, 0], by simp, isClass_two.1⟩
      · exact ⟨[0, 1], by simp, isClass_two.2⟩
    · refine Or.inl ⟨_, h, by simp, by norm_num⟩

/-- The hypotheses of `C86_weighted_loo_partial` are met: two neurons, three samples, automatic weights; and with the weights (1, 3). -/
example (s : Solver) (w : Option (List ℝ)) (hw : w = none ∨ w = some [1, 3]) :
    ∃ e', (linModel s 2 1 [[1, 0], [0, 1]]).train realEnv (fun _ => none) ⟨fun _ => [1, 0]⟩
      (.mat ⟨2, [[1, 0], [0, 1], [2, 3]]⟩) (.mat ⟨2, [[1, 0], [0, 1], [1, 0]]⟩) ["wc", "LOO"] { w := w } = (.ok none, e') := by
  obtain ⟨e1, H, h⟩ := linModel_wtrainable s "LOO" (Or.inl rfl) { w := w } rfl hw
  refine C86_weighted_loo_partial realEnv (lawEnv_lawful _) (lawEnv_exact _) _ _ _ e1 _ _ H _ _ h ?_ (by decide) (by decide) (by decide)
    (fun h => absurd h (by unfold Given; decide +kernel)) (by show List.Perm [1, 0] (List.range 2); decide)
  intro ws h
  rcases hw with h' | h'
  · rw [h'] at h; cases h
  · rw [h'] at h
    injection h with h
    subst h
    simp

/-- The hypotheses of `C86_weighted_validation_partial` are met. -/
example (s : Solver) : ∃ e', (linModel s 2 1 [[1, 0], [0, 1]]).train realEnv (fun _ => none) ⟨fun _ => [1, 0]⟩
      (.mat ⟨2, [[1, 0], [0, 1], [2, 3]]⟩) (.mat ⟨2, [[1, 0], [0, 1], [1, 0]]⟩) ["wc", "V"]
      { Xv := some (.mat ⟨2, [[1, 1]]⟩), Tv := some (.mat ⟨2, [[1, 0]]⟩) } = (.ok none, e') := by
  obtain ⟨e1, H, h⟩ := linModel_wtrainable s "V" (Or.inr rfl) { Xv := some (.mat ⟨2, [[1, 1]]⟩), Tv := some (.mat ⟨2, [[1, 0]]⟩) } rfl (Or.inl rfl)
  obtain ⟨Hv, hv⟩ := linModel_project s 2 1 [[1, 0], [0, 1]] ⟨2, [[1, 1]]⟩ rfl
  exact C86_weighted_validation_partial realEnv (lawEnv_lawful _) (lawEnv_exact _) _ _ _ e1 _ _ H _ _ Hv _ _ h (by decide) rfl rfl rfl rfl rfl
    (by simp [Mat.nrows]) (by simp [Mat.WF]) hv
    (fun h => absurd h (by unfold Given; decide +kernel)) (by show List.Perm [1, 0] (List.range 2); decide)

theorem press_value (P : Mat ℝ) (h1 : P.nrows = 1) (h2 : P.cols = 1) (h3 : P.get 0 0 = 4 / 9) :
    pressR (⟨1, [[3 / 2], [1 / 2]]⟩ : Mat ℝ) P = [0, 8 / 9] := by
  unfold pressR Mat.vecMul dot
  rw [h1, h2]
  simp [h3]
  norm_num

theorem press_zero (wc : Option (List (Option ℝ))) (y0 y1 : List ℝ) (r : ℝ) :
    elmErrorPress (some "wc") wc ⟨2, [[1, 0], [0, 1]]⟩ ⟨2, [y0, y1]⟩ [0, r] = .error .nonFinite := by
  unfold elmErrorPress
  rw [if_neg (by simp [Mat.nrows]), if_neg (by decide), if_pos rfl]
  simp [List.range_succ, sqDiv, bind, Except.bind]

/-- C86 (refuted).  With class weights less than 1 leave-one-out selection can divide by zero, because the leverages are computed from the
weighted correlation matrix and the unweighted samples: one neuron, two samples, weights (1/2, 1/2), regularisation 1. -/
theorem C86_weighted_loo_refuted (s : Solver) (rnd : Rnd) : ∃ e1 X T H,
    WTrainable realEnv (linModel s 2 1 [[1, 0]]) e1 X T H ["wc", "LOO"] { w := some [1 / 2, 1 / 2] } ∧
    ((linModel s 2 1 [[1, 0]]).train realEnv (fun _ => none) rnd (.mat X) (.mat T) ["wc", "LOO"] { w := some [1 / 2, 1 / 2] }).1 =
      .error .nonFinite := by
  have hlaw : Lawful realEnv := lawEnv_lawful _
  have hex : realEnv.Exact := lawEnv_exact _
  have hH : (linModel s 2 1 [[1, 0]]).nnet.project realEnv ⟨2, [[3 / 2, 0], [1 / 2, 0]]⟩ = .ok ⟨1, [[3 / 2], [1 / 2]]⟩ := by
    refine (project_ok_iff _ _ _ _).2 ⟨rfl, ?_, by simp [linModel], ?_⟩
    · intro g hg
      simp only [linModel, List.mem_singleton] at hg
      subst hg
      rfl
    · simp [linModel, width, rowOut, groupAct, dot, act]
  have hone : OneHot (⟨2, [[1, 0], [0, 1]]⟩ : Mat ℝ) := by
    intro r hr
    simp only [List.mem_cons, List.not_mem_nil, or_false] at hr
    rcases hr with rfl | rfl
    · exact ⟨0, isClass_two.1⟩
    · exact ⟨1, isClass_two.2⟩
  have ht : WTrainable realEnv (linModel s 2 1 [[1, 0]]) _ ⟨2, [[3 / 2, 0], [1 / 2, 0]]⟩ ⟨2, [[1, 0], [0, 1]]⟩ ⟨1, [[3 / 2], [1 / 2]]⟩ ["wc", "LOO"]
      { w := some [1 / 2, 1 / 2] } :=
    ⟨linModel_consistent s 2 1 [[1, 0]] (by simp), by simp [linModel], by simp [linModel, size], by simp [linModel], rfl, rfl, by simp, rfl,
      by simp [Mat.nrows], by simp [Mat.WF], hH, linModel_parse_wc s _ "LOO" (Or.inl rfl) _ (fun ws h => by cases h; rfl) rfl, by unfold Given; decide +kernel,
      fun x hx => Real.mul_self_sqrt hx, hone, Or.inl ⟨_, rfl, by simp, by norm_num⟩⟩
  refine ⟨_, _, _, _, ht, ?_⟩
  obtain ⟨p2, p4, p6, p9, p7, p8, e2, S, HT, w, ws, he2, hg, hnn, hr1, hr2, a5, hw0, hws, _, hc2, hsw⟩ := ht.collected hex
  have hcls : e2.classification = some "wc" := hc2
  have hwc : e2.wc = some [some (1 / 2), some (1 / 2)] := by
    rw [addData_wc he2]
    exact autoWc_some rfl
  have hw : ∀ s < 2, w s = 1 / 2 := by
    intro s hs
    obtain ⟨l, k, b1, b2, b3⟩ := (hsw s hs).2 hcls
    rw [hwc] at b1
    injection b1 with b1
    subst b1
    have hk : k < 2 := b2.1
    have : k = 0 ∨ k = 1 := by omega
    rcases this with rfl | rfl
    · simpa using b3.symm
    · simpa using b3.symm
  have hS : S.get 0 0 = 9 / 4 := by
    rw [a5.sumS 0 (by simp) 0 (by simp)]
    show (if (0 : Nat) = 0 then (linModel s 2 1 [[1, 0]]).nnet.norm else 0) + ∑ t ∈ range 2, _ = _
    rw [Finset.sum_range_succ, Finset.sum_range_succ, Finset.sum_range_zero, hw 0 (by omega), hw 1 (by omega)]
    simp [linModel, Mat.get]
    norm_num
  obtain ⟨P, hP⟩ := inv_total hlaw a5 (by simp [linModel]) hw0
  obtain ⟨q1, q2, q3, q4, q5⟩ := hlaw.inv_sol S P a5.wfS (by rw [a5.rowsS, a5.colsS]) hP
  have hSr : S.nrows = 1 := a5.rowsS
  rw [hSr] at q2 q3 q4
  have hP0 : P.get 0 0 = 4 / 9 := by
    have h1 : (P.mul S).get 0 0 = (Mat.diag 1 1 : Mat ℝ).get 0 0 := by rw [q4]
    rw [Mat.get_mul (by omega) (by rw [a5.colsS]; simp), Mat.diag, Mat.get_ofFn] at h1
    rw [hSr] at h1
    simp [hS] at h1
    linarith
  have hscore : scoreLOO realEnv e2 S HT ⟨1, [[3 / 2], [1 / 2]]⟩ ⟨2, [[1, 0], [0, 1]]⟩ = .error .nonFinite := by
    unfold scoreLOO
    rw [hP, hcls]
    simp only
    rw [press_value P q2 q3 hP0]
    have : (P.mul HT).cols = 2 := a5.colsT
    unfold Mat.mul at this ⊢
    simp only at this
    simp only [this, List.map_cons, List.map_nil]
    exact press_zero _ _ _ _
  have hr : trainLOO realEnv (rnd.shuffles 0)
      (ELM.mk (linModel s 2 1 [[1, 0]]).nnet.reset 2 .double none (some "wc") ((some [1 / 2, 1 / 2] : Option (List ℝ)).map fun ws => ws.map some) false none)
      ⟨2, [[3 / 2, 0], [1 / 2, 0]]⟩ ⟨2, [[1, 0], [0, 1]]⟩ = .error .nonFinite := by
    unfold trainLOO
    rw [p8, hH]
    simp only [bind, Except.bind, he2, hg]
    have : e2.ranking realEnv (rnd.shuffles 0) (e2.nnet.L.getD 0) ⟨1, [[3 / 2], [1 / 2]]⟩ ⟨2, [[1, 0], [0, 1]]⟩ = .ok (rnd.shuffles 0, e2.nnet.L.getD 0) := by
      unfold ELM.ranking
      rw [if_neg (by rw [hr1]; simp)]
      rfl
    rw [this]
    simp only [hscore]
  unfold ELM.train
  rw [ht.checked]
  simp only
  rw [ht.options]
  simp only
  unfold ELM.trainBody
  rw [if_neg (by decide), if_neg (by decide), if_pos (by decide), hr]
  rfl

end Hpelm.Props
