import Verif.Lemmas.Ridge
import Verif.Spec.Ridge

/-! Plain training in one step: the accumulated matrices are sums over the samples. -/

set_option linter.unusedSectionVars false

namespace Hpelm
open Spec Finset
variable {K : Type} [Field K] [LinearOrder K]

theorem parseOne_kw (kw : Kwargs K) (e : ELM K) (a : String)
    (h : e.wc = none ∨ ∃ ws, kw.w = some ws ∧ e.wc = some (ws.map some)) :
    ((parseOne kw e a).1.wc = none ∨ ∃ ws, kw.w = some ws ∧ (parseOne kw e a).1.wc = some (ws.map some)) ∧
    (parseOne kw e a).1.nnet = e.nnet ∧ (parseOne kw e a).1.batch = e.batch ∧ (parseOne kw e a).1.prec = e.prec := by
  unfold parseOne
  split
  · exact ⟨h, rfl, rfl, rfl⟩
  split
  · split <;> exact ⟨h, rfl, rfl, rfl⟩
  split
  · split
    · cases hw : kw.w with
      | none => rw [hw] at h; exact ⟨h, rfl, rfl, rfl⟩
      | some w =>
        simp only
        split
        · exact ⟨Or.inr ⟨w, rfl, rfl⟩, rfl, rfl, rfl⟩
        · rw [hw] at h; exact ⟨h, rfl, rfl, rfl⟩
    · exact ⟨h, rfl, rfl, rfl⟩
  split
  · split <;> exact ⟨h, rfl, rfl, rfl⟩
  split <;> exact ⟨h, rfl, rfl, rfl⟩

theorem parseLoop_kw (kw : Kwargs K) (as : List String) (e : ELM K)
    (h : e.wc = none ∨ ∃ ws, kw.w = some ws ∧ e.wc = some (ws.map some)) :
    ((parseLoop kw as e).1.wc = none ∨ ∃ ws, kw.w = some ws ∧ (parseLoop kw as e).1.wc = some (ws.map some)) ∧
    (parseLoop kw as e).1.nnet = e.nnet ∧ (parseLoop kw as e).1.batch = e.batch ∧ (parseLoop kw as e).1.prec = e.prec := by
  induction as generalizing e with
  | nil => exact ⟨h, rfl, rfl, rfl⟩
  | cons a as ih =>
    obtain ⟨h1, h2, h3, h4⟩ := parseOne_kw kw e a h
    unfold parseLoop
    rcases hp : parseOne kw e a with ⟨e', (x | u)⟩
    · rw [hp] at h1 h2 h3 h4
      exact ⟨h1, h2, h3, h4⟩
    · rw [hp] at h1 h2 h3 h4
      obtain ⟨i1, i2, i3, i4⟩ := ih e' h1
      exact ⟨i1, i2.trans h2, i3.trans h3, i4.trans h4⟩

/-- State after successful argument parsing. -/
theorem parseArgs_kw {kw : Kwargs K} {args : List String} {e e1 : ELM K} (h : e.parseArgs args kw = (e1, .ok ())) :
    (e1.wc = none ∨ ∃ ws, kw.w = some ws ∧ e1.wc = some (ws.map some)) ∧ e1.nnet = e.nnet.reset ∧
    e1.batch = kw.batch.getD e.batch ∧ e1.prec = e.prec ∧ e.nnet.neurons ≠ [] := by
  unfold ELM.parseArgs at h
  split at h
  · cases h
  rename_i hne
  have hne : e.nnet.neurons ≠ [] := by simpa using hne
  simp only at h
  split at h
  · cases h
  split at h
  · cases h
  obtain ⟨i1, i2, i3, i4⟩ := parseLoop_kw kw (args.map upper)
    { e with nnet := e.nnet.reset, rankingOP := false, kmaxOp := none, classification := none, wc := none } (Or.inl rfl)
  split at h
  · cases h
  rename_i e' hp
  rw [hp] at i1 i2 i3 i4
  simp only at i1 i2 i3 i4
  injection h with h1 h2
  cases hb : kw.batch with
  | none => rw [hb] at h1; rw [← h1]; exact ⟨i1, i2, i3, i4, hne⟩
  | some b => rw [hb] at h1; rw [← h1]; exact ⟨i1, i2, rfl, i4, hne⟩

/-- A successful `train` goes through its three stages. -/
theorem train_ok {env : Env K} {fs rnd} {e e' : ELM K} {X T : DataArg K} {args kw r}
    (h : e.train env fs rnd X T args kw = (.ok r, e')) :
    ∃ X' T' e1, checkBoth fs e.nnet X T = .ok (X', T') ∧ e.parseArgs args kw = (e1, .ok ()) ∧
      e1.trainBody env fs rnd X' T' args kw = .ok (r, e') := by
  unfold ELM.train at h
  split at h
  · injection h with h; cases h
  rename_i X' T' hc
  split at h
  · injection h with h; cases h
  rename_i e1 hp
  split at h
  · injection h with h; cases h
  rename_i r' e2 hb
  injection h with h1 h2
  injection h1 with h1
  exact ⟨X', T', e1, hc, hp, by rw [hb, h1, h2]⟩

theorem trainBody_plain {env : Env K} {fs rnd} {e e' : ELM K} {X T : Mat K} {args kw r}
    (hv : "V" ∉ args) (hcv : "CV" ∉ args) (hl : "LOO" ∉ args)
    (h : e.trainBody env fs rnd X T args kw = .ok (r, e')) :
    r = none ∧ ∃ e2 n, e.addData env X T = .ok e2 ∧ e2.nnet.solve env = .ok n ∧ e' = { e2 with nnet := n } := by
  unfold ELM.trainBody at h
  rw [if_neg hv, if_neg hcv, if_neg hl] at h
  obtain ⟨e2, h1, h⟩ := bind_ok h
  obtain ⟨n, h2, h⟩ := bind_ok h
  simp only [pure, Except.pure] at h
  injection h with h
  injection h with h3 h4
  exact ⟨h3.symm, e2, n, h1, h2, h4.symm⟩

theorem corr0_none {n : NNet K} (h : n.corr = none) :
    n.corr0 = (n.store (Mat.diag (n.L.getD 0) n.norm), Mat.zeros (n.L.getD 0) n.outputs) := by
  rw [diag_store]
  unfold NNet.corr0
  rw [h]

theorem addBatch_corr_some {env : Env K} {n n' : NNet K} {X T : Mat K} {w} (h : n.addBatch env X T w = .ok n') : n'.corr ≠ none := by
  rw [addBatch_eq] at h
  cases hp : n.project env X with
  | error x => rw [hp] at h; cases h
  | ok H =>
    rw [hp] at h
    simp only [Except.bind] at h
    unfold NNet.accum at h
    obtain ⟨⟨H', T'⟩, hw, h⟩ := bind_ok h
    have h : n.accum env H' T' none = .ok n' := h
    rw [accum_none] at h
    split at h
    · cases h
    split at h
    · cases h
    injection h with h
    rw [← h]; simp

theorem feed_corr_keep {env : Env K} {ic oc : Nat} {bs} {e e' : ELM K} (hc : e.nnet.corr ≠ none)
    (h : e.feed env ic oc bs = .ok e') : e'.nnet.corr ≠ none := by
  induction bs generalizing e with
  | nil => injection h with h; rw [← h]; exact hc
  | cons b bs ih =>
    obtain ⟨Xb, Tb⟩ := b
    unfold ELM.feed at h
    obtain ⟨w, _, h⟩ := bind_ok h
    obtain ⟨n, h2, h⟩ := bind_ok h
    exact ih (addBatch_corr_some h2) h

theorem feed_corr_some {env : Env K} {ic oc : Nat} {bs} {e e' : ELM K} (hb : bs ≠ [])
    (h : e.feed env ic oc bs = .ok e') : e'.nnet.corr ≠ none := by
  cases bs with
  | nil => exact absurd rfl hb
  | cons b bs =>
    obtain ⟨Xb, Tb⟩ := b
    unfold ELM.feed at h
    obtain ⟨w, _, h⟩ := bind_ok h
    obtain ⟨n, h2, h⟩ := bind_ok h
    exact feed_corr_keep (addBatch_corr_some h2) h

section ordered
variable [IsStrictOrderedRing K]

/-- The weights in force are non-negative. -/
def WNonneg (cls : Option String) (wc : Option (List (Option K))) (T : Mat K) : Prop :=
  cls = some "wc" → ∀ r ∈ T.rows, 0 ≤ wtOf wc T.cols r

theorem auto_nonneg {env : Env K} (hx : env.Exact) {T : Mat K} (hT : OneHot T) (p : Prec) (r : List K) (hr : r ∈ T.rows) :
    0 ≤ wtOf (some (autoWeights ((colSums T).map (env.cast p)))) T.cols r := by
  obtain ⟨k, hk⟩ := hT r hr
  have hlen : (colSums T).length = T.cols := by simp [colSums]
  have hkl : k < (colSums T).length := by rw [hlen]; exact hk.1
  have hnn : ∀ x ∈ colSums T, 0 ≤ x := by
    intro x hx
    obtain ⟨i, hi, rfl⟩ := List.mem_iff_getElem.1 hx
    have := colSums_oneHot hT i (by rw [← hlen]; exact hi)
    rw [List.getD_eq_getElem?_getD, List.getElem?_eq_getElem hi] at this
    simp only [Option.getD_some] at this
    rw [this]
    exact Nat.cast_nonneg _
  rw [Mat.map_of_exact (hx p)]
  unfold wtOf autoWeights
  rw [classOf_isClass hk]
  simp only [Option.getD_some]
  rw [List.getElem?_map, List.getElem?_eq_getElem hkl]
  simp only [Option.map_some, Option.getD_some]
  split
  · simp
  · exact div_nonneg (List.sum_nonneg hnn) (hnn _ (List.getElem_mem hkl))

theorem explicit_nonneg {ws : List K} (h : ∀ x ∈ ws, 0 ≤ x) (c : Nat) (r : List K) :
    0 ≤ wtOf (some (ws.map some)) c r := by
  unfold wtOf
  simp only [Option.getD_some]
  rw [List.getElem?_map]
  cases hk : ws[classOf c r]? with
  | none => simp
  | some x =>
    simp only [Option.map_some, Option.getD_some]
    exact h x (List.mem_of_getElem? hk)

/-- The weight function given by `wts`. -/
def wfun (cls : Option String) (wc : Option (List (Option K))) (T : Mat K) (s : Nat) : K :=
  if cls = some "wc" then wtOf wc T.cols (T.rows.getD s []) else 1

theorem wfac_wfun {env : Env K} (hx : env.Exact) {p : Prec}
    {cls : Option String} (hsq : cls = some "wc" → ∀ x : K, 0 ≤ x → env.sqrt x * env.sqrt x = x) {wc : Option (List (Option K))} {T : Mat K} (hn : WNonneg cls wc T) {s : Nat} (hs : s < T.nrows) :
    wfac env p (wts cls wc T) s * wfac env p (wts cls wc T) s = wfun cls wc T s := by
  have hs' : s < T.rows.length := hs
  unfold wfac wts wfun
  by_cases hc : cls = some "wc"
  · rw [if_pos hc, if_pos hc]
    simp only [hx p]
    rw [List.getD_eq_getElem?_getD, List.getElem?_map, List.getD_eq_getElem?_getD, List.getElem?_eq_getElem hs']
    simp only [Option.map_some, Option.getD_some]
    exact hsq hc _ (hn hc _ (List.getElem_mem hs'))
  · rw [if_neg hc, if_neg hc]; simp

theorem wfun_spec {cls : Option String} {wc : Option (List (Option K))} {T : Mat K} (hT : cls = some "wc" → OneHot T)
    (hw : WOk cls wc T) : SampleWeights cls wc T (wfun cls wc T) := by
  intro s hs
  have hs' : s < T.rows.length := hs
  have hrow : T.rows.getD s [] = T.rows[s] := by rw [List.getD_eq_getElem?_getD, List.getElem?_eq_getElem hs']; rfl
  refine ⟨fun hc => by unfold wfun; rw [if_neg hc], ?_⟩
  intro hc
  obtain ⟨l, hl, hr⟩ := hw hc
  obtain ⟨k, hk⟩ := hT hc _ (List.getElem_mem hs')
  obtain ⟨x, hx⟩ := hr _ (List.getElem_mem hs')
  rw [hrow]
  refine ⟨l, k, hl, hk, ?_⟩
  unfold wfun wtOf
  rw [if_pos hc, hrow, hl]
  simp only [Option.getD_some]
  rw [hx, ← hx, classOf_isClass hk]
  rw [classOf_isClass hk] at hx
  rw [hx]; rfl

/-- `add_data` into an empty accumulator, as sums over the samples. -/
theorem addData_fresh {env : Env K} (hx : env.Exact)
    {e e' : ELM K} {X T : Mat K} (hsq : e.classification = some "wc" → ∀ x : K, 0 ≤ x → env.sqrt x * env.sqrt x = x) (hb : 0 < e.batch) (hN : X.nrows = T.nrows) (hTw : T.WF) (hc : e.nnet.corr = none)
    (hT : e.classification = some "wc" → OneHot T)
    (hw : e.wc = none ∨ ∃ ws : List K, e.wc = some (ws.map some) ∧ (∀ x ∈ ws, 0 ≤ x) ∧ ws.length = T.cols)
    (h : e.addData env X T = .ok e') :
    ∃ (H S HT : Mat K) (w : Nat → K), 0 < X.nrows ∧ e.nnet.project env X = .ok H ∧ H.nrows = X.nrows ∧ H.cols = e.nnet.L.getD 0 ∧
      T.cols = e.nnet.outputs ∧
      e' = { e.autoWc env (colSums T) with nnet := { e.nnet with corr := some (e.nnet.store S, HT) } } ∧
      SymM S ∧ S.nrows = H.cols ∧ HT.WF ∧ HT.nrows = H.cols ∧ HT.cols = T.cols ∧
      SampleWeights e'.classification e'.wc T w ∧ (∀ s < T.nrows, 0 ≤ w s) ∧
      (∀ i < H.cols, ∀ j < H.cols, S.get i j = (if i = j then e.nnet.norm else 0) + ∑ s ∈ range T.nrows, w s * H.get s i * H.get s j) ∧
      (∀ i < H.cols, ∀ j < T.cols, HT.get i j = ∑ s ∈ range T.nrows, w s * H.get s i * T.get s j) := by
  by_cases hn : X.nrows = 0
  · rw [addData_empty hb hn] at h; cases h
  have hn' : 0 < X.nrows := Nat.pos_of_ne_zero hn
  have hOne : e.classification = some "wc" → OneEach T.cols T.rows := fun hc => (oneHot_oneEach (hT hc))
  have hcls := autoWc_cls env e (colSums T)
  have hWOk : WOk e.classification (e.autoWc env (colSums T)).wc T ∧ WNonneg e.classification (e.autoWc env (colSums T)).wc T := by
    by_cases hwc : e.classification = some "wc"
    · rcases hw with hw | ⟨ws, hw, hpos, hlen⟩
      · have : (e.autoWc env (colSums T)).wc = some (autoWeights ((colSums T).map (env.cast e.prec))) := by
          unfold ELM.autoWc; rw [if_pos ⟨hwc, hw⟩]
        rw [this]
        exact ⟨auto_WOk hx hT, fun _ r hr => auto_nonneg hx (hT hwc) _ r hr⟩
      · have : (e.autoWc env (colSums T)).wc = some (ws.map some) := by
          unfold ELM.autoWc; rw [if_neg (by rw [hw]; simp), hw]
        rw [this]
        exact ⟨explicit_WOk hT hlen, fun _ r hr => explicit_nonneg hpos _ r⟩
    · exact ⟨fun h => absurd h hwc, fun h => absurd h hwc⟩
  rw [addData_wts hb hn' hN ⟨hOne, hWOk.1⟩] at h
  cases hab : e.nnet.addBatch env X T (wts e.classification (e.autoWc env (colSums T)).wc T) with
  | error x => rw [hab] at h; cases h
  | ok n' =>
    rw [hab] at h
    injection h with h
    have hlenw : ∀ v, wts e.classification (e.autoWc env (colSums T)).wc T = some v → v.length = T.nrows := by
      intro v hv
      unfold wts at hv
      split at hv
      · injection hv with hv; rw [← hv]; simp [Mat.nrows]
      · cases hv
    obtain ⟨H, S, HT, p1, p2, p3, p4, p5, p6, p7, p8, p9, p10, p11, p12⟩ :=
      addBatch_sums (corr0_none hc) (SymM.diag _ _) hN hTw hlenw hab
    have hdc : (Mat.diag (e.nnet.L.getD 0) e.nnet.norm).cols = e.nnet.L.getD 0 := by simp
    have hdn : (Mat.diag (e.nnet.L.getD 0) e.nnet.norm).nrows = e.nnet.L.getD 0 := by simp
    have hzc : (Mat.zeros (e.nnet.L.getD 0) e.nnet.outputs : Mat K).cols = e.nnet.outputs := by simp [Mat.zeros]
    have hzn : (Mat.zeros (e.nnet.L.getD 0) e.nnet.outputs : Mat K).nrows = e.nnet.L.getD 0 := by simp [Mat.zeros]
    rw [hdc] at p3 p11
    rw [hdn] at p7 p11
    rw [hzn] at p9 p12
    rw [hzc] at p10 p12
    rw [hdc] at p12
    refine ⟨H, S, HT, wfun e.classification (e.autoWc env (colSums T)).wc T, hn', p1, p2, p3, p4, ?_, p6, ?_, p8, ?_, ?_, ?_, ?_, ?_, ?_⟩
    · rw [← h, p5]
    · rw [p7, p3]
    · rw [p9, p3]
    · rw [p10, p4]
    · rw [← h]
      show SampleWeights (e.autoWc env (colSums T)).classification _ _ _
      rw [hcls]
      exact wfun_spec hT hWOk.1
    · intro s hs
      unfold wfun
      split
      · rename_i hwc
        have hs' : s < T.rows.length := hs
        rw [List.getD_eq_getElem?_getD, List.getElem?_eq_getElem hs']
        exact hWOk.2 hwc _ (List.getElem_mem hs')
      · exact zero_le_one
    · intro i hi j hj
      rw [p3] at hi hj
      rw [p11 i j hi hj, Mat.get_diag hi hj, hN]
      congr 1
      apply Finset.sum_congr rfl
      intro s hs
      rw [wfac_wfun hx hsq hWOk.2 (Finset.mem_range.1 hs)]
    · intro i hi j hj
      rw [p3] at hi
      have hj' : j < e.nnet.outputs := by rw [← p4]; exact hj
      rw [p12 i j hi hj' hi hj, hN]
      have hz : (Mat.zeros (e.nnet.L.getD 0) e.nnet.outputs : Mat K).get i j = 0 := by
        unfold Mat.zeros; rw [Mat.get_ofFn_lt hi hj']
      rw [hz, zero_add]
      apply Finset.sum_congr rfl
      intro s hs
      rw [wfac_wfun hx hsq hWOk.2 (Finset.mem_range.1 hs), hx]

/-- Plain training, in one step. -/
theorem train_plain' {env : Env K} (hx : env.Exact)
    {fs rnd} {e e' : ELM K} {X T : Mat K} {args kw r} 
    (hsq : e'.classification = some "wc" → ∀ x : K, 0 ≤ x → env.sqrt x * env.sqrt x = x) (hv : "V" ∉ args) (hcv : "CV" ∉ args) (hl : "LOO" ∉ args)
    (hb : 0 < kw.batch.getD e.batch) (hTw : T.WF) (hT : e'.classification = some "wc" → OneHot T)
    (hw : ∀ ws, kw.w = some ws → ∀ x ∈ ws, 0 ≤ x)
    (h : e.train env fs rnd (.mat X) (.mat T) args kw = (.ok r, e')) :
    ∃ (H S HT : Mat K) (w : Nat → K), 0 < X.nrows ∧ X.nrows = T.nrows ∧ e.nnet.project env X = .ok H ∧ H.nrows = X.nrows ∧
      H.cols = (e.nnet.neurons.map (·.number)).sum ∧ T.cols = e.nnet.outputs ∧
      e'.nnet = { e.nnet.reset with corr := some (e.nnet.store S, HT), B := some (e.nnet.solveCorr env (e.nnet.store S) HT) } ∧
      SymM S ∧ S.nrows = H.cols ∧ HT.WF ∧ HT.nrows = H.cols ∧ HT.cols = T.cols ∧
      SampleWeights e'.classification e'.wc T w ∧ (∀ s < T.nrows, 0 ≤ w s) ∧
      (∀ i < H.cols, ∀ j < H.cols, S.get i j = (if i = j then e.nnet.norm else 0) + ∑ s ∈ range T.nrows, w s * H.get s i * H.get s j) ∧
      (∀ i < H.cols, ∀ j < T.cols, HT.get i j = ∑ s ∈ range T.nrows, w s * H.get s i * T.get s j) := by
  obtain ⟨X', T', e1, h1, h2, h3⟩ := train_ok h
  have hXT : X' = X ∧ T' = T := by
    unfold checkBoth checkData checkOne at h1
    simp only [bind_assoc, pure_bind] at h1
    obtain ⟨_, _, h1⟩ := bind_ok h1
    obtain ⟨_, _, h1⟩ := bind_ok h1
    obtain ⟨_, _, h1⟩ := bind_ok h1
    injection h1 with h1
    injection h1 with h1 h2
    exact ⟨h1.symm, h2.symm⟩
  obtain ⟨rfl, rfl⟩ := hXT
  obtain ⟨hXc, hTc, hN⟩ := checkBoth_ok h1
  obtain ⟨q1, q2, q3, q4, q5⟩ := parseArgs_kw h2
  obtain ⟨w1, w2⟩ := parseArgs_wc h2
  obtain ⟨rfl, e2, n, a1, a2, a3⟩ := trainBody_plain hv hcv hl h3
  have hcls : e1.classification = e'.classification := by
    obtain ⟨c, hc⟩ := addData_fields a1
    rw [a3, hc]
    exact (autoWc_cls env e1 _).symm
  obtain ⟨H, S, HT, w, p0, p1, p2, p3, p4, p5, p6, p7, p8, p9, p10, p11, p12, p13, p14⟩ :=
    addData_fresh hx (by rw [hcls]; exact hsq) (by rw [q3]; exact hb) hN hTw (by rw [q2]; rfl) (by rw [hcls]; exact hT)
      (by
        rcases q1 with q1 | ⟨ws, k1, k2⟩
        · exact Or.inl q1
        · refine Or.inr ⟨ws, k2, hw ws k1, ?_⟩
          rcases w2 with w2 | ⟨ws', k3, k4⟩
          · rw [w2] at k2; cases k2
          · rw [k3] at k2
            injection k2 with k2
            have : ws' = ws := List.map_injective_iff.2 (Option.some_injective _) k2
            rw [← this, k4, hTc]) a1
  rw [q2] at p1 p3 p5 p13
  refine ⟨H, S, HT, w, p0, hN, p1, p2, p3, hTc, ?_, p6, p7, p8, p9, p10, ?_, p12, p13, p14⟩
  · rw [a3]
    rw [p5] at a2
    unfold NNet.solve at a2
    simp only at a2
    injection a2 with a2
    rw [← a2]
    rfl
  · rw [a3]; exact p11

/-- Plain training, in one step. -/
theorem train_plain {env : Env K} (hx : env.Exact)
    {fs rnd} {e e' : ELM K} {X T : Mat K} {args kw r}
    (hsq : "WC" ∈ args.map upper → ∀ x : K, 0 ≤ x → env.sqrt x * env.sqrt x = x)
    (hv : "V" ∉ args) (hcv : "CV" ∉ args) (hl : "LOO" ∉ args)
    (hb : 0 < kw.batch.getD e.batch) (hTw : T.WF) (hT : "WC" ∈ args.map upper → OneHot T)
    (hw : ∀ ws, kw.w = some ws → ∀ x ∈ ws, 0 ≤ x)
    (h : e.train env fs rnd (.mat X) (.mat T) args kw = (.ok r, e')) :
    ∃ (H S HT : Mat K) (w : Nat → K), 0 < X.nrows ∧ X.nrows = T.nrows ∧ e.nnet.project env X = .ok H ∧ H.nrows = X.nrows ∧
      H.cols = (e.nnet.neurons.map (·.number)).sum ∧ T.cols = e.nnet.outputs ∧
      e'.nnet = { e.nnet.reset with corr := some (e.nnet.store S, HT), B := some (e.nnet.solveCorr env (e.nnet.store S) HT) } ∧
      SymM S ∧ S.nrows = H.cols ∧ HT.WF ∧ HT.nrows = H.cols ∧ HT.cols = T.cols ∧
      SampleWeights e'.classification e'.wc T w ∧ (∀ s < T.nrows, 0 ≤ w s) ∧
      (∀ i < H.cols, ∀ j < H.cols, S.get i j = (if i = j then e.nnet.norm else 0) + ∑ s ∈ range T.nrows, w s * H.get s i * H.get s j) ∧
      (∀ i < H.cols, ∀ j < T.cols, HT.get i j = ∑ s ∈ range T.nrows, w s * H.get s i * T.get s j) := by
  have hcls : e'.classification = some "wc" → "WC" ∈ args.map upper := by
    intro hc
    obtain ⟨X', T', e1, h1, h2, h3⟩ := train_ok h
    obtain ⟨w1, w2⟩ := parseArgs_wc h2
    obtain ⟨_, e2, n, a1, a2, a3⟩ := trainBody_plain hv hcv hl h3
    apply w1
    obtain ⟨c, hc'⟩ := addData_fields a1
    rw [a3, hc'] at hc
    exact (autoWc_cls env e1 _).symm.trans hc
  exact train_plain' hx (fun hc => hsq (hcls hc)) hv hcv hl hb hTw (fun hc => hT (hcls hc)) hw h

theorem width_size {n : NNet K} (hc : Consistent n) : width n.neurons = size n := by
  unfold width size
  congr 1
  apply List.map_congr_left
  intro g hg
  exact (hc.groups g hg).1

/-- `add_data` succeeds on well-shaped data. -/
theorem addData_total {env : Env K} (hx : env.Exact) {e : ELM K} {X T H : Mat K} (hb : 0 < e.batch) (hN : X.nrows = T.nrows)
    (hn : 0 < X.nrows) (hp : e.nnet.project env X = .ok H) (hc : e.nnet.corr = none) (hL : e.nnet.L.getD 0 = H.cols)
    (hTc : T.cols = e.nnet.outputs) (hT : e.classification = some "wc" → OneHot T)
    (hw : e.wc = none ∨ ∃ ws : List K, e.wc = some (ws.map some) ∧ ws.length = T.cols) : ∃ e', e.addData env X T = .ok e' := by
  have hOne : e.classification = some "wc" → OneEach T.cols T.rows := fun hc => (oneHot_oneEach (hT hc))
  have hWOk : WOk e.classification (e.autoWc env (colSums T)).wc T := by
    by_cases hwc : e.classification = some "wc"
    · rcases hw with hw | ⟨ws, hw, hlen⟩
      · have : (e.autoWc env (colSums T)).wc = some (autoWeights ((colSums T).map (env.cast e.prec))) := by
          unfold ELM.autoWc; rw [if_pos ⟨hwc, hw⟩]
        rw [this]
        exact auto_WOk hx hT
      · have : (e.autoWc env (colSums T)).wc = some (ws.map some) := by
          unfold ELM.autoWc; rw [if_neg (by rw [hw]; simp), hw]
        rw [this]
        exact explicit_WOk hT hlen
    · exact fun h => absurd h hwc
  rw [addData_wts hb hn hN ⟨hOne, hWOk⟩, addBatch_eq, hp]
  have hHn : H.nrows = X.nrows := by
    obtain ⟨_, _, _, rfl⟩ := (project_ok_iff _ _ _ _).1 hp
    simp [Mat.nrows]
  have hlenw : ∀ v, wts e.classification (e.autoWc env (colSums T)).wc T = some v → v.length = T.nrows := by
    intro v hv
    unfold wts at hv
    split at hv
    · injection hv with hv; rw [← hv]; simp [Mat.nrows]
    · cases hv
  simp only [Except.bind]
  rw [accum_weighted]
  swap
  · intro v hv
    rw [hHn, hN]
    exact ⟨hlenw v hv, by rw [hlenw v hv]; simp [Mat.nrows]⟩
  rw [accum_none, corr0_none hc]
  have l1 : (wRows env e.nnet.prec (wts e.classification (e.autoWc env (colSums T)).wc T) H.rows).length = X.nrows := by
    rw [wRows_length]
    · exact hHn
    · intro v hv
      rw [hlenw v hv, ← hN, ← hHn]; rfl
  have l2 : (wRows env e.nnet.prec (wts e.classification (e.autoWc env (colSums T)).wc T) (T.map (env.cast e.nnet.prec)).rows).length = X.nrows := by
    rw [wRows_length]
    · simp [Mat.nrows] at hN ⊢; omega
    · intro v hv
      rw [hlenw v hv]; simp [Mat.nrows]
  rw [if_neg (by simp only [Mat.nrows_mk, l1, l2, Mat.map_cols]; simp [hTc]), if_neg (by simp [store_cols, hL])]
  exact ⟨_, rfl⟩

/-- Plain training succeeds on well-shaped data. -/
theorem train_plain_total {env : Env K} (hx : env.Exact) {fs rnd} {e e1 : ELM K} {X T H : Mat K} {args kw}
    (hv : "V" ∉ args) (hcv : "CV" ∉ args) (hl : "LOO" ∉ args)
    (hb : 0 < kw.batch.getD e.batch) (hT : "WC" ∈ args.map upper → OneHot T)
    (hXc : X.cols = e.nnet.inputs) (hTc : T.cols = e.nnet.outputs) (hN : X.nrows = T.nrows) (hn : 0 < X.nrows)
    (hpa : e.parseArgs args kw = (e1, .ok ())) (hc : Consistent e.nnet) (hp : e.nnet.project env X = .ok H) :
    ∃ e', e.train env fs rnd (.mat X) (.mat T) args kw = (.ok none, e') := by
  obtain ⟨q1, q2, q3, q4, q5⟩ := parseArgs_kw hpa
  obtain ⟨w1, w2⟩ := parseArgs_wc hpa
  have hH : H.cols = size e.nnet := by
    obtain ⟨_, _, _, rfl⟩ := (project_ok_iff _ _ _ _).1 hp
    exact width_size hc
  obtain ⟨e2, h2⟩ := addData_total (e := e1) (T := T) hx (by rw [q3]; exact hb) hN hn (by rw [q2]; exact hp) (by rw [q2]; rfl)
    (by rw [q2, hH]; rfl) (by rw [q2]; exact hTc) (fun h => hT (w1 h)) (by
      rcases w2 with w2 | ⟨ws, k1, k2⟩
      · exact Or.inl w2
      · exact Or.inr ⟨ws, k1, by rw [k2, hTc]⟩)
  have hcorr : ∃ c, e2.nnet.corr = some c := by
    have hOne := h2
    by_cases hcc : e2.nnet.corr = none
    · exfalso
      unfold ELM.addData at h2
      split at h2
      · cases h2
      obtain ⟨Xs, k1, h2⟩ := bind_ok h2
      obtain ⟨Ts, k2, h2⟩ := bind_ok h2
      exact feed_corr_some (by
        intro hz
        have hb' : 0 < e1.batch := by rw [q3]; exact hb
        have hk := ceilDiv_pos hb' (by omega : (0 : Int) < (X.nrows : Int))
        have a1 := arraySplit_ok X.rows _ hk
        have a2 := arraySplit_ok T.rows _ hk
        have b1 : Except.ok Xs = Except.ok _ := k1.symm.trans a1
        have b2 : Except.ok Ts = Except.ok _ := k2.symm.trans a2
        injection b1 with b1
        injection b2 with b2
        have c1 : Xs.length = (ceilDiv (X.nrows : Int) e1.batch).toNat := by
          rw [b1]
          have := congrArg List.length (splitSizes_lengths (arraySplitSizes X.rows.length (ceilDiv (X.nrows : Int) e1.batch).toNat) X.rows
            (arraySplitSizes_sum _ _ (by omega)))
          rw [List.length_map] at this
          rw [this]
          unfold arraySplitSizes
          have := Nat.mod_lt X.rows.length (show 0 < (ceilDiv (X.nrows : Int) e1.batch).toNat by omega)
          simp; omega
        have c2 : Ts.length = (ceilDiv (X.nrows : Int) e1.batch).toNat := by
          rw [b2]
          have := congrArg List.length (splitSizes_lengths (arraySplitSizes T.rows.length (ceilDiv (X.nrows : Int) e1.batch).toNat) T.rows
            (arraySplitSizes_sum _ _ (by omega)))
          rw [List.length_map] at this
          rw [this]
          unfold arraySplitSizes
          have := Nat.mod_lt T.rows.length (show 0 < (ceilDiv (X.nrows : Int) e1.batch).toNat by omega)
          simp; omega
        have := congrArg List.length hz
        simp only [List.length_zip, List.length_nil] at this
        omega) h2 hcc
    · exact Option.ne_none_iff_exists'.1 hcc
  obtain ⟨⟨HH, HT⟩, hcorr⟩ := hcorr
  have hcb : checkBoth fs e.nnet (.mat X) (.mat T) = .ok (X, T) := by
    unfold checkBoth checkData checkOne pyAssert
    simp [hXc, hTc, hN, bind, Except.bind, pure, Except.pure]
  refine ⟨{ e2 with nnet := { e2.nnet with B := some (e2.nnet.solveCorr env HH HT) } }, ?_⟩
  unfold ELM.train
  rw [hcb]
  simp only
  rw [hpa]
  simp only
  have : e1.trainBody env fs rnd X T args kw = .ok (none, { e2 with nnet := { e2.nnet with B := some (e2.nnet.solveCorr env HH HT) } }) := by
    unfold ELM.trainBody
    rw [if_neg hv, if_neg hcv, if_neg hl, h2]
    unfold NNet.solve
    simp only [bind, Except.bind, hcorr]
    rfl
  rw [this]

end ordered
end Hpelm
