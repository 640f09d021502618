import Verif.Lemmas.Folds
import Verif.Props.C06_C08_Structure

/-! Success of the parts of structure selection, and the model it returns. -/

set_option linter.unusedSectionVars false

namespace Hpelm
open Spec Finset
variable {K : Type} [Field K] [LinearOrder K]

/-- One unweighted batch into an empty accumulator succeeds. -/
theorem addBatch_total {env : Env K} {n : NNet K} {X T H : Mat K} (hc : n.corr = none) (hp : n.project env X = .ok H)
    (hL : H.cols = n.L.getD 0) (hN : X.nrows = T.nrows) (hTc : T.cols = n.outputs) (hT : T.WF) :
    ∃ S HT, n.addBatch env X T none = .ok { n with corr := some (n.store S, HT) } ∧ SymM S ∧ S.nrows = H.cols ∧ HT.WF ∧
      HT.nrows = H.cols ∧ HT.cols = T.cols := by
  have hrows : H.nrows = X.nrows := by
    obtain ⟨_, _, _, rfl⟩ := (project_ok_iff _ _ _ _).1 hp
    simp [Mat.nrows]
  have hok : ∃ n', n.addBatch env X T none = .ok n' := by
    rw [addBatch_eq, hp]
    simp only [Except.bind]
    rw [accum_none, if_neg (by simp; omega), if_neg]
    · exact ⟨_, rfl⟩
    · rw [corr0_none hc, store_cols]
      simp [Mat.diag]
      exact hL
  obtain ⟨n', h⟩ := hok
  obtain ⟨H', S, HT, h1, h2, h3, h4, h5, h6, h7, h8, h9, h10, h11, h12⟩ :=
    addBatch_sums (corr0_none hc) (SymM.diag _ _) hN hT (by simp) h
  rw [hp] at h1
  injection h1 with h1
  subst h1
  simp only [Mat.diag, Mat.zeros, Mat.ofFn_cols, Mat.ofFn_nrows] at h3 h7 h9 h10
  exact ⟨S, HT, by rw [h, h5], h6, by omega, h8, by omega, by omega⟩

theorem mean?_total {l : List K} (h : l ≠ []) : ∃ v, notNan (mean? l) = .ok v := by
  unfold mean?
  cases l with
  | nil => exact absurd rfl h
  | cons a l => exact ⟨_, rfl⟩

theorem mapM_id_some (ws : List K) : (ws.map some).mapM id = some ws := by
  induction ws with
  | nil => rfl
  | cons a ws ih => rw [List.map_cons, List.mapM_cons, ih]; rfl

theorem zipWith_ne_nil {α β γ : Type} {f : α → β → γ} {a : List α} {b : List β} (ha : a ≠ []) (h : a.length = b.length) :
    List.zipWith f a b ≠ [] := by
  intro h'
  have := congrArg List.length h'
  rw [List.length_zipWith, ← h, Nat.min_self] at this
  exact ha (List.length_eq_zero_iff.1 this)

theorem zipWith2_flatten_ne {γ : Type} {f : K → K → γ} {T Y : Mat K} (hT : T.WF) (hY : Y.WF) (hn : T.nrows = Y.nrows) (hc : T.cols = Y.cols)
    (h0 : 0 < T.nrows) (hc0 : 0 < T.cols) : (List.zipWith (List.zipWith f) T.rows Y.rows).flatten ≠ [] := by
  obtain ⟨tc, tr⟩ := T
  obtain ⟨yc, yr⟩ := Y
  simp only [Mat.nrows] at hn h0
  cases tr with
  | nil => simp at h0
  | cons t tr =>
    cases yr with
    | nil => simp at hn
    | cons y yr =>
      have h1 := hT t List.mem_cons_self
      have h2 := hY y List.mem_cons_self
      simp only at h1 h2 hc hc0
      rw [List.zipWith_cons_cons, List.flatten_cons]
      intro h
      have := (List.append_eq_nil_iff.1 h).1
      refine zipWith_ne_nil ?_ (by omega) this
      intro h'; rw [h'] at h1; simp at h1; omega

/-- The error of well-shaped arrays is defined (in weighted classification: with finite weights of non-zero sum). -/
theorem elmError_total {cls : Option String} {wc : Option (List (Option K))} {T Y : Mat K} (hT : T.WF) (hY : Y.WF) (hn : T.nrows = Y.nrows)
    (hc : T.cols = Y.cols) (h0 : 0 < T.nrows) (hc0 : 0 < T.cols)
    (hw : cls = some "wc" → ∃ ws : List K, wc = some (ws.map some) ∧ ws.sum ≠ 0) : ∃ v, elmError cls wc T Y = .ok v := by
  have h0' : T.rows ≠ [] := by intro h; unfold Mat.nrows at h0; rw [h] at h0; simp at h0
  have hmap : ∀ {l : List Bool}, l ≠ [] → l.map (b2k (K := K)) ≠ [] := by
    intro l hl h; exact hl (List.map_eq_nil_iff.1 h)
  unfold elmError
  rw [if_neg (by omega)]
  split
  · exact mean?_total (hmap (zipWith_ne_nil h0' hn))
  split
  · rename_i h
    obtain ⟨ws, rfl, hs⟩ := hw h
    simp only
    have := mapM_id_some ws
    unfold weightedMean
    rw [this]
    simp only
    rw [if_neg hs]
    exact ⟨_, rfl⟩
  split
  · exact mean?_total (hmap (zipWith2_flatten_ne hT hY hn hc h0 hc0))
  · exact mean?_total (zipWith2_flatten_ne hT hY hn hc h0 hc0)

theorem cvMean_total {k : Nat} {f : FoldData K → Except PyErr K} {ds : List (FoldData K)} (h : ∀ d ∈ ds, ∃ v, f d = .ok v) (acc : K) :
    ∃ v, cvMean k f ds acc = .ok v := by
  induction ds generalizing acc with
  | nil => exact ⟨acc, rfl⟩
  | cons d ds ih =>
    obtain ⟨v, hv⟩ := h d List.mem_cons_self
    unfold cvMean
    rw [hv]
    exact ih (fun d hd => h d (List.mem_cons_of_mem _ hd)) _

theorem mapM_total {α β : Type} {f : α → Except PyErr β} {l : List α} (h : ∀ a ∈ l, ∃ b, f a = .ok b) : ∃ bs, l.mapM f = .ok bs := by
  induction l with
  | nil => exact ⟨[], rfl⟩
  | cons a l ih =>
    obtain ⟨b, hb⟩ := h a List.mem_cons_self
    obtain ⟨bs, hbs⟩ := ih fun a ha => h a (List.mem_cons_of_mem _ ha)
    exact ⟨b :: bs, by rw [List.mapM_cons, hb, hbs]; rfl⟩

/-- Cross-validation is a sum over the rounds. -/
theorem cvMean_sum {k : Nat} {f : FoldData K → Except PyErr K} {ds : List (FoldData K)} {acc v : K} (h : cvMean k f ds acc = .ok v) :
    ∃ vs : List K, ds.mapM f = .ok vs ∧ v = acc + (vs.map (· / (k : K))).sum := by
  induction ds generalizing acc with
  | nil => injection h with h; exact ⟨[], rfl, by simp [h]⟩
  | cons d ds ih =>
    unfold cvMean at h
    obtain ⟨u, hu, h⟩ := bind_ok h
    obtain ⟨vs, h1, h2⟩ := ih h
    refine ⟨u :: vs, by rw [List.mapM_cons, hu, h1]; rfl, ?_⟩
    rw [h2, List.map_cons, List.sum_cons, add_assoc]

theorem mapM_getElem {α β : Type} {f : α → Except PyErr β} {l : List α} {bs : List β} (h : l.mapM f = .ok bs) :
    bs.length = l.length ∧ ∀ i (h1 : i < l.length) (h2 : i < bs.length), f l[i] = .ok bs[i] := by
  induction l generalizing bs with
  | nil => injection h with h; subst h; simp
  | cons a l ih =>
    rw [List.mapM_cons] at h
    obtain ⟨b, hb, h⟩ := bind_ok h
    obtain ⟨bs', hbs, h⟩ := bind_ok h
    injection h with h
    subst h
    obtain ⟨h1, h2⟩ := ih hbs
    refine ⟨by simp [h1], ?_⟩
    intro i h3 h4
    cases i with
    | zero => exact hb
    | succ i => exact h2 i (by simpa using h3) (by simpa using h4)

/-- The model a selection returns: the kept neurons with the weights of the unweighted correlation matrices of all data. -/
theorem refit_model {env : Env K} (hx : env.Exact) {e e' : ELM K} {best : List Nat} {X T H : Mat K} (hc : Consistent e.nnet)
    (hN : X.nrows = T.nrows) (hT : T.WF) (hp : e.nnet.project env X = .ok H) (h : e.refit env best X T = .ok e') :
    ∃ keep S HT, keep.Perm (best.filter (· < size e.nnet)) ∧ IsCorr (H.selCols keep) T (fun _ => 1) e.nnet.norm S HT ∧
      e' = { e with nnet := { e.nnet.prune best with
              corr := some ((e.nnet.prune best).store S, HT), B := some (e.nnet.solveCorr env ((e.nnet.prune best).store S) HT) } } ∧
      (∀ Xq Hq, e.nnet.project env Xq = .ok Hq → e'.nnet.project env Xq = .ok (Hq.selCols keep)) := by
  obtain ⟨a1, a2, a3, a4⟩ := Props.C08_prune env e.nnet hc best
  unfold ELM.refit at h
  obtain ⟨n1, h1, h⟩ := bind_ok h
  obtain ⟨n2, h2, h⟩ := bind_ok h
  injection h with h
  obtain ⟨H', S, HT, b1, b2, b3, b4, b5⟩ := addBatch_fresh hx rfl hN hT h1
  have hp' := a4 X H hp
  rw [hp'] at b1
  injection b1 with b1
  subst b1 b2
  unfold NNet.solve at h2
  simp only at h2
  injection h2 with h2
  subst h2 h
  refine ⟨_, S, HT, a1, b5, rfl, ?_⟩
  intro Xq Hq hq
  exact a4 Xq Hq hq

/-- The neurons a selection keeps. -/
theorem refit_neurons {env : Env K} {e e' : ELM K} {best : List Nat} {X T : Mat K} (hc : Consistent e.nnet)
    (h : e.refit env best X T = .ok e') :
    neuronList e'.nnet = (byType (e.nnet.neurons.map (·.number)) 0 best).map (fun i => (neuronList e.nnet).getD i (.name "", [], 0)) ∧
      size e'.nnet = (best.filter (· < size e.nnet)).length := by
  obtain ⟨a1, a2, a3, a4⟩ := Props.C08_prune env e.nnet hc best
  have hcp := prune_consistent hc best
  unfold ELM.refit at h
  obtain ⟨n1, h1, h⟩ := bind_ok h
  obtain ⟨n2, h2, h⟩ := bind_ok h
  injection h with h
  obtain ⟨c, rfl⟩ := addBatch_fields h1
  unfold NNet.solve at h2
  split at h2
  · cases h2
  · injection h2 with h2
    subst h2 h
    refine ⟨a2, ?_⟩
    rw [← a1.length_eq]
    show size (e.nnet.prune best) = _
    rw [← length_neuronList (fun g hg => ⟨(hcp.groups g hg).1, (hcp.groups g hg).2.1⟩), a2, List.length_map]

/-- Re-training on the selected neurons succeeds. -/
theorem refit_total {env : Env K} {e : ELM K} {best : List Nat} {X T H : Mat K} (hc : Consistent e.nnet)
    (hN : X.nrows = T.nrows) (hT : T.WF) (hTc : T.cols = e.nnet.outputs) (hp : e.nnet.project env X = .ok H) :
    ∃ e', e.refit env best X T = .ok e' := by
  obtain ⟨a1, a2, a3, a4⟩ := Props.C08_prune env e.nnet hc best
  obtain ⟨S, HT, h1, _⟩ := addBatch_total (n := e.nnet.prune best) (T := T) rfl (a4 X H hp) (by rw [a3]; rfl) hN hTc hT
  unfold ELM.refit
  simp only [h1]
  exact ⟨_, rfl⟩

end Hpelm
