import Verif.Lemmas.RowOrder
import Verif.Lemmas.Folds
import Verif.Spec.Reorder
import Verif.Props.C09_C13_Batches
import Verif.Props.C76_C78_ErrorLaws
import Verif.Props.C34_C35_CrossValidation

/-!
# C84: the order of the samples in structure selection
-/

set_option linter.unusedSectionVars false

namespace Hpelm.Props
open Hpelm Spec
variable {K : Type} [Field K] [LinearOrder K] [IsStrictOrderedRing K]

theorem reordered_positions {X T X' T' : Mat K} (h : Reordered X T X' T') :
    ∃ σ, Reorder σ T.nrows ∧ X' = X.selRows σ ∧ T' = T.selRows σ := by
  obtain ⟨σ, h1, h2⟩ := perm_positions (([], []) : List K × List K) h.perm
  have hl : (X.rows.zip T.rows).length = T.rows.length := by rw [List.length_zip, h.rows, min_self]
  rw [hl] at h1
  have hget : ∀ i ∈ σ, (X.rows.zip T.rows).getD i ([], []) = (X.rows.getD i [], T.rows.getD i []) := by
    intro i hi
    have hi' : i < T.rows.length := List.mem_range.1 (h1.mem_iff.1 hi)
    have hi2 : i < X.rows.length := by rw [h.rows]; exact hi'
    simp [List.getD_eq_getElem?_getD, hi', hi2]
  rw [List.map_congr_left hget] at h2
  obtain ⟨u1, u2⟩ := unzip_rows (X := X') (T := T') h.rows'
  rw [h2, List.map_map] at u1 u2
  refine ⟨σ, h1, ?_, ?_⟩
  · have := h.inputs
    cases X' with
    | mk c r =>
      simp only at this u1 ⊢
      rw [this, u1]
      rfl
  · have := h.outputs
    cases T' with
    | mk c r =>
      simp only at this u2 ⊢
      rw [this, u2]
      rfl

theorem project_reorder (env : Env K) (n : NNet K) {σ : List Nat} {X : Mat K} (h : Reorder σ X.nrows) :
    n.project env (X.selRows σ) = (n.project env X).map (·.selRows σ) := by
  rw [project_eq, project_eq, Mat.selRows_cols]
  split
  · rfl
  split
  · rfl
  split
  · rfl
  · simp only [Except.map, Except.ok.injEq]
    unfold Mat.selRows
    simp only [Mat.mk.injEq, true_and, List.map_map]
    apply List.map_congr_left
    intro i hi
    have := h.lt hi
    unfold Mat.nrows at this
    simp [List.getD_eq_getElem?_getD, this]

theorem elmError_reorder (cls : Option String) (wc : Option (List (Option K))) {σ : List Nat} {T Y : Mat K} (h : Reorder σ T.nrows)
    (hY : Y.nrows = T.nrows) : elmError cls wc (T.selRows σ) (Y.selRows σ) = elmError cls wc T Y := by
  refine elmError_perm cls wc hY.symm (by simp) rfl rfl ?_
  conv_rhs => rw [rows_range T, rows_range Y, hY, zip_reorder]
  unfold Mat.selRows
  simp only
  rw [zip_reorder]
  exact h.map _

theorem selCols_reorder {σ : List Nat} {H : Mat K} (h : Reorder σ H.nrows) (idx : List Nat) :
    (H.selRows σ).selCols idx = (H.selCols idx).selRows σ := (selRows_selCols fun _ hi => h.lt hi).symm

theorem scoreV_reorder (env : Env K) {σ : List Nat} {H T : Mat K} (h : Reorder σ T.nrows) (hH : H.nrows = T.nrows) (e : ELM K)
    (HH HT : Mat K) (idx : List Nat) : scoreV env e HH HT (H.selRows σ) (T.selRows σ) idx = scoreV env e HH HT H T idx := by
  have hh : Reorder σ H.nrows := by rw [hH]; exact h
  have hs : Reorder σ (H.selCols idx).nrows := by rw [Mat.selCols_nrows]; exact hh
  unfold scoreV
  simp only
  rw [selCols_reorder hh, mul_reorder hs, elmError_reorder _ _ h (by rw [mul_nrows', Mat.selCols_nrows, hH])]

theorem project_nrows {env : Env K} {n : NNet K} {X H : Mat K} (h : n.project env X = .ok H) : H.nrows = X.nrows := by
  obtain ⟨_, _, _, rfl⟩ := (project_ok_iff _ _ _ _).1 h
  simp [Mat.nrows]

/-- Leave-one-out selection with the samples in another order. -/
theorem trainLOO_reorder (env : Env K) (sh : List Nat) (e : ELM K) {X T X' T' : Mat K} (h : Reordered X T X' T')
    (hadd : e.addData env X' T' = e.addData env X T)
    (hrefit : ∀ (e2 : ELM K) (best : List Nat), e2.refit env best X' T' = e2.refit env best X T) :
    trainLOO env sh e X' T' = trainLOO env sh e X T := by
  obtain ⟨σ, h1, h2, h3⟩ := reordered_positions h
  have hx : Reorder σ X.nrows := by
    have : X.nrows = T.nrows := h.rows
    rw [this]; exact h1
  subst h2 h3
  rw [trainLOO_eq, trainLOO_eq, hadd, project_reorder env _ hx]
  cases hp : e.nnet.project env X with
  | error x => exact Eq.trans (b := Except.error x) rfl rfl
  | ok H =>
    have hH : H.nrows = T.nrows := (project_nrows hp).trans h.rows
    have hh : Reorder σ H.nrows := by rw [hH]; exact h1
    simp only [Except.map, bind, Except.bind]
    cases e.addData env X T with
    | error x => exact Eq.trans (b := Except.error x) rfl rfl
    | ok e1 =>
      simp only
      have hs : ∀ (idx : List Nat) (HH HT : Mat K), scoreLOO env e1 HH HT ((H.selCols idx).selRows σ) (T.selRows σ) =
          scoreLOO env e1 HH HT (H.selCols idx) T := fun idx HH HT =>
        scoreLOO_reorder env h1 (by rw [Mat.selCols_nrows, hH]) _ _ _
      unfold trainLOOrest
      simp only [hrefit, ranking_reorder env h1 hH, selCols_reorder hh, scoreLOO_reorder env h1 hH, hs]

/-- Selection on a validation set whose samples are in another order. -/
theorem trainV_reorder (env : Env K) (sh : List Nat) (e : ELM K) (X T : Mat K) {Xv Tv Xv' Tv' : Mat K} (h : Reordered Xv Tv Xv' Tv') :
    trainV env sh e X T Xv' Tv' = trainV env sh e X T Xv Tv := by
  obtain ⟨σ, h1, h2, h3⟩ := reordered_positions h
  have hx : Reorder σ Xv.nrows := by
    have : Xv.nrows = Tv.nrows := h.rows
    rw [this]; exact h1
  rw [trainV_eq, trainV_eq]
  cases e.addData env X T with
  | error x => exact Eq.trans (b := Except.error x) rfl rfl
  | ok e1 =>
    simp only [bind, Except.bind]
    unfold trainVrest
    cases e1.nnet.getCorr! with
    | error x => exact Eq.trans (b := Except.error x) rfl rfl
    | ok c =>
      simp only [bind, Except.bind]
      rw [h2, h3, project_reorder env _ hx]
      cases hp : e1.nnet.project env Xv with
      | error x => exact Eq.trans (b := Except.error x) rfl rfl
      | ok H =>
        have hH : H.nrows = Tv.nrows := (project_nrows hp).trans h.rows
        have hh : Reorder σ H.nrows := by rw [hH]; exact h1
        have hs : ∀ (B : Mat K), elmError e1.classification e1.wc (Tv.selRows σ) ((H.mul B).selRows σ) =
            elmError e1.classification e1.wc Tv (H.mul B) := fun B => elmError_reorder _ _ h1 (by rw [mul_nrows', hH])
        simp only [Except.map, ranking_reorder env h1 hH, mul_reorder hh, hs, scoreV_reorder env h1 hH]

/-! ### Cross-validation -/

/-- The positions of one fold, in terms of the data. -/
theorem zip_selRows {X T : Mat K} (h : X.rows.length = T.rows.length) {idx : List Nat} (hi : ∀ i ∈ idx, i < T.rows.length) :
    (X.selRows idx).rows.zip (T.selRows idx).rows = idx.map fun i => (X.rows.zip T.rows).getD i ([], []) := by
  unfold Mat.selRows
  simp only
  rw [zip_reorder]
  apply List.map_congr_left
  intro i h1
  have h2 := hi i h1
  have h3 : i < X.rows.length := by omega
  simp [List.getD_eq_getElem?_getD, h2, h3]

theorem everyKth_foldIdx {α : Type} (d : α) (l : List α) (k r : Nat) :
    (foldIdx l.length k r).map (fun i => l.getD i d) = everyKth k r l := by
  unfold everyKth foldIdx
  have h : l.zipIdx = (List.range l.length).map fun i => (l.getD i d, i) := by
    apply List.ext_getElem (by simp)
    intro i h1 h2
    simp at h1
    simp [List.getD_eq_getElem?_getD, h1]
  rw [h, List.filter_map, List.map_map]
  rfl

/-- The rows a cross-validation round takes, out of reordered data. -/
theorem folds_reordered {k : Nat} {X T X' T' : Mat K} (h : ReorderedInParts k X T X' T') {items : List Nat} (hr : ∀ r ∈ items, r < k) :
    Reordered (X.selRows (items.flatMap (foldIdx X.nrows k))) (T.selRows (items.flatMap (foldIdx X.nrows k)))
      (X'.selRows (items.flatMap (foldIdx X.nrows k))) (T'.selRows (items.flatMap (foldIdx X.nrows k))) := by
  have hb : ∀ i ∈ items.flatMap (foldIdx X.nrows k), i < X.nrows := by
    intro i hi
    obtain ⟨r, _, h2⟩ := List.mem_flatMap.1 hi
    exact (mem_foldIdx.1 h2).1
  have hTn : T.rows.length = X.nrows := h.rows.symm
  have hTn' : T'.rows.length = X.nrows := by rw [← h.rows', h.number]; rfl
  refine ⟨by simp [Mat.selRows], by simp [Mat.selRows], h.inputs, h.outputs, ?_⟩
  rw [zip_selRows h.rows (by rw [hTn]; exact hb), zip_selRows h.rows' (by rw [hTn']; exact hb)]
  rw [List.map_flatMap, List.map_flatMap]
  have hl : (X.rows.zip T.rows).length = X.nrows := by rw [List.length_zip, h.rows, min_self, hTn]
  have hl' : (X'.rows.zip T'.rows).length = X.nrows := by rw [List.length_zip, h.rows', min_self, hTn']
  have e1 : ∀ r, (foldIdx X.nrows k r).map (fun i => (X.rows.zip T.rows).getD i ([], [])) = everyKth k r (X.rows.zip T.rows) := by
    intro r; rw [← hl]; exact everyKth_foldIdx _ _ _ _
  have e2 : ∀ r, (foldIdx X.nrows k r).map (fun i => (X'.rows.zip T'.rows).getD i ([], [])) = everyKth k r (X'.rows.zip T'.rows) := by
    intro r; rw [← hl']; exact everyKth_foldIdx _ _ _ _
  simp only [e1, e2]
  clear hb
  induction items with
  | nil => simp
  | cons r rs ih =>
    rw [List.flatMap_cons, List.flatMap_cons]
    exact (h.part r (hr r (by simp))).append (ih fun r' h' => hr r' (by simp [h']))

/-- Two outcomes: the same exception, or results in the relation `R`. -/
def SameOutcome {α β : Type} (R : α → β → Prop) (a : Except PyErr α) (b : Except PyErr β) : Prop :=
  (∃ x, a = .error x ∧ b = .error x) ∨ ∃ u v, a = .ok u ∧ b = .ok v ∧ R u v

/-- The data of two rounds that differ by the order of samples. -/
structure FoldSame (d' d : FoldData K) : Prop where
  HH : d'.HH = d.HH
  HT : d'.HT = d.HT
  rank : d'.rank = d.rank
  L : d'.L = d.L
  vl : ∃ σ, Reorder σ d.Tvl.nrows ∧ d.Hvl.nrows = d.Tvl.nrows ∧ d'.Hvl = d.Hvl.selRows σ ∧ d'.Tvl = d.Tvl.selRows σ
  ts : ∃ σ, Reorder σ d.Tts.nrows ∧ d.Hts.nrows = d.Tts.nrows ∧ d'.Hts = d.Hts.selRows σ ∧ d'.Tts = d.Tts.selRows σ

theorem addBatch_reordered (env : Env K) (n : NNet K) {X T X' T' : Mat K} (h : Reordered X T X' T') :
    n.addBatch env X' T' none = n.addBatch env X T none := by
  have hp := addBatch_perm env n X.cols T.cols h.perm none none
  obtain ⟨u1, u2⟩ := unzip_rows (X := X) (T := T) h.rows
  obtain ⟨v1, v2⟩ := unzip_rows (X := X') (T := T') h.rows'
  rw [← u1, ← u2, ← v1, ← v2] at hp
  have eX : X' = ⟨X.cols, X'.rows⟩ := by rw [← h.inputs]
  have eT : T' = ⟨T.cols, T'.rows⟩ := by rw [← h.outputs]
  rw [eX, eT]
  exact hp

theorem cvFold_reorder (env : Env K) (sh : List Nat) (e : ELM K) {X T X' T' : Mat K} {k i : Nat} (hk : 2 ≤ k)
    (h : ReorderedInParts k X T X' T') : SameOutcome FoldSame (cvFold env sh e X' T' k i) (cvFold env sh e X T k i) := by
  have hN : X'.nrows = X.nrows := h.number
  have hit : ∀ r ∈ foldItems k i, r < k := fun r hr => List.mem_range.1 ((foldItems_perm i).mem_iff.1 hr)
  have hlen : (foldItems k i).length = k := by simp [foldItems]
  have hone : ∀ j < k, ∀ r ∈ [(foldItems k i).getD j 0], r < k := by
    intro j hj r hr
    rw [List.mem_singleton.1 hr, List.getD_eq_getElem _ _ (by omega)]
    exact hit _ (List.getElem_mem _)
  have r1 := folds_reordered h (items := (foldItems k i).take (k - 2)) fun r hr => hit r (List.mem_of_mem_take hr)
  have r2 := folds_reordered h (hone (k - 2) (by omega))
  have r3 := folds_reordered h (hone (k - 1) (by omega))
  rw [List.flatMap_singleton] at r2 r3
  unfold cvFold
  simp only [hN]
  have ea := addBatch_reordered env e.nnet.reset r1
  obtain ⟨σ, p1, p2, p3⟩ := reordered_positions r2
  obtain ⟨τ, q1, q2, q3⟩ := reordered_positions r3
  unfold cvTrain cvVal cvTest
  rw [ea, p2, p3, q2, q3]
  have hp : Reorder σ (X.selRows (foldIdx X.nrows k ((foldItems k i).getD (k - 2) 0))).nrows := by
    have : (X.selRows (foldIdx X.nrows k ((foldItems k i).getD (k - 2) 0))).nrows =
      (T.selRows (foldIdx X.nrows k ((foldItems k i).getD (k - 2) 0))).nrows := r2.rows
    rw [this]; exact p1
  have hq : Reorder τ (X.selRows (foldIdx X.nrows k ((foldItems k i).getD (k - 1) 0))).nrows := by
    have : (X.selRows (foldIdx X.nrows k ((foldItems k i).getD (k - 1) 0))).nrows =
      (T.selRows (foldIdx X.nrows k ((foldItems k i).getD (k - 1) 0))).nrows := r3.rows
    rw [this]; exact q1
  generalize hXv : X.selRows (foldIdx X.nrows k ((foldItems k i).getD (k - 2) 0)) = Xv at *
  generalize hTv : T.selRows (foldIdx X.nrows k ((foldItems k i).getD (k - 2) 0)) = Tv at *
  generalize hXs : X.selRows (foldIdx X.nrows k ((foldItems k i).getD (k - 1) 0)) = Xs at *
  generalize hTs : T.selRows (foldIdx X.nrows k ((foldItems k i).getD (k - 1) 0)) = Ts at *
  simp only [project_reorder env _ hp, project_reorder env _ hq]
  cases e.nnet.reset.addBatch env _ _ none with
  | error x => left; exact ⟨x, rfl, rfl⟩
  | ok n =>
    simp only [bind, Except.bind]
    cases n.getCorr! with
    | error x => left; exact ⟨x, rfl, rfl⟩
    | ok c =>
      simp only
      cases hv : n.project env Xv with
      | error x => left; exact ⟨x, rfl, rfl⟩
      | ok Hv =>
        cases hs : n.project env Xs with
        | error x => left; exact ⟨x, rfl, rfl⟩
        | ok Hs =>
          have n1 : Hv.nrows = Tv.nrows := (project_nrows hv).trans r2.rows
          have n2 : Hs.nrows = Ts.nrows := (project_nrows hs).trans r3.rows
          simp only [Except.map, ranking_reorder env p1 n1, Mat.selRows_cols]
          cases e.ranking env sh Hv.cols Hv Tv with
          | error x => left; exact ⟨x, rfl, rfl⟩
          | ok rk => right; exact ⟨_, _, rfl, rfl, rfl, rfl, rfl, rfl, ⟨σ, p1, n1, rfl, rfl⟩, ⟨τ, q1, n2, rfl, rfl⟩⟩

theorem mapM_same {α β γ : Type} {R : β → γ → Prop} (f : α → Except PyErr β) (g : α → Except PyErr γ) (l : List α)
    (h : ∀ x ∈ l, SameOutcome R (f x) (g x)) : SameOutcome (List.Forall₂ R) (l.mapM f) (l.mapM g) := by
  induction l with
  | nil => right; exact ⟨[], [], rfl, rfl, .nil⟩
  | cons x l ih =>
    rw [List.mapM_cons, List.mapM_cons]
    rcases h x (by simp) with ⟨y, a, b⟩ | ⟨u, v, a, b, c⟩
    · left; exact ⟨y, by rw [a]; rfl, by rw [b]; rfl⟩
    · rw [a, b]
      rcases ih fun y hy => h y (by simp [hy]) with ⟨y, a', b'⟩ | ⟨us, vs, a', b', c'⟩
      · left; exact ⟨y, by rw [a']; rfl, by rw [b']; rfl⟩
      · right; exact ⟨u :: us, v :: vs, by rw [a']; rfl, by rw [b']; rfl, .cons c c'⟩

theorem cvMean_same {k : Nat} {f : FoldData K → Except PyErr K} (hf : ∀ d' d, FoldSame d' d → f d' = f d) {ds' ds : List (FoldData K)}
    (h : List.Forall₂ FoldSame ds' ds) (acc : K) : cvMean k f ds' acc = cvMean k f ds acc := by
  induction h generalizing acc with
  | nil => rfl
  | cons h1 h2 ih =>
    unfold cvMean
    rw [hf _ _ h1]
    simp only [ih]

theorem map_same {β : Type} {f : FoldData K → β} (hf : ∀ d' d, FoldSame d' d → f d' = f d) {ds' ds : List (FoldData K)}
    (h : List.Forall₂ FoldSame ds' ds) : ds'.map f = ds.map f := by
  induction h with
  | nil => rfl
  | cons h1 h2 ih => rw [List.map_cons, List.map_cons, hf _ _ h1, ih]

theorem trainCV_reorder (env : Env K) (sh : Nat → List Nat) (e : ELM K) {X T X' T' : Mat K} {k : Nat} (hk : 2 ≤ k)
    (h : ReorderedInParts k X T X' T')
    (hrefit : ∀ (e2 : ELM K) (best : List Nat), e2.refit env best X' T' = e2.refit env best X T) :
    trainCV env sh e X' T' k = trainCV env sh e X T k := by
  have hm := mapM_same (fun i => cvFold env (sh i) e X' T' k i) (fun i => cvFold env (sh i) e X T k i) (List.range k)
    fun i _ => cvFold_reorder env (sh i) e hk h
  unfold trainCV
  simp only [hrefit]
  rcases hm with ⟨x, a, b⟩ | ⟨ds', ds, a, b, c⟩
  · rw [a, b]
  · rw [a, b]
    have f1 : ∀ idx : Nat, ∀ d' d : FoldData K, FoldSame d' d → scoreV env e d'.HH d'.HT d'.Hvl d'.Tvl (d'.rank.take idx) =
        scoreV env e d.HH d.HT d.Hvl d.Tvl (d.rank.take idx) := by
      rintro idx d' d ⟨e1, e2, e3, e4, ⟨σ, s1, s2, s3, s4⟩, _⟩
      rw [e1, e2, e3, s3, s4, scoreV_reorder env s1 s2]
    have f2 : ∀ d' d : FoldData K, FoldSame d' d →
        elmError e.classification e.wc d'.Tvl (d'.Hvl.mul (e.nnet.solveCorr env d'.HH d'.HT)) =
          elmError e.classification e.wc d.Tvl (d.Hvl.mul (e.nnet.solveCorr env d.HH d.HT)) := by
      rintro d' d ⟨e1, e2, e3, e4, ⟨σ, s1, s2, s3, s4⟩, _⟩
      rw [e1, e2, s3, s4, mul_reorder (by rw [s2]; exact s1), elmError_reorder _ _ s1 (by rw [mul_nrows', s2])]
    have f3 : ∀ d' d : FoldData K, FoldSame d' d →
        elmError e.classification e.wc d'.Tts (d'.Hts.mul (e.nnet.solveCorr env d'.HH d'.HT)) =
          elmError e.classification e.wc d.Tts (d.Hts.mul (e.nnet.solveCorr env d.HH d.HT)) := by
      rintro d' d ⟨e1, e2, e3, e4, _, ⟨σ, s1, s2, s3, s4⟩⟩
      rw [e1, e2, s3, s4, mul_reorder (by rw [s2]; exact s1), elmError_reorder _ _ s1 (by rw [mul_nrows', s2])]
    have m1 : ds'.map (·.L) = ds.map (·.L) := map_same (fun _ _ h => h.L) c
    have m2 : ds'.map (·.rank) = ds.map (·.rank) := map_same (fun _ _ h => h.rank) c
    simp only [bind, Except.bind, cvMean_same f2 c, cvMean_same f3 c, cvMean_same (f1 _) c, m1, m2]

/-- The body of `train` with its training samples in another order. -/
theorem trainBody_reorder (env : Env K) (fs : Files K) (rnd : Rnd) (e : ELM K) {X T X' T' : Mat K} (args : List String) (kw : Kwargs K)
    (h : Reordered X T X' T')
    (hcv : "V" ∉ args → "CV" ∈ args → ∃ k : Nat, 3 ≤ k ∧ kw.k = some (k : Int) ∧ ReorderedInParts k X T X' T')
    (hadd : e.addData env X' T' = e.addData env X T)
    (hrefit : ∀ (e2 : ELM K) (best : List Nat), e2.refit env best X' T' = e2.refit env best X T) :
    e.trainBody env fs rnd X' T' args kw = e.trainBody env fs rnd X T args kw := by
  unfold ELM.trainBody
  by_cases hV : "V" ∈ args
  · simp only [hV, if_true]
    cases kw.Xv with
    | none => rfl
    | some Xv =>
      cases kw.Tv with
      | none => rfl
      | some Tv =>
        simp only
        congr 1
        funext ⟨xv, tv⟩
        simp only
        rw [trainV_eq, trainV_eq, hadd]
        unfold trainVrest
        simp only [hrefit]
  · simp only [hV, if_false]
    by_cases hC : "CV" ∈ args
    · obtain ⟨k, h1, h2, h3⟩ := hcv hV hC
      simp only [hC, if_true, h2, Int.toNat_natCast, trainCV_reorder env _ e (by omega) h3 hrefit]
    · simp only [hC, if_false, trainLOO_reorder env _ e h hadd hrefit, hadd]

theorem parts_reordered {k : Nat} (hk : 0 < k) {X T X' T' : Mat K} (h : ReorderedInParts k X T X' T') : Reordered X T X' T' := by
  have r := folds_reordered h (items := List.range k) fun r hr => List.mem_range.1 hr
  have hp := folds_perm (N := X.nrows) hk (List.Perm.refl (List.range k))
  refine ⟨h.rows, h.rows', h.inputs, h.outputs, ?_⟩
  have key : ∀ X0 T0 : Mat K, X0.rows.length = T0.rows.length → X0.rows.length = X.nrows →
      ((X0.selRows ((List.range k).flatMap (foldIdx X.nrows k))).rows.zip (T0.selRows ((List.range k).flatMap (foldIdx X.nrows k))).rows).Perm
        (X0.rows.zip T0.rows) := by
    intro X0 T0 h1 h2
    rw [zip_selRows h1 (fun i hi => by rw [← h1, h2]; exact List.mem_range.1 (hp.mem_iff.1 hi))]
    refine (hp.map _).trans ?_
    have : (List.range X.nrows).map (fun i => (X0.rows.zip T0.rows).getD i ([], [])) = X0.rows.zip T0.rows := by
      apply List.ext_getElem (by simp [← h1, h2])
      intro i a b
      simp [List.getD_eq_getElem?_getD, List.length_zip] at b ⊢
      simp [b]
    rw [this]
  exact ((key X' T' h.rows' h.number).symm.trans r.perm).trans (key X T h.rows rfl)

/-! ### C84 -/

/-- C84 (training samples).  Training without cross-validation — plain, with a validation set or with leave-one-out selection, neurons
ranked at random or by optimal pruning — gives the same result and the same model for any order of the training samples. -/
theorem C84_training_order (env : Env K) (hx : env.Exact) (fs : Files K) (rnd : Rnd) (e : ELM K) (X T X' T' : Mat K) (args : List String)
    (kw : Kwargs K) (hcv : "CV" ∉ args) (hb : 0 < kw.batch.getD e.batch) (h : Reordered X T X' T') (hT : Given args "WC" → OneHot T) :
    e.train env fs rnd (.mat X') (.mat T') args kw = e.train env fs rnd (.mat X) (.mat T) args kw :=
  train_order_of env hx fs rnd e X T X' T' args kw hb h.rows h.rows' h.inputs h.outputs h.perm hT fun e1 hadd hrefit =>
    trainBody_reorder env fs rnd e1 args kw h (fun _ h => absurd h hcv) hadd hrefit

/-- C84 (validation samples).  The order of the validation samples does not matter either. -/
theorem C84_validation_order (env : Env K) (fs : Files K) (rnd : Rnd) (e : ELM K) (X T : DataArg K) (Xv Tv Xv' Tv' : Mat K)
    (args : List String) (kw : Kwargs K) (h : Reordered Xv Tv Xv' Tv') :
    e.train env fs rnd X T args { kw with Xv := some (.mat Xv'), Tv := some (.mat Tv') } =
      e.train env fs rnd X T args { kw with Xv := some (.mat Xv), Tv := some (.mat Tv) } := by
  unfold ELM.train
  cases checkBoth fs e.nnet X T with
  | error x => rfl
  | ok p =>
    obtain ⟨X, T⟩ := p
    have hp1 : ∀ (e : ELM K) (a : String), parseOne { kw with Xv := some (.mat Xv'), Tv := some (.mat Tv') } e a =
        parseOne { kw with Xv := some (.mat Xv), Tv := some (.mat Tv) } e a := fun _ _ => rfl
    have hp2 : ∀ (as : List String) (e : ELM K), parseLoop { kw with Xv := some (.mat Xv'), Tv := some (.mat Tv') } as e =
        parseLoop { kw with Xv := some (.mat Xv), Tv := some (.mat Tv) } as e := by
      intro as
      induction as with
      | nil => intro e; rfl
      | cons a as ih =>
        intro e
        unfold parseLoop
        rw [hp1]
        split <;> simp [*]
    have hp : e.parseArgs args { kw with Xv := some (.mat Xv'), Tv := some (.mat Tv') } =
        e.parseArgs args { kw with Xv := some (.mat Xv), Tv := some (.mat Tv) } := by
      unfold ELM.parseArgs
      simp only [hp2]
    have hb : ∀ e1 : ELM K, e1.trainBody env fs rnd X T args { kw with Xv := some (.mat Xv'), Tv := some (.mat Tv') } =
        e1.trainBody env fs rnd X T args { kw with Xv := some (.mat Xv), Tv := some (.mat Tv) } := by
      intro e1
      unfold ELM.trainBody
      have hc : ∀ (M N : Mat K), checkBoth fs e1.nnet (.mat M) (.mat N) = (do
          pyAssert (M.cols = e1.nnet.inputs)
          pyAssert (N.cols = e1.nnet.outputs)
          pyAssert (M.nrows = N.nrows)
          pure (M, N)) := by
        intro M N
        unfold checkBoth checkData checkOne
        simp only [pure, Except.pure, bind, Except.bind, pyAssert]
        by_cases a : M.cols = e1.nnet.inputs
        · by_cases b : N.cols = e1.nnet.outputs
          · by_cases c : M.nrows = N.nrows <;> simp [a, b, c]
          · simp [a, b]
        · simp [a]
      have r1 : Xv.nrows = Tv.nrows := h.rows
      have r2 : Xv'.nrows = Tv'.nrows := h.rows'
      simp only [hc, h.inputs, h.outputs, r1, r2]
      by_cases a : Xv.cols = e1.nnet.inputs
      · by_cases b : Tv.cols = e1.nnet.outputs
        · simp only [a, b, decide_true, pyAssert, if_true, bind, Except.bind, pure, Except.pure, trainV_reorder env _ e1 X T h]
        · simp only [a, b, decide_true, decide_false, pyAssert, if_true, bind, Except.bind]
          rfl
      · simp only [a, decide_false, pyAssert, bind, Except.bind]
        rfl
    simp only [hp, hb]

/-- C84 (cross-validation), the true part.  Cross-validation gives the same result if the samples change places only within the folds:
a sample belongs to the fold of its position modulo the number of folds. -/
theorem C84_within_folds_partial (env : Env K) (hx : env.Exact) (fs : Files K) (rnd : Rnd) (e : ELM K) (X T X' T' : Mat K)
    (args : List String) (kw : Kwargs K) (k : Nat) (hk : 3 ≤ k) (hkw : kw.k = some (k : Int)) (hb : 0 < kw.batch.getD e.batch)
    (h : ReorderedInParts k X T X' T') (hT : Given args "WC" → OneHot T) :
    e.train env fs rnd (.mat X') (.mat T') args kw = e.train env fs rnd (.mat X) (.mat T) args kw := by
  have hr := parts_reordered (by omega) h
  exact train_order_of env hx fs rnd e X T X' T' args kw hb hr.rows hr.rows' hr.inputs hr.outputs hr.perm hT fun e1 hadd hrefit =>
    trainBody_reorder env fs rnd e1 args kw hr (fun _ _ => ⟨k, hk, hkw, h⟩) hadd hrefit

/-- C84 (cross-validation), the full claim is false: four samples, the first two exchanged, three folds, another returned error. -/
theorem C84_cv_order_refuted : ∃ (e : ELM ℚ) (X T X' T' : Mat ℚ) (rnd : Rnd) (v v' : ℚ), QEnv.env.Exact ∧ Reordered X T X' T' ∧
    (e.train QEnv.env (fun _ => none) rnd (.mat X) (.mat T) ["CV"] { k := some 3 }).1 = .ok (some v) ∧
    (e.train QEnv.env (fun _ => none) rnd (.mat X') (.mat T') ["CV"] { k := some 3 }).1 = .ok (some v') ∧ v ≠ v' := by
  refine ⟨exModel3, ⟨1, [[1], [2], [3], [5]]⟩, ⟨1, [[1], [0], [3], [2]]⟩, ⟨1, [[2], [1], [3], [5]]⟩, ⟨1, [[0], [1], [3], [2]]⟩,
    ⟨fun _ => [2, 0, 1]⟩, 10390205774922337864568891 / 3492280874687321265156300,
    154224565187842212786138841772359 / 94990557739958828947094475380000, (fun _ _ => rfl), ⟨rfl, rfl, rfl, rfl, List.Perm.swap _ _ _⟩, ?_, ?_, ?_⟩
  · decide +kernel
  · decide +kernel
  · decide +kernel

/-- Leave-one-out selection with optimal pruning and with a random ranking, and selection on a validation set, on reordered samples; none
of the runs raises. -/
example : QEnv.env.Exact ∧
    Reordered (⟨1, [[1], [2], [3], [5]]⟩ : Mat ℚ) ⟨1, [[1], [0], [3], [2]]⟩ ⟨1, [[5], [2], [3], [1]]⟩ ⟨1, [[2], [0], [3], [1]]⟩ ∧
    (exModel3.train QEnv.env (fun _ => none) ⟨fun _ => [2, 0, 1]⟩ (.mat ⟨1, [[1], [2], [3], [5]]⟩) (.mat ⟨1, [[1], [0], [3], [2]]⟩)
      ["LOO", "OP"] {}).1 = .ok none ∧
    (exModel3.train QEnv.env (fun _ => none) ⟨fun _ => [2, 0, 1]⟩ (.mat ⟨1, [[1], [2], [3], [5]]⟩) (.mat ⟨1, [[1], [0], [3], [2]]⟩)
      ["LOO"] {}).1 = .ok none ∧
    (exModel3.train QEnv.env (fun _ => none) ⟨fun _ => [2, 0, 1]⟩ (.mat ⟨1, [[1], [2], [3], [5]]⟩) (.mat ⟨1, [[1], [0], [3], [2]]⟩)
      ["V"] { Xv := some (.mat ⟨1, [[1], [2], [3], [5]]⟩), Tv := some (.mat ⟨1, [[1], [0], [3], [2]]⟩) }).1 = .ok none := by
  refine ⟨(fun _ _ => rfl), ⟨rfl, rfl, rfl, rfl, ?_⟩, ?_, ?_, ?_⟩
  · show List.Perm [(([5] : List ℚ), ([2] : List ℚ)), ([2], [0]), ([3], [3]), ([1], [1])] [([1], [1]), ([2], [0]), ([3], [3]), ([5], [2])]
    decide
  · decide +kernel
  · decide +kernel
  · decide +kernel

/-- Cross-validation with three folds: the first and the last of four samples are in the same fold. -/
example : ReorderedInParts 3 (⟨1, [[1], [2], [3], [5]]⟩ : Mat ℚ) ⟨1, [[1], [0], [3], [2]]⟩ ⟨1, [[5], [2], [3], [1]]⟩ ⟨1, [[2], [0], [3], [1]]⟩ ∧
    (exModel3.train QEnv.env (fun _ => none) ⟨fun _ => [2, 0, 1]⟩ (.mat ⟨1, [[1], [2], [3], [5]]⟩) (.mat ⟨1, [[1], [0], [3], [2]]⟩)
      ["CV"] { k := some 3 }).1 ≠ (exModel3.train QEnv.env (fun _ => none) ⟨fun _ => [2, 0, 1]⟩ (.mat ⟨1, [[2], [1], [3], [5]]⟩)
      (.mat ⟨1, [[0], [1], [3], [2]]⟩) ["CV"] { k := some 3 }).1 := by
  refine ⟨⟨rfl, rfl, rfl, rfl, rfl, ?_⟩, by decide +kernel⟩
  show ∀ r < 3, (everyKth 3 r [(([5] : List ℚ), ([2] : List ℚ)), ([2], [0]), ([3], [3]), ([1], [1])]).Perm
    (everyKth 3 r [([1], [1]), ([2], [0]), ([3], [3]), ([5], [2])])
  decide +kernel

end Hpelm.Props
