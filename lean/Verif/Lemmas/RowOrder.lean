import Verif.Lemmas.Mat
import Verif.Lemmas.Unweighted
import Verif.Model.Elm

/-!
# Reordering the samples: what the ranking of neurons and the leave-one-out error compute from the data
-/

set_option linter.unusedSectionVars false

namespace Hpelm
variable {K : Type} [Field K] [LinearOrder K] [IsStrictOrderedRing K]

/-- Two orders of a list differ by a reordering of positions. -/
theorem perm_positions {α : Type} (d : α) {l' l : List α} (h : l'.Perm l) :
    ∃ σ : List Nat, σ.Perm (List.range l.length) ∧ l' = σ.map fun i => l.getD i d := by
  induction h with
  | nil => exact ⟨[], by simp, rfl⟩
  | cons x p ih =>
    obtain ⟨σ, h1, h2⟩ := ih
    refine ⟨0 :: σ.map Nat.succ, ?_, ?_⟩
    · rw [List.length_cons, List.range_succ_eq_map]
      exact (h1.map _).cons _
    · simp [h2]
  | swap x y l =>
    refine ⟨1 :: 0 :: (List.range l.length).map fun i => i + 2, ?_, ?_⟩
    · have : List.range (y :: x :: l).length = 0 :: 1 :: (List.range l.length).map fun i => i + 2 := by
        rw [List.length_cons, List.length_cons, List.range_succ_eq_map, List.range_succ_eq_map]
        simp [Function.comp_def]
      simp only [List.length_cons] at this ⊢
      rw [this]
      exact List.Perm.swap _ _ _
    · simp only [List.map_cons, List.map_map]
      congr 2
      apply List.ext_getElem (by simp)
      intro i h1 h2
      simp [List.getD_eq_getElem?_getD, h1]
  | trans p q ih1 ih2 =>
    obtain ⟨σ, h1, h2⟩ := ih1
    obtain ⟨τ, h3, h4⟩ := ih2
    rename_i l1 l2 l3
    have hlen : τ.length = l2.length := by rw [h4]; simp
    refine ⟨σ.map fun i => τ.getD i 0, ?_, ?_⟩
    · have : ((List.range l2.length).map fun i => τ.getD i 0) = τ := by
        rw [← hlen]
        apply List.ext_getElem (by simp)
        intro i h1 h2
        simp [List.getD_eq_getElem?_getD, h2]
      exact ((h1.map _).trans (by rw [this])).trans h3
    · rw [h2, List.map_map]
      apply List.map_congr_left
      intro i hi
      have hi' : i < l2.length := List.mem_range.1 (h1.mem_iff.1 hi)
      rw [h4]
      simp [List.getD_eq_getElem?_getD, hlen, hi']

/-- A reordering `σ` of `N` samples. -/
def Reorder (σ : List Nat) (N : Nat) : Prop := σ.Perm (List.range N)

theorem Reorder.lt {σ : List Nat} {N : Nat} (h : Reorder σ N) {i : Nat} (hi : i ∈ σ) : i < N :=
  List.mem_range.1 (h.mem_iff.1 hi)

theorem Reorder.length {σ : List Nat} {N : Nat} (h : Reorder σ N) : σ.length = N := by
  have := List.Perm.length_eq h
  simpa using this

theorem rows_range (M : Mat K) : M.rows = (List.range M.nrows).map fun i => M.rows.getD i [] := by
  apply List.ext_getElem (by simp [Mat.nrows])
  intro i h1 h2
  simp [List.getD_eq_getElem?_getD, h1]

theorem col_range (M : Mat K) (j : Nat) : M.col j = (List.range M.nrows).map fun i => M.get i j := by
  unfold Mat.col
  conv_lhs => rw [rows_range M, List.map_map]
  rfl

theorem col_reorder (σ : List Nat) (M : Mat K) (j : Nat) : (M.selRows σ).col j = σ.map fun i => M.get i j := by
  unfold Mat.col Mat.selRows
  rw [List.map_map]
  rfl

theorem dot_reorder {σ : List Nat} {N : Nat} (h : Reorder σ N) (f g : Nat → K) :
    dot (σ.map f) (σ.map g) = dot ((List.range N).map f) ((List.range N).map g) := by
  unfold dot
  rw [List.zipWith_map, List.zipWith_map, List.zipWith_self, List.zipWith_self]
  exact (h.map _).sum_eq

theorem dot_col_reorder {σ : List Nat} {A B : Mat K} (h : Reorder σ A.nrows) (hB : B.nrows = A.nrows) (i j : Nat) :
    dot ((A.selRows σ).col i) ((B.selRows σ).col j) = dot (A.col i) (B.col j) := by
  rw [col_reorder, col_reorder, col_range, col_range, hB, dot_reorder h]

theorem absCorr_reorder {σ : List Nat} {R X : Mat K} (h : Reorder σ R.nrows) (hX : X.nrows = R.nrows) :
    absCorr (R.selRows σ) (X.selRows σ) = absCorr R X := by
  funext j
  unfold absCorr
  simp only [dot_col_reorder h hX, Mat.selRows_cols]

theorem corrCols_reorder {σ : List Nat} {R X : Mat K} (h : Reorder σ R.nrows) (hX : X.nrows = R.nrows) (idx : List Nat) :
    corrCols (R.selRows σ) (X.selRows σ) idx = corrCols R X idx := by
  unfold corrCols
  simp only [dot_col_reorder h hX, Mat.selRows_cols]

/-- An elementwise array follows the order of the samples. -/
theorem ofFn_reorder {σ : List Nat} {N : Nat} (h : Reorder σ N) (c : Nat) (f g : Nat → Nat → K)
    (hf : ∀ k < N, ∀ j, g k j = f (σ.getD k 0) j) : Mat.ofFn N c g = (Mat.ofFn N c f).selRows σ := by
  unfold Mat.ofFn Mat.selRows
  congr 1
  apply List.ext_getElem (by simp [h.length])
  intro k h1 h2
  have hk : k < N := by simpa using h1
  have hk' : k < σ.length := by rw [h.length]; exact hk
  have hm : σ[k] < N := h.lt (List.getElem_mem _)
  simp only [List.getElem_map, List.getElem_range]
  rw [List.getD_eq_getElem?_getD, List.getElem?_map, List.getElem?_range hm]
  simp only [Option.map_some, Option.getD_some]
  apply List.map_congr_left
  intro j _
  rw [hf k hk, List.getD_eq_getElem?_getD, List.getElem?_eq_getElem hk', Option.getD_some]

theorem get_reorder {σ : List Nat} {N : Nat} (h : Reorder σ N) (M : Mat K) {k : Nat} (hk : k < N) (j : Nat) :
    (M.selRows σ).get k j = M.get (σ.getD k 0) j := by
  have hk' : k < σ.length := by rw [h.length]; exact hk
  unfold Mat.selRows Mat.get
  simp [List.getD_eq_getElem?_getD, hk']

theorem sub_reorder {σ : List Nat} {A B : Mat K} (h : Reorder σ A.nrows) :
    (A.selRows σ).sub (B.selRows σ) = (A.sub B).selRows σ := by
  unfold Mat.sub
  rw [Mat.selRows_nrows, h.length]
  exact ofFn_reorder h _ _ _ fun k hk j => by rw [get_reorder h _ hk, get_reorder h _ hk]

theorem comb_reorder {σ : List Nat} {A B : Mat K} (a b : K) (h : Reorder σ A.nrows) :
    Mat.comb a (A.selRows σ) b (B.selRows σ) = (Mat.comb a A b B).selRows σ := by
  unfold Mat.comb
  rw [Mat.selRows_nrows, h.length]
  exact ofFn_reorder h _ _ _ fun k hk j => by rw [get_reorder h _ hk, get_reorder h _ hk]

theorem zeros_reorder {σ : List Nat} {N : Nat} (h : Reorder σ N) (c : Nat) :
    (Mat.zeros N c : Mat K) = (Mat.zeros N c).selRows σ := ofFn_reorder h _ _ _ fun _ _ _ => rfl

theorem mul_reorder {σ : List Nat} {A B : Mat K} (h : Reorder σ A.nrows) : (A.selRows σ).mul B = (A.mul B).selRows σ := by
  unfold Mat.mul Mat.selRows
  congr 1
  rw [List.map_map]
  apply List.map_congr_left
  intro i hi
  have := h.lt hi
  unfold Mat.nrows at this
  simp [List.getD_eq_getElem?_getD, this]

theorem zip_reorder {α β : Type} (σ : List Nat) (f : Nat → α) (g : Nat → β) : (σ.map f).zip (σ.map g) = σ.map fun i => (f i, g i) := by
  rw [List.zip_map, List.zip_eq_zipWith, List.zipWith_self, List.map_map]
  rfl

theorem tmul_reorder {σ : List Nat} {A B : Mat K} (h : Reorder σ A.nrows) (hB : B.nrows = A.nrows) :
    (A.selRows σ).tmul (B.selRows σ) = A.tmul B := by
  unfold Mat.tmul
  have key : ((A.selRows σ).rows.zip (B.selRows σ).rows).Perm (A.rows.zip B.rows) := by
    conv_rhs => rw [rows_range A, rows_range B, hB, zip_reorder]
    unfold Mat.selRows
    simp only
    rw [zip_reorder]
    exact h.map _
  simp only [Mat.selRows_cols]
  congr 1
  funext i j
  exact (key.map _).sum_eq

theorem sub_nrows (A B : Mat K) : (A.sub B).nrows = A.nrows := by simp [Mat.sub, Mat.ofFn, Mat.nrows]
theorem sub_cols (A B : Mat K) : (A.sub B).cols = A.cols := rfl
theorem comb_nrows (a b : K) (A B : Mat K) : (Mat.comb a A b B).nrows = A.nrows := by simp [Mat.comb, Mat.ofFn, Mat.nrows]
theorem zeros_nrows (r c : Nat) : (Mat.zeros r c : Mat K).nrows = r := by simp [Mat.zeros, Mat.ofFn, Mat.nrows]
theorem mul_nrows' (A B : Mat K) : (A.mul B).nrows = A.nrows := by simp [Mat.mul, Mat.nrows]

/-! ### The two ranking algorithms -/

/-- The state of `mrsr` on reordered samples. -/
def MrsrSt.reorder (σ : List Nat) (st : MrsrSt K) : MrsrSt K := { st with Y := st.Y.selRows σ }

/-- The least squares estimate of one step of `mrsr` (mrsr.py:63-68,92-104). -/
def mrsrOls (env : Env K) (X T : Mat K) (first : Bool) (i1 : List Nat) (ind : Nat) : Except PyErr (Mat K) :=
  if first then
    let xx := dot (X.col ind) (X.col ind)
    if xx = 0 then .error .nonFinite
    else .ok ((X.selCols i1).mul (Mat.ofFn 1 T.cols fun _ t => 1 / xx * dot (X.col ind) (T.col t)))
  else
    let v3 := (X.selCols i1).tmul (X.selCols i1)
    let invXX := (env.inv v3).getD (env.pinv v3)
    .ok ((X.selCols i1).mul (invXX.mul ((X.selCols i1).tmul T)))

/-- `mrsrStep` without local definitions. -/
theorem mrsrStep_eq (env : Env K) (X T : Mat K) (S : List (List K)) (first last : Bool) (i1 i2 : List Nat) (Y : Mat K) :
    mrsrStep env X T S first last ⟨i1, i2, Y⟩ =
      (let sums := i2.map (absCorr (T.sub Y) X)
       let cind := argmax sums
       let ind := i2.getD cind 0
       if sums.isEmpty then .error .valueError
       else (mrsrOls env X T first (i1 ++ [ind]) ind).bind fun Yols =>
         if last && !first then .ok ⟨i1 ++ [ind], delAt i2 cind, Yols⟩
         else (minStep (stepRatios S (sums.getD cind 0) (corrCols (T.sub Y) X (delAt i2 cind))
             (corrCols (Yols.sub Y) X (delAt i2 cind)))).bind fun g =>
           .ok ⟨i1 ++ [ind], delAt i2 cind, Mat.comb (1 - g) Y g Yols⟩) := by
  unfold mrsrStep mrsrOls
  simp only [bind, pure, Except.pure]
  by_cases c : (i2.map (absCorr (T.sub Y) X)).isEmpty = true
  · simp only [c, if_true, Except.bind]
  · simp only [c, Except.bind]

theorem mrsrOls_reorder (env : Env K) {σ : List Nat} {X T : Mat K} (h : Reorder σ T.nrows) (hX : X.nrows = T.nrows) (first : Bool)
    (i1 : List Nat) (ind : Nat) :
    mrsrOls env (X.selRows σ) (T.selRows σ) first i1 ind = (mrsrOls env X T first i1 ind).map (·.selRows σ) ∧
      ∀ Y, mrsrOls env X T first i1 ind = .ok Y → Y.nrows = T.nrows := by
  have hx : Reorder σ X.nrows := by rw [hX]; exact h
  have hsel : (X.selRows σ).selCols i1 = (X.selCols i1).selRows σ := (selRows_selCols fun i hi => hx.lt hi).symm
  have hcn : (X.selCols i1).nrows = T.nrows := by rw [Mat.selCols_nrows, hX]
  have hSC : Reorder σ (X.selCols i1).nrows := by rw [hcn]; exact h
  unfold mrsrOls
  constructor
  · simp only [hsel, dot_col_reorder hx rfl, dot_col_reorder hx hX.symm, Mat.selRows_cols, tmul_reorder hSC rfl, tmul_reorder hSC hcn.symm,
      mul_reorder hSC]
    cases first with
    | true =>
      simp only [if_true]
      split <;> rfl
    | false => rfl
  · intro Y hY
    split at hY
    · simp only at hY
      split at hY
      · cases hY
      · injection hY with hY; rw [← hY, mul_nrows', hcn]
    · injection hY with hY; rw [← hY, mul_nrows', hcn]

theorem mrsrStep_reorder (env : Env K) {σ : List Nat} {X T : Mat K} (h : Reorder σ T.nrows) (hX : X.nrows = T.nrows)
    (S : List (List K)) (first last : Bool) (st : MrsrSt K) (hY : st.Y.nrows = T.nrows) :
    mrsrStep env (X.selRows σ) (T.selRows σ) S first last (st.reorder σ) =
      (mrsrStep env X T S first last st).map (MrsrSt.reorder σ) ∧
    ∀ st', mrsrStep env X T S first last st = .ok st' → st'.Y.nrows = T.nrows := by
  obtain ⟨i1, i2, Y⟩ := st
  have hR : Reorder σ (T.sub Y).nrows := by rw [sub_nrows]; exact h
  have hy : Reorder σ Y.nrows := by rw [hY]; exact h
  have hrx : X.nrows = (T.sub Y).nrows := by rw [sub_nrows, hX]
  unfold MrsrSt.reorder
  simp only [mrsrStep_eq, sub_reorder (B := Y) h, absCorr_reorder hR hrx, corrCols_reorder hR hrx]
  generalize hind : i2.getD (argmax (i2.map (absCorr (T.sub Y) X))) 0 = ind
  obtain ⟨o1, o2⟩ := mrsrOls_reorder env h hX first (i1 ++ [ind]) ind
  rw [o1]
  by_cases c1 : (i2.map (absCorr (T.sub Y) X)).isEmpty = true
  · simp only [c1, if_true]
    exact ⟨rfl, fun _ h => by cases h⟩
  simp only [c1]
  cases ho : mrsrOls env X T first (i1 ++ [ind]) ind with
  | error x => exact ⟨rfl, fun _ h => by cases h⟩
  | ok Yols =>
    have hn := o2 Yols ho
    have hO : Reorder σ Yols.nrows := by rw [hn]; exact h
    have hD : Reorder σ (Yols.sub Y).nrows := by rw [sub_nrows]; exact hO
    simp only [Except.map, Except.bind, sub_reorder (B := Y) hO, corrCols_reorder hD (show X.nrows = _ by rw [sub_nrows, hn, hX]),
      comb_reorder _ _ hy]
    cases hb : (last && !first) with
    | true => exact ⟨rfl, fun st' hs => by simp at hs; rw [← hs]; exact hn⟩
    | false =>
      cases minStep (stepRatios S ((i2.map (absCorr (T.sub Y) X)).getD (argmax (i2.map (absCorr (T.sub Y) X))) 0)
          (corrCols (T.sub Y) X (delAt i2 (argmax (i2.map (absCorr (T.sub Y) X)))))
          (corrCols (Yols.sub Y) X (delAt i2 (argmax (i2.map (absCorr (T.sub Y) X)))))) with
      | error x => exact ⟨rfl, fun _ h => by simp at h⟩
      | ok g => exact ⟨rfl, fun st' hs => by simp at hs; rw [← hs]; exact (comb_nrows _ _ _ _).trans hY⟩

theorem mrsrLoop_reorder (env : Env K) {σ : List Nat} {X T : Mat K} (h : Reorder σ T.nrows) (hX : X.nrows = T.nrows)
    (S : List (List K)) (kmax : Nat) (ks : List Nat) (st : MrsrSt K) (hY : st.Y.nrows = T.nrows) :
    mrsrLoop env (X.selRows σ) (T.selRows σ) S kmax ks (st.reorder σ) = (mrsrLoop env X T S kmax ks st).map (MrsrSt.reorder σ) := by
  induction ks generalizing st with
  | nil => rfl
  | cons k ks ih =>
    obtain ⟨a1, a2⟩ := mrsrStep_reorder env h hX S false (k == kmax) st hY
    unfold mrsrLoop
    rw [a1]
    cases hs : mrsrStep env X T S false (k == kmax) st with
    | error x => rfl
    | ok st' => exact ih st' (a2 st' hs)

/-- The state `mrsr` starts from (mrsr.py:38-52). -/
def mrsrInit (m : Nat) (Z : Mat K) : MrsrSt K := { i1 := [], i2 := List.range m, Y := Z }

/-- The steps of `mrsr` after the choice of the sign table. -/
def mrsrSteps (env : Env K) (X T : Mat K) (S : List (List K)) (kmax : Nat) (ks : List Nat) : Except PyErr (List Nat) :=
  (mrsrStep env X T S true (1 == kmax) (mrsrInit X.cols (Mat.zeros T.nrows T.cols))).bind fun st =>
    (mrsrLoop env X T S kmax ks st).bind fun st => .ok st.i1

theorem mrsr_eq (env : Env K) (X T : Mat K) (kmax : Nat) :
    mrsr env X T kmax = mrsrSteps env X T (signTable T.cols) (min kmax X.cols) ((List.range (min kmax X.cols + 1)).drop 2) := rfl

theorem mrsrInit_reorder {σ : List Nat} {N : Nat} (h : Reorder σ N) (m c : Nat) :
    (mrsrInit m (Mat.zeros N c : Mat K)).reorder σ = mrsrInit m (Mat.zeros N c) :=
  congrArg (fun Z => (⟨[], List.range m, Z⟩ : MrsrSt K)) (zeros_reorder h c).symm

theorem mrsrRest_reorder (env : Env K) {σ : List Nat} {X T : Mat K} (h : Reorder σ T.nrows) (hX : X.nrows = T.nrows) (S : List (List K))
    (kmax : Nat) (ks : List Nat) (r : Except PyErr (MrsrSt K)) (hr : ∀ st, r = .ok st → st.Y.nrows = T.nrows) :
    ((r.map (MrsrSt.reorder σ)).bind fun st => (mrsrLoop env (X.selRows σ) (T.selRows σ) S kmax ks st).bind fun st => .ok st.i1) =
      (r.bind fun st => (mrsrLoop env X T S kmax ks st).bind fun st => .ok st.i1) := by
  cases r with
  | error x => exact Eq.trans (b := Except.error x) rfl rfl
  | ok st =>
    have := mrsrLoop_reorder env h hX S kmax ks st (hr st rfl)
    show (mrsrLoop env (X.selRows σ) (T.selRows σ) S kmax ks (st.reorder σ)).bind _ = (mrsrLoop env X T S kmax ks st).bind _
    rw [this]
    generalize mrsrLoop env X T S kmax ks st = r
    cases r with
    | error x => rfl
    | ok st' => rfl

theorem mrsrSteps_reorder (env : Env K) {σ : List Nat} {X T : Mat K} (h : Reorder σ T.nrows) (hX : X.nrows = T.nrows) (S : List (List K))
    (kmax : Nat) (ks : List Nat) : mrsrSteps env (X.selRows σ) (T.selRows σ) S kmax ks = mrsrSteps env X T S kmax ks := by
  obtain ⟨a1, a2⟩ := mrsrStep_reorder env h hX S true (1 == kmax) (mrsrInit X.cols (Mat.zeros T.nrows T.cols)) (zeros_nrows _ _)
  rw [mrsrInit_reorder h] at a1
  have hn : (T.selRows σ).nrows = T.nrows := by rw [Mat.selRows_nrows, h.length]
  unfold mrsrSteps
  rw [hn, Mat.selRows_cols, Mat.selRows_cols, a1]
  exact mrsrRest_reorder env h hX S kmax ks _ a2

/-- Ranking by `mrsr` does not depend on the order of the samples. -/
theorem mrsr_reorder (env : Env K) {σ : List Nat} {X T : Mat K} (h : Reorder σ T.nrows) (hX : X.nrows = T.nrows) (kmax : Nat) :
    mrsr env (X.selRows σ) (T.selRows σ) kmax = mrsr env X T kmax := by
  rw [mrsr_eq, mrsr_eq, mrsrSteps_reorder env h hX, Mat.selRows_cols, Mat.selRows_cols]

/-- The state of `mrsr2` on reordered samples. -/
def Mrsr2St.reorder (σ : List Nat) (st : Mrsr2St K) : Mrsr2St K := { st with Y := st.Y.selRows σ, Yk1 := st.Yk1.selRows σ }

/-- The correlations of regressor `j` with the columns of `R` (mrsr2.py:58,90,94,97). -/
def corr2 (X R : Mat K) (j : Nat) : List K := (List.range R.cols).map fun t => dot (R.col t) (X.col j)

/-- Update of the estimates at the end of an iteration of `mrsr2` (mrsr2.py:116-132). -/
def mrsr2Upd (env : Env K) (X T : Mat K) (st : Mrsr2St K) (ymin : K) : Mrsr2St K :=
  let Yk1 := (X.selCols st.rank).mul (env.luSolve ((X.selCols st.rank).tmul (X.selCols st.rank)) ((X.selCols st.rank).tmul T))
  if st.rank.length > 1 then { st with Yk1, Y := Mat.comb (1 - ymin) st.Y ymin Yk1 } else { st with Yk1 }

theorem mrsr2Step_eq (env : Env K) (X T : Mat K) (st : Mrsr2St K) : mrsr2Step env X T st =
    if st.rank.isEmpty then
      match mrsr2First (fun j => norm2 env (corr2 X T j)) st.nonrank (-1) none with
      | none => .error .nonFinite
      | some j => .ok (mrsr2Upd env X T { st with rank := st.rank ++ [j], nonrank := st.nonrank.erase j, jcur := j } 1)
    else if st.nonrank.isEmpty then .ok (mrsr2Upd env X T { st with Y := st.Yk1 } 1)
    else
      let r := mrsr2Search env (norm2 env (corr2 X (T.sub st.Y) st.jcur)) (corr2 X (T.sub st.Y)) (corr2 X (st.Yk1.sub st.Y)) st.nonrank 1 st.jmin
      match (if r.1 = 1 then st.nonrank.getLast? else r.2) with
      | none => .error .nonFinite
      | some j =>
        if j ∈ st.nonrank then
          .ok (mrsr2Upd env X T { st with rank := st.rank ++ [j], nonrank := st.nonrank.erase j, jcur := j, jmin := some j } r.1)
        else .error .valueError := by
  rfl

theorem corr2_reorder {σ : List Nat} {X R : Mat K} (h : Reorder σ R.nrows) (hX : X.nrows = R.nrows) :
    corr2 (X.selRows σ) (R.selRows σ) = corr2 X R := by
  funext j
  unfold corr2
  simp only [dot_col_reorder h hX, Mat.selRows_cols]

theorem mrsr2Upd_reorder (env : Env K) {σ : List Nat} {X T : Mat K} (h : Reorder σ T.nrows) (hX : X.nrows = T.nrows) (st : Mrsr2St K)
    (hY : st.Y.nrows = T.nrows) (ymin : K) :
    mrsr2Upd env (X.selRows σ) (T.selRows σ) (st.reorder σ) ymin = (mrsr2Upd env X T st ymin).reorder σ ∧
      (mrsr2Upd env X T st ymin).Y.nrows = T.nrows ∧ (mrsr2Upd env X T st ymin).Yk1.nrows = T.nrows := by
  have hx : Reorder σ X.nrows := by rw [hX]; exact h
  have hsel : (X.selRows σ).selCols st.rank = (X.selCols st.rank).selRows σ := (selRows_selCols fun i hi => hx.lt hi).symm
  have hcn : (X.selCols st.rank).nrows = T.nrows := by rw [Mat.selCols_nrows, hX]
  have hSC : Reorder σ (X.selCols st.rank).nrows := by rw [hcn]; exact h
  have hy : Reorder σ st.Y.nrows := by rw [hY]; exact h
  unfold mrsr2Upd Mrsr2St.reorder
  simp only [hsel, tmul_reorder hSC rfl, tmul_reorder hSC hcn.symm, mul_reorder hSC, comb_reorder _ _ hy]
  split
  · exact ⟨rfl, (comb_nrows _ _ _ _).trans hY, by rw [mul_nrows', hcn]⟩
  · exact ⟨rfl, hY, by rw [mul_nrows', hcn]⟩

theorem mrsr2Step_reorder (env : Env K) {σ : List Nat} {X T : Mat K} (h : Reorder σ T.nrows) (hX : X.nrows = T.nrows) (st : Mrsr2St K)
    (hY : st.Y.nrows = T.nrows) (hY1 : st.Yk1.nrows = T.nrows) :
    mrsr2Step env (X.selRows σ) (T.selRows σ) (st.reorder σ) = (mrsr2Step env X T st).map (Mrsr2St.reorder σ) ∧
      ∀ st', mrsr2Step env X T st = .ok st' → st'.Y.nrows = T.nrows ∧ st'.Yk1.nrows = T.nrows := by
  have hR : Reorder σ (T.sub st.Y).nrows := by rw [sub_nrows]; exact h
  have hy1 : Reorder σ st.Yk1.nrows := by rw [hY1]; exact h
  have hD : Reorder σ (st.Yk1.sub st.Y).nrows := by rw [sub_nrows]; exact hy1
  have e1 : corr2 (X.selRows σ) (T.selRows σ) = corr2 X T := corr2_reorder h hX
  have e2 : corr2 (X.selRows σ) ((T.sub st.Y).selRows σ) = corr2 X (T.sub st.Y) := corr2_reorder hR (by rw [sub_nrows, hX])
  have e3 : corr2 (X.selRows σ) ((st.Yk1.sub st.Y).selRows σ) = corr2 X (st.Yk1.sub st.Y) := corr2_reorder hD (by rw [sub_nrows, hY1, hX])
  have s1 : (T.selRows σ).sub (st.Y.selRows σ) = (T.sub st.Y).selRows σ := sub_reorder h
  have s2 : (st.Yk1.selRows σ).sub (st.Y.selRows σ) = (st.Yk1.sub st.Y).selRows σ := sub_reorder hy1
  rw [mrsr2Step_eq, mrsr2Step_eq]
  simp only [Mrsr2St.reorder, e1, s1, s2, e2, e3]
  split
  · cases mrsr2First (fun j => norm2 env (corr2 X T j)) st.nonrank (-1) none with
    | none => exact ⟨rfl, fun _ h => by cases h⟩
    | some j =>
      obtain ⟨u1, u2⟩ := mrsr2Upd_reorder env h hX { st with rank := st.rank ++ [j], nonrank := st.nonrank.erase j, jcur := j } hY 1
      exact ⟨congrArg Except.ok u1, fun st' hs => by injection hs with hs; rw [← hs]; exact u2⟩
  · split
    · obtain ⟨u1, u2⟩ := mrsr2Upd_reorder env h hX { st with Y := st.Yk1 } hY1 1
      exact ⟨congrArg Except.ok u1, fun st' hs => by injection hs with hs; rw [← hs]; exact u2⟩
    · generalize mrsr2Search env (norm2 env (corr2 X (T.sub st.Y) st.jcur)) (corr2 X (T.sub st.Y)) (corr2 X (st.Yk1.sub st.Y)) st.nonrank 1
        st.jmin = r
      cases (if r.1 = 1 then st.nonrank.getLast? else r.2) with
      | none => exact ⟨rfl, fun _ h => by cases h⟩
      | some j =>
        simp only
        split
        · obtain ⟨u1, u2⟩ := mrsr2Upd_reorder env h hX
            { st with rank := st.rank ++ [j], nonrank := st.nonrank.erase j, jcur := j, jmin := some j } hY r.1
          exact ⟨congrArg Except.ok u1, fun st' hs => by injection hs with hs; rw [← hs]; exact u2⟩
        · exact ⟨rfl, fun _ h => by cases h⟩

theorem mrsr2Loop_reorder (env : Env K) {σ : List Nat} {X T : Mat K} (h : Reorder σ T.nrows) (hX : X.nrows = T.nrows) (k : Nat)
    (st : Mrsr2St K) (hY : st.Y.nrows = T.nrows) (hY1 : st.Yk1.nrows = T.nrows) :
    mrsr2Loop env (X.selRows σ) (T.selRows σ) k (st.reorder σ) = (mrsr2Loop env X T k st).map (Mrsr2St.reorder σ) := by
  induction k generalizing st with
  | zero => rfl
  | succ k ih =>
    obtain ⟨a1, a2⟩ := mrsr2Step_reorder env h hX st hY hY1
    unfold mrsr2Loop
    rw [a1]
    cases hs : mrsr2Step env X T st with
    | error x => rfl
    | ok st' => exact ih st' (a2 st' hs).1 (a2 st' hs).2

/-- The state `mrsr2` starts from (mrsr2.py:38-51). -/
def mrsr2Init (m : Nat) (Z : Mat K) : Mrsr2St K := { rank := [], nonrank := List.range m, Y := Z, Yk1 := Z, jcur := 0, jmin := none }

/-- Ranking by `mrsr2` does not depend on the order of the samples. -/
theorem mrsr2_reorder (env : Env K) {σ : List Nat} {X T : Mat K} (h : Reorder σ T.nrows) (hX : X.nrows = T.nrows) (kmax : Nat) :
    mrsr2 env (X.selRows σ) (T.selRows σ) kmax = mrsr2 env X T kmax := by
  have hz : mrsr2Init X.cols (Mat.zeros T.nrows T.cols : Mat K) = (mrsr2Init X.cols (Mat.zeros T.nrows T.cols)).reorder σ := by
    unfold Mrsr2St.reorder mrsr2Init
    simp only
    rw [← zeros_reorder h]
  have he : ∀ X T : Mat K, mrsr2 env X T kmax =
      (mrsr2Loop env X T (min kmax X.nrows) (mrsr2Init X.cols (Mat.zeros T.nrows T.cols))).bind fun st => .ok st.rank := fun _ _ => rfl
  rw [he, he]
  simp only [Mat.selRows_cols, Mat.selRows_nrows, h.length]
  rw [hX]
  conv_lhs => rw [hz]
  rw [mrsr2Loop_reorder env h hX _ _ (zeros_nrows _ _) (zeros_nrows _ _)]
  cases mrsr2Loop env X T (min kmax T.nrows) (mrsr2Init X.cols (Mat.zeros T.nrows T.cols)) with
  | error x => rfl
  | ok st => rfl

/-- The ranking of neurons used by the structure selection does not depend on the order of the samples. -/
theorem ranking_reorder (env : Env K) {σ : List Nat} {X T : Mat K} (h : Reorder σ T.nrows) (hX : X.nrows = T.nrows) (e : ELM K)
    (sh : List Nat) (L : Nat) : e.ranking env sh L (X.selRows σ) (T.selRows σ) = e.ranking env sh L X T := by
  unfold ELM.ranking
  simp only [mrsr_reorder env h hX, mrsr2_reorder env h hX, Mat.selRows_cols]

/-! ### The leave-one-out error -/

theorem pressR_reorder {σ : List Nat} {H : Mat K} (h : Reorder σ H.nrows) (P : Mat K) :
    pressR (H.selRows σ) P = σ.map fun i => (pressR H P).getD i 0 := by
  unfold pressR Mat.selRows
  rw [List.map_map]
  apply List.map_congr_left
  intro i hi
  have := h.lt hi
  unfold Mat.nrows at this
  simp [List.getD_eq_getElem?_getD, this]

theorem mapM_uniform {α β : Type} (g : α → Except PyErr β) (E : PyErr) (bad : α → Prop) [DecidablePred bad] (v : α → β)
    (hg : ∀ x, g x = if bad x then .error E else .ok (v x)) (l : List α) :
    l.mapM g = if ∃ x ∈ l, bad x then .error E else .ok (l.map v) := by
  induction l with
  | nil => simp [pure, Except.pure]
  | cons x l ih =>
    rw [List.mapM_cons, ih, hg]
    by_cases h1 : bad x
    · simp [h1, bind, Except.bind]
    · by_cases h2 : ∃ y ∈ l, bad y
      · have h3 : ∃ y ∈ x :: l, bad y := by obtain ⟨y, a, b⟩ := h2; exact ⟨y, by simp [a], b⟩
        simp [h1, h2, bind, Except.bind]
      · have h3 : ¬ ∃ y ∈ x :: l, bad y := by
          rintro ⟨y, a, b⟩
          rcases List.mem_cons.1 a with rfl | a
          · exact h1 b
          · exact h2 ⟨y, a, b⟩
        simp only [h1, if_false, h2, bind, Except.bind, h3, pure, Except.pure, List.map_cons]

theorem mean_reorder {l l' : List K} (h : l'.Perm l) : mean? l' = mean? l := by
  unfold mean?
  have : l'.isEmpty = l.isEmpty := by
    rw [Bool.eq_iff_iff, List.isEmpty_iff_length_eq_zero, List.isEmpty_iff_length_eq_zero, h.length_eq]
  rw [h.sum_eq, h.length_eq, this]

/-- `sqDiv` followed by the mean does not depend on the order. -/
theorem sqDiv_reorder {τ τ' : List Nat} (h : τ.Perm τ') (f r : Nat → K) :
    (∃ x, sqDiv (τ.map f) (τ.map r) = .error x ∧ sqDiv (τ'.map f) (τ'.map r) = .error x) ∨
      ∃ v v', sqDiv (τ.map f) (τ.map r) = .ok v ∧ sqDiv (τ'.map f) (τ'.map r) = .ok v' ∧ v.Perm v' := by
  unfold sqDiv
  have hm : (0 : K) ∈ τ.map r ↔ (0 : K) ∈ τ'.map r := (h.map r).mem_iff
  by_cases hz : (0 : K) ∈ τ.map r
  · left; exact ⟨_, if_pos hz, if_pos (hm.1 hz)⟩
  · right
    refine ⟨_, _, if_neg hz, if_neg fun h => hz (hm.2 h), ?_⟩
    rw [List.zipWith_map, List.zipWith_map, List.zipWith_self, List.zipWith_self]
    exact h.map _

theorem rowsDiv_reorder {α : Type} (f : List α → List K) {l l' : List (List α × K)} (h : l.Perm l') :
    (∃ x, l.mapM (fun p => sqDiv (f p.1) (List.replicate p.1.length p.2)) = .error x ∧
        l'.mapM (fun p => sqDiv (f p.1) (List.replicate p.1.length p.2)) = .error x) ∨
      ∃ v v', l.mapM (fun p => sqDiv (f p.1) (List.replicate p.1.length p.2)) = .ok v ∧
        l'.mapM (fun p => sqDiv (f p.1) (List.replicate p.1.length p.2)) = .ok v' ∧ v.Perm v' := by
  have e := mapM_uniform (fun p : List α × K => sqDiv (f p.1) (List.replicate p.1.length p.2)) .nonFinite
    (fun p => (0 : K) ∈ List.replicate p.1.length p.2) (fun p => List.zipWith (fun x r => (x / r) * (x / r)) (f p.1) (List.replicate p.1.length p.2))
    fun _ => rfl
  have hm : (∃ x ∈ l, (0 : K) ∈ List.replicate x.1.length x.2) ↔ ∃ x ∈ l', (0 : K) ∈ List.replicate x.1.length x.2 := by
    simp only [h.mem_iff]
  rw [e, e]
  by_cases hz : ∃ x ∈ l, (0 : K) ∈ List.replicate x.1.length x.2
  · left; exact ⟨_, if_pos hz, if_pos (hm.1 hz)⟩
  · right; exact ⟨_, _, if_neg hz, if_neg fun h => hz (hm.2 h), h.map _⟩

/-- The leave-one-out error of samples listed in two orders. -/
theorem press_reorder (cls : Option String) (wc : Option (List (Option K))) {τ τ' : List Nat} (h : τ.Perm τ') (tc yc : Nat)
    (t y : Nat → List K) (r : Nat → K) :
    elmErrorPress cls wc ⟨tc, τ.map t⟩ ⟨yc, τ.map y⟩ (τ.map r) = elmErrorPress cls wc ⟨tc, τ'.map t⟩ ⟨yc, τ'.map y⟩ (τ'.map r) := by
  unfold elmErrorPress
  simp only [Mat.nrows, List.length_map, h.length_eq]
  split
  · rfl
  split
  · have e1 : ∀ τ : List Nat, (misses (⟨tc, τ.map t⟩ : Mat K) ⟨yc, τ.map y⟩).map (b2k (K := K)) =
        τ.map fun i => b2k (argmax (y i) != argmax (t i)) := by
      intro τ
      unfold misses
      simp only
      rw [List.zipWith_map, List.zipWith_self, List.map_map]
      rfl
    rw [e1, e1]
    rcases sqDiv_reorder h (fun i => b2k (argmax (y i) != argmax (t i))) r with ⟨x, a, b⟩ | ⟨v, v', a, b, c⟩
    · rw [a, b]
    · rw [a, b]
      simp only [bind, Except.bind, mean_reorder c]
  split
  · have e1 : ∀ (τ : List Nat) (i : Nat), ((τ.map t).zip ((τ.map y).zip (τ.map r))).filter (fun p => p.1.getD i 0 = 1) =
        (τ.filter fun s => (t s).getD i 0 = 1).map fun s => (t s, (y s, r s)) := by
      intro τ i
      rw [zip_reorder, zip_reorder, List.filter_map]
      rfl
    have e2 : ∀ i, (do
        let sel := ((τ.map t).zip ((τ.map y).zip (τ.map r))).filter fun p => p.1.getD i 0 = 1
        let v ← sqDiv (sel.map fun p => b2k (argmax p.2.1 != i)) (sel.map fun p => p.2.2)
        pure ((mean? v).getD 0) : Except PyErr K) = (do
        let sel := ((τ'.map t).zip ((τ'.map y).zip (τ'.map r))).filter fun p => p.1.getD i 0 = 1
        let v ← sqDiv (sel.map fun p => b2k (argmax p.2.1 != i)) (sel.map fun p => p.2.2)
        pure ((mean? v).getD 0)) := by
      intro i
      simp only [e1, List.map_map]
      rcases sqDiv_reorder (h.filter fun s => (t s).getD i 0 = 1) ((fun p => b2k (argmax p.2.1 != i)) ∘ fun s => (t s, (y s, r s)))
        ((fun p : List K × List K × K => p.2.2) ∘ fun s => (t s, (y s, r s))) with ⟨x, a, b⟩ | ⟨v, v', a, b, c⟩
      · rw [a, b]
      · rw [a, b]
        simp only [bind, Except.bind, mean_reorder c]
    simp only [e2]
  split
  · have e1 : ∀ τ : List Nat, (labelMisses (⟨tc, τ.map t⟩ : Mat K) ⟨yc, τ.map y⟩).zip (τ.map r) =
        τ.map fun i => (List.zipWith (fun t y => (decide (1 / 2 < y)) != (decide (1 / 2 < t))) (t i) (y i), r i) := by
      intro τ
      unfold labelMisses
      simp only
      rw [List.zipWith_map, List.zipWith_self, zip_reorder]
    rw [e1, e1]
    rcases rowsDiv_reorder (fun l : List Bool => l.map (b2k (K := K))) (h.map fun i =>
      (List.zipWith (fun t y => (decide (1 / 2 < y)) != (decide (1 / 2 < t))) (t i) (y i), r i)) with ⟨x, a, b⟩ | ⟨v, v', a, b, c⟩
    · rw [a, b]
    · rw [a, b]
      simp only [bind, Except.bind, mean_reorder c.flatten]
  · have e1 : ∀ τ : List Nat, (List.zipWith (List.zipWith fun t y => y - t) (τ.map t) (τ.map y)).zip (τ.map r) =
        τ.map fun i => (List.zipWith (fun t y => y - t) (t i) (y i), r i) := by
      intro τ
      rw [List.zipWith_map, List.zipWith_self, zip_reorder]
    rw [e1, e1]
    rcases rowsDiv_reorder (fun l : List K => l) (h.map fun i => (List.zipWith (fun t y => y - t) (t i) (y i), r i))
      with ⟨x, a, b⟩ | ⟨v, v', a, b, c⟩
    · rw [a, b]
    · rw [a, b]
      simp only [bind, Except.bind, mean_reorder c.flatten]

/-- The leave-one-out score of a set of neurons does not depend on the order of the samples. -/
theorem scoreLOO_reorder (env : Env K) {σ : List Nat} {H T : Mat K} (h : Reorder σ T.nrows) (hH : H.nrows = T.nrows) (e : ELM K)
    (HH HT : Mat K) : scoreLOO env e HH HT (H.selRows σ) (T.selRows σ) = scoreLOO env e HH HT H T := by
  unfold scoreLOO
  cases env.inv HH with
  | none => rfl
  | some P =>
    have hh : Reorder σ H.nrows := by rw [hH]; exact h
    simp only
    rw [mul_reorder hh, pressR_reorder hh]
    have e1 := press_reorder e.classification e.wc h T.cols (H.mul (P.mul HT)).cols (fun i => T.rows.getD i [])
      (fun i => (H.mul (P.mul HT)).rows.getD i []) fun i => (pressR H P).getD i 0
    have e2 : (List.range T.nrows).map (fun i => (pressR H P).getD i 0) = pressR H P := by
      apply List.ext_getElem (by simpa [pressR, Mat.nrows] using hH.symm)
      intro i h1 h2
      simp [List.getD_eq_getElem?_getD, h2]
    have e3 : (H.mul (P.mul HT)).rows = (List.range T.nrows).map fun i => (H.mul (P.mul HT)).rows.getD i [] := by
      conv_lhs => rw [rows_range, mul_nrows', hH]
    rw [e2, ← e3, ← rows_range] at e1
    exact e1

end Hpelm
