import Verif.Lemmas.RowOrder
import Verif.Lemmas.Selection
import Verif.Lemmas.Core
import Verif.Lemmas.Path
import Verif.Spec.TargetUnits
import Mathlib.Tactic.Ring
import Mathlib.Tactic.FieldSimp
import Mathlib.Tactic.Linarith

/-!
# Targets in other units: every target multiplied by the same number, not zero
-/

set_option linter.unusedSectionVars false

namespace Hpelm
open Spec
variable {K : Type} [Field K] [LinearOrder K] [IsStrictOrderedRing K]

/-! ### Arrays -/

theorem times_get (c : K) (M : Mat K) (i j : Nat) : (times c M).get i j = c * M.get i j := by
  unfold times Mat.get
  simp only [List.getD_eq_getElem?_getD, List.getElem?_map]
  cases M.rows[i]? with
  | none => simp
  | some r =>
    simp only [Option.map_some, Option.getD_some, List.getElem?_map]
    cases r[j]? with
    | none => simp
    | some x => simp

theorem times_nrows (c : K) (M : Mat K) : (times c M).nrows = M.nrows := by simp [times, Mat.nrows]
theorem times_cols (c : K) (M : Mat K) : (times c M).cols = M.cols := rfl

theorem times_ofFn (c : K) (r k : Nat) (f : Nat → Nat → K) : times c (Mat.ofFn r k f) = Mat.ofFn r k fun i j => c * f i j := by
  unfold times Mat.ofFn
  simp only [Mat.mk.injEq, true_and, List.map_map]
  apply List.map_congr_left
  intro i _
  simp only [Function.comp_apply, List.map_map]
  rfl

theorem getD_map_mul (c : K) (r : List K) (j : Nat) : (r.map (c * ·)).getD j 0 = c * r.getD j 0 := by
  simp only [List.getD_eq_getElem?_getD, List.getElem?_map]
  cases r[j]? <;> simp

theorem getD_rows_map (c : K) (l : List (List K)) (i : Nat) : (l.map (List.map (c * ·))).getD i [] = (l.getD i []).map (c * ·) := by
  simp only [List.getD_eq_getElem?_getD, List.getElem?_map]
  cases l[i]? <;> simp

theorem times_col (c : K) (M : Mat K) (j : Nat) : (times c M).col j = (M.col j).map (c * ·) := by
  unfold Mat.col times
  simp only [List.map_map]
  apply List.map_congr_left
  intro r _
  exact getD_map_mul c r j

theorem sum_map_mul' {α : Type} (c : K) (l : List α) (f : α → K) : (l.map fun x => c * f x).sum = c * (l.map f).sum := by
  induction l with
  | nil => simp
  | cons x l ih => simp [ih, mul_add]

theorem dot_map_left (c : K) (a b : List K) : dot (a.map (c * ·)) b = c * dot a b := by
  unfold dot
  induction a generalizing b with
  | nil => simp
  | cons x a ih =>
    cases b with
    | nil => simp
    | cons y b =>
      have := ih b
      simp only [List.map_cons, List.zipWith_cons_cons, List.sum_cons] at this ⊢
      rw [this]; ring

theorem dot_map_right (c : K) (a b : List K) : dot a (b.map (c * ·)) = c * dot a b := by
  unfold dot
  induction a generalizing b with
  | nil => simp
  | cons x a ih =>
    cases b with
    | nil => simp
    | cons y b =>
      have := ih b
      simp only [List.map_cons, List.zipWith_cons_cons, List.sum_cons] at this ⊢
      rw [this]; ring

theorem times_sub (c : K) (A B : Mat K) : (times c A).sub (times c B) = times c (A.sub B) := by
  unfold Mat.sub
  rw [times_ofFn, times_nrows, times_cols]
  congr 1; funext i j
  rw [times_get, times_get]; ring

theorem times_add (c : K) (A B : Mat K) : (times c A).add (times c B) = times c (A.add B) := by
  unfold Mat.add
  rw [times_ofFn, times_nrows, times_cols]
  congr 1; funext i j
  rw [times_get, times_get]; ring

theorem times_comb (c a b : K) (A B : Mat K) : Mat.comb a (times c A) b (times c B) = times c (Mat.comb a A b B) := by
  unfold Mat.comb
  rw [times_ofFn, times_nrows, times_cols]
  congr 1; funext i j
  rw [times_get, times_get]; ring

theorem times_zeros (c : K) (r k : Nat) : times c (Mat.zeros r k) = Mat.zeros r k := by
  unfold Mat.zeros
  rw [times_ofFn]
  simp

theorem vecMul_times (c : K) (v : List K) (B : Mat K) : Mat.vecMul v (times c B) = (Mat.vecMul v B).map (c * ·) := by
  unfold Mat.vecMul
  rw [times_cols, times_nrows, List.map_map]
  apply List.map_congr_left
  intro j _
  simp only [Function.comp_apply]
  rw [← sum_map_mul']
  congr 1
  apply List.map_congr_left
  intro i _
  rw [times_get]; ring

theorem mul_times (c : K) (A B : Mat K) : A.mul (times c B) = times c (A.mul B) := by
  unfold Mat.mul times
  simp only [Mat.mk.injEq, true_and, List.map_map]
  apply List.map_congr_left
  intro r _
  exact vecMul_times c r B

theorem tmul_times (c : K) (A B : Mat K) : A.tmul (times c B) = times c (A.tmul B) := by
  unfold Mat.tmul
  rw [times_ofFn, times_cols]
  congr 1; funext i j
  have : A.rows.zip (times c B).rows = (A.rows.zip B.rows).map fun p => (p.1, p.2.map (c * ·)) := by
    unfold times
    simp only
    rw [List.zip_map_right]
    rfl
  rw [this, List.map_map, ← sum_map_mul']
  congr 1
  apply List.map_congr_left
  intro p _
  simp only [Function.comp_apply]
  rw [getD_map_mul]; ring

theorem selRows_times (c : K) (M : Mat K) (idx : List Nat) : (times c M).selRows idx = times c (M.selRows idx) := by
  unfold Mat.selRows times
  simp only [Mat.mk.injEq, true_and, List.map_map]
  apply List.map_congr_left
  intro i _
  exact getD_rows_map c M.rows i

theorem times_cast {env : Env K} (hx : env.Exact) (p : Prec) (M : Mat K) : M.map (env.cast p) = M := by
  have : (env.cast p) = id := funext fun x => hx p x
  unfold Mat.map
  rw [this]
  simp

/-! ### Ranking by `mrsr` -/

theorem argmaxAux_scale {c : K} (hc : 0 < c) (l : List K) (i b : Nat) (m : K) : argmaxAux (l.map (c * ·)) i b (c * m) = argmaxAux l i b m := by
  induction l generalizing i b m with
  | nil => rfl
  | cons x l ih =>
    simp only [List.map_cons, argmaxAux, mul_lt_mul_iff_right₀ hc]
    split
    · exact ih _ _ _
    · exact ih _ _ _

theorem argmax_scale {c : K} (hc : 0 < c) (l : List K) : argmax (l.map (c * ·)) = argmax l := by
  cases l with
  | nil => rfl
  | cons x l => exact argmaxAux_scale hc l 1 0 x

theorem absCorr_scale (c : K) (R X : Mat K) (j : Nat) : absCorr (times c R) X j = |c| * absCorr R X j := by
  unfold absCorr
  rw [← sum_map_mul', times_cols]
  congr 1
  apply List.map_congr_left
  intro t _
  rw [times_col, dot_map_left, abs_mul]

theorem corrCols_scale (c : K) (R X : Mat K) (idx : List Nat) : corrCols (times c R) X idx = (corrCols R X idx).map (List.map (c * ·)) := by
  unfold corrCols
  rw [List.map_map]
  apply List.map_congr_left
  intro j _
  simp only [Function.comp_apply, List.map_map, times_cols]
  apply List.map_congr_left
  intro t _
  rw [times_col, dot_map_left]
  rfl

theorem stepRatios_scale (c : K) (S : List (List K)) (cmax : K) (A B : List (List K)) :
    stepRatios S (c * cmax) (A.map (List.map (c * ·))) (B.map (List.map (c * ·))) =
      (stepRatios S cmax A B).map fun p => (c * p.1, c * p.2) := by
  unfold stepRatios
  rw [List.map_flatMap]
  apply List.flatMap_congr
  intro s _
  rw [List.zip_map, List.map_map, List.map_map]
  apply List.map_congr_left
  intro p _
  simp only [Function.comp_apply, Prod.map, dot_map_right, mul_add]

theorem minStep_scale {c : K} (hc : 0 < c) (G : List (K × K)) : minStep (G.map fun p => (c * p.1, c * p.2)) = minStep G := by
  have h0 : c ≠ 0 := hc.ne'
  have hf : ((G.map fun p => (c * p.1, c * p.2)).filter fun p => p.2 ≠ 0 ∧ 0 ≤ p.1 / p.2).map (fun p => p.1 / p.2) =
      (G.filter fun p => p.2 ≠ 0 ∧ 0 ≤ p.1 / p.2).map fun p => p.1 / p.2 := by
    rw [List.filter_map, List.map_map]
    have : ((fun p : K × K => decide (p.2 ≠ 0 ∧ 0 ≤ p.1 / p.2)) ∘ fun p : K × K => (c * p.1, c * p.2)) =
        fun p => decide (p.2 ≠ 0 ∧ 0 ≤ p.1 / p.2) := by
      funext p
      simp only [Function.comp_apply, mul_div_mul_left _ _ h0, ne_eq, mul_eq_zero, h0, false_or]
    rw [this]
    apply List.map_congr_left
    intro p _
    simp only [Function.comp_apply, mul_div_mul_left _ _ h0]
  have ha : (G.map fun p => (c * p.1, c * p.2)).any (fun p => decide (p.2 = 0 ∧ 0 < p.1)) = G.any fun p => decide (p.2 = 0 ∧ 0 < p.1) := by
    rw [List.any_map]
    congr 1
    funext p
    simp only [Function.comp_apply, mul_eq_zero, h0, false_or, mul_pos_iff_of_pos_left hc]
  unfold minStep
  rw [hf, ha]

theorem cons_min_perm {x y : K} {l l' : List K} (h : (x :: l).Perm (y :: l')) : l.foldl min x = l'.foldl min y := by
  obtain ⟨a1, a2, a3⟩ := foldl_min_spec l x
  obtain ⟨b1, b2, b3⟩ := foldl_min_spec l' y
  apply le_antisymm
  · rcases b1 with b1 | b1
    · rw [b1]
      rcases List.mem_cons.1 (h.mem_iff.2 (List.mem_cons_self)) with e | e
      · rw [e]; exact a2
      · exact a3 _ e
    · rcases List.mem_cons.1 (h.mem_iff.2 (List.mem_cons_of_mem _ b1)) with e | e
      · rw [e]; exact a2
      · exact a3 _ e
  · rcases a1 with a1 | a1
    · rw [a1]
      rcases List.mem_cons.1 (h.mem_iff.1 (List.mem_cons_self)) with e | e
      · rw [e]; exact b2
      · exact b3 _ e
    · rcases List.mem_cons.1 (h.mem_iff.1 (List.mem_cons_of_mem _ a1)) with e | e
      · rw [e]; exact b2
      · exact b3 _ e

theorem minStep_perm {G G' : List (K × K)} (h : G.Perm G') : minStep G = minStep G' := by
  have hf := (h.filter fun p => decide (p.2 ≠ 0 ∧ 0 ≤ p.1 / p.2)).map fun p => p.1 / p.2
  have ha : G.any (fun p => decide (p.2 = 0 ∧ 0 < p.1)) = G'.any fun p => decide (p.2 = 0 ∧ 0 < p.1) := by
    rw [Bool.eq_iff_iff, List.any_eq_true, List.any_eq_true]
    simp only [h.mem_iff]
  unfold minStep
  simp only [ha]
  revert hf
  generalize (G.filter fun p => decide (p.2 ≠ 0 ∧ 0 ≤ p.1 / p.2)).map (fun p => p.1 / p.2) = l
  generalize (G'.filter fun p => decide (p.2 ≠ 0 ∧ 0 ≤ p.1 / p.2)).map (fun p => p.1 / p.2) = l'
  intro hf
  match l, l', hf with
  | [], [], _ => rfl
  | [], _ :: _, hf => exact absurd hf.length_eq (by simp)
  | _ :: _, [], hf => exact absurd hf.length_eq (by simp)
  | x :: l, y :: l', hf => exact congrArg Except.ok (cons_min_perm hf)

/-- The sign table contains with every row the opposite row. -/
theorem signTable_neg (p : Nat) : ((signTable p : List (List K)).map (List.map fun x => (-1) * x)).Perm (signTable p) := by
  have inv : ∀ s : List K, (s.map fun x => (-1) * x).map (fun x => (-1) * x) = s := fun s => by
    rw [List.map_map]
    conv_rhs => rw [← List.map_id s]
    apply List.map_congr_left
    intro x _
    simp
  have neg : ∀ s : List K, IsSignVector p s → IsSignVector p (s.map fun x => (-1) * x) := by
    rintro s ⟨h1, h2⟩
    refine ⟨by simpa using h1, fun x hx => ?_⟩
    obtain ⟨y, hy, rfl⟩ := List.mem_map.1 hx
    rcases h2 y hy with rfl | rfl
    · exact Or.inr (by ring)
    · exact Or.inl (by ring)
  have nd : (signTable p : List (List K)).Nodup := by
    rw [List.nodup_iff_count_le_one]
    intro s
    by_cases h : IsSignVector p s
    · exact ((Props.C41_sign_table p s).1 h).le
    · rw [List.count_eq_zero_of_not_mem ((Props.C41_sign_table p s).2 h)]
      exact Nat.zero_le _
  rw [List.perm_ext_iff_of_nodup (nd.map fun a b h => by
    have := congrArg (List.map fun x => (-1 : K) * x) h
    rwa [inv, inv] at this) nd]
  intro s
  constructor
  · intro h
    obtain ⟨t, ht, rfl⟩ := List.mem_map.1 h
    exact sign_mem (neg t (mem_sign ht))
  · intro h
    exact List.mem_map.2 ⟨_, sign_mem (neg s (mem_sign h)), inv s⟩

/-- The step length does not change when the targets change by the factor `c`, whatever its sign. -/
theorem step_scale {c : K} (hc : c ≠ 0) (p : Nat) (cmax : K) (A B : List (List K)) :
    minStep (stepRatios (signTable p) (|c| * cmax) (A.map (List.map (c * ·))) (B.map (List.map (c * ·)))) =
      minStep (stepRatios (signTable p) cmax A B) := by
  rcases lt_or_gt_of_ne hc with h | h
  · have e1 : stepRatios (signTable p) (|c| * cmax) (A.map (List.map (c * ·))) (B.map (List.map (c * ·))) =
        (stepRatios ((signTable p).map (List.map fun x => (-1) * x)) cmax A B).map fun q => (|c| * q.1, |c| * q.2) := by
      unfold stepRatios
      rw [List.map_flatMap, List.flatMap_map]
      apply List.flatMap_congr
      intro s _
      rw [List.zip_map, List.map_map, List.map_map]
      apply List.map_congr_left
      intro q _
      simp only [Function.comp_apply, Prod.map, dot_map_right, dot_map_left, mul_add, abs_of_neg h, Prod.mk.injEq]
      constructor <;> ring
    rw [e1, minStep_scale (abs_pos.2 hc)]
    exact minStep_perm ((signTable_neg p).flatMap_right _)
  · rw [abs_of_pos h, stepRatios_scale, minStep_scale h]

theorem mrsrOls_scale (env : Env K) (c : K) (X T : Mat K) (first : Bool) (i1 : List Nat) (ind : Nat) :
    mrsrOls env X (times c T) first i1 ind = (mrsrOls env X T first i1 ind).map (times c) := by
  unfold mrsrOls
  simp only [tmul_times, mul_times, times_cols, times_col, dot_map_right]
  cases first with
  | true =>
    simp only [if_true]
    split
    · rfl
    · simp only [Except.map, Except.ok.injEq]
      rw [← mul_times, times_ofFn]
      congr 2
      funext i t
      ring
  | false => rfl

/-- The state of `mrsr` on targets in other units. -/
def MrsrSt.scale (c : K) (st : MrsrSt K) : MrsrSt K := { st with Y := times c st.Y }

theorem mrsrStep_scale (env : Env K) {c : K} (hc : c ≠ 0) (X T : Mat K) (p : Nat) (first last : Bool) (st : MrsrSt K) :
    mrsrStep env X (times c T) (signTable p) first last (st.scale c) = (mrsrStep env X T (signTable p) first last st).map (MrsrSt.scale c) := by
  obtain ⟨i1, i2, Y⟩ := st
  unfold MrsrSt.scale
  simp only [mrsrStep_eq, times_sub]
  have hs : i2.map (absCorr (times c (T.sub Y)) X) = (i2.map (absCorr (T.sub Y) X)).map (|c| * ·) := by
    rw [List.map_map]
    exact List.map_congr_left fun j _ => absCorr_scale c _ _ _
  have he : ∀ l : List K, (l.map (|c| * ·)).isEmpty = l.isEmpty := fun l => by cases l <;> rfl
  rw [hs, argmax_scale (abs_pos.2 hc), getD_map_mul, he]
  generalize argmax (i2.map (absCorr (T.sub Y) X)) = ci
  rw [mrsrOls_scale]
  by_cases c1 : (i2.map (absCorr (T.sub Y) X)).isEmpty = true
  · simp only [c1, if_true]
    rfl
  simp only [c1]
  cases mrsrOls env X T first (i1 ++ [i2.getD ci 0]) (i2.getD ci 0) with
  | error x => rfl
  | ok Yols =>
    simp only [Except.map, Except.bind, times_sub, corrCols_scale, step_scale hc, times_comb]
    cases hb : (last && !first) with
    | true => rfl
    | false =>
      cases minStep (stepRatios (signTable p) ((i2.map (absCorr (T.sub Y) X)).getD ci 0) (corrCols (T.sub Y) X (delAt i2 ci))
          (corrCols (Yols.sub Y) X (delAt i2 ci))) with
      | error x => rfl
      | ok g => rfl

theorem mrsrLoop_scale (env : Env K) {c : K} (hc : c ≠ 0) (X T : Mat K) (p kmax : Nat) (ks : List Nat) (st : MrsrSt K) :
    mrsrLoop env X (times c T) (signTable p) kmax ks (st.scale c) = (mrsrLoop env X T (signTable p) kmax ks st).map (MrsrSt.scale c) := by
  induction ks generalizing st with
  | nil => rfl
  | cons k ks ih =>
    unfold mrsrLoop
    rw [mrsrStep_scale env hc]
    cases mrsrStep env X T (signTable p) false (k == kmax) st with
    | error x => rfl
    | ok st' => exact ih st'

theorem mrsrInit_scale (c : K) (m r k : Nat) : mrsrInit m (Mat.zeros r k : Mat K) = (mrsrInit m (Mat.zeros r k)).scale c :=
  congrArg (fun Z => (⟨[], List.range m, Z⟩ : MrsrSt K)) (times_zeros c r k).symm

/-- Ranking by `mrsr` does not depend on the units or the sign of the targets. -/
theorem mrsr_scale (env : Env K) {c : K} (hc : c ≠ 0) (X T : Mat K) (kmax : Nat) : mrsr env X (times c T) kmax = mrsr env X T kmax := by
  rw [mrsr_eq, mrsr_eq, times_cols]
  unfold mrsrSteps
  rw [times_nrows, times_cols]
  have h := mrsrStep_scale env hc X T T.cols true (1 == min kmax X.cols) (mrsrInit X.cols (Mat.zeros T.nrows T.cols))
  rw [← mrsrInit_scale] at h
  rw [h]
  cases mrsrStep env X T (signTable T.cols) true (1 == min kmax X.cols) (mrsrInit X.cols (Mat.zeros T.nrows T.cols)) with
  | error x => rfl
  | ok st =>
    show (mrsrLoop env X (times c T) _ _ _ (st.scale c)).bind _ = (mrsrLoop env X T _ _ _ st).bind _
    rw [mrsrLoop_scale env hc]
    cases mrsrLoop env X T (signTable T.cols) (min kmax X.cols) ((List.range (min kmax X.cols + 1)).drop 2) st with
    | error x => rfl
    | ok st' => rfl

/-! ### Ranking by `mrsr2` -/

theorem norm2_scale {env : Env K} {c : K} (hr : ScalesRoots env c) (l : List K) : norm2 env (l.map (c * ·)) = |c| * norm2 env l := by
  unfold norm2
  rw [← hr.sqrt, ← sum_map_mul', List.map_map]
  congr 2
  apply List.map_congr_left
  intro x _
  simp only [Function.comp_apply]
  ring

theorem corr2_scale (c : K) (X R : Mat K) (j : Nat) : corr2 X (times c R) j = (corr2 X R j).map (c * ·) := by
  unfold corr2
  rw [List.map_map, times_cols]
  apply List.map_congr_left
  intro t _
  rw [times_col, dot_map_left]
  rfl

theorem mrsr2First_scale' {d : K} (hd : 0 < d) (f : Nat → K) (js : List Nat) (m : K) (b : Option Nat) :
    mrsr2First (fun j => d * f j) js (d * m) b = mrsr2First f js m b := by
  induction js generalizing m b with
  | nil => rfl
  | cons j js ih =>
    simp only [mrsr2First, mul_lt_mul_iff_right₀ hd]
    split
    · exact ih _ _
    · exact ih _ _

theorem mrsr2First_scale {d : K} (hd : 0 < d) (f : Nat → K) (hf : ∀ j, 0 ≤ f j) (js : List Nat) (b : Option Nat) :
    mrsr2First (fun j => d * f j) js (-1) b = mrsr2First f js (-1) b := by
  cases js with
  | nil => rfl
  | cons j js =>
    have h1 : (-1 : K) < f j := lt_of_lt_of_le (by linarith [one_pos (α := K)]) (hf j)
    have h2 : (-1 : K) < d * f j := lt_of_lt_of_le (by linarith [one_pos (α := K)]) (mul_nonneg hd.le (hf j))
    simp only [mrsr2First, h1, h2, if_true]
    exact mrsr2First_scale' hd f js _ _

theorem mrsr2Search_scale {env : Env K} {c : K} (hc : c ≠ 0) (hr : ScalesRoots env c) (cmax : K) (p1 p2 : Nat → List K) (js : List Nat)
    (y : K) (jm : Option Nat) :
    mrsr2Search env (|c| * cmax) (fun j => (p1 j).map (c * ·)) (fun j => (p2 j).map (c * ·)) js y jm = mrsr2Search env cmax p1 p2 js y jm := by
  induction js generalizing y jm with
  | nil => rfl
  | cons j js ih =>
    have hz : ∀ (y : K) (a b : List K), List.zipWith (fun a b => a - y * b) (a.map (c * ·)) (b.map (c * ·)) =
        (List.zipWith (fun a b => a - y * b) a b).map (c * ·) := by
      intro y a b
      rw [List.zipWith_map, List.map_zipWith]
      congr 1
      funext u v
      ring
    have hf : ∀ y : K, (1 - y) * (|c| * cmax) - norm2 env (List.zipWith (fun a b => a - y * b) ((p1 j).map (c * ·)) ((p2 j).map (c * ·))) =
        |c| * ((1 - y) * cmax - norm2 env (List.zipWith (fun a b => a - y * b) (p1 j) (p2 j))) := by
      intro y
      rw [hz, norm2_scale hr]
      ring
    unfold mrsr2Search
    simp only [hf, hr.brentq]
    have hl : ∀ v : K, |c| * v < 0 ↔ v < 0 := fun v => by
      rw [mul_neg_iff]
      have := abs_pos.2 hc
      constructor
      · rintro (⟨_, h⟩ | ⟨h, _⟩)
        · exact h
        · exact absurd h (not_lt.2 this.le)
      · exact fun h => Or.inl ⟨this, h⟩
    simp only [hl]
    split
    · split
      · exact ih _ _
      · exact ih _ _
    · exact ih _ _

/-- The state of `mrsr2` on targets in other units. -/
def Mrsr2St.scale (c : K) (st : Mrsr2St K) : Mrsr2St K := { st with Y := times c st.Y, Yk1 := times c st.Yk1 }

theorem mrsr2Upd_scale {env : Env K} {c : K} (hr : ScalesRoots env c) (X T : Mat K) (st : Mrsr2St K) (ymin : K) :
    mrsr2Upd env X (times c T) (st.scale c) ymin = (mrsr2Upd env X T st ymin).scale c := by
  unfold mrsr2Upd Mrsr2St.scale
  simp only [tmul_times, hr.luSolve, mul_times, times_comb]
  split <;> rfl

theorem mrsr2Step_scale {env : Env K} {c : K} (hc : c ≠ 0) (hr : ScalesRoots env c) (X T : Mat K) (st : Mrsr2St K) :
    mrsr2Step env X (times c T) (st.scale c) = (mrsr2Step env X T st).map (Mrsr2St.scale c) := by
  have hd := abs_pos.2 hc
  rw [mrsr2Step_eq, mrsr2Step_eq]
  have e1 : (st.scale c).rank = st.rank := rfl
  have e2 : (st.scale c).nonrank = st.nonrank := rfl
  have e3 : (st.scale c).Y = times c st.Y := rfl
  have e4 : (st.scale c).Yk1 = times c st.Yk1 := rfl
  have e5 : (st.scale c).jcur = st.jcur := rfl
  have e6 : (st.scale c).jmin = st.jmin := rfl
  have e7 : ∀ R : Mat K, corr2 X (times c R) = fun j => (corr2 X R j).map (c * ·) := fun R => funext (corr2_scale c X R)
  simp only [e1, e2, e3, e4, e5, e6, times_sub, e7, norm2_scale hr]
  rw [mrsr2First_scale hd (fun j => norm2 env (corr2 X T j)) (fun j => hr.nonneg _), mrsr2Search_scale hc hr]
  split
  · cases mrsr2First (fun j => norm2 env (corr2 X T j)) st.nonrank (-1) none with
    | none => rfl
    | some j => exact congrArg Except.ok (mrsr2Upd_scale hr X T { st with rank := st.rank ++ [j], nonrank := st.nonrank.erase j, jcur := j } 1)
  · split
    · exact congrArg Except.ok (mrsr2Upd_scale hr X T { st with Y := st.Yk1 } 1)
    · generalize mrsr2Search env (norm2 env (corr2 X (T.sub st.Y) st.jcur)) (corr2 X (T.sub st.Y)) (corr2 X (st.Yk1.sub st.Y)) st.nonrank 1
        st.jmin = r
      cases (if r.1 = 1 then st.nonrank.getLast? else r.2) with
      | none => rfl
      | some j =>
        simp only
        split
        · exact congrArg Except.ok (mrsr2Upd_scale hr X T
            { st with rank := st.rank ++ [j], nonrank := st.nonrank.erase j, jcur := j, jmin := some j } r.1)
        · rfl

theorem mrsr2Loop_scale {env : Env K} {c : K} (hc : c ≠ 0) (hr : ScalesRoots env c) (X T : Mat K) (k : Nat) (st : Mrsr2St K) :
    mrsr2Loop env X (times c T) k (st.scale c) = (mrsr2Loop env X T k st).map (Mrsr2St.scale c) := by
  induction k generalizing st with
  | zero => rfl
  | succ k ih =>
    unfold mrsr2Loop
    rw [mrsr2Step_scale hc hr]
    cases mrsr2Step env X T st with
    | error x => rfl
    | ok st' => exact ih st'

/-- Ranking by `mrsr2` does not depend on the units or the sign of the targets. -/
theorem mrsr2_scale {env : Env K} {c : K} (hc : c ≠ 0) (hr : ScalesRoots env c) (X T : Mat K) (kmax : Nat) :
    mrsr2 env X (times c T) kmax = mrsr2 env X T kmax := by
  have h := mrsr2Loop_scale hc hr X T (min kmax X.nrows)
    { rank := [], nonrank := List.range X.cols, Y := Mat.zeros T.nrows T.cols, Yk1 := Mat.zeros T.nrows T.cols, jcur := 0, jmin := none }
  unfold Mrsr2St.scale at h
  simp only [times_zeros] at h
  unfold mrsr2
  simp only [times_nrows, times_cols]
  rw [h]
  cases mrsr2Loop env X T (min kmax X.nrows)
    { rank := [], nonrank := List.range X.cols, Y := Mat.zeros T.nrows T.cols, Yk1 := Mat.zeros T.nrows T.cols, jcur := 0, jmin := none } <;> rfl

end Hpelm
