import Verif.Props.C40_C41_Ranking
import Verif.Spec.Path
import Verif.Lemmas.Bridge
import Verif.Lemmas.Ridge

/-!
# Lemmas about the steps of `mrsr`
-/

set_option linter.unusedSectionVars false

namespace Hpelm
open Spec Finset
variable {K : Type} [Field K] [LinearOrder K] [IsStrictOrderedRing K]

/-- Product of a sign vector with a vector. -/
theorem dot_range (s : List K) (p : Nat) (hs : s.length = p) (f : Nat → K) :
    dot s ((List.range p).map f) = ∑ t ∈ range p, s.getD t 0 * f t := by
  unfold dot
  rw [← sum_range_list]
  congr 1
  apply List.ext_getElem
  · simp [hs]
  · intro i h1 h2
    have hi : i < p := by simpa using h2
    simp [List.getD_eq_getElem?_getD, hs, hi]

theorem dot_sign_le {s : List K} {p : Nat} (hs : IsSignVector p s) (f : Nat → K) :
    |dot s ((List.range p).map f)| ≤ ∑ t ∈ range p, |f t| := by
  rw [dot_range s p hs.1]
  refine (Finset.abs_sum_le_sum_abs _ _).trans (Finset.sum_le_sum fun t ht => ?_)
  have ht : t < s.length := by rw [hs.1]; exact Finset.mem_range.1 ht
  rw [abs_mul, List.getD_eq_getElem _ _ ht]
  rcases hs.2 _ (List.getElem_mem ht) with h | h <;> simp [h]

/-- The signs opposite to a vector. -/
def oppSigns (p : Nat) (f : Nat → K) : List K := (List.range p).map fun t => if 0 ≤ f t then -1 else 1

theorem oppSigns_sign (p : Nat) (f : Nat → K) : IsSignVector p (oppSigns p f) := by
  refine ⟨by simp [oppSigns], ?_⟩
  intro x hx
  obtain ⟨t, _, rfl⟩ := List.mem_map.1 hx
  split
  · exact Or.inr rfl
  · exact Or.inl rfl

theorem oppSigns_dot (p : Nat) (f : Nat → K) : dot (oppSigns p f) ((List.range p).map f) = - ∑ t ∈ range p, |f t| := by
  rw [dot_range _ p (oppSigns_sign p f).1, ← Finset.sum_neg_distrib]
  apply Finset.sum_congr rfl
  intro t ht
  have ht := Finset.mem_range.1 ht
  have : (oppSigns p f).getD t 0 = if 0 ≤ f t then -1 else 1 := by
    simp [oppSigns, List.getD_eq_getElem?_getD, ht]
  rw [this]
  split
  · rename_i h
    rw [abs_of_nonneg h]; ring
  · rename_i h
    rw [abs_of_neg (not_le.1 h)]; ring

theorem sign_mem {p : Nat} {s : List K} (h : IsSignVector p s) : s ∈ (signTable p : List (List K)) := by
  have := (Props.C41_sign_table p s).1 h
  exact List.count_pos_iff.1 (by omega)

theorem mem_sign {p : Nat} {s : List K} (h : s ∈ (signTable p : List (List K))) : IsSignVector p s := by
  by_contra hc
  exact (Props.C41_sign_table p s).2 hc h

theorem foldl_min_spec (l : List K) (x : K) : (l.foldl min x = x ∨ l.foldl min x ∈ l) ∧ l.foldl min x ≤ x ∧ ∀ y ∈ l, l.foldl min x ≤ y := by
  induction l generalizing x with
  | nil => simp
  | cons a l ih =>
    obtain ⟨h1, h2, h3⟩ := ih (min x a)
    simp only [List.foldl_cons, List.mem_cons]
    refine ⟨?_, h2.trans (min_le_left _ _), ?_⟩
    · rcases h1 with h | h
      · rcases min_choice x a with h' | h'
        · left; rw [h, h']
        · right; left; rw [h, h']
      · exact Or.inr (Or.inr h)
    · rintro y (rfl | hy)
      · exact h2.trans (min_le_right _ _)
      · exact h3 y hy

/-- What the step length is. -/
theorem minStep_ok {G : List (K × K)} {g : K} (h : minStep G = .ok g) :
    0 ≤ g ∧ (∃ p ∈ G, p.2 ≠ 0 ∧ p.1 / p.2 = g) ∧ ∀ p ∈ G, p.2 ≠ 0 → 0 ≤ p.1 / p.2 → g ≤ p.1 / p.2 := by
  unfold minStep at h
  simp only at h
  split at h
  · rename_i x xs hx
    injection h with h
    obtain ⟨h1, h2, h3⟩ := foldl_min_spec xs x
    rw [h] at h1 h2 h3
    have hmem : g ∈ (G.filter fun p => p.2 ≠ 0 ∧ 0 ≤ p.1 / p.2).map fun p => p.1 / p.2 := by
      rw [hx]
      rcases h1 with h | h
      · rw [h]; exact List.mem_cons_self
      · exact List.mem_cons_of_mem _ h
    obtain ⟨p, hp, hg⟩ := List.mem_map.1 hmem
    obtain ⟨hp1, hp2⟩ := List.mem_filter.1 hp
    have hp2 : p.2 ≠ 0 ∧ 0 ≤ p.1 / p.2 := by simpa using hp2
    refine ⟨hg ▸ hp2.2, ⟨p, hp1, hp2.1, hg⟩, ?_⟩
    intro q hq hq1 hq2
    have : q.1 / q.2 ∈ (G.filter fun p => p.2 ≠ 0 ∧ 0 ≤ p.1 / p.2).map fun p => p.1 / p.2 :=
      List.mem_map.2 ⟨q, List.mem_filter.2 ⟨hq, by simpa using ⟨hq1, hq2⟩⟩, rfl⟩
    rw [hx] at this
    rcases List.mem_cons.1 this with h | h
    · rw [h]; exact h2
    · exact h3 _ h
  · split at h <;> cases h

theorem mem_stepRatios {S : List (List K)} {c : K} {R D X : Mat K} {i2 : List Nat} {q : K × K} :
    q ∈ stepRatios S c (corrCols R X i2) (corrCols D X i2) ↔
      ∃ s ∈ S, ∃ j ∈ i2, q = (c + dot s ((List.range R.cols).map fun t => dot (R.col t) (X.col j)),
        c + dot s ((List.range D.cols).map fun t => dot (D.col t) (X.col j))) := by
  unfold stepRatios corrCols
  rw [List.zip_map', List.mem_flatMap]
  constructor
  · rintro ⟨s, hs, hq⟩
    rw [List.map_map] at hq
    obtain ⟨j, hj, rfl⟩ := List.mem_map.1 hq
    exact ⟨s, hs, j, hj, rfl⟩
  · rintro ⟨s, hs, j, hj, rfl⟩
    refine ⟨s, hs, ?_⟩
    rw [List.map_map]
    exact List.mem_map.2 ⟨j, hj, rfl⟩

/-- Core of a step.  `a j` are the correlations of column `j` with the unexplained part, `b j` those with the move. -/
theorem step_core {p : Nat} {J : List Nat} {a b : Nat → Nat → K} {c g : K} (hc0 : 0 ≤ c)
    (hle : ∀ j ∈ J, ∑ t ∈ range p, |a j t| ≤ c)
    (hg : 0 ≤ g ∧ (∃ s, IsSignVector p s ∧ ∃ j ∈ J, c + dot s ((List.range p).map (b j)) ≠ 0 ∧
        (c + dot s ((List.range p).map (a j))) / (c + dot s ((List.range p).map (b j))) = g) ∧
      ∀ s, IsSignVector p s → ∀ j ∈ J, c + dot s ((List.range p).map (b j)) ≠ 0 →
        0 ≤ (c + dot s ((List.range p).map (a j))) / (c + dot s ((List.range p).map (b j))) →
        g ≤ (c + dot s ((List.range p).map (a j))) / (c + dot s ((List.range p).map (b j)))) :
    g ≤ 1 ∧ (∀ j ∈ J, ∑ t ∈ range p, |a j t - g * b j t| ≤ (1 - g) * c) ∧
      ∃ j ∈ J, ∑ t ∈ range p, |a j t - g * b j t| = (1 - g) * c := by
  obtain ⟨g0, ⟨s0, hs0, j0, hj0, hd0, hr0⟩, hmin⟩ := hg
  -- linearity
  have hlin : ∀ s, IsSignVector p s → ∀ j, dot s ((List.range p).map fun t => a j t - g * b j t) =
      dot s ((List.range p).map (a j)) - g * dot s ((List.range p).map (b j)) := by
    intro s hs j
    rw [dot_range s p hs.1, dot_range s p hs.1, dot_range s p hs.1, Finset.mul_sum, ← Finset.sum_sub_distrib]
    exact Finset.sum_congr rfl fun t _ => by ring
  have hnum : ∀ s, IsSignVector p s → ∀ j ∈ J, 0 ≤ c + dot s ((List.range p).map (a j)) := by
    intro s hs j hj
    have h1 := abs_le.1 ((dot_sign_le hs (a j)).trans (hle j hj))
    linarith [h1.1]
  have hall : ∀ s, IsSignVector p s → ∀ j ∈ J, 0 ≤ (c + dot s ((List.range p).map (a j))) - g * (c + dot s ((List.range p).map (b j))) := by
    intro s hs j hj
    have h1 := hnum s hs j hj
    rcases lt_or_ge 0 (c + dot s ((List.range p).map (b j))) with h2 | h2
    · have h3 := hmin s hs j hj h2.ne' (div_nonneg h1 h2.le)
      rw [le_div_iff₀ h2] at h3
      linarith
    · have := mul_nonneg g0 (neg_nonneg.2 h2)
      linarith
  have hle' : ∀ j ∈ J, ∑ t ∈ range p, |a j t - g * b j t| ≤ (1 - g) * c := by
    intro j hj
    have h1 := oppSigns_dot p (fun t => a j t - g * b j t)
    have hs := oppSigns_sign p (fun t => a j t - g * b j t)
    rw [hlin _ hs j] at h1
    have h2 := hall _ hs j hj
    linarith
  have hg1 : g ≤ 1 := by
    rcases hc0.eq_or_lt with hc | hc
    · -- nothing is correlated: the step is zero
      have : dot s0 ((List.range p).map (a j0)) = 0 := by
        have := (dot_sign_le hs0 (a j0)).trans (hle j0 hj0)
        rw [← hc] at this
        exact abs_nonpos_iff.1 this
      rw [← hc, this] at hr0
      rw [← hr0]
      simp
    · -- at one of the two signs the denominator dominates
      have hkey : ∀ s, IsSignVector p s → dot s ((List.range p).map (a j0)) ≤ dot s ((List.range p).map (b j0)) →
          0 < c + dot s ((List.range p).map (b j0)) → g ≤ 1 := by
        intro s hs h1 h2
        refine (hmin s hs j0 hj0 h2.ne' (div_nonneg (hnum s hs j0 hj0) h2.le)).trans ?_
        rw [div_le_one h2]
        linarith
      have hneg : ∀ s : List K, IsSignVector p s → IsSignVector p (s.map (- ·)) ∧
          ∀ f : Nat → K, dot (s.map (- ·)) ((List.range p).map f) = - dot s ((List.range p).map f) := by
        intro s hs
        have h1 : IsSignVector p (s.map (- ·)) := by
          refine ⟨by simpa using hs.1, ?_⟩
          intro x hx
          obtain ⟨y, hy, rfl⟩ := List.mem_map.1 hx
          rcases hs.2 y hy with h | h <;> simp [h]
        refine ⟨h1, fun f => ?_⟩
        rw [dot_range _ p h1.1, dot_range _ p hs.1, ← Finset.sum_neg_distrib]
        refine Finset.sum_congr rfl fun t ht => ?_
        have ht : t < s.length := by rw [hs.1]; exact Finset.mem_range.1 ht
        simp [List.getD_eq_getElem?_getD, ht]
      obtain ⟨n1, n2⟩ := hneg s0 hs0
      have e1 := hnum s0 hs0 j0 hj0
      have e2 := hnum _ n1 j0 hj0
      rw [n2] at e2
      rcases le_total (dot s0 ((List.range p).map (a j0))) (dot s0 ((List.range p).map (b j0))) with h | h
      · by_cases h' : 0 < c + dot s0 ((List.range p).map (b j0))
        · exact hkey s0 hs0 h h'
        · -- then both are `-c`
          refine hkey _ n1 ?_ ?_ <;> rw [n2]
          · rw [n2]; linarith
          · linarith
      · by_cases h' : 0 < c + dot (s0.map (- ·)) ((List.range p).map (b j0))
        · exact hkey _ n1 (by rw [n2, n2]; linarith) h'
        · rw [n2] at h'
          exact hkey _ hs0 (by linarith) (by linarith)
  refine ⟨hg1, hle', j0, hj0, le_antisymm (hle' j0 hj0) ?_⟩
  have h1 := (abs_le.1 (dot_sign_le hs0 (fun t => a j0 t - g * b j0 t))).1
  rw [hlin _ hs0 j0] at h1
  rw [div_eq_iff hd0] at hr0
  have : dot s0 ((List.range p).map (a j0)) - g * dot s0 ((List.range p).map (b j0)) = - ((1 - g) * c) := by linarith
  rw [this] at h1
  linarith

theorem dot_col {R X : Mat K} (hN : X.nrows = R.nrows) (t j : Nat) :
    dot (R.col t) (X.col j) = ∑ s ∈ range R.nrows, R.get s t * X.get s j := by
  unfold dot
  rw [← sum_range_list]
  congr 1
  have hX : X.rows.length = R.nrows := hN
  have hR : R.rows.length = R.nrows := rfl
  apply List.ext_getElem
  · simp [Mat.col, hX, hR]
  · intro s h1 h2
    have hs : s < R.nrows := by simpa using h2
    simp only [Mat.col, List.getElem_zipWith, List.getElem_map, List.getElem_range]
    congr 1 <;> simp [Mat.get, List.getD_eq_getElem?_getD, hX, hR, hs]

theorem absCorr_resCorr {X T Y : Mat K} (hN : X.nrows = T.nrows) (j : Nat) : absCorr (T.sub Y) X j = resCorr X T Y j := by
  unfold absCorr resCorr
  rw [sum_range_list]
  refine Finset.sum_congr (by simp [Mat.sub]) fun t ht => ?_
  have ht : t < T.cols := by simpa [Mat.sub] using ht
  rw [dot_col (by rw [hN]; simp [Mat.sub])]
  congr 1
  refine Finset.sum_congr (by simp [Mat.sub]) fun s hs => ?_
  have hs : s < T.nrows := by simpa [Mat.sub] using hs
  unfold Mat.sub
  rw [Mat.get_ofFn_lt hs ht]

theorem transpose_mul_self_zero {n k : Nat} {M : Matrix (Fin n) (Fin k) K} (h : M.transpose * M = 0) : M = 0 := by
  ext i t
  have h1 := congrFun (congrFun h t) t
  simp only [Matrix.mul_apply, Matrix.transpose_apply, Matrix.zero_apply] at h1
  have := (Finset.sum_eq_zero_iff_of_nonneg (fun i _ => mul_self_nonneg (M i t))).1 h1 i (Finset.mem_univ _)
  exact mul_self_eq_zero.1 this

/-- Normal equations of the fit computed with `inv`, or with `pinv` if there is no inverse. -/
theorem gram_solve {env : Env K} (hl : Lawful env) {A T : Mat K} (hN : A.nrows = T.nrows) :
    (A.tmul A).mul (((env.inv (A.tmul A)).getD (env.pinv (A.tmul A))).mul (A.tmul T)) = A.tmul T := by
  obtain ⟨G, hG⟩ : ∃ G, G = A.tmul A := ⟨_, rfl⟩
  have g1 : G.nrows = A.cols := by rw [hG]; simp
  have g2 : G.cols = A.cols := by rw [hG]; simp
  have g3 : G.WF := by rw [hG]; exact Mat.tmul_WF _ _
  have gm : G.toM A.cols A.cols = (A.toM A.nrows A.cols).transpose * A.toM A.nrows A.cols := by rw [hG]; exact toM_tmul rfl rfl rfl rfl
  have tm : (A.tmul T).toM A.cols T.cols = (A.toM A.nrows A.cols).transpose * T.toM A.nrows T.cols := toM_tmul rfl hN.symm rfl rfl
  rw [← hG]
  cases hi : env.inv G with
  | some P =>
    obtain ⟨p1, p2, p3, p4, p5⟩ := hl.inv_sol G P g3 (by omega) hi
    simp only [Option.getD_some]
    apply toM_inj (r := A.cols) (c := T.cols) (Mat.mul_WF _ _) (Mat.tmul_WF _ _) (by simp [g1]) (by simp) (by simp) (by simp)
    rw [toM_mul (m := A.cols) g1 (by simp [p2, g1]) (by simp), toM_mul (m := A.cols) (by rw [p2, g1]) (by simp) (by simp), ← Matrix.mul_assoc]
    have := congrArg (Mat.toM A.cols A.cols) p5
    rw [toM_mul (m := A.cols) g1 (by rw [p2, g1]) (by rw [p3, g1]), g1, toM_diag, one_smul] at this
    rw [this, Matrix.one_mul]
  | none =>
    obtain ⟨p1, p2, p3⟩ := hl.pinv G g3 (by omega)
    have hp := hl.pinv_sol G g3 (by omega)
    simp only [Option.getD_none]
    set P := env.pinv G
    apply toM_inj (r := A.cols) (c := T.cols) (Mat.mul_WF _ _) (Mat.tmul_WF _ _) (by simp [g1]) (by simp) (by simp) (by simp)
    rw [toM_mul (m := A.cols) g1 (by simp [p2, g2]) (by simp), toM_mul (m := A.cols) (by rw [p2, g2]) (by simp) (by simp)]
    have h1 := congrArg (Mat.toM A.cols A.cols) hp
    rw [toM_mul (m := A.cols) (by simp [g2]) (by rw [p2, g2]) (by rw [p3, g1]), toM_tmul (n := A.cols) g1 g1 g2 g2,
      toM_tmul (n := A.cols) g1 (by simp [g1]) g2 (by simp [g1]), g1, toM_diag, one_smul, Matrix.mul_one] at h1
    rw [tm]
    rw [gm] at h1 ⊢
    obtain ⟨a, ha⟩ : ∃ a, a = A.toM A.nrows A.cols := ⟨_, rfl⟩
    obtain ⟨q, hq⟩ : ∃ q, q = P.toM A.cols A.cols := ⟨_, rfl⟩
    obtain ⟨u, hu⟩ : ∃ u, u = T.toM A.nrows T.cols := ⟨_, rfl⟩
    rw [← ha, ← hq] at h1
    rw [← ha, ← hq, ← hu]
    have hsym : (a.transpose * a).transpose = a.transpose * a := by rw [Matrix.transpose_mul, Matrix.transpose_transpose]
    rw [hsym] at h1
    -- `z` is the error of the normal equations
    obtain ⟨w, hw⟩ : ∃ w, w = q * (a.transpose * u) := ⟨_, rfl⟩
    rw [← hw]
    obtain ⟨z, hz⟩ : ∃ z, z = a.transpose * (a * w - u) := ⟨_, rfl⟩
    have hz' : z = a.transpose * a * w - a.transpose * u := by rw [hz, Matrix.mul_sub, Matrix.mul_assoc]
    have hGz : a.transpose * a * z = 0 := by
      rw [hz', Matrix.mul_sub, hw, ← Matrix.mul_assoc, ← Matrix.mul_assoc, h1, sub_self]
    have haz : a * z = 0 := by
      apply transpose_mul_self_zero
      rw [Matrix.transpose_mul, Matrix.mul_assoc, ← Matrix.mul_assoc a.transpose, hGz, Matrix.mul_zero]
    have hz0 : z = 0 := by
      apply transpose_mul_self_zero
      have : z.transpose * z = (a * w - u).transpose * (a * z) := by
        conv_lhs => arg 1; rw [hz, Matrix.transpose_mul, Matrix.transpose_transpose]
        rw [Matrix.mul_assoc]
      rw [this, haz, Matrix.mul_zero]
    rw [hz'] at hz0
    exact sub_eq_zero.1 hz0

/-- A combination of columns that satisfies the normal equations is a least-squares fit. -/
theorem leastSquares_of {X T W : Mat K} {l : List Nat} (hN : X.nrows = T.nrows) (hW1 : W.nrows = l.length) (hW2 : W.cols = T.cols)
    (h : ((X.selCols l).tmul (X.selCols l)).mul W = (X.selCols l).tmul T) : LeastSquares X T l ((X.selCols l).mul W) := by
  have hF : ∀ s < T.nrows, ∀ t < T.cols, ((X.selCols l).mul W).get s t = ∑ a ∈ range l.length, X.get s (l.getD a 0) * W.get a t := by
    intro s hs t ht
    rw [get_mul_sum (by simpa [hN] using hs) (by omega), hW1]
    refine Finset.sum_congr rfl fun a ha => ?_
    have ha := Finset.mem_range.1 ha
    rw [Mat.get_selCols (by omega) ha, List.getD_eq_getElem _ _ ha]
  refine ⟨⟨W.get, hF⟩, ?_⟩
  intro i hi t ht
  obtain ⟨a, ha, rfl⟩ := List.getElem_of_mem hi
  have h1 := congrArg (fun M => Mat.get M a t) h
  rw [get_mul_sum (by simpa using ha) (by omega), get_tmul_sum (by simpa using hN) (by simpa using ha) ht] at h1
  have hga : ∀ s < T.nrows, (X.selCols l).get s a = X.get s l[a] := by
    intro s hs
    rw [Mat.get_selCols (by omega) ha]
  have h2 : ∑ s ∈ range T.nrows, ((X.selCols l).mul W).get s t * X.get s l[a] = ∑ s ∈ range T.nrows, T.get s t * X.get s l[a] := by
    have e1 : ∑ s ∈ range T.nrows, ((X.selCols l).mul W).get s t * X.get s l[a] =
        ∑ b ∈ range l.length, (∑ s ∈ range T.nrows, X.get s l[a] * X.get s (l.getD b 0)) * W.get b t := by
      rw [Finset.sum_congr rfl fun s hs => by rw [hF s (Finset.mem_range.1 hs) t ht, Finset.sum_mul], Finset.sum_comm]
      refine Finset.sum_congr rfl fun b _ => ?_
      rw [Finset.sum_mul]
      exact Finset.sum_congr rfl fun s _ => by ring
    rw [e1]
    rw [hW1] at h1
    have e2 : ∑ b ∈ range l.length, ((X.selCols l).tmul (X.selCols l)).get a b * W.get b t =
        ∑ b ∈ range l.length, (∑ s ∈ range T.nrows, X.get s l[a] * X.get s (l.getD b 0)) * W.get b t := by
      refine Finset.sum_congr rfl fun b hb => ?_
      have hb := Finset.mem_range.1 hb
      rw [get_tmul_sum rfl (by simpa using ha) (by simpa using hb)]
      congr 1
      refine Finset.sum_congr (by simp [hN]) fun s hs => ?_
      have hs : s < T.nrows := by simpa [hN] using hs
      rw [hga s hs, Mat.get_selCols (by omega) hb, List.getD_eq_getElem _ _ hb]
    rw [← e2, h1]
    refine Finset.sum_congr (by simp [hN]) fun s hs => ?_
    have hs : s < T.nrows := by simpa [hN] using hs
    rw [hga s hs]
    ring
  rw [Finset.sum_congr rfl fun s _ => sub_mul _ _ _, Finset.sum_sub_distrib, h2, sub_self]

/-- One step of `mrsr` in full. -/
theorem mrsrStep_full {env : Env K} (hl : Lawful env) {X T : Mat K} {S : List (List K)} {first last : Bool} {st st' : MrsrSt K}
    (hN : X.nrows = T.nrows) (hf : first = true → st.i1 = []) (h : mrsrStep env X T S first last st = .ok st') :
    ∃ c F, c = argmax (st.i2.map (absCorr (T.sub st.Y) X)) ∧ c < st.i2.length ∧ st'.i1 = st.i1 ++ [st.i2.getD c 0] ∧ st'.i2 = delAt st.i2 c ∧
      LeastSquares X T st'.i1 F ∧ F.nrows = T.nrows ∧ F.cols = T.cols ∧
      ((last && !first) = true ∨ ∃ g, minStep (stepRatios S ((st.i2.map (absCorr (T.sub st.Y) X)).getD c 0) (corrCols (T.sub st.Y) X st'.i2)
          (corrCols (F.sub st.Y) X st'.i2)) = .ok g ∧ st'.Y = Mat.comb (1 - g) st.Y g F) := by
  unfold mrsrStep at h
  simp only at h
  split at h
  · cases h
  rename_i hne
  have hne : st.i2.map (absCorr (T.sub st.Y) X) ≠ [] := by simpa using hne
  have hlt := argmax_lt hne
  rw [List.length_map] at hlt
  obtain ⟨c, hc⟩ : ∃ c, c = argmax (st.i2.map (absCorr (T.sub st.Y) X)) := ⟨_, rfl⟩
  rw [← hc] at h hlt
  obtain ⟨F, hF, h⟩ := bind_ok h
  have hFF : LeastSquares X T (st.i1 ++ [st.i2.getD c 0]) F ∧ F.nrows = T.nrows ∧ F.cols = T.cols := by
    split at hF
    · rename_i hfirst
      split at hF
      · cases hF
      rename_i hxx
      injection hF with hF
      subst hF
      rw [hf hfirst]
      refine ⟨leastSquares_of hN (by simp) (by simp) ?_, by simp [hN], by simp⟩
      apply Mat.ext_get (Mat.mul_WF _ _) (Mat.tmul_WF _ _) (by simp) (by simp)
      intro a t ha ht
      have ha : a = 0 := by simpa using ha
      have ht : t < T.cols := by simpa using ht
      subst ha
      rw [get_mul_sum (by simp) (by simpa using ht), get_tmul_sum (by simpa using hN) (by simp) ht]
      simp only [Mat.ofFn_nrows, Finset.sum_range_one]
      rw [get_tmul_sum rfl (by simp) (by simp), Mat.get_ofFn_lt (by omega) ht]
      rw [dot_col rfl, dot_col hN.symm]
      have hcol : ∀ s < X.nrows, (X.selCols [st.i2.getD c 0]).get s 0 = X.get s (st.i2.getD c 0) := by
        intro s hs
        rw [Mat.get_selCols hs (by simp)]
        rfl
      have e1 : ∑ s ∈ range (X.selCols [st.i2.getD c 0]).nrows, (X.selCols [st.i2.getD c 0]).get s 0 * (X.selCols [st.i2.getD c 0]).get s 0 =
          ∑ s ∈ range X.nrows, X.get s (st.i2.getD c 0) * X.get s (st.i2.getD c 0) := by
        refine Finset.sum_congr (by simp) fun s hs => ?_
        rw [hcol s (by simpa using hs)]
      have e2 : ∑ s ∈ range (X.selCols [st.i2.getD c 0]).nrows, (X.selCols [st.i2.getD c 0]).get s 0 * T.get s t =
          ∑ s ∈ range X.nrows, X.get s (st.i2.getD c 0) * T.get s t := by
        refine Finset.sum_congr (by simp) fun s hs => ?_
        rw [hcol s (by simpa using hs)]
      simp only [List.nil_append]
      rw [e1, e2]
      rw [dot_col rfl] at hxx
      rw [← mul_assoc, mul_one_div_cancel hxx, one_mul]
    · injection hF with hF
      subst hF
      refine ⟨leastSquares_of hN ?_ (by simp) ?_, by simp [hN], by simp⟩
      · have hsh : ((env.inv ((X.selCols (st.i1 ++ [st.i2.getD c 0])).tmul (X.selCols (st.i1 ++ [st.i2.getD c 0])))).getD
            (env.pinv ((X.selCols (st.i1 ++ [st.i2.getD c 0])).tmul (X.selCols (st.i1 ++ [st.i2.getD c 0]))))).nrows =
            (st.i1 ++ [st.i2.getD c 0]).length := by
          cases hi : env.inv ((X.selCols (st.i1 ++ [st.i2.getD c 0])).tmul (X.selCols (st.i1 ++ [st.i2.getD c 0]))) with
          | some P =>
            have := (hl.inv_sol _ _ (Mat.tmul_WF _ _) (by simp) hi).2.1
            simpa using this
          | none =>
            have := (hl.pinv _ (Mat.tmul_WF (X.selCols (st.i1 ++ [st.i2.getD c 0])) (X.selCols (st.i1 ++ [st.i2.getD c 0]))) (by simp)).2.1
            simpa using this
        simpa using hsh
      · exact gram_solve hl (by simpa using hN)
  refine ⟨c, F, hc, hlt, ?_⟩
  split at h
  · rename_i hlast
    simp only [pure, Except.pure, Except.ok.injEq] at h
    subst h
    exact ⟨rfl, rfl, hFF.1, hFF.2.1, hFF.2.2, Or.inl hlast⟩
  · obtain ⟨g, hg, h⟩ := bind_ok h
    simp only [pure, Except.pure, Except.ok.injEq] at h
    subst h
    exact ⟨rfl, rfl, hFF.1, hFF.2.1, hFF.2.2, Or.inr ⟨g, hg, rfl⟩⟩

/-- The state of `mrsr` is on the path. -/
theorem mrsrStep_path {env : Env K} (hl : Lawful env) {X T : Mat K} {first last : Bool} {st st' : MrsrSt K}
    (hN : X.nrows = T.nrows) (hf : first = true → st.i1 = []) (hp : Path X T st.i1 st.Y) (hperm : (st.i1 ++ st.i2).Perm (List.range X.cols))
    (hY : st.Y.nrows = T.nrows ∧ st.Y.cols = T.cols)
    (h : mrsrStep env X T (signTable T.cols) first last st = .ok st') :
    ∃ j, st'.i1 = st.i1 ++ [j] ∧ Next X T st.Y st.i1 j ∧
      ((last && !first) = true ∨ (Path X T st'.i1 st'.Y ∧ st'.Y.nrows = T.nrows ∧ st'.Y.cols = T.cols)) := by
  obtain ⟨c, F, hc, hlt, h1, h2, hF, hFn, hFc, h3⟩ := mrsrStep_full hl hN hf h
  obtain ⟨j, hj⟩ : ∃ j, j = st.i2.getD c 0 := ⟨_, rfl⟩
  rw [← hj] at h1
  have hnd : (st.i1 ++ st.i2).Nodup := hperm.nodup_iff.2 List.nodup_range
  have hmem : ∀ i, i < X.cols ↔ i ∈ st.i1 ∨ i ∈ st.i2 := by
    intro i
    rw [← List.mem_append, hperm.mem_iff, List.mem_range]
  have hj2 : j ∈ st.i2 := by
    rw [hj, List.getD_eq_getElem _ _ hlt]
    exact List.getElem_mem hlt
  have hj1 : j ∉ st.i1 := fun h => (List.nodup_append.1 hnd).2.2 _ h _ hj2 rfl
  have hne : st.i2.map (absCorr (T.sub st.Y) X) ≠ [] := by
    intro h
    rw [List.map_eq_nil_iff] at h
    rw [h] at hlt
    exact absurd hlt (by simp)
  obtain ⟨f1, f2, _⟩ := argmax_firstMax hne
  rw [← hc] at f1 f2
  have hcm : (st.i2.map (absCorr (T.sub st.Y) X)).getD c 0 = resCorr X T st.Y j := by
    rw [List.getD_eq_getElem _ _ f1, List.getElem_map, absCorr_resCorr hN, hj, List.getD_eq_getElem _ _ hlt]
  have hmax2 : ∀ i ∈ st.i2, resCorr X T st.Y i ≤ resCorr X T st.Y j := by
    intro i hi
    obtain ⟨a, ha, rfl⟩ := List.getElem_of_mem hi
    have := f2 a (by simpa using ha)
    rw [hcm, List.getD_eq_getElem _ _ (by simpa using ha), List.getElem_map, absCorr_resCorr hN] at this
    exact this
  have hlevel : ∀ i ∈ st.i1, resCorr X T st.Y i = resCorr X T st.Y j := by
    intro i hi
    generalize st.i1 = l at hp hi hmem hj1 hmax2
    generalize st.Y = Y at hp hmax2
    cases hp with
    | start => cases hi
    | step a1 a2 a3 a4 a5 a6 a7 a8 a9 =>
      obtain ⟨i0, b1, b2, b3⟩ := a9
      have hi0 := ((hmem i0).1 b1).resolve_left b2
      have h4 := hmax2 i0 hi0
      have h5 := a8 j ((hmem j).2 (Or.inr hj2))
      rw [a7 i hi]
      rw [b3] at h4
      exact le_antisymm h4 h5
  have hnext : Next X T st.Y st.i1 j := by
    refine ⟨(hmem j).2 (Or.inr hj2), hj1, fun i hi => ?_⟩
    rcases (hmem i).1 hi with h | h
    · exact (hlevel i h).le
    · exact hmax2 i h
  refine ⟨j, h1, hnext, ?_⟩
  rcases h3 with h3 | ⟨g, h3, h4⟩
  · exact Or.inl h3
  right
  rw [hcm] at h3
  obtain ⟨m1, m2, m3⟩ := minStep_ok h3
  have hrR : (T.sub st.Y).cols = T.cols := by simp [Mat.sub]
  have hrD : (F.sub st.Y).cols = T.cols := by simp [Mat.sub, hFc]
  have hi2 : ∀ i, i ∈ st'.i2 → i ∈ st.i2 := by
    intro i hi
    have := (delAt_perm st.i2 c 0 hlt).mem_iff (a := i)
    rw [h2] at hi
    exact this.1 (List.mem_cons_of_mem _ hi)
  have hi2' : ∀ i ∈ st.i2, i ≠ j → i ∈ st'.i2 := by
    intro i hi hij
    have := ((delAt_perm st.i2 c 0 hlt).mem_iff (a := i)).2 hi
    rw [h2]
    exact (List.mem_cons.1 this).resolve_left (by rw [← hj]; exact hij)
  have hjn : j ∉ st'.i2 := by
    have := (delAt_perm st.i2 c 0 hlt).nodup_iff.2 (List.nodup_append.1 hnd).2.1
    rw [h2, hj]
    exact (List.nodup_cons.1 this).1
  -- the correlations after the move
  let a : Nat → Nat → K := fun i t => dot ((T.sub st.Y).col t) (X.col i)
  let b : Nat → Nat → K := fun i t => dot ((F.sub st.Y).col t) (X.col i)
  have ha : ∀ i, ∀ t < T.cols, a i t = ∑ s ∈ range T.nrows, (T.get s t - st.Y.get s t) * X.get s i := by
    intro i t ht
    show dot _ _ = _
    rw [dot_col (by simp [Mat.sub, hN])]
    refine Finset.sum_congr (by simp [Mat.sub]) fun s hs => ?_
    have hs : s < T.nrows := by simpa [Mat.sub] using hs
    unfold Mat.sub
    rw [Mat.get_ofFn_lt hs ht]
  have hb : ∀ i, ∀ t < T.cols, b i t = ∑ s ∈ range T.nrows, (F.get s t - st.Y.get s t) * X.get s i := by
    intro i t ht
    show dot _ _ = _
    rw [dot_col (by simp [Mat.sub, hN, hFn])]
    refine Finset.sum_congr (by simp [Mat.sub, hFn]) fun s hs => ?_
    have hs : s < T.nrows := by simpa [Mat.sub, hFn] using hs
    unfold Mat.sub
    rw [Mat.get_ofFn_lt (by omega) (by omega)]
  have hYg : ∀ s < T.nrows, ∀ t < T.cols, st'.Y.get s t = (1 - g) * st.Y.get s t + g * F.get s t := by
    intro s hs t ht
    rw [h4]
    unfold Mat.comb
    rw [Mat.get_ofFn_lt (by omega) (by omega)]
  have hafter : ∀ i, resCorr X T st'.Y i = ∑ t ∈ range T.cols, |a i t - g * b i t| := by
    intro i
    unfold resCorr
    refine Finset.sum_congr rfl fun t ht => ?_
    have ht := Finset.mem_range.1 ht
    rw [ha i t ht, hb i t ht, Finset.mul_sum, ← Finset.sum_sub_distrib]
    congr 1
    refine Finset.sum_congr rfl fun s hs => ?_
    rw [hYg s (Finset.mem_range.1 hs) t ht]
    ring
  have hbefore : ∀ i, resCorr X T st.Y i = ∑ t ∈ range T.cols, |a i t| := by
    intro i
    unfold resCorr
    refine Finset.sum_congr rfl fun t ht => ?_
    rw [ha i t (Finset.mem_range.1 ht)]
  have hc0 : 0 ≤ resCorr X T st.Y j := by
    rw [hbefore]
    exact Finset.sum_nonneg fun t _ => abs_nonneg _
  obtain ⟨k1, k2, k3⟩ := step_core (p := T.cols) (J := st'.i2) (a := a) (b := b) (c := resCorr X T st.Y j) (g := g) hc0
    (fun i hi => by rw [← hbefore]; exact hmax2 i (hi2 i hi)) ⟨m1, by
      obtain ⟨q, q1, q2, q3⟩ := m2
      obtain ⟨s, s1, i, s2, rfl⟩ := mem_stepRatios.1 q1
      rw [hrR, hrD] at q3
      rw [hrD] at q2
      exact ⟨s, mem_sign s1, i, s2, q2, q3⟩, by
      intro s hs i hi
      have := m3 _ (mem_stepRatios.2 ⟨s, sign_mem hs, i, hi, rfl⟩)
      rw [hrR, hrD] at this
      exact this⟩
  have hin : ∀ i ∈ st'.i1, resCorr X T st'.Y i = (1 - g) * resCorr X T st.Y j := by
    intro i hi
    have hci : resCorr X T st.Y i = resCorr X T st.Y j := by
      rw [h1] at hi
      rcases List.mem_append.1 hi with h | h
      · exact hlevel i h
      · rw [List.mem_singleton.1 h]
    rw [← hci, hafter, hbefore, Finset.mul_sum]
    refine Finset.sum_congr rfl fun t ht => ?_
    have ht := Finset.mem_range.1 ht
    have hab : b i t = a i t := by
      have := hF.2 i hi t ht
      rw [ha i t ht, hb i t ht, ← sub_eq_zero, ← Finset.sum_sub_distrib, ← neg_eq_zero, ← Finset.sum_neg_distrib, ← this]
      exact Finset.sum_congr rfl fun s _ => by ring
    rw [hab, show a i t - g * a i t = (1 - g) * a i t by ring, abs_mul, abs_of_nonneg (by linarith)]
  rw [h1] at hF hin ⊢
  refine ⟨Path.step hp hnext hF m1 k1 hYg hin ?_ ?_, ?_, ?_⟩
  · intro i hi
    rcases (hmem i).1 hi with h | h
    · exact (hin i (List.mem_append.2 (Or.inl h))).le
    · by_cases hij : i = j
      · exact (hin i (by rw [hij]; simp)).le
      · rw [hafter]
        exact k2 i (hi2' i h hij)
  · obtain ⟨i, i1, i2⟩ := k3
    refine ⟨i, (hmem i).2 (Or.inr (hi2 i i1)), ?_, by rw [hafter]; exact i2⟩
    intro h
    rcases List.mem_append.1 h with h | h
    · exact (List.nodup_append.1 hnd).2.2 _ h _ (hi2 i i1) rfl
    · rw [List.mem_singleton.1 h] at i1
      exact hjn i1
  · rw [h4]; simp [Mat.comb, hY.1]
  · rw [h4]; simp [Mat.comb, hY.2]

theorem mrsrLoop_path {env : Env K} (hl : Lawful env) {X T : Mat K} (hN : X.nrows = T.nrows) {kmax : Nat} (ks : List Nat)
    (hks : ∀ k ∈ ks.dropLast, k ≠ kmax) {st st' : MrsrSt K} (hp : Path X T st.i1 st.Y) (hperm : (st.i1 ++ st.i2).Perm (List.range X.cols))
    (hY : st.Y.nrows = T.nrows ∧ st.Y.cols = T.cols) (hr : PathRanking X T st.i1)
    (h : mrsrLoop env X T (signTable T.cols) kmax ks st = .ok st') : PathRanking X T st'.i1 := by
  induction ks generalizing st with
  | nil =>
    injection h with h
    rw [← h]
    exact hr
  | cons k ks ih =>
    unfold mrsrLoop at h
    obtain ⟨s1, h1, h⟩ := bind_ok h
    obtain ⟨p1, _⟩ := mrsrStep_perm h1
    obtain ⟨j, q1, q2, q3⟩ := mrsrStep_path hl hN (by simp) hp hperm hY h1
    have hr1 : PathRanking X T s1.i1 := ⟨_, j, _, q1, hp, q2⟩
    cases ks with
    | nil =>
      injection h with h
      rw [← h]
      exact hr1
    | cons k' ks =>
      have hk : k ≠ kmax := hks k (by simp)
      rcases q3 with q3 | ⟨q3, q4⟩
      · simp at q3
        exact absurd q3 hk
      · exact ih (fun x hx => hks x (by simpa using Or.inr hx)) q3 (p1.trans hperm) q4 hr1 h

theorem mrsr_path {env : Env K} (hl : Lawful env) {X T : Mat K} (hN : X.nrows = T.nrows) {kmax : Nat} {r : List Nat}
    (h : mrsr env X T kmax = .ok r) : PathRanking X T r := by
  unfold mrsr at h
  obtain ⟨s1, h1, h⟩ := bind_ok h
  obtain ⟨s2, h2, h⟩ := bind_ok h
  injection h with h
  subst h
  obtain ⟨p1, _⟩ := mrsrStep_perm h1
  obtain ⟨j, q1, q2, q3⟩ := mrsrStep_path hl hN (fun _ => rfl) Path.start (by simp) ⟨by simp [Mat.zeros], by simp [Mat.zeros]⟩ h1
  rcases q3 with q3 | ⟨q3, q4⟩
  · simp at q3
  refine mrsrLoop_path hl hN _ ?_ q3 (p1.trans (by simp)) q4 ⟨_, j, _, q1, Path.start, q2⟩ h2
  intro k hk hkm
  obtain ⟨i, hi, rfl⟩ := List.getElem_of_mem hk
  simp only [List.getElem_dropLast, List.getElem_drop, List.getElem_range, List.length_dropLast, List.length_drop, List.length_range] at hi hkm
  omega

theorem path_lt {X T : Mat K} {l : List Nat} {Y : Mat K} (h : Path X T l Y) : ∀ i ∈ l, i < X.cols := by
  induction h with
  | start => simp
  | step _ h2 _ _ _ _ _ _ _ ih =>
    intro i hi
    rcases List.mem_append.1 hi with h | h
    · exact ih i h
    · rw [List.mem_singleton.1 h]
      exact h2.1

theorem pathRanking_lt {X T : Mat K} {r : List Nat} (h : PathRanking X T r) : ∀ i ∈ r, i < X.cols := by
  obtain ⟨l, j, Y, rfl, h1, h2⟩ := h
  intro i hi
  rcases List.mem_append.1 hi with h | h
  · exact path_lt h1 i h
  · rw [List.mem_singleton.1 h]
    exact h2.1

end Hpelm
