import Verif.Props.C96_Rounding
import Mathlib.Algebra.BigOperators.Group.Finset.Basic
import Mathlib.Data.List.Forall2

/-!
C97: prediction and the mean squared error in rounded arithmetic.
-/

namespace Hpelm.Props
open Hpelm Spec
variable {K : Type} [Field K] [LinearOrder K] [IsStrictOrderedRing K]

theorem sums_near {r : K → K} {u : K} (hr : Rounding r u) {v : K} {ts : List (Term K)} {k : Nat} {α : Type} {f : α → K}
    {es : List α} (h : Sums r ts v) (hn : List.Forall₂ (fun t e => WithinDrift u k (f e) t.value) ts es) :
    |v - (es.map f).sum| ≤ drift u (es.length + k) * (es.map fun e => |f e|).sum := by
  have hu := hr.nonneg
  have hb := h.bound hr
  rw [hn.length_eq] at hb
  have h1 : |(ts.map Term.value).sum - (es.map f).sum| ≤ drift u k * (es.map fun e => |f e|).sum ∧
      (ts.map fun t => |t.value|).sum ≤ (1 + drift u k) * (es.map fun e => |f e|).sum := by
    clear hb h
    induction hn with
    | nil => simp
    | @cons t e ts es h0 _ ih =>
      simp only [List.map_cons, List.sum_cons]
      have h0 : |t.value - f e| ≤ drift u k * |f e| := h0
      constructor
      · have : t.value + (ts.map Term.value).sum - (f e + (es.map f).sum)
            = (t.value - f e) + ((ts.map Term.value).sum - (es.map f).sum) := by ring
        rw [this]
        refine le_trans (abs_add_le _ _) ?_
        have := ih.1
        linarith
      · have : |t.value| ≤ |t.value - f e| + |f e| := by simpa using abs_add_le (t.value - f e) (f e)
        have := ih.2
        linarith
  obtain ⟨h1, h2⟩ := h1
  set G := (es.map fun e => |f e|).sum
  have dm := drift_nonneg hu es.length
  rw [drift_add]
  have e1 : v - (es.map f).sum = (v - (ts.map Term.value).sum) + ((ts.map Term.value).sum - (es.map f).sum) := by ring
  rw [e1]
  refine le_trans (abs_add_le _ _) ?_
  have p1 := mul_le_mul_of_nonneg_left h2 dm
  nlinarith

/-- C97.  Every predicted value, computed in any order with unit roundoff `u`, differs from the exact weighted sum of the hidden layer
outputs by at most `(1+u)^L - 1` times the sum of absolute values; `L` is the number of neurons. -/
theorem C97_predict (env : Env K) (u : K) (n : NNet K) (hr : Rounding (env.cast n.prec) u) (H Y B : Mat K)
    (hB : n.B = some B) (hL : 0 < B.nrows) (h : n.PredictR env H Y) :
    Y.nrows = H.nrows ∧ Y.cols = B.cols ∧ ∀ i < H.nrows, ∀ j < B.cols,
      |Y.get i j - ∑ k ∈ Finset.range B.nrows, H.get i k * B.get k j|
        ≤ drift u B.nrows * ∑ k ∈ Finset.range B.nrows, |H.get i k * B.get k j| := by
  obtain ⟨B', e1, e2, e3, e4, e5, e6⟩ := h
  rw [hB] at e1
  injection e1 with e1
  subst e1
  refine ⟨e4, e5, fun i hi j hj => ?_⟩
  have := (e6 i hi j hj hL).bound hr
  simp only [List.length_map, List.length_range, List.map_map] at this
  rw [Finset.sum_eq_multiset_sum, Finset.sum_eq_multiset_sum]
  simpa [Function.comp_def, Term.value, Finset.range_val, Multiset.range] using this

omit [LinearOrder K] [IsStrictOrderedRing K] in
theorem rows_sum (f : K → K → K) : ∀ (ts ys : List (List K)) (c : Nat), ts.length = ys.length →
    (∀ t ∈ ts, t.length = c) → (∀ y ∈ ys, y.length = c) →
    (((ts.zip ys).map fun p => List.zipWith f p.1 p.2).flatten).sum
      = ∑ i ∈ Finset.range ts.length, ∑ j ∈ Finset.range c, f ((ts.getD i []).getD j 0) ((ys.getD i []).getD j 0) ∧
    (((ts.zip ys).map fun p => List.zipWith f p.1 p.2).flatten).length = ts.length * c
  | [], [], c, _, _, _ => by simp
  | t :: ts, y :: ys, c, h, h1, h2 => by
    obtain ⟨a, b⟩ := rows_sum f ts ys c (by simpa using h) (fun t ht => h1 t (List.mem_cons_of_mem _ ht))
      (fun t ht => h2 t (List.mem_cons_of_mem _ ht))
    have l1 := h1 t List.mem_cons_self
    have l2 := h2 y List.mem_cons_self
    simp only [List.zip_cons_cons, List.map_cons, List.flatten_cons, List.sum_append, List.length_append, List.length_cons]
    constructor
    · rw [Finset.sum_range_succ', a]
      simp only [List.getD_cons_succ, List.getD_cons_zero]
      rw [add_comm]
      congr 1
      have : ∀ (x w : List K) (d : Nat), x.length = d → w.length = d →
          (List.zipWith f x w).sum = ∑ k ∈ Finset.range d, f (x.getD k 0) (w.getD k 0) := by
        intro x
        induction x with
        | nil => intro w d hx hw; simp at hx; subst hx; simp
        | cons a x ih =>
          intro w d hx hw
          cases w with
          | nil => simp at hw; subst hw; simp at hx
          | cons b w =>
            obtain ⟨d, rfl⟩ : ∃ e, d = e + 1 := ⟨d - 1, by simp at hx; omega⟩
            rw [Finset.sum_range_succ', List.zipWith_cons_cons, List.sum_cons, ih w d (by simpa using hx) (by simpa using hw)]
            simp [add_comm]
      exact this t y c l1 l2
    · rw [b, List.length_zipWith, l1, l2, min_self]; ring

/-- C97.  The mean squared error reported, computed in any order with unit roundoff `u`, has a relative error of at most
`(1+u)^(m+3) - 1`, `m` being the number of target values. -/
theorem C97_mse (r : K → K) (u : K) (hr : Rounding r u) (T Y : Mat K) (hT : T.WF) (hY : Y.WF) (h1 : T.nrows = Y.nrows)
    (h2 : T.cols = Y.cols) (e : K) (h : MseR r T Y e) :
    |e - meanSquare T Y| ≤ drift u (T.nrows * T.cols + 3) * meanSquare T Y := by
  obtain ⟨s, hs, rfl⟩ := h
  have hu := hr.nonneg
  -- all pairs of entries
  set ps : List (K × K) := ((T.rows.zip Y.rows).map fun p => List.zipWith (fun t y => (t, y)) p.1 p.2).flatten with hps
  have hterms : ((T.rows.zip Y.rows).map fun p =>
      List.zipWith (fun t y => Term.prod (r (y - t)) (r (y - t))) p.1 p.2).flatten
      = ps.map fun p => Term.prod (r (p.2 - p.1)) (r (p.2 - p.1)) := by
    rw [hps, List.map_flatten, List.map_map]
    congr 1
    apply List.map_congr_left
    intro p _
    simp [List.map_zipWith]
  have hvals : ((T.rows.zip Y.rows).map fun p =>
      List.zipWith (fun t y => (y - t) ^ 2) p.1 p.2).flatten = ps.map fun p => (p.2 - p.1) ^ 2 := by
    rw [hps, List.map_flatten, List.map_map]
    congr 1
    apply List.map_congr_left
    intro p _
    simp [List.map_zipWith]
  obtain ⟨e1, e2⟩ := rows_sum (fun t y => (y - t) ^ 2) T.rows Y.rows T.cols h1 hT (fun y hy => by rw [h2]; exact hY y hy)
  rw [hvals] at e1 e2
  rw [List.length_map] at e2
  rw [hterms] at hs
  have hn : List.Forall₂ (fun (t : Term K) (p : K × K) => WithinDrift u 2 ((p.2 - p.1) ^ 2) t.value)
      (ps.map fun p => Term.prod (r (p.2 - p.1)) (r (p.2 - p.1))) ps := by
    rw [List.forall₂_map_left_iff]
    apply List.forall₂_same.2
    intro p _
    have := ((WithinDrift.refl u (p.2 - p.1)).round hr).mul hu ((WithinDrift.refl u (p.2 - p.1)).round hr)
    rw [← pow_two] at this
    exact this
  have hb := sums_near hr hs hn
  have habs : (ps.map fun p => |(p.2 - p.1) ^ 2|) = ps.map fun p => (p.2 - p.1) ^ 2 := by
    apply List.map_congr_left; intro p _; exact abs_of_nonneg (sq_nonneg _)
  rw [habs, e2] at hb
  set S := (ps.map fun p => (p.2 - p.1) ^ 2).sum with hS
  have hS0 : 0 ≤ S := by
    apply List.sum_nonneg
    intro v hv
    obtain ⟨p, _, rfl⟩ := List.mem_map.1 hv
    exact sq_nonneg _
  have hm : meanSquare T Y = S / ((T.nrows * T.cols : Nat) : K) := by unfold meanSquare; rw [e1]; rfl
  have hN : (0 : K) ≤ ((T.nrows * T.cols : Nat) : K) := Nat.cast_nonneg _
  set N := ((T.nrows * T.cols : Nat) : K)
  have hnear : WithinDrift u (T.nrows * T.cols + 2) (S / N) (s / N) := by
    unfold WithinDrift
    rw [← sub_div, abs_div, abs_div, abs_of_nonneg hS0, abs_of_nonneg hN, ← mul_div_assoc]
    exact div_le_div_of_nonneg_right hb hN
  have := hnear.round hr
  unfold WithinDrift at this
  rw [abs_of_nonneg (div_nonneg hS0 hN)] at this
  rw [hm]
  exact this

omit [LinearOrder K] [IsStrictOrderedRing K] in
theorem Sums.ne_nil {r : K → K} {l : List (Term K)} {v : K} (h : Sums r l v) : l ≠ [] := by
  induction h with
  | val x => simp
  | prod x y => simp
  | add _ _ hp ih _ => intro h; subst h; exact ih (List.append_eq_nil_iff.1 (List.nil_perm.1 hp)).1
  | fma x y _ hp _ => intro h; subst h; exact absurd (List.nil_perm.1 hp) (by simp)

/-- C97, the exact case.  When rounding changes nothing, the relations are the exact model: the only prediction is `predict`, and the only
mean squared error is the one of `error`. -/
theorem C97_exact_model (env : Env K) (hx : env.Exact) (n : NNet K) (X H : Mat K) (hH : n.project env X = .ok H)
    (hB : ∀ B, n.B = some B → 0 < B.nrows) :
    (∀ Y, n.PredictR env H Y ↔ n.predict env X = .ok Y) ∧
    ∀ (T Y : Mat K) (wc : Option (List (Option K))) (e : K), T.WF → Y.WF → T.nrows = Y.nrows → T.cols = Y.cols →
      (MseR (env.cast n.prec) T Y e ↔ elmError none wc T Y = .ok e) := by
  have hr := hx n.prec
  have hsum : ∀ (ts : List (Term K)), ts ≠ [] → Sums (env.cast n.prec) ts ((ts.map Term.value).sum) := by
    intro ts
    induction ts with
    | nil => intro h; exact absurd rfl h
    | cons t ts ih =>
      intro _
      have h1 : Sums (env.cast n.prec) [t] t.value := by
        cases t with
        | val x => exact .val x
        | prod x y => simpa [Term.value, hr] using Sums.prod (r := env.cast n.prec) x y
      by_cases h0 : ts = []
      · subst h0; simpa using h1
      · have := Sums.add (l := t :: ts) h1 (ih h0) (List.Perm.refl _)
        rw [hr] at this
        simpa using this
  constructor
  · intro Y
    unfold NNet.PredictR NNet.predict
    cases hb : n.B with
    | none => simp
    | some B =>
      have hpos := hB B hb
      rw [hH]
      by_cases hc : H.cols = B.nrows
      · have hmul : ∀ i < H.nrows, ∀ j < B.cols, (((List.range B.nrows).map fun k => Term.prod (H.get i k) (B.get k j)).map Term.value).sum
            = (H.mul B).get i j := by
          intro i hi j hj
          rw [Mat.get_mul hi hj, List.map_map]
          rfl
        simp only [Option.some.injEq, bind, Except.bind, hc, ne_eq, not_true_eq_false, if_false, pure, Except.pure]
        constructor
        · rintro ⟨B', rfl, _, e3, e4, e5, e6⟩
          congr 1
          symm
          apply Mat.ext_get e3 (Mat.mul_WF _ _) (by simpa using e4) (by simpa using e5)
          intro i j hi hj
          rw [e4] at hi
          rw [e5] at hj
          rw [sums_exact hr (e6 i hi j hj hpos), hmul i hi j hj]
        · intro h
          injection h with h
          subst h
          refine ⟨B, rfl, rfl, Mat.mul_WF _ _, by simp, by simp, fun i hi j hj _ => ?_⟩
          rw [← hmul i hi j hj]
          exact hsum _ (by simp; omega)
      · constructor
        · rintro ⟨B', e1, e2, _⟩
          injection e1 with e1
          subst e1
          exact absurd e2 hc
        · intro h
          simp [bind, Except.bind, hc] at h
  · intro T Y wc e hT hY h1 h2
    obtain ⟨_, e2⟩ := rows_sum (fun t y => (y - t) * (y - t)) T.rows Y.rows T.cols h1 hT (fun y hy => by rw [h2]; exact hY y hy)
    set ts := ((T.rows.zip Y.rows).map fun p => List.zipWith (fun t y => Term.prod (env.cast n.prec (y - t)) (env.cast n.prec (y - t))) p.1 p.2).flatten with hts
    have hsq : (sqErrs T Y).flatten = ts.map Term.value := by
      rw [hts, List.map_flatten, List.map_map, sqErrs]
      congr 1
      rw [← List.map_uncurry_zip_eq_zipWith]
      apply List.map_congr_left
      intro p _
      simp [List.map_zipWith, Term.value, hr, Function.uncurry]
    have hlen : ts.length = T.nrows * T.cols := by
      have : (sqErrs T Y).flatten.length = T.nrows * T.cols := by
        refine Eq.trans ?_ e2
        rw [sqErrs, ← List.map_uncurry_zip_eq_zipWith]
        rfl
      rw [← this, hsq, List.length_map]
    unfold MseR elmError
    rw [← hts]
    simp only [h1, h2, ne_eq, not_true_eq_false, or_self, if_false, reduceCtorEq, hsq]
    rw [← h1, ← h2]
    by_cases h0 : ts = []
    · constructor
      · rintro ⟨s, hs, _⟩
        rw [h0] at hs
        exact absurd rfl (Sums.ne_nil hs)
      · intro h
        simp [mean?, h0, notNan] at h
    · have hne : (ts.map Term.value).isEmpty = false := by simpa using h0
      simp only [mean?, hne, notNan, List.length_map, hlen]
      constructor
      · rintro ⟨s, hs, rfl⟩
        rw [sums_exact hr hs, hr]
        rfl
      · intro h
        refine ⟨_, hsum ts h0, ?_⟩
        rw [hr]
        injection h with h
        exact h.symm

/-- Hypotheses of `C97_predict` and `C97_mse` in single precision: a trained network with two neurons and one output predicts two
samples, and the error of the prediction can be computed. -/
example : ∃ (Y : Mat ℝ) (e : ℝ), NNet.PredictR floatEnv { floatNet .python with B := some ⟨1, [[1/3], [2/7]]⟩ } ⟨2, [[1, 3], [2, 1/9]]⟩ Y ∧
    MseR (floatEnv.cast .single) ⟨1, [[1], [1/5]]⟩ Y e ∧ Y.WF ∧ Y.nrows = 2 ∧ Y.cols = 1 ∧
    Rounding (floatEnv.cast .single) (1 / 2 ^ 24) := by
  have hs : ∀ (r : ℝ → ℝ) (a b c d : ℝ), Sums r [Term.prod a b, Term.prod c d] (r (r (c * d) + a * b)) :=
    fun r a b c d => Sums.fma a b (Sums.prod c d) (List.Perm.refl _)
  let r := floatEnv.cast .single
  refine ⟨⟨1, [[r (r (3 * (2/7)) + 1 * (1/3))], [r (r (1/9 * (2/7)) + 2 * (1/3))]]⟩, _,
    ⟨⟨1, [[1/3], [2/7]]⟩, rfl, rfl, by simp [Mat.WF], rfl, rfl, ?_⟩, ⟨_, hs r _ _ _ _, rfl⟩, by simp [Mat.WF], rfl, rfl, floatRound_rounding 23⟩
  · intro i hi j hj _
    obtain rfl : j = 0 := Nat.lt_one_iff.1 hj
    have : i = 0 ∨ i = 1 := by have : i < 2 := hi; omega
    rcases this with rfl | rfl
    · exact hs r _ _ _ _
    · exact hs r _ _ _ _

end Hpelm.Props
