import Verif.Model.Slfn
import Mathlib.Analysis.Calculus.MeanValue
import Mathlib.Analysis.Calculus.Deriv.Inv
import Mathlib.Analysis.Calculus.Deriv.Pow
import Mathlib.Analysis.SpecialFunctions.ExpDeriv
import Mathlib.Analysis.Complex.Trigonometric

/-! How much the activation functions and the distances change when their arguments change. -/

namespace Hpelm

theorem sigm_steady (u v : ℝ) : |1 / (1 + Real.exp u) - 1 / (1 + Real.exp v)| ≤ |u - v| / 4 := by
  have h := Convex.norm_image_sub_le_of_norm_hasDerivWithin_le (f := fun t : ℝ => (1 + Real.exp t)⁻¹)
    (f' := fun t => -Real.exp t / (1 + Real.exp t) ^ 2) (s := Set.univ) (C := 1 / 4) (x := v) (y := u) ?_ ?_ convex_univ trivial trivial
  · simp only [Real.norm_eq_abs] at h
    simp only [one_div]
    rw [one_div] at h
    linarith
  · intro t _
    have h1 : HasDerivAt (fun t : ℝ => 1 + Real.exp t) (Real.exp t) t := (Real.hasDerivAt_exp t).const_add 1
    exact (h1.fun_inv (by positivity)).hasDerivWithinAt
  · intro t _
    have := Real.exp_pos t
    rw [Real.norm_eq_abs, neg_div, abs_neg, abs_of_pos (by positivity), div_le_div_iff₀ (by positivity) (by norm_num)]
    nlinarith [sq_nonneg (1 - Real.exp t)]

theorem tanh_steady (u v : ℝ) : |Real.tanh u - Real.tanh v| ≤ |u - v| := by
  have h : ∀ t, Real.tanh t = 1 - 2 * (1 / (1 + Real.exp (2 * t))) := by
    intro t
    rw [Real.tanh_eq, Real.exp_neg, show Real.exp (2 * t) = Real.exp t * Real.exp t by rw [← Real.exp_add]; ring_nf]
    have := Real.exp_pos t
    field_simp
    ring
  rw [h, h]
  have h1 := sigm_steady (2 * u) (2 * v)
  have e1 : 1 - 2 * (1 / (1 + Real.exp (2 * u))) - (1 - 2 * (1 / (1 + Real.exp (2 * v)))) =
      -2 * (1 / (1 + Real.exp (2 * u)) - 1 / (1 + Real.exp (2 * v))) := by ring
  have e2 : |2 * u - 2 * v| = 2 * |u - v| := by rw [← mul_sub, abs_mul]; norm_num
  rw [e1, abs_mul]
  rw [e2] at h1
  norm_num at h1 ⊢
  linarith

theorem rbf_steady {b : ℝ} (hb : 0 < b) (d d' : ℝ) : |Real.exp (-d ^ 2 / b) - Real.exp (-d' ^ 2 / b)| ≤ |d - d'| / Real.sqrt b := by
  have hs := Real.sqrt_pos.2 hb
  have hsq : Real.sqrt b * Real.sqrt b = b := Real.mul_self_sqrt hb.le
  have h := Convex.norm_image_sub_le_of_norm_hasDerivWithin_le (f := fun t : ℝ => Real.exp (-t ^ 2 / b))
    (f' := fun t => Real.exp (-t ^ 2 / b) * (-(2 * t) / b)) (s := Set.univ) (C := 1 / Real.sqrt b) (x := d') (y := d) ?_ ?_ convex_univ trivial trivial
  · simp only [Real.norm_eq_abs] at h
    exact h.trans (le_of_eq (by ring))
  · intro t _
    have h1 : HasDerivAt (fun t : ℝ => -t ^ 2 / b) (-(2 * t) / b) t := by
      have := ((hasDerivAt_pow 2 t).fun_neg).div_const b
      simpa using this
    exact h1.exp.hasDerivWithinAt
  · intro t _
    rw [Real.norm_eq_abs, abs_mul, abs_of_pos (Real.exp_pos _), abs_div, abs_neg, abs_of_pos hb, abs_mul, abs_two]
    have e1 : Real.exp (-t ^ 2 / b) = 1 / Real.exp (t ^ 2 / b) := by rw [neg_div, Real.exp_neg, one_div]
    have e2 := Real.add_one_le_exp (t ^ 2 / b)
    rw [e1, div_mul_div_comm, one_mul, div_le_div_iff₀ (by positivity) hs]
    have e3 : t ^ 2 / b * b = t ^ 2 := by field_simp
    have e4 : 2 * |t| * Real.sqrt b ≤ t ^ 2 + b := by nlinarith [sq_nonneg (|t| - Real.sqrt b), sq_abs t]
    nlinarith

/-- The features differ by at most `δ`. -/
abbrev NearRow (δ : ℝ) (x x' : List ℝ) : Prop := List.Forall₂ (fun a a' => |a - a'| ≤ δ) x x'

theorem dot_steady {δ : ℝ} {x x' : List ℝ} (h : NearRow δ x x') (w : List ℝ) (hw : x.length = w.length) :
    |dot x w - dot x' w| ≤ (w.map fun v => |v|).sum * δ := by
  unfold dot
  induction h generalizing w with
  | nil =>
    obtain rfl : w = [] := by simpa using hw.symm
    simp
  | @cons a a' x x' ha _ ih =>
    cases w with
    | nil => cases hw
    | cons v w =>
      have h1 := ih w (by simpa using hw)
      simp only [List.zipWith_cons_cons, List.sum_cons, List.map_cons]
      have e1 : a * v + (List.zipWith (· * ·) x w).sum - (a' * v + (List.zipWith (· * ·) x' w).sum) =
          (a - a') * v + ((List.zipWith (· * ·) x w).sum - (List.zipWith (· * ·) x' w).sum) := by ring
      rw [e1]
      refine (abs_add_le _ _).trans ?_
      rw [abs_mul, add_mul]
      have := mul_le_mul_of_nonneg_right ha (abs_nonneg v)
      linarith [mul_comm |v| δ]

theorem distL1_steady {δ : ℝ} {x x' : List ℝ} (h : NearRow δ x x') (w : List ℝ) (hw : x.length = w.length) :
    |distL1 x w - distL1 x' w| ≤ w.length * δ := by
  unfold distL1
  induction h generalizing w with
  | nil =>
    obtain rfl : w = [] := by simpa using hw.symm
    simp
  | @cons a a' x x' ha _ ih =>
    cases w with
    | nil => cases hw
    | cons v w =>
      have h1 := ih w (by simpa using hw)
      simp only [List.zipWith_cons_cons, List.sum_cons, List.length_cons]
      have h2 : |(|a - v| - |a' - v|)| ≤ |a - a'| := by
        have := abs_abs_sub_abs_le_abs_sub (a - v) (a' - v)
        rwa [sub_sub_sub_cancel_right] at this
      have e1 : ∀ p q r s : ℝ, p + q - (r + s) = (p - r) + (q - s) := fun _ _ _ _ => by ring
      rw [e1]
      refine (abs_add_le _ _).trans ?_
      push_cast
      linarith

theorem foldl_max_steady {δ : ℝ} {l l' : List ℝ} (h : List.Forall₂ (fun a a' => |a - a'| ≤ δ) l l') (c c' : ℝ) (hc : |c - c'| ≤ δ) :
    |l.foldl max c - l'.foldl max c'| ≤ δ := by
  induction h generalizing c c' with
  | nil => exact hc
  | cons ha _ ih => exact ih _ _ ((abs_max_sub_max_le_max _ _ _ _).trans (max_le hc ha))

theorem distLinf_steady {δ : ℝ} (hδ : 0 ≤ δ) {x x' : List ℝ} (h : NearRow δ x x') (w : List ℝ) (hw : x.length = w.length) :
    |distLinf x w - distLinf x' w| ≤ δ := by
  unfold distLinf
  refine foldl_max_steady ?_ _ _ (by simpa using hδ)
  induction h generalizing w with
  | nil => simp
  | @cons a a' x x' ha _ ih =>
    cases w with
    | nil => cases hw
    | cons v w =>
      simp only [List.zipWith_cons_cons]
      refine .cons ?_ (ih w (by simpa using hw))
      have := abs_abs_sub_abs_le_abs_sub (a - v) (a' - v)
      rw [sub_sub_sub_cancel_right] at this
      exact this.trans ha

/-- Triangle inequality in the plane. -/
theorem plane_triangle (p P q Q : ℝ) : |Real.sqrt (p * p + P * P) - Real.sqrt (q * q + Q * Q)| ≤ Real.sqrt ((p - q) * (p - q) + (P - Q) * (P - Q)) := by
  apply Real.abs_le_sqrt
  have h1 := Real.mul_self_sqrt (show 0 ≤ p * p + P * P by nlinarith [mul_self_nonneg p, mul_self_nonneg P])
  have h2 := Real.mul_self_sqrt (show 0 ≤ q * q + Q * Q by nlinarith [mul_self_nonneg q, mul_self_nonneg Q])
  have h3 : p * q + P * Q ≤ Real.sqrt (p * p + P * P) * Real.sqrt (q * q + Q * Q) := by
    rw [← Real.sqrt_mul (by nlinarith [mul_self_nonneg p, mul_self_nonneg P])]
    apply Real.le_sqrt_of_sq_le
    nlinarith [sq_nonneg (p * Q - P * q)]
  nlinarith

theorem sqrt_sum_cons (a s : ℝ) (hs : 0 ≤ s) : Real.sqrt (a * a + s) = Real.sqrt (a * a + Real.sqrt s * Real.sqrt s) := by
  rw [Real.mul_self_sqrt hs]

theorem sum_sq_nonneg (x w : List ℝ) : 0 ≤ (List.zipWith (fun a b => (a - b) * (a - b)) x w).sum := by
  apply List.sum_nonneg
  intro v hv
  rw [← List.map_uncurry_zip_eq_zipWith] at hv
  obtain ⟨p, _, rfl⟩ := List.mem_map.1 hv
  exact mul_self_nonneg _

theorem distL2_steady {env : Env ℝ} (he : env.sqrt = Real.sqrt) {δ : ℝ} {x x' : List ℝ} (h : NearRow δ x x') (w : List ℝ)
    (hw : x.length = w.length) : |distL2 env x w - distL2 env x' w| ≤ Real.sqrt w.length * δ := by
  unfold distL2
  rw [he]
  have h1 : |Real.sqrt (List.zipWith (fun a b => (a - b) * (a - b)) x w).sum - Real.sqrt (List.zipWith (fun a b => (a - b) * (a - b)) x' w).sum| ≤
      Real.sqrt (List.zipWith (fun a b => (a - b) * (a - b)) x x').sum := by
    induction h generalizing w with
    | nil => simp
    | @cons a a' x x' ha _ ih =>
      cases w with
      | nil => cases hw
      | cons v w =>
        have h1 := ih w (by simpa using hw)
        simp only [List.zipWith_cons_cons, List.sum_cons]
        rw [sqrt_sum_cons _ _ (sum_sq_nonneg x w), sqrt_sum_cons _ _ (sum_sq_nonneg x' w)]
        refine (plane_triangle _ _ _ _).trans (Real.sqrt_le_sqrt ?_)
        rw [sub_sub_sub_cancel_right]
        have h2 := mul_self_le_mul_self (abs_nonneg _) h1
        rw [abs_mul_abs_self, Real.mul_self_sqrt (sum_sq_nonneg x x')] at h2
        linarith
  refine h1.trans ?_
  have h0 : 0 ≤ δ ∨ x = [] := by
    cases h with
    | nil => exact .inr rfl
    | cons ha _ => exact .inl ((abs_nonneg _).trans ha)
  rcases h0 with h0 | rfl
  · rw [Real.sqrt_le_iff]
    refine ⟨by positivity, ?_⟩
    rw [mul_pow, Real.sq_sqrt (by positivity), ← hw]
    clear h1 hw
    induction h with
    | nil => simp
    | @cons a a' x x' ha _ ih =>
      simp only [List.zipWith_cons_cons, List.sum_cons, List.length_cons]
      have := mul_self_le_mul_self (abs_nonneg _) ha
      rw [abs_mul_abs_self] at this
      push_cast
      nlinarith
  · have : w = [] := by simpa using hw.symm
    subst this
    simp

end Hpelm
