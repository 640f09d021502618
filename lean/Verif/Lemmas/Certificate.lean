import Verif.Spec.Best
import Mathlib.Algebra.Order.BigOperators.Ring.Finset
import Mathlib.LinearAlgebra.Matrix.ToLin
import Mathlib.LinearAlgebra.FiniteDimensional.Lemmas
import Mathlib.LinearAlgebra.FiniteDimensional.Defs
import Mathlib.Tactic.Ring
import Mathlib.Tactic.Linarith
import Mathlib.Tactic.FieldSimp

/-!
Normal equations of the weighted ridge problem over samples, and the distance to its solution.
-/

namespace Hpelm
open Spec Finset
set_option linter.unusedSectionVars false
variable {K : Type} [Field K] [LinearOrder K] [IsStrictOrderedRing K]

/-- Left-hand side of the normal equations. -/
def lhs (ss : List (List K × List K × K)) (norm : K) (L : Nat) (b : Nat → K) (i : Nat) : K :=
  norm * b i + ∑ k ∈ range L, gram ss i k * b k

theorem gram_mul (ss : List (List K × List K × K)) (L i : Nat) (b : Nat → K) :
    ∑ k ∈ range L, gram ss i k * b k = (ss.map fun s => s.2.2 * (s.1.getD i 0 * ∑ k ∈ range L, s.1.getD k 0 * b k)).sum := by
  induction ss with
  | nil => simp [gram]
  | cons s ss ih =>
    have : ∀ k, gram (s :: ss) i k = s.2.2 * (s.1.getD i 0 * s.1.getD k 0) + gram ss i k := by intro k; simp [gram]
    simp only [this, add_mul, sum_add_distrib, ih, List.map_cons, List.sum_cons]
    congr 1
    simp only [mul_sum]
    apply sum_congr rfl
    intros; ring

theorem gram_form (ss : List (List K × List K × K)) (L : Nat) (b : Nat → K) :
    ∑ i ∈ range L, b i * ∑ k ∈ range L, gram ss i k * b k
      = (ss.map fun s => s.2.2 * (∑ k ∈ range L, s.1.getD k 0 * b k) ^ 2).sum := by
  simp only [gram_mul]
  induction ss with
  | nil => simp
  | cons s ss ih =>
    simp only [List.map_cons, List.sum_cons, mul_add, sum_add_distrib, ih]
    congr 1
    rw [pow_two, ← mul_assoc, mul_sum]
    apply sum_congr rfl
    intros; ring

/-- The normal equations bound the length of a vector by its image. -/
theorem lhs_coercive (ss : List (List K × List K × K)) (hw : ∀ s ∈ ss, 0 ≤ s.2.2) (norm : K) (hn : 0 < norm) (L : Nat) (b : Nat → K) :
    norm ^ 2 * ∑ i ∈ range L, b i ^ 2 ≤ ∑ i ∈ range L, lhs ss norm L b i ^ 2 := by
  have h1 : norm * ∑ i ∈ range L, b i ^ 2 ≤ ∑ i ∈ range L, b i * lhs ss norm L b i := by
    have : ∑ i ∈ range L, b i * lhs ss norm L b i
        = norm * ∑ i ∈ range L, b i ^ 2 + ∑ i ∈ range L, b i * ∑ k ∈ range L, gram ss i k * b k := by
      rw [mul_sum, ← sum_add_distrib]
      apply sum_congr rfl
      intros; unfold lhs; ring
    rw [this, gram_form]
    have : 0 ≤ (ss.map fun s => s.2.2 * (∑ k ∈ range L, s.1.getD k 0 * b k) ^ 2).sum := by
      apply List.sum_nonneg
      intro v hv
      obtain ⟨s, hs, rfl⟩ := List.mem_map.1 hv
      exact mul_nonneg (hw s hs) (sq_nonneg _)
    linarith
  have h2 := sum_mul_sq_le_sq_mul_sq (range L) b (lhs ss norm L b)
  set P := ∑ i ∈ range L, b i ^ 2
  set Q := ∑ i ∈ range L, lhs ss norm L b i ^ 2
  set R := ∑ i ∈ range L, b i * lhs ss norm L b i
  have hP : 0 ≤ P := sum_nonneg fun i _ => sq_nonneg _
  have hQ : 0 ≤ Q := sum_nonneg fun i _ => sq_nonneg _
  rcases hP.eq_or_lt with h0 | h0
  · rw [← h0]; simpa using hQ
  · have h3 : (norm * P) ^ 2 ≤ R ^ 2 := pow_le_pow_left₀ (by positivity) h1 2
    have h4 : norm ^ 2 * P * P ≤ Q * P := by nlinarith
    exact le_of_mul_le_mul_right h4 h0

/-- Best weights solve the normal equations. -/
theorem best_normal {ss : List (List K × List K × K)} (hw : ∀ s ∈ ss, 0 ≤ s.2.2) {norm : K} (hn : 0 < norm) {L j : Nat} {b : Nat → K}
    (hb : ∀ b', objective ss norm L j b ≤ objective ss norm L j b') (i : Nat) (hi : i < L) :
    lhs ss norm L b i = cross ss i j := by
  set g := lhs ss norm L b i - cross ss i j with hg
  have key : ∀ t : K, objective ss norm L j (fun k => b k + if k = i then t else 0) - objective ss norm L j b
      = 2 * t * g + t ^ 2 * (norm + gram ss i i) := by
    intro t
    have hs : ∀ (f : Nat → K), ∑ k ∈ range L, f k * (b k + if k = i then t else 0) = ∑ k ∈ range L, f k * b k + t * f i := by
      intro f
      simp only [mul_add, sum_add_distrib, mul_ite, mul_zero]
      rw [sum_ite_eq' (range L) i (fun k => f k * t), if_pos (mem_range.2 hi)]
      ring
    have h2 : ∑ k ∈ range L, (b k + if k = i then t else 0) ^ 2 = ∑ k ∈ range L, b k ^ 2 + 2 * t * b i + t ^ 2 := by
      have : ∀ k, (b k + if k = i then t else 0) ^ 2 = b k ^ 2 + if k = i then 2 * t * b k + t ^ 2 else 0 := by
        intro k; split <;> ring
      simp only [this, sum_add_distrib]
      rw [sum_ite_eq' (range L) i (fun k => 2 * t * b k + t ^ 2), if_pos (mem_range.2 hi)]
      ring
    have h3 : (ss.map fun s => s.2.2 * (s.2.1.getD j 0 - ∑ k ∈ range L, s.1.getD k 0 * (b k + if k = i then t else 0)) ^ 2).sum
        = (ss.map fun s => s.2.2 * (s.2.1.getD j 0 - ∑ k ∈ range L, s.1.getD k 0 * b k) ^ 2).sum
          + 2 * t * (∑ k ∈ range L, gram ss i k * b k - cross ss i j) + t ^ 2 * gram ss i i := by
      rw [gram_mul]
      simp only [hs fun k => _]
      clear hg g hb
      induction ss with
      | nil => simp [cross, gram]
      | cons s ss ih =>
        have ih := ih fun s hs => hw s (List.mem_cons_of_mem _ hs)
        have e1 : cross (s :: ss) i j = s.2.2 * (s.1.getD i 0 * s.2.1.getD j 0) + cross ss i j := by simp [cross]
        have e2 : gram (s :: ss) i i = s.2.2 * (s.1.getD i 0 * s.1.getD i 0) + gram ss i i := by simp [gram]
        simp only [List.map_cons, List.sum_cons, e1, e2] at ih ⊢
        rw [ih]
        ring
    unfold objective
    rw [h3, h2, hg]
    unfold lhs
    ring
  have hG : 0 < norm + gram ss i i := by
    have : 0 ≤ gram ss i i := by
      apply List.sum_nonneg
      intro v hv
      obtain ⟨s, hs, rfl⟩ := List.mem_map.1 hv
      exact mul_nonneg (hw s hs) (mul_self_nonneg _)
    linarith
  have h0 := key (-g / (norm + gram ss i i))
  have h1 := hb (fun k => b k + if k = i then -g / (norm + gram ss i i) else 0)
  have h2 : 2 * (-g / (norm + gram ss i i)) * g + (-g / (norm + gram ss i i)) ^ 2 * (norm + gram ss i i)
      = -(g ^ 2 / (norm + gram ss i i)) := by field_simp; ring
  rw [h2] at h0
  have h3 : g ^ 2 / (norm + gram ss i i) ≤ 0 := by linarith
  have h4 : 0 ≤ g ^ 2 / (norm + gram ss i i) := div_nonneg (sq_nonneg _) hG.le
  have h5 : g ^ 2 / (norm + gram ss i i) = 0 := le_antisymm h3 h4
  have h6 : g ^ 2 = 0 := by
    rcases div_eq_zero_iff.1 h5 with h | h
    · exact h
    · exact absurd h hG.ne'
  have := pow_eq_zero_iff (two_ne_zero) |>.1 h6
  rw [hg] at this
  linarith

/-- Solutions of the normal equations are best. -/
theorem normal_best {ss : List (List K × List K × K)} (hw : ∀ s ∈ ss, 0 ≤ s.2.2) {norm : K} (hn : 0 ≤ norm) {L j : Nat} {b : Nat → K}
    (hb : ∀ i < L, lhs ss norm L b i = cross ss i j) (b' : Nat → K) : objective ss norm L j b ≤ objective ss norm L j b' := by
  set d : Nat → K := fun k => b' k - b k
  have e : objective ss norm L j b' - objective ss norm L j b
      = 2 * (∑ i ∈ range L, d i * (lhs ss norm L b i - cross ss i j))
        + ((ss.map fun s => s.2.2 * (∑ k ∈ range L, s.1.getD k 0 * d k) ^ 2).sum + norm * ∑ k ∈ range L, d k ^ 2) := by
    have h1 : ∑ i ∈ range L, d i * (lhs ss norm L b i - cross ss i j)
        = norm * ∑ i ∈ range L, d i * b i
          + (ss.map fun s => s.2.2 * ((∑ k ∈ range L, s.1.getD k 0 * d k) * (∑ k ∈ range L, s.1.getD k 0 * b k - s.2.1.getD j 0))).sum := by
      unfold lhs
      simp only [gram_mul]
      have : ∀ i, d i * (norm * b i + (ss.map fun s => s.2.2 * (s.1.getD i 0 * ∑ k ∈ range L, s.1.getD k 0 * b k)).sum - cross ss i j)
          = norm * (d i * b i) + d i * ((ss.map fun s => s.2.2 * (s.1.getD i 0 * ∑ k ∈ range L, s.1.getD k 0 * b k)).sum - cross ss i j) := by
        intro i; ring
      simp only [this, sum_add_distrib, ← mul_sum]
      congr 1
      clear this hb
      induction ss with
      | nil => simp [cross]
      | cons s ss ih =>
        have ih := ih fun s hs => hw s (List.mem_cons_of_mem _ hs)
        have e1 : ∀ i, cross (s :: ss) i j = s.2.2 * (s.1.getD i 0 * s.2.1.getD j 0) + cross ss i j := by simp [cross]
        simp only [List.map_cons, List.sum_cons, e1] at ih ⊢
        rw [← ih, sum_mul, mul_sum, ← sum_add_distrib]
        apply sum_congr rfl
        intros; ring
    rw [h1]
    have h2 : ∑ k ∈ range L, b' k ^ 2 = ∑ k ∈ range L, b k ^ 2 + 2 * ∑ k ∈ range L, d k * b k + ∑ k ∈ range L, d k ^ 2 := by
      rw [mul_sum, ← sum_add_distrib, ← sum_add_distrib]
      apply sum_congr rfl
      intros; simp only [d]; ring
    have h3 : ∀ s : List K × List K × K, ∑ k ∈ range L, s.1.getD k 0 * b' k
        = ∑ k ∈ range L, s.1.getD k 0 * b k + ∑ k ∈ range L, s.1.getD k 0 * d k := by
      intro s
      rw [← sum_add_distrib]
      apply sum_congr rfl
      intros; simp only [d]; ring
    unfold objective
    rw [h2]
    simp only [h3]
    clear h1 h2 hb
    have : (ss.map fun s => s.2.2 * (s.2.1.getD j 0 - (∑ k ∈ range L, s.1.getD k 0 * b k + ∑ k ∈ range L, s.1.getD k 0 * d k)) ^ 2).sum
        = (ss.map fun s => s.2.2 * (s.2.1.getD j 0 - ∑ k ∈ range L, s.1.getD k 0 * b k) ^ 2).sum
        + 2 * (ss.map fun s => s.2.2 * ((∑ k ∈ range L, s.1.getD k 0 * d k) * (∑ k ∈ range L, s.1.getD k 0 * b k - s.2.1.getD j 0))).sum
        + (ss.map fun s => s.2.2 * (∑ k ∈ range L, s.1.getD k 0 * d k) ^ 2).sum := by
      clear hw
      induction ss with
      | nil => simp
      | cons s ss ih =>
        simp only [List.map_cons, List.sum_cons] at ih ⊢
        rw [ih]; ring
    rw [this]
    ring
  have h0 : ∑ i ∈ range L, d i * (lhs ss norm L b i - cross ss i j) = 0 := by
    apply sum_eq_zero
    intro i hi
    rw [hb i (mem_range.1 hi), sub_self, mul_zero]
  rw [h0] at e
  have h1 : 0 ≤ (ss.map fun s => s.2.2 * (∑ k ∈ range L, s.1.getD k 0 * d k) ^ 2).sum := by
    apply List.sum_nonneg
    intro v hv
    obtain ⟨s, hs, rfl⟩ := List.mem_map.1 hv
    exact mul_nonneg (hw s hs) (sq_nonneg _)
  have h2 : 0 ≤ norm * ∑ k ∈ range L, d k ^ 2 := mul_nonneg hn (sum_nonneg fun k _ => sq_nonneg _)
  linarith

/-- With a positive norm best weights exist. -/
theorem exists_best (ss : List (List K × List K × K)) (hw : ∀ s ∈ ss, 0 ≤ s.2.2) {norm : K} (hn : 0 < norm) (L c : Nat) :
    ∃ B, Best ss norm L c B := by
  have hsolve : ∀ j, ∃ b : Nat → K, ∀ i < L, lhs ss norm L b i = cross ss i j := by
    intro j
    let ext : (Fin L → K) → Nat → K := fun v k => if h : k < L then v ⟨k, h⟩ else 0
    let M : Matrix (Fin L) (Fin L) K := Matrix.of fun i k => (if i = k then norm else 0) + gram ss i k
    have hM : ∀ (v : Fin L → K) (i : Fin L), M.mulVecLin v i = lhs ss norm L (ext v) i := by
      intro v i
      simp only [M, Matrix.mulVecLin_apply, Matrix.mulVec, dotProduct, Matrix.of_apply, lhs, add_mul, sum_add_distrib, ite_mul, zero_mul]
      rw [sum_ite_eq, if_pos (mem_univ i), Finset.sum_range]
      simp [ext]
    have hinj : Function.Injective M.mulVecLin := by
      rw [← LinearMap.ker_eq_bot, LinearMap.ker_eq_bot']
      intro v hv
      have h1 := lhs_coercive ss hw norm hn L (ext v)
      have h2 : ∑ i ∈ range L, lhs ss norm L (ext v) i ^ 2 = 0 := by
        apply sum_eq_zero
        intro i hi
        have := hM v ⟨i, mem_range.1 hi⟩
        rw [hv] at this
        simp only [Pi.zero_apply] at this
        rw [← this]; simp
      rw [h2] at h1
      have h3 : ∑ i ∈ range L, ext v i ^ 2 = 0 := by
        have p : 0 ≤ ∑ i ∈ range L, ext v i ^ 2 := sum_nonneg fun i _ => sq_nonneg _
        have : 0 < norm ^ 2 := by positivity
        nlinarith
      rw [sum_eq_zero_iff_of_nonneg (fun i _ => sq_nonneg _)] at h3
      funext i
      have := h3 i (mem_range.2 i.2)
      have := (pow_eq_zero_iff two_ne_zero).1 this
      simpa [ext] using this
    obtain ⟨v, hv⟩ := (LinearMap.injective_iff_surjective.1 hinj) (fun i => cross ss i j)
    refine ⟨ext v, fun i hi => ?_⟩
    rw [← hM v ⟨i, hi⟩, hv]
  choose b hb using hsolve
  exact ⟨fun k j => b j k, fun j _ b' => normal_best hw hn.le (hb j) b'⟩

end Hpelm
