import Verif.Model.LogSizes
import Verif.Props.C51_ValidationCorr

/-!
# C62 The numbers of neurons tried by `validation_corr`
-/

namespace Hpelm.Props
open Hpelm

theorem npUnique_sorted (l : List Nat) : (npUnique l).Pairwise (· < ·) := by
  have h1 : (l.mergeSort (fun a b => decide (a ≤ b))).Pairwise (· ≤ ·) := by
    have := List.pairwise_mergeSort (le := fun a b : Nat => decide (a ≤ b)) (by intro a b c; simp; omega) (by intro a b; simp; omega) l
    exact this.imp (by intro a b h; simpa using h)
  have h2 := h1.sublist (List.dedup_sublist (l.mergeSort (fun a b => decide (a ≤ b))))
  have h3 := List.nodup_dedup (l.mergeSort (fun a b => decide (a ≤ b)))
  unfold npUnique
  exact (h2.and h3).imp (by rintro a b ⟨x, y⟩; omega)

theorem mem_npUnique {l : List Nat} {a : Nat} : a ∈ npUnique l ↔ a ∈ l := by
  unfold npUnique
  rw [List.mem_dedup, List.mem_mergeSort]

theorem length_npUnique (l : List Nat) : (npUnique l).length ≤ l.length := by
  unfold npUnique
  calc _ ≤ (l.mergeSort (fun a b => decide (a ≤ b))).length := (List.dedup_sublist _).length_le
    _ = l.length := List.length_mergeSort _

theorem logPoint_bounds {L steps i : Nat} (hL : 3 ≤ L) (hs : 2 ≤ steps) (hi : i < steps) :
    3 ≤ logPoint L steps i ∧ logPoint L steps i ≤ L := by
  have h3 : (0 : ℝ) < 3 := by norm_num
  have hLr : (3 : ℝ) ≤ L := by exact_mod_cast hL
  have hlog : Real.log 3 ≤ Real.log L := Real.log_le_log h3 hLr
  have hs1 : (1 : ℝ) ≤ (steps : ℝ) - 1 := by
    have : (2 : ℝ) ≤ steps := by exact_mod_cast hs
    linarith
  have hi1 : (i : ℝ) ≤ (steps : ℝ) - 1 := by
    have : (i : ℝ) + 1 ≤ steps := by exact_mod_cast hi
    linarith
  have hq : 0 ≤ (Real.log L - Real.log 3) / ((steps : ℝ) - 1) := div_nonneg (by linarith) (by linarith)
  constructor
  · calc (3 : ℝ) = Real.exp (Real.log 3) := (Real.exp_log h3).symm
      _ ≤ _ := Real.exp_le_exp.2 (by have := mul_nonneg (Nat.cast_nonneg (α := ℝ) i) hq; linarith)
  · calc logPoint L steps i ≤ Real.exp (Real.log L) := by
          apply Real.exp_le_exp.2
          have : (i : ℝ) * ((Real.log L - Real.log 3) / ((steps : ℝ) - 1)) ≤ Real.log L - Real.log 3 := by
            calc _ ≤ ((steps : ℝ) - 1) * ((Real.log L - Real.log 3) / ((steps : ℝ) - 1)) := mul_le_mul_of_nonneg_right hi1 hq
              _ = _ := by field_simp
          linarith
      _ = L := Real.exp_log (by linarith)

/-- C62.  For a network of at least three neurons and at least two steps, the numbers of neurons that are tried are strictly
increasing, they start with 3 and end with the size of the network, and there are at most `steps` of them. -/
theorem C62_sizes (L steps : Nat) (hL : 3 ≤ L) (hs : 2 ≤ steps) :
    (corrSizes L steps).Pairwise (· < ·) ∧ (corrSizes L steps).length ≤ steps ∧ (∀ l ∈ corrSizes L steps, 3 ≤ l ∧ l ≤ L) ∧
      3 ∈ corrSizes L steps ∧ L ∈ corrSizes L steps := by
  refine ⟨npUnique_sorted _, ?_, ?_, ?_, ?_⟩
  · exact (length_npUnique _).trans (by simp)
  · intro l hl
    unfold corrSizes sizesOf at hl
    rw [mem_npUnique] at hl
    simp only [List.map_map, List.mem_map, List.mem_range, Function.comp] at hl
    obtain ⟨i, hi, rfl⟩ := hl
    obtain ⟨h1, h2⟩ := logPoint_bounds hL hs hi
    exact ⟨by
      have : (3 : ℝ) ≤ (⌈logPoint L steps i⌉₊ : ℝ) := h1.trans (Nat.le_ceil _)
      exact_mod_cast this, Nat.ceil_le.2 h2⟩
  · unfold corrSizes sizesOf
    rw [mem_npUnique]
    simp only [List.map_map, List.mem_map, List.mem_range, Function.comp]
    refine ⟨0, by omega, ?_⟩
    have : logPoint L steps 0 = ((3 : ℕ) : ℝ) := by
      unfold logPoint
      rw [Nat.cast_zero, zero_mul, add_zero, Real.exp_log (by norm_num)]
      norm_num
    rw [this, Nat.ceil_natCast]
  · unfold corrSizes sizesOf
    rw [mem_npUnique]
    simp only [List.map_map, List.mem_map, List.mem_range, Function.comp]
    refine ⟨steps - 1, by omega, ?_⟩
    have hs1 : ((steps : ℝ) - 1) ≠ 0 := by
      have : (2 : ℝ) ≤ steps := by exact_mod_cast hs
      linarith
    have : logPoint L steps (steps - 1) = L := by
      unfold logPoint
      rw [Nat.cast_sub (by omega), Nat.cast_one, mul_div_cancel₀ _ hs1]
      rw [add_sub_cancel, Real.exp_log]
      have : (3 : ℝ) ≤ L := by exact_mod_cast hL
      linarith
    rw [this, Nat.ceil_natCast]

/-- C62 with rounding: if each number computed by `logspace` is off by less than one from the exact one, the candidates still
lie between 3 and the number of neurons plus one (the last one can exceed the number of neurons by one; by
`C51_validation_corr_partial` the selected model is then still the one of the full network). -/
theorem C62_sizes_rounded (L steps : Nat) (hL : 3 ≤ L) (hs : 2 ≤ steps) (v : List ℝ)
    (hv : ∀ x ∈ v, ∃ i < steps, |x - logPoint L steps i| < 1) :
    (sizesOf v).Pairwise (· < ·) ∧ (sizesOf v).length ≤ v.length ∧ ∀ l ∈ sizesOf v, 3 ≤ l ∧ l ≤ L + 1 := by
  refine ⟨npUnique_sorted _, (length_npUnique _).trans (by simp), ?_⟩
  intro l hl
  unfold sizesOf at hl
  rw [mem_npUnique] at hl
  simp only [List.mem_map] at hl
  obtain ⟨x, hx, rfl⟩ := hl
  obtain ⟨i, hi, hd⟩ := hv x hx
  obtain ⟨h1, h2⟩ := logPoint_bounds hL hs hi
  rw [abs_lt] at hd
  constructor
  · have : ((2 : ℕ) : ℝ) < x := by push_cast; linarith
    exact Nat.lt_ceil.2 this
  · apply Nat.ceil_le.2
    push_cast
    linarith

/-- A network of 9 neurons and three steps: 3, 6 (= ceil of √27) and 9 are tried. -/
example : 6 ∈ corrSizes 9 3 := by
  unfold corrSizes sizesOf
  rw [mem_npUnique]
  simp only [List.map_map, List.mem_map, List.mem_range, Function.comp]
  refine ⟨1, by norm_num, ?_⟩
  have h9 : Real.log ((9 : ℕ) : ℝ) = 2 * Real.log 3 := by
    have : ((9 : ℕ) : ℝ) = 3 ^ 2 := by norm_num
    rw [this, Real.log_pow]; norm_num
  have hsq : logPoint 9 3 1 ^ 2 = 27 := by
    unfold logPoint
    rw [h9, ← Real.exp_nat_mul]
    have : ((2 : ℕ) : ℝ) * (Real.log 3 + ((1 : ℕ) : ℝ) * ((2 * Real.log 3 - Real.log 3) / (((3 : ℕ) : ℝ) - 1))) = ((3 : ℕ) : ℝ) * Real.log 3 := by
      push_cast; ring
    rw [this, Real.exp_nat_mul, Real.exp_log (by norm_num)]
    norm_num
  have hpos : 0 < logPoint 9 3 1 := Real.exp_pos _
  rw [Nat.ceil_eq_iff (by norm_num)]
  constructor
  · push_cast; nlinarith
  · push_cast; nlinarith

end Hpelm.Props
