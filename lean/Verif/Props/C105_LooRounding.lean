import Verif.Model.RoundedLoo
import Verif.Props.C104_NormalizationRounding
import Verif.Lemmas.QEnv

/-!
# C105 — leave-one-out errors in rounded arithmetic
-/

set_option linter.unusedSectionVars false

namespace Hpelm.Props
open Hpelm Spec
variable {K : Type} [Field K] [LinearOrder K] [IsStrictOrderedRing K]

/-- Sums whose terms are approximations. -/
theorem sums_near_of {r : K → K} {u : K} (hr : Rounding r u) {k n : Nat} {t : Nat → Term K} {x G : Nat → K} {v : K}
    (h : Sums r ((List.range n).map t) v) (hn : ∀ i < n, Near u k (x i) (G i) (t i).value) :
    Near u (n + k) (∑ i ∈ Finset.range n, x i) (∑ i ∈ Finset.range n, G i) v := by
  have hu := hr.nonneg
  have hb := h.bound hr
  simp only [List.length_map, List.length_range, List.map_map] at hb
  have hsum : ∀ f : Nat → K, ((List.range n).map f).sum = ∑ i ∈ Finset.range n, f i := by
    intro f
    rw [Finset.sum_eq_multiset_sum]
    simp [Finset.range_val, Multiset.range]
  rw [hsum, hsum] at hb
  simp only [Function.comp_apply] at hb
  have h1 : |∑ i ∈ Finset.range n, (t i).value - ∑ i ∈ Finset.range n, x i| ≤ drift u k * ∑ i ∈ Finset.range n, G i := by
    rw [← Finset.sum_sub_distrib, Finset.mul_sum]
    exact le_trans (Finset.abs_sum_le_sum_abs _ _) (Finset.sum_le_sum fun i hi => (hn i (Finset.mem_range.1 hi)).2)
  have h2 : ∑ i ∈ Finset.range n, |(t i).value| ≤ (1 + drift u k) * ∑ i ∈ Finset.range n, G i := by
    rw [Finset.mul_sum]
    exact Finset.sum_le_sum fun i hi => (hn i (Finset.mem_range.1 hi)).size
  refine ⟨le_trans (Finset.abs_sum_le_sum_abs _ _) (Finset.sum_le_sum fun i hi => (hn i (Finset.mem_range.1 hi)).1), ?_⟩
  have e1 : v - ∑ i ∈ Finset.range n, x i = (v - ∑ i ∈ Finset.range n, (t i).value) + (∑ i ∈ Finset.range n, (t i).value - ∑ i ∈ Finset.range n, x i) := by ring
  rw [e1, drift_add]
  refine le_trans (abs_add_le _ _) ?_
  have := mul_le_mul_of_nonneg_left h2 (drift_nonneg hu n)
  linarith

/-- C105, divisors.  For a sample with hidden layer output `h`, the number `R` by which its error is divided, computed in any order with unit
roundoff `u`, differs from `1 - h P hᵀ` by at most `(1+u)^(2L+1) - 1` times `1 + |h| |P| |h|ᵀ`; `L` is the number of neurons. -/
theorem C105_divisor (r : K → K) (u : K) (hr : Rounding r u) (P : Mat K) (h : List K) (R : K) (hR : LeverageR r P h R) :
    |R - (1 - ∑ j ∈ Finset.range h.length, (∑ i ∈ Finset.range h.length, h.getD i 0 * P.get i j) * h.getD j 0)|
      ≤ drift u (2 * h.length + 1) *
        (1 + ∑ j ∈ Finset.range h.length, (∑ i ∈ Finset.range h.length, |h.getD i 0 * P.get i j|) * |h.getD j 0|) := by
  obtain ⟨g, d, hg, hd, rfl⟩ := hR
  have hu := hr.nonneg
  have a1 : ∀ j < h.length, Near u h.length (∑ i ∈ Finset.range h.length, h.getD i 0 * P.get i j)
      (∑ i ∈ Finset.range h.length, |h.getD i 0 * P.get i j|) (g j) := fun j hj =>
    sums_near_of hr (k := 0) (hg j hj) fun i _ => Near.exact _
  have a2 := sums_near_of hr (k := h.length) hd fun j hj => ((a1 j hj).mul hu (Near.exact (u := u) (h.getD j 0)))
  have a3 : Near u (h.length + h.length) (1 : K) 1 1 :=
    (by simpa using Near.exact (u := u) (1 : K) : Near u 0 (1 : K) 1 1).mono hu (by omega)
  have a4 := ((a3.add a2.neg).round hr).2
  rw [← sub_eq_add_neg, ← sub_eq_add_neg] at a4
  rw [show 2 * h.length + 1 = h.length + h.length + 1 by omega]
  exact a4

/-- C105, the part that holds.  If the exact divisor `1 - h P hᵀ` is above the bound of `C105_divisor`, the computed one is positive and the
leave-one-out error of the sample is a number.

Missing for the full property: samples that alone determine a neuron's weight (`C105_number_refuted`). -/
theorem C105_number_partial (r : K → K) (u : K) (hr : Rounding r u) (P HT : Mat K) (h : List K) (t : K) (c : Nat) (e : NpQuotient K)
    (hv : drift u (2 * h.length + 1) *
        (1 + ∑ j ∈ Finset.range h.length, (∑ i ∈ Finset.range h.length, |h.getD i 0 * P.get i j|) * |h.getD j 0|)
      < 1 - ∑ j ∈ Finset.range h.length, (∑ i ∈ Finset.range h.length, h.getD i 0 * P.get i j) * h.getD j 0)
    (he : LooErrorR r P HT h t c e) : ∃ x, e = .num x := by
  obtain ⟨B, y, R, _, _, hR, rfl⟩ := he
  have := (abs_le.1 (C105_divisor r u hr P h R hR)).1
  have hpos : 0 < R := by linarith
  exact ⟨_, if_neg hpos.ne'⟩

/-- Double precision over the rationals. -/
def doubleEnv : Env ℚ := { QEnv.env with cast := fun _ => floatRound 52 }

/-- One linear neuron, one output, the default norm of double precision. -/
def doubleNet : NNet ℚ :=
  { solver := .basic, prec := .double, inputs := 1, outputs := 1, norm := 50 / 2 ^ 52,
    neurons := [⟨1, .name "lin", [[1]], [0]⟩], L := some 1, B := none, corr := none }

/-- C105 is false.  Two samples, inputs 100 and 0, targets 1 and 2, one linear neuron, default norm, double precision, the inverse of the
one-by-one matrix `HH` rounded correctly: the leave-one-out error of the first sample is not a number, so that `train` with `LOO` stops
with the assertion `Error is NaN`.  In exact arithmetic the divisor is `norm / (norm + 10000)`, not zero. -/
theorem C105_number_refuted : Rounding (floatRound 52 : ℚ → ℚ) (1 / 2 ^ 53) ∧ ∃ n' HH HT,
    doubleNet.FeedR doubleEnv [⟨⟨1, [[100], [0]]⟩, ⟨1, [[1], [2]]⟩, none⟩] n' ∧ n'.getCorrR doubleEnv = some (HH, HT) ∧
    LooErrorR (floatRound 52) ⟨1, [[floatRound 52 (1 / HH.get 0 0)]]⟩ HT [100] 1 0 .nan := by
  have sH : Sums (floatRound 52) [.val (50 / 2 ^ 52 : ℚ), .prod 100 100, .prod 0 0] 10000 := by
    have a := Sums.fma (r := floatRound 52) (l := [.val (50 / 2 ^ 52 : ℚ), .prod 100 100]) (100 : ℚ) 100 (.val (50 / 2 ^ 52)) (List.Perm.swap _ _ _)
    rw [show floatRound 52 ((50 / 2 ^ 52 : ℚ) + 100 * 100) = 10000 by decide +kernel] at a
    have b := Sums.fma (r := floatRound 52) (l := [.val (50 / 2 ^ 52 : ℚ), .prod 100 100, .prod 0 0]) (0 : ℚ) 0 a
      (List.perm_append_comm (l₁ := [Term.val (50 / 2 ^ 52 : ℚ), .prod 100 100]) (l₂ := [Term.prod (0 : ℚ) 0]))
    rwa [show floatRound 52 ((10000 : ℚ) + 0 * 0) = 10000 by decide +kernel] at b
  have sT : Sums (floatRound 52) [.val (0 : ℚ), .prod 100 1, .prod 0 2] 100 := by
    have a := Sums.fma (r := floatRound 52) (l := [.val (0 : ℚ), .prod 100 1]) (100 : ℚ) 1 (.val 0) (List.Perm.swap _ _ _)
    rw [show floatRound 52 ((0 : ℚ) + 100 * 1) = 100 by decide +kernel] at a
    have b := Sums.fma (r := floatRound 52) (l := [.val (0 : ℚ), .prod 100 1, .prod 0 2]) (0 : ℚ) 2 a
      (List.perm_append_comm (l₁ := [Term.val (0 : ℚ), .prod 100 1]) (l₂ := [Term.prod (0 : ℚ) 2]))
    rwa [show floatRound 52 ((100 : ℚ) + 0 * 2) = 100 by decide +kernel] at b
  refine ⟨floatRound_rounding 52, { doubleNet with corr := some (⟨1, [[10000]]⟩, ⟨1, [[100]]⟩) }, ⟨1, [[10000]]⟩, ⟨1, [[100]]⟩, .cons ?_ (.nil _), rfl, ?_⟩
  · refine ⟨⟨1, [[100], [0]]⟩, ⟨1, [[1], [2]]⟩, ⟨1, [[50 / 2 ^ 52]]⟩, ⟨1, [[0]]⟩, ⟨1, [[10000]]⟩, ⟨1, [[100]]⟩, ?_, rfl, rfl, ?_, rfl, rfl,
      ⟨by simp [Mat.WF], rfl, rfl⟩, ⟨by simp [Mat.WF], rfl, rfl⟩, ?_, ?_⟩
    · rw [show (Mat.mk 1 [[(1 : ℚ)], [2]]).map (doubleEnv.cast doubleNet.prec) = ⟨1, [[1], [2]]⟩ by decide +kernel]; rfl
    · decide +kernel
    · intro i hi j hj
      obtain rfl : i = 0 := Nat.lt_one_iff.1 hi
      obtain rfl : j = 0 := Nat.lt_one_iff.1 hj
      exact ⟨fun _ => sH, fun h => absurd trivial h⟩
    · intro i hi j hj
      obtain rfl : i = 0 := Nat.lt_one_iff.1 hi
      obtain rfl : j = 0 := Nat.lt_one_iff.1 hj
      exact sT
  · refine ⟨fun _ => floatRound 52 (floatRound 52 (1 / 10000) * 100), _, _, ?_, Sums.prod _ _,
      ⟨fun _ => floatRound 52 (100 * floatRound 52 (1 / 10000)), _, ?_, Sums.prod _ _, rfl⟩, ?_⟩
    · intro i hi
      obtain rfl : i = 0 := Nat.lt_one_iff.1 hi
      exact Sums.prod _ _
    · intro i hi
      obtain rfl : i = 0 := Nat.lt_one_iff.1 hi
      exact Sums.prod _ _
    · decide +kernel

/-- In exact arithmetic the same divisor is positive, as for every sample and every network with a positive norm. -/
example : pressR (⟨1, [[100], [0]]⟩ : Mat ℚ) ⟨1, [[1 / (50 / 2 ^ 52 + 10000)]]⟩
    = [50 / 2 ^ 52 / (50 / 2 ^ 52 + 10000), 1] := by
  decide +kernel

/-- The hypothesis of `C105_number_partial` is met in double precision: two samples with hidden layer outputs 1 and 1 and norm 1. -/
example : drift (1 / 2 ^ 53 : ℚ) (2 * [(1 : ℚ)].length + 1) *
        (1 + ∑ j ∈ Finset.range [(1 : ℚ)].length, (∑ i ∈ Finset.range [(1 : ℚ)].length, |[(1 : ℚ)].getD i 0 * (Mat.mk 1 [[(1 / 3 : ℚ)]]).get i j|) * |[(1 : ℚ)].getD j 0|)
      < 1 - ∑ j ∈ Finset.range [(1 : ℚ)].length, (∑ i ∈ Finset.range [(1 : ℚ)].length, [(1 : ℚ)].getD i 0 * (Mat.mk 1 [[(1 / 3 : ℚ)]]).get i j) * [(1 : ℚ)].getD j 0 := by
  decide +kernel

end Hpelm.Props
