import Verif.Spec.Rounding
import Mathlib.Data.Int.Log
import Mathlib.Algebra.Order.Round
import Mathlib.Data.Rat.Floor
import Mathlib.Tactic.Linarith
import Mathlib.Tactic.FieldSimp
import Mathlib.Tactic.Ring

/-!
A rounding to floating-point numbers: `t` binary digits after the leading one, exponents of any size.
-/

namespace Hpelm
open Spec
variable {K : Type} [Field K] [LinearOrder K] [IsStrictOrderedRing K] [FloorRing K]

/-- Distance of neighbouring floating-point numbers at `x`. -/
def ulp (t : Nat) (x : K) : K := (2 : K) ^ (Int.log 2 |x| - (t : ℤ))

/-- Round to the nearest number with `t` binary digits after the leading one. -/
def floatRound (t : Nat) (x : K) : K := (round (x / ulp t x) : K) * ulp t x

theorem ulp_pos (t : Nat) (x : K) : 0 < ulp t x := zpow_pos (by norm_num) _

theorem floatRound_zero (t : Nat) : floatRound t (0 : K) = 0 := by simp [floatRound]

theorem ulp_le (t : Nat) {x : K} (hx : x ≠ 0) : (2 : K) ^ t * ulp t x ≤ |x| := by
  have h := Int.zpow_log_le_self (b := 2) (r := |x|) (by norm_num) (abs_pos.2 hx)
  unfold ulp
  rw [zpow_sub₀ (by norm_num), zpow_natCast]
  have h2 : (2 : K) ^ t ≠ 0 := by positivity
  rw [mul_div_cancel₀ _ h2]
  exact_mod_cast h

theorem lt_ulp (t : Nat) (x : K) : |x| < (2 : K) ^ (t + 1) * ulp t x := by
  have h := Int.lt_zpow_succ_log_self (b := 2) (by norm_num) |x|
  unfold ulp
  rw [zpow_sub₀ (by norm_num), zpow_natCast]
  have h2 : (2 : K) ^ t ≠ 0 := by positivity
  have : (2 : K) ^ (t + 1) * ((2 : K) ^ Int.log 2 |x| / 2 ^ t) = 2 ^ (Int.log 2 |x| + 1) := by
    rw [zpow_add₀ (by norm_num), pow_succ]; field_simp
  rw [this]
  exact_mod_cast h

/-- Rounding to `t` digits after the leading one has unit roundoff `2^(-t-1)`. -/
theorem floatRound_rounding (t : Nat) : Rounding (floatRound t : K → K) (1 / 2 ^ (t + 1)) where
  nonneg := by positivity
  error x := by
    by_cases hx : x = 0
    · simp [hx, floatRound_zero]
    have hu := ulp_pos t x
    have h1 : |x / ulp t x - (round (x / ulp t x) : K)| ≤ 1 / 2 := abs_sub_round _
    have h2 : floatRound t x - x = -(x / ulp t x - (round (x / ulp t x) : K)) * ulp t x := by
      unfold floatRound; field_simp; ring
    rw [h2, abs_mul, abs_neg, abs_of_pos hu]
    have h3 := ulp_le t hx
    calc _ ≤ 1 / 2 * ulp t x := mul_le_mul_of_nonneg_right h1 hu.le
      _ = 1 / 2 ^ (t + 1) * (2 ^ t * ulp t x) := by rw [pow_succ]; field_simp
      _ ≤ _ := mul_le_mul_of_nonneg_left h3 (by positivity)
  again x := by
    by_cases hx : x = 0
    · simp [hx, floatRound_zero]
    have hu := ulp_pos t x
    set s := ulp t x with hs
    set m := round (x / s) with hm
    have hy : floatRound t x = (m : K) * s := rfl
    have h1 : |x / s - (m : K)| ≤ 1 / 2 := abs_sub_round _
    have lo : (2 : K) ^ t ≤ |x / s| := by
      rw [abs_div, abs_of_pos hu, le_div_iff₀ hu]; exact ulp_le t hx
    have hi : |x / s| < (2 : K) ^ (t + 1) := by
      rw [abs_div, abs_of_pos hu, div_lt_iff₀ hu]; exact lt_ulp t x
    have a1 : |(m : K)| ≤ |x / s| + 1 / 2 := by
      have := abs_sub_abs_le_abs_sub (m : K) (x / s)
      rw [abs_sub_comm] at this; linarith
    have a2 : |x / s| ≤ |(m : K)| + 1 / 2 := by
      have := abs_sub_abs_le_abs_sub (x / s) (m : K)
      linarith
    have b1 : |m| ≤ 2 ^ (t + 1) := by
      have : ((|m| : ℤ) : K) < ((2 ^ (t + 1) + 1 : ℤ) : K) := by push_cast; linarith
      have := Int.cast_lt.1 this
      omega
    have b2 : 2 ^ t ≤ |m| := by
      have : ((2 ^ t - 1 : ℤ) : K) < ((|m| : ℤ) : K) := by push_cast; linarith
      have := Int.cast_lt.1 this
      omega
    have hm0 : m ≠ 0 := by
      rintro h0
      rw [h0] at b2; simp at b2
      have : (0:ℤ) < 2 ^ t := by positivity
      omega
    have hy0 : floatRound t x ≠ 0 := by
      rw [hy]; exact mul_ne_zero (by exact_mod_cast hm0) hu.ne'
    have hya : |floatRound t x| = ((|m| : ℤ) : K) * s := by rw [hy, abs_mul, abs_of_pos hu]; push_cast; rfl
    -- the grid at the rounded number
    have key : ∀ k : ℤ, floatRound t x / ulp t (floatRound t x) = k → floatRound t (floatRound t x) = floatRound t x := by
      intro k hk
      have hp := ulp_pos t (floatRound t x)
      have : floatRound t (floatRound t x) = (round (floatRound t x / ulp t (floatRound t x)) : K)
          * ulp t (floatRound t x) := rfl
      rw [this, hk, round_intCast, ← hk, div_mul_cancel₀ _ hp.ne']
    have hsz : s = (2 : K) ^ (Int.log 2 |x| - (t : ℤ)) := rfl
    by_cases hc : |m| = 2 ^ (t + 1)
    · have hl : Int.log 2 |floatRound t x| = Int.log 2 |x| + 1 := by
        have : |floatRound t x| = ((2 : ℕ) : K) ^ (Int.log 2 |x| + 1) := by
          rw [hya, hc, hsz]
          push_cast
          rw [← zpow_natCast, ← zpow_add₀ (by norm_num)]
          congr 1; push_cast; ring
        rw [this, Int.log_zpow (by norm_num)]
      have hul : ulp t (floatRound t x) = 2 * s := by
        unfold ulp; rw [hl, hsz, show Int.log 2 |x| + 1 - (t : ℤ) = 1 + (Int.log 2 |x| - (t : ℤ)) by ring,
          zpow_add₀ (by norm_num)]; simp
      obtain ⟨k, hk⟩ : (2 : ℤ) ∣ m := by
        rw [← dvd_abs, hc]; exact dvd_pow_self 2 (by omega)
      apply key k
      rw [hul, hy, hk]; push_cast; field_simp
    · have hlt : |m| < 2 ^ (t + 1) := lt_of_le_of_ne b1 hc
      have hl : Int.log 2 |floatRound t x| = Int.log 2 |x| := by
        apply le_antisymm
        · rw [← Int.lt_add_one_iff, ← Int.lt_zpow_iff_log_lt (by norm_num) (abs_pos.2 hy0), hya]
          have : ((|m| : ℤ) : K) < ((2 ^ (t + 1) : ℤ) : K) := Int.cast_lt.2 hlt
          calc ((|m| : ℤ) : K) * s < ((2 ^ (t + 1) : ℤ) : K) * s := mul_lt_mul_of_pos_right this hu
            _ = _ := by
              rw [hsz]; push_cast
              rw [← zpow_natCast, ← zpow_add₀ (by norm_num)]
              congr 1; push_cast; ring
        · rw [← Int.zpow_le_iff_le_log (by norm_num) (abs_pos.2 hy0), hya]
          have : ((2 ^ t : ℤ) : K) ≤ ((|m| : ℤ) : K) := Int.cast_le.2 b2
          calc _ = ((2 ^ t : ℤ) : K) * s := by
                rw [hsz]; push_cast
                rw [← zpow_natCast, ← zpow_add₀ (by norm_num)]
                congr 1; ring
            _ ≤ _ := mul_le_mul_of_nonneg_right this hu.le
      apply key m
      unfold ulp; rw [hl, ← hsz, hy]; field_simp

end Hpelm
