import Verif.Spec.DataArgs
import Verif.Lemmas.Frame
import Verif.Lemmas.Ranges

/-!
# Checked data arguments, ranges of samples
-/

namespace Hpelm
open Spec
variable {K : Type} [Field K] [LinearOrder K]
set_option linter.unusedSectionVars false

theorem checkOne_iff (fs : Files K) (cols : Nat) (a : DataArg K) (r : Option (Mat K)) :
    checkOne fs cols a = .ok r ↔ Reads fs a r ∧ ∀ M, r = some M → M.cols = cols := by
  constructor
  · intro h
    unfold checkOne at h
    cases a with
    | absent =>
      injection h with h
      subst h
      exact ⟨.absent, by simp⟩
    | nonNumeric => cases h
    | otherDim => cases h
    | vec v =>
      simp only [pure_bind] at h
      obtain ⟨_, h1, h⟩ := bind_ok h
      have h1 := pyAssert_ok h1
      injection h with h
      subst h
      refine ⟨.vec v, ?_⟩
      rintro M ⟨⟩
      simpa using h1
    | mat M =>
      simp only [pure_bind] at h
      obtain ⟨_, h1, h⟩ := bind_ok h
      have h1 := pyAssert_ok h1
      injection h with h
      subst h
      refine ⟨.mat M, ?_⟩
      rintro M' ⟨⟩
      simpa using h1
    | path f =>
      simp only at h
      cases hf : fs f with
      | none => rw [hf] at h; cases h
      | some x =>
        rw [hf] at h
        simp only at h
        split at h
        · cases h
        · rename_i hn
          simp only [pure_bind] at h
          obtain ⟨_, h1, h⟩ := bind_ok h
          have h1 := pyAssert_ok h1
          injection h with h
          subst h
          refine ⟨.file f x hf (Nat.pos_of_ne_zero hn), ?_⟩
          rintro M' ⟨⟩
          simpa using h1
  · rintro ⟨h, hc⟩
    unfold checkOne
    cases h with
    | absent => rfl
    | mat M => simp [pyAssert, hc M rfl, bind, Except.bind, pure, Except.pure]
    | vec v =>
      have h1 : 1 = cols := hc _ rfl
      simp [pyAssert, ← h1, bind, Except.bind, pure, Except.pure]
    | file f x hf hn =>
      have h1 := hc _ rfl
      have : x.data.nrows ≠ 0 := by omega
      simp [pyAssert, hf, h1, this, bind, Except.bind, pure, Except.pure]

/-- The samples `istart, …, istart + count - 1` of a data matrix. -/
def samplesOf (M : Mat K) (istart count : Nat) : Mat K := ⟨M.cols, (M.rows.drop istart).take count⟩

theorem samplesOf_nrows {M : Mat K} {s n : Nat} (h : s + n ≤ M.nrows) : (samplesOf M s n).nrows = n := by
  unfold samplesOf Mat.nrows at *
  simp
  omega

theorem samplesIn_eq (M : Mat K) (s : Nat) (ic : Option Nat) :
    samplesIn M s ic = samplesOf M s (rangeCount M.nrows s (ic.map Int.ofNat)).toNat := by
  unfold samplesIn samplesOf rangeCount Mat.nrows
  cases ic with
  | none =>
    simp only [Option.map_none]
    rw [List.take_of_length_le (by rw [List.length_drop]; omega)]
  | some c =>
    simp only [Option.map_some, Int.ofNat_eq_natCast]
    congr 1
    by_cases h : (c : Int) ≤ (M.rows.length : Int) - s
    · rw [min_eq_left h, Int.toNat_natCast]
    · rw [min_eq_right (by omega), List.take_of_length_le (by rw [List.length_drop]; omega),
        List.take_of_length_le (by rw [List.length_drop]; omega)]

theorem samplesIn_nrows (M : Mat K) (s : Nat) (ic : Option Nat) :
    (samplesIn M s ic).nrows = (rangeCount M.nrows s (ic.map Int.ofNat)).toNat := by
  rw [samplesIn_eq]
  have h := rangeCount_le M.nrows s (ic.map Int.ofNat)
  rcases Nat.lt_or_ge M.nrows s with hs | hs
  · have : (rangeCount M.nrows s (ic.map Int.ofNat)).toNat = 0 := by omega
    rw [this]
    simp [samplesOf, Mat.nrows]
  · exact samplesOf_nrows (by omega)

theorem samplesIn_cols (M : Mat K) (s : Nat) (ic : Option Nat) : (samplesIn M s ic).cols = M.cols := by
  unfold samplesIn
  cases ic <;> rfl

theorem samplesIn_WF {M : Mat K} (h : M.WF) (s : Nat) (ic : Option Nat) : (samplesIn M s ic).WF := by
  intro r hr
  rw [samplesIn_cols]
  apply h
  unfold samplesIn at hr
  cases ic with
  | none => exact List.mem_of_mem_drop hr
  | some c => exact List.mem_of_mem_drop (List.mem_of_mem_take hr)

end Hpelm
