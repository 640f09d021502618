import Verif.Props.C31_C33_Search
import Mathlib.Data.Nat.Log

/-!
# C33, how far the search can be from the minimum

The search over network sizes misses the minimum of some unimodal curves (`C33_unimodal_refuted`).  It never misses it by much.
-/

namespace Hpelm.Props
open Hpelm Spec
variable {K : Type} [Field K] [LinearOrder K]

/-- The points of the search never leave an interval they are in. -/
theorem myoptLoop_in (f : Nat → K) {a b : Nat} (fuel : Nat) (v : Iv) (e : List K) (hv : v.In a b) (hb : b < e.length)
    {v' e' m} (h : myoptLoop (fun n => .ok (f n)) fuel v e = .ok (some (v', e', m))) : v'.In a b := by
  induction fuel generalizing v e with
  | zero => cases h
  | succ fuel ih =>
    unfold myoptLoop at h
    rcases myoptStep_cases (fun n => .ok (f n)) a b (by omega) v e hv (by omega) with ⟨_, _, _, _, c, _⟩ | ⟨v1, e1, m1, h1, h2, h3, _⟩
    · cases c
    rw [h1] at h
    simp only [bind, Except.bind] at h
    have hin := (Iv.in_iff v a b).1 hv
    have hv1 : v1.In a b := by
      rcases h3 with rfl | rfl | rfl
      · exact redo_in hin.1 hin.2.1 hin.2.2.1
      · exact redo_in hin.2.2.1 hin.2.2.2.1 hin.2.2.2.2
      · exact redo_in hin.2.1 hin.2.2.1 hin.2.2.2.1
    split at h
    · exact ih v1 e1 hv1 (by rw [h2.len]; exact hb) h
    · simp only [pure, Except.pure, Except.ok.injEq, Option.some.injEq, Prod.mk.injEq] at h
      rw [← h.1]; exact hv1

/-- The minimum of five numbers is one of them and at most each of them. -/
theorem min5 (a b c d e m : K) (h : m = min (min (min (min a b) c) d) e) :
    (m ≤ a ∧ m ≤ b ∧ m ≤ c ∧ m ≤ d ∧ m ≤ e) ∧ (m = a ∨ m = b ∨ m = c ∨ m = d ∨ m = e) := by
  subst h
  refine ⟨⟨?_, ?_, ?_, ?_, ?_⟩, ?_⟩
  · simp
  · simp
  · simp
  · simp
  · simp
  · rcases min_choice (min (min (min a b) c) d) e with h | h
    · rcases min_choice (min (min a b) c) d with h' | h'
      · rcases min_choice (min a b) c with h'' | h''
        · rcases min_choice a b with h3 | h3
          · left; rw [h, h', h'', h3]
          · right; left; rw [h, h', h'', h3]
        · right; right; left; rw [h, h', h'']
      · right; right; right; left; rw [h, h']
    · right; right; right; right; exact h

/-- The points are in order in a long interval. -/
theorem near_order {A B C D E j : Nat} (hB : B = A + (E - A) / 4) (hD : D = A + 3 * (E - A) / 4)
    (hw1 : 2 * C ≤ A + E + (j + 1)) (hw2 : A + E ≤ 2 * C + (j + 1)) (hlong : 2 * j + 5 < E - A) :
    A ≤ B ∧ B < C ∧ C < D ∧ D ≤ E := by omega

/-- The new middle point is again near the middle, and the interval is about half as long. -/
theorem near_left {A B C E j : Nat} (hB : B = A + (E - A) / 4)
    (hw1 : 2 * C ≤ A + E + (j + 1)) (hw2 : A + E ≤ 2 * C + (j + 1)) (hlong : 2 * j + 5 < E - A) :
    2 * B ≤ A + C + (j + 1 + 1) ∧ A + C ≤ 2 * B + (j + 1 + 1) ∧ 2 * (C - A) ≤ (E - A) + (j + 3) := by omega

theorem near_right {A C D E j : Nat} (hD : D = A + 3 * (E - A) / 4)
    (hw1 : 2 * C ≤ A + E + (j + 1)) (hw2 : A + E ≤ 2 * C + (j + 1)) (hlong : 2 * j + 5 < E - A) :
    2 * D ≤ C + E + (j + 1 + 1) ∧ C + E ≤ 2 * D + (j + 1 + 1) ∧ 2 * (E - C) ≤ (E - A) + (j + 3) := by omega

theorem near_middle {A B C D E j : Nat} (hB : B = A + (E - A) / 4) (hD : D = A + 3 * (E - A) / 4)
    (hw1 : 2 * C ≤ A + E + (j + 1)) (hw2 : A + E ≤ 2 * C + (j + 1)) (hlong : 2 * j + 5 < E - A) :
    2 * C ≤ B + D + (j + 1 + 1) ∧ B + D ≤ 2 * C + (j + 1 + 1) ∧ 2 * (D - B) ≤ (E - A) + (j + 3) := by omega

theorem near_half {l l' j : Nat} (h : 2 * l' ≤ l + (j + 3)) : (l' - (j + 1) - 1) * 2 ≤ l - j - 1 := by omega

/-- The interval of the search keeps the minimum as long as it is long compared with the number `j` of rounds made; `l0` is the
length at the beginning. -/
theorem myoptLoop_near (f : Nat → K) {lo hi p : Nat} (hf : ∀ n, f n ≠ -1) (hu : Unimodal f lo hi p) (l0 : Nat)
    (fuel : Nat) (A B C D E j : Nat) (e : List K) (he : Agrees f lo hi e)
    (hB : B = A + (E - A) / 4) (hD : D = A + 3 * (E - A) / 4) (hA : lo ≤ A) (hE : E ≤ hi) (hAC : A ≤ C) (hCE : C ≤ E)
    (hpA : A ≤ p) (hpE : p ≤ E) (hw1 : 2 * C ≤ A + E + (j + 1)) (hw2 : A + E ≤ 2 * C + (j + 1))
    (hl : (E - A - j - 1) * 2 ^ j ≤ l0) (hj : 2 ^ j ≤ l0)
    {v' e' m} (h : myoptLoop (fun n => .ok (f n)) fuel ⟨A, B, C, D, E⟩ e = .ok (some (v', e', m))) :
    ∃ a b : Nat, v'.In a b ∧ a ≤ p ∧ p ≤ b ∧ b ≤ a + (2 * Nat.log 2 l0 + 5) := by
  have hdec := hu.2.2.1
  have hinc := hu.2.2.2
  induction fuel generalizing A B C D E j e with
  | zero => cases h
  | succ fuel ih =>
    by_cases hshort : E - A ≤ 2 * j + 5
    · refine ⟨A, E, ?_, hpA, hpE, ?_⟩
      · refine myoptLoop_in f (fuel + 1) ⟨A, B, C, D, E⟩ e ?_ (by have := he.1; omega) h
        rw [Iv.in_iff]
        simp only
        omega
      · have : j ≤ Nat.log 2 l0 := (Nat.le_log_iff_pow_le (by omega) (by have := Nat.one_le_two_pow (n := j); omega)).2 hj
        omega
    · unfold myoptLoop at h
      obtain ⟨e1, m1, h1, hm, h2⟩ := myoptStep_val f hf ⟨A, B, C, D, E⟩ e ((Iv.in_iff _ lo hi).2 (by simp only; omega)) he
      rw [h2] at h
      simp only [bind, Except.bind, Int.toNat_natCast] at h hm
      obtain ⟨⟨g1, g2, g3, g4, g5⟩, hone⟩ := min5 _ _ _ _ _ _ hm
      -- the points are in order
      have hlong : 2 * j + 5 < E - A := not_le.1 hshort
      obtain ⟨o1, o2, o3, o4⟩ := near_order hB hD hw1 hw2 hlong
      obtain ⟨l1, l2, l3⟩ := near_left hB hw1 hw2 hlong
      obtain ⟨r1, r2, r3⟩ := near_right hD hw1 hw2 hlong
      obtain ⟨m1', m2, m3⟩ := near_middle hB hD hw1 hw2 hlong
      -- the new length is at most about half of the old one
      have hlen : ∀ l' : Nat, 2 * l' ≤ (E - A) + (j + 3) → (l' - (j + 1) - 1) * 2 ^ (j + 1) ≤ l0 := by
        intro l' hl'
        refine le_trans ?_ hl
        rw [pow_succ]
        have := near_half hl'
        calc (l' - (j + 1) - 1) * (2 ^ j * 2) = ((l' - (j + 1) - 1) * 2) * 2 ^ j := by ring
          _ ≤ (E - A - j - 1) * 2 ^ j := Nat.mul_le_mul_right _ this
      have hj' : 2 ^ (j + 1) ≤ l0 := by
        refine le_trans ?_ hl
        rw [pow_succ, Nat.mul_comm]
        have : 2 ≤ E - A - j - 1 := by clear * - hlong; omega
        exact Nat.mul_le_mul_right _ this
      clear hl hw1 hw2 hlong hshort hB hD
      have stop : ∀ (X Y Z : Nat), X ≤ p → p ≤ Z → Z ≤ X + 2 → (some ((Iv.redo X Y Z : Iv), e1, m1)) = some (v', e', m) → X ≤ Y → Y ≤ Z →
          ∃ a b : Nat, v'.In a b ∧ a ≤ p ∧ p ≤ b ∧ b ≤ a + (2 * Nat.log 2 l0 + 5) := by
        intro X Y Z q1 q2 q3 q4 q5 q6
        simp only [Option.some.injEq, Prod.mk.injEq] at q4
        refine ⟨X, Z, ?_, q1, q2, by omega⟩
        rw [← q4.1]
        exact redo_in (by omega) (by omega) (by omega)
      by_cases hc1 : m1 = f A ∨ m1 = f B
      · rw [if_pos hc1] at h
        have hpC : p ≤ C := by
          by_contra hlt
          have d1 := hdec B C (by omega) o2 (by omega)
          have d2 := hdec A C (by omega) (by omega) (by omega)
          rcases hc1 with q | q
          · rw [← q] at d2; exact absurd g3 (not_le.2 d2)
          · rw [← q] at d1; exact absurd g3 (not_le.2 d1)
        split at h
        · have hv : Iv.redo (A : Int) B C = ⟨A, (A + (C - A) / 4 : Nat), B, (A + 3 * (C - A) / 4 : Nat), C⟩ := by
            simp only [Iv.redo, Iv.mk.injEq, true_and]; refine ⟨?_, ?_, trivial⟩ <;> omega
          rw [hv] at h
          exact ih A _ B _ C (j + 1) e1 h1 rfl rfl hA (by omega) (by omega) (by omega) hpA hpC l1 l2
            (hlen _ l3) hj' h
        · rename_i hq
          simp only [Iv.redo] at hq
          injection h with h
          exact stop A B C hpA hpC (by omega) h (by omega) (by omega)
      · rw [if_neg hc1] at h
        by_cases hc2 : m1 = f D ∨ m1 = f E
        · rw [if_pos hc2] at h
          have hpC : C ≤ p := by
            by_contra hlt
            have d1 := hinc C D (by omega) o3 (by omega)
            have d2 := hinc C E (by omega) (by omega) (by omega)
            rcases hc2 with q | q
            · rw [← q] at d1; exact absurd g3 (not_le.2 d1)
            · rw [← q] at d2; exact absurd g3 (not_le.2 d2)
          split at h
          · have hv : Iv.redo (C : Int) D E = ⟨C, (C + (E - C) / 4 : Nat), D, (C + 3 * (E - C) / 4 : Nat), E⟩ := by
              simp only [Iv.redo, Iv.mk.injEq, true_and]; refine ⟨?_, ?_, trivial⟩ <;> omega
            rw [hv] at h
            exact ih C _ D _ E (j + 1) e1 h1 rfl rfl (by omega) hE (by omega) (by omega) hpC hpE r1 r2
              (hlen _ r3) hj' h
          · rename_i hq
            simp only [Iv.redo] at hq
            injection h with h
            exact stop C D E hpC hpE (by omega) h (by omega) (by omega)
        · rw [if_neg hc2] at h
          push Not at hc1 hc2
          have hmC : m1 = f C := by
            rcases hone with q | q | q | q | q
            · exact absurd q hc1.1
            · exact absurd q hc1.2
            · exact q
            · exact absurd q hc2.1
            · exact absurd q hc2.2
          have hpB : B ≤ p := by
            by_contra hlt
            have d := hinc B C (by omega) o2 (by omega)
            rw [← hmC] at d
            exact absurd g2 (not_le.2 d)
          have hpD : p ≤ D := by
            by_contra hlt
            have d := hdec C D (by omega) o3 (by omega)
            rw [← hmC] at d
            exact absurd g4 (not_le.2 d)
          split at h
          · have hv : Iv.redo (B : Int) C D = ⟨B, (B + (D - B) / 4 : Nat), C, (B + 3 * (D - B) / 4 : Nat), D⟩ := by
              simp only [Iv.redo, Iv.mk.injEq, true_and]; refine ⟨?_, ?_, trivial⟩ <;> omega
            rw [hv] at h
            exact ih B _ C _ D (j + 1) e1 h1 rfl rfl (by omega) (by omega) (by omega) (by omega) hpB hpD m1' m2
              (hlen _ m3) hj' h
          · rename_i hq
            simp only [Iv.redo] at hq
            injection h with h
            exact stop B C D hpB hpD (by omega) h (by omega) (by omega)

/-- C33 (every number of sizes).  On every strictly unimodal curve the search ends within `2 log₂ (number of sizes) + 5` of the
minimum.  (Missing from C33: that it is the minimum, which is false, `C33_unimodal_refuted`; see `C33_unimodal_partial` for the
numbers of sizes for which it is.) -/
theorem C33_near_partial [IsStrictOrderedRing K] (f : Nat → K) (hf : ∀ n, 0 ≤ f n) (lo hi p : Nat)
    (hu : Unimodal f lo hi p) (L0 : Nat) (hL0 : hi ≤ L0) :
    ∃ k e', myopt lo hi (errArray L0 hi (f hi)) (fun n => .ok (f n)) = .ok (k, e') ∧
      k ≤ p + (2 * Nat.log 2 (hi - lo) + 5) ∧ p ≤ k + (2 * Nat.log 2 (hi - lo) + 5) := by
  have hf' : ∀ n, f n ≠ -1 := fun n hn => by
    have := hf n
    rw [hn] at this
    exact absurd this (by norm_num)
  have hp1 := hu.1
  have hp2 := hu.2.1
  have hag : Agrees f lo hi (errArray L0 hi (f hi)) := by
    refine ⟨by rw [errArray_length]; omega, fun n h1 h2 => ?_⟩
    unfold errArray
    rw [List.getD_eq_getElem?_getD, List.getElem?_set]
    by_cases hn : hi = n
    · subst hn; right; simp [Nat.lt_succ_of_le hL0]
    · left; simp [hn, show n < L0 + 1 by omega]
  rcases myopt_cases (fun n => .ok (f n)) lo hi (by omega) (by omega) (errArray L0 hi (f hi)) (by rw [errArray_length]; omega) with
    ⟨n, x, _, _, c, _⟩ | ⟨k, e'', a, b1, b2, _⟩
  · cases c
  refine ⟨k, e'', a, ?_⟩
  by_cases h0 : hi = lo
  · omega
  unfold myopt at a
  obtain ⟨r, hr, a⟩ := bind_ok a
  cases r with
  | none => cases a
  | some r =>
    obtain ⟨v', e', m⟩ := r
    obtain ⟨k', hk', a⟩ := bind_ok a
    injection a with a
    injection a with a1 a2
    subst a1
    have hinit : Iv.init (lo : Int) (hi : Int) =
        ⟨lo, (lo + (hi - lo) / 4 : Nat), (lo + (hi - lo) / 2 : Nat), (lo + 3 * (hi - lo) / 4 : Nat), hi⟩ := by
      simp only [Iv.init, Iv.mk.injEq, true_and]
      refine ⟨?_, ?_, ?_, trivial⟩ <;> omega
    rw [hinit] at hr
    obtain ⟨x, y, q1, q2, q3, q4⟩ := myoptLoop_near f hf' hu (hi - lo) _ lo _ _ _ hi 0 _ hag rfl rfl (le_refl _) (le_refl _) (by omega) (by omega)
      hp1 hp2 (by omega) (by omega) (by simp) (by simp; omega) hr
    have hmem : ∀ ps : List Int, pickOpt e' m ps = .ok k' → ∃ q ∈ ps, q.toNat = k' := by
      intro ps
      induction ps with
      | nil => intro h; cases h
      | cons q ps ih =>
        intro h
        unfold pickOpt at h
        obtain ⟨w, _, h⟩ := bind_ok h
        split at h
        · injection h with h
          exact ⟨q, List.mem_cons_self, h⟩
        · obtain ⟨q', h1, h2⟩ := ih h
          exact ⟨q', List.mem_cons_of_mem _ h1, h2⟩
    obtain ⟨q, hq, hqk⟩ := hmem _ hk'
    have := q1 q hq
    omega

/-- The hypotheses are met (see `C33_unimodal_refuted` for the proof that the curve is unimodal): 23 sizes, minimum 11, kept 12. -/
example : (myopt 1 23 (errArray 23 23 |(23 : ℚ) - 11|) (fun n => .ok |(n : ℚ) - 11|)).map (·.1) = .ok 12 := by decide +kernel

end Hpelm.Props
