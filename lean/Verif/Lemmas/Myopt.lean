import Verif.Model.Myopt
import Verif.Lemmas.Frame
import Mathlib.Data.List.GetD

/-!
# The neuron-count search terminates, stays in range, keeps the minimum
-/

namespace Hpelm
variable {K : Type} [Field K] [LinearOrder K]
set_option linter.unusedSectionVars false

/-- Entry of the error array at a (non-negative) point. -/
def at' (e : List K) (p : Int) : K := e.getD p.toNat 0

theorem errAt_ok {e : List K} {p : Int} (h0 : 0 ≤ p) (h1 : p < e.length) : errAt e p = .ok (at' e p) := by
  unfold errAt at'
  rw [if_neg (by omega)]
  have : p.toNat < e.length := by omega
  rw [List.getElem?_eq_getElem this]
  simp only
  rw [List.getD_eq_getElem _ _ this]

/-- `e'` is `e` with some sentinels at points of `[lo, hi]` replaced by scores. -/
structure Ev (score : Nat → Except PyErr K) (lo hi : Int) (e e' : List K) : Prop where
  len : e'.length = e.length
  val : ∀ n : Nat, e'.getD n 0 = e.getD n 0 ∨
    (e.getD n 0 = -1 ∧ lo ≤ n ∧ (n : Int) ≤ hi ∧ score n = .ok (e'.getD n 0))

theorem Ev.refl (score : Nat → Except PyErr K) (lo hi : Int) (e : List K) : Ev score lo hi e e := ⟨rfl, fun _ => Or.inl rfl⟩

theorem Ev.trans {score : Nat → Except PyErr K} {lo hi : Int} {e1 e2 e3 : List K} (h1 : Ev score lo hi e1 e2) (h2 : Ev score lo hi e2 e3) :
    Ev score lo hi e1 e3 := by
  refine ⟨h2.len.trans h1.len, fun n => ?_⟩
  rcases h2.val n with a | ⟨a, b, c, d⟩
  · rcases h1.val n with a' | ⟨a', b', c', d'⟩
    · exact Or.inl (a.trans a')
    · exact Or.inr ⟨a', b', c', by rw [a]; exact d'⟩
  · rcases h1.val n with a' | ⟨a', _, _, _⟩
    · exact Or.inr ⟨a' ▸ a, b, c, d⟩
    · exact Or.inr ⟨a', b, c, d⟩

/-- Values already known are kept. -/
theorem Ev.keep {score : Nat → Except PyErr K} {lo hi : Int} {e e' : List K} (h : Ev score lo hi e e') {n : Nat} (hn : e.getD n 0 ≠ -1) :
    e'.getD n 0 = e.getD n 0 := by
  rcases h.val n with a | ⟨a, _⟩
  · exact a
  · exact absurd a hn

theorem evalPoints_cases (score : Nat → Except PyErr K) (lo hi : Int) (hlo : 0 ≤ lo) (ps : List Int) (e : List K)
    (hps : ∀ p ∈ ps, lo ≤ p ∧ p ≤ hi) (hh : hi < e.length) :
    (∃ (n : Nat) (x : PyErr), lo ≤ n ∧ (n : Int) ≤ hi ∧ score n = .error x ∧ evalPoints score ps e = .error x) ∨
    (∃ e', evalPoints score ps e = .ok e' ∧ Ev score lo hi e e' ∧
      (∀ n : Nat, e'.getD n 0 ≠ -1 → e.getD n 0 ≠ -1 ∨ ∃ p ∈ ps, p.toNat = n) ∧
      ((∀ n s, score n = .ok s → s ≠ -1) → ∀ p ∈ ps, at' e' p ≠ -1)) := by
  induction ps generalizing e with
  | nil => exact Or.inr ⟨e, rfl, Ev.refl _ _ _ _, fun n hn => Or.inl hn, by simp⟩
  | cons p ps ih =>
    obtain ⟨p0, p1⟩ := hps p List.mem_cons_self
    unfold evalPoints
    rw [errAt_ok (by omega) (by omega)]
    simp only [bind, Except.bind]
    have hrec := fun q hq => hps q (List.mem_cons_of_mem p hq)
    by_cases hv : at' e p = -1
    · rw [if_pos hv]
      cases hs : score p.toNat with
      | error x => exact Or.inl ⟨p.toNat, x, by omega, by omega, hs, rfl⟩
      | ok s =>
        simp only
        have hlen : (e.set p.toNat s).length = e.length := by simp
        have hget : ∀ n : Nat, (e.set p.toNat s).getD n 0 = if n = p.toNat then s else e.getD n 0 := by
          intro n
          rw [List.getD_eq_getElem?_getD, List.getElem?_set, List.getD_eq_getElem?_getD]
          by_cases hn : n = p.toNat
          · subst hn
            have : p.toNat < e.length := by omega
            simp [this]
          · simp [hn, Ne.symm hn]
        have hstep : Ev score lo hi e (e.set p.toNat s) := by
          refine ⟨hlen, fun n => ?_⟩
          rw [hget]
          by_cases hn : n = p.toNat
          · rw [if_pos hn]
            subst hn
            exact Or.inr ⟨hv, by omega, by omega, hs⟩
          · rw [if_neg hn]; exact Or.inl rfl
        rcases ih (e.set p.toNat s) hrec (by omega) with ⟨n, x, a, b, c, d⟩ | ⟨e', a, b, c, d⟩
        · exact Or.inl ⟨n, x, a, b, c, d⟩
        · refine Or.inr ⟨e', a, hstep.trans b, ?_, ?_⟩
          · intro n hn
            rcases c n hn with h | ⟨q, hq, hqn⟩
            · rw [hget] at h
              by_cases hnp : n = p.toNat
              · exact Or.inr ⟨p, List.mem_cons_self, hnp.symm⟩
              · rw [if_neg hnp] at h; exact Or.inl h
            · exact Or.inr ⟨q, List.mem_cons_of_mem _ hq, hqn⟩
          · intro hNN q hq
            rcases List.mem_cons.1 hq with rfl | hq
            · have h1 : (e.set q.toNat s).getD q.toNat 0 = s := by rw [hget, if_pos rfl]
              have h2 := hNN _ _ hs
              have h3 := b.keep (n := q.toNat) (by rw [h1]; exact h2)
              unfold at'
              rw [h3, h1]
              exact h2
            · exact d hNN q hq
    · rw [if_neg hv]
      rcases ih e hrec hh with ⟨n, x, a, b, c, d⟩ | ⟨e', a, b, c, d⟩
      · exact Or.inl ⟨n, x, a, b, c, d⟩
      · refine Or.inr ⟨e', a, b, ?_, ?_⟩
        · intro n hn
          rcases c n hn with h | ⟨q, hq, hqn⟩
          · exact Or.inl h
          · exact Or.inr ⟨q, List.mem_cons_of_mem _ hq, hqn⟩
        · intro hNN q hq
          rcases List.mem_cons.1 hq with rfl | hq
          · unfold at'
            rw [b.keep hv]
            exact hv
          · exact d hNN q hq

/-- All points of the interval are in the range. -/
def Iv.In (v : Iv) (lo hi : Int) : Prop := ∀ p ∈ v.points, lo ≤ p ∧ p ≤ hi

theorem Iv.in_iff (v : Iv) (lo hi : Int) : v.In lo hi ↔
    (lo ≤ v.A ∧ v.A ≤ hi) ∧ (lo ≤ v.B ∧ v.B ≤ hi) ∧ (lo ≤ v.C ∧ v.C ≤ hi) ∧ (lo ≤ v.D ∧ v.D ≤ hi) ∧ (lo ≤ v.E ∧ v.E ≤ hi) := by
  unfold Iv.In Iv.points
  simp

/-- Outcome of one pass: either an error of a score in the range, or a new interval with the minimum kept. -/
theorem myoptStep_cases (score : Nat → Except PyErr K) (lo hi : Int) (hlo : 0 ≤ lo) (v : Iv) (e : List K) (hv : v.In lo hi) (hh : hi < e.length) :
    (∃ (n : Nat) (x : PyErr), lo ≤ n ∧ (n : Int) ≤ hi ∧ score n = .error x ∧ myoptStep score v e = .error x) ∨
    (∃ v' e' m, myoptStep score v e = .ok (v', e', m) ∧ Ev score lo hi e e' ∧
      (v' = Iv.redo v.A v.B v.C ∨ v' = Iv.redo v.C v.D v.E ∨ v' = Iv.redo v.B v.C v.D) ∧
      (∃ p ∈ [v'.A, v'.C, v'.E], at' e' p = m ∧ p ∈ v.points) ∧ (∀ p ∈ v.points, m ≤ at' e' p) ∧
      (∀ n : Nat, e'.getD n 0 ≠ -1 → e.getD n 0 ≠ -1 ∨ ∃ p ∈ v.points, p.toNat = n) ∧
      ((∀ n s, score n = .ok s → s ≠ -1) → ∀ p ∈ v.points, at' e' p ≠ -1)) := by
  unfold myoptStep
  rcases evalPoints_cases score lo hi hlo v.points e hv hh with ⟨n, x, a, b, c, d⟩ | ⟨e', a, b, c, d⟩
  · exact Or.inl ⟨n, x, a, b, c, by rw [d]; rfl⟩
  · right
    have hin := (Iv.in_iff v lo hi).1 hv
    have hl := b.len
    rw [a]
    simp only [bind, Except.bind]
    rw [errAt_ok (p := v.A) (by omega) (by omega), errAt_ok (p := v.B) (by omega) (by omega), errAt_ok (p := v.C) (by omega) (by omega),
      errAt_ok (p := v.D) (by omega) (by omega), errAt_ok (p := v.E) (by omega) (by omega)]
    simp only
    generalize hm : min (min (min (min (at' e' v.A) (at' e' v.B)) (at' e' v.C)) (at' e' v.D)) (at' e' v.E) = m
    have hle : ∀ p ∈ v.points, m ≤ at' e' p := by
      intro p hp
      rw [← hm]
      unfold Iv.points at hp
      simp only [List.mem_cons, List.not_mem_nil, or_false] at hp
      rcases hp with rfl | rfl | rfl | rfl | rfl <;> simp
    have hmem : m = at' e' v.A ∨ m = at' e' v.B ∨ m = at' e' v.C ∨ m = at' e' v.D ∨ m = at' e' v.E := by
      rw [← hm]
      rcases min_choice (min (min (min (at' e' v.A) (at' e' v.B)) (at' e' v.C)) (at' e' v.D)) (at' e' v.E) with h | h <;> rw [h]
      · rcases min_choice (min (min (at' e' v.A) (at' e' v.B)) (at' e' v.C)) (at' e' v.D) with h | h <;> rw [h]
        · rcases min_choice (min (at' e' v.A) (at' e' v.B)) (at' e' v.C) with h | h <;> rw [h]
          · rcases min_choice (at' e' v.A) (at' e' v.B) with h | h <;> rw [h] <;> simp
          · simp
        · simp
      · simp
    by_cases h1 : m = at' e' v.A ∨ m = at' e' v.B
    · rw [if_pos h1]
      refine ⟨_, e', m, rfl, b, Or.inl rfl, ?_, hle, c, d⟩
      rcases h1 with h1 | h1
      · exact ⟨v.A, by simp [Iv.redo], h1.symm, by simp [Iv.points]⟩
      · exact ⟨v.B, by simp [Iv.redo], h1.symm, by simp [Iv.points]⟩
    · rw [if_neg h1]
      by_cases h2 : m = at' e' v.D ∨ m = at' e' v.E
      · rw [if_pos h2]
        refine ⟨_, e', m, rfl, b, Or.inr (Or.inl rfl), ?_, hle, c, d⟩
        rcases h2 with h2 | h2
        · exact ⟨v.D, by simp [Iv.redo], h2.symm, by simp [Iv.points]⟩
        · exact ⟨v.E, by simp [Iv.redo], h2.symm, by simp [Iv.points]⟩
      · rw [if_neg h2]
        refine ⟨_, e', m, rfl, b, Or.inr (Or.inr rfl), ?_, hle, c, d⟩
        have : m = at' e' v.C := by tauto
        exact ⟨v.C, by simp [Iv.redo], this.symm, by simp [Iv.points]⟩

/-- Shape of the interval: the inner points as computed by the code. -/
def Iv.Shape (v : Iv) : Prop := v.B = v.A + (v.E - v.A) / 4 ∧ v.D = v.A + 3 * (v.E - v.A) / 4

/-- Either the loop runs, or the points are in order (only before the first pass). -/
def Iv.Fine (v : Iv) : Prop := v.E - v.A > 2 ∨ (v.A ≤ v.B ∧ v.B ≤ v.C ∧ v.C ≤ v.D ∧ v.D ≤ v.E)

/-- Termination measure. -/
def Iv.meas (v : Iv) : Int :=
  3 * (max v.C v.E - min v.A v.C) + (if v.C ≥ v.E then 2 else if v.C ≤ v.A then 1 else 0)

theorem meas_nonneg (v : Iv) : 0 ≤ v.meas := by
  unfold Iv.meas
  split_ifs <;> omega

theorem redo_shape (A C E : Int) : (Iv.redo A C E).Shape := ⟨rfl, rfl⟩

theorem redo_in {A C E lo hi : Int} (h1 : lo ≤ A ∧ A ≤ hi) (h2 : lo ≤ C ∧ C ≤ hi) (h3 : lo ≤ E ∧ E ≤ hi) : (Iv.redo A C E).In lo hi := by
  rw [Iv.in_iff]
  simp only [Iv.redo]
  omega

theorem meas_dec {v v' : Iv} (hs : v.Shape) (hf : v.Fine) (hl : v'.E - v'.A > 2)
    (hv' : v' = Iv.redo v.A v.B v.C ∨ v' = Iv.redo v.C v.D v.E ∨ v' = Iv.redo v.B v.C v.D) : v'.meas < v.meas := by
  obtain ⟨A, B, C, D, E⟩ := v
  obtain ⟨hB, hD⟩ := hs
  unfold Iv.Fine at hf
  simp only at hB hD hf
  unfold Iv.meas
  rcases hv' with rfl | rfl | rfl <;> simp only [Iv.redo] at hl ⊢ <;> split_ifs <;> omega

theorem myoptLoop_cases (score : Nat → Except PyErr K) (lo hi : Int) (hlo : 0 ≤ lo) (fuel : Nat) (v : Iv) (e : List K) (hv : v.In lo hi)
    (hh : hi < e.length) (hs : v.Shape) (hf : v.Fine) (hm : v.meas < fuel) :
    (∃ (n : Nat) (x : PyErr), lo ≤ n ∧ (n : Int) ≤ hi ∧ score n = .error x ∧ myoptLoop score fuel v e = .error x) ∨
    (∃ v' e' m, myoptLoop score fuel v e = .ok (some (v', e', m)) ∧ v'.In lo hi ∧ Ev score lo hi e e' ∧
      (∃ p ∈ v'.points, at' e' p = m) ∧
      ((∀ n s, score n = .ok s → s ≠ -1) →
        (∃ q ∈ [v.A, v.C, v.E], at' e q ≠ -1 ∧ ∀ n < e.length, e.getD n 0 ≠ -1 → at' e q ≤ e.getD n 0) →
        m ≠ -1 ∧ ∀ n < e.length, e'.getD n 0 ≠ -1 → m ≤ e'.getD n 0)) := by
  induction fuel generalizing v e with
  | zero =>
    have := meas_nonneg v
    simp at hm
    omega
  | succ fuel ih =>
    unfold myoptLoop
    rcases myoptStep_cases score lo hi hlo v e hv hh with ⟨n, x, a, b, c, d⟩ | ⟨v', e', m, a, b, c, ⟨p, hp1, hp2, hp3⟩, hle, hnew, hNN⟩
    · exact Or.inl ⟨n, x, a, b, c, by rw [d]; rfl⟩
    · rw [a]
      simp only [bind, Except.bind]
      have hin := (Iv.in_iff v lo hi).1 hv
      have hin' : v'.In lo hi := by
        rcases c with rfl | rfl | rfl
        · exact redo_in hin.1 hin.2.1 hin.2.2.1
        · exact redo_in hin.2.2.1 hin.2.2.2.1 hin.2.2.2.2
        · exact redo_in hin.2.1 hin.2.2.1 hin.2.2.2.1
      have hs' : v'.Shape := by rcases c with rfl | rfl | rfl <;> exact redo_shape _ _ _
      have hp4 : p ∈ v'.points := by
        simp only [List.mem_cons, List.not_mem_nil, or_false] at hp1
        unfold Iv.points
        rcases hp1 with h | h | h <;> rw [h] <;> simp
      have hbest : (∀ n s, score n = .ok s → s ≠ -1) →
          (∃ q ∈ [v.A, v.C, v.E], at' e q ≠ -1 ∧ ∀ n < e.length, e.getD n 0 ≠ -1 → at' e q ≤ e.getD n 0) →
          m ≠ -1 ∧ ∀ n < e.length, e'.getD n 0 ≠ -1 → m ≤ e'.getD n 0 := by
        intro h1 ⟨q, hq, hq1, hq2⟩
        refine ⟨hp2 ▸ hNN h1 p hp3, fun n hnl hn => ?_⟩
        have hqv : q ∈ v.points := by
          simp only [List.mem_cons, List.not_mem_nil, or_false] at hq
          unfold Iv.points
          rcases hq with h | h | h <;> rw [h] <;> simp
        rcases hnew n hn with h | ⟨r, hr, hrn⟩
        · rw [b.keep h]
          refine le_trans (hle q hqv) ?_
          have : at' e' q = at' e q := b.keep hq1
          rw [this]
          exact hq2 n hnl h
        · rw [← hrn]
          exact hle r hr
      by_cases hl : v'.E - v'.A > 2
      · rw [if_pos hl]
        have hd := meas_dec hs hf hl c
        rcases ih v' e' hin' (by rw [b.len]; exact hh) hs' (Or.inl hl) (by push_cast at hm; omega) with ⟨n, x, a1, a2, a3, a4⟩ |
          ⟨v2, e2, m2, a1, a2, a3, a4, a5⟩
        · exact Or.inl ⟨n, x, a1, a2, a3, a4⟩
        · refine Or.inr ⟨v2, e2, m2, a1, a2, b.trans a3, a4, ?_⟩
          intro h1 h2
          obtain ⟨hm1, hmb⟩ := hbest h1 h2
          rw [← b.len]
          exact a5 h1 ⟨p, hp1, by rw [hp2]; exact hm1, fun n hnl hn => by rw [hp2]; exact hmb n (by rw [← b.len]; exact hnl) hn⟩
      · rw [if_neg hl]
        exact Or.inr ⟨v', e', m, rfl, hin', b, ⟨p, hp4, hp2⟩, hbest⟩

theorem init_in {lo hi : Int} (h : lo ≤ hi) : (Iv.init lo hi).In lo hi := by
  rw [Iv.in_iff]
  simp only [Iv.init]
  omega

theorem init_shape (lo hi : Int) : (Iv.init lo hi).Shape := ⟨rfl, rfl⟩

theorem init_fine {lo hi : Int} (h : lo ≤ hi) : (Iv.init lo hi).Fine := by
  right
  simp only [Iv.init]
  omega

theorem init_meas {lo hi : Int} (h : lo ≤ hi) : (Iv.init lo hi).meas < (3 * (hi - lo).toNat + 4 : Nat) := by
  unfold Iv.meas
  simp only [Iv.init]
  split_ifs <;> omega

theorem pickOpt_ok (e : List K) (m : K) (ps : List Int) (hps : ∀ p ∈ ps, 0 ≤ p ∧ p < e.length) (h : ∃ p ∈ ps, at' e p = m) :
    ∃ p ∈ ps, pickOpt e m ps = .ok p.toNat ∧ at' e p = m := by
  induction ps with
  | nil => obtain ⟨p, hp, _⟩ := h; cases hp
  | cons q ps ih =>
    unfold pickOpt
    obtain ⟨q0, q1⟩ := hps q List.mem_cons_self
    rw [errAt_ok q0 q1]
    simp only [bind, Except.bind]
    by_cases hq : at' e q = m
    · rw [if_pos hq]
      exact ⟨q, List.mem_cons_self, rfl, hq⟩
    · rw [if_neg hq]
      obtain ⟨p, hp, hpm⟩ := h
      rcases List.mem_cons.1 hp with rfl | hp
      · exact absurd hpm hq
      · obtain ⟨r, hr, h1, h2⟩ := ih (fun p hp => hps p (List.mem_cons_of_mem _ hp)) ⟨p, hp, hpm⟩
        exact ⟨r, List.mem_cons_of_mem _ hr, h1, h2⟩

/-- The search: it fails only with an error of a score in the range, otherwise it returns a size in the range. -/
theorem myopt_cases (score : Nat → Except PyErr K) (lo hi : Int) (hlo : 0 ≤ lo) (hle : lo ≤ hi) (e : List K) (hh : hi < e.length) :
    (∃ (n : Nat) (x : PyErr), lo ≤ n ∧ (n : Int) ≤ hi ∧ score n = .error x ∧ myopt lo hi e score = .error x) ∨
    (∃ k e', myopt lo hi e score = .ok (k, e') ∧ lo ≤ (k : Int) ∧ (k : Int) ≤ hi ∧ Ev score lo hi e e' ∧
      ((∀ n s, score n = .ok s → s ≠ -1) → e.getD hi.toNat 0 ≠ -1 → (∀ n : Nat, n ≠ hi.toNat → n < e.length → e.getD n 0 = -1) →
        e'.getD k 0 ≠ -1 ∧ ∀ n < e.length, e'.getD n 0 ≠ -1 → e'.getD k 0 ≤ e'.getD n 0)) := by
  unfold myopt
  rcases myoptLoop_cases score lo hi hlo _ (Iv.init lo hi) e (init_in hle) hh (init_shape lo hi) (init_fine hle) (init_meas hle) with
    ⟨n, x, a, b, c, d⟩ | ⟨v', e', m, a, b, c, d, f⟩
  · exact Or.inl ⟨n, x, a, b, c, by rw [d]; rfl⟩
  · right
    rw [a]
    simp only [bind, Except.bind]
    obtain ⟨p, hp, h1, h2⟩ := pickOpt_ok e' m v'.points (fun p hp => by
      have := b p hp
      rw [c.len]
      omega) d
    have hpin := b p hp
    rw [h1]
    refine ⟨p.toNat, e', rfl, by omega, by omega, c, ?_⟩
    intro hNN hE hrest
    have hkey := f hNN ⟨hi, by simp [Iv.init], hE, fun n hn hne => by
      by_cases hnh : n = hi.toNat
      · unfold at'; rw [hnh]
      · exact absurd (hrest n hnh hn) hne⟩
    exact ⟨by have := h2; unfold at' at this; rw [this]; exact hkey.1, fun n hn hne => by
      have := h2; unfold at' at this; rw [this]; exact hkey.2 n hn hne⟩

end Hpelm
