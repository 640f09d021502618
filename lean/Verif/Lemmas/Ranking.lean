import Verif.Model.Mrsr
import Verif.Lemmas.Invariant
import Verif.Lemmas.Errors
import Verif.Lemmas.Bridge
import Mathlib.Data.List.Perm.Basic
import Mathlib.Data.List.GetD

/-!
# Neuron rankings: `mrsr` and `mrsr2`
-/

set_option linter.unusedSectionVars false

namespace Hpelm
open Spec
variable {K : Type} [Field K] [LinearOrder K]

theorem delAt_perm {α : Type} (l : List α) (i : Nat) (d : α) (hi : i < l.length) : (l.getD i d :: delAt l i).Perm l := by
  unfold delAt
  have h1 : l = l.take i ++ l.getD i d :: l.drop (i + 1) := by
    rw [List.getD_eq_getElem _ _ hi, ← List.drop_eq_getElem_cons hi, List.take_append_drop]
  conv_rhs => rw [h1]
  exact List.perm_middle.symm

theorem mrsrStep_ok {env : Env K} {X T : Mat K} {S : List (List K)} {first last : Bool} {st st' : MrsrSt K}
    (h : mrsrStep env X T S first last st = .ok st') :
    ∃ c, c = argmax (st.i2.map (absCorr (T.sub st.Y) X)) ∧ c < st.i2.length ∧ st'.i1 = st.i1 ++ [st.i2.getD c 0] ∧ st'.i2 = delAt st.i2 c := by
  unfold mrsrStep at h
  simp only at h
  split at h
  · cases h
  rename_i hne
  have hne : st.i2.map (absCorr (T.sub st.Y) X) ≠ [] := by simpa using hne
  have hlt := argmax_lt hne
  rw [List.length_map] at hlt
  refine ⟨_, rfl, hlt, ?_⟩
  split at h
  · split at h
    · cases h
    · simp only [bind, Except.bind] at h
      split at h
      · simp only [pure, Except.pure, Except.ok.injEq] at h
        subst h
        exact ⟨rfl, rfl⟩
      · split at h
        · cases h
        · simp only [pure, Except.pure, Except.ok.injEq] at h
          subst h
          exact ⟨rfl, rfl⟩
  · simp only [bind, Except.bind] at h
    split at h
    · simp only [pure, Except.pure, Except.ok.injEq] at h
      subst h
      exact ⟨rfl, rfl⟩
    · split at h
      · cases h
      · simp only [pure, Except.pure, Except.ok.injEq] at h
        subst h
        exact ⟨rfl, rfl⟩

theorem mrsrStep_perm {env : Env K} {X T : Mat K} {S : List (List K)} {first last : Bool} {st st' : MrsrSt K}
    (h : mrsrStep env X T S first last st = .ok st') :
    (st'.i1 ++ st'.i2).Perm (st.i1 ++ st.i2) ∧ ∃ x, st'.i1 = st.i1 ++ [x] := by
  obtain ⟨c, _, hc, h1, h2⟩ := mrsrStep_ok h
  refine ⟨?_, _, h1⟩
  rw [h1, h2, List.append_assoc]
  exact (delAt_perm st.i2 c 0 hc).append_left st.i1

theorem mrsrLoop_perm {env : Env K} {X T : Mat K} {S : List (List K)} {kmax : Nat} {ks : List Nat} {st st' : MrsrSt K}
    (h : mrsrLoop env X T S kmax ks st = .ok st') :
    (st'.i1 ++ st'.i2).Perm (st.i1 ++ st.i2) ∧ ∃ l, st'.i1 = st.i1 ++ l ∧ l.length = ks.length := by
  induction ks generalizing st with
  | nil =>
    injection h with h
    subst h
    exact ⟨List.Perm.refl _, [], by simp, rfl⟩
  | cons k ks ih =>
    unfold mrsrLoop at h
    obtain ⟨s1, h1, h⟩ := bind_ok h
    obtain ⟨p1, x, e1⟩ := mrsrStep_perm h1
    obtain ⟨p2, l, e2, hl⟩ := ih h
    exact ⟨p2.trans p1, x :: l, by rw [e2, e1]; simp, by simp [hl]⟩

/-- What `mrsr` returns. -/
theorem mrsr_ok {env : Env K} {X T : Mat K} {kmax : Nat} {r : List Nat} (h : mrsr env X T kmax = .ok r) :
    (∃ rest, (r ++ rest).Perm (List.range X.cols)) ∧ r.length = max 1 (min kmax X.cols) ∧
      ∃ l, r = (List.range X.cols).getD (argmax ((List.range X.cols).map (absCorr (T.sub (Mat.zeros T.nrows T.cols)) X))) 0 :: l := by
  unfold mrsr at h
  obtain ⟨s1, h1, h⟩ := bind_ok h
  obtain ⟨s2, h2, h⟩ := bind_ok h
  injection h with h
  subst h
  obtain ⟨c, c1, c2, c3, c4⟩ := mrsrStep_ok h1
  obtain ⟨p1, _⟩ := mrsrStep_perm h1
  obtain ⟨p2, l, e2, hl⟩ := mrsrLoop_perm h2
  refine ⟨⟨s2.i2, p2.trans (by simpa using p1)⟩, ?_, ?_⟩
  · rw [e2, c3]
    simp only [List.nil_append, List.length_append, List.length_cons, List.length_nil, hl, List.length_drop, List.length_range]
    omega
  · rw [e2, c3, c1]
    exact ⟨l, rfl⟩

theorem mrsr2First_mem {c : Nat → K} {js : List Nat} {m : K} {jm : Option Nat} {j : Nat} (h : mrsr2First c js m jm = some j) :
    j ∈ js ∨ jm = some j := by
  induction js generalizing m jm with
  | nil => exact Or.inr h
  | cons a js ih =>
    unfold mrsr2First at h
    split at h
    · rcases ih h with h | h
      · exact Or.inl (List.mem_cons_of_mem _ h)
      · injection h with h; subst h; exact Or.inl List.mem_cons_self
    · rcases ih h with h | h
      · exact Or.inl (List.mem_cons_of_mem _ h)
      · exact Or.inr h

/-- One iteration of `mrsr2` either moves one neuron to the ranking or finds nothing left to rank. -/
theorem mrsr2Step_perm {env : Env K} {X T : Mat K} {st st' : Mrsr2St K} (h : mrsr2Step env X T st = .ok st') :
    (∃ j, st'.rank = st.rank ++ [j] ∧ j ∈ st.nonrank ∧ st'.nonrank = st.nonrank.erase j) ∨
    (st'.rank = st.rank ∧ st.nonrank = [] ∧ st'.nonrank = []) := by
  unfold mrsr2Step at h
  simp only at h
  split at h
  · split at h
    · cases h
    · rename_i j hj
      injection h with h
      rcases mrsr2First_mem hj with hm | hm
      · left
        subst h
        refine ⟨j, ?_, hm, ?_⟩ <;> split <;> rfl
      · cases hm
  · split at h
    · rename_i hnil
      have hnil : st.nonrank = [] := by simpa using hnil
      injection h with h
      right
      subst h
      refine ⟨?_, hnil, ?_⟩ <;> split <;> first | rfl | exact hnil
    · split at h
      · cases h
      · rename_i j hj
        split at h
        · rename_i hm
          injection h with h
          left
          subst h
          refine ⟨j, ?_, hm, ?_⟩ <;> split <;> rfl
        · cases h

theorem mrsr2Loop_perm {env : Env K} {X T : Mat K} {k : Nat} {st st' : Mrsr2St K} (h : mrsr2Loop env X T k st = .ok st') :
    (st'.rank ++ st'.nonrank).Perm (st.rank ++ st.nonrank) ∧ st'.rank.length = st.rank.length + min k st.nonrank.length := by
  induction k generalizing st with
  | zero =>
    injection h with h
    subst h
    exact ⟨List.Perm.refl _, by simp⟩
  | succ k ih =>
    unfold mrsr2Loop at h
    obtain ⟨s1, h1, h⟩ := bind_ok h
    obtain ⟨p2, l2⟩ := ih h
    rcases mrsr2Step_perm h1 with ⟨j, e1, hm, e2⟩ | ⟨e1, e2, e3⟩
    · refine ⟨p2.trans ?_, ?_⟩
      · rw [e1, e2, List.append_assoc]
        exact ((List.perm_cons_erase hm).symm).append_left st.rank
      · have := List.length_pos_of_mem hm
        rw [l2, e1, e2, List.length_erase_of_mem hm]
        simp
        omega
    · refine ⟨p2.trans ?_, ?_⟩
      · rw [e1, e2, e3]
      · rw [l2, e1, e2, e3]; simp

/-- What `mrsr2` returns. -/
theorem mrsr2_ok {env : Env K} {X T : Mat K} {kmax : Nat} {r : List Nat} (h : mrsr2 env X T kmax = .ok r) :
    (∃ rest, (r ++ rest).Perm (List.range X.cols)) ∧ r.length = min (min kmax X.nrows) X.cols := by
  unfold mrsr2 at h
  obtain ⟨s1, h1, h⟩ := bind_ok h
  injection h with h
  subst h
  obtain ⟨p, l⟩ := mrsr2Loop_perm h1
  exact ⟨⟨_, by simpa using p⟩, by simpa using l⟩

end Hpelm
