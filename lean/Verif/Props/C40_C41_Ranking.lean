import Verif.Lemmas.Ranking
import Verif.Lemmas.QEnv
import Verif.Spec.Signs
import Verif.Model.Elm
import Mathlib.Logic.Function.Iterate
import Mathlib.Data.Nat.Bitwise
import Mathlib.Algebra.Order.Ring.Rat

/-!
# C40, C41 — neuron rankings
-/

namespace Hpelm.Props
open Hpelm Spec
variable {K : Type} [Field K] [LinearOrder K]
set_option linter.unusedSectionVars false

theorem nodup_valid {r rest : List Nat} {m : Nat} (h : (r ++ rest).Perm (List.range m)) : r.Nodup ∧ ∀ i ∈ r, i < m := by
  have hn : (r ++ rest).Nodup := h.nodup_iff.2 List.nodup_range
  exact ⟨(List.nodup_append.1 hn).1, fun i hi => List.mem_range.1 (h.mem_iff.1 (List.mem_append_left _ hi))⟩

/-- C40, partial: the ranking used by training.  *If* a ranking is produced, it consists of distinct existing neurons, and with the
`'OP'` method it has as many as requested (`kmax ≥ 1`, at most all), except that with ten or more outputs it has at most as many as
there are samples.  What is missing from C40: a ranking need not be produced (`C40_ranking_raises_refuted`), and can be too short
(`C40_too_short_refuted`). -/
theorem C40_ranking_partial (env : Env K) (sh : List Nat) (e : ELM K) (L : Nat) (H T : Mat K) (hsh : sh.Perm (List.range H.cols))
    (hL : L = H.cols) {r : List Nat} {k : Nat} (h : e.ranking env sh L H T = .ok (r, k)) :
    r.Nodup ∧ (∀ i ∈ r, i < H.cols) ∧
    k = (match e.rankingOP, e.kmaxOp with | true, some kmax => min kmax L | _, _ => L) ∧
    (e.rankingOP = false ∨ T.cols < 10 → 0 < k → r.length = k) ∧
    (e.rankingOP = true → 10 ≤ T.cols → r.length = min k H.nrows) := by
  have main : ∀ k', k' ≤ H.cols → (if T.cols < 10 then (do let r ← mrsr env H T k'; pure (r, k')) else
      (do let r ← mrsr2 env H T k'; pure (r, k')) : Except PyErr (List Nat × Nat)) = .ok (r, k) →
      r.Nodup ∧ (∀ i ∈ r, i < H.cols) ∧ k = k' ∧ (T.cols < 10 → 0 < k → r.length = k) ∧ (10 ≤ T.cols → r.length = min k H.nrows) := by
    intro k' hkL h
    split at h
    · rename_i hc
      obtain ⟨r', h1, h⟩ := bind_ok h
      injection h with h
      injection h with h h2
      subst h h2
      obtain ⟨⟨rest, p⟩, l, _⟩ := mrsr_ok h1
      obtain ⟨n1, n2⟩ := nodup_valid p
      refine ⟨n1, n2, rfl, ?_, ?_⟩
      · intro _ hk
        rw [l]
        omega
      · intro h10; omega
    · rename_i hc
      obtain ⟨r', h1, h⟩ := bind_ok h
      injection h with h
      injection h with h h2
      subst h h2
      obtain ⟨⟨rest, p⟩, l⟩ := mrsr2_ok h1
      obtain ⟨n1, n2⟩ := nodup_valid p
      refine ⟨n1, n2, rfl, fun h0 => absurd h0 hc, ?_⟩
      intro _
      rw [l]
      omega
  unfold ELM.ranking at h
  split at h
  · rename_i hop
    simp only [hop]
    cases hkm : e.kmaxOp with
    | none =>
      simp only [hkm] at h
      obtain ⟨a1, a2, a3, a4, a5⟩ := main L (by omega) h
      exact ⟨a1, a2, a3, fun h0 => by rcases h0 with h0 | h0; (· cases h0); exact a4 h0, fun _ => a5⟩
    | some km =>
      simp only [hkm] at h
      obtain ⟨a1, a2, a3, a4, a5⟩ := main (min km L) (by omega) h
      exact ⟨a1, a2, a3, fun h0 => by rcases h0 with h0 | h0; (· cases h0); exact a4 h0, fun _ => a5⟩
  · rename_i hop
    injection h with h
    injection h with h h2
    subst h h2
    have hop' : e.rankingOP = false := by simpa using hop
    simp only [hop']
    refine ⟨hsh.nodup_iff.2 List.nodup_range, fun i hi => List.mem_range.1 (hsh.mem_iff.1 hi), by simp, ?_, ?_⟩
    · intro _ _
      rw [hsh.length_eq, hL, List.length_range]
    · intro h0; simp at h0

/-- C40 on examples: both algorithms do rank all neurons of a small network. -/
example : mrsr QEnv.env ⟨3, [[1, 0, 2], [0, 1, 1], [1, 1, 0], [2, 0, 1]]⟩ ⟨1, [[1], [2], [0], [3]]⟩ 3 = .ok [0, 2, 1] := by decide +kernel

/-- C40 refuted, 1: with one neuron the ranking raises (`min()` of an empty array). -/
theorem C40_ranking_raises_refuted : mrsr QEnv.env ⟨1, [[1], [2]]⟩ ⟨1, [[1], [2]]⟩ 1 = .error .valueError := by decide +kernel

/-- One iteration of `mrsr2` with an environment whose `brentq` never finds a root. -/
def flatEnv : Env ℚ := { QEnv.env with sqrt := fun x => x, brentq := fun _ _ _ => none, luSolve := fun A b => Mat.zeros A.cols b.cols }

/-- C40 refuted, 2: with ten outputs and fewer samples than neurons the ranking is shorter than requested, whatever the data. -/
theorem C40_too_short_refuted (env : Env K) (H T : Mat K) (k : Nat) (hk : H.nrows < k) (hm : H.nrows < H.cols) {r : List Nat}
    (h : mrsr2 env H T k = .ok r) : r.length < min k H.cols := by
  obtain ⟨_, l⟩ := mrsr2_ok h
  omega

example : ∃ r, mrsr2 flatEnv ⟨3, [[1, 0, 2], [0, 1, 1]]⟩ ⟨2, [[1, 1], [2, 1]]⟩ 3 = .ok r ∧ r.length = 2 :=
  ⟨[2, 1], by decide +kernel, rfl⟩

/-! ### C41 -/

/-- Sign of a bit. -/
def sgn (b : Bool) : K := if b then 1 else -1

theorem signFold (h : Nat) (c0 : List K) (n : Nat) :
    (List.range n).foldl (fun cs _ => cs ++ [nextSignCol h (cs.getLastD c0)]) [c0] =
      (List.range (n + 1)).map fun j => (nextSignCol h)^[j] c0 := by
  induction n with
  | zero => rfl
  | succ n ih =>
    rw [List.range_succ, List.foldl_append, ih, List.range_succ (n := n + 1), List.map_append]
    simp only [List.foldl_cons, List.foldl_nil]
    congr 1
    rw [List.range_succ, List.map_append]
    simp only [List.map_cons, List.map_nil, List.getLastD_concat, Function.iterate_succ_apply']

theorem nextSign_getD (h : Nat) (c : List K) {i : Nat} (hi : i < 2 * h) : (nextSignCol h c).getD i 0 = c.getD (2 * (i % h) + 1) 0 := by
  unfold nextSignCol
  simp only
  by_cases h1 : i < h
  · rw [List.getD_append _ _ _ _ (by simpa using h1), List.getD_eq_getElem _ _ (by simpa using h1), Nat.mod_eq_of_lt h1]
    simp
  · have e : i % h = i - h := by
      rw [Nat.mod_eq_sub_mod (by omega), Nat.mod_eq_of_lt (by omega)]
    rw [List.getD_append_right _ _ _ _ (by simpa using h1), List.getD_eq_getElem _ _ (by simp; omega), e]
    simp

theorem signCol_getD (p j : Nat) (hj : j ≤ p) : ∀ i < 2 ^ (p + 1),
    ((nextSignCol (2 ^ p))^[j] (List.replicate (2 ^ p) (-1) ++ List.replicate (2 ^ p) 1 : List K)).getD i 0 = sgn (i.testBit (p - j)) := by
  induction j with
  | zero =>
    intro i hi
    rw [pow_succ] at hi
    simp only [Function.iterate_zero, id_eq, Nat.sub_zero, sgn]
    by_cases h1 : i < 2 ^ p
    · rw [List.getD_append _ _ _ _ (by simpa using h1), List.getD_eq_getElem _ _ (by simpa using h1), List.getElem_replicate]
      simp [Nat.testBit_eq_false_of_lt h1]
    · have hb : i.testBit p = true := by
        rw [Nat.testBit_eq_decide_div_mod_eq]
        have : i / 2 ^ p = 1 := Nat.div_eq_of_lt_le (by omega) (by omega)
        simp [this]
      rw [List.getD_append_right _ _ _ _ (by simpa using h1), List.getD_eq_getElem _ _ (by simp; omega), List.getElem_replicate]
      simp [hb]
  | succ j ih =>
    intro i hi
    have hi2 : i < 2 * 2 ^ p := by rw [pow_succ] at hi; omega
    rw [Function.iterate_succ_apply', nextSign_getD _ _ hi2, ih (by omega)]
    · congr 1
      have e : p - j = (p - (j + 1)) + 1 := by omega
      rw [e, Nat.testBit_succ]
      have e2 : (2 * (i % 2 ^ p) + 1) / 2 = i % 2 ^ p := by omega
      rw [e2, Nat.testBit_mod_two_pow]
      have : p - (j + 1) < p := by omega
      simp [this]
    · have := Nat.mod_lt i (show 0 < 2 ^ p by positivity)
      rw [pow_succ]; omega

/-- Row `i` of the sign table are the signs of the bits of `i`. -/
theorem signTable_rows (p : Nat) : (signTable p : List (List K)) =
    (List.range (2 ^ p)).map fun i => (List.range p).map fun j => sgn (i.testBit (p - 1 - j)) := by
  unfold signTable
  apply List.map_congr_left
  intro i hi
  cases p with
  | zero => rfl
  | succ p =>
    simp only [signCols]
    rw [signFold, List.map_map]
    apply List.map_congr_left
    intro j hj
    exact signCol_getD p j (by have := List.mem_range.1 hj; omega) i (List.mem_range.1 hi)

section
variable [IsStrictOrderedRing K]

theorem sgn_inj {a b : Bool} (h : (sgn a : K) = sgn b) : a = b := by
  have : (1 : K) ≠ -1 := by
    intro h
    have h2 : (0 : K) < 1 := one_pos
    linarith
  cases a <;> cases b <;> simp [sgn] at h ⊢
  · exact this h.symm
  · exact this h

/-- C41, sign table.  The table of `2^p` rows contains every sign vector for `p` outputs exactly once, and nothing else. -/
theorem C41_sign_table (p : Nat) (s : List K) : (IsSignVector p s → (signTable p : List (List K)).count s = 1) ∧
    (¬ IsSignVector p s → s ∉ (signTable p : List (List K))) := by
  rw [signTable_rows]
  constructor
  · rintro ⟨hl, hs⟩
    have hmem : s ∈ (List.range (2 ^ p)).map fun i => (List.range p).map fun j => (sgn (i.testBit (p - 1 - j)) : K) := by
      rw [List.mem_map]
      refine ⟨Nat.ofBits (n := p) fun b => decide (s.getD (p - 1 - b) 0 = 1), List.mem_range.2 (Nat.ofBits_lt_two_pow _), ?_⟩
      apply List.ext_getElem
      · simp [hl]
      · intro j h1 h2
        have hj : j < p := by simpa using h1
        simp only [List.getElem_map, List.getElem_range]
        rw [Nat.testBit_ofBits_lt _ _ (show p - 1 - j < p by omega)]
        have e : p - 1 - (p - 1 - j) = j := by omega
        simp only [e]
        rw [List.getD_eq_getElem _ _ h2]
        rcases hs _ (List.getElem_mem h2) with h | h <;> rw [h]
        · simp [sgn]
        · have : (-1 : K) ≠ 1 := by
            intro h
            have h2 : (0 : K) < 1 := one_pos
            linarith
          simp [sgn, this]
    apply List.count_eq_one_of_mem _ hmem
    apply List.Nodup.map_on _ List.nodup_range
    intro a ha b hb hab
    apply Nat.eq_of_testBit_eq
    intro i
    have ha := List.mem_range.1 ha
    have hb := List.mem_range.1 hb
    by_cases hi : i < p
    · have := congrArg (fun l : List K => l.getD (p - 1 - i) 0) hab
      beta_reduce at this
      rw [List.getD_eq_getElem _ _ (by simp; omega), List.getD_eq_getElem _ _ (by simp; omega)] at this
      simp only [List.getElem_map, List.getElem_range] at this
      have e : p - 1 - (p - 1 - i) = i := by omega
      rw [e] at this
      exact sgn_inj this
    · have hp : 2 ^ p ≤ 2 ^ i := Nat.pow_le_pow_right (by norm_num) (by omega)
      rw [Nat.testBit_eq_false_of_lt (by omega), Nat.testBit_eq_false_of_lt (by omega)]
  · intro hn hm
    rw [List.mem_map] at hm
    obtain ⟨i, _, rfl⟩ := hm
    apply hn
    refine ⟨by simp, ?_⟩
    intro x hx
    obtain ⟨j, _, rfl⟩ := List.mem_map.1 hx
    unfold sgn
    split
    · exact Or.inl rfl
    · exact Or.inr rfl

example : (signTable 2 : List (List ℚ)) = [[-1, -1], [-1, 1], [1, -1], [1, 1]] := by decide +kernel

theorem absCorr_spec {T X : Mat K} (hN : X.nrows = T.nrows) (j : Nat) :
    absCorr (T.sub (Mat.zeros T.nrows T.cols)) X j = sumAbsCorr T X j := by
  unfold absCorr sumAbsCorr
  have hc : (T.sub (Mat.zeros T.nrows T.cols)).cols = T.cols := by simp [Mat.sub]
  rw [hc, sum_range_list]
  apply Finset.sum_congr rfl
  intro t ht
  have ht := Finset.mem_range.1 ht
  congr 1
  unfold dot
  rw [← sum_range_list]
  congr 1
  have hr : (T.sub (Mat.zeros T.nrows T.cols)).rows.length = T.nrows := by simp [Mat.sub, Mat.ofFn]
  have hX : X.rows.length = T.nrows := hN
  apply List.ext_getElem
  · simp [Mat.col, hr, hX]
  · intro s h1 h2
    have hs : s < T.nrows := by simpa using h2
    simp only [Mat.col, List.getElem_zipWith, List.getElem_map, List.getElem_range]
    congr 1
    · have : ((T.sub (Mat.zeros T.nrows T.cols)).rows[s]'(by omega)).getD t 0 = (T.sub (Mat.zeros T.nrows T.cols)).get s t := by
        simp [Mat.get, List.getD_eq_getElem?_getD, hr, hs]
      rw [this]
      unfold Mat.sub
      rw [Mat.get_ofFn_lt hs ht]
      have : (Mat.zeros T.nrows T.cols : Mat K).get s t = 0 := by
        unfold Mat.zeros
        rw [Mat.get_ofFn_lt hs ht]
      rw [this, sub_zero]
    · simp [Mat.get, List.getD_eq_getElem?_getD, show s < X.rows.length by omega]

/-- C41, first pick.  The first neuron ranked by MRSR is an existing one whose hidden-layer outputs have the largest summed absolute
correlation with the targets. -/
theorem C41_first_pick (env : Env K) (X T : Mat K) (hN : X.nrows = T.nrows) (kmax : Nat) {r : List Nat} (h : mrsr env X T kmax = .ok r) :
    ∃ j l, r = j :: l ∧ j < X.cols ∧ ∀ j' < X.cols, sumAbsCorr T X j' ≤ sumAbsCorr T X j := by
  obtain ⟨⟨rest, p⟩, hl, l, hr⟩ := mrsr_ok h
  have hpos : 0 < X.cols := by
    have := p.length_eq
    simp only [List.length_append, List.length_range] at this
    omega
  have hne : (List.range X.cols).map (absCorr (T.sub (Mat.zeros T.nrows T.cols)) X) ≠ [] := by
    simp; omega
  obtain ⟨f1, f2, _⟩ := argmax_firstMax hne
  obtain ⟨c, hc⟩ : ∃ c, c = argmax ((List.range X.cols).map (absCorr (T.sub (Mat.zeros T.nrows T.cols)) X)) := ⟨_, rfl⟩
  rw [← hc] at f1 f2 hr
  have hcl : c < X.cols := by simpa using f1
  rw [List.getD_eq_getElem _ _ (by simpa using hcl), List.getElem_range] at hr
  refine ⟨c, l, hr, hcl, ?_⟩
  intro j' hj'
  have := f2 j' (by simpa using hj')
  rw [List.getD_eq_getElem _ _ (by simpa using hj'), List.getD_eq_getElem _ _ (by simpa using hcl)] at this
  simp only [List.getElem_map, List.getElem_range] at this
  rwa [absCorr_spec hN, absCorr_spec hN] at this

end

end Hpelm.Props
