import Verif.Model.RbfParam
import Verif.Spec.Rbf
import Verif.Props.C59_Neurons
import Verif.Lemmas.QEnv
import Verif.Lemmas.Mat
import Mathlib.Algebra.Order.BigOperators.Group.List

/-!
# C61 Parameters for radial basis function neurons
-/

namespace Hpelm.Props
open Hpelm Spec
variable {K : Type} [Field K] [LinearOrder K] [IsStrictOrderedRing K]

theorem rbfPairs_distinct {Nk : Nat} {ix : List Nat} {p : Nat × Nat} (h : p ∈ rbfPairs Nk ix) : p.1 ≠ p.2 ∧ p.1 < Nk := by
  simp only [rbfPairs, List.mem_map, List.mem_range] at h
  obtain ⟨i, hi, rfl⟩ := h
  refine ⟨?_, hi⟩
  simp only
  split <;> omega

theorem rbfPairs_lt {N Nk : Nat} {ix : List Nat} (hN : Nk < N) (hix : ∀ i ∈ ix, i < N) {p : Nat × Nat}
    (h : p ∈ rbfPairs Nk ix) : p.1 < N ∧ p.2 < N := by
  simp only [rbfPairs, List.mem_map, List.mem_range] at h
  obtain ⟨i, hi, rfl⟩ := h
  simp only
  have hj : ix.getD i 0 < N := by
    rw [List.getD_eq_getElem?_getD]
    cases hx : ix[i]? with
    | none => simp; omega
    | some j => exact hix j (List.mem_of_getElem? hx)
  split <;> omega

theorem mapM_ok_map {α β : Type} (f : α → Except PyErr β) (g : α → β) (l : List α) (h : ∀ a ∈ l, f a = .ok (g a)) :
    l.mapM f = .ok (l.map g) := by
  induction l with
  | nil => rfl
  | cons a l ih =>
    rw [List.mapM_cons, h a List.mem_cons_self, ih fun b hb => h b (List.mem_cons_of_mem _ hb)]
    rfl

/-- The distances taken. -/
def dists (X : Mat K) (k : Nat) (kind : String) (ix1 : List Nat) : List K :=
  (rbfPairs (min (10 * k) (X.nrows - 1)) ix1).map fun p => (distKind kind).eval (X.rows.getD p.1 []) (X.rows.getD p.2 [])

theorem rbfParam_eq (env : Env K) (X : Mat K) (k : Nat) (kind : String) (ix1 ix2 : List Nat) (us : List K)
    (hN : 2 ≤ X.nrows) (hk : 1 ≤ k) (h1 : ∀ i ∈ ix1, i < X.nrows) (h2 : ∀ i ∈ ix2, i < X.nrows) :
    ∃ s, rbfParam env X k kind ix1 ix2 us = .ok ((rbfLoop (meanOf (dists X k kind ix1)) s us k []).map fun B =>
      (⟨X.cols, ix2.map fun i => X.rows.getD i []⟩, B)) ∧
      s = env.sqrt (meanOf ((dists X k kind ix1).map fun v => (v - meanOf (dists X k kind ix1)) * (v - meanOf (dists X k kind ix1)))) := by
  have hNk : min (10 * k) (X.nrows - 1) < X.nrows := by omega
  have hd : (rbfPairs (min (10 * k) (X.nrows - 1)) ix1).mapM (rbfDist (distKind kind) X) = .ok (dists X k kind ix1) := by
    apply mapM_ok_map
    intro p hp
    obtain ⟨l1, l2⟩ := rbfPairs_lt hNk h1 hp
    have l1' : p.1 < X.rows.length := l1
    have l2' : p.2 < X.rows.length := l2
    simp [rbfDist, l1', l2', List.getD_eq_getElem?_getD]
  have hw : ix2.mapM (rbfCentroid X) = .ok (ix2.map fun i => X.rows.getD i []) := by
    apply mapM_ok_map
    intro i hi
    have : i < X.rows.length := h2 i hi
    simp [rbfCentroid, this, List.getD_eq_getElem?_getD]
  have hlen : (dists X k kind ix1).length = min (10 * k) (X.nrows - 1) := by simp [dists, rbfPairs]
  refine ⟨_, ?_, rfl⟩
  unfold rbfParam
  rw [if_neg (by omega)]
  simp only [hd, hw, bind, Except.bind, pure, Except.pure]
  rw [if_neg (by omega)]
  simp only [meanOf, List.length_map, hlen]

omit [IsStrictOrderedRing K] in
theorem rbfLoop_spec {m s : K} {us : List K} {k : Nat} (hk : 1 ≤ k) {acc B : List K} (h : rbfLoop m s us k acc = some B) :
    ∃ B', B = acc ++ B' ∧ B'.length = k ∧ ∀ b ∈ B', 0 < b ∧ ∃ u ∈ us, b = (u - 1 / 2) * 2 * s + m := by
  induction us generalizing k acc with
  | nil => cases h
  | cons u us ih =>
    unfold rbfLoop at h
    simp only at h
    split at h
    · rename_i hb
      split at h
      · rename_i hk1
        injection h with h
        exact ⟨_, h.symm, by simp [hk1], by intro b hb'; rw [List.mem_singleton] at hb'; subst hb'; exact ⟨hb, u, List.mem_cons_self, rfl⟩⟩
      · rename_i hk1
        obtain ⟨B', e1, e2, e3⟩ := ih (by omega) h
        refine ⟨((u - 1 / 2) * 2 * s + m) :: B', by rw [e1]; simp, by simp [e2]; omega, ?_⟩
        intro b hb'
        rcases List.mem_cons.1 hb' with rfl | hb'
        · exact ⟨hb, u, List.mem_cons_self, rfl⟩
        · obtain ⟨p1, v, hv, p2⟩ := e3 b hb'
          exact ⟨p1, v, List.mem_cons_of_mem _ hv, p2⟩
    · obtain ⟨B', e1, e2, e3⟩ := ih hk h
      refine ⟨B', e1, e2, fun b hb' => ?_⟩
      obtain ⟨p1, v, hv, p2⟩ := e3 b hb'
      exact ⟨p1, v, List.mem_cons_of_mem _ hv, p2⟩

theorem rbfLoop_total {m s : K} (hm : 0 < m) (hs : 0 ≤ s) {us : List K} {k : Nat} (hk : 1 ≤ k)
    (h : k ≤ us.countP (fun u => decide ((1 : K) / 2 ≤ u))) (acc : List K) : (rbfLoop m s us k acc).isSome := by
  induction us generalizing k acc with
  | nil => simp at h; omega
  | cons u us ih =>
    unfold rbfLoop
    simp only
    split
    · split
      · rfl
      · rename_i hk1
        refine ih (by omega) ?_ _
        rw [List.countP_cons] at h
        split at h <;> omega
    · rename_i hb
      have hu : ¬ (1 : K) / 2 ≤ u := by
        intro hu
        apply hb
        have : 0 ≤ (u - 1 / 2) * 2 * s := mul_nonneg (mul_nonneg (sub_nonneg.2 hu) (by norm_num)) hs
        linarith
      refine ih hk ?_ _
      rw [List.countP_cons, if_neg (by simpa using hu)] at h
      exact h

theorem rbfLoop_zero {us : List K} {k : Nat} {acc : List K} : rbfLoop (0 : K) 0 us k acc = none := by
  induction us generalizing k acc with
  | nil => rfl
  | cons u us ih => unfold rbfLoop; simp [ih]

theorem eval_nonneg (d : Dist) (x y : List K) : 0 ≤ d.eval x y := by
  cases d with
  | cityblock =>
    apply List.sum_nonneg
    intro v hv
    obtain ⟨i, hi, rfl⟩ := List.mem_iff_getElem.1 hv
    rw [List.getElem_zipWith]; exact abs_nonneg _
  | chebyshev =>
    simp only [Dist.eval, distLinf]
    generalize List.zipWith (fun a b => |a - b|) x y = l
    have : ∀ (l : List K) (a : K), a ≤ l.foldl max a := by
      intro l
      induction l with
      | nil => intro a; exact le_refl _
      | cons v l ih => intro a; exact le_trans (le_max_left _ _) (ih _)
    exact this l 0
  | sqeuclidean =>
    apply List.sum_nonneg
    intro v hv
    obtain ⟨i, hi, rfl⟩ := List.mem_iff_getElem.1 hv
    rw [List.getElem_zipWith]; exact mul_self_nonneg _

theorem containsStr_iff (sub s : List Char) : containsStr sub s = true ↔ sub <:+: s := by
  induction s with
  | nil => simp [containsStr]
  | cons c cs ih => simp [containsStr, ih, List.infix_cons_iff]

/-- The distance of the model is the specified one. -/
theorem eval_isDistance (kind : String) {d : Nat} {x y : List K} (hx : x.length = d) (hy : y.length = d) :
    IsDistance kind d x y ((distKind kind).eval x y) := by
  have h1 := containsStr_iff "l1".toList kind.toList
  have h2 := containsStr_iff "inf".toList kind.toList
  unfold distKind
  refine ⟨fun h => ?_, fun h h' => ?_, fun h h' => ?_⟩
  · rw [if_pos (h1.2 h)]
    exact zipWith_sum_range _ x y d hx hy
  · rw [if_neg (fun c => h (h1.1 c)), if_pos (h2.2 h')]
    exact distLinf_isChebyshev x y d hx hy
  · rw [if_neg (fun c => h (h1.1 c)), if_neg (fun c => h' (h2.1 c))]
    simp only [Dist.eval, sqEuclid, pow_two]
    exact zipWith_sum_range (fun a b => (a - b) * (a - b)) x y d hx hy

theorem rbfPairs_iff {N k : Nat} {ix : List Nat} (p : Nat × Nat) :
    p ∈ rbfPairs (min (10 * k) (N - 1)) ix ↔ Compared N k ix p.1 p.2 := by
  obtain ⟨a, b⟩ := p
  simp only [rbfPairs, List.mem_map, List.mem_range, Compared, Prod.mk.injEq]
  constructor
  · rintro ⟨i, hi, rfl, rfl⟩
    refine ⟨by omega, by omega, ?_⟩
    by_cases h : i = ix.getD i 0
    · rw [if_pos h, if_pos h.symm, ← h]
    · rw [if_neg h, if_neg (Ne.symm h)]
  · rintro ⟨h1, h2, rfl⟩
    refine ⟨a, by omega, rfl, ?_⟩
    by_cases h : a = ix.getD a 0
    · rw [if_pos h, if_pos h.symm, ← h]
    · rw [if_neg h, if_neg (Ne.symm h)]

/-- A distance is zero exactly between equal points. -/
theorem isDistance_zero {kind : String} {d : Nat} {x y : List K} (hx : x.length = d) (hy : y.length = d) {v : K}
    (h : IsDistance kind d x y v) : v = 0 ↔ x = y := by
  have hext : x = y ↔ ∀ k < d, x.getD k 0 = y.getD k 0 := by
    constructor
    · rintro rfl _ _; rfl
    · intro h
      apply List.ext_getElem (by omega)
      intro i h1 h2
      have := h i (by omega)
      simpa [List.getD_eq_getElem?_getD, h1, h2] using this
  rw [hext]
  by_cases h1 : "l1".toList <:+: kind.toList
  · rw [h.1 h1, cityblock, Finset.sum_eq_zero_iff_of_nonneg (fun _ _ => abs_nonneg _)]
    simp [sub_eq_zero]
  · by_cases h2 : "inf".toList <:+: kind.toList
    · have hc := h.2.1 h1 h2
      constructor
      · intro hv k hk
        have := hc.1.2 k hk
        rw [hv] at this
        exact sub_eq_zero.1 (abs_nonpos_iff.1 this)
      · intro hk
        exact le_antisymm (hc.2 ⟨le_refl _, fun k hk' => by rw [hk k hk']; simp⟩) hc.1.1
    · rw [h.2.2 h1 h2, sqEuclid, Finset.sum_eq_zero_iff_of_nonneg (fun _ _ => sq_nonneg _)]
      simp [sub_eq_zero]

theorem row_length {X : Mat K} (hX : X.WF) {i : Nat} (hi : i < X.nrows) : (X.rows.getD i []).length = X.cols := by
  have : i < X.rows.length := hi
  rw [List.getD_eq_getElem?_getD, List.getElem?_eq_getElem this]
  exact hX _ (List.getElem_mem this)

/-- C61.  For at least two data points and at least one neuron, whatever the random numbers are: no exception is raised (no
index leaves the data), and if the function returns, it returns `k` centroids that are
data points and `k` positive widths, each of them `m + (2u-1)s` for one of the uniform random numbers `u` drawn, with the mean
`m` and the standard deviation `s` of the distances (of the requested kind) between `min (10 k) (N-1)` points and points drawn
for them; no point is ever compared with itself. -/
theorem C61_rbf_param (env : Env K) (X : Mat K) (hX : X.WF) (k : Nat) (kind : String) (ix1 ix2 : List Nat) (us : List K)
    (hN : 2 ≤ X.nrows) (hk : 1 ≤ k) (h1 : ∀ i ∈ ix1, i < X.nrows) (h2 : ∀ i ∈ ix2, i < X.nrows) (h3 : ix2.length = k) :
    (∀ i j, Compared X.nrows k ix1 i j → i ≠ j ∧ i < X.nrows ∧ j < X.nrows) ∧
    ∃ r ds, rbfParam env X k kind ix1 ix2 us = .ok r ∧
      ds.length = min (10 * k) (X.nrows - 1) ∧
      (∀ i j, Compared X.nrows k ix1 i j →
        IsDistance kind X.cols (X.rows.getD i []) (X.rows.getD j []) (ds.getD i 0)) ∧
      ∀ W B, r = some (W, B) →
        W = ⟨X.cols, ix2.map fun i => X.rows.getD i []⟩ ∧ W.nrows = k ∧ (∀ w ∈ W.rows, w ∈ X.rows) ∧
        B.length = k ∧ ∀ b ∈ B, 0 < b ∧ ∃ u ∈ us,
          b = meanOf ds + (2 * u - 1) * env.sqrt (meanOf (ds.map fun v => (v - meanOf ds) ^ 2)) := by
  have hlt : ∀ i j, Compared X.nrows k ix1 i j → i ≠ j ∧ i < X.nrows ∧ j < X.nrows := by
    intro i j hp
    have hp := (rbfPairs_iff (i, j)).2 hp
    obtain ⟨a, b⟩ := rbfPairs_lt (by omega : min (10 * k) (X.nrows - 1) < X.nrows) h1 hp
    exact ⟨(rbfPairs_distinct hp).1, a, b⟩
  refine ⟨hlt, ?_⟩
  obtain ⟨s, hr, hs⟩ := rbfParam_eq env X k kind ix1 ix2 us hN hk h1 h2
  refine ⟨_, dists X k kind ix1, hr, by simp [dists, rbfPairs], ?_, ?_⟩
  · intro i j hc
    obtain ⟨_, l1, l2⟩ := hlt i j hc
    have : (dists X k kind ix1).getD i 0 = (distKind kind).eval (X.rows.getD i []) (X.rows.getD j []) := by
      have hi : i < min (10 * k) (X.nrows - 1) := by have := hc.1; have := hc.2.1; omega
      simp only [dists, rbfPairs, List.map_map, List.getD_eq_getElem?_getD, List.getElem?_map,
        List.getElem?_range hi, Option.map_some, Option.getD_some, Function.comp]
      have hj := hc.2.2
      rw [List.getD_eq_getElem?_getD] at hj
      by_cases h : i = ix1[i]?.getD 0
      · rw [if_pos h.symm] at hj
        rw [if_pos h, hj, ← h]
      · rw [if_neg (Ne.symm h)] at hj
        rw [if_neg h, hj]
    rw [this]
    exact eval_isDistance kind (row_length hX l1) (row_length hX l2)
  intro W B h
  obtain ⟨B', hB, heq⟩ := Option.map_eq_some_iff.1 h
  simp only [Prod.mk.injEq] at heq
  obtain ⟨rfl, rfl⟩ := heq
  obtain ⟨B2, e1, e2, e3⟩ := rbfLoop_spec hk hB
  rw [List.nil_append] at e1
  subst e1
  refine ⟨rfl, by simp [Mat.nrows, h3], ?_, e2, fun b hb => ?_⟩
  swap
  · obtain ⟨p1, u, hu, p2⟩ := e3 b hb
    refine ⟨p1, u, hu, ?_⟩
    simp only [pow_two]
    rw [← hs, p2]; ring
  intro w hw
  simp only [List.mem_map] at hw
  obtain ⟨i, hi, rfl⟩ := hw
  have : i < X.rows.length := h2 i hi
  simp [List.getD_eq_getElem?_getD, this]

theorem terminates_of_pairs (env : Env K) (hsq : ∀ v : K, 0 ≤ env.sqrt v) (X : Mat K) (k : Nat) (kind : String)
    (ix1 ix2 : List Nat) (us : List K) (hN : 2 ≤ X.nrows) (hk : 1 ≤ k) (h1 : ∀ i ∈ ix1, i < X.nrows)
    (h2 : ∀ i ∈ ix2, i < X.nrows)
    (hd : ∃ p ∈ rbfPairs (min (10 * k) (X.nrows - 1)) ix1,
      0 < (distKind kind).eval (X.rows.getD p.1 []) (X.rows.getD p.2 []))
    (hu : k ≤ us.countP (fun u => decide ((1 : K) / 2 ≤ u))) :
    ∃ W B, rbfParam env X k kind ix1 ix2 us = .ok (some (W, B)) := by
  obtain ⟨s, hr, hs⟩ := rbfParam_eq env X k kind ix1 ix2 us hN hk h1 h2
  have hm : 0 < meanOf (dists X k kind ix1) := by
    obtain ⟨p, hp, hpos⟩ := hd
    have hmem : (distKind kind).eval (X.rows.getD p.1 []) (X.rows.getD p.2 []) ∈ dists X k kind ix1 :=
      List.mem_map.2 ⟨p, hp, rfl⟩
    have hge : ∀ v ∈ dists X k kind ix1, 0 ≤ v := by
      intro v hv
      obtain ⟨q, _, rfl⟩ := List.mem_map.1 hv
      exact eval_nonneg _ _ _
    refine div_pos (lt_of_lt_of_le hpos (List.single_le_sum hge _ hmem)) ?_
    exact_mod_cast List.length_pos_of_mem hmem
  have := rbfLoop_total hm (s := s) (by rw [hs]; exact hsq _) hk hu []
  obtain ⟨B, hB⟩ := Option.isSome_iff_exists.1 this
  exact ⟨_, B, by rw [hr, hB]; rfl⟩

/-- C61, termination (partial: some two compared points must differ).  If two of the compared points differ, the function
returns as soon as `k` of the random numbers drawn for the widths are at least one half (half of them are, on average). -/
theorem C61_terminates_partial (env : Env K) (hsq : ∀ v : K, 0 ≤ env.sqrt v) (X : Mat K) (hX : X.WF) (k : Nat) (kind : String)
    (ix1 ix2 : List Nat) (us : List K) (hN : 2 ≤ X.nrows) (hk : 1 ≤ k) (h1 : ∀ i ∈ ix1, i < X.nrows)
    (h2 : ∀ i ∈ ix2, i < X.nrows)
    (hd : ∃ i j, Compared X.nrows k ix1 i j ∧ X.rows.getD i [] ≠ X.rows.getD j [])
    (hu : k ≤ us.countP (fun u => decide ((1 : K) / 2 ≤ u))) :
    ∃ W B, rbfParam env X k kind ix1 ix2 us = .ok (some (W, B)) := by
  obtain ⟨i, j, hc, hne⟩ := hd
  have hp := (rbfPairs_iff (i, j)).2 hc
  obtain ⟨l1, l2⟩ := rbfPairs_lt (by omega : min (10 * k) (X.nrows - 1) < X.nrows) h1 hp
  refine terminates_of_pairs env hsq X k kind ix1 ix2 us hN hk h1 h2 ⟨(i, j), hp, ?_⟩ hu
  refine lt_of_le_of_ne (eval_nonneg _ _ _) fun h0 => hne ?_
  exact (isDistance_zero (row_length hX l1) (row_length hX l2)
    (eval_isDistance kind (row_length hX l1) (row_length hX l2))).1 h0.symm

theorem hangs_of_pairs (env : Env K) (h0 : env.sqrt 0 = 0) (X : Mat K) (k : Nat) (kind : String) (ix1 ix2 : List Nat)
    (hN : 1 ≤ X.nrows) (hk : 1 ≤ k) (h1 : ∀ i ∈ ix1, i < X.nrows) (h2 : ∀ i ∈ ix2, i < X.nrows)
    (hd : ∀ p ∈ rbfPairs (min (10 * k) (X.nrows - 1)) ix1,
      (distKind kind).eval (X.rows.getD p.1 []) (X.rows.getD p.2 []) = 0) (us : List K) :
    rbfParam env X k kind ix1 ix2 us = .ok none := by
  by_cases hN2 : 2 ≤ X.nrows
  · obtain ⟨s, hr, hs⟩ := rbfParam_eq env X k kind ix1 ix2 us hN2 hk h1 h2
    have hz : ∀ v ∈ dists X k kind ix1, v = 0 := by
      intro v hv
      obtain ⟨q, hq, rfl⟩ := List.mem_map.1 hv
      exact hd q hq
    have hm : meanOf (dists X k kind ix1) = 0 := by
      unfold meanOf; rw [List.sum_eq_zero hz, zero_div]
    have hs0 : s = 0 := by
      rw [hs, hm]
      have : meanOf ((dists X k kind ix1).map fun v => (v - 0) * (v - 0)) = 0 := by
        unfold meanOf
        rw [List.sum_eq_zero, zero_div]
        intro v hv
        obtain ⟨u, hu, rfl⟩ := List.mem_map.1 hv
        simp [hz u hu]
      rw [this, h0]
    rw [hr, hm, hs0, rbfLoop_zero]
    rfl
  · have hN1 : X.nrows = 1 := by omega
    unfold rbfParam
    rw [if_neg (by omega)]
    have hw : ix2.mapM (rbfCentroid X) = .ok (ix2.map fun i => X.rows.getD i []) := by
      apply mapM_ok_map
      intro i hi
      have : i < X.rows.length := h2 i hi
      simp [rbfCentroid, this, List.getD_eq_getElem?_getD]
    have hz : min (10 * k) (1 - 1) = 0 := by omega
    simp only [hN1, hw, hz, rbfPairs, List.range_zero, List.map_nil, List.mapM_nil]
    rfl

/-- C61, termination fails when all compared points coincide (for example when all data points are equal), and for a single
data point: then the function never returns, whatever numbers are drawn. -/
theorem C61_hangs (env : Env K) (h0 : env.sqrt 0 = 0) (X : Mat K) (hX : X.WF) (k : Nat) (kind : String) (ix1 ix2 : List Nat)
    (hN : 1 ≤ X.nrows) (hk : 1 ≤ k) (h1 : ∀ i ∈ ix1, i < X.nrows) (h2 : ∀ i ∈ ix2, i < X.nrows)
    (hd : ∀ i j, Compared X.nrows k ix1 i j → X.rows.getD i [] = X.rows.getD j []) (us : List K) :
    rbfParam env X k kind ix1 ix2 us = .ok none := by
  refine hangs_of_pairs env h0 X k kind ix1 ix2 hN hk h1 h2 (fun p hp => ?_) us
  obtain ⟨l1, l2⟩ := rbfPairs_lt (by omega : min (10 * k) (X.nrows - 1) < X.nrows) h1 hp
  exact (isDistance_zero (row_length hX l1) (row_length hX l2)
    (eval_isDistance kind (row_length hX l1) (row_length hX l2))).2 (hd _ _ ((rbfPairs_iff p).1 hp))

/-- The claim "returns for every data set with probability one" is false: two equal points. -/
theorem C61_terminates_refuted : ¬ ∀ (X : Mat ℚ) (k : Nat) (ix1 ix2 : List Nat), 2 ≤ X.nrows → 1 ≤ k →
    (∀ i ∈ ix1, i < X.nrows) → (∀ i ∈ ix2, i < X.nrows) → ix2.length = k →
    ∃ us W B, rbfParam QEnv.env X k "rbf_l2" ix1 ix2 us = .ok (some (W, B)) := by
  intro h
  obtain ⟨us, W, B, hr⟩ := h ⟨1, [[5], [5]]⟩ 1 [1] [0] (by decide) (by decide) (by decide) (by decide) (by decide)
  rw [hangs_of_pairs QEnv.env (by decide +kernel) ⟨1, [[5], [5]]⟩ 1 "rbf_l2" [1] [0] (by decide) (by decide) (by decide)
    (by decide) (by decide +kernel) us] at hr
  cases hr

/-- A case that meets the hypotheses: three points, two neurons; the draw `1/10` gives a width, `0` would not. -/
example : rbfParam QEnv.env ⟨1, [[1], [3], [7]]⟩ 2 "rbf_l1" [0, 2] [2, 2] [1/2, 3/4]
    = .ok (some (⟨1, [[7], [7]]⟩, [3, 7/2])) ∧
    rbfParam QEnv.env ⟨1, [[1], [3], [7]]⟩ 2 "rbf_l1" [0, 2] [2, 2] [1/2] = .ok none := by decide +kernel

end Hpelm.Props
