import Verif.Model.RoundedNorm
import Verif.Props.C55_C58_Files
import Verif.Props.C97_RoundedErrors
import Mathlib.Algebra.Order.Chebyshev

/-!
# C104 — normalization parameters in rounded arithmetic
-/

set_option linter.unusedSectionVars false

namespace Hpelm.Props
open Hpelm Spec
variable {K : Type} [Field K] [LinearOrder K] [IsStrictOrderedRing K]

/-- `y` approximates `x` up to the error of `k` roundings of quantities of size `G`. -/
def Near (u : K) (k : Nat) (x G y : K) : Prop := |x| ≤ G ∧ |y - x| ≤ drift u k * G

theorem Near.mono {u : K} (hu : 0 ≤ u) {k m : Nat} (hk : k ≤ m) {x G y : K} (h : Near u k x G y) : Near u m x G y :=
  ⟨h.1, le_trans h.2 (mul_le_mul_of_nonneg_right (drift_mono hu hk) (le_trans (abs_nonneg _) h.1))⟩

theorem Near.size {u : K} {k : Nat} {x G y : K} (h : Near u k x G y) : |y| ≤ (1 + drift u k) * G := by
  have : |y| ≤ |y - x| + |x| := by simpa using abs_add_le (y - x) x
  have := h.1; have := h.2
  linarith

theorem Near.round {r : K → K} {u : K} (hr : Rounding r u) {k : Nat} {x G y : K} (h : Near u k x G y) : Near u (k + 1) x G (r y) := by
  refine ⟨h.1, ?_⟩
  have e := hr.error y
  have h1 := mul_le_mul_of_nonneg_left h.size hr.nonneg
  have : |r y - x| ≤ |r y - y| + |y - x| := by
    have : r y - x = (r y - y) + (y - x) := by ring
    rw [this]; exact abs_add_le _ _
  rw [drift_succ]
  have := h.2
  linarith

theorem Near.add {u : K} {k : Nat} {x G y x' G' y' : K} (h : Near u k x G y) (h' : Near u k x' G' y') :
    Near u k (x + x') (G + G') (y + y') := by
  refine ⟨le_trans (abs_add_le _ _) (add_le_add h.1 h'.1), ?_⟩
  have e : y + y' - (x + x') = (y - x) + (y' - x') := by ring
  rw [e]
  refine le_trans (abs_add_le _ _) ?_
  have := h.2; have := h'.2
  linarith

theorem Near.neg {u : K} {k : Nat} {x G y : K} (h : Near u k x G y) : Near u k (-x) G (-y) := by
  refine ⟨by rw [abs_neg]; exact h.1, ?_⟩
  have e : -y - -x = -(y - x) := by ring
  rw [e, abs_neg]; exact h.2

theorem Near.mul {u : K} (hu : 0 ≤ u) {k m : Nat} {x G y x' G' y' : K} (h : Near u k x G y) (h' : Near u m x' G' y') :
    Near u (k + m) (x * x') (G * G') (y * y') := by
  have g1 : 0 ≤ G := le_trans (abs_nonneg _) h.1
  have d1 := drift_nonneg hu k
  refine ⟨by rw [abs_mul]; exact mul_le_mul h.1 h'.1 (abs_nonneg _) g1, ?_⟩
  have e : y * y' - x * x' = (y - x) * y' + x * (y' - x') := by ring
  rw [e, drift_add]
  refine le_trans (abs_add_le _ _) ?_
  rw [abs_mul, abs_mul]
  have a1 : |y - x| * |y'| ≤ (drift u k * G) * ((1 + drift u m) * G') :=
    mul_le_mul h.2 h'.size (abs_nonneg _) (mul_nonneg d1 g1)
  have a2 : |x| * |y' - x'| ≤ G * (drift u m * G') := mul_le_mul h.1 h'.2 (abs_nonneg _) g1
  calc |y - x| * |y'| + |x| * |y' - x'| ≤ drift u k * G * ((1 + drift u m) * G') + G * (drift u m * G') := add_le_add a1 a2
    _ = _ := by ring

theorem Near.exact {u : K} (x : K) : Near u 0 x |x| x := ⟨le_refl _, by simp [drift]⟩

theorem Near.div {u : K} {k : Nat} {x G y : K} (h : Near u k x G y) {c : K} (hc : 0 < c) : Near u k (x / c) (G / c) (y / c) := by
  refine ⟨by rw [abs_div, abs_of_pos hc]; exact div_le_div_of_nonneg_right h.1 hc.le, ?_⟩
  have e : y / c - x / c = (y - x) / c := by ring
  rw [e, abs_div, abs_of_pos hc, ← mul_div_assoc]
  exact div_le_div_of_nonneg_right h.2 hc.le

/-- One batch: its share of the mean over all `N` rows. -/
theorem meanR_near {r : K → K} {u : K} (hr : Rounding r u) {N k : Nat} (hN : 0 < N) {f g : K → K} (hf : ∀ x, WithinDrift u k (g x) (f x))
    {part : List K} (hp : part ≠ []) {m : K} (h : MeanR r (part.map f) m) :
    Near u (part.length + k + 3) ((part.map g).sum / (N : K)) ((part.map fun x => |g x|).sum / (N : K))
      (r (m * r ((part.length : K) / (N : K)))) := by
  obtain ⟨s, hs, rfl⟩ := h
  have hu := hr.nonneg
  have hl : (0 : K) < (part.length : K) := by
    have : 0 < part.length := List.length_pos_iff.2 hp
    exact_mod_cast this
  have hNk : (0 : K) < (N : K) := by exact_mod_cast hN
  have h0 : |s - (part.map g).sum| ≤ drift u (part.length + k) * (part.map fun e => |g e|).sum := by
    refine sums_near hr hs ?_
    rw [List.map_map]
    exact List.forall₂_map_left_iff.2 (List.forall₂_same.2 fun x _ => hf x)
  have h1 : Near u (part.length + k) (part.map g).sum (part.map fun x => |g x|).sum s := ⟨abs_sum_le _ _, h0⟩
  have h2 := (h1.div hl).round hr
  have h3 : Near u 1 ((part.length : K) / (N : K)) ((part.length : K) / (N : K)) (r ((part.length : K) / (N : K))) := by
    have := (Near.exact (u := u) ((part.length : K) / (N : K))).round hr
    rwa [abs_of_pos (div_pos hl hNk)] at this
  have h4 := (h2.mul hu h3).round hr
  rw [div_mul_div_cancel₀ hl.ne', div_mul_div_cancel₀ hl.ne'] at h4
  rw [List.length_map]
  exact h4.mono hu (by omega)

/-- The loop over batches: `N + k + 4` roundings at most. -/
theorem meansR_near {r : K → K} {u : K} (hr : Rounding r u) {N k : Nat} (hN : 0 < N) {f g : K → K} (hf : ∀ x, WithinDrift u k (g x) (f x))
    (parts : List (List K)) : ∀ (p : Nat) (a v x G : K), 1 ≤ p → (∀ q ∈ parts, q ≠ []) → Near u (k + 3 + p) x G a → MeansR r N f parts a v →
    Near u (k + 3 + p + parts.flatten.length) (x + (parts.flatten.map g).sum / (N : K)) (G + (parts.flatten.map fun x => |g x|).sum / (N : K)) v := by
  induction parts with
  | nil =>
    intro p a v x G _ _ ha h
    cases h
    simpa using ha
  | cons q parts ih =>
    intro p a v x G hp hne ha h
    cases h with
    | cons hm h =>
      have hq := hne q List.mem_cons_self
      have hl : 0 < q.length := List.length_pos_iff.2 hq
      have hu := hr.nonneg
      have h1 := meanR_near hr hN hf hq hm
      have h2 := ((ha.mono hu (m := k + 3 + (p + q.length - 1)) (by omega)).add
        (h1.mono hu (m := k + 3 + (p + q.length - 1)) (by omega))).round hr
      have h3 := ih (p + q.length) _ v _ _ (by omega) (fun q hq => hne q (List.mem_cons_of_mem _ hq)) (h2.mono hu (by omega)) h
      simp only [List.flatten_cons, List.map_append, List.sum_append, List.length_append]
      rw [add_div, add_div, ← add_assoc x, ← add_assoc G,
        show k + 3 + p + (q.length + parts.flatten.length) = k + 3 + (p + q.length) + parts.flatten.length by omega]
      exact h3

theorem normParts_take (batch : Nat) (col : List K) (k : Nat) : ((List.range k).map fun b =>
    (col.take (b * batch + min batch (col.length - b * batch))).drop (b * batch)).flatten = col.take (k * batch) := by
  induction k with
  | zero => simp
  | succ k ih =>
    rw [List.range_succ, List.map_append, List.flatten_append, ih]
    simp only [List.map_cons, List.map_nil, List.flatten_cons, List.flatten_nil, List.append_nil]
    have e : col.take (k * batch + min batch (col.length - k * batch)) = col.take ((k + 1) * batch) := by
      rw [Nat.succ_mul]
      by_cases h : k * batch + batch ≤ col.length
      · rw [Nat.min_eq_left (by omega)]
      · rw [List.take_of_length_le (l := col) (i := k * batch + batch) (by omega)]
        exact List.take_of_length_le (by omega)
    rw [e, List.drop_take]
    have := List.take_add (l := col) (i := k * batch) (j := batch)
    rw [Nat.succ_mul, this, Nat.add_sub_cancel_left]

theorem normParts_flatten {batch : Nat} (hb : 0 < batch) (col : List K) : (normParts batch col).flatten = col := by
  unfold normParts
  rw [normParts_take]
  exact List.take_of_length_le (normBatches_cover col.length hb)

theorem normParts_ne {batch : Nat} (hb : 0 < batch) (col : List K) : ∀ q ∈ normParts batch col, q ≠ [] := by
  intro q hq
  simp only [normParts, List.mem_map, List.mem_range] at hq
  obtain ⟨b, hlt, rfl⟩ := hq
  have h1 : b * batch < col.length := by
    unfold normBatches at hlt
    split at hlt
    · rename_i h
      have : b * batch ≤ col.length / batch * batch := Nat.mul_le_mul_right _ (by omega)
      omega
    · have : (b + 1) * batch ≤ col.length / batch * batch := Nat.mul_le_mul_right _ (by omega)
      have := Nat.div_mul_le_self col.length batch
      rw [Nat.succ_mul] at *
      omega
  intro h
  have := congrArg List.length h
  simp only [List.length_drop, List.length_take, List.length_nil] at this
  omega

/-- Mean of the absolute values of column `j`. -/
def colAbs (M : Mat K) (j : Nat) : K := (∑ s ∈ Finset.range M.nrows, |M.get s j|) / (M.nrows : K)

/-- Mean of the squares of column `j`. -/
def colSquare (M : Mat K) (j : Nat) : K := (∑ s ∈ Finset.range M.nrows, M.get s j ^ 2) / (M.nrows : K)

/-- Column `j` as it is read from the file. -/
def column (M : Mat K) (j : Nat) : List K := M.rows.map fun r => r.getD j 0

theorem mean_near {r : K → K} {u : K} (hr : Rounding r u) (M : Mat K) (hn : 0 < M.nrows) (j : Nat) {batch : Nat} (hb : 0 < batch)
    {k : Nat} {f g : K → K} (hf : ∀ x, WithinDrift u k (g x) (f x)) {v : K}
    (h : MeansR r (column M j).length f (normParts batch (column M j)) 0 v) :
    Near u (M.nrows + k + 4) ((∑ s ∈ Finset.range M.nrows, g (M.get s j)) / (M.nrows : K))
      ((∑ s ∈ Finset.range M.nrows, |g (M.get s j)|) / (M.nrows : K)) v := by
  have hl : (column M j).length = M.nrows := by simp [column, Mat.nrows]
  rw [hl] at h
  have h0 : Near u (k + 3 + 1) (0 : K) 0 0 := ⟨by simp, by simp⟩
  have := meansR_near hr hn hf _ 1 0 v 0 0 (le_refl _) (normParts_ne hb _) h0 h
  rw [normParts_flatten hb, zero_add, zero_add, hl] at this
  have e1 : ((column M j).map g).sum = ∑ s ∈ Finset.range M.nrows, g (M.get s j) := by
    rw [← sum_map_rows, column, List.map_map]; rfl
  have e2 : ((column M j).map fun x => |g x|).sum = ∑ s ∈ Finset.range M.nrows, |g (M.get s j)| := by
    rw [← sum_map_rows (g := fun x => |g x|), column, List.map_map]; rfl
  rw [e1, e2] at this
  exact this.mono hr.nonneg (by omega)

/-- C104, means.  With unit roundoff `u`, any batch size and sums formed in any order, the computed mean of a column of `N` rows differs
from the exact mean by at most `(1+u)^(N+4) - 1` times the mean absolute value. -/
theorem C104_mean (r : K → K) (u : K) (hr : Rounding r u) (M : Mat K) (hn : 0 < M.nrows) (j : Nat) (batch : Nat) (hb : 0 < batch)
    (mean rad : K) (h : NormalizeR r batch (column M j) mean rad) :
    |mean - colMean M j| ≤ drift u (M.nrows + 4) * colAbs M j := by
  obtain ⟨ex2, h1, _, _⟩ := h
  exact (mean_near hr M hn j hb (k := 0) (f := id) (g := id) (fun x => WithinDrift.refl u x) h1).2

theorem near_rad {r : K → K} {u : K} (hr : Rounding r u) (M : Mat K) (hn : 0 < M.nrows) (j : Nat) {batch : Nat} (hb : 0 < batch)
    {mean rad : K} (h : NormalizeR r batch (column M j) mean rad) :
    |rad - colVar M j| ≤ drift u (2 * M.nrows + 10) * (2 * colSquare M j) := by
  obtain ⟨ex2, h1, h2, rfl⟩ := h
  have hu := hr.nonneg
  have a1 : Near u (M.nrows + 4) (colMean M j) (colAbs M j) mean :=
    mean_near hr M hn j hb (k := 0) (f := id) (g := id) (fun x => WithinDrift.refl u x) h1
  have a2 := mean_near hr M hn j hb (k := 1) (f := fun x => r (x * x)) (g := fun x => x * x)
    (fun x => (WithinDrift.refl u (x * x)).round hr) h2
  have hNk : (0 : K) < (M.nrows : K) := by exact_mod_cast hn
  have q1 : (∑ s ∈ Finset.range M.nrows, M.get s j * M.get s j) / (M.nrows : K) = colSquare M j := by
    simp only [colSquare, pow_two]
  have q2 : (∑ s ∈ Finset.range M.nrows, |M.get s j * M.get s j|) / (M.nrows : K) = colSquare M j := by
    simp only [colSquare, pow_two, abs_mul_self]
  rw [q1, q2] at a2
  have hA : colAbs M j * colAbs M j ≤ colSquare M j := by
    unfold colAbs colSquare
    rw [div_mul_div_comm, div_le_div_iff₀ (mul_pos hNk hNk) hNk]
    have := sq_sum_le_card_mul_sum_sq (s := Finset.range M.nrows) (f := fun s => |M.get s j|)
    simp only [sq_abs, Finset.card_range] at this
    have := mul_le_mul_of_nonneg_left this hNk.le
    nlinarith
  have a3 := (a1.mul hu a1).round hr
  have a4 : Near u (2 * M.nrows + 9) (colMean M j * colMean M j) (colSquare M j) (r (mean * mean)) := by
    have := a3.mono hu (m := 2 * M.nrows + 9) (by omega)
    exact ⟨le_trans this.1 hA, le_trans this.2 (mul_le_mul_of_nonneg_left hA (drift_nonneg hu _))⟩
  have a5 := ((a2.mono hu (m := 2 * M.nrows + 9) (by omega)).add a4.neg).round hr
  have := a5.2
  rw [← sub_eq_add_neg, ← sub_eq_add_neg, ← two_mul] at this
  rw [← colVar_eq hn, q1]
  exact this

/-- C104, variances.  The number of which `std` is the square root differs from the exact variance by at most `(1+u)^(2N+10) - 1` times
twice the mean square of the column: an error relative to the squares, not to the variance. -/
theorem C104_variance (r : K → K) (u : K) (hr : Rounding r u) (M : Mat K) (hn : 0 < M.nrows) (j : Nat) (batch : Nat) (hb : 0 < batch)
    (mean rad : K) (h : NormalizeR r batch (column M j) mean rad) :
    |rad - colVar M j| ≤ drift u (2 * M.nrows + 10) * (2 * colSquare M j) := near_rad hr M hn j hb h

/-- C104, the part that holds.  If the variance of the column is above the bound of `C104_variance`, `std` is the root of a positive
number: it is a number, and not zero.

Missing for the full property: columns with a small variance (`C104_std_refuted`). -/
theorem C104_std_partial (r : K → K) (u : K) (hr : Rounding r u) (M : Mat K) (hn : 0 < M.nrows) (j : Nat) (batch : Nat) (hb : 0 < batch)
    (hv : drift u (2 * M.nrows + 10) * (2 * colSquare M j) < colVar M j)
    (mean rad : K) (h : NormalizeR r batch (column M j) mean rad) : 0 < rad := by
  have := (abs_le.1 (near_rad hr M hn j hb h)).1
  linarith

/-- C104, batch sizes.  Two runs with different batch sizes and orders of summation agree up to twice the bounds. -/
theorem C104_batches (r : K → K) (u : K) (hr : Rounding r u) (M : Mat K) (hn : 0 < M.nrows) (j : Nat) (b1 b2 : Nat) (hb1 : 0 < b1) (hb2 : 0 < b2)
    (m1 v1 m2 v2 : K) (h1 : NormalizeR r b1 (column M j) m1 v1) (h2 : NormalizeR r b2 (column M j) m2 v2) :
    |m1 - m2| ≤ 2 * (drift u (M.nrows + 4) * colAbs M j) ∧
    |v1 - v2| ≤ 2 * (drift u (2 * M.nrows + 10) * (2 * colSquare M j)) := by
  have a1 := abs_le.1 (C104_mean r u hr M hn j b1 hb1 m1 v1 h1)
  have a2 := abs_le.1 (C104_mean r u hr M hn j b2 hb2 m2 v2 h2)
  have c1 := abs_le.1 (near_rad hr M hn j hb1 h1)
  have c2 := abs_le.1 (near_rad hr M hn j hb2 h2)
  exact ⟨abs_le.2 ⟨by linarith [a1.1, a2.2], by linarith [a1.2, a2.1]⟩, abs_le.2 ⟨by linarith [c1.1, c2.2], by linarith [c1.2, c2.1]⟩⟩

/-- C104, relation to the exact model.  When rounding changes nothing, every batch size and order gives the exact mean and variance: those of
`C57_parameters`. -/
theorem C104_exact_model (M : Mat K) (hn : 0 < M.nrows) (j : Nat) (batch : Nat) (hb : 0 < batch) (mean rad : K)
    (h : NormalizeR id batch (column M j) mean rad) : mean = colMean M j ∧ rad = colVar M j := by
  have hr : Rounding (id : K → K) 0 := ⟨le_refl _, fun x => by simp, fun _ => rfl⟩
  have a := C104_mean id 0 hr M hn j batch hb mean rad h
  have b := near_rad hr M hn j hb h
  simp only [drift, add_zero, one_pow, sub_self, zero_mul] at a b
  exact ⟨sub_eq_zero.1 (abs_nonpos_iff.1 a), sub_eq_zero.1 (abs_nonpos_iff.1 b)⟩

theorem exists_means (r : K → K) (N : Nat) (f : K → K) (parts : List (List K)) : ∀ a, (∀ q ∈ parts, q ≠ []) → ∃ v, MeansR r N f parts a v := by
  induction parts with
  | nil => intro a _; exact ⟨a, .nil a⟩
  | cons q parts ih =>
    intro a hne
    have hq := hne q List.mem_cons_self
    obtain ⟨x, q, rfl⟩ := List.exists_cons_of_ne_nil hq
    obtain ⟨s, hs⟩ := exists_sums r (f x) ((q.map f).map .val)
    obtain ⟨v, hv⟩ := ih (r (a + r (r (s / (((x :: q).map f).length : K)) * r (((x :: q).length : K) / (N : K))))) fun p hp => hne p (List.mem_cons_of_mem _ hp)
    exact ⟨v, .cons ⟨s, by simpa using hs, rfl⟩ hv⟩

/-- C104: there always is a result. -/
theorem C104_exists (r : K → K) (batch : Nat) (hb : 0 < batch) (col : List K) : ∃ mean rad, NormalizeR r batch col mean rad := by
  obtain ⟨m, hm⟩ := exists_means r col.length id (normParts batch col) 0 (normParts_ne hb col)
  obtain ⟨v, hv⟩ := exists_means r col.length (fun x => r (x * x)) (normParts batch col) 0 (normParts_ne hb col)
  exact ⟨m, _, v, hm, hv, rfl⟩

theorem sums_one {r : K → K} {x v : K} {l : List (Term K)} (h : Sums r l v) (hl : l = [.val x]) : v = x := by
  cases h with
  | val y => simpa using hl
  | prod y z => simp at hl
  | add h1 h2 hp =>
    have n1 := List.length_pos_iff.2 h1.ne_nil
    have n2 := List.length_pos_iff.2 h2.ne_nil
    have := hp.length_eq
    rw [hl] at this
    simp at this
    omega
  | fma y z h1 hp =>
    rw [hl] at hp
    have := hp.mem_iff (a := Term.prod y z)
    simp at this

theorem sums_two {r : K → K} {x v : K} {l : List (Term K)} (h : Sums r l v) (hl : l = [.val x, .val x]) : v = r (x + x) := by
  cases h with
  | val y => simp at hl
  | prod y z => simp at hl
  | @add _ l₁ l₂ a b h1 h2 hp =>
    rw [hl] at hp
    have hp : l₁ ++ l₂ = List.replicate 2 (Term.val x) := List.perm_replicate.1 hp.symm
    obtain ⟨h3, h4, h5⟩ := List.append_eq_replicate_iff.1 hp
    have n1 := List.length_pos_iff.2 h1.ne_nil
    have n2 := List.length_pos_iff.2 h2.ne_nil
    have e1 : l₁.length = 1 := by omega
    have e2 : l₂.length = 1 := by omega
    rw [e1] at h4
    rw [e2] at h5
    rw [sums_one h1 h4, sums_one h2 h5]
  | fma y z h1 hp =>
    rw [hl] at hp
    have := hp.mem_iff (a := Term.prod y z)
    simp at this

theorem sums_three {r : K → K} {x v : K} {l : List (Term K)} (h : Sums r l v) (hl : l = [.val x, .val x, .val x]) : v = r (r (x + x) + x) := by
  cases h with
  | val y => simp at hl
  | prod y z => simp at hl
  | @add _ l₁ l₂ a b h1 h2 hp =>
    rw [hl] at hp
    have hp : l₁ ++ l₂ = List.replicate 3 (Term.val x) := List.perm_replicate.1 hp.symm
    obtain ⟨h3, h4, h5⟩ := List.append_eq_replicate_iff.1 hp
    have n1 := List.length_pos_iff.2 h1.ne_nil
    have n2 := List.length_pos_iff.2 h2.ne_nil
    have e : (l₁.length = 1 ∧ l₂.length = 2) ∨ (l₁.length = 2 ∧ l₂.length = 1) := by omega
    rcases e with ⟨e1, e2⟩ | ⟨e1, e2⟩
    · rw [e1] at h4
      rw [e2] at h5
      rw [sums_one h1 h4, sums_two h2 h5, add_comm]
    · rw [e1] at h4
      rw [e2] at h5
      rw [sums_two h1 h4, sums_one h2 h5]
  | fma y z h1 hp =>
    rw [hl] at hp
    have := hp.mem_iff (a := Term.prod y z)
    simp at this

/-- The number 0.1 in double precision. -/
def tenth : ℚ := floatRound 52 (1 / 10)

theorem meansR_three {r : K → K} {f : K → K} {x v : K} (h : MeansR r 3 f [[x, x, x]] 0 v) :
    v = r (0 + r (r (r (r (f x + f x) + f x) / 3) * r (3 / 3))) := by
  cases h with
  | cons hm h =>
    cases h
    obtain ⟨s, hs, rfl⟩ := hm
    rw [sums_three hs rfl]
    norm_num

/-- C104 is false.  A column with the three entries 0.1, 0.1, 0.1, in double precision, with every batch size that reads it at once: whatever
the order of summation, `std` is the square root of a negative number, `nan` for NumPy.  The exact standard deviation is 0. -/
theorem C104_std_refuted : Rounding (floatRound 52 : ℚ → ℚ) (1 / 2 ^ 53) ∧ floatRound 52 tenth = tenth ∧
    ∀ batch ≥ 3, (∃ mean rad, NormalizeR (floatRound 52) batch [tenth, tenth, tenth] mean rad) ∧
      ∀ mean rad, NormalizeR (floatRound 52) batch [tenth, tenth, tenth] mean rad → rad < 0 := by
  refine ⟨floatRound_rounding 52, (floatRound_rounding 52).again _, fun batch hb => ⟨C104_exists _ _ (by omega) _, ?_⟩⟩
  intro mean rad h
  have hparts : normParts batch [tenth, tenth, tenth] = [[tenth, tenth, tenth]] := by
    have h1 : normBatches 3 batch = 1 := by
      unfold normBatches
      rcases Nat.lt_or_ge 3 batch with h | h
      · rw [Nat.div_eq_of_lt h]; simp
      · obtain rfl : batch = 3 := by omega
        rfl
    simp only [normParts, List.length_cons, List.length_nil, Nat.zero_add, Nat.reduceAdd, h1]
    simp [List.range_succ]
    omega
  obtain ⟨ex2, h1, h2, rfl⟩ := h
  rw [hparts] at h1 h2
  rw [meansR_three h1, meansR_three h2]
  decide +kernel

/-- The hypotheses of `C104_std_partial` are met in double precision: a column with the entries 0 and 2. -/
example : drift (1 / 2 ^ 53 : ℚ) (2 * (Mat.mk 1 [[(0 : ℚ)], [2]]).nrows + 10) * (2 * colSquare (Mat.mk 1 [[(0 : ℚ)], [2]]) 0)
    < colVar (Mat.mk 1 [[(0 : ℚ)], [2]]) 0 := by
  decide +kernel

end Hpelm.Props
