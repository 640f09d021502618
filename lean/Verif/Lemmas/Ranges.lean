import Verif.Lemmas.Batches
import Verif.Model.Hpelm

/-!
# Slices and batches of a range
-/

namespace Hpelm
set_option linter.unusedSectionVars false

theorem pySlice_nonneg {α : Type} (l : List α) {a b : Int} (ha : 0 ≤ a) (hb : 0 ≤ b) :
    pySlice l a b = (l.take b.toNat).drop a.toNat := by
  unfold pySlice
  simp only [if_neg (not_lt.2 ha), if_neg (not_lt.2 hb)]
  have h1 : l.take (min b (l.length : Int)).toNat = l.take b.toNat := by
    by_cases h : b ≤ l.length
    · rw [min_eq_left h]
    · rw [min_eq_right (by omega), List.take_of_length_le (by omega), List.take_of_length_le (by omega)]
  rw [h1]
  by_cases h : a ≤ l.length
  · rw [min_eq_left h]
  · rw [min_eq_right (by omega), List.drop_of_length_le (by rw [List.length_take]; omega), List.drop_of_length_le (by rw [List.length_take]; omega)]

theorem take_drop_append {α : Type} (l : List α) {s a b : Nat} (h1 : s ≤ a) (h2 : a ≤ b) :
    (l.take a).drop s ++ (l.take b).drop a = (l.take b).drop s := by
  have e : l.take a = (l.take b).take a := by rw [List.take_take, min_eq_left h2]
  rw [e, List.drop_take]
  have e2 : (l.take b).drop a = ((l.take b).drop s).drop (a - s) := by rw [List.drop_drop]; congr 1; omega
  rw [e2, List.take_append_drop]

theorem flatMap_slices {α : Type} (l : List α) (m s c k : Nat) :
    (List.range k).flatMap (fun b => (l.take (min ((b + 1) * m) c + s)).drop (b * m + s)) = (l.take (min (k * m) c + s)).drop s := by
  induction k with
  | zero => simp
  | succ k ih =>
    rw [List.range_succ, List.flatMap_append, ih]
    simp only [List.flatMap_cons, List.flatMap_nil, List.append_nil]
    have hm : k * m ≤ (k + 1) * m := Nat.mul_le_mul_right _ (by omega)
    by_cases h : k * m ≤ c
    · rw [min_eq_left h]
      exact take_drop_append l (by omega) (by omega)
    · rw [min_eq_right (by omega : c ≤ k * m), min_eq_right (by omega : c ≤ (k + 1) * m)]
      have : (l.take (c + s)).drop (k * m + s) = [] := by
        rw [List.drop_eq_nil_iff, List.length_take]
        omega
      rw [this, List.append_nil]

/-- The batches of a range cut every list into consecutive non-empty pieces that together are the range. -/
theorem hBatches_spec {batch istart icount : Int} (hb : 0 < batch) (hs : 0 ≤ istart) (hc : 0 ≤ icount) :
    ∃ bs, hBatches batch istart icount = .ok bs ∧
      (∀ (α : Type) (l : List α), bs.flatMap (fun b => pySlice l b.1 b.2) = (l.drop istart.toNat).take icount.toNat) ∧
      (∀ b ∈ bs, istart ≤ b.1 ∧ b.1 < b.2 ∧ b.2 ≤ istart + icount ∧ b.2 - b.1 ≤ batch) ∧
      (0 < icount → bs ≠ []) := by
  refine ⟨(List.range (ceilDiv icount batch).toNat).map (batchBounds batch istart icount), ?_, ?_, ?_, ?_⟩
  · unfold hBatches
    rw [if_neg (by omega)]
  · intro α l
    obtain ⟨m, rfl⟩ : ∃ m : Nat, batch = m := ⟨batch.toNat, by omega⟩
    obtain ⟨s, rfl⟩ : ∃ m : Nat, istart = m := ⟨istart.toNat, by omega⟩
    obtain ⟨c, rfl⟩ : ∃ m : Nat, icount = m := ⟨icount.toNat, by omega⟩
    have hk0 : 0 ≤ ceilDiv (c : Int) m := by
      rcases Nat.eq_zero_or_pos c with h | h
      · subst h; rw [Nat.cast_zero, ceilDiv_zero hb]
      · exact (ceilDiv_pos hb (by omega)).le
    obtain ⟨k, hk⟩ : ∃ k : Nat, ceilDiv (c : Int) m = k := ⟨(ceilDiv (c : Int) m).toNat, by omega⟩
    have hsp := (ceilDiv_spec (c : Int) m hb).2
    rw [hk] at hsp
    rw [hk, List.flatMap_map]
    simp only [Int.toNat_natCast]
    have : ∀ b : Nat, pySlice l (batchBounds m s c b).1 (batchBounds m s c b).2
        = (l.take (min ((b + 1) * m) c + s)).drop (b * m + s) := by
      intro b
      have h2 : (batchBounds (m : Int) s c b).2 = ((min ((b + 1) * m) c + s : Nat) : Int) := by
        simp only [batchBounds]
        push_cast
        omega
      have h1 : (batchBounds (m : Int) s c b).1 = ((b * m + s : Nat) : Int) := by
        simp only [batchBounds]
        push_cast
        rfl
      rw [h1, h2, pySlice_nonneg l (by omega) (by omega)]
      simp only [Int.toNat_natCast]
    simp only [this]
    rw [flatMap_slices, min_eq_right (by exact_mod_cast hsp), List.drop_take, Nat.add_sub_cancel]
  · intro b hbm
    obtain ⟨k, hk, rfl⟩ := List.mem_map.1 hbm
    rw [List.mem_range] at hk
    have hsp := (ceilDiv_spec icount batch hb).1
    have hk' : (k : Int) ≤ ceilDiv icount batch - 1 := by omega
    have : (k : Int) * batch ≤ (ceilDiv icount batch - 1) * batch := by nlinarith
    have h0 : 0 ≤ (k : Int) * batch := by positivity
    simp only [batchBounds]
    have h1 : ((k : Int) + 1) * batch = k * batch + batch := by ring
    rw [h1]
    refine ⟨by omega, by omega, by omega, by omega⟩
  · intro h0 hn
    have := ceilDiv_pos hb h0
    have h2 := List.map_eq_nil_iff.1 hn
    rw [List.range_eq_nil] at h2
    omega

/-- Without samples there are no batches. -/
theorem hBatches_empty {batch istart icount : Int} (hb : 0 < batch) (hc : icount ≤ 0) : hBatches batch istart icount = .ok [] := by
  unfold hBatches
  rw [if_neg (by omega)]
  have := ceilDiv_nonpos hb hc
  have h : (ceilDiv icount batch).toNat = 0 := by omega
  rw [h]
  rfl

theorem rangeCount_le (N istart : Int) (ic : Option Int) : rangeCount N istart ic ≤ N - istart := by
  unfold rangeCount
  split <;> omega

theorem pySlice_length {α : Type} (l : List α) {a b : Int} (ha : 0 ≤ a) (hab : a ≤ b) (hb : b ≤ l.length) :
    ((pySlice l a b).length : Int) = b - a := by
  rw [pySlice_nonneg l ha (by omega), List.length_drop, List.length_take]
  omega

theorem pySlice_zip {α β : Type} (l : List α) (r : List β) (h : l.length = r.length) (a b : Int) :
    (pySlice l a b).zip (pySlice r a b) = pySlice (l.zip r) a b := by
  unfold pySlice
  simp only [List.length_zip, ← h, min_self]
  rw [List.zip, List.take_zipWith, List.drop_zipWith]

theorem pySlice_map {α β : Type} (f : α → β) (l : List α) (a b : Int) : pySlice (l.map f) a b = (pySlice l a b).map f := by
  unfold pySlice
  simp only [List.length_map, List.map_drop, List.map_take]

theorem mem_pySlice {α : Type} {l : List α} {a b : Int} {x : α} (h : x ∈ pySlice l a b) : x ∈ l :=
  List.mem_of_mem_take (List.mem_of_mem_drop h)

end Hpelm
