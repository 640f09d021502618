import Verif.Lemmas.Gram
import Verif.Lemmas.Selection
import Verif.Spec.CrossValidation
import Mathlib.Data.List.Nodup
import Mathlib.Data.Nat.ModEq

/-! Cross-validation folds. -/

set_option linter.unusedSectionVars false

namespace Hpelm
open Spec Finset

theorem foldItems_nodup {k : Nat} (i : Nat) : (foldItems k i).Nodup := by
  unfold foldItems
  refine List.Nodup.map_on ?_ List.nodup_range
  intro a ha b hb h
  rw [List.mem_range] at ha hb
  have : i + a ≡ i + b [MOD k] := h
  exact Nat.ModEq.eq_of_lt_of_lt (Nat.ModEq.add_left_cancel' i this) ha hb

theorem foldItems_perm {k : Nat} (i : Nat) : (foldItems k i).Perm (List.range k) := by
  refine (List.Nodup.subperm (foldItems_nodup i) ?_).perm_of_length_le (by simp [foldItems])
  intro x hx
  unfold foldItems at hx
  obtain ⟨a, ha, rfl⟩ := List.mem_map.1 hx
  rw [List.mem_range] at ha ⊢
  exact Nat.mod_lt _ (by omega)

theorem mem_foldIdx {N k i n : Nat} : n ∈ foldIdx N k i ↔ n < N ∧ n % k = i := by
  simp [foldIdx]

theorem foldIdx_nodup (N k i : Nat) : (foldIdx N k i).Nodup := List.Nodup.filter _ List.nodup_range

theorem folds_perm {N k : Nat} (hk : 0 < k) {l : List Nat} (hl : l.Perm (List.range k)) : (l.flatMap (foldIdx N k)).Perm (List.range N) := by
  refine (hl.flatMap_right _).trans ?_
  rw [List.perm_ext_iff_of_nodup _ List.nodup_range]
  · intro n
    simp only [List.mem_flatMap, List.mem_range, mem_foldIdx]
    exact ⟨fun ⟨_, _, h, _⟩ => h, fun h => ⟨n % k, Nat.mod_lt _ hk, h, rfl⟩⟩
  · rw [List.nodup_flatMap]
    refine ⟨fun i _ => foldIdx_nodup _ _ _, ?_⟩
    refine List.nodup_range.imp ?_
    intro a b hab n ha hb
    rw [mem_foldIdx] at ha hb
    exact hab (ha.2.symm.trans hb.2)

theorem split_last2 {l : List Nat} {k : Nat} (hl : l.length = k) (hk : 2 ≤ k) :
    l = l.take (k - 2) ++ [l.getD (k - 2) 0] ++ [l.getD (k - 1) 0] := by
  have h1 : k - 2 < l.length := by omega
  have h2 : k - 1 < l.length := by omega
  rw [List.getD_eq_getElem _ _ h1, List.getD_eq_getElem _ _ h2]
  conv_lhs => rw [← List.take_append_drop (k - 2) l]
  rw [List.append_assoc]
  congr 1
  rw [List.drop_eq_getElem_cons h1]
  have h3 : k - 2 + 1 = k - 1 := by omega
  rw [h3, List.drop_eq_getElem_cons h2, List.drop_eq_nil_of_le (by omega)]
  rfl

theorem fold_once {k : Nat} (c m : Nat) (hm : m < k) : ∃! i, i < k ∧ (i + c) % k = m := by
  have : m ∈ foldItems k c := (foldItems_perm c).mem_iff.2 (List.mem_range.2 hm)
  unfold foldItems at this
  obtain ⟨i, hi, h⟩ := List.mem_map.1 this
  rw [List.mem_range] at hi
  refine ⟨i, ⟨hi, by rw [Nat.add_comm]; exact h⟩, ?_⟩
  rintro j ⟨hj, h'⟩
  have : j + c ≡ i + c [MOD k] := by
    unfold Nat.ModEq
    rw [h', Nat.add_comm i c, h]
  exact Nat.ModEq.eq_of_lt_of_lt (Nat.ModEq.add_right_cancel' c this) hj hi

theorem foldItems_getD {k i j : Nat} (hj : j < k) : (foldItems k i).getD j 0 = (i + j) % k := by
  unfold foldItems
  rw [List.getD_eq_getElem _ _ (by simp [hj])]
  simp

theorem cv_plan {N k : Nat} (hk : 3 ≤ k) : FoldPlan N k (cvTrain N k) (cvVal N k) (cvTest N k) := by
  refine ⟨?_, ?_, ?_⟩
  · intro i _
    have h := folds_perm (N := N) (by omega : 0 < k) (foldItems_perm (k := k) i)
    rw [split_last2 (l := foldItems k i) (k := k) (by simp [foldItems]) (by omega)] at h
    simpa [cvTrain, cvVal, cvTest, List.flatMap_append] using h
  · intro n hn
    simp only [cvVal, mem_foldIdx, hn, true_and, foldItems_getD (show k - 2 < k by omega)]
    obtain ⟨i, ⟨h1, h2⟩, h3⟩ := fold_once (k - 2) (n % k) (Nat.mod_lt n (by omega))
    exact ⟨i, ⟨h1, h2.symm⟩, fun j hj => h3 j ⟨hj.1, hj.2.symm⟩⟩
  · intro n hn
    simp only [cvTest, mem_foldIdx, hn, true_and, foldItems_getD (show k - 1 < k by omega)]
    obtain ⟨i, ⟨h1, h2⟩, h3⟩ := fold_once (k - 1) (n % k) (Nat.mod_lt n (by omega))
    exact ⟨i, ⟨h1, h2.symm⟩, fun j hj => h3 j ⟨hj.1, hj.2.symm⟩⟩

theorem cv_lt {N k i : Nat} : (∀ n ∈ cvTrain N k i, n < N) ∧ (∀ n ∈ cvVal N k i, n < N) ∧ (∀ n ∈ cvTest N k i, n < N) := by
  refine ⟨?_, fun n hn => (mem_foldIdx.1 hn).1, fun n hn => (mem_foldIdx.1 hn).1⟩
  intro n hn
  obtain ⟨j, _, h⟩ := List.mem_flatMap.1 hn
  exact (mem_foldIdx.1 h).1

theorem cv_nonempty {N k i : Nat} (hk : 3 ≤ k) (hN : k ≤ N) (hi : i < k) : cvVal N k i ≠ [] ∧ cvTest N k i ≠ [] := by
  have key : ∀ m, m < k → foldIdx N k m ≠ [] := by
    intro m hm h
    have : m ∈ foldIdx N k m := mem_foldIdx.2 ⟨by omega, Nat.mod_eq_of_lt hm⟩
    rw [h] at this
    cases this
  unfold cvVal cvTest
  rw [foldItems_getD (by omega), foldItems_getD (by omega)]
  exact ⟨key _ (Nat.mod_lt _ (by omega)), key _ (Nat.mod_lt _ (by omega))⟩

variable {K : Type} [Field K] [LinearOrder K]

theorem project_congr {env : Env K} {n n' : NNet K} (h1 : n'.neurons = n.neurons) (h2 : n'.inputs = n.inputs) (X : Mat K) :
    n'.project env X = n.project env X := by
  unfold NNet.project
  rw [h1, h2]

theorem solveCorr_congr {env : Env K} {n n' : NNet K} (h1 : n'.solver = n.solver) (h2 : n'.prec = n.prec) (A B : Mat K) :
    n'.solveCorr env A B = n.solveCorr env A B := by
  unfold NNet.solveCorr
  rw [h1, h2]

/-- What the rounds of cross-validation compute. -/
theorem cvFold_ok {env : Env K} (hx : env.Exact) {sh} {e : ELM K} {X T : Mat K} (hT : T.WF) (hN : X.nrows = T.nrows) {k i : Nat} {d : FoldData K}
    (h : cvFold env sh e X T k i = .ok d) :
    ∃ H, e.nnet.project env (X.selRows (cvTrain X.nrows k i)) = .ok H ∧ H.cols = d.Hvl.cols ∧ d.Hts.cols = d.Hvl.cols ∧
      IsCorr H (T.selRows (cvTrain X.nrows k i)) (fun _ => 1) e.nnet.norm d.HH d.HT ∧
      e.nnet.project env (X.selRows (cvVal X.nrows k i)) = .ok d.Hvl ∧ d.Tvl = T.selRows (cvVal X.nrows k i) ∧
      e.nnet.project env (X.selRows (cvTest X.nrows k i)) = .ok d.Hts ∧ d.Tts = T.selRows (cvTest X.nrows k i) ∧
      e.ranking env sh d.Hvl.cols d.Hvl d.Tvl = .ok (d.rank, d.L) := by
  unfold cvFold at h
  obtain ⟨n, h1, h⟩ := bind_ok h
  obtain ⟨c, h2, h⟩ := bind_ok h
  obtain ⟨Hvl, h3, h⟩ := bind_ok h
  obtain ⟨Hts, h4, h⟩ := bind_ok h
  obtain ⟨rk, h5, h⟩ := bind_ok h
  injection h with h
  subst h
  obtain ⟨H, S, HT, a1, a2, a3, a4, a5⟩ := addBatch_fresh hx rfl (by simp)
    (Mat.selRows_WF hT (by rw [← hN]; exact cv_lt.1)) h1
  subst a2
  rw [getCorr!_store a5.symm (n := { e.nnet.reset with corr := some (e.nnet.reset.store S, HT) }) rfl] at h2
  injection h2 with h2
  subst h2
  have c1 := ((project_ok_iff _ _ _ _).1 a1).2.2.2
  have c2 := ((project_ok_iff _ _ _ _).1 h3).2.2.2
  have c3 := ((project_ok_iff _ _ _ _).1 h4).2.2.2
  exact ⟨H, a1, by rw [c1, c2], by rw [c2, c3], a5, h3, rfl, h4, rfl, h5⟩

end Hpelm
