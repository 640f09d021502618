import Verif.Model.NormCrash
import Verif.Props.C55_C58_Files

/-!
# C107: a normalization that is interrupted, repeated or undone
-/

set_option linter.unusedSectionVars false

namespace Hpelm.Props
open Hpelm Spec Finset
variable {K : Type} [Field K] [LinearOrder K]

/-- The entry that normalization puts in the place of the entry `x` of column `j`. -/
def scaled (mean std : List K) (j : Nat) (x : K) : K := (x - mean.getD j 0) / (if std.getD j 0 = 0 then 1 else std.getD j 0)

/-- Row `i` of `Z` is row `i` of `D`, as it was. -/
def RowRaw (D Z : Mat K) (i : Nat) : Prop := ∀ j < D.cols, Z.get i j = D.get i j

/-- Row `i` of `Z` is row `i` of `D`, normalized once. -/
def RowScaled (mean std : List K) (D Z : Mat K) (i : Nat) : Prop := ∀ j < D.cols, Z.get i j = scaled mean std j (D.get i j)

theorem normedTo_row (mean std : List K) (batch k : Nat) (D : Mat K) (i : Nat) :
    (normedTo mean std batch k D).rows[i]? =
      if i < k * batch then (D.rows[i]?).map (normRow mean (std.map fun s => if s = 0 then 1 else s)) else D.rows[i]? := by
  unfold normedTo
  simp only [applyNorm_range]
  rw [List.getElem?_append]
  split_ifs with h1 h2 h2
  · rw [List.getElem?_map, List.getElem?_take, if_pos h2]
  · simp only [List.length_map, List.length_take] at h1; omega
  · simp only [List.length_map, List.length_take] at h1
    have : D.rows.length ≤ i := by omega
    rw [List.getElem?_eq_none this, List.getElem?_eq_none]
    · rfl
    · simp only [List.length_drop, List.length_map, List.length_take]; omega
  · simp only [List.length_map, List.length_take] at h1 ⊢
    rw [List.getElem?_drop]
    by_cases hl : k * batch ≤ D.rows.length
    · congr 1; omega
    · rw [List.getElem?_eq_none (l := D.rows) (by omega), List.getElem?_eq_none (by omega)]

theorem normRow_get {mean std : List K} {D : Mat K} (hw : D.WF) (h1 : mean.length = D.cols) (h2 : std.length = D.cols) {i : Nat} (hi : i < D.nrows)
    {Z : Mat K} (hz : Z.rows[i]? = (D.rows[i]?).map (normRow mean (std.map fun s => if s = 0 then 1 else s))) : RowScaled mean std D Z i := by
  intro j hj
  have hs' : i < D.rows.length := hi
  have hq : (D.rows[i]).length = D.cols := hw _ (List.getElem_mem hs')
  have hjm : j < mean.length := by omega
  have hjs : j < std.length := by omega
  unfold scaled
  simp only [Mat.get, List.getD_eq_getElem?_getD, hz, List.getElem?_eq_getElem hs', Option.map_some, Option.getD_some, normRow, List.getElem?_map,
    List.getElem?_zipWith, List.getElem?_eq_getElem hjm, List.getElem?_eq_getElem hjs, List.getElem?_eq_getElem (show j < (D.rows[i]).length by omega),
    List.zip]

theorem rowRaw_of {D Z : Mat K} {i : Nat} (hz : Z.rows[i]? = D.rows[i]?) : RowRaw D Z i := by
  intro j _
  simp only [Mat.get, List.getD_eq_getElem?_getD, hz]

theorem normedTo_wf {mean std : List K} {D : Mat K} (hw : D.WF) (h1 : mean.length = D.cols) (h2 : std.length = D.cols) (batch k : Nat) :
    (normedTo mean std batch k D).WF := by
  intro r hr
  obtain ⟨i, hi⟩ := List.getElem?_of_mem hr
  rw [normedTo_row] at hi
  split_ifs at hi
  · obtain ⟨q, hq, rfl⟩ := Option.map_eq_some_iff.1 hi
    have := hw q (List.mem_of_getElem? hq)
    simp [normRow, h1, h2, this, normedTo]
  · exact hw r (List.mem_of_getElem? hi)

theorem normedTo_nrows (mean std : List K) (batch k : Nat) (D : Mat K) : (normedTo mean std batch k D).nrows = D.nrows := by
  unfold normedTo Mat.nrows
  simp only [applyNorm_range, List.length_append, List.length_map, List.length_take, List.length_drop]
  omega

/-- C107, the part that holds.  Whenever the process dies, each row of the file is the original one or normalized exactly once — no row is lost,
mixed up or half normalized — and there is a batch such that the rows before it are normalized and the rows after it are not.

Missing for the full property: nothing in the file tells which rows those are, and repeating the call normalizes them a second time
(`C107_repeat_refuted`). -/
theorem C107_rows_partial (h h' : H5 K) (mean std : List K) (batch : Nat) (hw : h.data.WF) (h1 : mean.length = h.data.cols) (h2 : std.length = h.data.cols)
    (hl : NormLeft h mean std batch h') :
    h'.data.WF ∧ h'.data.nrows = h.data.nrows ∧ h'.data.cols = h.data.cols ∧
      ∃ k, ∀ i < h.data.nrows, (i < k * batch → RowScaled mean std h.data h'.data i) ∧
        ((k + 1) * batch ≤ i → RowRaw h.data h'.data i) ∧ (RowRaw h.data h'.data i ∨ RowScaled mean std h.data h'.data i) := by
  cases hl with
  | start => exact ⟨hw, rfl, rfl, 0, fun i _ => ⟨fun hi => by omega, fun _ => rowRaw_of rfl, .inl (rowRaw_of rfl)⟩⟩
  | mean => exact ⟨hw, rfl, rfl, 0, fun i _ => ⟨fun hi => by omega, fun _ => rowRaw_of rfl, .inl (rowRaw_of rfl)⟩⟩
  | batches k hk =>
    refine ⟨normedTo_wf hw h1 h2 _ _, normedTo_nrows _ _ _ _ _, rfl, k, ?_⟩
    intro i hi
    have hr := normedTo_row mean std batch k h.data i
    by_cases hlt : i < k * batch
    · rw [if_pos hlt] at hr
      have hs : RowScaled mean std h.data (normedTo mean std batch k h.data) i := normRow_get hw h1 h2 hi hr
      refine ⟨fun _ => hs, fun hge => ?_, .inr hs⟩
      have : (k + 1) * batch = k * batch + batch := by ring
      omega
    · rw [if_neg hlt] at hr
      exact ⟨fun hh => absurd hh hlt, fun _ => rowRaw_of hr, .inl (rowRaw_of hr)⟩
  | torn k hk Z hc hn hz =>
    have hwf : Z.WF := by
      intro r hr
      obtain ⟨i, hi⟩ := List.getElem?_of_mem hr
      rw [hc]
      rcases hz i with h3 | h3 <;> rw [hi] at h3
      · exact normedTo_wf hw h1 h2 batch k r (List.mem_of_getElem? h3.symm)
      · exact normedTo_wf hw h1 h2 batch (k + 1) r (List.mem_of_getElem? h3.symm)
    refine ⟨hwf, hn, hc, k, ?_⟩
    intro i hi
    have e1 := normedTo_row mean std batch k h.data i
    have e2 := normedTo_row mean std batch (k + 1) h.data i
    have hkk : (k + 1) * batch = k * batch + batch := by ring
    rcases hz i with h3 | h3
    · rw [e1] at h3
      by_cases hlt : i < k * batch
      · rw [if_pos hlt] at h3
        have hs : RowScaled mean std h.data Z i := normRow_get hw h1 h2 hi h3
        exact ⟨fun _ => hs, fun hge => by omega, .inr hs⟩
      · rw [if_neg hlt] at h3
        exact ⟨fun hh => absurd hh hlt, fun _ => rowRaw_of h3, .inl (rowRaw_of h3)⟩
    · rw [e2] at h3
      by_cases hlt : i < (k + 1) * batch
      · rw [if_pos hlt] at h3
        have hs : RowScaled mean std h.data Z i := normRow_get hw h1 h2 hi h3
        exact ⟨fun _ => hs, fun hge => by omega, .inr hs⟩
      · rw [if_neg hlt] at h3
        exact ⟨fun hh => by omega, fun _ => rowRaw_of h3, .inl (rowRaw_of h3)⟩

/-- C107, the recorded parameters.  Each attribute of the file is the one it had or the one that was given, the deviations are never recorded before
the means, and if any row has changed then both parameters are in the file: a normalized row is never found without the numbers that undo it. -/
theorem C107_recorded (h h' : H5 K) (mean std : List K) (batch : Nat) (hl : NormLeft h mean std batch h') :
    (h'.mean = h.mean ∨ h'.mean = some mean) ∧ (h'.std = h.std ∨ h'.std = some std) ∧ (h'.std ≠ h.std → h'.mean = some mean) ∧
      (h'.data ≠ h.data → h'.mean = some mean ∧ h'.std = some std) := by
  cases hl with
  | start => exact ⟨.inl rfl, .inl rfl, fun h => absurd rfl h, fun h => absurd rfl h⟩
  | mean => exact ⟨.inr rfl, .inl rfl, fun h => absurd rfl h, fun h => absurd rfl h⟩
  | batches k hk => exact ⟨.inr rfl, .inr rfl, fun _ => rfl, fun _ => ⟨rfl, rfl⟩⟩
  | torn k hk Z hc hn hz => exact ⟨.inr rfl, .inr rfl, fun _ => rfl, fun _ => ⟨rfl, rfl⟩⟩

/-- C107, what repeating the call after a crash gives: rows that had been left as they were are normalized once, as they should be; rows that had
been normalized are normalized twice. -/
theorem C107_repeat_partial (env : Env K) (fs : Files K) (f : String) (h h' : H5 K) (mean std : List K) (batch : Nat) (hb : 0 < batch) (chunk : Nat)
    (hw : h.data.WF) (h1 : mean.length = h.data.cols) (h2 : std.length = h.data.cols) (hl : NormLeft h mean std batch h') (hf : fs f = some h') :
    ∃ p fs' M, normalizeHdf5 env fs f (some mean) (some std) (some batch) chunk = .ok (p, fs') ∧ fs' f = some M ∧
      M.data.nrows = h.data.nrows ∧ M.data.cols = h.data.cols ∧
      ∀ i < h.data.nrows, (RowRaw h.data h'.data i → RowScaled mean std h.data M.data i) ∧
        (RowScaled mean std h.data h'.data i → ∀ j < h.data.cols, M.data.get i j = scaled mean std j (scaled mean std j (h.data.get i j))) := by
  obtain ⟨k1, k2, k3, -⟩ := C107_rows_partial h h' mean std batch hw h1 h2 hl
  obtain ⟨fs', M, l1, l2, l3, l4, l5, l6, _⟩ := C58_explicit_partial env fs f h' mean std (some batch) chunk hf k1 hb (by rw [k3]; exact h1)
    (by rw [k3]; exact h2)
  refine ⟨_, fs', _, l1, l2, by rw [← k2]; exact l4, by rw [← k3]; exact l5, ?_⟩
  intro i hi
  have hi' : i < h'.data.nrows := by omega
  constructor
  · intro hr j hj
    exact (l6 i hi' j (by omega)).trans (by rw [hr j hj]; rfl)
  · intro hr j hj
    exact (l6 i hi' j (by omega)).trans (by rw [hr j hj]; rfl)

/-- C107, undoing.  A normalization with any parameters is undone by a second call with the means `-mean/std` and the deviations `1/std`, made from
the parameters that the first call returned: the data are as before, for all batch sizes. -/
theorem C107_undo (env : Env K) (fs : Files K) (f : String) (h : H5 K) (mean std : List K) (b1 b2 : Option Nat) (c1 c2 : Nat)
    (hf : fs f = some h) (hw : h.data.WF) (hb1 : 0 < b1.getD c1) (hb2 : 0 < b2.getD c2) (h1 : mean.length = h.data.cols) (h2 : std.length = h.data.cols) :
    ∃ m s fs1 p fs2 M, normalizeHdf5 env fs f (some mean) (some std) b1 c1 = .ok ((m, s), fs1) ∧
      normalizeHdf5 env fs1 f (some (List.zipWith (fun a b => -a / b) m s)) (some (s.map (1 / ·))) b2 c2 = .ok (p, fs2) ∧
      fs2 f = some M ∧ M.data = h.data := by
  obtain ⟨fs1, M1, l1, l2, l3, l4, l5, l6, _⟩ := C58_explicit_partial env fs f h mean std b1 c1 hf hw hb1 h1 h2
  obtain ⟨fs2, M2, r1, r2, r3, r4, r5, r6, _⟩ := C58_explicit_partial env fs1 f ⟨M1, some mean, some std⟩
    (List.zipWith (fun a b => -a / b) mean (std.map fun s => if s = 0 then 1 else s)) ((std.map fun s => if s = 0 then 1 else s).map (1 / ·)) b2 c2 l2 l3 hb2
    (by simp only [List.length_zipWith, List.length_map, h1, h2, l5, min_self]) (by simp only [List.length_map, h2, l5])
  refine ⟨_, _, fs1, _, fs2, _, l1, r1, r2, ?_⟩
  simp only at r4 r5 r6 ⊢
  apply Mat.ext_get r3 hw (r4.trans l4) (r5.trans l5)
  intro i j hi hj
  have hi' : i < h.data.nrows := by rw [← r4.trans l4]; exact hi
  have hj' : j < h.data.cols := by rw [← r5.trans l5]; exact hj
  rw [r6 i (by rw [l4]; exact hi') j (by rw [l5]; exact hj'), l6 i hi' j hj']
  have hjm : j < mean.length := by omega
  have hjs : j < std.length := by omega
  simp only [List.getD_eq_getElem?_getD, List.getElem?_zipWith, List.getElem?_map, List.getElem?_eq_getElem hjm, List.getElem?_eq_getElem hjs,
    Option.map_some, Option.getD_some]
  obtain ⟨t, ht⟩ : ∃ t, t = if std[j] = 0 then (1 : K) else std[j] := ⟨_, rfl⟩
  have ht0 : t ≠ 0 := by
    rw [ht]; split_ifs with hz
    · exact one_ne_zero
    · exact hz
  rw [← ht, if_neg (one_div_ne_zero ht0)]
  field_simp
  ring

/-- C107 is false.  A file with two rows, normalized one row at a time, the process dying after the first row: repeating the call gives other data
than an uninterrupted call, although a call without parameters refuses because the file is said to be normalized already. -/
theorem C107_repeat_refuted : ∃ (h h' : H5 ℚ) (mean std : List ℚ), NormLeft h mean std 1 h' ∧
    (∃ fs1, normalizeHdf5 QEnv.env (fun _ => some h) "f" (some mean) (some std) (some 1) 1 = .ok ((mean, std), fs1) ∧
      (fs1 "f").map (·.data) = some ⟨1, [[1], [2]]⟩) ∧
    (∃ fs2, normalizeHdf5 QEnv.env (fun _ => some h') "f" (some mean) (some std) (some 1) 1 = .ok ((mean, std), fs2) ∧
      (fs2 "f").map (·.data) = some ⟨1, [[-1], [2]]⟩) ∧
    normalizeHdf5 QEnv.env (fun _ => some h') "f" none none (some 1) 1 = .error .ioError := by
  refine ⟨⟨⟨1, [[5], [7]]⟩, none, none⟩, _, [3], [2], .batches 1 (by decide), ⟨_, rfl, by decide +kernel⟩, ⟨_, rfl, by decide +kernel⟩, rfl⟩

/-- The hypotheses are met: a file with two columns, one of them with deviation 0; a torn second batch. -/
example : (⟨2, [[5, 1], [7, 1], [9, 1], [1, 1]]⟩ : Mat ℚ).WF ∧
    NormLeft (⟨⟨2, [[5, 1], [7, 1], [9, 1], [1, 1]]⟩, none, none⟩ : H5 ℚ) [5, 1] [2, 0] 2 ⟨⟨2, [[0, 0], [1, 0], [9, 1], [-2, 0]]⟩, some [5, 1], some [2, 0]⟩ := by
  refine ⟨by simp [Mat.WF], .torn 1 (by decide) _ rfl rfl fun i => ?_⟩
  rcases i with _ | _ | _ | _ | i
  · exact .inl (by decide +kernel)
  · exact .inl (by decide +kernel)
  · exact .inl (by decide +kernel)
  · exact .inr (by decide +kernel)
  · left
    rw [normedTo_row]
    simp

end Hpelm.Props
