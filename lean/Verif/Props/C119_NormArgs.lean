import Verif.Model.NormArgs
import Verif.Props.C55_C58_Files

/-!
# C119: how the normalization parameters are given

`normalize_hdf5(file, mean, std)` should use the parameters it is given, whatever kind of sequence holds them, leave the objects of the caller
alone, and leave a file alone that it refuses to normalize.
-/

set_option linter.unusedSectionVars false

namespace Hpelm.Props
open Hpelm Spec
variable {K : Type} [Field K] [LinearOrder K]

/-- The file `h'` holds the data of `h` with every entry `x` of column `j` replaced by `(x - mean j) / by j`. -/
def DividedBy (h h' : H5 K) (mean by_ : List K) : Prop :=
  h'.data.WF ∧ h'.data.nrows = h.data.nrows ∧ h'.data.cols = h.data.cols ∧
    ∀ i < h.data.nrows, ∀ j < h.data.cols, h'.data.get i j = (h.data.get i j - mean.getD j 0) / by_.getD j 0

theorem normalizeArgs_ok (fs : Files K) (f : String) (h : H5 K) (mean : List K) (k : VecKind) (std std1 : List K) (batch : Option Nat) (chunk : Nat)
    (hf : fs f = some h) (hw : h.data.WF) (hb : 0 < batch.getD chunk) (h1 : mean.length = h.data.cols) (h2 : std.length = h.data.cols)
    (h3 : std1.length = h.data.cols) (hk : fixStd k std = .ok std1) :
    ∃ fs' M, normalizeArgs fs f mean k std batch chunk = ⟨.ok (mean, std1), fs', std1⟩ ∧ fs' f = some ⟨M, some mean, some std⟩ ∧
      DividedBy h ⟨M, some mean, some std⟩ mean std1 ∧ ∀ g, g ≠ f → fs' g = fs g := by
  refine ⟨fs.put f ⟨⟨h.data.cols, h.data.rows.map (normRow mean std1)⟩, some mean, some std⟩, ⟨h.data.cols, h.data.rows.map (normRow mean std1)⟩,
    ?_, by simp [Files.put], ⟨?_, by simp [Mat.nrows], rfl, ?_⟩, fun g hg => by simp [Files.put, hg]⟩
  · unfold normalizeArgs
    simp only [hf]
    rw [if_neg hb.ne', if_neg (by simp [h1]), if_neg (by simp [h2]), hk]
    have : normBatches h.data.nrows (batch.getD chunk) = normBatches h.data.rows.length (batch.getD chunk) := rfl
    simp only []
    rw [this, applyNorm_all _ hb]
  · intro r hr
    simp only [List.mem_map] at hr
    obtain ⟨q, hq, rfl⟩ := hr
    simp [normRow, h1, h3, hw q hq]
  · intro s hs j hj
    have hs' : s < h.data.rows.length := hs
    have hq : (h.data.rows[s]).length = h.data.cols := hw _ (List.getElem_mem hs')
    have hjm : j < mean.length := by omega
    have hjs : j < std1.length := by omega
    simp only [Mat.get, List.getD_eq_getElem?_getD, List.getElem?_map, List.getElem?_eq_getElem hs', Option.map_some, Option.getD_some, normRow,
      List.getElem?_zipWith, List.getElem?_eq_getElem hjm, List.getElem?_eq_getElem hjs, List.getElem?_eq_getElem (show j < (h.data.rows[s]).length by omega),
      List.zip]

/-- C119, the part that holds: standard deviations given as an array.  The call succeeds, every entry `x` of column `j` becomes
`(x - mean j) / std j`, with `1` in the place of standard deviations that are zero; the parameters are recorded in the file as they were given;
no other file changes; and the caller's array is as it was, if no standard deviation in it is zero.

Missing for the full property: arrays with a zero (`C119_caller_array_refuted`), lists (`C119_list_refuted`), tuples
(`C119_tuple_refuted`), and one parameter given alone (`C119_alone_refuted`). -/
theorem C119_array_partial (fs : Files K) (f : String) (h : H5 K) (mean std : List K) (batch : Option Nat) (chunk : Nat)
    (hf : fs f = some h) (hw : h.data.WF) (hb : 0 < batch.getD chunk) (h1 : mean.length = h.data.cols) (h2 : std.length = h.data.cols) :
    ∃ by_ h', (∀ j < h.data.cols, by_.getD j 0 = if std.getD j 0 = 0 then 1 else std.getD j 0) ∧
      (normalizeArgs fs f mean .array std batch chunk).result = .ok (mean, by_) ∧
      (normalizeArgs fs f mean .array std batch chunk).files f = some h' ∧ DividedBy h h' mean by_ ∧
      h'.mean = some mean ∧ h'.std = some std ∧
      (∀ g, g ≠ f → (normalizeArgs fs f mean .array std batch chunk).files g = fs g) ∧
      (0 ∉ std → (normalizeArgs fs f mean .array std batch chunk).std = std) := by
  obtain ⟨fs', M, e, h3, h4, h5⟩ := normalizeArgs_ok fs f h mean .array std (std.map fun s => if s = 0 then 1 else s) batch chunk hf hw hb h1 h2
    (by simp [h2]) rfl
  refine ⟨_, _, ?_, by rw [e], by rw [e]; exact h3, h4, rfl, rfl, by rw [e]; exact h5, ?_⟩
  · intro j hj
    have hjs : j < std.length := by omega
    simp [List.getD_eq_getElem?_getD, List.getElem?_eq_getElem hjs]
  · intro h0
    rw [e]
    refine (List.map_congr_left fun s hs => ?_).trans (List.map_id _)
    have : s ≠ 0 := fun e => h0 (e ▸ hs)
    simp [this]

/-- The function of the other theorems about normalization (C57, C58, C107) is this one for arrays. -/
theorem C119_array_same (env : Env K) (fs : Files K) (f : String) (mean std : List K) (batch : Option Nat) (chunk : Nat) :
    normalizeHdf5 env fs f (some mean) (some std) batch chunk =
      (normalizeArgs fs f mean .array std batch chunk).result.map fun p => (p, (normalizeArgs fs f mean .array std batch chunk).files) := by
  unfold normalizeHdf5 normalizeArgs pyAssert
  cases hf : fs f with
  | none => rfl
  | some h =>
    simp only []
    by_cases hb : batch.getD chunk = 0
    · rw [if_pos hb, if_pos hb]; rfl
    · rw [if_neg hb, if_neg hb]
      by_cases h1 : mean.length = h.data.cols <;> by_cases h2 : std.length = h.data.cols <;>
        simp [h1, h2, fixStd, bind, Except.bind, Except.map, pure, Except.pure]

/-- C119 (the caller's array), refuted: every zero in the caller's array is replaced by one. -/
theorem C119_caller_array_refuted (fs : Files K) (f : String) (h : H5 K) (mean std : List K) (batch : Option Nat) (chunk : Nat)
    (hf : fs f = some h) (hw : h.data.WF) (hb : 0 < batch.getD chunk) (h1 : mean.length = h.data.cols) (h2 : std.length = h.data.cols) (h0 : 0 ∈ std) :
    (normalizeArgs fs f mean .array std batch chunk).std ≠ std ∧ 0 ∉ (normalizeArgs fs f mean .array std batch chunk).std := by
  obtain ⟨fs', M, e, -, -, -⟩ := normalizeArgs_ok fs f h mean .array std (std.map fun s => if s = 0 then 1 else s) batch chunk hf hw hb h1 h2
    (by simp [h2]) rfl
  rw [e]
  have : (0 : K) ∉ std.map fun s => if s = 0 then 1 else s := by
    simp only [List.mem_map, not_exists, not_and]
    intro s _ hs
    split_ifs at hs with h
    · exact one_ne_zero hs
    · exact h hs
  exact ⟨fun hs => this (by simp only [] at hs; rw [hs]; exact h0), this⟩

/-- C119 (lists), refuted: if the standard deviations are given as a list, the call succeeds, but the first column is only shifted, not divided; the
other columns are divided as they should be; the first entry of the caller's list has become one; and the file records the parameters as given, so
that it does not tell what was done to the data. -/
theorem C119_list_refuted (fs : Files K) (f : String) (h : H5 K) (mean std : List K) (batch : Option Nat) (chunk : Nat)
    (hf : fs f = some h) (hw : h.data.WF) (hb : 0 < batch.getD chunk) (h1 : mean.length = h.data.cols) (h2 : std.length = h.data.cols)
    (hc : 0 < h.data.cols) :
    ∃ by_ h', by_.getD 0 0 = 1 ∧ (∀ j, 0 < j → by_.getD j 0 = std.getD j 0) ∧
      (normalizeArgs fs f mean .list std batch chunk).result = .ok (mean, by_) ∧
      (normalizeArgs fs f mean .list std batch chunk).std = by_ ∧
      (normalizeArgs fs f mean .list std batch chunk).files f = some h' ∧ DividedBy h h' mean by_ ∧
      h'.mean = some mean ∧ h'.std = some std := by
  have hl : std.length ≠ 0 := by omega
  obtain ⟨fs', M, e, h3, h4, h5⟩ := normalizeArgs_ok fs f h mean .list std (std.set 0 1) batch chunk hf hw hb h1 h2 (by simp [h2])
    (by simp [fixStd, hl])
  refine ⟨std.set 0 1, _, ?_, ?_, by rw [e], by rw [e], by rw [e]; exact h3, h4, rfl, rfl⟩
  · simp [List.getD_eq_getElem?_getD, Nat.pos_of_ne_zero hl]
  · intro j hj
    simp [List.getD_eq_getElem?_getD, hj.ne]

/-- C119 (lists against arrays): the data in the file differ from those left by the same call with an array, whenever the first standard deviation
is neither zero nor one and some entry of the first column is not equal to the mean. -/
theorem C119_list_differs_refuted (fs : Files K) (f : String) (h : H5 K) (mean std : List K) (batch : Option Nat) (chunk : Nat)
    (hf : fs f = some h) (hw : h.data.WF) (hb : 0 < batch.getD chunk) (h1 : mean.length = h.data.cols) (h2 : std.length = h.data.cols)
    (hc : 0 < h.data.cols) (hs0 : std.getD 0 0 ≠ 0) (hs1 : std.getD 0 0 ≠ 1) (i : Nat) (hi : i < h.data.nrows) (hx : h.data.get i 0 ≠ mean.getD 0 0) :
    (normalizeArgs fs f mean .list std batch chunk).files f ≠ (normalizeArgs fs f mean .array std batch chunk).files f := by
  obtain ⟨b1, g1, e1, -, -, -, e2, d1, -, -⟩ := C119_list_refuted fs f h mean std batch chunk hf hw hb h1 h2 hc
  obtain ⟨b2, g2, e3, -, e4, d2, -, -, -, -⟩ := C119_array_partial fs f h mean std batch chunk hf hw hb h1 h2
  rw [e2, e4]
  intro hg
  injection hg with hg
  have a := d1.2.2.2 i hi 0 hc
  have b := d2.2.2.2 i hi 0 hc
  rw [e3 0 hc, if_neg hs0] at b
  rw [hg, b, e1, div_one, div_eq_iff hs0] at a
  have hy : h.data.get i 0 - mean.getD 0 0 ≠ 0 := sub_ne_zero.mpr hx
  exact hs1 (mul_left_cancel₀ hy (by rw [mul_one]; exact a.symm))

/-- C119 (tuples), refuted: standard deviations given as a tuple are refused with `TypeError` and the data are not changed, but the file is marked as
normalized: every later call without parameters raises instead of computing the parameters, and the data can be told from normalized ones no more. -/
theorem C119_tuple_refuted (env : Env K) (fs : Files K) (f : String) (h : H5 K) (mean std : List K) (batch : Option Nat) (chunk : Nat)
    (hf : fs f = some h) (hb : 0 < batch.getD chunk) (h1 : mean.length = h.data.cols) (h2 : std.length = h.data.cols) :
    (normalizeArgs fs f mean .tuple std batch chunk).result = .error .typeError ∧
      (normalizeArgs fs f mean .tuple std batch chunk).files f = some ⟨h.data, some mean, some std⟩ ∧
      ∀ (batch' : Option Nat) (chunk' : Nat), 0 < batch'.getD chunk' →
        normalizeHdf5 env (normalizeArgs fs f mean .tuple std batch chunk).files f none none batch' chunk' = .error .ioError := by
  have e : normalizeArgs fs f mean .tuple std batch chunk = ⟨.error .typeError, fs.put f { h with mean := some mean, std := some std }, std⟩ := by
    unfold normalizeArgs
    simp only [hf]
    rw [if_neg hb.ne', if_neg (by simp [h1]), if_neg (by simp [h2])]
    rfl
  rw [e]
  refine ⟨rfl, by simp [Files.put], fun batch' chunk' hb' => ?_⟩
  unfold normalizeHdf5
  simp only [Files.put, if_true]
  rw [if_neg hb'.ne']

/-- C119 (refused for their length): parameters of a wrong length are refused, whatever holds them, and nothing is changed. -/
theorem C119_length (fs : Files K) (f : String) (h : H5 K) (mean : List K) (k : VecKind) (std : List K) (batch : Option Nat) (chunk : Nat)
    (hf : fs f = some h) (hb : 0 < batch.getD chunk) (hl : mean.length ≠ h.data.cols ∨ std.length ≠ h.data.cols) :
    normalizeArgs fs f mean k std batch chunk = ⟨.error .assertion, fs, std⟩ := by
  unfold normalizeArgs
  simp only [hf]
  rw [if_neg hb.ne']
  by_cases h1 : mean.length = h.data.cols
  · rw [if_neg (by simp [h1]), if_pos (by tauto)]
  · rw [if_pos h1]

/-- C119 (one parameter alone), refuted: a mean given without standard deviations is ignored.  For a file that was not normalized before, the call
succeeds, leaves the data as they were, and returns and records the mean of the data instead of the given one, whenever these differ. -/
theorem C119_alone_refuted [IsStrictOrderedRing K] (env : Env K) (hsq : ∀ x : K, 0 ≤ x → 0 ≤ env.sqrt x ∧ env.sqrt x * env.sqrt x = x)
    (fs : Files K) (f : String) (h : H5 K) (mean : List K) (batch : Option Nat) (chunk : Nat) (hf : fs f = some h) (hn : 0 < h.data.nrows)
    (hm : h.mean = none) (hb : 0 < batch.getD chunk) (j : Nat) (hj : j < h.data.cols) (hd : mean.getD j 0 ≠ colMean h.data j) :
    ∃ m s fs' h', normalizeHdf5 env fs f (some mean) none batch chunk = .ok ((m, s), fs') ∧ m ≠ mean ∧ fs' f = some h' ∧ h'.data = h.data ∧
      h'.mean = some m := by
  obtain ⟨m, s, fs', e, -, -, e2, e3, -⟩ := C57_parameters env hsq fs f h (some mean) none batch chunk hf hn hm (by simp) hb
  exact ⟨m, s, fs', _, e, fun hmm => hd (by rw [← hmm]; exact (e2 j hj).1), e3, rfl, rfl⟩

/-! Non-vacuity: two samples with two features, mean (1, 2), standard deviations (2, 4) or (2, 0). -/

def argFile : H5 ℚ := ⟨⟨2, [[3, 6], [5, 2]]⟩, none, none⟩
def argFiles : Files ℚ := Files.put (fun _ => none) "x" argFile

example : argFiles "x" = some argFile ∧ argFile.data.WF ∧ 0 < (some 1 : Option Nat).getD 7 ∧ 0 < argFile.data.cols ∧ (0 : ℚ) ∈ [(2 : ℚ), 0] :=
  ⟨rfl, by intro r hr; simp [argFile] at hr; rcases hr with rfl | rfl <;> rfl, by decide, by decide, by simp⟩
example : ((normalizeArgs argFiles "x" [1, 2] .array [2, 4] (some 1) 7).files "x").map (·.data) = some ⟨2, [[1, 1], [2, 0]]⟩ := by decide +kernel
example : ((normalizeArgs argFiles "x" [1, 2] .list [2, 4] (some 1) 7).files "x").map (·.data) = some ⟨2, [[2, 1], [4, 0]]⟩ := by decide +kernel
example : (normalizeArgs argFiles "x" [1, 2] .array [2, 0] (some 1) 7).std = [2, 1] := by decide +kernel
example : argFile.data.get 0 0 ≠ ([1, 2] : List ℚ).getD 0 0 ∧ ([2, 4] : List ℚ).getD 0 0 ≠ 0 ∧ ([2, 4] : List ℚ).getD 0 0 ≠ 1 := by decide +kernel
example : argFile.mean = none ∧ ([1, 2] : List ℚ).getD 0 0 ≠ colMean argFile.data 0 := ⟨rfl, by decide +kernel⟩
example : ([1] : List ℚ).length ≠ argFile.data.cols := by decide

end Hpelm.Props
