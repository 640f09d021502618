import Verif.Model.MakeCrash
import Verif.Props.C55_C58_Files

/-!
# C117 — conversion of data to an HDF5 file that fails or is interrupted
-/

set_option linter.unusedSectionVars false

namespace Hpelm.Props
open Hpelm Spec
variable {K : Type} [Field K] [LinearOrder K]

theorem appended_all (cast : K → K) (c : Nat) (ls : List (Option (List K))) {acc rows : List (List K)} (h : appendRows cast c ls acc = .ok rows) :
    rows = acc ++ appended cast c ls := by
  induction ls generalizing acc with
  | nil => unfold appendRows at h; injection h with h; simp [appended, h]
  | cons l ls ih =>
    cases l with
    | none => cases h
    | some r =>
      unfold appendRows at h
      split at h
      · rename_i hr
        rw [ih h, appended, if_pos hr, List.append_assoc]
        rfl
      · cases h

theorem appended_good (cast : K → K) (c : Nat) (rs : List (List K)) (h : ∀ r ∈ rs, r.length = c) (b : Option (List K)) (hb : ∀ q, b = some q → q.length ≠ c)
    (ls : List (Option (List K))) : appended cast c (rs.map some ++ b :: ls) = rs.map (List.map cast) := by
  induction rs with
  | nil =>
    cases b with
    | none => rfl
    | some q => simp only [List.map_nil, List.nil_append, appended]; rw [if_neg (hb q rfl)]
  | cons r rs ih =>
    simp only [List.map_cons, List.cons_append, appended]
    rw [if_pos (h r List.mem_cons_self), ih fun q hq => h q (List.mem_cons_of_mem _ hq)]

/-- The successful call in terms of the data. -/
theorem makeHdf5_inv {cast : K → K} {fs fs' : Files K} {d : H5Data K} {f : String} {lvl : Nat} (h : makeHdf5 cast fs d f lvl = .ok fs') :
    d.opens lvl = true ∧ ((∃ M, d.array cast = some M ∧ ¬ (M.nrows = 0 ∨ M.cols = 0) ∧ fs' = fs.put f ⟨M, none, none⟩) ∨
      ∃ r rs, d = .text (some r :: rs) ∧ r.length ≠ 0 ∧ fs' = fs.put f ⟨⟨r.length, appended cast r.length (some r :: rs)⟩, none, none⟩) := by
  unfold makeHdf5 at h
  obtain ⟨u, hl, h⟩ := bind_ok h
  have hl : lvl < 10 := by
    unfold pyAssert at hl
    split at hl
    · rename_i h; simpa using h
    · cases hl
  have arr : ∀ M : Mat K, makeArray fs f M = .ok fs' → ¬ (M.nrows = 0 ∨ M.cols = 0) ∧ fs' = fs.put f ⟨M, none, none⟩ := by
    intro M h
    unfold makeArray at h
    split at h
    · cases h
    · rename_i h0; injection h with h; exact ⟨h0, h.symm⟩
  cases d with
  | vec v => exact ⟨by simpa [H5Data.opens] using hl, .inl ⟨_, rfl, arr _ h⟩⟩
  | mat M => exact ⟨by simpa [H5Data.opens] using hl, .inl ⟨_, rfl, arr _ h⟩⟩
  | shape r c => exact ⟨by simpa [H5Data.opens] using hl, .inl ⟨_, rfl, arr _ h⟩⟩
  | otherDim => cases h
  | unsupported => cases h
  | text ls =>
    cases ls with
    | nil => cases h
    | cons l ls =>
      cases l with
      | none => cases h
      | some r =>
        simp only at h
        refine ⟨by simpa [H5Data.opens] using hl, .inr ⟨r, ls, rfl, ?_⟩⟩
        by_cases h0 : r.length = 0
        · rw [if_pos h0] at h; cases h
        · rw [if_neg h0] at h
          refine ⟨h0, ?_⟩
          obtain ⟨rows, h1, h2⟩ := bind_ok h
          have := appended_all cast r.length _ h1
          injection h2 with h2
          rw [← h2, this, List.nil_append]

/-- C117 (success).  The description of the files afterwards agrees with the call when it succeeds. -/
theorem C117_success (cast : K → K) (fs fs' : Files K) (d : H5Data K) (f : String) (lvl : Nat) (h : makeHdf5 cast fs d f lvl = .ok fs') :
    makeHdf5Files cast fs d f lvl = fs' := by
  obtain ⟨h1, ⟨M, h2, h3, h4⟩ | ⟨r, rs, rfl, h3, h4⟩⟩ := makeHdf5_inv h
  · unfold makeHdf5Files
    rw [if_neg (by rw [h1]; simp), h4]
    split
    · cases h2
    · rw [h2]; simp only; rw [if_neg h3]
  · unfold makeHdf5Files
    rw [if_neg (by rw [h1]; simp), h4]
    simp only
    rw [if_neg h3]

/-- C117 (other files).  Whatever is converted, successfully or not, no other file changes. -/
theorem C117_others (cast : K → K) (fs : Files K) (d : H5Data K) (f : String) (lvl : Nat) (g : String) (hg : g ≠ f) :
    makeHdf5Files cast fs d f lvl g = fs g := by
  unfold makeHdf5Files
  split
  · rfl
  · split
    · split <;> simp [Files.drop, Files.put, hg]
    · cases d.array cast with
      | none => rfl
      | some M =>
        simp only
        split <;> simp [Files.drop, Files.put, hg]

/-- C117 (rejected arguments).  A call rejected because of its arguments (a wrong compression level, data of an unknown kind or with a wrong number of
dimensions, an empty text file, a text file whose first line is not made of numbers) leaves the file as it was. -/
theorem C117_rejected (cast : K → K) (fs : Files K) (d : H5Data K) (f : String) (lvl : Nat)
    (h : 10 ≤ lvl ∨ d = .otherDim ∨ d = .unsupported ∨ d = .text [] ∨ ∃ ls, d = .text (none :: ls)) :
    (∃ x, makeHdf5 cast fs d f lvl = .error x) ∧ makeHdf5Files cast fs d f lvl = fs := by
  have ho : d.opens lvl = false := by
    rcases h with h | rfl | rfl | rfl | ⟨ls, rfl⟩
    · cases d with
      | text ls => rcases ls with _ | ⟨_ | r, ls⟩ <;> simp [H5Data.opens, h]
      | _ => simp [H5Data.opens, h]
    all_goals rfl
  constructor
  · cases hm : makeHdf5 cast fs d f lvl with
    | error x => exact ⟨x, rfl⟩
    | ok fs' => rw [(makeHdf5_inv hm).1] at ho; cases ho
  · unfold makeHdf5Files
    rw [if_pos ho]

/-- C117 (bad line).  A text file whose line number `k ≥ 1` (counted from 0) has another number of values than the first line, or something that is not a
number, is rejected, but a data file with exactly the `k` lines before it is left, and is accepted as data from then on. -/
theorem C117_bad_line (cast : K → K) (fs : Files K) (r : List K) (hr : r ≠ []) (rs : List (List K)) (hrs : ∀ q ∈ rs, q.length = r.length) (b : Option (List K))
    (hb : ∀ q, b = some q → q.length ≠ r.length) (ls : List (Option (List K))) (f : String) (lvl : Nat) (hl : lvl < 10) :
    makeHdf5 cast fs (.text ((r :: rs).map some ++ b :: ls)) f lvl = .error .valueError ∧
    checkOne (makeHdf5Files cast fs (.text ((r :: rs).map some ++ b :: ls)) f lvl) r.length (.path f) =
      .ok (some ⟨r.length, (r :: rs).map (List.map cast)⟩) := by
  constructor
  · exact (C56_text cast fs r f lvl hl hr).2 _ ⟨b, by simp, hb⟩
  · have h0 : r.length ≠ 0 := by simpa using hr
    have ha := appended_good cast r.length (r :: rs) (by
      intro q hq
      rcases List.mem_cons.1 hq with rfl | hq
      · rfl
      · exact hrs q hq) b hb ls
    have : makeHdf5Files cast fs (.text ((r :: rs).map some ++ b :: ls)) f lvl =
        fs.put f ⟨⟨r.length, (r :: rs).map (List.map cast)⟩, none, none⟩ := by
      simp only [List.map_cons, List.cons_append] at ha ⊢
      unfold makeHdf5Files
      rw [if_neg (by simpa [H5Data.opens] using hl)]
      simp only
      rw [if_neg h0, ha]
    rw [this, checkOne_iff]
    refine ⟨Reads.file f ⟨⟨r.length, (r :: rs).map (List.map cast)⟩, none, none⟩ (by simp [Files.put]) (by simp [Mat.nrows]), ?_⟩
    intro M h
    injection h with h
    rw [← h]

/-- C117 as a user would like it is false: a conversion that raises may destroy the data that was in the file, and put a part of the new data there. -/
theorem C117_previous_refuted :
    ¬ ∀ (fs : Files ℚ) (d : H5Data ℚ) (f : String) (lvl : Nat), (∃ x, makeHdf5 id fs d f lvl = .error x) → makeHdf5Files id fs d f lvl = fs := by
  intro h
  have := h (Files.put (fun _ => none) "X" ⟨⟨1, [[7]]⟩, none, none⟩) (.text [some [1], none, some [3]]) "X" 0 ⟨.valueError, rfl⟩
  have := congrFun this "X"
  revert this
  decide +kernel

/-- C117 (interrupted), the part that holds.  If the call would have succeeded, a file found after the process was killed is the old one, or has no array, or
its rows are the first rows of the data, or it has the shape of the data and every value is the value of the data or 0. (Missing: that the old data is kept,
or that an incomplete file is refused.) -/
theorem C117_interrupted_partial (cast : K → K) (fs fs' : Files K) (d : H5Data K) (f : String) (lvl : Nat) (h : makeHdf5 cast fs d f lvl = .ok fs')
    (left : Option (H5 K)) (hl : MakeLeft cast d lvl (fs f) left) :
    ∃ D, fs' f = some ⟨D, none, none⟩ ∧ (left = fs f ∨ left = none ∨ ∃ Z, left = some ⟨Z, none, none⟩ ∧ Z.cols = D.cols ∧
      (Z.rows <+: D.rows ∨ Z.WF ∧ Z.nrows = D.nrows ∧ ∀ i < D.nrows, ∀ j < D.cols, Z.get i j = 0 ∨ Z.get i j = D.get i j)) := by
  obtain ⟨h1, h2⟩ := makeHdf5_inv h
  cases hl with
  | before =>
    rcases h2 with ⟨M, _, _, rfl⟩ | ⟨r, rs, _, _, rfl⟩
    · exact ⟨M, by simp [Files.put], .inl rfl⟩
    · exact ⟨⟨r.length, appended cast r.length (some r :: rs)⟩, by simp [Files.put], .inl rfl⟩
  | truncated =>
    rcases h2 with ⟨M, _, _, rfl⟩ | ⟨r, rs, _, _, rfl⟩
    · exact ⟨M, by simp [Files.put], .inr (.inl rfl)⟩
    · exact ⟨⟨r.length, appended cast r.length (some r :: rs)⟩, by simp [Files.put], .inr (.inl rfl)⟩
  | lines _ r rs hd hr k =>
    subst hd
    rcases h2 with ⟨M, h2, _⟩ | ⟨r', rs', h2, _, rfl⟩
    · cases h2
    · cases h2
      exact ⟨⟨r.length, appended cast r.length (some r :: rs)⟩, by simp [Files.put], .inr (.inr ⟨_, rfl, rfl, .inl (List.take_prefix _ _)⟩)⟩
  | values _ M Z hd _ hw hc hn hz =>
    rcases h2 with ⟨M', h2, _, rfl⟩ | ⟨r', rs', rfl, _, _⟩
    · rw [h2] at hd
      cases hd
      exact ⟨M, by simp [Files.put], .inr (.inr ⟨Z, rfl, hc, .inr ⟨hw, hn, hz⟩⟩)⟩
    · cases hd

/-- C117 (repetition).  Whatever a killed or a failed conversion left, repeating it has the same outcome and leaves the same files as if it had been run once. -/
theorem C117_repeat (cast : K → K) (fs : Files K) (d d' : H5Data K) (f : String) (lvl lvl' : Nat) :
    (∀ left, MakeLeft cast d' lvl' (fs f) left → makeHdf5 cast (fun g => if g = f then left else fs g) d f lvl = makeHdf5 cast fs d f lvl) ∧
    makeHdf5 cast (makeHdf5Files cast fs d' f lvl') d f lvl = makeHdf5 cast fs d f lvl := by
  have key : ∀ fs1 : Files K, (∀ g, g ≠ f → fs1 g = fs g) → makeHdf5 cast fs1 d f lvl = makeHdf5 cast fs d f lvl := by
    intro fs1 hg
    have hp : ∀ h, fs1.put f h = fs.put f h := by
      intro h
      funext g
      unfold Files.put
      split
      · rfl
      · rename_i hne; exact hg g hne
    have ha : ∀ M, makeArray fs1 f M = makeArray fs f M := by
      intro M
      unfold makeArray
      rw [hp]
    unfold makeHdf5
    simp only [ha, hp]
  exact ⟨fun left _ => key _ fun g hg => by simp [hg], key _ fun g hg => C117_others cast fs d' f lvl' g hg⟩

/-- A text file of three lines: killed after two, the file holds two samples; with a bad third line as well; the repeated, repaired conversion gives all. -/
example : MakeLeft (id : ℚ → ℚ) (.text [some [1, 2], some [3, 4], some [5, 6]]) 0 none (some ⟨⟨2, [[1, 2], [3, 4]]⟩, none, none⟩) ∧
    (makeHdf5 (id : ℚ → ℚ) (fun _ => none) (.text [some [1, 2], some [3, 4], some [5, 6]]) "X" 0).isOk = true ∧
    (makeHdf5Files (id : ℚ → ℚ) (fun _ => none) (.text [some [1, 2], some [3, 4], some [5]]) "X" 0) "X" = some ⟨⟨2, [[1, 2], [3, 4]]⟩, none, none⟩ := by
  refine ⟨?_, by decide +kernel, by decide +kernel⟩
  have := MakeLeft.lines (cast := (id : ℚ → ℚ)) (d := .text [some [1, 2], some [3, 4], some [5, 6]]) (lvl := 0) (old := none) rfl [1, 2] _ rfl (by simp) 2
  simpa [appended] using this

end Hpelm.Props
