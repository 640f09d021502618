import Verif.Props.C76_C78_ErrorLaws
import Verif.Props.C30_HError

/-!
# C78 for data on disk: evaluating consecutive ranges
-/

set_option linter.unusedSectionVars false

namespace Hpelm.Props
open Hpelm Spec
variable {K : Type} [Field K] [LinearOrder K] [IsStrictOrderedRing K]

theorem samplesIn_nrows {M : Mat K} {i c : Nat} (h : i + c ≤ M.nrows) : (samplesIn M i (some c)).nrows = c := by
  unfold samplesIn Mat.nrows at *
  simp only [List.length_take, List.length_drop]
  omega

theorem samplesIn_add (M : Mat K) (i a b : Nat) :
    samplesIn M i (some (a + b)) = vstack (samplesIn M i (some a)) (samplesIn M (i + a) (some b)) := by
  unfold samplesIn vstack
  simp only
  rw [List.take_add, List.drop_drop]

theorem samplesIn_wf {M : Mat K} (h : M.WF) (i c : Nat) : (samplesIn M i (some c)).WF := by
  intro r hr
  exact h r (List.mem_of_mem_drop (List.mem_of_mem_take hr))

theorem Fits.range {e : ELM K} {T Y : Mat K} (h : Fits e T Y) {i c : Nat} (hc : i + c ≤ T.nrows) :
    Fits e (samplesIn T i (some c)) (samplesIn Y i (some c)) :=
  ⟨samplesIn_wf h.wfT i c, samplesIn_wf h.wfY i c, by rw [samplesIn_nrows hc, samplesIn_nrows (by rw [← h.rows]; exact hc)], h.colsT, h.colsY, h.pos⟩

/-- HPELM.error on a range is defined (classification, multi-label classification, regression). -/
theorem rangeError {fs : Files K} {e : ELM K} {fT fY : DataArg K} {T Y : Mat K} (rT : Reads fs fT (some T)) (rY : Reads fs fY (some Y))
    (h : Fits e T Y) (hb : 0 < e.batch) (hc : e.classification = some "c" ∨ e.classification = some "ml" ∨ e.classification = none)
    {i c : Nat} (hn : 0 < c) (hN : i + c ≤ T.nrows) (v : K) :
    e.hErrorOf fs fT fY i (some c) = .ok (some v) ↔ e.error fs (.mat (samplesIn T i (some c))) (.mat (samplesIn Y i (some c))) = .ok v := by
  refine C30_hpelm_error_partial fs e fT fY T Y i (some c) rT rY h hb (by rw [samplesIn_nrows hN]; exact hn) ?_ v
  intro hw
  rw [hw] at hc
  rcases hc with hc | hc | hc
  · exact absurd hc (by decide)
  · exact absurd hc (by decide)
  · cases hc

/-- C78, on-disk data.  HPELM.error on consecutive ranges of `cs[0], cs[1], …` samples (none of them empty) and on all of them together is
defined, and the latter is the average of the former weighted by the numbers of samples, in classification, multi-label classification and
regression, for every batch size. -/
theorem C78_on_disk_partial (fs : Files K) (e : ELM K) (fT fY : DataArg K) (T Y : Mat K) (rT : Reads fs fT (some T)) (rY : Reads fs fY (some Y))
    (h : Fits e T Y) (hb : 0 < e.batch) (hc : e.classification = some "c" ∨ e.classification = some "ml" ∨ e.classification = none)
    (istart : Nat) (cs : List Nat) (hcs : cs ≠ []) (hpos : ∀ c ∈ cs, 0 < c) (hN : istart + cs.sum ≤ T.nrows) :
    ∃ (v : K) (vs : List K), e.hErrorOf fs fT fY istart (some ↑cs.sum) = .ok (some v) ∧ vs.length = cs.length ∧
      (∀ k < cs.length, e.hErrorOf fs fT fY ↑(istart + (cs.take k).sum) (some ↑(cs.getD k 0)) = .ok (some (vs.getD k 0))) ∧
      v = (List.zipWith (fun (c : Nat) w => (c : K) * w) cs vs).sum / (cs.sum : Nat) := by
  induction cs generalizing istart with
  | nil => exact absurd rfl hcs
  | cons c cs ih =>
    have hc0 : 0 < c := hpos c List.mem_cons_self
    simp only [List.sum_cons] at hN
    by_cases hcs' : cs = []
    · subst hcs'
      simp only [List.sum_nil, Nat.add_zero] at hN
      have hf := h.range (i := istart) (c := c) hN
      have h0 : 0 < (samplesIn T istart (some c)).nrows := by rw [samplesIn_nrows hN]; exact hc0
      obtain ⟨_, v, _, _, k2, _, _⟩ := C78_error_partial fs e _ _ _ _ hf hf hb h0 h0 hc
      have hv := (rangeError rT rY h hb hc (i := istart) hc0 hN v).2 k2
      refine ⟨v, [v], by simpa using hv, rfl, ?_, ?_⟩
      · intro k hk
        have hk0 : k = 0 := by simpa using hk
        subst hk0
        simpa using hv
      · have : (c : K) ≠ 0 := by exact_mod_cast hc0.ne'
        simp [this]
    · obtain ⟨v₂, vs, h1, h2, h3, h4⟩ := ih (istart + c) hcs' (fun x hx => hpos x (List.mem_cons_of_mem _ hx)) (by omega)
      have hs : 0 < cs.sum := by
        cases cs with
        | nil => exact absurd rfl hcs'
        | cons d ds =>
          have := hpos d (by simp)
          simp only [List.sum_cons]
          omega
      obtain ⟨v, w₁, w₂, k1, k2, k3, k4⟩ := C78_error_partial fs e _ _ _ _ (h.range (i := istart) (c := c) (by omega))
        (h.range (i := istart + c) (c := cs.sum) (by omega)) hb (by rw [samplesIn_nrows (by omega)]; exact hc0)
        (by rw [samplesIn_nrows (by omega)]; exact hs) hc
      rw [← samplesIn_add, ← samplesIn_add] at k1
      rw [samplesIn_nrows (by omega), samplesIn_nrows (by omega)] at k4
      have e1 := (rangeError rT rY h hb hc (i := istart) (c := c + cs.sum) (by omega) (by omega) v).2 k1
      have e2 := (rangeError rT rY h hb hc (i := istart) (c := c) hc0 (by omega) w₁).2 k2
      have e3 := (rangeError rT rY h hb hc (i := istart + c) (c := cs.sum) hs (by omega) v₂).1 h1
      have hw : w₂ = v₂ := by
        rw [k3] at e3
        injection e3
      subst hw
      refine ⟨v, w₁ :: vs, e1, by simp [h2], ?_, ?_⟩
      · intro k hk
        cases k with
        | zero => simpa using e2
        | succ k =>
          have := h3 k (by simpa using hk)
          simpa [Nat.add_assoc] using this
      · have hs' : (cs.sum : K) ≠ 0 := by exact_mod_cast hs.ne'
        rw [k4, h4]
        simp only [List.zipWith_cons_cons, List.sum_cons]
        rw [Nat.cast_add, mul_div_cancel₀ _ hs']

/-- The hypotheses are met: five samples evaluated as ranges of 2, 1 and 2 samples after batches of 2. -/
example := C78_on_disk_partial (K := ℚ) (fun _ => none) (exModel 2 2 (some "c") none) _ _ _ _
  (Reads.mat ⟨2, [[1, 0], [0, 1], [0, 1], [1, 0], [0, 1]]⟩) (Reads.mat ⟨2, [[1, 0], [1, 0], [0, 1], [0, 1], [0, 1]]⟩)
  ⟨by simp [Mat.WF], by simp [Mat.WF], rfl, rfl, rfl, by decide⟩ (by decide) (Or.inl rfl) 0 [2, 1, 2] (by simp) (by decide) (by decide)

/-- Errors 1/2 of the first two samples, 0 of the third, 1/2 of the last two, 2/5 of all. -/
example : (exModel 2 2 (some "c") none).hErrorOf (K := ℚ) (fun _ => none) (.mat ⟨2, [[1, 0], [0, 1], [0, 1], [1, 0], [0, 1]]⟩)
      (.mat ⟨2, [[1, 0], [1, 0], [0, 1], [0, 1], [0, 1]]⟩) 3 (some 2) = .ok (some (1 / 2)) ∧
    (exModel 2 2 (some "c") none).hErrorOf (K := ℚ) (fun _ => none) (.mat ⟨2, [[1, 0], [0, 1], [0, 1], [1, 0], [0, 1]]⟩)
      (.mat ⟨2, [[1, 0], [1, 0], [0, 1], [0, 1], [0, 1]]⟩) 0 (some 5) = .ok (some (2 / 5)) := by decide +kernel

end Hpelm.Props
