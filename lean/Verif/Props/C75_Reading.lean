import Verif.Props.C47_C48_Writers
import Verif.Spec.Reading

/-! # C75 solving from the files while other processes add to them -/

namespace Hpelm.Props
open Hpelm Spec Finset
variable {M : Type} [AddCommMonoid M]

theorem exec_runs {c : WCtx M} {file0 : FId → Option (Nat → M)} {σ : Nat → WState M} (h : Execution c file0 σ) (t : Nat) :
    CleanRuns c (WState.init file0) (σ t) := by
  induction t with
  | zero => rw [h.start]
  | succ t ih =>
    rcases h.next t with e | e
    · rw [e]; exact ih
    · exact ih.tail e

theorem applied_started {x : WPc M} {f : FId} {i : Nat} (h : applied x f i = true) : Started x := by
  cases x with
  | write g v j => cases f <;> cases g <;> simp_all [applied, Started]; omega
  | check g => cases g <;> cases f <;> simp [applied] at h
  | create g => cases g <;> cases f <;> simp [applied] at h
  | acquire g => cases g <;> cases f <;> simp_all [applied, Started]
  | read g => cases g <;> cases f <;> simp_all [applied, Started]
  | release g => cases g <;> trivial
  | compute => cases f <;> simp [applied] at h
  | crashed => cases f <;> simp [applied] at h
  | done => trivial

/-- A step changes the program counter of one process, from `x` to a later one. -/
theorem step_started {c : WCtx M} {s t : WState M} (h : WStep c s t) (p : Nat) :
    (Started (s.pc p) → Started (t.pc p)) ∧ (s.pc p = .done → t.pc p = .done) := by
  have key : ∀ {q : Nat} {x : WPc M}, (Started (s.pc q) → Started x) → s.pc q ≠ .done →
      (Started (s.pc p) → Started (if p = q then x else s.pc p)) ∧ (s.pc p = .done → (if p = q then x else s.pc p) = .done) := by
    intro q x h1 h2
    by_cases e : p = q
    · subst e; rw [if_pos rfl]; exact ⟨h1, fun h => absurd h h2⟩
    · rw [if_neg e]; exact ⟨id, id⟩
  cases h with
  | checkYes q f v hp h1 hf => exact key (by rw [h1]; exact False.elim) (by rw [h1]; simp)
  | checkNo q f hp h1 hf => exact key (by rw [h1]; exact False.elim) (by rw [h1]; simp)
  | create q f hp h1 => exact key (by rw [h1]; exact False.elim) (by rw [h1]; simp)
  | compute q hp h1 => exact key (by rw [h1]; exact False.elim) (by rw [h1]; simp)
  | acquire q f hp h1 hl => exact key (by rw [h1]; cases f <;> simp [Started]) (by rw [h1]; simp)
  | read q f v hp h1 hf => exact key (by rw [h1]; cases f <;> simp [Started]) (by rw [h1]; simp)
  | write q f v w j hp h1 hf hj => exact key (by rw [h1]; cases f <;> simp [Started]) (by rw [h1]; simp)
  | written q f v j hp h1 hj => exact key (by rw [h1]; cases f <;> simp [Started]) (by rw [h1]; simp)
  | release q f hp h1 => exact key (by rw [h1]; cases f <;> simp [Started, afterUpdate]) (by rw [h1]; simp)

theorem exec_mono {c : WCtx M} {file0 : FId → Option (Nat → M)} {σ : Nat → WState M} (h : Execution c file0 σ) (p : Nat) {t u : Nat} (htu : t ≤ u) :
    (Started ((σ t).pc p) → Started ((σ u).pc p)) ∧ ((σ t).pc p = .done → (σ u).pc p = .done) := by
  induction htu with
  | refl => exact ⟨id, id⟩
  | @step u _ ih =>
    rcases h.next u with e | e
    · rw [e]; exact ih
    · have := step_started e.1 p
      exact ⟨this.1 ∘ ih.1, this.2 ∘ ih.2⟩

/-- C75 for a single cell: whenever it is read between the moments `t0` and `t1`, it holds the start value plus the contributions of some
processes, each once; all those that had finished at `t0` and none that had not begun to write at `t1`.

Missing for the full property: different cells may show different processes, see `C75_torn_pair_refuted`. -/
theorem C75_cell_partial (c : WCtx M) (file0 : FId → Option (Nat → M)) (σ : Nat → WState M) (h : Execution c file0 σ) (t0 t t1 : Nat)
    (h0 : t0 ≤ t) (h1 : t ≤ t1) (f : FId) (v : Nat → M) (hv : (σ t).file f = some v) (i : Nat) (hi : i < c.size f) :
    ∃ S ⊆ range c.n, (∀ p < c.n, (σ t0).pc p = .done → p ∈ S) ∧ (∀ p ∈ S, Started ((σ t1).pc p)) ∧
      v i = base c file0 f i + ∑ p ∈ S, c.contrib p f i := by
  obtain ⟨hl, C, hC⟩ := untorn_inv (clean_untorn (exec_runs h t))
  have hno : ∀ t p, (σ t).pc p ≠ .crashed := by
    intro t p
    induction t with
    | zero => rw [h.start]; simp [WState.init]
    | succ t ih =>
      rcases h.next t with e | e
      · rw [e]; exact ih
      · exact fun hc => ih (step_crashed e.1 hc)
  have hCe : C f = ∅ := by
    apply Finset.eq_empty_of_forall_notMem
    intro p hp
    exact hno t p (hC.crashed f p hp).2
  refine ⟨(range c.n).filter fun p => applied ((σ t).pc p) f i = true, Finset.filter_subset _ _, ?_, ?_, ?_⟩
  · intro p hp hd
    rw [Finset.mem_filter, (exec_mono h p h0).2 hd]
    exact ⟨Finset.mem_range.2 hp, by cases f <;> rfl⟩
  · intro p hp
    exact (exec_mono h p h1).1 (applied_started (Finset.mem_filter.1 hp).2)
  · rw [hC.cell f v hv i hi, hCe, Finset.sum_empty, add_zero, Finset.sum_filter]

/-- C75 when the processes rest: if every process that has begun to write by the end of the reading had finished before it began, then all
cells of both matrices, read in any order at any moments in between, are the start values plus the contributions of the finished
processes. -/
theorem C75_quiet_partial (c : WCtx M) (file0 : FId → Option (Nat → M)) (σ : Nat → WState M) (h : Execution c file0 σ) (t0 t1 : Nat)
    (hq : ∀ p < c.n, Started ((σ t1).pc p) → (σ t0).pc p = .done) :
    ∃ A ⊆ range c.n, (∀ p < c.n, p ∈ A ↔ (σ t0).pc p = .done) ∧
      ∀ f t, t0 ≤ t → t ≤ t1 → ∀ v, (σ t).file f = some v → ∀ i < c.size f, v i = base c file0 f i + ∑ p ∈ A, c.contrib p f i := by
  classical
  refine ⟨(range c.n).filter fun p => (σ t0).pc p = .done, Finset.filter_subset _ _, ?_, ?_⟩
  · intro p hp
    rw [Finset.mem_filter, Finset.mem_range]
    exact ⟨fun a => a.2, fun a => ⟨hp, a⟩⟩
  · intro f t h0 h1 v hv i hi
    obtain ⟨S, s1, s2, s3, s4⟩ := C75_cell_partial c file0 σ h t0 t t1 h0 h1 f v hv i hi
    rw [s4]
    congr 2
    ext p
    rw [Finset.mem_filter]
    constructor
    · intro hp
      exact ⟨s1 hp, hq p (Finset.mem_range.1 (s1 hp)) (s3 p hp)⟩
    · intro hp
      exact s2 p (Finset.mem_range.1 hp.1) hp.2

theorem cleanSchedule_append (c : WCtx M) (l l' : List Nat) (s : WState M) :
    cleanSchedule c (l ++ l') s = (cleanSchedule c l s).bind (cleanSchedule c l') := by
  induction l generalizing s with
  | nil => rfl
  | cons p l ih =>
    rw [List.cons_append, cleanSchedule, cleanSchedule]
    have hb : (nextStep c s p).bind (cleanSchedule c (l ++ l')) = ((nextStep c s p).bind (cleanSchedule c l)).bind (cleanSchedule c l') := by
      cases nextStep c s p with
      | none => rfl
      | some u => exact ih u
    split
    · split
      · rfl
      · exact hb
    · exact hb

/-- The states along a schedule; the writers rest after its end. -/
def along (c : WCtx M) (l : List Nat) (s : WState M) (t : Nat) : WState M := (cleanSchedule c (l.take t) s).getD s

theorem cleanSchedule_one {c : WCtx M} {p : Nat} {s t : WState M} (h : cleanSchedule c [p] s = some t) : WStep c s t ∧ ¬ Clobbers s t := by
  have key : (∀ f, s.pc p = .create f → s.file f = none) ∧ nextStep c s p = some t := by
    have hb : (nextStep c s p).bind (cleanSchedule c []) = nextStep c s p := by
      cases nextStep c s p <;> rfl
    unfold cleanSchedule at h
    split at h
    · rename_i f e
      split at h
      · cases h
      · rename_i hf
        rw [hb] at h
        refine ⟨?_, h⟩
        intro g hg
        rw [e] at hg
        injection hg with hg
        rw [← hg]; exact hf
    · rename_i hne
      rw [hb] at h
      exact ⟨fun f hf => absurd hf (hne f), h⟩
  refine ⟨nextStep_sound key.2, ?_⟩
  rintro ⟨q, f, e1, e2, e3⟩
  by_cases hq : q = p
  · subst hq; exact e2 (key.1 f e1)
  · exact e3 (nextStep_pc key.2 hq)

theorem along_execution {c : WCtx M} {l : List Nat} {file0 : FId → Option (Nat → M)} (h : (cleanSchedule c l (WState.init file0)).isSome) :
    Execution c file0 (along c l (WState.init file0)) := by
  have some_take : ∀ t, (cleanSchedule c (l.take t) (WState.init file0)).isSome := by
    intro t
    rw [← List.take_append_drop t l, cleanSchedule_append] at h
    cases hc : cleanSchedule c (l.take t) (WState.init file0) with
    | none => rw [hc] at h; cases h
    | some u => rfl
  refine ⟨rfl, fun t => ?_⟩
  by_cases ht : t < l.length
  · right
    obtain ⟨u, hu⟩ := Option.isSome_iff_exists.1 (some_take t)
    obtain ⟨w, hw⟩ := Option.isSome_iff_exists.1 (some_take (t + 1))
    unfold along
    rw [hu, hw]
    rw [List.take_succ_eq_append_getElem ht, cleanSchedule_append, hu] at hw
    exact cleanSchedule_one hw
  · left
    unfold along
    rw [List.take_of_length_le (by omega), List.take_of_length_le (by omega)]

/-- Turns of the two processes: process 0 adds to both files, then process 1 updates the first file. -/
def exReading : List Nat := List.replicate 15 0 ++ List.replicate 8 1

/-- The hypotheses are met: process 0 is done at moment 15, process 1 has not begun to write at moment 18, and the files exist. -/
example : Execution (exCtx 1) (fun _ => none) (along (exCtx 1) exReading (WState.init fun _ => none)) ∧
    (along (exCtx 1) exReading (WState.init fun _ => none) 15).pc 0 = .done ∧
    ¬ Started ((along (exCtx 1) exReading (WState.init fun _ => none) 18).pc 1) ∧
    ((along (exCtx 1) exReading (WState.init fun _ => none) 16).file .hh).map (· 0) = some 1 := by
  refine ⟨along_execution (by decide +kernel), ?_, ?_, by decide +kernel⟩
  · exact isDone_iff.1 (by decide +kernel)
  · have : (match (along (exCtx 1) exReading (WState.init fun _ => none) 18).pc 1 with | .compute => true | .acquire .hh => true | _ => false) = true := by decide +kernel
    revert this
    split <;> simp_all [Started]

/-- C75 in full is false: while a process adds its part, the first matrix may be read with the part and the second without it, at the very
same moment; no set of processes explains both matrices, so the solution belongs to no data set. -/
theorem C75_torn_pair_refuted : ∃ (σ : Nat → WState Int) (t : Nat), Execution (exCtx 1) (fun _ => none) σ ∧
    (∃ p < 2, (σ t).pc p = .done) ∧ (∀ f, (σ t).file f ≠ none) ∧
    ∀ A ⊆ range 2, ¬ (Holds (exCtx 1) (fun _ => none) (σ t) .hh A ∧ Holds (exCtx 1) (fun _ => none) (σ t) .ht A) := by
  refine ⟨along (exCtx 1) exReading (WState.init fun _ => none), 23, along_execution (by decide +kernel), ⟨0, by decide, ?_⟩, ?_, ?_⟩
  · exact isDone_iff.1 (by decide +kernel)
  · intro f
    have : ((along (exCtx 1) exReading (WState.init fun _ => none) 23).file f).isSome = true := by cases f <;> decide +kernel
    intro h
    rw [h] at this
    cases this
  · rintro A hA ⟨⟨v, hv, hs⟩, ⟨w, hw, ht⟩⟩
    have e1 : ((along (exCtx 1) exReading (WState.init fun _ => none) 23).file .hh).map (· 0) = some 11 := by decide +kernel
    have e2 : ((along (exCtx 1) exReading (WState.init fun _ => none) 23).file .ht).map (· 0) = some 1 := by decide +kernel
    rw [hv] at e1
    rw [hw] at e2
    simp only [Option.map_some, Option.some.injEq] at e1 e2
    have a := hs 0 (by decide)
    have b := ht 0 (by decide)
    rw [e1] at a
    rw [e2] at b
    have : (base (exCtx 1) (fun _ => none) .hh 0 + ∑ p ∈ A, (exCtx 1).contrib p .hh 0) = base (exCtx 1) (fun _ => none) .ht 0 + ∑ p ∈ A, (exCtx 1).contrib p .ht 0 := rfl
    rw [← a, ← b] at this
    cases this

end Hpelm.Props
