import Verif.Lemmas.Writers
import Mathlib.Order.WellFounded
import Mathlib.Order.OrderIsoNat

/-!
# C47, C48: several processes adding to the same files

Processes run `add_data(..., fHH, fHT)` concurrently; the transition system is in `Verif/Model/Writers.lean`.
-/

namespace Hpelm.Props
open Hpelm Spec Finset
variable {M : Type} [AddCommMonoid M]

theorem lockInv_run {M : Type} [Add M] {c : WCtx M} {file0 : FId → Option (Nat → M)} {s : WState M}
    (h : Relation.ReflTransGen (WCStep c) (WState.init file0) s) : LockInv c s := by
  induction h with
  | refl => exact lockInv_init c file0
  | tail _ hs ih => exact lockInv_cstep ih hs

theorem untorn_inv {c : WCtx M} {file0 : FId → Option (Nat → M)} {s : WState M} (h : UntornRuns c (WState.init file0) s) :
    LockInv c s ∧ ∃ C, CellInv c file0 s C := by
  induction h with
  | refl => exact ⟨lockInv_init c file0, _, cellInv_init c file0⟩
  | tail _ hs ih =>
    obtain ⟨hl, C, hC⟩ := ih
    obtain ⟨h1, h2, h3⟩ := hs
    refine ⟨lockInv_cstep hl h1, ?_⟩
    cases h1 with
    | step _ hs => exact ⟨C, cellInv_step hl hC hs h2⟩
    | crash p hp hd =>
      refine ⟨_, cellInv_crash hl hC hp ?_⟩
      intro f v j hj
      by_contra hne
      apply h3
      refine ⟨p, f, v, j, hj, by omega, by omega, ?_⟩
      unfold WState.crash
      split <;> simp

/-- Steps do not make a process crashed. -/
theorem step_crashed {M : Type} [Add M] {c : WCtx M} {s t : WState M} (h : WStep c s t) {p : Nat} (hc : t.pc p = .crashed) : s.pc p = .crashed := by
  have key : ∀ {q : Nat} {x : WPc M}, x ≠ .crashed → (if p = q then x else s.pc p) = .crashed → s.pc p = .crashed := by
    intro q x hx hq
    split at hq
    · exact absurd hq hx
    · exact hq
  cases h with
  | checkYes q f v hp h1 hf => exact key (by cases f <;> simp [afterPrepare]) hc
  | checkNo q f hp h1 hf => exact key (by simp) hc
  | create q f hp h1 => exact key (by cases f <;> simp [afterPrepare]) hc
  | compute q hp h1 => exact key (by simp) hc
  | acquire q f hp h1 hl => exact key (by simp) hc
  | read q f v hp h1 hf => exact key (by simp) hc
  | write q f v w j hp h1 hf hj => exact key (by simp) hc
  | written q f v j hp h1 hj => exact key (by simp) hc
  | release q f hp h1 => exact key (by cases f <;> simp [afterUpdate]) hc

theorem clean_untorn {M : Type} [Add M] {c : WCtx M} {s t : WState M} (h : CleanRuns c s t) : UntornRuns c s t := by
  induction h with
  | refl => exact .refl
  | tail _ hs ih =>
    refine ih.tail ⟨.step _ _ hs.1, hs.2, ?_⟩
    rintro ⟨p, f, v, j, e, hj, hjs, hc⟩
    have := step_crashed hs.1 hc
    rw [e] at this
    cases this

theorem runs_cruns {c : WCtx M} {s t : WState M} (h : Runs c s t) : Relation.ReflTransGen (WCStep c) s t := by
  induction h with
  | refl => exact .refl
  | tail _ hs ih => exact ih.tail (.step _ _ hs)

/-! ## C47 parallel writers -/

/-- C47, every interleaving in which no process creates a file that another one has created in the meantime: when all processes are
done, both files hold the start value (the regularised empty matrices if they did not exist) plus the contributions of all of them.

Missing for the full property: two processes that both find the files absent can lose contributions, see `C47_creation_race_refuted`. -/
theorem C47_no_lost_update_partial (c : WCtx M) (file0 : FId → Option (Nat → M)) (s : WState M) (hr : CleanRuns c (WState.init file0) s)
    (hn : 0 < c.n) (hd : ∀ p < c.n, s.pc p = .done) (f : FId) : Holds c file0 s f (range c.n) := by
  obtain ⟨hl, C, hC⟩ := untorn_inv (clean_untorn hr)
  have hne : s.file f ≠ none := hl.exist 0 f (by rw [hd 0 hn]; cases f <;> trivial)
  obtain ⟨w, hw⟩ := Option.ne_none_iff_exists'.1 hne
  refine ⟨w, hw, ?_⟩
  intro i hi
  rw [hC.cell f w hw i hi]
  have hCe : C f = ∅ := by
    apply Finset.eq_empty_of_forall_notMem
    intro p hp
    obtain ⟨a, b⟩ := hC.crashed f p hp
    rw [hd p a] at b
    cases b
  rw [hCe, Finset.sum_empty, add_zero]
  congr 1
  apply Finset.sum_congr rfl
  intro p hp
  rw [hd p (Finset.mem_range.1 hp)]
  cases f <;> simp [applied]

/-- If the files exist at the start no process creates them. -/
theorem existing_clean {M : Type} [Add M] {c : WCtx M} {file0 : FId → Option (Nat → M)} (h0 : ∀ f, file0 f ≠ none) {s : WState M}
    (hr : Runs c (WState.init file0) s) : CleanRuns c (WState.init file0) s := by
  have key : CleanRuns c (WState.init file0) s ∧ (∀ f, s.file f ≠ none) ∧ ∀ p f, s.pc p ≠ .create f := by
    induction hr with
    | refl => exact ⟨.refl, h0, by intro p f h; cases h⟩
    | @tail a b _ hs ih =>
      obtain ⟨i1, i2, i3⟩ := ih
      refine ⟨i1.tail ⟨hs, fun ⟨p, f, h, _⟩ => i3 p f h⟩, ?_, ?_⟩
      · intro g
        cases hs with
        | create p f hp h1 => exact absurd h1 (i3 p f)
        | write p f v w j hp h1 hf hj =>
          simp only [setPc_file, setFile_file]
          split
          · simp
          · exact i2 g
        | _ => exact i2 g
      · intro q g hq
        have fin : ∀ {p : Nat} {x : WPc M}, (∀ g, x ≠ .create g) → (if q = p then x else a.pc q) = .create g → False := by
          intro p x hx hq
          split at hq
          · exact hx g hq
          · exact i3 q g hq
        cases hs with
        | checkYes p f v hp h1 hf => exact fin (by intro g; cases f <;> simp [afterPrepare]) hq
        | checkNo p f hp h1 hf => exact i2 f hf
        | create p f hp h1 => exact i3 p f h1
        | compute p hp h1 => exact fin (by simp) hq
        | acquire p f hp h1 hl => exact fin (by simp) hq
        | read p f v hp h1 hf => exact fin (by simp) hq
        | write p f v w j hp h1 hf hj => exact fin (by simp) hq
        | written p f v j hp h1 hj => exact fin (by simp) hq
        | release p f hp h1 => exact fin (by intro g; cases f <;> simp [afterUpdate]) hq
  exact key.1

/-- C47 when the files exist at the start (prepared by an earlier call): every interleaving keeps every contribution. -/
theorem C47_existing_files (c : WCtx M) (file0 : FId → Option (Nat → M)) (h0 : ∀ f, file0 f ≠ none) (s : WState M)
    (hr : Runs c (WState.init file0) s) (hn : 0 < c.n) (hd : ∀ p < c.n, s.pc p = .done) (f : FId) : Holds c file0 s f (range c.n) :=
  C47_no_lost_update_partial c file0 s (existing_clean h0 hr) hn hd f

/-- Two processes are never inside the update of the same file, in any execution with crashes. -/
theorem C47_mutual_exclusion (c : WCtx M) (file0 : FId → Option (Nat → M)) (s : WState M)
    (hr : Relation.ReflTransGen (WCStep c) (WState.init file0) s) (p q : Nat) (f : FId) (hp : (s.pc p).holds = some f)
    (hq : (s.pc q).holds = some f) : p = q := by
  have hl := lockInv_run hr
  have h1 := (hl.locks p f).1 hp
  have h2 := (hl.locks q f).1 hq
  rw [h1] at h2
  injection h2

/-- The writers never block each other for good: in any execution with crashes, as long as some process is neither done nor dead,
some process can go on. -/
theorem C47_no_deadlock (c : WCtx M) (file0 : FId → Option (Nat → M)) (s : WState M)
    (hr : Relation.ReflTransGen (WCStep c) (WState.init file0) s) (p : Nat) (hp : p < c.n) (h1 : s.pc p ≠ .done) (h2 : s.pc p ≠ .crashed) :
    ∃ t, WStep c s t := by
  have hl := lockInv_run hr
  -- a process that does not wait for a lock can go on
  have go : ∀ q < c.n, s.pc q ≠ .done → s.pc q ≠ .crashed → (∀ f, s.pc q ≠ .acquire f) → ∃ t, WStep c s t := by
    intro q hq d1 d2 d3
    have ex : ∀ f, Past (s.pc q) f → ∃ v, s.file f = some v := fun f hf => Option.ne_none_iff_exists'.1 (hl.exist q f hf)
    cases e : s.pc q with
    | check f =>
      cases hf : s.file f with
      | none => exact ⟨_, .checkNo s q f hq e hf⟩
      | some v => exact ⟨_, .checkYes s q f v hq e hf⟩
    | create f => exact ⟨_, .create s q f hq e⟩
    | compute => exact ⟨_, .compute s q hq e⟩
    | acquire f => exact absurd e (d3 f)
    | read f =>
      obtain ⟨v, hv⟩ := ex f (by rw [e]; cases f <;> trivial)
      exact ⟨_, .read s q f v hq e hv⟩
    | write f v j =>
      obtain ⟨w, hw⟩ := ex f (by rw [e]; cases f <;> trivial)
      by_cases hj : j < c.size f
      · exact ⟨_, .write s q f v w j hq e hw hj⟩
      · exact ⟨_, .written s q f v j hq e (by omega)⟩
    | release f => exact ⟨_, .release s q f hq e⟩
    | done => exact absurd e d1
    | crashed => exact absurd e d2
  by_cases hw : ∃ f, s.pc p = .acquire f
  · obtain ⟨f, hf⟩ := hw
    cases hk : s.lock f with
    | none => exact ⟨_, .acquire s p f hp hf hk⟩
    | some q =>
      have hq := (hl.locks q f).2 hk
      have hqn : q < c.n := by
        by_contra hge
        rw [hl.outside q (by omega)] at hq
        cases hq
      apply go q hqn
      · intro e; rw [e] at hq; cases hq
      · intro e; rw [e] at hq; cases hq
      · intro g e; rw [e] at hq; cases hq
  · exact go p hp h1 h2 (fun f hf => hw ⟨f, hf⟩)

/-- Work left for one process. -/
def rank (c : WCtx M) : WPc M → Nat
  | .done => 0
  | .crashed => 0
  | .release .ht => 1
  | .write .ht _ j => 2 + (c.size .ht - j)
  | .read .ht => 3 + c.size .ht
  | .acquire .ht => 4 + c.size .ht
  | .release .hh => 5 + c.size .ht
  | .write .hh _ j => 6 + c.size .ht + (c.size .hh - j)
  | .read .hh => 7 + c.size .ht + c.size .hh
  | .acquire .hh => 8 + c.size .ht + c.size .hh
  | .compute => 9 + c.size .ht + c.size .hh
  | .create .ht => 10 + c.size .ht + c.size .hh
  | .check .ht => 11 + c.size .ht + c.size .hh
  | .create .hh => 12 + c.size .ht + c.size .hh
  | .check .hh => 13 + c.size .ht + c.size .hh

theorem rank_step {c : WCtx M} {s t : WState M} (h : WStep c s t) :
    (∑ p ∈ range c.n, rank c (t.pc p)) + 1 ≤ ∑ p ∈ range c.n, rank c (s.pc p) := by
  have key : ∀ {q : Nat} {x : WPc M}, q < c.n → rank c x + 1 ≤ rank c (s.pc q) → (∀ p, t.pc p = if p = q then x else s.pc p) →
      (∑ p ∈ range c.n, rank c (t.pc p)) + 1 ≤ ∑ p ∈ range c.n, rank c (s.pc p) := by
    intro q x hq hx ht
    have hm : q ∈ range c.n := Finset.mem_range.2 hq
    rw [← Finset.add_sum_erase _ _ hm, ← Finset.add_sum_erase (range c.n) (fun p => rank c (s.pc p)) hm]
    have : ∀ p ∈ (range c.n).erase q, rank c (t.pc p) = rank c (s.pc p) := by
      intro p hp
      rw [ht, if_neg (Finset.ne_of_mem_erase hp)]
    rw [Finset.sum_congr rfl this, ht, if_pos rfl]
    omega
  cases h with
  | checkYes q f v hp h1 hf => exact key hp (by rw [h1]; cases f <;> simp only [rank, afterPrepare] <;> omega) (fun _ => rfl)
  | checkNo q f hp h1 hf => exact key hp (by rw [h1]; cases f <;> simp only [rank] <;> omega) (fun _ => rfl)
  | create q f hp h1 => exact key hp (by rw [h1]; cases f <;> simp only [rank, afterPrepare] <;> omega) (fun _ => rfl)
  | compute q hp h1 => exact key hp (by rw [h1]; simp only [rank]; omega) (fun _ => rfl)
  | acquire q f hp h1 hl => exact key hp (by rw [h1]; cases f <;> simp only [rank] <;> omega) (fun _ => rfl)
  | read q f v hp h1 hf => exact key hp (by rw [h1]; cases f <;> simp only [rank] <;> omega) (fun _ => rfl)
  | write q f v w j hp h1 hf hj => exact key hp (by rw [h1]; cases f <;> simp only [rank] <;> omega) (fun _ => rfl)
  | written q f v j hp h1 hj => exact key hp (by rw [h1]; cases f <;> simp only [rank] <;> omega) (fun _ => rfl)
  | release q f hp h1 => exact key hp (by rw [h1]; cases f <;> simp only [rank, afterUpdate] <;> omega) (fun _ => rfl)

/-- Every execution ends: the number of steps is bounded in terms of the number of processes and the sizes of the files. -/
theorem C47_terminates (c : WCtx M) (file0 : FId → Option (Nat → M)) (σ : Nat → WState M) (k : Nat) (h0 : σ 0 = WState.init file0)
    (hs : ∀ i < k, WStep c (σ i) (σ (i + 1))) : k ≤ c.n * (13 + c.size .ht + c.size .hh) := by
  have key : ∀ i ≤ k, (∑ p ∈ range c.n, rank c ((σ i).pc p)) + i ≤ ∑ p ∈ range c.n, rank c ((σ 0).pc p) := by
    intro i
    induction i with
    | zero => intro _; omega
    | succ i ih =>
      intro hi
      have := ih (by omega)
      have := rank_step (hs i (by omega))
      omega
  have := key k le_rfl
  rw [h0] at this
  have e : ∑ p ∈ range c.n, rank c ((WState.init file0).pc p) = c.n * (13 + c.size .ht + c.size .hh) := by
    simp [WState.init, rank]
  rw [e] at this
  omega

/-! ## C48 crashes -/

open Classical in
theorem final_sets {c : WCtx M} {file0 : FId → Option (Nat → M)} {s : WState M} {C : FId → Finset Nat} (hl : LockInv c s)
    (hC : CellInv c file0 s C) (hd : ∀ p < c.n, s.pc p = .done ∨ s.pc p = .crashed) (f : FId) {A : Finset Nat}
    (hA : A = ((range c.n).filter fun p => s.pc p = .done) ∪ C f) :
    A ⊆ range c.n ∧ (∀ p < c.n, s.pc p = .done → p ∈ A) ∧ (s.file f = none ∧ A = ∅ ∨ Holds c file0 s f A) := by
  subst hA
  refine ⟨?_, ?_, ?_⟩
  · apply Finset.union_subset (Finset.filter_subset _ _)
    intro p hp
    exact Finset.mem_range.2 (hC.crashed f p hp).1
  · intro p hp h
    exact Finset.mem_union_left _ (Finset.mem_filter.2 ⟨Finset.mem_range.2 hp, h⟩)
  · cases hf : s.file f with
    | none =>
      left
      refine ⟨rfl, ?_⟩
      rw [(hC.absent f hf).2, Finset.union_empty]
      apply Finset.filter_false_of_mem
      intro p _ h
      exact hl.exist p f (by rw [h]; cases f <;> trivial) hf
    | some w =>
      right
      refine ⟨w, hf, ?_⟩
      intro i hi
      rw [hC.cell f w hf i hi, add_assoc, Finset.sum_union, Finset.sum_filter]
      · congr 2
        apply Finset.sum_congr rfl
        intro p hp
        rcases hd p (Finset.mem_range.1 hp) with h | h
        · rw [h]; cases f <;> simp [applied]
        · rw [h]; cases f <;> simp [applied]
      · rw [Finset.disjoint_left]
        intro p h1 h2
        have := (hC.crashed f p h2).2
        rw [(Finset.mem_filter.1 h1).2] at this
        cases this

/-- C48, crashes anywhere except in the middle of writing back the cells of a file: whenever all processes are done or dead, each file
holds the start value plus the contributions of a set of processes that includes all the finished ones, and the set for the second file
is included in the set for the first.

Missing for the full property: a crash in the middle of writing (`C48_torn_file_refuted`), and that both sets are the same
(`C48_torn_pair_refuted`). -/
theorem C48_subset_partial (c : WCtx M) (file0 : FId → Option (Nat → M)) (s : WState M) (hr : UntornRuns c (WState.init file0) s)
    (hd : ∀ p < c.n, s.pc p = .done ∨ s.pc p = .crashed) :
    ∃ A : FId → Finset Nat, A .ht ⊆ A .hh ∧ ∀ f, A f ⊆ range c.n ∧ (∀ p < c.n, s.pc p = .done → p ∈ A f) ∧
      (s.file f = none ∧ A f = ∅ ∨ Holds c file0 s f (A f)) := by
  classical
  obtain ⟨hl, C, hC⟩ := untorn_inv hr
  exact ⟨fun f => ((range c.n).filter fun p => s.pc p = .done) ∪ C f, Finset.union_subset_union_right hC.nested,
    fun f => final_sets hl hC hd f rfl⟩

/-- C48 for both files together: if moreover nobody dies between changing the first file and having changed the second, both files hold
the contributions of the same processes. -/
theorem C48_same_subset_partial (c : WCtx M) (file0 : FId → Option (Nat → M)) (s : WState M)
    (hr : Relation.ReflTransGen (fun s t => WCStep c s t ∧ ¬ Clobbers s t ∧ ¬ TornCrash c s t ∧ ¬ LateCrash c s t) (WState.init file0) s)
    (hd : ∀ p < c.n, s.pc p = .done ∨ s.pc p = .crashed) :
    ∃ A ⊆ range c.n, (∀ p < c.n, s.pc p = .done → p ∈ A) ∧ ∀ f, s.file f = none ∧ A = ∅ ∨ Holds c file0 s f A := by
  classical
  have key : LockInv c s ∧ ∃ C, CellInv c file0 s C ∧ C .hh = C .ht := by
    clear hd
    induction hr with
    | refl => exact ⟨lockInv_init c file0, _, cellInv_init c file0, rfl⟩
    | @tail b d _ hs ih =>
      obtain ⟨hl, C, hC, he⟩ := ih
      obtain ⟨h1, h2, h3, h4⟩ := hs
      refine ⟨lockInv_cstep hl h1, ?_⟩
      cases h1 with
      | step _ hs => exact ⟨C, cellInv_step hl hC hs h2, he⟩
      | crash p hp hdd =>
        have hpc : (b.crash p).pc p = .crashed := by
          unfold WState.crash
          split <;> simp
        have hx : ∀ f v j, b.pc p = .write f v j → j = 0 ∨ c.size f ≤ j := by
          intro f v j hj
          by_contra hne
          exact h3 ⟨p, f, v, j, hj, by omega, by omega, hpc⟩
        refine ⟨_, cellInv_crash hl hC hp hx, ?_⟩
        have hw : whole c (b.pc p) .hh = whole c (b.pc p) .ht := by
          cases w1 : whole c (b.pc p) .hh with
          | false =>
            cases w2 : whole c (b.pc p) .ht with
            | false => rfl
            | true => rw [whole_nested w2] at w1; cases w1
          | true =>
            cases w2 : whole c (b.pc p) .ht with
            | true => rfl
            | false => exact absurd ⟨p, whole_between hx w1 w2, hpc⟩ h4
        simp only [hw, he]
  obtain ⟨hl, C, hC, he⟩ := key
  obtain ⟨a1, a2, a3⟩ := final_sets hl hC hd .hh rfl
  refine ⟨_, a1, a2, ?_⟩
  intro f
  cases f with
  | hh => exact a3
  | ht => exact (final_sets hl hC hd .ht (by rw [he])).2.2

/-! ## Executions -/

/-- The next step of process `p`, if it has one (used to build the example executions). -/
def nextStep (c : WCtx M) (s : WState M) (p : Nat) : Option (WState M) :=
  if p < c.n then
    match s.pc p with
    | .check f => match s.file f with
      | some _ => some (s.setPc p (afterPrepare f))
      | none => some (s.setPc p (.create f))
    | .create f => some ((s.setFile f (c.fresh f)).setPc p (afterPrepare f))
    | .compute => some (s.setPc p (.acquire .hh))
    | .acquire f => match s.lock f with
      | none => some ((s.setLock f (some p)).setPc p (.read f))
      | some _ => none
    | .read f => match s.file f with
      | some v => some (s.setPc p (.write f v 0))
      | none => none
    | .write f v j =>
      if j < c.size f then
        match s.file f with
        | some w => some ((s.setFile f fun i => if i = j then v i + c.contrib p f i else w i).setPc p (.write f v (j + 1)))
        | none => none
      else some (s.setPc p (.release f))
    | .release f => some ((s.setLock f none).setPc p (afterUpdate f))
    | .done => none
    | .crashed => none
  else none

theorem nextStep_sound {c : WCtx M} {s t : WState M} {p : Nat} (h : nextStep c s p = some t) : WStep c s t := by
  unfold nextStep at h
  split at h
  · rename_i hp
    split at h
    · rename_i f e
      split at h
      · rename_i v hv; injection h with h; rw [← h]; exact .checkYes s p f v hp e hv
      · rename_i hv; injection h with h; rw [← h]; exact .checkNo s p f hp e hv
    · rename_i f e; injection h with h; rw [← h]; exact .create s p f hp e
    · rename_i e; injection h with h; rw [← h]; exact .compute s p hp e
    · rename_i f e
      split at h
      · rename_i hv; injection h with h; rw [← h]; exact .acquire s p f hp e hv
      · cases h
    · rename_i f e
      split at h
      · rename_i v hv; injection h with h; rw [← h]; exact .read s p f v hp e hv
      · cases h
    · rename_i f v j e
      split at h
      · rename_i hj
        split at h
        · rename_i w hw; injection h with h; rw [← h]; exact .write s p f v w j hp e hw hj
        · cases h
      · rename_i hj; injection h with h; rw [← h]; exact .written s p f v j hp e (by omega)
    · rename_i f e; injection h with h; rw [← h]; exact .release s p f hp e
    · cases h
    · cases h
  · cases h

/-- Only the process that makes a step changes its program counter. -/
theorem nextStep_pc {c : WCtx M} {s t : WState M} {p : Nat} (h : nextStep c s p = some t) {q : Nat} (hq : q ≠ p) : t.pc q = s.pc q := by
  unfold nextStep at h
  split at h
  · split at h <;> (try split at h) <;> (try split at h) <;>
      first
        | (rw [← Option.some.inj h]; simp [hq]; done)
        | exact absurd h (by simp)
  · cases h

/-- Run the processes in the given order, one step each. -/
def schedule (c : WCtx M) : List Nat → WState M → Option (WState M)
  | [], s => some s
  | p :: ps, s => (nextStep c s p).bind (schedule c ps)

theorem schedule_sound {c : WCtx M} {l : List Nat} {s t : WState M} (h : schedule c l s = some t) : Runs c s t := by
  induction l generalizing s with
  | nil => injection h with h; rw [h]
  | cons p ps ih =>
    unfold schedule at h
    cases hn : nextStep c s p with
    | none => rw [hn] at h; cases h
    | some u =>
      rw [hn] at h
      exact .head (nextStep_sound hn) (ih h)

/-- The same, refusing to create an existing file. -/
def cleanSchedule (c : WCtx M) : List Nat → WState M → Option (WState M)
  | [], s => some s
  | p :: ps, s => match s.pc p with
    | .create f => match s.file f with
      | some _ => none
      | none => (nextStep c s p).bind (cleanSchedule c ps)
    | _ => (nextStep c s p).bind (cleanSchedule c ps)

theorem cleanSchedule_sound {c : WCtx M} {l : List Nat} {s t : WState M} (h : cleanSchedule c l s = some t) : CleanRuns c s t := by
  induction l generalizing s with
  | nil => injection h with h; rw [h]
  | cons p ps ih =>
    have key : (∀ f, s.pc p = .create f → s.file f = none) ∧ (nextStep c s p).bind (cleanSchedule c ps) = some t := by
      unfold cleanSchedule at h
      split at h
      · rename_i f e
        split at h
        · cases h
        · rename_i hf
          refine ⟨?_, h⟩
          intro g hg
          rw [e] at hg
          injection hg with hg
          rw [← hg]; exact hf
      · rename_i hne
        exact ⟨fun f hf => absurd hf (hne f), h⟩
    obtain ⟨k1, k2⟩ := key
    cases hn : nextStep c s p with
    | none => rw [hn] at k2; cases k2
    | some u =>
      rw [hn] at k2
      refine .head ⟨nextStep_sound hn, ?_⟩ (ih k2)
      rintro ⟨q, f, e1, e2, e3⟩
      by_cases hq : q = p
      · subst hq; exact e2 (k1 f e1)
      · exact e3 (nextStep_pc hn hq)

/-- Two processes; process 0 adds 1, 2, … and process 1 adds 10, 11, … to the cells of each file. -/
def exCtx (size : Nat) : WCtx Int where
  n := 2
  size := fun _ => size
  contrib := fun p _ i => if p = 0 then 1 + i else 10 + i
  fresh := fun _ _ => 0

/-- An execution in which the two processes take turns after process 0 has created the files. -/
def exTurns : List Nat := [0, 0, 0, 0, 1, 1, 0, 1, 0, 0, 0, 0, 0, 0, 1, 0, 1, 0, 1, 0, 1, 0, 1, 1, 1, 1, 1, 1]

/-- Whether a process is done. -/
def isDone : WPc M → Bool
  | .done => true
  | _ => false

theorem isDone_iff {x : WPc M} : isDone x = true ↔ x = .done := by cases x <;> simp [isDone]

/-- Whether a process is done or crashed. -/
def isOver : WPc M → Bool
  | .done => true
  | .crashed => true
  | _ => false

theorem isOver_iff {x : WPc M} : isOver x = true ↔ x = .done ∨ x = .crashed := by cases x <;> simp [isOver]

/-- The hypotheses of `C47_no_lost_update_partial` are met by an execution that starts without files. -/
example : ∃ s, CleanRuns (exCtx 1) (WState.init fun _ => none) s ∧ (∀ p < 2, s.pc p = .done) ∧ (s.file .hh).map (· 0) = some 11 := by
  have h : ((cleanSchedule (exCtx 1) exTurns (WState.init fun _ => none)).map fun t => (isDone (t.pc 0), isDone (t.pc 1), (t.file .hh).map (· 0))) =
      some (true, true, some 11) := by decide +kernel
  obtain ⟨t, h1, h2⟩ := Option.map_eq_some_iff.1 h
  simp only [Prod.mk.injEq, isDone_iff] at h2
  refine ⟨t, cleanSchedule_sound h1, ?_, h2.2.2⟩
  intro p hp
  rcases (show p = 0 ∨ p = 1 by omega) with rfl | rfl
  · exact h2.1
  · exact h2.2.1

/-- The hypotheses of `C47_existing_files` are met: two processes taking turns on existing files. -/
example : ∃ s, Runs (exCtx 1) (WState.init fun _ => some fun _ => 5) s ∧ (∀ p < 2, s.pc p = .done) ∧ (s.file .ht).map (· 0) = some 16 := by
  have h : ((schedule (exCtx 1) [1, 0, 1, 0, 1, 0, 0, 0, 0, 0, 0, 1, 0, 1, 0, 1, 0, 1, 0, 1, 0, 1, 1, 1, 1, 1] (WState.init fun _ => some fun _ => 5)).map
      fun t => (isDone (t.pc 0), isDone (t.pc 1), (t.file .ht).map (· 0))) = some (true, true, some 16) := by decide +kernel
  obtain ⟨t, h1, h2⟩ := Option.map_eq_some_iff.1 h
  simp only [Prod.mk.injEq, isDone_iff] at h2
  refine ⟨t, schedule_sound h1, ?_, h2.2.2⟩
  intro p hp
  rcases (show p = 0 ∨ p = 1 by omega) with rfl | rfl
  · exact h2.1
  · exact h2.2.1

/-- C47 fails when the files do not exist: both processes find the first file absent; the second one creates it again after the first
has added its contribution, which is lost. -/
theorem C47_creation_race_refuted : ∃ s, Runs (exCtx 1) (WState.init fun _ => none) s ∧ (∀ p < 2, s.pc p = .done) ∧
    ¬ Holds (exCtx 1) (fun _ => none) s .hh (range 2) := by
  have h : ((schedule (exCtx 1) ([0, 1] ++ List.replicate 14 0 ++ List.replicate 13 1) (WState.init fun _ => none)).map
      fun t => (isDone (t.pc 0), isDone (t.pc 1), (t.file .hh).map (· 0))) = some (true, true, some 10) := by decide +kernel
  obtain ⟨t, h1, h2⟩ := Option.map_eq_some_iff.1 h
  simp only [Prod.mk.injEq, isDone_iff] at h2
  refine ⟨t, schedule_sound h1, ?_, ?_⟩
  · intro p hp
    rcases (show p = 0 ∨ p = 1 by omega) with rfl | rfl
    · exact h2.1
    · exact h2.2.1
  · rintro ⟨v, hv, hs⟩
    have e := h2.2.2
    rw [hv] at e
    simp only [Option.map_some, Option.some.injEq] at e
    have := hs 0 (by decide)
    rw [e] at this
    exact absurd this (by decide)

/-- Crash of process 0 after the given steps, then the rest. -/
def crashSchedule (c : WCtx M) (l l' : List Nat) (s : WState M) : Option (WState M) :=
  (schedule c l s).bind fun t => if isDone (t.pc 0) then none else schedule c l' (t.crash 0)

theorem crashSchedule_sound {c : WCtx M} (hn : 0 < c.n) {l l' : List Nat} {s t : WState M} (h : crashSchedule c l l' s = some t) :
    Relation.ReflTransGen (WCStep c) s t := by
  unfold crashSchedule at h
  cases h1 : schedule c l s with
  | none => rw [h1] at h; cases h
  | some u =>
    rw [h1] at h
    simp only [Option.bind_some] at h
    split at h
    · cases h
    · rename_i hd
      refine (runs_cruns (schedule_sound h1)).trans (.head (.crash u 0 hn ?_) (runs_cruns (schedule_sound h)))
      intro e
      rw [e] at hd
      exact hd rfl

theorem crash_pc_ne {s : WState M} {p q : Nat} (h : p ≠ q) : (s.crash q).pc p = s.pc p := by
  unfold WState.crash
  split <;> simp [h]

theorem clean_late {c : WCtx M} {s t : WState M} (h : CleanRuns c s t) :
    Relation.ReflTransGen (fun s t => WCStep c s t ∧ ¬ Clobbers s t ∧ ¬ TornCrash c s t ∧ ¬ LateCrash c s t) s t := by
  induction h with
  | refl => exact .refl
  | tail _ hs ih =>
    refine ih.tail ⟨.step _ _ hs.1, hs.2, ?_, ?_⟩
    · rintro ⟨p, f, v, j, e, _, _, e2⟩
      have := step_crashed hs.1 e2
      rw [e] at this
      cases this
    · rintro ⟨p, e, e2⟩
      have := step_crashed hs.1 e2
      rw [this] at e
      exact e

/-- The hypotheses of `C48_same_subset_partial` (and so those of `C48_subset_partial`) are met by an execution in which process 0 dies while it
holds the lock on the first file, before changing it; process 1 completes. -/
example : ∃ s, Relation.ReflTransGen (fun s t => WCStep (exCtx 2) s t ∧ ¬ Clobbers s t ∧ ¬ TornCrash (exCtx 2) s t ∧ ¬ LateCrash (exCtx 2) s t)
      (WState.init fun _ => none) s ∧
    s.pc 0 = .crashed ∧ s.pc 1 = .done ∧ (s.file .hh).map (· 1) = some 11 := by
  have h : ((cleanSchedule (exCtx 2) [0, 0, 0, 0, 0, 0] (WState.init fun _ => none)).bind fun t =>
      if (t.pc 0 matches .read .hh) then (cleanSchedule (exCtx 2) (List.replicate 15 1) (t.crash 0)).map
        fun u => (u.pc 0 matches .crashed, isDone (u.pc 1), (u.file .hh).map (· 1)) else none) = some (true, true, some 11) := by decide +kernel
  cases h1 : cleanSchedule (exCtx 2) [0, 0, 0, 0, 0, 0] (WState.init fun _ => none) with
  | none => rw [h1] at h; cases h
  | some t =>
    rw [h1] at h
    simp only [Option.bind_some] at h
    split at h
    · rename_i hp
      have hp' : t.pc 0 = .read .hh := by
        revert hp
        cases t.pc 0 with
        | read f => cases f <;> simp
        | _ => simp
      obtain ⟨u, h2, h3⟩ := Option.map_eq_some_iff.1 h
      simp only [Prod.mk.injEq, isDone_iff] at h3
      refine ⟨u, ((clean_late (cleanSchedule_sound h1)).tail ⟨.crash t 0 (by decide) (by rw [hp']; simp), ?_, ?_, ?_⟩).trans
        (clean_late (cleanSchedule_sound h2)), ?_, h3.2.1, h3.2.2⟩
      · rintro ⟨p, f, e1, e2, e3⟩
        by_cases hq : p = 0
        · subst hq; rw [hp'] at e1; cases e1
        · exact e3 (crash_pc_ne hq)
      · rintro ⟨p, f, v, j, e1, _, _, e2⟩
        by_cases hq : p = 0
        · subst hq; rw [hp'] at e1; cases e1
        · rw [crash_pc_ne hq, e1] at e2; cases e2
      · rintro ⟨p, e1, e2⟩
        by_cases hq : p = 0
        · subst hq; rw [hp'] at e1; exact e1
        · rw [crash_pc_ne hq] at e2; rw [e2] at e1; exact e1
      · have := h3.1
        revert this
        cases u.pc 0 <;> simp
    · cases h

/-- C48 fails for a crash in the middle of writing: no set of contributions explains the first file. -/
theorem C48_torn_file_refuted : ∃ s, Relation.ReflTransGen (WCStep (exCtx 2)) (WState.init fun _ => some fun _ => 0) s ∧
    (∀ p < 2, s.pc p = .done ∨ s.pc p = .crashed) ∧ ∀ A ⊆ range 2, ¬ Holds (exCtx 2) (fun _ => some fun _ => 0) s .hh A := by
  have h : ((crashSchedule (exCtx 2) [0, 0, 0, 0, 0, 0] (List.replicate 15 1) (WState.init fun _ => some fun _ => 0)).map
      fun t => (isOver (t.pc 0), isOver (t.pc 1), (t.file .hh).map (· 0), (t.file .hh).map (· 1))) = some (true, true, some 11, some 11) := by
    decide +kernel
  obtain ⟨t, h1, h2⟩ := Option.map_eq_some_iff.1 h
  simp only [Prod.mk.injEq] at h2
  obtain ⟨a0, a1, a2, a3⟩ := h2
  refine ⟨t, crashSchedule_sound (by decide) h1, ?_, ?_⟩
  · intro p hp
    rcases (show p = 0 ∨ p = 1 by omega) with rfl | rfl
    · exact isOver_iff.1 a0
    · exact isOver_iff.1 a1
  · rintro A hA ⟨v, hv, hs⟩
    rw [hv] at a2 a3
    simp only [Option.map_some, Option.some.injEq] at a2 a3
    have e0 := hs 0 (by decide)
    have e1 := hs 1 (by decide)
    rw [a2] at e0
    rw [a3] at e1
    have key : ∀ A ∈ (range 2).powerset, ¬ ((11 : Int) = base (exCtx 2) (fun _ => some fun _ => 0) .hh 0 + ∑ p ∈ A, (exCtx 2).contrib p .hh 0 ∧
        (11 : Int) = base (exCtx 2) (fun _ => some fun _ => 0) .hh 1 + ∑ p ∈ A, (exCtx 2).contrib p .hh 1) := by decide
    exact key A (Finset.mem_powerset.2 hA) ⟨e0, e1⟩

/-- C48 fails for a crash between the two files: they hold the contributions of different processes. -/
theorem C48_torn_pair_refuted : ∃ s, Relation.ReflTransGen (WCStep (exCtx 1)) (WState.init fun _ => some fun _ => 0) s ∧
    (∀ p < 2, s.pc p = .done ∨ s.pc p = .crashed) ∧
    ∀ A ⊆ range 2, ¬ (Holds (exCtx 1) (fun _ => some fun _ => 0) s .hh A ∧ Holds (exCtx 1) (fun _ => some fun _ => 0) s .ht A) := by
  have h : ((crashSchedule (exCtx 1) [0, 0, 0, 0, 0, 0, 0, 0] (List.replicate 13 1) (WState.init fun _ => some fun _ => 0)).map
      fun t => (isOver (t.pc 0), isOver (t.pc 1), (t.file .hh).map (· 0), (t.file .ht).map (· 0))) = some (true, true, some 11, some 10) := by
    decide +kernel
  obtain ⟨t, h1, h2⟩ := Option.map_eq_some_iff.1 h
  simp only [Prod.mk.injEq] at h2
  obtain ⟨a0, a1, a2, a3⟩ := h2
  refine ⟨t, crashSchedule_sound (by decide) h1, ?_, ?_⟩
  · intro p hp
    rcases (show p = 0 ∨ p = 1 by omega) with rfl | rfl
    · exact isOver_iff.1 a0
    · exact isOver_iff.1 a1
  · rintro A hA ⟨⟨v, hv, hs⟩, ⟨w, hw, hs'⟩⟩
    rw [hv] at a2
    rw [hw] at a3
    simp only [Option.map_some, Option.some.injEq] at a2 a3
    have e0 := hs 0 (by decide)
    have e1 := hs' 0 (by decide)
    rw [a2] at e0
    rw [a3] at e1
    have key : ∀ A ∈ (range 2).powerset, ¬ ((11 : Int) = base (exCtx 1) (fun _ => some fun _ => 0) .hh 0 + ∑ p ∈ A, (exCtx 1).contrib p .hh 0 ∧
        (10 : Int) = base (exCtx 1) (fun _ => some fun _ => 0) .ht 0 + ∑ p ∈ A, (exCtx 1).contrib p .ht 0) := by decide
    exact key A (Finset.mem_powerset.2 hA) ⟨e0, e1⟩

end Hpelm.Props
