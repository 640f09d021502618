import Verif.Spec.Writers
import Mathlib.Algebra.BigOperators.Ring.Finset
import Mathlib.Algebra.Order.BigOperators.Group.Finset

/-! Invariants of the writers. -/

namespace Hpelm
open Spec Finset
variable {M : Type}

@[simp] theorem setPc_file (s : WState M) (p x) : (s.setPc p x).file = s.file := rfl
@[simp] theorem setPc_lock (s : WState M) (p x) : (s.setPc p x).lock = s.lock := rfl
@[simp] theorem setPc_pc (s : WState M) (p x q) : (s.setPc p x).pc q = if q = p then x else s.pc q := rfl
@[simp] theorem setFile_file (s : WState M) (f v g) : (s.setFile f v).file g = if g = f then some v else s.file g := rfl
@[simp] theorem setFile_lock (s : WState M) (f v) : (s.setFile f v).lock = s.lock := rfl
@[simp] theorem setFile_pc (s : WState M) (f v) : (s.setFile f v).pc = s.pc := rfl
@[simp] theorem setLock_lock (s : WState M) (f o g) : (s.setLock f o).lock g = if g = f then o else s.lock g := rfl
@[simp] theorem setLock_file (s : WState M) (f o) : (s.setLock f o).file = s.file := rfl
@[simp] theorem setLock_pc (s : WState M) (f o) : (s.setLock f o).pc = s.pc := rfl

/-- The program counter is past the preparation of file `f`. -/
def Past : WPc M → FId → Prop
  | .check .hh, _ => False
  | .create .hh, _ => False
  | .crashed, _ => False
  | .check .ht, .ht => False
  | .create .ht, .ht => False
  | _, _ => True

/-- Locks and existence of files. -/
structure LockInv (c : WCtx M) (s : WState M) : Prop where
  locks : ∀ p f, (s.pc p).holds = some f ↔ s.lock f = some p
  outside : ∀ p, c.n ≤ p → s.pc p = .check .hh
  exist : ∀ p f, Past (s.pc p) f → s.file f ≠ none

theorem lockInv_init (c : WCtx M) (file0) : LockInv c (WState.init file0) where
  locks := by intro p f; simp [WState.init, WPc.holds]
  outside := by intro p _; rfl
  exist := by intro p f h; exact absurd h (by simp [WState.init, Past])

/-- Changing one program counter. -/
theorem LockInv.setPc {c : WCtx M} {s : WState M} (h : LockInv c s) {p : Nat} (hp : p < c.n) {x : WPc M} (h1 : x.holds = (s.pc p).holds)
    (h2 : ∀ f, Past x f → s.file f ≠ none) : LockInv c (s.setPc p x) where
  locks := by
    intro q f
    simp only [setPc_pc, setPc_lock]
    by_cases hq : q = p
    · subst hq
      rw [if_pos rfl, h1]
      exact h.locks q f
    · rw [if_neg hq]
      exact h.locks q f
  outside := by
    intro q hq
    simp only [setPc_pc]
    rw [if_neg (by omega)]
    exact h.outside q hq
  exist := by
    intro q f hf
    simp only [setPc_pc, setPc_file] at hf ⊢
    by_cases hq : q = p
    · rw [if_pos hq] at hf
      exact h2 f hf
    · rw [if_neg hq] at hf
      exact h.exist q f hf

theorem LockInv.setFile {c : WCtx M} {s : WState M} (h : LockInv c s) (f v) : LockInv c (s.setFile f v) where
  locks := h.locks
  outside := h.outside
  exist := by
    intro q g hg
    simp only [setFile_file]
    by_cases e : g = f
    · rw [if_pos e]; simp
    · rw [if_neg e]; exact h.exist q g hg

theorem LockInv.acquire {c : WCtx M} {s : WState M} (h : LockInv c s) {p : Nat} {f : FId} (hp : p < c.n) (h1 : s.pc p = .acquire f)
    (hl : s.lock f = none) : LockInv c ((s.setLock f (some p)).setPc p (.read f)) where
  locks := by
    intro q g
    simp only [setPc_pc, setPc_lock, setLock_lock, setLock_pc]
    by_cases hq : q = p
    · subst hq
      rw [if_pos rfl]
      by_cases hg : g = f
      · subst hg; simp [WPc.holds]
      · rw [if_neg hg]
        have := h.locks q g
        rw [h1] at this
        simp only [WPc.holds] at this ⊢
        constructor
        · intro e; injection e with e; exact absurd e.symm hg
        · intro e; exact absurd (this.2 e) (by simp)
    · rw [if_neg hq]
      by_cases hg : g = f
      · subst hg
        rw [if_pos rfl]
        have := h.locks q g
        rw [hl] at this
        constructor
        · intro e; exact absurd (this.1 e) (by simp)
        · intro e; injection e with e; exact absurd e.symm hq
      · rw [if_neg hg]
        exact h.locks q g
  outside := by
    intro q hq
    simp only [setPc_pc]
    rw [if_neg (by omega)]
    exact h.outside q hq
  exist := by
    intro q g hg
    simp only [setPc_pc, setPc_file, setLock_file, setLock_pc] at hg ⊢
    by_cases hq : q = p
    · subst hq
      rw [if_pos rfl] at hg
      exact h.exist q g (by rw [h1]; cases g <;> trivial)
    · rw [if_neg hq] at hg
      exact h.exist q g hg

theorem LockInv.unlock {c : WCtx M} {s : WState M} (h : LockInv c s) {p : Nat} {f : FId} {x : WPc M} (hp : p < c.n) (h1 : (s.pc p).holds = some f)
    (hx : x.holds = none) (h2 : ∀ f, Past x f → s.file f ≠ none) : LockInv c ((s.setLock f none).setPc p x) where
  locks := by
    intro q g
    simp only [setPc_pc, setPc_lock, setLock_lock, setLock_pc]
    have hf := (h.locks p f).1 h1
    by_cases hq : q = p
    · subst hq
      rw [if_pos rfl, hx]
      by_cases hg : g = f
      · subst hg; simp
      · rw [if_neg hg]
        constructor
        · intro e; cases e
        · intro e
          have := (h.locks q g).2 e
          rw [h1] at this
          injection this with this
          exact absurd this.symm hg
    · rw [if_neg hq]
      by_cases hg : g = f
      · subst hg
        rw [if_pos rfl]
        constructor
        · intro e
          have := (h.locks q g).1 e
          rw [hf] at this
          injection this with this
          exact absurd this.symm hq
        · intro e; cases e
      · rw [if_neg hg]
        exact h.locks q g
  outside := by
    intro q hq
    simp only [setPc_pc]
    rw [if_neg (by omega)]
    exact h.outside q hq
  exist := by
    intro q g hg
    simp only [setPc_pc, setPc_file, setLock_file, setLock_pc] at hg ⊢
    by_cases hq : q = p
    · rw [if_pos hq] at hg
      exact h2 g hg
    · rw [if_neg hq] at hg
      exact h.exist q g hg

theorem lockInv_step [Add M] {c : WCtx M} {s t : WState M} (h : LockInv c s) (hs : WStep c s t) : LockInv c t := by
  cases hs with
  | checkYes p f v hp h1 hf =>
    apply h.setPc hp
    · rw [h1]; cases f <;> rfl
    · intro g hg
      cases f with
      | hh => cases g with
        | hh => rw [hf]; simp
        | ht => exact absurd hg (by simp [afterPrepare, Past])
      | ht => cases g with
        | hh => exact h.exist p _ (by rw [h1]; trivial)
        | ht => rw [hf]; simp
  | checkNo p f hp h1 hf =>
    apply h.setPc hp
    · rw [h1]; rfl
    · intro g hg
      cases f with
      | hh => exact absurd hg (by simp [Past])
      | ht => cases g with
        | hh => exact h.exist p _ (by rw [h1]; trivial)
        | ht => exact absurd hg (by simp [Past])
  | create p f hp h1 =>
    apply (h.setFile f (c.fresh f)).setPc hp
    · rw [setFile_pc, h1]; cases f <;> rfl
    · intro g hg
      rw [setFile_file]
      by_cases e : g = f
      · rw [if_pos e]; simp
      · rw [if_neg e]
        cases f with
        | hh => cases g with
          | hh => exact absurd rfl e
          | ht => exact absurd hg (by simp [afterPrepare, Past])
        | ht => cases g with
          | hh => exact h.exist p _ (by rw [h1]; trivial)
          | ht => exact absurd rfl e
  | compute p hp h1 =>
    apply h.setPc hp
    · rw [h1]; rfl
    · intro g _; exact h.exist p g (by rw [h1]; cases g <;> trivial)
  | acquire p f hp h1 hl => exact h.acquire hp h1 hl
  | read p f v hp h1 hf =>
    apply h.setPc hp
    · rw [h1]; rfl
    · intro g _; exact h.exist p g (by rw [h1]; cases g <;> trivial)
  | write p f v w j hp h1 hf hj =>
    apply (h.setFile f _).setPc hp
    · rw [setFile_pc, h1]; rfl
    · intro g _
      rw [setFile_file]
      by_cases e : g = f
      · rw [if_pos e]; simp
      · rw [if_neg e]; exact h.exist p g (by rw [h1]; cases g <;> trivial)
  | written p f v j hp h1 hj =>
    apply h.setPc hp
    · rw [h1]; rfl
    · intro g _; exact h.exist p g (by rw [h1]; cases g <;> trivial)
  | release p f hp h1 =>
    apply h.unlock hp (by rw [h1]; rfl)
    · cases f <;> rfl
    · intro g _; exact h.exist p g (by rw [h1]; cases g <;> trivial)

theorem lockInv_crash {c : WCtx M} {s : WState M} (h : LockInv c s) {p : Nat} (hp : p < c.n) : LockInv c (s.crash p) := by
  unfold WState.crash
  split
  · rename_i f hf
    exact h.unlock hp hf rfl (by intro f hf; exact absurd hf (by cases f <;> simp [Past]))
  · rename_i hf
    exact h.setPc hp (by rw [hf]; rfl) (by intro f hf; exact absurd hf (by cases f <;> simp [Past]))

theorem lockInv_cstep [Add M] {c : WCtx M} {s t : WState M} (h : LockInv c s) (hs : WCStep c s t) : LockInv c t := by
  cases hs with
  | step _ hs => exact lockInv_step h hs
  | crash p hp _ => exact lockInv_crash h hp

/-! ### contents of the files -/

/-- Whether the contribution to cell `i` of file `f` has been written by a process at the given program counter. -/
def applied : WPc M → FId → Nat → Bool
  | .write .hh _ j, .hh, i => decide (i < j)
  | .write .ht _ _, .hh, _ => true
  | .write .ht _ j, .ht, i => decide (i < j)
  | .release .hh, .hh, _ => true
  | .release .ht, _, _ => true
  | .acquire .ht, .hh, _ => true
  | .read .ht, .hh, _ => true
  | .done, _, _ => true
  | _, _, _ => false

/-- Whether the whole contribution to file `f` has been written. -/
def whole (c : WCtx M) : WPc M → FId → Bool
  | .write .hh _ j, .hh => decide (c.size .hh ≤ j)
  | .write .ht _ j, .ht => decide (c.size .ht ≤ j)
  | x, f => applied x f 0

variable [AddCommMonoid M]

/-- What is in the files; `C f`: the crashed processes whose contribution to `f` is in. -/
structure CellInv (c : WCtx M) (file0 : FId → Option (Nat → M)) (s : WState M) (C : FId → Finset Nat) : Prop where
  crashed : ∀ f, ∀ p ∈ C f, p < c.n ∧ s.pc p = .crashed
  nested : C .ht ⊆ C .hh
  absent : ∀ f, s.file f = none → file0 f = none ∧ C f = ∅
  cell : ∀ f w, s.file f = some w → ∀ i < c.size f,
    w i = base c file0 f i + (∑ p ∈ range c.n, if applied (s.pc p) f i then c.contrib p f i else 0) + ∑ p ∈ C f, c.contrib p f i
  held : ∀ p f v j w, s.pc p = .write f v j → s.file f = some w → ∀ i, j ≤ i → i < c.size f → v i = w i

theorem cellInv_init (c : WCtx M) (file0) : CellInv c file0 (WState.init file0) fun _ => ∅ where
  crashed := by intro f p h; cases h
  nested := by simp
  absent := by intro f h; exact ⟨h, rfl⟩
  cell := by
    intro f w h i hi
    have : file0 f = some w := h
    simp [WState.init, applied, base, this]
  held := by intro p f v j w h; cases h

/-- Changing the program counter without writing. -/
theorem CellInv.setPc {c : WCtx M} {file0 s C} (h : CellInv c file0 s C) {p : Nat} {x : WPc M} (hcr : s.pc p ≠ .crashed)
    (ha : ∀ f i, i < c.size f → applied x f i = applied (s.pc p) f i)
    (hh : ∀ f v j w, x = .write f v j → s.file f = some w → ∀ i, j ≤ i → i < c.size f → v i = w i) : CellInv c file0 (s.setPc p x) C where
  crashed := by
    intro f q hq
    obtain ⟨h1, h2⟩ := h.crashed f q hq
    refine ⟨h1, ?_⟩
    rw [setPc_pc, if_neg]
    · exact h2
    · rintro rfl; exact hcr h2
  nested := h.nested
  absent := h.absent
  cell := by
    intro f w hw i hi
    rw [h.cell f w hw i hi]
    congr 2
    apply Finset.sum_congr rfl
    intro q _
    rw [setPc_pc]
    by_cases hq : q = p
    · subst hq; rw [if_pos rfl, ha f i hi]
    · rw [if_neg hq]
  held := by
    intro q f v j w hq hw
    rw [setPc_pc] at hq
    by_cases e : q = p
    · rw [if_pos e] at hq
      exact hh f v j w hq hw
    · rw [if_neg e] at hq
      exact h.held q f v j w hq hw

theorem CellInv.setLock {c : WCtx M} {file0 s C} (h : CellInv c file0 s C) (f o) : CellInv c file0 (s.setLock f o) C :=
  ⟨h.crashed, h.nested, h.absent, h.cell, h.held⟩

theorem applied_past {x : WPc M} {f : FId} {i : Nat} (h : ¬ Past x f) : applied x f i = false := by
  cases x <;> cases f <;> simp_all [Past, applied]
  all_goals (rename_i g; cases g <;> simp_all [Past, applied])

theorem cellInv_step {c : WCtx M} {file0} {s t : WState M} {C} (hl : LockInv c s) (h : CellInv c file0 s C) (hs : WStep c s t) (hcl : ¬ Clobbers s t) :
    CellInv c file0 t C := by
  cases hs with
  | checkYes p f v hp h1 hf =>
    apply h.setPc (by rw [h1]; simp)
    · intro g i _; rw [h1]; cases f <;> cases g <;> rfl
    · intro g v j w e; cases f <;> cases e
  | checkNo p f hp h1 hf =>
    apply h.setPc (by rw [h1]; simp)
    · intro g i _; rw [h1]; cases f <;> cases g <;> rfl
    · intro g v j w e; cases e
  | create p f hp h1 =>
    have hf : s.file f = none := by
      by_contra hne
      apply hcl
      refine ⟨p, f, h1, hne, ?_⟩
      rw [h1]
      simp only [setPc_pc, if_true]
      cases f <;> simp [afterPrepare]
    obtain ⟨a1, a2⟩ := h.absent f hf
    have key : CellInv c file0 (s.setFile f (c.fresh f)) C := by
      refine ⟨h.crashed, h.nested, ?_, ?_, ?_⟩
      · intro g hg
        rw [setFile_file] at hg
        by_cases e : g = f
        · rw [if_pos e] at hg; cases hg
        · rw [if_neg e] at hg; exact h.absent g hg
      · intro g w hg i hi
        rw [setFile_file] at hg
        by_cases e : g = f
        · rw [if_pos e] at hg
          injection hg with hg
          subst e
          rw [a2, Finset.sum_empty, add_zero, Finset.sum_eq_zero]
          · rw [add_zero, base, a1, ← hg]; rfl
          · intro q _
            rw [setFile_pc, applied_past]
            · rfl
            · intro hpast; exact hl.exist q g hpast hf
        · rw [if_neg e] at hg
          exact h.cell g w hg i hi
      · intro q g v j w hq hg
        rw [setFile_file] at hg
        rw [setFile_pc] at hq
        by_cases e : g = f
        · subst e
          exact absurd hf (hl.exist q g (by rw [hq]; cases g <;> trivial))
        · rw [if_neg e] at hg
          exact h.held q g v j w hq hg
    apply key.setPc (by rw [setFile_pc, h1]; simp)
    · intro g i _; rw [setFile_pc, h1]; cases f <;> cases g <;> rfl
    · intro g v j w e; cases f <;> cases e
  | compute p hp h1 =>
    apply h.setPc (by rw [h1]; simp)
    · intro g i _; rw [h1]; cases g <;> rfl
    · intro g v j w e; cases e
  | acquire p f hp h1 hlk =>
    apply (h.setLock f (some p)).setPc (by rw [setLock_pc, h1]; simp)
    · intro g i _; rw [setLock_pc, h1]; cases f <;> cases g <;> rfl
    · intro g v j w e; cases e
  | read p f v hp h1 hf =>
    apply h.setPc (by rw [h1]; simp)
    · intro g i _; rw [h1]; cases f <;> cases g <;> simp [applied]
    · intro g v' j w e hw i _ _
      injection e with e1 e2 e3
      subst e1 e2
      rw [hf] at hw
      injection hw with hw
      rw [hw]
  | written p f v j hp h1 hj =>
    apply h.setPc (by rw [h1]; simp)
    · intro g i hi; rw [h1]; cases f <;> cases g <;> simp [applied] <;> omega
    · intro g v j w e; cases e
  | release p f hp h1 =>
    apply (h.setLock f none).setPc (by rw [setLock_pc, h1]; simp)
    · intro g i _; rw [setLock_pc, h1]; cases f <;> cases g <;> rfl
    · intro g v j w e; cases f <;> cases e
  | write p f v w j hp h1 hf hj =>
    have hv := h.held p f v j w h1 hf
    refine ⟨?_, h.nested, ?_, ?_, ?_⟩
    · intro g q hq
      obtain ⟨a1, a2⟩ := h.crashed g q hq
      refine ⟨a1, ?_⟩
      rw [setPc_pc, if_neg, setFile_pc]
      · exact a2
      · rintro rfl; rw [h1] at a2; cases a2
    · intro g hg
      rw [setPc_file, setFile_file] at hg
      by_cases e : g = f
      · rw [if_pos e] at hg; cases hg
      · rw [if_neg e] at hg; exact h.absent g hg
    · intro g w' hg i hi
      rw [setPc_file, setFile_file] at hg
      by_cases e : g = f
      · subst e
        rw [if_pos rfl] at hg
        injection hg with hg
        rw [← hg]
        by_cases hij : i = j
        · subst hij
          simp only [if_true]
          rw [hv i le_rfl hj, h.cell g w hf i hj]
          have e1 : ∀ q ∈ (range c.n).erase p, (if applied (((s.setFile g fun k => if k = i then v k + c.contrib p g k else w k).setPc p (.write g v (i + 1))).pc q) g i then c.contrib q g i else 0) =
              if applied (s.pc q) g i then c.contrib q g i else 0 := by
            intro q hq
            rw [setPc_pc, if_neg (Finset.ne_of_mem_erase hq), setFile_pc]
          have hpm : p ∈ range c.n := Finset.mem_range.2 hp
          rw [← Finset.add_sum_erase _ _ hpm, ← Finset.add_sum_erase (range c.n) _ hpm, Finset.sum_congr rfl e1]
          have e2 : applied (s.pc p) g i = false := by rw [h1]; cases g <;> simp [applied]
          have e3 : applied (((s.setFile g fun k => if k = i then v k + c.contrib p g k else w k).setPc p (.write g v (i + 1))).pc p) g i = true := by
            rw [setPc_pc, if_pos rfl]; cases g <;> simp [applied]
          rw [e2, e3]
          simp only [if_true, Bool.false_eq_true, if_false, zero_add]
          simp only [add_assoc, add_comm, add_left_comm]
        · simp only [if_neg hij]
          rw [h.cell g w hf i hi]
          congr 2
          apply Finset.sum_congr rfl
          intro q _
          rw [setPc_pc]
          by_cases hq : q = p
          · subst hq
            rw [if_pos rfl, h1]
            have : applied (WPc.write g v (j + 1)) g i = applied (WPc.write g v j) g i := by
              cases g <;> simp [applied] <;> omega
            rw [this]
          · rw [if_neg hq, setFile_pc]
      · rw [if_neg e] at hg
        rw [h.cell g w' hg i hi]
        congr 2
        apply Finset.sum_congr rfl
        intro q _
        rw [setPc_pc]
        by_cases hq : q = p
        · subst hq
          rw [if_pos rfl, h1]
          have : applied (WPc.write f v (j + 1)) g i = applied (WPc.write f v j) g i := by
            cases f <;> cases g <;> simp_all [applied]
          rw [this]
        · rw [if_neg hq, setFile_pc]
    · intro q g v' j' w' hq hg i hi1 hi2
      rw [setPc_file, setFile_file] at hg
      rw [setPc_pc] at hq
      by_cases e : q = p
      · rw [if_pos e] at hq
        injection hq with e1 e2 e3
        subst e1 e2 e3
        rw [if_pos rfl] at hg
        injection hg with hg
        rw [← hg]
        simp only
        rw [if_neg (by omega)]
        exact hv i (by omega) hi2
      · rw [if_neg e, setFile_pc] at hq
        by_cases hgf : g = f
        · subst hgf
          have l1 := (hl.locks q g).1 (by rw [hq]; rfl)
          have l2 := (hl.locks p g).1 (by rw [h1]; rfl)
          rw [l1] at l2
          injection l2 with l2
          exact absurd l2 e
        · rw [if_neg hgf] at hg
          exact h.held q g v' j' w' hq hg i hi1 hi2

theorem applied_whole {c : WCtx M} {x : WPc M} (hx : ∀ f v j, x = .write f v j → j = 0 ∨ c.size f ≤ j) {f : FId} {i : Nat} (hi : i < c.size f) :
    applied x f i = whole c x f := by
  cases x with
  | write g v j =>
    have := hx g v j rfl
    cases f <;> cases g <;> simp [applied, whole] <;> omega
  | _ => cases f <;> (try rename_i g; cases g) <;> rfl

theorem whole_nested {c : WCtx M} {x : WPc M} (h : whole c x .ht = true) : whole c x .hh = true := by
  cases x with
  | write g v j => cases g <;> simp_all [whole, applied]
  | _ => (try rename_i g; cases g) <;> simp_all [whole, applied]

theorem whole_between {c : WCtx M} {x : WPc M} (hx : ∀ f v j, x = .write f v j → j = 0 ∨ c.size f ≤ j) (h : whole c x .hh = true)
    (h' : whole c x .ht = false) : Between c x := by
  cases x with
  | write g v j =>
    have := hx g v j rfl
    cases g <;> simp_all [whole, applied, Between]
    omega
  | _ => (try rename_i g; cases g) <;> simp_all [whole, applied, Between]

/-- A crash that is not in the middle of writing. -/
theorem cellInv_crash {c : WCtx M} {file0} {s : WState M} {C} (hl : LockInv c s) (h : CellInv c file0 s C) {p : Nat} (hp : p < c.n)
    (hx : ∀ f v j, s.pc p = .write f v j → j = 0 ∨ c.size f ≤ j) :
    CellInv c file0 (s.crash p) fun f => if whole c (s.pc p) f then insert p (C f) else C f := by
  have hpc : ∀ q, (s.crash p).pc q = if q = p then .crashed else s.pc q := by
    intro q; unfold WState.crash; split <;> rfl
  have hfile : (s.crash p).file = s.file := by unfold WState.crash; split <;> rfl
  refine ⟨?_, ?_, ?_, ?_, ?_⟩
  · intro f q hq
    rw [hpc]
    by_cases e : q = p
    · subst e; exact ⟨hp, if_pos rfl⟩
    · rw [if_neg e]
      apply h.crashed f q
      split at hq
      · exact (Finset.mem_insert.1 hq).resolve_left e
      · exact hq
  · intro q hq
    by_cases w1 : whole c (s.pc p) .ht = true
    · rw [if_pos w1] at hq
      rw [if_pos (whole_nested w1)]
      rcases Finset.mem_insert.1 hq with e | e
      · exact Finset.mem_insert.2 (Or.inl e)
      · exact Finset.mem_insert.2 (Or.inr (h.nested e))
    · rw [if_neg w1] at hq
      split
      · exact Finset.mem_insert.2 (Or.inr (h.nested hq))
      · exact h.nested hq
  · intro f hf
    rw [hfile] at hf
    obtain ⟨a1, a2⟩ := h.absent f hf
    refine ⟨a1, ?_⟩
    have : whole c (s.pc p) f = false := by
      have hn : ¬ Past (s.pc p) f := fun hh => hl.exist p f hh hf
      cases hpp : s.pc p with
      | _ => rw [hpp] at hn; cases f <;> (try rename_i g; cases g) <;> simp_all [Past, whole, applied]
    rw [this]
    exact a2
  · intro f w hw i hi
    rw [hfile] at hw
    rw [h.cell f w hw i hi]
    have hpm : p ∈ range c.n := Finset.mem_range.2 hp
    have e1 : ∀ q ∈ (range c.n).erase p, (if applied ((s.crash p).pc q) f i then c.contrib q f i else 0) =
        if applied (s.pc q) f i then c.contrib q f i else 0 := by
      intro q hq
      rw [hpc, if_neg (Finset.ne_of_mem_erase hq)]
    rw [← Finset.add_sum_erase _ _ hpm, ← Finset.add_sum_erase (range c.n) _ hpm, Finset.sum_congr rfl e1, hpc, if_pos rfl]
    have e2 : applied (WPc.crashed : WPc M) f i = false := by cases f <;> rfl
    rw [e2, applied_whole hx hi]
    cases hw' : whole c (s.pc p) f with
    | false => simp
    | true =>
      simp only [if_true, Bool.false_eq_true, if_false, zero_add]
      rw [Finset.sum_insert]
      · simp only [add_assoc, add_comm, add_left_comm]
      · intro hpC
        have := (h.crashed f p hpC).2
        rw [this] at hw'
        cases f <;> simp [whole, applied] at hw'
  · intro q f v j w hq hw
    rw [hfile] at hw
    rw [hpc] at hq
    by_cases e : q = p
    · rw [if_pos e] at hq; cases hq
    · rw [if_neg e] at hq
      exact h.held q f v j w hq hw

end Hpelm
