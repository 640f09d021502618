import Verif.Lemmas.Writers
import Verif.Spec.Serial

/-!
Every interleaving of the writers is equivalent to one writer after another, for an addition without laws.
-/

namespace Hpelm
set_option linter.unusedSectionVars false
open Spec
variable {M : Type} [Add M]

/-- The process has written its whole contribution to file `f` and knows it. -/
def Wrote : WPc M → FId → Prop
  | .release .hh, .hh => True
  | .release .ht, _ => True
  | .acquire .ht, .hh => True
  | .read .ht, .hh => True
  | .write .ht _ _, .hh => True
  | .done, _ => True
  | _, _ => False

theorem oneByOne_snoc (c : WCtx M) (file0 : FId → Option (Nat → M)) (f : FId) (o : List Nat) (p i : Nat) :
    oneByOne c file0 f (o ++ [p]) i = oneByOne c file0 f o i + c.contrib p f i := by
  simp [oneByOne]

/-- `O f`: the processes whose whole contribution to `f` is in, in the order in which they added it. -/
structure SerInv (c : WCtx M) (file0 : FId → Option (Nat → M)) (s : WState M) (O : FId → List Nat) : Prop where
  nodup : ∀ f, (O f).Nodup
  mem : ∀ f, ∀ p ∈ O f, p < c.n ∧ (Wrote (s.pc p) f ∨ s.pc p = .crashed)
  wrote : ∀ f p, Wrote (s.pc p) f → p ∈ O f
  nested : ∀ p ∈ O .ht, p ∈ O .hh
  absent : ∀ f, s.file f = none → file0 f = none ∧ O f = []
  free : ∀ f w, s.file f = some w → (∀ p v j, s.pc p ≠ .write f v j) → ∀ i < c.size f, w i = oneByOne c file0 f (O f) i
  held : ∀ f w, s.file f = some w → ∀ p v j, s.pc p = .write f v j → ∀ i < c.size f,
    v i = oneByOne c file0 f (O f) i ∧ w i = if i < j then v i + c.contrib p f i else v i

theorem serInv_init (c : WCtx M) (file0) : SerInv c file0 (WState.init file0) fun _ => [] where
  nodup := by simp
  mem := by simp
  wrote := by intro f p h; cases h
  nested := by simp
  absent := by intro f h; exact ⟨h, rfl⟩
  free := by
    intro f w h _ i _
    have : file0 f = some w := h
    simp [oneByOne, base, this]
  held := by intro f w _ p v j h; cases h

/-- Changing a program counter that neither leaves nor enters a write. -/
theorem SerInv.setPc {c : WCtx M} {file0 s O} (h : SerInv c file0 s O) {p : Nat} {x : WPc M} (hcr : s.pc p ≠ .crashed)
    (ha : ∀ f, Wrote x f ↔ Wrote (s.pc p) f) (h1 : ∀ f v j, s.pc p ≠ .write f v j) (h2 : ∀ f v j, x ≠ .write f v j) :
    SerInv c file0 (s.setPc p x) O where
  nodup := h.nodup
  mem := by
    intro f q hq
    obtain ⟨a, b⟩ := h.mem f q hq
    refine ⟨a, ?_⟩
    rw [setPc_pc]
    split
    · next e => subst e; rcases b with b | b
                · exact .inl ((ha f).2 b)
                · exact absurd b hcr
    · exact b
  wrote := by
    intro f q hq
    rw [setPc_pc] at hq
    split at hq
    · next e => subst e; exact h.wrote f q ((ha f).1 hq)
    · exact h.wrote f q hq
  nested := h.nested
  absent := h.absent
  free := by
    intro f w hw hn
    refine h.free f w hw ?_
    intro q v j hq
    have := hn q v j
    rw [setPc_pc] at this
    split at this
    · next e => subst e; exact h1 f v j hq
    · exact this hq
  held := by
    intro f w hw q v j hq
    rw [setPc_pc] at hq
    split at hq
    · exact absurd hq (h2 f v j)
    · exact h.held f w hw q v j hq

theorem SerInv.setLock {c : WCtx M} {file0 s O} (h : SerInv c file0 s O) (f o) : SerInv c file0 (s.setLock f o) O :=
  ⟨h.nodup, h.mem, h.wrote, h.nested, h.absent, h.free, h.held⟩

/-- Only one process writes to a file. -/
theorem one_writer {c : WCtx M} {s : WState M} (hl : LockInv c s) {p q : Nat} {f : FId} (hp : (s.pc p).holds = some f) (hq : (s.pc q).holds = some f) : p = q := by
  have l1 := (hl.locks p f).1 hp
  have l2 := (hl.locks q f).1 hq
  rw [l1] at l2
  injection l2

theorem serInv_step {c : WCtx M} {file0} {s t : WState M} {O} (hl : LockInv c s) (h : SerInv c file0 s O) (hs : WStep c s t) (hcl : ¬ Clobbers s t) :
    ∃ O', SerInv c file0 t O' := by
  cases hs with
  | checkYes p f v hp h1 hf =>
    refine ⟨O, h.setPc (by rw [h1]; simp) ?_ (by rw [h1]; simp) (by cases f <;> simp [afterPrepare])⟩
    intro g; rw [h1]; cases f <;> cases g <;> rfl
  | checkNo p f hp h1 hf =>
    refine ⟨O, h.setPc (by rw [h1]; simp) ?_ (by rw [h1]; simp) (by simp)⟩
    intro g; rw [h1]; cases f <;> cases g <;> rfl
  | create p f hp h1 =>
    have hf : s.file f = none := by
      by_contra hne
      apply hcl
      refine ⟨p, f, h1, hne, ?_⟩
      rw [h1]
      simp only [setPc_pc, if_true]
      cases f <;> simp [afterPrepare]
    obtain ⟨a1, a2⟩ := h.absent f hf
    have key : SerInv c file0 (s.setFile f (c.fresh f)) O := by
      refine ⟨h.nodup, h.mem, h.wrote, h.nested, ?_, ?_, ?_⟩
      · intro g hg
        rw [setFile_file] at hg
        split at hg
        · cases hg
        · exact h.absent g hg
      · intro g w hg hn i hi
        rw [setFile_file] at hg
        split at hg
        · next e =>
          subst e
          injection hg with hg
          simp [a2, oneByOne, base, a1, ← hg]
        · exact h.free g w hg hn i hi
      · intro g w hg q v j hq
        rw [setFile_file] at hg
        rw [setFile_pc] at hq
        split at hg
        · next e =>
          subst e
          exact absurd hf (hl.exist q g (by rw [hq]; cases g <;> trivial))
        · exact h.held g w hg q v j hq
    refine ⟨O, key.setPc (by rw [setFile_pc, h1]; simp) ?_ (by rw [setFile_pc, h1]; simp) (by cases f <;> simp [afterPrepare])⟩
    intro g; rw [setFile_pc, h1]; cases f <;> cases g <;> rfl
  | compute p hp h1 =>
    refine ⟨O, h.setPc (by rw [h1]; simp) ?_ (by rw [h1]; simp) (by simp)⟩
    intro g; rw [h1]; cases g <;> rfl
  | acquire p f hp h1 hlk =>
    refine ⟨O, (h.setLock f (some p)).setPc (by rw [setLock_pc, h1]; simp) ?_ (by rw [setLock_pc, h1]; simp) (by simp)⟩
    intro g; rw [setLock_pc, h1]; cases f <;> cases g <;> rfl
  | release p f hp h1 =>
    refine ⟨O, (h.setLock f none).setPc (by rw [setLock_pc, h1]; simp) ?_ (by rw [setLock_pc, h1]; simp) (by cases f <;> simp [afterUpdate])⟩
    intro g; rw [setLock_pc, h1]; cases f <;> cases g <;> rfl
  | read p f v hp h1 hf =>
    have hno : ∀ q v' j, s.pc q ≠ .write f v' j := by
      intro q v' j hq
      have : q = p := one_writer hl (by rw [hq]; rfl) (by rw [h1]; rfl)
      subst this
      rw [h1] at hq; cases hq
    refine ⟨O, h.nodup, ?_, ?_, h.nested, h.absent, ?_, ?_⟩
    · intro g q hq
      obtain ⟨a, b⟩ := h.mem g q hq
      refine ⟨a, ?_⟩
      rw [setPc_pc]
      split
      · next e => subst e; rw [h1] at b; cases f <;> cases g <;> simp_all [Wrote]
      · exact b
    · intro g q hq
      rw [setPc_pc] at hq
      split at hq
      · next e => subst e; apply h.wrote; rw [h1]; cases f <;> cases g <;> simp_all [Wrote]
      · exact h.wrote g q hq
    · intro g w hw hn
      rw [setPc_file] at hw
      by_cases e : g = f
      · subst e
        have := hn p v 0
        simp at this
      · refine h.free g w hw ?_
        intro q v' j hq
        have := hn q v' j
        rw [setPc_pc] at this
        split at this
        · next e' => subst e'; rw [h1] at hq; cases hq
        · exact this hq
    · intro g w hw q v' j hq i hi
      rw [setPc_file] at hw
      rw [setPc_pc] at hq
      split at hq
      · injection hq with e1 e2 e3
        subst e1 e2 e3
        rw [hf] at hw
        injection hw with hw
        subst hw
        simp only [Nat.not_lt_zero, if_false, and_true]
        exact h.free f v hf hno i hi
      · exact h.held g w hw q v' j hq i hi
  | write p f v w j hp h1 hf hj =>
    have hv := h.held f w hf p v j h1
    refine ⟨O, h.nodup, ?_, ?_, h.nested, ?_, ?_, ?_⟩
    · intro g q hq
      obtain ⟨a, b⟩ := h.mem g q hq
      refine ⟨a, ?_⟩
      rw [setPc_pc]
      split
      · next e => subst e; rw [h1] at b; cases f <;> cases g <;> simp_all [Wrote]
      · exact b
    · intro g q hq
      rw [setPc_pc] at hq
      split at hq
      · next e => subst e; apply h.wrote; rw [h1]; cases f <;> cases g <;> simp_all [Wrote]
      · exact h.wrote g q hq
    · intro g hg
      rw [setPc_file, setFile_file] at hg
      split at hg
      · cases hg
      · exact h.absent g hg
    · intro g w' hg hn
      rw [setPc_file, setFile_file] at hg
      split at hg
      · next e =>
        subst e
        have := hn p v (j + 1)
        simp at this
      · refine h.free g w' hg ?_
        intro q v' j' hq
        have := hn q v' j'
        rw [setPc_pc] at this
        split at this
        · next e' e =>
          subst e
          rw [h1] at hq
          injection hq with e1
          exact e' e1.symm
        · exact this hq
    · intro g w' hg q v' j' hq i hi
      rw [setPc_file, setFile_file] at hg
      rw [setPc_pc] at hq
      split at hq
      · next e =>
        subst e
        injection hq with e1 e2 e3
        subst e1 e2 e3
        rw [if_pos rfl] at hg
        injection hg with hg
        obtain ⟨b1, b2⟩ := hv i hi
        refine ⟨b1, ?_⟩
        rw [← hg]
        by_cases hij : i = j
        · subst hij; simp
        · simp only [if_neg hij, b2]
          by_cases hlt : i < j
          · rw [if_pos hlt, if_pos (by omega)]
          · rw [if_neg hlt, if_neg (by omega)]
      · next e =>
        rw [setFile_pc] at hq
        split at hg
        · next e' =>
          subst e'
          exact absurd (one_writer hl (by rw [hq]; rfl) (by rw [h1]; rfl)) e
        · exact h.held g w' hg q v' j' hq i hi
  | written p f v j hp h1 hj =>
    have hnot : ∀ g, p ∈ O g → g ≠ f := by
      rintro g hg rfl
      obtain ⟨_, b⟩ := h.mem g p hg
      rw [h1] at b
      cases g <;> simp [Wrote] at b
    refine ⟨fun g => if g = f then O f ++ [p] else O g, ?_, ?_, ?_, ?_, ?_, ?_, ?_⟩
    · intro g
      split
      · exact List.Nodup.append (h.nodup f) (by simp) (by
          intro x hx hx'
          simp at hx'
          subst hx'
          exact hnot f hx rfl)
      · exact h.nodup g
    · intro g q hq
      rw [setPc_pc]
      by_cases e : q = p
      · subst e
        refine ⟨hp, .inl ?_⟩
        rw [if_pos rfl]
        split at hq
        · next e => subst e; cases g <;> simp [Wrote]
        · next e =>
          have := (h.mem g q hq).2
          rw [h1] at this
          cases f <;> cases g <;> simp_all [Wrote]
      · rw [if_neg e]
        split at hq
        · next e' =>
          subst e'
          rcases List.mem_append.1 hq with hq | hq
          · exact h.mem g q hq
          · simp at hq; exact absurd hq e
        · exact h.mem g q hq
    · intro g q hq
      rw [setPc_pc] at hq
      split at hq
      · next e =>
        subst e
        by_cases e' : g = f
        · rw [if_pos e']; simp
        · rw [if_neg e']
          apply h.wrote
          rw [h1]
          cases f <;> cases g <;> simp_all [Wrote]
      · have := h.wrote g q hq
        split
        · next e' => subst e'; exact List.mem_append_left _ this
        · exact this
    · intro q hq
      cases f with
      | hh =>
        simp only [reduceCtorEq, if_false, if_true] at hq ⊢
        exact List.mem_append_left _ (h.nested q hq)
      | ht =>
        simp only [reduceCtorEq, if_false, if_true] at hq ⊢
        rcases List.mem_append.1 hq with hq | hq
        · exact h.nested q hq
        · simp at hq
          subst hq
          apply h.wrote
          rw [h1]; trivial
    · intro g hg
      rw [setPc_file] at hg
      obtain ⟨a, b⟩ := h.absent g hg
      refine ⟨a, ?_⟩
      split
      · next e =>
        subst e
        exact absurd hg (hl.exist p g (by rw [h1]; cases g <;> trivial))
      · exact b
    · intro g w hg hn i hi
      rw [setPc_file] at hg
      by_cases e : g = f
      · subst e
        rw [if_pos rfl, oneByOne_snoc]
        obtain ⟨b1, b2⟩ := h.held g w hg p v j h1 i hi
        rw [b2, if_pos (by omega), b1]
      · rw [if_neg e]
        refine h.free g w hg ?_ i hi
        intro q v' j' hq
        have := hn q v' j'
        rw [setPc_pc] at this
        split at this
        · next e' =>
          subst e'
          rw [h1] at hq
          injection hq with e1
          exact e e1.symm
        · exact this hq
    · intro g w hg q v' j' hq i hi
      rw [setPc_file] at hg
      rw [setPc_pc] at hq
      split at hq
      · cases hq
      · next e =>
        by_cases e' : g = f
        · subst e'
          exact absurd (one_writer hl (by rw [hq]; rfl) (by rw [h1]; rfl)) e
        · rw [if_neg e']
          exact h.held g w hg q v' j' hq i hi

/-- A process dies anywhere but in the middle of writing. -/
theorem serInv_crash {c : WCtx M} {file0} {s : WState M} {O} (hl : LockInv c s) (h : SerInv c file0 s O) {p : Nat} (hp : p < c.n)
    (hx : ∀ f v j, s.pc p = .write f v j → j = 0 ∨ c.size f ≤ j) : ∃ O', SerInv c file0 (s.crash p) O' := by
  have hpc : ∀ q, (s.crash p).pc q = if q = p then .crashed else s.pc q := by
    intro q; unfold WState.crash; split <;> simp
  have hfile : (s.crash p).file = s.file := by unfold WState.crash; split <;> rfl
  by_cases hw : ∃ f v j, s.pc p = .write f v j ∧ j ≠ 0
  · obtain ⟨f, v, j, h1, h0⟩ := hw
    have hj : c.size f ≤ j := (hx f v j h1).resolve_left h0
    -- as if it had noticed that it is done, and died then
    obtain ⟨O', h'⟩ := serInv_step hl h (WStep.written s p f v j hp h1 hj) (by
      rintro ⟨q, g, hq, hne, hch⟩
      rw [setPc_pc] at hch
      split at hch
      · next e => subst e; rw [h1] at hq; cases hq
      · exact hch rfl)
    refine ⟨O', h'.nodup, ?_, ?_, h'.nested, ?_, ?_, ?_⟩
    · intro g q hq
      obtain ⟨a, b⟩ := h'.mem g q hq
      refine ⟨a, ?_⟩
      rw [hpc]
      rw [setPc_pc] at b
      split
      · exact .inr rfl
      · next e => rwa [if_neg e] at b
    · intro g q hq
      rw [hpc] at hq
      split at hq
      · cases hq
      · next e => exact h'.wrote g q (by rw [setPc_pc, if_neg e]; exact hq)
    · rw [hfile]; exact h'.absent
    · intro g w hg hn
      rw [hfile] at hg
      refine h'.free g w hg ?_
      intro q v' j' hq
      rw [setPc_pc] at hq
      split at hq
      · cases hq
      · next e =>
        have := hn q v' j'
        rw [hpc, if_neg e] at this
        exact this hq
    · intro g w hg q v' j' hq
      rw [hfile] at hg
      rw [hpc] at hq
      split at hq
      · cases hq
      · next e => exact h'.held g w hg q v' j' (by rw [setPc_pc, if_neg e]; exact hq)
  · refine ⟨O, h.nodup, ?_, ?_, h.nested, ?_, ?_, ?_⟩
    · intro g q hq
      obtain ⟨a, b⟩ := h.mem g q hq
      refine ⟨a, ?_⟩
      rw [hpc]
      split
      · exact .inr rfl
      · exact b
    · intro g q hq
      rw [hpc] at hq
      split at hq
      · cases hq
      · exact h.wrote g q hq
    · rw [hfile]; exact h.absent
    · intro g w hg hn i hi
      rw [hfile] at hg
      by_cases hh : ∃ v j, s.pc p = .write g v j
      · obtain ⟨v, j, h1⟩ := hh
        have hj : j = 0 := by
          by_contra hne
          exact hw ⟨g, v, j, h1, hne⟩
        obtain ⟨b1, b2⟩ := h.held g w hg p v j h1 i hi
        rw [b2, hj, if_neg (Nat.not_lt_zero _), b1]
      · refine h.free g w hg ?_ i hi
        intro q v' j' hq
        by_cases e : q = p
        · subst e; exact hh ⟨v', j', hq⟩
        · have := hn q v' j'
          rw [hpc, if_neg e] at this
          exact this hq
    · intro g w hg q v' j' hq
      rw [hfile] at hg
      rw [hpc] at hq
      split at hq
      · cases hq
      · exact h.held g w hg q v' j' hq

end Hpelm
