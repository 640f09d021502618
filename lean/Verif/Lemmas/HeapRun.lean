import Verif.Lemmas.Heap

/-! # Whole programs over shared arrays -/

set_option linter.unusedSectionVars false

namespace Hpelm
open Spec
variable {K : Type} [Field K] [LinearOrder K]

theorem RState.step_sound (env : Env K) (s : RState K) (hs : s.Sound) (op : ArrOp K) (hu : ∀ a ∈ uses op, a < s.heap.next) :
    (s.step env op).1.Sound := by
  by_cases hw : ∃ a, Writes a op
  · obtain ⟨a, hw⟩ := hw
    cases op <;> first | exact absurd hw id | exact hs.heap le_rfl
  · exact (RState.call_spec env s hs op hu fun a h => hw ⟨a, h⟩).1.sound

theorem RState.step_keeps (env : Env K) (s : RState K) (hs : s.Sound) (op : ArrOp K) (hu : ∀ a ∈ uses op, a < s.heap.next)
    (a : Nat) (ha : a < s.heap.next) (hn : ¬ Accumulates s.net a) :
    a < (s.step env op).1.heap.next ∧ ¬ Accumulates (s.step env op).1.net a ∧
    (s.step env op).1.heap.cell a = lastWritten a (s.heap.cell a) [op] ∧
    (s.net.B ≠ some a → (s.step env op).1.net.B ≠ some a) := by
  by_cases hw : ∃ b, Writes b op
  · obtain ⟨b, hw⟩ := hw
    cases op with
    | write c M =>
      refine ⟨ha, hn, ?_, id⟩
      simp only [RState.step, lastWritten, List.foldl, Heap.set]
      by_cases h : a = c
      · rw [if_pos h, if_pos h.symm]
      · rw [if_neg h, if_neg (Ne.symm h)]
    | _ => exact absurd hw id
  · have h := (RState.call_spec env s hs op hu fun a h => hw ⟨a, h⟩).1.step
    refine ⟨ha.trans_le h.next, fun h' => hn (h.acc a ha h'), ?_, fun h1 h2 => h1 (h.B a ha h2)⟩
    rw [h.cell a ha hn]
    cases op with
    | write c M => exact absurd ⟨c, rfl⟩ hw
    | _ => rfl

theorem lastWritten_cons (a : Nat) (M : Mat K) (op : ArrOp K) (ops : List (ArrOp K)) :
    lastWritten a M (op :: ops) = lastWritten a (lastWritten a M [op]) ops := rfl

theorem RState.run_keeps (env : Env K) : ∀ (ops : List (ArrOp K)) (s : RState K), s.Sound → Valid env s ops →
    (s.run env ops).Sound ∧ ∀ a < s.heap.next, ¬ Accumulates s.net a →
      a < (s.run env ops).heap.next ∧ ¬ Accumulates (s.run env ops).net a ∧
      (s.run env ops).heap.cell a = lastWritten a (s.heap.cell a) ops ∧
      (s.net.B ≠ some a → (s.run env ops).net.B ≠ some a)
  | [], s, hs, _ => ⟨hs, fun a ha hn => ⟨ha, hn, rfl, id⟩⟩
  | op :: ops, s, hs, hv => by
    cases hv with
    | cons _ _ _ hu hv =>
      have ih := RState.run_keeps env ops _ (RState.step_sound env s hs op hu) hv
      refine ⟨ih.1, fun a ha hn => ?_⟩
      obtain ⟨h1, h2, h3, h4⟩ := RState.step_keeps env s hs op hu a ha hn
      obtain ⟨k1, k2, k3, k4⟩ := ih.2 a h1 h2
      exact ⟨k1, k2, by rw [lastWritten_cons, ← h3]; exact k3, fun h => k4 (h4 h)⟩

theorem valid_append (env : Env K) : ∀ (ops1 ops2 : List (ArrOp K)) (s : RState K), Valid env s (ops1 ++ ops2) →
    Valid env s ops1 ∧ Valid env (s.run env ops1) ops2
  | [], _, s, h => ⟨.nil s, h⟩
  | op :: ops1, ops2, s, h => by
    cases h with
    | cons _ _ _ hu hv =>
      have ih := valid_append env ops1 ops2 _ hv
      exact ⟨.cons s op ops1 hu ih.1, ih.2⟩

theorem RState.run_append (env : Env K) (s : RState K) (ops1 ops2 : List (ArrOp K)) :
    s.run env (ops1 ++ ops2) = (s.run env ops1).run env ops2 := List.foldl_append

/-- One step of a program that does not write into arrays of the model. -/
theorem RState.step_view (env : Env K) (s : RState K) (hs : s.Sound) (op : ArrOp K) (hu : ∀ a ∈ uses op, a < s.heap.next)
    (hw : ∀ a, Writes a op → ¬ Keeps s.net a) :
    (s.step env op).1.net.view (s.step env op).1.heap = (valueCall env s.heap.cell (s.net.view s.heap) op).1 ∧
    (s.step env op).2.map (List.map (s.step env op).1.heap.cell) = (valueCall env s.heap.cell (s.net.view s.heap) op).2 := by
  by_cases h : ∃ b, Writes b op
  · obtain ⟨b, h⟩ := h
    cases op with
    | write c M => exact ⟨RState.write_view s c M (hw c rfl), rfl⟩
    | _ => exact absurd h id
  · have := RState.call_spec env s hs op hu fun a h' => h ⟨a, h'⟩
    exact ⟨this.1.view, this.2.1⟩

theorem RState.run_view (env : Env K) : ∀ (ops : List (ArrOp K)) (s : RState K), s.Sound → Valid env s ops → Polite env s ops →
    (s.run env ops).net.view (s.run env ops).heap = valueRun env s (s.net.view s.heap) ops
  | [], _, _, _, _ => rfl
  | op :: ops, s, hs, hv, hp => by
    cases hv with
    | cons _ _ _ hu hv =>
      cases hp with
      | cons _ _ _ hw hp =>
        have ih := RState.run_view env ops _ (RState.step_sound env s hs op hu) hv hp
        rw [(RState.step_view env s hs op hu hw).1] at ih
        exact ih

theorem handsFresh_spec (env : Env K) (s : RState K) (hs : s.Sound) (op : ArrOp K) (hu : ∀ a ∈ uses op, a < s.heap.next) :
    ∀ a ∈ handsFresh env s op, a < (s.step env op).1.heap.next ∧ ¬ Keeps (s.step env op).1.net a := by
  intro a ha
  have hw : ∀ b, ¬ Writes b op := by
    intro b hb
    cases op <;> first | exact hb | simp [handsFresh] at ha
  have hlt : ∀ l, (s.step env op).2 = .ok l → a ∈ l → a < (s.step env op).1.heap.next :=
    fun l hl => (RState.call_spec env s hs op hu hw).2.2 l hl a
  cases op with
  | create M =>
    simp only [handsFresh, RState.step, List.mem_singleton] at ha
    subst ha
    exact ⟨hlt _ rfl (by simp), not_holds_new hs le_rfl⟩
  | project aX =>
    simp only [handsFresh, RState.step, RState.project] at ha hlt ⊢
    cases hp : s.net.base.project env (s.heap.cell aX) with
    | error x => rw [hp] at ha; simp at ha
    | ok H =>
      rw [hp] at ha hlt
      simp only [List.mem_singleton] at ha
      subst ha
      exact ⟨hlt _ rfl (by simp), not_holds_new hs le_rfl⟩
  | predict aX =>
    simp only [handsFresh, RState.step, RState.predict] at ha hlt ⊢
    cases hb : s.net.B with
    | none => rw [hb] at ha; simp at ha
    | some b =>
      rw [hb] at ha hlt
      simp only at ha hlt ⊢
      cases hp : s.net.base.project env (s.heap.cell aX) with
      | error x => rw [hp] at ha; simp at ha
      | ok H =>
        rw [hp] at ha hlt
        simp only at ha hlt ⊢
        by_cases hc : ((s.heap.alloc H).cell s.heap.next).cols ≠ ((s.heap.alloc H).cell b).nrows
        · rw [if_pos hc] at ha; simp at ha
        · rw [if_neg hc] at ha hlt ⊢
          simp only [List.mem_singleton] at ha
          subst ha
          exact ⟨hlt _ rfl (by simp), not_holds_new hs (by simp)⟩
  | getCorr =>
    simp only [handsFresh, RState.step, RState.getCorr] at ha hlt ⊢
    split at ha
    · rename_i hc
      rw [hc] at ha hlt ⊢
      cases hcc : s.net.corr with
      | none => rw [hcc] at ha; simp at ha
      | some c =>
        rw [hcc] at ha hlt
        simp only at ha hlt ⊢
        refine ⟨hlt _ rfl ha, not_holds_new hs ?_⟩
        simp at ha
        omega
    · simp at ha
  | getB =>
    simp only [handsFresh, RState.step, RState.getB] at ha hlt ⊢
    split at ha
    · rename_i hc
      rw [hc] at ha hlt ⊢
      cases hcc : s.net.B with
      | none => rw [hcc] at ha; simp at ha
      | some c =>
        rw [hcc] at ha hlt
        simp only at ha hlt ⊢
        refine ⟨hlt _ rfl ha, not_holds_new hs ?_⟩
        simp at ha
        omega
    · simp at ha
  | storeCorr =>
    simp only [handsFresh, RState.step, RState.storeCorr, RState.getCorr] at ha hlt ⊢
    split at ha
    · rename_i hc
      rw [hc] at ha hlt ⊢
      cases hcc : s.net.corr with
      | none => rw [hcc] at ha; simp at ha
      | some c =>
        rw [hcc] at ha hlt
        simp only at ha hlt ⊢
        refine ⟨hlt _ rfl ha, not_holds_new hs ?_⟩
        simp at ha
        omega
    · simp at ha
  | _ => simp [handsFresh] at ha

/-- A program that only writes into its own arrays never writes into an array of the model. -/
theorem own_polite (env : Env K) : ∀ (ops : List (ArrOp K)) (s : RState K) (mine : List Nat), s.Sound → Valid env s ops →
    (∀ a ∈ mine, a < s.heap.next ∧ ¬ Keeps s.net a) → OwnWrites env s mine ops → Polite env s ops
  | [], s, _, _, _, _, _ => .nil s
  | op :: ops, s, mine, hs, hv, hm, ho => by
    cases hv with
    | cons _ _ _ hu hv =>
      cases ho with
      | cons _ _ _ _ hw ho =>
        refine .cons s op ops (fun a h => (hm a (hw a h)).2) ?_
        refine own_polite env ops _ _ (RState.step_sound env s hs op hu) hv ?_ ho
        intro a ha
        rcases List.mem_append.1 ha with ha | ha
        · exact handsFresh_spec env s hs op hu a ha
        · obtain ⟨h1, h2⟩ := hm a ha
          obtain ⟨k1, k2, -, k4⟩ := RState.step_keeps env s hs op hu a h1 fun h => h2 (.inl h)
          exact ⟨k1, fun h => h.elim k2 (k4 fun h => h2 (.inr h))⟩

end Hpelm
