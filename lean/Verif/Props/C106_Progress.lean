import Verif.Model.Progress
import Mathlib.Algebra.Order.Field.Basic
import Mathlib.Data.Rat.Floor
import Mathlib.Tactic.Linarith
import Mathlib.Tactic.Positivity

/-!
# C106 — progress reports
-/

set_option linter.unusedSectionVars false

namespace Hpelm.Spec
variable {K : Type} [Field K] [LinearOrder K] [FloorRing K]

/-- When the last line was printed in the passes so far; the start of the loop if there was none. -/
def lastReport (clock : Nat → K) (l : List Tick) : K :=
  match (l.filter fun x => x.line.isSome).getLast? with
  | none => clock 0
  | some x => clock (x.k + 2)

end Hpelm.Spec

namespace Hpelm.Props
open Hpelm Spec
variable {K : Type} [Field K] [LinearOrder K] [IsStrictOrderedRing K] [FloorRing K]

theorem lastReport_snoc_some (clock : Nat → K) (acc : List Tick) (d n k : Nat) (x) :
    lastReport clock (acc ++ [⟨d, n, k, some x⟩]) = clock (k + 2) := by
  simp [lastReport, List.filter_append]

theorem lastReport_snoc_none (clock : Nat → K) (acc : List Tick) (d n k : Nat) :
    lastReport clock (acc ++ [⟨d, n, k, none⟩]) = lastReport clock acc := by
  simp [lastReport, List.filter_append]

theorem progress_split (clock : Nat → K) (tprint : K) (nb : Nat) (bs : List Nat) : ∀ (k : Nat) (t : K) (acc pre post : List Tick) (x : Tick),
    t = lastReport clock acc → (∀ y ∈ acc, y.k + 2 ≤ k ∧ (y.line.isSome → y.k + 3 ≤ k)) → progress clock tprint nb bs k t = pre ++ x :: post →
    (x.line.isSome ↔ tprint < clock (x.k + 1) - lastReport clock (acc ++ pre)) ∧
    (∀ y ∈ acc ++ pre, y.k + 2 ≤ x.k ∧ (y.line.isSome → y.k + 3 ≤ x.k)) ∧ k ≤ x.k := by
  induction bs with
  | nil => intro k t acc pre post x _ _ h; simp [progress] at h
  | cons b bs ih =>
    intro k t acc pre post x ht hacc h
    simp only [progress] at h
    split at h
    · rename_i hc
      generalize hms _ = q at h
      cases pre with
      | nil =>
        simp only [List.nil_append, List.cons.injEq] at h
        obtain ⟨rfl, _⟩ := h
        rw [List.append_nil]
        exact ⟨⟨fun _ => by rw [← ht]; exact hc, fun _ => rfl⟩, hacc, le_refl _⟩
      | cons y pre =>
        simp only [List.cons_append, List.cons.injEq] at h
        obtain ⟨rfl, h⟩ := h
        have := ih (k + 3) _ (acc ++ [⟨b + 1, nb, k, some q⟩]) pre post x (lastReport_snoc_some clock acc (b + 1) nb k q).symm (by
          intro y hy
          rcases List.mem_append.1 hy with hy | hy
          · have := hacc y hy; exact ⟨by omega, fun h => by have := this.2 h; omega⟩
          · simp only [List.mem_singleton] at hy; subst hy; simp) h
        rw [List.append_assoc, List.singleton_append] at this
        exact ⟨this.1, this.2.1, by omega⟩
    · rename_i hc
      cases pre with
      | nil =>
        simp only [List.nil_append, List.cons.injEq] at h
        obtain ⟨rfl, _⟩ := h
        rw [List.append_nil]
        exact ⟨⟨fun h => by simp at h, fun h => absurd (by rw [← ht] at h; exact h) hc⟩, hacc, le_refl _⟩
      | cons y pre =>
        simp only [List.cons_append, List.cons.injEq] at h
        obtain ⟨rfl, h⟩ := h
        have := ih (k + 2) _ (acc ++ [⟨b + 1, nb, k, none⟩]) pre post x (by rw [lastReport_snoc_none clock acc (b + 1) nb k, ← ht]) (by
          intro y hy
          rcases List.mem_append.1 hy with hy | hy
          · have := hacc y hy; exact ⟨by omega, fun h => by have := this.2 h; omega⟩
          · simp only [List.mem_singleton] at hy; subst hy; simp) h
        rw [List.append_assoc, List.singleton_append] at this
        exact ⟨this.1, this.2.1, by omega⟩

/-- C106, when.  In every pass of every loop (with or without helper processes), for every clock: a line is printed if and only if more than
`tprint` seconds have passed since the last one (since the start of the loop for the first one).  Times are read in order. -/
theorem C106_when (clock : Nat → K) (tprint : K) (nb : Nat) (l : List Tick) (hl : l = progressSync clock tprint nb ∨ l = progressAsync clock tprint nb)
    (pre post : List Tick) (x : Tick) (h : l = pre ++ x :: post) :
    (x.line.isSome ↔ tprint < clock (x.k + 1) - lastReport clock pre) ∧ (∀ y ∈ pre, y.k + 2 ≤ x.k) := by
  have key : ∀ bs, l = progress clock tprint nb bs 2 (clock 0) → _ := fun bs hbs =>
    progress_split clock tprint nb bs 2 (clock 0) [] pre post x rfl (by simp) (hbs ▸ h)
  rcases hl with hl | hl
  · have := key _ hl
    exact ⟨this.1, fun y hy => (this.2.1 y hy).1⟩
  · have := key _ hl
    exact ⟨this.1, fun y hy => (this.2.1 y hy).1⟩

/-- C106, no flood.  If the clock never goes back, any two lines are more than `tprint` seconds apart. -/
theorem C106_spacing (clock : Nat → K) (hc : Monotone clock) (tprint : K) (nb : Nat) (l : List Tick)
    (hl : l = progressSync clock tprint nb ∨ l = progressAsync clock tprint nb) (pre mid post : List Tick) (x y : Tick)
    (h : l = pre ++ x :: mid ++ y :: post) (hx : x.line.isSome) (hy : y.line.isSome) : tprint < clock (y.k + 1) - clock (x.k + 1) := by
  have h1 := (C106_when clock tprint nb l hl (pre ++ x :: mid) post y h).1.1 hy
  have h2 : clock (x.k + 1) ≤ lastReport clock (pre ++ x :: mid) := by
    have hne : ((pre ++ x :: mid).filter fun z => z.line.isSome).getLast? ≠ none := by
      rw [Ne, List.getLast?_eq_none_iff, List.filter_eq_nil_iff]
      intro hall
      exact hall x (by simp) hx
    unfold lastReport
    split
    · rename_i he; exact absurd he hne
    · rename_i z he
      refine hc ?_
      have hz : z ∈ x :: mid := by
        have : (pre ++ x :: mid).filter (fun z => z.line.isSome) = pre.filter (fun z => z.line.isSome) ++ (x :: mid).filter (fun z => z.line.isSome) := List.filter_append _ _
        rw [this, List.getLast?_append_of_ne_nil _ (by simp [hx])] at he
        exact (List.mem_filter.1 (List.mem_of_getLast? he)).1
      rcases List.mem_cons.1 hz with rfl | hz
      · omega
      · obtain ⟨s, t, rfl⟩ := List.append_of_mem hz
        have := (C106_when clock tprint nb l hl (pre ++ x :: s) (t ++ y :: post) z (by simp [h])).2 x (by simp)
        omega
  linarith

theorem progress_ticks (clock : Nat → K) (tprint : K) (nb : Nat) (bs : List Nat) : ∀ (k : Nat) (t : K),
    (progress clock tprint nb bs k t).map (·.done) = bs.map (· + 1) ∧
    ∀ x ∈ progress clock tprint nb bs k t, x.total = nb ∧ k ≤ x.k ∧
      ∀ q, x.line = some q → q = hms (pyInt ((clock x.k - clock 1) / (x.done : K) * ((nb : K) - (x.done : K)))) := by
  induction bs with
  | nil => intro k t; simp [progress]
  | cons b bs ih =>
    intro k t
    simp only [progress]
    split
    · obtain ⟨h1, h2⟩ := ih (k + 3) (clock (k + 2))
      refine ⟨by simp [h1], fun x hx => ?_⟩
      rcases List.mem_cons.1 hx with rfl | hx
      · refine ⟨rfl, le_refl _, fun q hq => ?_⟩
        simp only [Option.some.injEq] at hq
        rw [← hq]
        simp only [Nat.cast_add, Nat.cast_one, sub_sub]
      · have := h2 x hx
        exact ⟨this.1, by omega, this.2.2⟩
    · obtain ⟨h1, h2⟩ := ih (k + 2) t
      refine ⟨by simp [h1], fun x hx => ?_⟩
      rcases List.mem_cons.1 hx with rfl | hx
      · exact ⟨rfl, le_refl _, fun q hq => by simp at hq⟩
      · have := h2 x hx
        exact ⟨this.1, by omega, this.2.2⟩

/-- C106, what, for the calls without helper processes.  There is one pass per batch, in order, and the line printed after `done` of `total`
batches shows in hours, minutes (below 60) and seconds (below 60) the remaining time, estimated from the mean time per batch so far and rounded
down; after the last batch it is 0:00:00. -/
theorem C106_line_partial (clock : Nat → K) (hc : Monotone clock) (tprint : K) (nb : Nat) :
    (progressSync clock tprint nb).map (·.done) = (List.range nb).map (· + 1) ∧
    ∀ x ∈ progressSync clock tprint nb, x.total = nb ∧ 1 ≤ x.done ∧ x.done ≤ nb ∧
      ∀ h m s, x.line = some (h, m, s) → 0 ≤ h ∧ 0 ≤ m ∧ m < 60 ∧ 0 ≤ s ∧ s < 60 ∧
        3600 * h + 60 * m + s = ⌊(clock x.k - clock 1) / (x.done : K) * ((nb - x.done : Nat) : K)⌋ ∧
        (x.done = nb → h = 0 ∧ m = 0 ∧ s = 0) := by
  obtain ⟨h1, h2⟩ := progress_ticks clock tprint nb (List.range nb) 2 (clock 0)
  refine ⟨h1, fun x hx => ?_⟩
  obtain ⟨a, b, c⟩ := h2 x hx
  have hd : x.done ∈ (List.range nb).map (· + 1) := by
    rw [← h1]; exact List.mem_map_of_mem hx
  simp only [List.mem_map, List.mem_range] at hd
  obtain ⟨d, hd1, hd2⟩ := hd
  refine ⟨a, by omega, by omega, fun h m s hl => ?_⟩
  have e := c _ hl
  have hsub : (nb : K) - (x.done : K) = ((nb - x.done : Nat) : K) := by
    rw [Nat.cast_sub (by omega)]
  rw [hsub] at e
  set q := (clock x.k - clock 1) / (x.done : K) * ((nb - x.done : Nat) : K) with hq
  have hq0 : 0 ≤ q := by
    have : clock 1 ≤ clock x.k := hc (by omega)
    have : 0 ≤ clock x.k - clock 1 := by linarith
    positivity
  have hp : pyInt q = ⌊q⌋ := by unfold pyInt; rw [if_pos hq0]
  have hn : 0 ≤ ⌊q⌋ := Int.floor_nonneg.2 hq0
  rw [hp] at e
  simp only [hms, Prod.mk.injEq] at e
  rw [Int.tdiv_eq_ediv_of_nonneg hn] at e
  obtain ⟨e1, e2, e3⟩ := e
  have hfin : x.done = nb → ⌊q⌋ = 0 := by
    intro hxn
    rw [hq, hxn, Nat.sub_self, Nat.cast_zero, mul_zero, Int.floor_zero]
  refine ⟨by omega, by omega, by omega, by omega, by omega, by omega, fun hxn => ?_⟩
  have := hfin hxn
  omega

/-- C106 is false for `add_data_async` and `predict_async`: with four batches and a clock that advances one second per reading, reporting whenever possible,
the last line says that batch 5 of 4 was processed and that almost an hour remains. -/
theorem C106_async_refuted : ∃ x ∈ progressAsync (fun k => (k : ℚ)) 0 4, x.done = 5 ∧ x.total = 4 ∧ x.line = some (0, 59, 58) := by
  decide +kernel

/-- C106, the same for every clock and number of batches: the last pass of the asynchronous loops counts one batch more than there are. -/
theorem C106_async_count_refuted (clock : Nat → K) (tprint : K) (nb : Nat) :
    ∃ x ∈ progressAsync clock tprint nb, x.done = nb + 1 ∧ x.total = nb := by
  obtain ⟨h1, h2⟩ := progress_ticks clock tprint nb (List.range (nb + 1)) 2 (clock 0)
  have : nb + 1 ∈ (progress clock tprint nb (List.range (nb + 1)) 2 (clock 0)).map (·.done) := by
    rw [h1]; simp
  obtain ⟨x, hx, hd⟩ := List.mem_map.1 this
  exact ⟨x, hx, hd, (h2 x hx).1⟩

/-- The lines of the synchronous loop when the clock advances 20 seconds per reading and a report is due every 50 seconds. -/
example : (progressSync (fun k => (20 * k : ℚ)) 50 4).map (fun x => (x.done, x.line)) = [(1, some (0, 1, 0)), (2, none), (3, some (0, 0, 40)), (4, none)] := by
  decide +kernel

end Hpelm.Props
