import Verif.Model.Async
import Verif.Lemmas.HRange
import Mathlib.Logic.Relation

/-! A reader process and its two queues. -/

set_option linter.unusedSectionVars false

namespace Hpelm

/-- The reader has been asked for batches `0 .. p-1` (the last one, `nb`, being the request to stop); `g` of its answers were taken.
`rc` requests were received and `ro` answers put in the queue. -/
def RInv {V : Type} (bounds : Nat → Int × Int) (val : Nat → V) (nb : Nat) (r : Reader V) (qin : List (Int × Int)) (qout : List V) (p g : Nat) :
    Prop :=
  ∃ rc ro, rc ≤ p ∧ g ≤ ro ∧ p ≤ nb + 1 ∧ qin = (List.range' rc (p - rc)).map bounds ∧ qout = (List.range' g (ro - g)).map val ∧
    match r with
    | .idle => rc = ro ∧ ro ≤ nb
    | .putting v => rc = ro + 1 ∧ v = val ro ∧ ro < nb
    | .done => rc = nb + 1 ∧ ro = nb

variable {V : Type} {bounds : Nat → Int × Int} {val : Nat → V} {nb : Nat} {r : Reader V} {qin : List (Int × Int)} {qout : List V} {p g : Nat}

theorem rinv_init : RInv bounds val nb (.idle : Reader V) [] [] 0 0 := ⟨0, 0, le_refl _, le_refl _, by omega, rfl, rfl, rfl, by omega⟩

theorem range'_snoc {a p : Nat} (h : a ≤ p) : List.range' a (p + 1 - a) = List.range' a (p - a) ++ [p] := by
  obtain ⟨k, rfl⟩ : ∃ k, p = a + k := ⟨p - a, by omega⟩
  have e1 : a + k + 1 - a = k + 1 := by omega
  have e2 : a + k - a = k := by omega
  rw [e1, e2, List.range'_concat]
  simp

theorem range'_uncons {α : Type} {f : Nat → α} {a b : Nat} {x : α} {q : List α} (h : x :: q = (List.range' a (b - a)).map f) :
    a < b ∧ x = f a ∧ q = (List.range' (a + 1) (b - (a + 1))).map f := by
  by_cases hab : a < b
  · obtain ⟨k, hk⟩ : ∃ k, b - a = k + 1 := ⟨b - a - 1, by omega⟩
    have hk' : b - (a + 1) = k := by omega
    rw [hk, List.range'_succ, List.map_cons] at h
    injection h with h1 h2
    exact ⟨hab, h1, by rw [hk']; exact h2⟩
  · have : b - a = 0 := by omega
    rw [this] at h
    cases h

theorem range'_nil {α : Type} {f : Nat → α} {a b : Nat} (h : [] = (List.range' a (b - a)).map f) : b ≤ a := by
  by_contra hc
  obtain ⟨k, hk⟩ : ∃ k, b - a = k + 1 := ⟨b - a - 1, by omega⟩
  rw [hk, List.range'_succ, List.map_cons] at h
  cases h

/-- Asking for the next batch. -/
theorem rinv_ask (h : RInv bounds val nb r qin qout p g) (hp : p ≤ nb) : RInv bounds val nb r (qin ++ [bounds p]) qout (p + 1) g := by
  obtain ⟨rc, ro, h1, h2, h3, h4, h5, h6⟩ := h
  refine ⟨rc, ro, by omega, h2, by omega, ?_, h5, h6⟩
  rw [range'_snoc h1, List.map_append, h4, List.map_singleton]

/-- Taking an answer. -/
theorem rinv_take {x : V} {q : List V} (h : RInv bounds val nb r qin (x :: q) p g) : x = val g ∧ g < nb ∧ RInv bounds val nb r qin q p (g + 1) := by
  obtain ⟨rc, ro, h1, h2, h3, h4, h5, h6⟩ := h
  obtain ⟨e1, e2, e3⟩ := range'_uncons h5
  have : ro ≤ nb := by
    cases r with
    | idle => exact h6.2
    | putting v => exact h6.2.2.le
    | done => exact h6.2.le
  exact ⟨e2, by omega, rc, ro, h1, by omega, h3, h4, e3, h6⟩

/-- The reader takes a request for a batch. -/
theorem rinv_get {b : Int × Int} {q : List (Int × Int)} (hb : (bounds nb).2 ≤ (bounds nb).1) (h : RInv bounds val nb .idle (b :: q) qout p g)
    (hlt : b.1 < b.2) : ∃ j < nb, b = bounds j ∧ RInv bounds val nb (.putting (val j)) q qout p g := by
  obtain ⟨rc, ro, h1, h2, h3, h4, h5, h6, h7⟩ := h
  obtain ⟨e1, e2, e3⟩ := range'_uncons h4
  subst h6
  have hne : rc ≠ nb := by
    rintro rfl
    rw [e2] at hlt
    omega
  exact ⟨rc, by omega, e2, rc + 1, rc, by omega, h2, h3, e3, h5, rfl, rfl, by omega⟩

/-- The reader takes the request to stop. -/
theorem rinv_stop {b : Int × Int} {q : List (Int × Int)} (hb : ∀ j < nb, (bounds j).1 < (bounds j).2)
    (h : RInv bounds val nb .idle (b :: q) qout p g) (hge : b.2 ≤ b.1) : RInv bounds val nb .done q qout p g := by
  obtain ⟨rc, ro, h1, h2, h3, h4, h5, h6, h7⟩ := h
  obtain ⟨e1, e2, e3⟩ := range'_uncons h4
  subst h6
  have hne : ¬ rc < nb := by
    intro hlt
    have := hb rc hlt
    rw [← e2] at this
    omega
  have : rc = nb := by omega
  subst this
  exact ⟨rc + 1, rc, by omega, h2, h3, e3, h5, rfl, rfl⟩

/-- The reader puts an answer. -/
theorem rinv_put {v : V} (h : RInv bounds val nb (.putting v) qin [] p g) : RInv bounds val nb .idle qin [v] p g := by
  obtain ⟨rc, ro, h1, h2, h3, h4, h5, h6, h7, h8⟩ := h
  have := range'_nil h5
  have hro : ro = g := by omega
  subst hro
  refine ⟨rc, ro + 1, h1, by omega, h3, h4, ?_, h6, by omega⟩
  have : ro + 1 - ro = 1 := by omega
  rw [this, h7]
  rfl

/-- While an answer is missing the reader can go on. -/
theorem rinv_progress_get (h : RInv bounds val nb r qin [] p g) (hp : g < p) (hg : g < nb) :
    (r = .idle ∧ ∃ b q, qin = b :: q) ∨ ∃ v, r = .putting v := by
  obtain ⟨rc, ro, h1, h2, h3, h4, h5, h6⟩ := h
  have := range'_nil h5
  cases r with
  | idle =>
    refine Or.inl ⟨rfl, ?_⟩
    cases qin with
    | nil => have := range'_nil h4; have := h6.1; omega
    | cons b q => exact ⟨b, q, rfl⟩
  | putting v => exact Or.inr ⟨v, rfl⟩
  | done => have := h6.2; omega

/-- When all answers were taken and the stop was requested, the reader is done or can go on. -/
theorem rinv_progress_join (h : RInv bounds val nb r qin qout (nb + 1) nb) : r = .done ∨ r = .idle ∧ ∃ b q, qin = b :: q := by
  obtain ⟨rc, ro, h1, h2, h3, h4, h5, h6⟩ := h
  cases r with
  | idle =>
    refine Or.inr ⟨rfl, ?_⟩
    cases qin with
    | nil => have := range'_nil h4; have := h6.2; omega
    | cons b q => exact ⟨b, q, rfl⟩
  | putting v => have := h6.2.2; omega
  | done => exact Or.inl rfl

/-- The bounds of a call: proper batches, then the request to stop. -/
theorem bounds_spec {batch s icount : Int} (hb : 0 < batch) (hc : 0 ≤ ceilDiv icount batch) :
    (∀ j < (ceilDiv icount batch).toNat, (batchBounds batch s icount j).1 < (batchBounds batch s icount j).2) ∧
    (batchBounds batch s icount (ceilDiv icount batch).toNat).2 ≤ (batchBounds batch s icount (ceilDiv icount batch).toNat).1 := by
  obtain ⟨h1, h2⟩ := ceilDiv_spec icount batch hb
  constructor
  · intro j hj
    simp only [batchBounds]
    have hj' : (j : Int) ≤ ceilDiv icount batch - 1 := by omega
    have : (j : Int) * batch ≤ (ceilDiv icount batch - 1) * batch := mul_le_mul_of_nonneg_right hj' hb.le
    have e : ((j : Int) + 1) * batch = j * batch + batch := by ring
    omega
  · simp only [batchBounds]
    have : ((ceilDiv icount batch).toNat : Int) = ceilDiv icount batch := Int.toNat_of_nonneg hc
    rw [this]
    omega

end Hpelm
