import Verif.Spec.Rounding
import Verif.Lemmas.Mat
import Mathlib.Tactic.Linarith
import Mathlib.Tactic.Ring
import Mathlib.Tactic.Positivity
import Mathlib.Tactic.GCongr
import Mathlib.Algebra.Order.BigOperators.Group.List
import Mathlib.Algebra.BigOperators.Group.List.Lemmas

set_option linter.unusedSectionVars false
namespace Hpelm
open Spec
variable {K : Type} [Field K] [LinearOrder K] [IsStrictOrderedRing K]

theorem drift_nonneg {u : K} (hu : 0 ≤ u) (k : Nat) : 0 ≤ drift u k := by
  have := one_le_pow₀ (n := k) (show (1:K) ≤ 1 + u by linarith)
  unfold drift; linarith

theorem drift_mono {u : K} (hu : 0 ≤ u) {k m : Nat} (h : k ≤ m) : drift u k ≤ drift u m := by
  have := pow_le_pow_right₀ (show (1:K) ≤ 1 + u by linarith) h
  unfold drift; linarith

theorem drift_succ (u : K) (k : Nat) : drift u (k + 1) = drift u k + u * (1 + drift u k) := by
  unfold drift; ring

theorem drift_add (u : K) (k m : Nat) : drift u (k + m) = drift u k * (1 + drift u m) + drift u m := by
  unfold drift; ring

theorem abs_sum_le {α : Type} (f : α → K) (l : List α) : |(l.map f).sum| ≤ (l.map fun x => |f x|).sum := by
  induction l with
  | nil => simp
  | cons x l ih =>
    simp only [List.map_cons, List.sum_cons]
    exact le_trans (abs_add_le _ _) (by linarith)

theorem Sums.ne_nil {r : K → K} {l v} (h : Sums r l v) : l ≠ [] := by
  induction h with
  | val | prod => simp
  | add h1 _ hp ih _ =>
    rintro rfl
    have := hp.length_eq
    simp only [List.length_nil, List.length_append] at this
    exact ih (List.length_eq_zero_iff.1 (by omega))
  | fma x y _ hp => rintro rfl; have := hp.length_eq; simp at this

/-- Error of a sum computed in any order. -/
theorem Sums.bound {r : K → K} {u : K} (hr : Rounding r u) {l v} (h : Sums r l v) :
    |v - (l.map Term.value).sum| ≤ drift u l.length * (l.map fun t => |t.value|).sum := by
  have hu := hr.nonneg
  induction h with
  | val x => simp [Term.value, drift]; positivity
  | prod x y => simpa [Term.value, drift] using hr.error (x * y)
  | @add l l₁ l₂ a b h1 h2 hp ih1 ih2 =>
    have hs : (l.map Term.value).sum = (l₁.map Term.value).sum + (l₂.map Term.value).sum := by
      rw [(hp.map _).sum_eq]; simp
    have ha : (l.map fun t : Term K => |t.value|).sum
        = (l₁.map fun t : Term K => |t.value|).sum + (l₂.map fun t : Term K => |t.value|).sum := by
      rw [(hp.map _).sum_eq]; simp
    have hl : l.length = l₁.length + l₂.length := by rw [hp.length_eq]; simp
    have n1 : 0 < l₁.length := List.length_pos_iff.2 h1.ne_nil
    have n2 : 0 < l₂.length := List.length_pos_iff.2 h2.ne_nil
    set S1 := (l₁.map Term.value).sum
    set S2 := (l₂.map Term.value).sum
    have hA1 : |S1| ≤ (l₁.map fun t : Term K => |t.value|).sum := by
      exact abs_sum_le _ l₁
    have hA2 : |S2| ≤ (l₂.map fun t : Term K => |t.value|).sum := by
      exact abs_sum_le _ l₂
    set A1 := (l₁.map fun t : Term K => |t.value|).sum
    set A2 := (l₂.map fun t : Term K => |t.value|).sum
    rw [hs, ha, hl]
    have p1 : 0 ≤ A1 := le_trans (abs_nonneg _) hA1
    have p2 : 0 ≤ A2 := le_trans (abs_nonneg _) hA2
    have e := hr.error (a + b)
    have b1 : |a| ≤ (1 + drift u l₁.length) * A1 := by
      have : |a| ≤ |a - S1| + |S1| := by simpa using abs_add_le (a - S1) S1
      nlinarith
    have b2 : |b| ≤ (1 + drift u l₂.length) * A2 := by
      have : |b| ≤ |b - S2| + |S2| := by simpa using abs_add_le (b - S2) S2
      nlinarith
    have d1 : drift u (l₁.length + 1) ≤ drift u (l₁.length + l₂.length) := drift_mono hu (by omega)
    have d2 : drift u (l₂.length + 1) ≤ drift u (l₁.length + l₂.length) := drift_mono hu (by omega)
    calc |r (a + b) - (S1 + S2)| ≤ |r (a + b) - (a + b)| + |a - S1| + |b - S2| := by
          have : r (a + b) - (S1 + S2) = (r (a + b) - (a + b)) + (a - S1) + (b - S2) := by ring
          rw [this]; exact abs_add_three _ _ _
      _ ≤ u * (|a| + |b|) + drift u l₁.length * A1 + drift u l₂.length * A2 := by
          have := abs_add_le a b
          have := mul_le_mul_of_nonneg_left this hu
          linarith
      _ ≤ u * ((1 + drift u l₁.length) * A1 + (1 + drift u l₂.length) * A2)
            + drift u l₁.length * A1 + drift u l₂.length * A2 := by
          have := mul_le_mul_of_nonneg_left (add_le_add b1 b2) hu
          linarith
      _ = drift u (l₁.length + 1) * A1 + drift u (l₂.length + 1) * A2 := by rw [drift_succ, drift_succ]; ring
      _ ≤ _ := by nlinarith
  | @fma l l₁ a x y h1 hp ih =>
    have hs : (l.map Term.value).sum = x * y + (l₁.map Term.value).sum := by
      rw [(hp.map _).sum_eq]; simp [Term.value]
    have ha : (l.map fun t : Term K => |t.value|).sum = |x * y| + (l₁.map fun t : Term K => |t.value|).sum := by
      rw [(hp.map _).sum_eq]; simp [Term.value]
    have hl : l.length = l₁.length + 1 := by rw [hp.length_eq]; simp
    have hA1 : |(l₁.map Term.value).sum| ≤ (l₁.map fun t : Term K => |t.value|).sum := by
      exact abs_sum_le _ l₁
    set S1 := (l₁.map Term.value).sum
    set A1 := (l₁.map fun t : Term K => |t.value|).sum
    rw [hs, ha, hl]
    have p1 : 0 ≤ A1 := le_trans (abs_nonneg _) hA1
    have e := hr.error (a + x * y)
    have b1 : |a| ≤ (1 + drift u l₁.length) * A1 := by
      have : |a| ≤ |a - S1| + |S1| := by simpa using abs_add_le (a - S1) S1
      nlinarith
    have d0 := drift_nonneg hu l₁.length
    have d1 : u ≤ drift u (l₁.length + 1) := by rw [drift_succ]; nlinarith
    calc |r (a + x * y) - (x * y + S1)| ≤ |r (a + x * y) - (a + x * y)| + |a - S1| := by
          have : r (a + x * y) - (x * y + S1) = (r (a + x * y) - (a + x * y)) + (a - S1) := by ring
          rw [this]; exact abs_add_le _ _
      _ ≤ u * (|a| + |x * y|) + drift u l₁.length * A1 := by
          have := mul_le_mul_of_nonneg_left (abs_add_le a (x * y)) hu
          linarith
      _ ≤ u * ((1 + drift u l₁.length) * A1 + |x * y|) + drift u l₁.length * A1 := by
          have := mul_le_mul_of_nonneg_left b1 hu
          nlinarith
      _ = drift u (l₁.length + 1) * A1 + u * |x * y| := by rw [drift_succ]; ring
      _ ≤ _ := by nlinarith [abs_nonneg (x * y)]

/-- A sum that starts with the result of another sum is one sum of all the terms. -/
theorem Sums.subst {r : K → K} {l₁ l₂ l : List (Term K)} {b c : K} {t : Term K} (h1 : Sums r (t :: l₁) b)
    (h2 : Sums r l c) (hp : l.Perm (.val b :: l₂)) : Sums r (t :: (l₁ ++ l₂)) c := by
  induction h2 generalizing l₂ with
  | val x =>
    have := hp.length_eq
    have hl : l₂ = [] := by simpa using this
    subst hl
    have := List.singleton_perm_singleton.1 hp
    injection this with this
    subst this; simp only [List.append_nil]; exact h1
  | prod x y =>
    have := hp.length_eq
    have hl : l₂ = [] := by simpa using this
    subst hl
    have := List.singleton_perm_singleton.1 hp
    cases this
  | @add l m₁ m₂ x y s1 s2 hm ih1 ih2 =>
    have hmem : Term.val b ∈ m₁ ++ m₂ := (hm.symm.trans hp).symm.subset (by simp)
    rcases List.mem_append.1 hmem with hb | hb
    · obtain ⟨s, q, rfl⟩ := List.append_of_mem hb
      have e1 : (s ++ Term.val b :: q).Perm (.val b :: (s ++ q)) := List.perm_middle
      refine Sums.add (ih1 e1) s2 ?_
      have : (Term.val b :: l₂).Perm (.val b :: (s ++ q ++ m₂)) :=
        (hp.symm.trans hm).trans (by simpa using e1.append_right m₂)
      have := (List.perm_cons _).1 this
      simpa using ((this.append_left l₁).cons t)
    · obtain ⟨s, q, rfl⟩ := List.append_of_mem hb
      have e1 : (s ++ Term.val b :: q).Perm (.val b :: (s ++ q)) := List.perm_middle
      have e2 := ih2 e1
      refine Sums.add s1 e2 ?_
      have : (Term.val b :: l₂).Perm (.val b :: (m₁ ++ (s ++ q))) :=
        (hp.symm.trans hm).trans ((e1.append_left m₁).trans List.perm_middle)
      have := (List.perm_cons _).1 this
      have h3 : (l₁ ++ l₂).Perm (m₁ ++ (l₁ ++ (s ++ q))) :=
        (this.append_left l₁).trans (by
          have := (List.perm_append_comm (l₁ := l₁) (l₂ := m₁)).append_right (s ++ q)
          simpa only [List.append_assoc] using this)
      exact (h3.cons t).trans List.perm_middle.symm
  | @fma l m₁ x y z s1 hm ih =>
    have hmem : Term.val b ∈ Term.prod y z :: m₁ := (hm.symm.trans hp).symm.subset (by simp)
    rcases List.mem_cons.1 hmem with hb | hb
    · cases hb
    · obtain ⟨s, q, rfl⟩ := List.append_of_mem hb
      have e1 : (s ++ Term.val b :: q).Perm (.val b :: (s ++ q)) := List.perm_middle
      refine Sums.fma y z (ih e1) ?_
      have : (Term.val b :: l₂).Perm (.val b :: (.prod y z :: (s ++ q))) :=
        (hp.symm.trans hm).trans ((e1.cons _).trans (List.Perm.swap _ _ _))
      have := (List.perm_cons _).1 this
      exact ((this.append_left l₁).trans List.perm_middle).cons t |>.trans (List.Perm.swap _ _ _)

/-! ### Runs -/

/-- The batch that enters the products: weighted and rounded. -/
def Entering (env : Env K) (p : Prec) (b : HBatch K) (q : Mat K × Mat K) : Prop :=
  weightedR env p b.wc b.H (b.T.map (env.cast p)) = .ok q

/-- State of the accumulators after a run. -/
structure Fed (env : Env K) (n : NNet K) (qs : List (Mat K × Mat K)) (n' : NNet K) : Prop where
  solver : n'.solver = n.solver
  prec : n'.prec = n.prec
  outputs : n'.outputs = n.outputs
  L : n'.L = n.L
  norm : n'.norm = n.norm
  neurons : n'.neurons = n.neurons
  corr : ∀ HH HT, n.corr = some (HH, HT) → ∃ HH' HT', n'.corr = some (HH', HT') ∧
    (HH'.nrows = HH.nrows ∧ HH'.cols = HH.cols) ∧ (HT'.nrows = HT.nrows ∧ HT'.cols = HT.cols) ∧
    (∀ i < HH.nrows, ∀ j < HH.cols,
      (n.updates i j → Sums (env.cast n.prec) (.val (HH.get i j) :: qs.flatMap fun q => products q.1 q.1 i j)
        (HH'.get i j)) ∧
      (¬ n.updates i j → HH'.get i j = HH.get i j)) ∧
    (∀ i < HT.nrows, ∀ j < HT.cols,
      Sums (env.cast n.prec) (.val (HT.get i j) :: qs.flatMap fun q => products q.1 q.2 i j) (HT'.get i j))

theorem updates_congr {n m : NNet K} (h1 : n.solver = m.solver) (h2 : n.prec = m.prec) (i j : Nat) :
    n.updates i j ↔ m.updates i j := by
  unfold NNet.updates; rw [h1, h2]

theorem feed_some {env : Env K} {n n' : NNet K} {bs : List (HBatch K)} (h : n.FeedR env bs n') {c} (hc : n.corr = some c) :
    ∃ qs, List.Forall₂ (Entering env n.prec) bs qs ∧ Fed env n qs n' := by
  induction h generalizing c with
  | nil n =>
    refine ⟨[], .nil, rfl, rfl, rfl, rfl, rfl, rfl, fun HH HT h => ⟨HH, HT, h, ⟨rfl, rfl⟩, ⟨rfl, rfl⟩, ?_, ?_⟩⟩
    · exact fun i _ j _ => ⟨fun _ => .val _, fun _ => rfl⟩
    · exact fun i _ j _ => .val _
  | @cons n m n'' b bs h1 h2 ih =>
    obtain ⟨H', T', HH, HT, HH', HT', e1, e2, e3, e4, e5, rfl, ⟨w1, w2, w3⟩, ⟨w4, w5, w6⟩, a1, a2⟩ := h1
    obtain ⟨qs, f1, f2⟩ := ih (c := (HH', HT')) rfl
    refine ⟨(H', T') :: qs, .cons e1 f1, f2.solver, f2.prec, f2.outputs, f2.L, f2.norm, f2.neurons, ?_⟩
    intro HH0 HT0 h0
    rw [h0] at e4
    simp only [Option.getD_some, Prod.mk.injEq] at e4
    obtain ⟨rfl, rfl⟩ := e4
    obtain ⟨HH2, HT2, g1, ⟨g2, g3⟩, ⟨g4, g5⟩, g6, g7⟩ := f2.corr HH' HT' rfl
    refine ⟨HH2, HT2, g1, ⟨by omega, by omega⟩, ⟨by omega, by omega⟩, ?_, ?_⟩
    · intro i hi j hj
      have k1 := a1 i hi j hj
      have k2 := g6 i (by omega) j (by omega)
      constructor
      · intro hu
        have := Sums.subst (k1.1 hu) (k2.1 ((updates_congr rfl rfl i j).1 hu)) (List.Perm.refl _)
        simpa using this
      · intro hu
        rw [k2.2 (fun h => hu ((updates_congr rfl rfl i j).1 h)), k1.2 hu]
    · intro i hi j hj
      have := Sums.subst (a2 i hi j hj) (g7 i (by omega) j (by omega)) (List.Perm.refl _)
      simpa using this

/-- The first batch initialises the accumulators. -/
theorem feed_none {env : Env K} {n n' : NNet K} {bs : List (HBatch K)} (hbs : bs ≠ []) (h : n.FeedR env bs n')
    (hc : n.corr = none) :
    { n with corr := some (Mat.diag (n.L.getD 0) n.norm, Mat.zeros (n.L.getD 0) n.outputs) }.FeedR env bs n' := by
  cases h with
  | nil => exact absurd rfl hbs
  | @cons _ m _ b bs h1 h2 =>
    refine .cons ?_ h2
    obtain ⟨H', T', HH, HT, HH', HT', e1, e2, e3, e4, e5, rfl, r⟩ := h1
    rw [hc] at e4
    exact ⟨H', T', HH, HT, HH', HT', e1, e2, e3, e4, e5, rfl, r⟩

end Hpelm
