import Verif.Lemmas.Rounding

set_option linter.unusedSectionVars false
namespace Hpelm
open Spec
variable {K : Type} [Field K] [LinearOrder K] [IsStrictOrderedRing K]

/-- `y` approximates `x` with the error of `k` roundings. -/
def WithinDrift (u : K) (k : Nat) (x y : K) : Prop := |y - x| ≤ drift u k * |x|

theorem WithinDrift.refl (u : K) (x : K) : WithinDrift u 0 x x := by simp [WithinDrift, drift]

theorem WithinDrift.mono {u : K} (hu : 0 ≤ u) {k m : Nat} (hk : k ≤ m) {x y : K} (h : WithinDrift u k x y) : WithinDrift u m x y :=
  le_trans h (mul_le_mul_of_nonneg_right (drift_mono hu hk) (abs_nonneg _))

theorem WithinDrift.round {r : K → K} {u : K} (hr : Rounding r u) {k : Nat} {x y : K} (h : WithinDrift u k x y) :
    WithinDrift u (k + 1) x (r y) := by
  unfold WithinDrift at *
  have e := hr.error y
  have hu := hr.nonneg
  have hy : |y| ≤ (1 + drift u k) * |x| := by
    have : |y| ≤ |y - x| + |x| := by simpa using abs_add_le (y - x) x
    nlinarith
  have : |r y - x| ≤ |r y - y| + |y - x| := by
    have : r y - x = (r y - y) + (y - x) := by ring
    rw [this]; exact abs_add_le _ _
  rw [drift_succ]
  have := mul_le_mul_of_nonneg_left hy hu
  nlinarith

theorem WithinDrift.mul {u : K} (hu : 0 ≤ u) {k m : Nat} {x y x' y' : K} (h : WithinDrift u k x y) (h' : WithinDrift u m x' y') :
    WithinDrift u (k + m) (x * x') (y * y') := by
  unfold WithinDrift at *
  have e : y * y' - x * x' = (y - x) * y' + x * (y' - x') := by ring
  have d1 := drift_nonneg hu k
  have hy : |y'| ≤ (1 + drift u m) * |x'| := by
    have : |y'| ≤ |y' - x'| + |x'| := by simpa using abs_add_le (y' - x') x'
    nlinarith
  rw [e, drift_add]
  refine le_trans (abs_add_le _ _) ?_
  rw [abs_mul, abs_mul, abs_mul]
  have a1 : |y - x| * |y'| ≤ (drift u k * |x|) * ((1 + drift u m) * |x'|) :=
    mul_le_mul h hy (abs_nonneg _) (mul_nonneg d1 (abs_nonneg _))
  have a2 : |x| * |y' - x'| ≤ |x| * (drift u m * |x'|) := mul_le_mul_of_nonneg_left h' (abs_nonneg _)
  calc |y - x| * |y'| + |x| * |y' - x'| ≤ drift u k * |x| * ((1 + drift u m) * |x'|) + |x| * (drift u m * |x'|) :=
        add_le_add a1 a2
    _ = _ := by ring

theorem Spec.Rounding.zero {r : K → K} {u : K} (hr : Rounding r u) : r 0 = 0 := by
  have := hr.error 0
  simp only [abs_zero, mul_zero, sub_zero] at this
  exact abs_nonpos_iff.1 this

theorem getD_map {r : K → K} (h0 : r 0 = 0) (l : List K) (j : Nat) : (l.map r).getD j 0 = r (l.getD j 0) := by
  simp only [List.getD_eq_getElem?_getD, List.getElem?_map]
  cases l[j]? <;> simp [h0]

/-- Error of a sum whose terms are approximations. -/
theorem Sums.near {r : K → K} {u : K} (hr : Rounding r u) {a v : K} {ts : List (Term K)} {k : Nat} {α : Type} {f g : α → K}
    {es : List α} (hg : ∀ e ∈ es, |f e| ≤ g e) (h : Sums r (.val a :: ts) v)
    (hn : List.Forall₂ (fun t e => WithinDrift u k (f e) t.value) ts es) :
    |v - (a + (es.map f).sum)| ≤ drift u (es.length + 1 + k) * (|a| + (es.map g).sum) := by
  have hu := hr.nonneg
  have hb := h.bound hr
  simp only [List.map_cons, List.sum_cons, List.length_cons, show (Term.val a).value = a from rfl] at hb
  rw [hn.length_eq] at hb
  have h1 : |(ts.map Term.value).sum - (es.map f).sum| ≤ drift u k * (es.map g).sum ∧
      (ts.map fun t => |t.value|).sum ≤ (1 + drift u k) * (es.map g).sum := by
    clear hb h
    induction hn with
    | nil => simp
    | @cons t e ts es h0 _ ih =>
      simp only [List.map_cons, List.sum_cons]
      have d := drift_nonneg hu k
      have hge : |f e| ≤ g e := hg e List.mem_cons_self
      have ih := ih fun e he => hg e (List.mem_cons_of_mem _ he)
      have hgn : |t.value - f e| ≤ drift u k * g e := le_trans h0 (mul_le_mul_of_nonneg_left hge d)
      constructor
      · have : t.value + (ts.map Term.value).sum - (f e + (es.map f).sum)
            = (t.value - f e) + ((ts.map Term.value).sum - (es.map f).sum) := by ring
        rw [this]
        refine le_trans (abs_add_le _ _) ?_
        have := ih.1
        linarith
      · have : |t.value| ≤ |t.value - f e| + |f e| := by simpa using abs_add_le (t.value - f e) (f e)
        have := ih.2
        linarith
  obtain ⟨h1, h2⟩ := h1
  have hG : 0 ≤ (es.map g).sum := by
    apply List.sum_nonneg
    intro x hx
    obtain ⟨e, he, rfl⟩ := List.mem_map.1 hx
    exact le_trans (abs_nonneg _) (hg e he)
  set G := (es.map g).sum
  have d := drift_nonneg hu k
  have dm := drift_nonneg hu (es.length + 1)
  rw [drift_add]
  have e1 : v - (a + (es.map f).sum) = (v - (a + (ts.map Term.value).sum))
      + ((ts.map Term.value).sum - (es.map f).sum) := by ring
  rw [e1]
  refine le_trans (abs_add_le _ _) ?_
  have p1 : drift u (es.length + 1) * (|a| + (ts.map fun t => |t.value|).sum)
      ≤ drift u (es.length + 1) * (|a| + (1 + drift u k) * G) :=
    mul_le_mul_of_nonneg_left (by linarith) dm
  have p2 : 0 ≤ drift u (es.length + 1) * (drift u k * |a|) := mul_nonneg dm (mul_nonneg d (abs_nonneg _))
  have p3 : 0 ≤ drift u k * |a| := mul_nonneg d (abs_nonneg _)
  nlinarith

/-! ### The terms of one batch -/

section Batch
variable {r : K → K} {u : K} (hr : Rounding r u)
include hr

theorem plain_HH (i j : Nat) : ∀ (hs ts : List (List K)), hs.length = ts.length →
    List.Forall₂ (fun (t : Term K) (s : List K × List K × K) => WithinDrift u 0 (s.2.2 * (s.1.getD i 0 * s.1.getD j 0)) t.value)
      ((hs.zip hs).map fun p => .prod (p.1.getD i 0) (p.2.getD j 0))
      (hs.zip (ts.zip (List.replicate hs.length 1)))
  | [], [], _ => .nil
  | h :: hs, t :: ts, e => by
    simp only [List.zip_cons_cons, List.map_cons, List.length_cons, List.replicate_succ]
    refine .cons ?_ (plain_HH i j hs ts (by simpa using e))
    simp only [one_mul, Term.value]
    exact WithinDrift.refl u _

theorem plain_HT (i j : Nat) : ∀ (hs ts : List (List K)), hs.length = ts.length →
    List.Forall₂ (fun (t : Term K) (s : List K × List K × K) => WithinDrift u 1 (s.2.2 * (s.1.getD i 0 * s.2.1.getD j 0)) t.value)
      ((hs.zip (ts.map (List.map r))).map fun p => .prod (p.1.getD i 0) (p.2.getD j 0))
      (hs.zip (ts.zip (List.replicate hs.length 1)))
  | [], [], _ => .nil
  | h :: hs, t :: ts, e => by
    simp only [List.zip_cons_cons, List.map_cons, List.length_cons, List.replicate_succ]
    refine .cons ?_ (plain_HT i j hs ts (by simpa using e))
    simp only [one_mul, Term.value, getD_map hr.zero]
    have := (WithinDrift.refl u (h.getD i 0)).mul hr.nonneg ((WithinDrift.refl u (t.getD j 0)).round hr)
    simpa using this

variable {sq : K → K} (hsq : ∀ v : K, 0 ≤ v → sq v * sq v = v)
include hsq

theorem weighted_HH (i j : Nat) : ∀ (hs ts : List (List K)) (ws : List K), hs.length = ts.length → ws.length = hs.length →
    (∀ w ∈ ws, 0 ≤ w) →
    List.Forall₂ (fun (t : Term K) (s : List K × List K × K) => WithinDrift u 4 (s.2.2 * (s.1.getD i 0 * s.1.getD j 0)) t.value)
      ((((List.zipWith (fun c (x : List K) => x.map (c * ·)) (ws.map fun x => r (sq x)) hs).map (List.map r)).zip
        ((List.zipWith (fun c (x : List K) => x.map (c * ·)) (ws.map fun x => r (sq x)) hs).map (List.map r))).map
          fun p => .prod (p.1.getD i 0) (p.2.getD j 0))
      (hs.zip (ts.zip ws))
  | [], [], [], _, _, _ => .nil
  | h :: hs, t :: ts, w :: ws, e, e', hw => by
    simp only [List.zip_cons_cons, List.map_cons, List.zipWith_cons_cons]
    refine .cons ?_ (weighted_HH i j hs ts ws (by simpa using e) (by simpa using e')
      fun x hx => hw x (List.mem_cons_of_mem _ hx))
    simp only [Term.value, getD_map hr.zero, getD_map (r := (r (sq w) * ·)) (mul_zero _)]
    have n1 : ∀ x : K, WithinDrift u 2 (sq w * x) (r (r (sq w) * x)) := fun x =>
      (((WithinDrift.refl u (sq w)).round hr).mul hr.nonneg (WithinDrift.refl u x)).round hr
    have := (n1 (h.getD i 0)).mul hr.nonneg (n1 (h.getD j 0))
    have e : sq w * h.getD i 0 * (sq w * h.getD j 0) = w * (h.getD i 0 * h.getD j 0) := by
      conv_rhs => rw [← hsq w (hw w List.mem_cons_self)]
      ring
    rw [e] at this
    exact this

theorem weighted_HT (i j : Nat) : ∀ (hs ts : List (List K)) (ws : List K), hs.length = ts.length → ws.length = hs.length →
    (∀ w ∈ ws, 0 ≤ w) →
    List.Forall₂ (fun (t : Term K) (s : List K × List K × K) => WithinDrift u 5 (s.2.2 * (s.1.getD i 0 * s.2.1.getD j 0)) t.value)
      ((((List.zipWith (fun c (x : List K) => x.map (c * ·)) (ws.map fun x => r (sq x)) hs).map (List.map r)).zip
        ((List.zipWith (fun c (x : List K) => x.map (c * ·)) (ws.map fun x => r (sq x)) (ts.map (List.map r))).map
          (List.map r))).map fun p => .prod (p.1.getD i 0) (p.2.getD j 0))
      (hs.zip (ts.zip ws))
  | [], [], [], _, _, _ => .nil
  | h :: hs, t :: ts, w :: ws, e, e', hw => by
    simp only [List.zip_cons_cons, List.map_cons, List.zipWith_cons_cons]
    refine .cons ?_ (weighted_HT i j hs ts ws (by simpa using e) (by simpa using e')
      fun x hx => hw x (List.mem_cons_of_mem _ hx))
    simp only [Term.value, getD_map hr.zero, getD_map (r := (r (sq w) * ·)) (mul_zero _)]
    have n1 : ∀ x : K, WithinDrift u 2 (sq w * x) (r (r (sq w) * x)) := fun x =>
      (((WithinDrift.refl u (sq w)).round hr).mul hr.nonneg (WithinDrift.refl u x)).round hr
    have n2 : ∀ x : K, WithinDrift u 3 (sq w * x) (r (r (sq w) * r x)) := fun x =>
      (((WithinDrift.refl u (sq w)).round hr).mul hr.nonneg ((WithinDrift.refl u x).round hr)).round hr
    have := (n1 (h.getD i 0)).mul hr.nonneg (n2 (t.getD j 0))
    have e : sq w * h.getD i 0 * (sq w * t.getD j 0) = w * (h.getD i 0 * t.getD j 0) := by
      conv_rhs => rw [← hsq w (hw w List.mem_cons_self)]
      ring
    rw [e] at this
    exact this

end Batch
end Hpelm
