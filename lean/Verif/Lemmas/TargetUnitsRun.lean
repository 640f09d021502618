import Verif.Lemmas.TargetUnits

/-!
# Targets in other units: errors, the search for the number of neurons, training
-/

set_option linter.unusedSectionVars false

namespace Hpelm
open Spec
variable {K : Type} [Field K] [LinearOrder K] [IsStrictOrderedRing K]

/-! ### Errors of regression -/

theorem mean_scale (d : K) (l : List K) : mean? (l.map (d * ·)) = (mean? l).map (d * ·) := by
  unfold mean?
  cases l with
  | nil => rfl
  | cons x l =>
    simp only [List.isEmpty_map, List.isEmpty_cons, Bool.false_eq_true, if_false, Option.map_some, Option.some.injEq, List.length_map]
    have := sum_map_mul' d (x :: l) id
    simp only [id] at this
    rw [List.map_id] at this
    rw [this, mul_div_assoc]

theorem notNan_scale (d : K) (r : Option K) : notNan (r.map (d * ·)) = (notNan r).map (d * ·) := by cases r <;> rfl

theorem zipWith_scale {f : K → K → K} {c d : K} (hf : ∀ x y, f (c * x) (c * y) = d * f x y) (a b : List K) :
    List.zipWith f (a.map (c * ·)) (b.map (c * ·)) = (List.zipWith f a b).map (d * ·) := by
  rw [List.zipWith_map, List.map_zipWith]
  congr 1
  funext x y
  exact hf x y

theorem zipWith2_scale {f : K → K → K} {c d : K} (hf : ∀ x y, f (c * x) (c * y) = d * f x y) (a b : List (List K)) :
    List.zipWith (List.zipWith f) (a.map (List.map (c * ·))) (b.map (List.map (c * ·))) =
      (List.zipWith (List.zipWith f) a b).map (List.map (d * ·)) := by
  rw [List.zipWith_map, List.map_zipWith]
  congr 1
  funext x y
  exact zipWith_scale hf x y

theorem flatten_scale (d : K) (l : List (List K)) : (l.map (List.map (d * ·))).flatten = l.flatten.map (d * ·) := by
  rw [List.map_flatten]

theorem elmError_scale (c : K) (wc : Option (List (Option K))) (T Y : Mat K) :
    elmError none wc (times c T) (times c Y) = (elmError none wc T Y).map (c * c * ·) := by
  unfold elmError
  simp only [times_nrows, times_cols]
  split
  · rfl
  · simp only [reduceCtorEq, if_false]
    have : sqErrs (times c T) (times c Y) = (sqErrs T Y).map (List.map (c * c * ·)) :=
      zipWith2_scale (fun x y => by ring) T.rows Y.rows
    rw [this, flatten_scale, mean_scale, notNan_scale]

theorem sqDiv_scale (c : K) (l R : List K) : sqDiv (l.map (c * ·)) R = (sqDiv l R).map (List.map (c * c * ·)) := by
  unfold sqDiv
  split
  · rfl
  · simp only [Except.map, Except.ok.injEq]
    rw [List.zipWith_map_left, List.map_zipWith]
    congr 1
    funext x r
    ring

theorem pressRows_scale (c : K) (d : List (List K)) (R : List K) :
    ((d.map (List.map (c * ·))).zip R).mapM (fun p => sqDiv p.1 (List.replicate p.1.length p.2)) =
      ((d.zip R).mapM fun p => sqDiv p.1 (List.replicate p.1.length p.2)).map (List.map (List.map (c * c * ·))) := by
  induction d generalizing R with
  | nil => rfl
  | cons x d ih =>
    cases R with
    | nil => rfl
    | cons r R =>
      rw [List.map_cons, List.zip_cons_cons, List.zip_cons_cons, List.mapM_cons, List.mapM_cons, ih R]
      simp only [List.length_map, sqDiv_scale]
      cases sqDiv x (List.replicate x.length r) with
      | error y => rfl
      | ok v =>
        cases (d.zip R).mapM fun p => sqDiv p.1 (List.replicate p.1.length p.2) with
        | error y => rfl
        | ok vs => rfl

theorem elmErrorPress_scale (c : K) (wc : Option (List (Option K))) (T Y : Mat K) (R : List K) :
    elmErrorPress none wc (times c T) (times c Y) R = (elmErrorPress none wc T Y R).map (c * c * ·) := by
  unfold elmErrorPress
  simp only [times_nrows, times_cols]
  split
  · rfl
  · simp only [reduceCtorEq, if_false]
    have : List.zipWith (List.zipWith fun t y => y - t) (times c T).rows (times c Y).rows =
        (List.zipWith (List.zipWith fun t y => y - t) T.rows Y.rows).map (List.map (c * ·)) :=
      zipWith2_scale (fun x y => by ring) T.rows Y.rows
    rw [this, pressRows_scale]
    cases ((List.zipWith (List.zipWith fun t y => y - t) T.rows Y.rows).zip R).mapM fun p => sqDiv p.1 (List.replicate p.1.length p.2) with
    | error x => rfl
    | ok v =>
      simp only [Except.map, bind, Except.bind]
      rw [flatten_scale, mean_scale, notNan_scale]
      rfl

/-- The factor `d` by which errors change when all targets change by the factor `c`: its square for regression, none for classification when
`c` is positive. -/
def ErrFactor (c d : K) (cls : Option String) : Prop := (cls = none ∧ d = c * c) ∨ (cls = some "c" ∧ d = 1 ∧ 0 < c)

theorem ErrFactor.pos {c d : K} {cls : Option String} (h : ErrFactor c d cls) (hc : c ≠ 0) : 0 < d := by
  rcases h with ⟨_, rfl⟩ | ⟨_, rfl, _⟩
  · exact mul_self_pos.2 hc
  · exact one_pos

theorem ErrFactor.not_wc {c d : K} {cls : Option String} (h : ErrFactor c d cls) : cls ≠ some "wc" := by
  rcases h with ⟨h, _⟩ | ⟨h, _⟩ <;> rw [h] <;> decide

theorem misses_scale {c : K} (hc : 0 < c) (T Y : Mat K) : misses (times c T) (times c Y) = misses T Y := by
  unfold misses times
  simp only
  rw [List.zipWith_map]
  congr 1
  funext t y
  rw [argmax_scale hc, argmax_scale hc]

theorem except_one_mul (r : Except PyErr K) : r.map (1 * ·) = r := by
  cases r with
  | error x => rfl
  | ok v => exact congrArg Except.ok (one_mul v)

theorem elmError_units {c d : K} {cls : Option String} (h : ErrFactor c d cls) (wc : Option (List (Option K))) (T Y : Mat K) :
    elmError cls wc (times c T) (times c Y) = (elmError cls wc T Y).map (d * ·) := by
  rcases h with ⟨rfl, rfl⟩ | ⟨rfl, rfl, hc⟩
  · exact elmError_scale c wc T Y
  · rw [except_one_mul]
    unfold elmError
    simp only [times_nrows, times_cols, if_true, misses_scale hc]

theorem elmErrorPress_units {c d : K} {cls : Option String} (h : ErrFactor c d cls) (wc : Option (List (Option K))) (T Y : Mat K) (R : List K) :
    elmErrorPress cls wc (times c T) (times c Y) R = (elmErrorPress cls wc T Y R).map (d * ·) := by
  rcases h with ⟨rfl, rfl⟩ | ⟨rfl, rfl, hc⟩
  · exact elmErrorPress_scale c wc T Y R
  · rw [except_one_mul]
    unfold elmErrorPress
    simp only [times_nrows, times_cols, if_true, misses_scale hc]

/-! ### The search for the number of neurons -/

/-- An entry of the error array in other units: not yet computed entries stay -1. -/
def unitEntry (d x : K) : K := if x = -1 then -1 else d * x

/-- An entry of the error array: not yet computed, or an error. -/
def IsEntry (x : K) : Prop := x = -1 ∨ 0 ≤ x

theorem entry_of_nonneg {d x : K} (h : 0 ≤ x) : unitEntry d x = d * x := by
  unfold unitEntry
  rw [if_neg]
  intro e
  rw [e] at h
  linarith

theorem entry_mono {d : K} (hd : 0 < d) {x y : K} (hx : IsEntry x) (hy : IsEntry y) : unitEntry d x ≤ unitEntry d y ↔ x ≤ y := by
  rcases hx with rfl | hx <;> rcases hy with rfl | hy
  · simp
  · rw [entry_of_nonneg hy]
    have := mul_nonneg hd.le hy
    unfold unitEntry
    simp only [if_true]
    constructor <;> intro <;> linarith
  · rw [entry_of_nonneg hx]
    have := mul_nonneg hd.le hx
    unfold unitEntry
    simp only [if_true]
    constructor <;> intro <;> linarith
  · rw [entry_of_nonneg hx, entry_of_nonneg hy, mul_le_mul_iff_right₀ hd]

theorem entry_inj {d : K} (hd : 0 < d) {x y : K} (hx : IsEntry x) (hy : IsEntry y) : unitEntry d x = unitEntry d y ↔ x = y := by
  rw [le_antisymm_iff, le_antisymm_iff, entry_mono hd hx hy, entry_mono hd hy hx]

theorem entry_neg_one {d : K} (hd : 0 < d) {x : K} (hx : IsEntry x) : unitEntry d x = -1 ↔ x = -1 := by
  have : unitEntry d (-1) = (-1 : K) := by simp [unitEntry]
  conv_lhs => rw [← this]
  exact entry_inj hd hx (.inl rfl)

theorem entry_min {d : K} (hd : 0 < d) {x y : K} (hx : IsEntry x) (hy : IsEntry y) :
    min (unitEntry d x) (unitEntry d y) = unitEntry d (min x y) ∧ IsEntry (min x y) := by
  rcases le_total x y with h | h
  · rw [min_eq_left h, min_eq_left ((entry_mono hd hx hy).2 h)]
    exact ⟨rfl, hx⟩
  · rw [min_eq_right h, min_eq_right ((entry_mono hd hy hx).2 h)]
    exact ⟨rfl, hy⟩

theorem errAt_scale (d : K) (e : List K) (i : Int) : errAt (e.map (unitEntry d)) i = (errAt e i).map (unitEntry d) := by
  unfold errAt
  split
  · rfl
  · rw [List.getElem?_map]
    cases e[i.toNat]? <;> rfl

theorem errAt_entry {e : List K} (he : ∀ x ∈ e, IsEntry x) {i : Int} {v : K} (h : errAt e i = .ok v) : IsEntry v := by
  unfold errAt at h
  split at h
  · cases h
  · split at h
    · rename_i w hw
      injection h with h
      subst h
      exact he _ (List.mem_of_getElem? hw)
    · cases h

/-- Two scores in different units. -/
def ScoreUnits (d : K) (score score' : Nat → Except PyErr K) : Prop :=
  (∀ i, score' i = (score i).map (d * ·)) ∧ ∀ i v, score i = .ok v → 0 ≤ v

theorem evalPoints_scale {d : K} (hd : 0 < d) {score score' : Nat → Except PyErr K} (hs : ScoreUnits d score score') (ps : List Int)
    (e : List K) (he : ∀ x ∈ e, IsEntry x) :
    evalPoints score' ps (e.map (unitEntry d)) = (evalPoints score ps e).map (List.map (unitEntry d)) ∧
      ∀ e', evalPoints score ps e = .ok e' → ∀ x ∈ e', IsEntry x := by
  induction ps generalizing e with
  | nil => exact ⟨rfl, fun e' h => by injection h with h; rw [← h]; exact he⟩
  | cons i ps ih =>
    unfold evalPoints
    rw [errAt_scale]
    cases hv : errAt e i with
    | error x => exact ⟨rfl, fun _ h => by cases h⟩
    | ok v =>
      have hv' := errAt_entry he hv
      simp only [Except.map, bind, Except.bind]
      by_cases c : v = -1
      · rw [if_pos ((entry_neg_one hd hv').2 c), if_pos c, hs.1]
        cases hsc : score i.toNat with
        | error x => exact ⟨rfl, fun _ h => by cases h⟩
        | ok s =>
          have h0 := hs.2 _ _ hsc
          simp only [Except.map]
          have : (e.map (unitEntry d)).set i.toNat (d * s) = (e.set i.toNat s).map (unitEntry d) := by
            rw [List.map_set, entry_of_nonneg h0]
          rw [this]
          exact ih _ fun x hx => by
            rcases List.mem_or_eq_of_mem_set hx with hx | rfl
            · exact he x hx
            · exact .inr h0
      · rw [if_neg fun h => c ((entry_neg_one hd hv').1 h), if_neg c]
        exact ih e he

theorem myoptStep_scale {d : K} (hd : 0 < d) {score score' : Nat → Except PyErr K} (hs : ScoreUnits d score score') (v : Iv)
    (e : List K) (he : ∀ x ∈ e, IsEntry x) :
    myoptStep score' v (e.map (unitEntry d)) = (myoptStep score v e).map (fun r => (r.1, r.2.1.map (unitEntry d), unitEntry d r.2.2)) ∧
      ∀ r, myoptStep score v e = .ok r → (∀ x ∈ r.2.1, IsEntry x) ∧ IsEntry r.2.2 := by
  obtain ⟨a1, a2⟩ := evalPoints_scale hd hs v.points e he
  unfold myoptStep
  rw [a1]
  cases h1 : evalPoints score v.points e with
  | error x => exact ⟨rfl, fun _ h => by cases h⟩
  | ok e1 =>
    have h2 := a2 e1 h1
    simp only [Except.map, bind, Except.bind, errAt_scale]
    cases hA : errAt e1 v.A with
    | error x => exact ⟨rfl, fun _ h => by cases h⟩
    | ok A =>
    cases hB : errAt e1 v.B with
    | error x => exact ⟨rfl, fun _ h => by cases h⟩
    | ok B =>
    cases hC : errAt e1 v.C with
    | error x => exact ⟨rfl, fun _ h => by cases h⟩
    | ok C =>
    cases hD : errAt e1 v.D with
    | error x => exact ⟨rfl, fun _ h => by cases h⟩
    | ok D =>
    cases hE : errAt e1 v.E with
    | error x => exact ⟨rfl, fun _ h => by cases h⟩
    | ok E =>
      have eA := errAt_entry h2 hA
      have eB := errAt_entry h2 hB
      have eC := errAt_entry h2 hC
      have eD := errAt_entry h2 hD
      have eE := errAt_entry h2 hE
      obtain ⟨m1, n1⟩ := entry_min hd eA eB
      obtain ⟨m2, n2⟩ := entry_min hd n1 eC
      obtain ⟨m3, n3⟩ := entry_min hd n2 eD
      obtain ⟨m4, n4⟩ := entry_min hd n3 eE
      simp only [m1, m2, m3, m4]
      generalize min (min (min (min A B) C) D) E = m at *
      simp only [entry_inj hd n4 eA, entry_inj hd n4 eB, entry_inj hd n4 eD, entry_inj hd n4 eE]
      split
      · exact ⟨rfl, fun r h => by injection h with h; rw [← h]; exact ⟨h2, n4⟩⟩
      · split
        · exact ⟨rfl, fun r h => by injection h with h; rw [← h]; exact ⟨h2, n4⟩⟩
        · exact ⟨rfl, fun r h => by injection h with h; rw [← h]; exact ⟨h2, n4⟩⟩

theorem myoptLoop_scale {d : K} (hd : 0 < d) {score score' : Nat → Except PyErr K} (hs : ScoreUnits d score score') (fuel : Nat) (v : Iv)
    (e : List K) (he : ∀ x ∈ e, IsEntry x) :
    myoptLoop score' fuel v (e.map (unitEntry d)) =
        (myoptLoop score fuel v e).map (Option.map fun r => (r.1, r.2.1.map (unitEntry d), unitEntry d r.2.2)) ∧
      ∀ r, myoptLoop score fuel v e = .ok (some r) → (∀ x ∈ r.2.1, IsEntry x) ∧ IsEntry r.2.2 := by
  induction fuel generalizing v e with
  | zero => exact ⟨rfl, fun _ h => by cases h⟩
  | succ fuel ih =>
    obtain ⟨a1, a2⟩ := myoptStep_scale hd hs v e he
    unfold myoptLoop
    rw [a1]
    cases h : myoptStep score v e with
    | error x => exact ⟨rfl, fun _ h => by cases h⟩
    | ok r =>
      obtain ⟨b1, b2⟩ := a2 r h
      simp only [Except.map, bind, Except.bind]
      split
      · exact ih r.1 r.2.1 b1
      · exact ⟨rfl, fun r' h => by injection h with h; injection h with h; rw [← h]; exact ⟨b1, b2⟩⟩

theorem pickOpt_scale {d : K} (hd : 0 < d) {e : List K} (he : ∀ x ∈ e, IsEntry x) {m : K} (hm : IsEntry m) (ps : List Int) :
    pickOpt (e.map (unitEntry d)) (unitEntry d m) ps = pickOpt e m ps := by
  induction ps with
  | nil => rfl
  | cons i ps ih =>
    unfold pickOpt
    rw [errAt_scale, ih]
    cases hv : errAt e i with
    | error x => rfl
    | ok v =>
      simp only [Except.map, bind, Except.bind, entry_inj hd (errAt_entry he hv) hm]

/-- The search for the number of neurons does not depend on the units of the error. -/
theorem myopt_scale {d : K} (hd : 0 < d) {score score' : Nat → Except PyErr K} (hs : ScoreUnits d score score') (lo hi : Int)
    (e : List K) (he : ∀ x ∈ e, IsEntry x) :
    myopt lo hi (e.map (unitEntry d)) score' = (myopt lo hi e score).map fun r => (r.1, r.2.map (unitEntry d)) := by
  obtain ⟨a1, a2⟩ := myoptLoop_scale hd hs (3 * (hi - lo).toNat + 4) (Iv.init lo hi) e he
  unfold myopt
  rw [a1]
  cases h : myoptLoop score (3 * (hi - lo).toNat + 4) (Iv.init lo hi) e with
  | error x => rfl
  | ok r =>
    cases r with
    | none => rfl
    | some r =>
      obtain ⟨b1, b2⟩ := a2 r h
      obtain ⟨v, e1, m⟩ := r
      simp only [Except.map, bind, Except.bind, Option.map_some, pickOpt_scale hd b1 b2]
      cases pickOpt e1 m v.points <;> rfl

theorem penaltyOf_scale (d err : K) (L : Nat) : penaltyOf (d * err) L = (penaltyOf err L).map (d * ·) := by
  unfold penaltyOf
  split
  · rfl
  · simp only [Except.map, Except.ok.injEq]
    ring

theorem penaltyOf_nonneg {err p : K} {L : Nat} (h0 : 0 ≤ err) (h : penaltyOf err L = .ok p) : 0 ≤ p := by
  unfold penaltyOf at h
  split at h
  · cases h
  · injection h with h
    rw [← h]
    positivity

theorem errArray_scale {d v : K} (h0 : 0 ≤ v) (L0 L : Nat) : errArray L0 L (d * v) = (errArray L0 L v).map (unitEntry d) := by
  unfold errArray
  rw [List.map_set, List.map_replicate, entry_of_nonneg h0]
  simp [unitEntry]

theorem errArray_entry {v : K} (h0 : 0 ≤ v) (L0 L : Nat) : ∀ x ∈ errArray L0 L v, IsEntry x := by
  intro x hx
  unfold errArray at hx
  rcases List.mem_or_eq_of_mem_set hx with hx | rfl
  · exact .inl (List.eq_of_mem_replicate hx)
  · exact .inr h0

end Hpelm
