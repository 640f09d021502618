import Verif.Model.Slfn
import Verif.Lemmas.Mat

/-! Helper lemmas about projection and accumulation. -/

namespace Hpelm
variable {K : Type} [Field K] [LinearOrder K]

/-- Hidden outputs of one group for one sample. -/
def groupAct (env : Env K) (g : Group K) : Option (List K → List K) :=
  match g.func with
  | .ufunc _ => none
  | .name s => (act env s).map fun a x => List.zipWith (a x) g.W g.B

theorem applyGroup_eq (env : Env K) (X : Mat K) (g : Group K) :
    applyGroup env X g = match groupAct env g with
      | none => .error .keyError
      | some f => .ok ⟨g.W.length, X.rows.map f⟩ := by
  unfold applyGroup groupAct
  cases g.func with
  | ufunc s => rfl
  | name s => simp only; cases act env s <;> rfl

/-- All hidden outputs for one sample. -/
def rowOut (env : Env K) (gs : List (Group K)) (x : List K) : List K :=
  gs.flatMap fun g => match groupAct env g with
    | some f => f x
    | none => []

theorem rowOut_cons (env : Env K) (g : Group K) (gs : List (Group K)) (x : List K) :
    rowOut env (g :: gs) x = rowOut env [g] x ++ rowOut env gs x := by simp [rowOut]

theorem rowOut_append (env : Env K) (gs gs' : List (Group K)) (x : List K) :
    rowOut env (gs ++ gs') x = rowOut env gs x ++ rowOut env gs' x := by simp [rowOut]

theorem rowOut_single (env : Env K) (g : Group K) (f) (h : groupAct env g = some f) (x : List K) :
    rowOut env [g] x = f x := by simp [rowOut, h]

/-- Number of hidden outputs (columns). -/
def width (gs : List (Group K)) : Nat := (gs.map fun g => g.W.length).sum

theorem mapM_applyGroup (env : Env K) (X : Mat K) (gs : List (Group K)) :
    gs.mapM (applyGroup env X) =
      if ∀ g ∈ gs, (groupAct env g).isSome then
        .ok (gs.map fun g => ⟨g.W.length, X.rows.map (rowOut env [g])⟩)
      else .error .keyError := by
  induction gs with
  | nil => simp [pure, Except.pure]
  | cons g gs ih =>
    rw [List.mapM_cons, applyGroup_eq, ih]
    cases hg : groupAct env g with
    | none => simp [hg, bind, Except.bind]
    | some f =>
      have hf : rowOut env [g] = f := by funext x; exact rowOut_single env g f hg x
      by_cases hall : ∀ g ∈ gs, (groupAct env g).isSome
      · rw [if_pos hall, if_pos (by simpa [hg] using hall)]
        simp [bind, Except.bind, pure, Except.pure, hf]
      · rw [if_neg hall, if_neg (by simpa [hg] using hall)]
        rfl

theorem foldl_hstack (env : Env K) (X : List (List K)) (gs : List (Group K)) (c : Nat) (f : List K → List K) :
    (gs.map fun g => (⟨g.W.length, X.map (rowOut env [g])⟩ : Mat K)).foldl Mat.hstack2 ⟨c, X.map f⟩
      = ⟨c + width gs, X.map fun x => f x ++ rowOut env gs x⟩ := by
  induction gs generalizing c f with
  | nil => simp [width, rowOut]
  | cons g gs ih =>
    simp only [List.map_cons, List.foldl_cons]
    have : Mat.hstack2 ⟨c, X.map f⟩ ⟨g.W.length, X.map (rowOut env [g])⟩
        = (⟨c + g.W.length, X.map fun x => f x ++ rowOut env [g] x⟩ : Mat K) := by
      unfold Mat.hstack2
      congr 1
      rw [List.zipWith_map]
      simp
    rw [this, ih]
    simp only [width, List.map_cons, List.sum_cons, Mat.mk.injEq]
    refine ⟨by omega, ?_⟩
    apply List.map_congr_left
    intro x _
    rw [rowOut_cons env g gs, List.append_assoc]

theorem project_eq (env : Env K) (n : NNet K) (X : Mat K) :
    n.project env X =
      if X.cols ≠ n.inputs then .error .valueError
      else if ¬ ∀ g ∈ n.neurons, (groupAct env g).isSome then .error .keyError
      else if n.neurons = [] then .error .valueError
      else .ok ⟨width n.neurons, X.rows.map (rowOut env n.neurons)⟩ := by
  unfold NNet.project
  split
  · rename_i h
    simp [bind, Except.bind]
  · rename_i h
    simp only [pure_bind, ne_eq, h, if_false, not_false_eq_true]
    rw [mapM_applyGroup]
    by_cases hall : ∀ g ∈ n.neurons, (groupAct env g).isSome
    · rw [if_pos hall, if_neg (not_not.2 hall)]
      cases hn : n.neurons with
      | nil => simp [hstack, bind, Except.bind]
      | cons g gs =>
        simp only [bind, Except.bind, List.map_cons, hstack, foldl_hstack]
        simp only [reduceCtorEq, if_false, Except.ok.injEq, Mat.mk.injEq]
        refine ⟨by simp [width], ?_⟩
        apply List.map_congr_left
        intro x _
        rw [← rowOut_cons]
    · rw [if_neg hall, if_pos hall]
      rfl

theorem project_ok_iff (env : Env K) (n : NNet K) (X H : Mat K) :
    n.project env X = .ok H ↔ X.cols = n.inputs ∧ (∀ g ∈ n.neurons, (groupAct env g).isSome) ∧ n.neurons ≠ [] ∧
      H = ⟨width n.neurons, X.rows.map (rowOut env n.neurons)⟩ := by
  rw [project_eq]
  constructor
  · intro h
    split at h
    · cases h
    split at h
    · cases h
    split at h
    · cases h
    rename_i h1 h2 h3
    exact ⟨not_not.1 h1, not_not.1 h2, h3, by injection h with h; exact h.symm⟩
  · rintro ⟨h1, h2, h3, rfl⟩
    rw [if_neg (not_not.2 h1), if_neg (not_not.2 h2), if_neg h3]

theorem scaleRows_length_eq {w : List K} {M : Mat K} (h : w.length = M.nrows) :
    scaleRows w M = .ok ⟨M.cols, List.zipWith (fun c r => r.map (c * ·)) w M.rows⟩ := by
  unfold scaleRows; rw [if_pos h]

/-- `add_batch` after the projection. -/
def NNet.accum (env : Env K) (n : NNet K) (H T : Mat K) (wc : Option (List K)) : Except PyErr (NNet K) := do
  let (H, T) ← weighted env n.prec wc H T
  if H.nrows ≠ T.nrows ∨ T.cols ≠ n.outputs then .error .valueError
  let L := n.L.getD 0
  let (HH, HT) := match n.corr with
    | none => (Mat.diag L n.norm, Mat.zeros L n.outputs)
    | some c => c
  if H.cols ≠ HH.cols then .error .valueError
  pure { n with corr := some (n.updHH HH H, HT.add (H.tmul T)) }

theorem addBatch_eq (env : Env K) (n : NNet K) (X T : Mat K) (wc : Option (List K)) :
    n.addBatch env X T wc = (n.project env X).bind fun H => n.accum env H (T.map (env.cast n.prec)) wc := rfl

/-- The matrices a network starts from. -/
def NNet.corr0 (n : NNet K) : Mat K × Mat K :=
  match n.corr with
  | none => (Mat.diag (n.L.getD 0) n.norm, Mat.zeros (n.L.getD 0) n.outputs)
  | some c => c

/-- `accum` without weights. -/
theorem accum_none (env : Env K) (n : NNet K) (H T : Mat K) :
    n.accum env H T none =
      if H.nrows ≠ T.nrows ∨ T.cols ≠ n.outputs then .error .valueError
      else if H.cols ≠ n.corr0.1.cols then .error .valueError
      else .ok { n with corr := some (n.updHH n.corr0.1 H, n.corr0.2.add (H.tmul T)) } := by
  unfold NNet.accum weighted NNet.corr0
  cases n.corr <;> simp only [bind, Except.bind] <;> split <;> rename_i h1 <;> (try rw [if_pos h1]) <;>
    (try rw [if_neg h1]) <;> (try rfl) <;> simp only [pure, Except.pure] <;> split <;> rename_i h2 <;>
    (try rw [if_pos h2]) <;> (try rw [if_neg h2]) <;> rfl

/-- Rows scaled by the square roots of the weights. -/
def wRows (env : Env K) (p : Prec) (w : Option (List K)) (rows : List (List K)) : List (List K) :=
  match w with
  | none => rows
  | some w => List.zipWith (fun c r => r.map (env.cast p (env.sqrt c) * ·)) w rows

theorem weighted_eq (env : Env K) (p : Prec) (w : Option (List K)) (H T : Mat K)
    (h : ∀ v, w = some v → v.length = H.nrows ∧ v.length = T.nrows) :
    weighted env p w H T = .ok (⟨H.cols, wRows env p w H.rows⟩, ⟨T.cols, wRows env p w T.rows⟩) := by
  cases w with
  | none => rfl
  | some v =>
    obtain ⟨h1, h2⟩ := h v rfl
    unfold weighted
    simp only []
    rw [scaleRows_length_eq (by simpa using h1), scaleRows_length_eq (by simpa using h2)]
    simp [bind, Except.bind, pure, Except.pure, wRows, List.zipWith_map_left]

theorem accum_weighted (env : Env K) (n : NNet K) (H T : Mat K) (w : Option (List K))
    (h : ∀ v, w = some v → v.length = H.nrows ∧ v.length = T.nrows) :
    n.accum env H T w = n.accum env ⟨H.cols, wRows env n.prec w H.rows⟩ ⟨T.cols, wRows env n.prec w T.rows⟩ none := by
  unfold NNet.accum
  rw [weighted_eq env n.prec w H T h]
  rfl

theorem wRows_length (env : Env K) (p : Prec) (w : Option (List K)) (rows : List (List K))
    (h : ∀ v, w = some v → v.length = rows.length) : (wRows env p w rows).length = rows.length := by
  cases w with
  | none => rfl
  | some v => simp [wRows, h v rfl]

theorem get_add_same {A B : Mat K} (hA : A.WF) (hB : B.WF) (h1 : B.nrows = A.nrows) (h2 : B.cols = A.cols) (i j : Nat) :
    (A.add B).get i j = A.get i j + B.get i j := by
  by_cases hi : i < A.nrows
  · by_cases hj : j < A.cols
    · exact Mat.get_add hi hj
    · rw [Mat.get_ge_cols _ (Mat.add_WF _ _) (by simpa using hj), Mat.get_ge_cols _ hA (by omega),
        Mat.get_ge_cols _ hB (by omega), add_zero]
  · rw [Mat.get_ge_rows _ (by simpa using hi), Mat.get_ge_rows _ (by omega), Mat.get_ge_rows _ (by omega), add_zero]

theorem add_add_same {A B C : Mat K} (hB : B.WF) (hC : C.WF) (h1 : C.nrows = B.nrows) (h2 : C.cols = B.cols) :
    (A.add B).add C = A.add (B.add C) := by
  apply Mat.ext_get (Mat.add_WF _ _) (Mat.add_WF _ _) (by simp) (by simp)
  intro i j hi hj
  simp only [Mat.add_nrows, Mat.add_cols] at hi hj
  rw [Mat.get_add (by simpa using hi) (by simpa using hj), Mat.get_add hi hj, Mat.get_add hi hj,
    get_add_same hB hC h1 h2]
  ring

theorem syrk_syrk {HH : Mat K} {c : Nat} {r1 r2 : List (List K)} :
    syrkUpper (syrkUpper HH ⟨c, r1⟩) ⟨c, r2⟩ = syrkUpper HH ⟨c, r1 ++ r2⟩ := by
  unfold syrkUpper
  simp only [Mat.ofFn_nrows, Mat.ofFn_cols]
  apply Mat.ofFn_congr
  intro i j hi hj
  rw [Mat.get_ofFn_lt hi hj, Mat.tmul_append rfl]
  rw [get_add_same (Mat.tmul_WF _ _) (Mat.tmul_WF _ _) (by simp) (by simp)]
  split
  · ring
  · rfl

theorem updHH_updHH (n : NNet K) {HH : Mat K} {c : Nat} {r1 r2 : List (List K)} :
    n.updHH (n.updHH HH ⟨c, r1⟩) ⟨c, r2⟩ = n.updHH HH ⟨c, r1 ++ r2⟩ := by
  have hadd : (HH.add ((Mat.mk c r1).tmul ⟨c, r1⟩)).add ((Mat.mk c r2).tmul ⟨c, r2⟩)
      = HH.add ((Mat.mk c (r1 ++ r2)).tmul ⟨c, r1 ++ r2⟩) := by
    rw [Mat.tmul_append rfl, add_add_same (Mat.tmul_WF _ _) (Mat.tmul_WF _ _) (by simp) (by simp)]
  unfold NNet.updHH
  split <;> first | exact hadd | exact syrk_syrk

@[simp] theorem updHH_cols (n : NNet K) (HH H : Mat K) : (n.updHH HH H).cols = HH.cols := by
  unfold NNet.updHH; split <;> simp [syrkUpper]

@[simp] theorem updHH_nrows (n : NNet K) (HH H : Mat K) : (n.updHH HH H).nrows = HH.nrows := by
  unfold NNet.updHH; split <;> simp [syrkUpper]

theorem updHH_WF (n : NNet K) (HH H : Mat K) : (n.updHH HH H).WF := by
  unfold NNet.updHH; split <;> first | exact Mat.add_WF _ _ | exact Mat.ofFn_WF _ _ _

theorem accum_append_none (env : Env K) (n : NNet K) {c d : Nat} {r1 r2 t1 t2 : List (List K)}
    (h1 : r1.length = t1.length) (h2 : r2.length = t2.length) :
    n.accum env ⟨c, r1 ++ r2⟩ ⟨d, t1 ++ t2⟩ none
      = (n.accum env ⟨c, r1⟩ ⟨d, t1⟩ none).bind fun n' => n'.accum env ⟨c, r2⟩ ⟨d, t2⟩ none := by
  rw [accum_none, accum_none]
  simp only [Mat.nrows_mk, List.length_append, h1, h2, ne_eq, not_true_eq_false, false_or]
  by_cases hd : d = n.outputs
  · by_cases hc : c = n.corr0.1.cols
    · simp only [hd, ← hc, not_true_eq_false, if_false, Except.bind]
      rw [accum_none]
      generalize n.corr0 = c0 at *
      simp only [Mat.nrows_mk, h2, ne_eq, not_true_eq_false, false_or, if_false, NNet.corr0, updHH_cols, ← hc]
      simp only [Except.ok.injEq, NNet.mk.injEq, true_and]
      rw [← updHH_updHH, Mat.tmul_append h1, ← add_add_same (Mat.tmul_WF _ _) (Mat.tmul_WF _ _) (by simp) (by simp)]
      rfl
    · simp [hd, hc, Except.bind]
  · simp [hd, Except.bind]

theorem accum_prec {env : Env K} {n n' : NNet K} {H T : Mat K} {w} (h : n.accum env H T w = .ok n') :
    ∃ c, n' = { n with corr := some c } := by
  unfold NNet.accum at h
  simp only [bind, Except.bind] at h
  split at h
  · cases h
  · split at h
    · cases h
    · simp only [pure, Except.pure] at h
      cases hc : n.corr <;> rw [hc] at h <;> simp only at h <;> split at h <;> first
        | cases h; done
        | (injection h with h; exact ⟨_, h.symm⟩)

/-- Concatenation of optional weight lists. -/
def wApp : Option (List K) → Option (List K) → Option (List K)
  | some a, some b => some (a ++ b)
  | _, _ => none

theorem wRows_append (env : Env K) (p : Prec) (a b : List K) (r1 r2 : List (List K)) (h : a.length = r1.length) :
    wRows env p (some (a ++ b)) (r1 ++ r2) = wRows env p (some a) r1 ++ wRows env p (some b) r2 := by
  simp [wRows, List.zipWith_append h]

theorem accum_append (env : Env K) (n : NNet K) {c d : Nat} {r1 r2 t1 t2 : List (List K)} {w1 w2 : Option (List K)}
    (h1 : r1.length = t1.length) (h2 : r2.length = t2.length) (hs : w1.isSome = w2.isSome)
    (hw1 : ∀ v, w1 = some v → v.length = r1.length) (hw2 : ∀ v, w2 = some v → v.length = r2.length) :
    n.accum env ⟨c, r1 ++ r2⟩ ⟨d, t1 ++ t2⟩ (wApp w1 w2)
      = (n.accum env ⟨c, r1⟩ ⟨d, t1⟩ w1).bind fun n' => n'.accum env ⟨c, r2⟩ ⟨d, t2⟩ w2 := by
  cases w1 with
  | none =>
    cases w2 with
    | some b => simp at hs
    | none => exact accum_append_none env n h1 h2
  | some a =>
    cases w2 with
    | none => simp at hs
    | some b =>
      have ha := hw1 a rfl
      have hb := hw2 b rfl
      rw [show wApp (some a) (some b) = some (a ++ b) from rfl]
      rw [accum_weighted env n _ _ (some (a ++ b)) (by rintro v ⟨⟩; simp [ha, hb, h1, h2])]
      rw [accum_weighted env n ⟨c, r1⟩ _ (some a) (by rintro v ⟨⟩; simp [ha, h1])]
      simp only
      rw [wRows_append env _ a b r1 r2 ha, wRows_append env _ a b t1 t2 (by omega)]
      rw [accum_append_none env n (by simp [wRows, h1]) (by simp [wRows, h2])]
      cases hh : n.accum env ⟨c, wRows env n.prec (some a) r1⟩ ⟨d, wRows env n.prec (some a) t1⟩ none with
      | error e => rfl
      | ok n' =>
        simp only [Except.bind]
        rw [accum_weighted env n' ⟨c, r2⟩ _ (some b) (by rintro v ⟨⟩; simp [hb, h2])]
        obtain ⟨cc, rfl⟩ := accum_prec hh
        rfl

theorem addBatch_fields {env : Env K} {n n' : NNet K} {X T : Mat K} {w} (h : n.addBatch env X T w = .ok n') :
    ∃ c, n' = { n with corr := some c } := by
  rw [addBatch_eq] at h
  cases hp : n.project env X with
  | error e => rw [hp] at h; cases h
  | ok H => rw [hp] at h; exact accum_prec h

theorem project_corr (env : Env K) (n : NNet K) (c) (X : Mat K) :
    NNet.project env { n with corr := c } X = n.project env X := rfl

theorem addBatch_append (env : Env K) (n : NNet K) {c d : Nat} {x1 x2 t1 t2 : List (List K)} {w1 w2 : Option (List K)}
    (h1 : x1.length = t1.length) (h2 : x2.length = t2.length) (hs : w1.isSome = w2.isSome)
    (hw1 : ∀ v, w1 = some v → v.length = x1.length) (hw2 : ∀ v, w2 = some v → v.length = x2.length) :
    n.addBatch env ⟨c, x1 ++ x2⟩ ⟨d, t1 ++ t2⟩ (wApp w1 w2)
      = (n.addBatch env ⟨c, x1⟩ ⟨d, t1⟩ w1).bind fun n' => n'.addBatch env ⟨c, x2⟩ ⟨d, t2⟩ w2 := by
  simp only [addBatch_eq, project_eq]
  by_cases hc : c = n.inputs
  · by_cases hall : ∀ g ∈ n.neurons, (groupAct env g).isSome
    · by_cases hn : n.neurons = []
      · simp [hn, Except.bind]
      · rw [if_neg (not_not.2 hc), if_neg (not_not.2 hall), if_neg hn]
        simp only [Except.bind, Mat.map, List.map_append, hc, ne_eq, not_true_eq_false, if_false]
        rw [if_neg (not_not.2 hall), if_neg hn]
        simp only []
        rw [accum_append env n (by simp [h1]) (by simp [h2]) hs (by simpa using hw1) (by simpa using hw2)]
        simp only [Except.bind]
        cases hh : n.accum env ⟨width n.neurons, x1.map (rowOut env n.neurons)⟩ ⟨d, t1.map (List.map (env.cast n.prec))⟩ w1 with
        | error e => rfl
        | ok n' =>
          obtain ⟨cc, rfl⟩ := accum_prec hh
          simp only [not_true_eq_false, if_false]
          rw [if_neg (not_not.2 hall), if_neg hn]
    · simp [hc, hall, Except.bind]
  · simp [hc, Except.bind]

end Hpelm
