import Verif.Lemmas.Batches
import Verif.Lemmas.Frame
import Mathlib.Algebra.BigOperators.Group.List.Basic
import Mathlib.Algebra.Order.Field.Basic

/-! Class weights of one-hot targets, and accumulation as a sum over samples. -/

set_option linter.unusedSectionVars false

namespace Hpelm
open Spec
variable {K : Type} [Field K] [LinearOrder K]

/-- Column of the (first) 1 in a row. -/
def classOf (c : Nat) (r : List K) : Nat := ((List.range c).filter fun j => r.getD j 0 = 1).headD 0

theorem onesCols_eq {T : Mat K} (h : OneEach T.cols T.rows) : onesCols T = T.rows.map (classOf T.cols) := by
  obtain ⟨c, rows⟩ := T
  simp only at h
  induction rows with
  | nil => rfl
  | cons r rows ih =>
    have h1 := h r List.mem_cons_self
    have h2 := ih (fun r' hr' => h r' (List.mem_cons_of_mem _ hr'))
    unfold onesCols at h2 ⊢
    simp only [List.flatMap_cons, List.map_cons]
    simp only at h2
    rw [h2]
    unfold classOf
    obtain ⟨a, ha⟩ := List.length_eq_one_iff.1 h1
    rw [ha]
    rfl

theorem classOf_isClass {c k : Nat} {r : List K} (h : IsClass c r k) : classOf c r = k := by
  unfold classOf; rw [isClass_ones h]; rfl

/-- The weight of a target row. -/
def wtOf (wc : Option (List (Option K))) (c : Nat) (r : List K) : K := (((wc.getD [])[classOf c r]?).getD none).getD 0

/-- In weighted mode the weight of every row is defined and finite. -/
def WOk (cls : Option String) (wc : Option (List (Option K))) (T : Mat K) : Prop :=
  cls = some "wc" → ∃ l, wc = some l ∧ ∀ r ∈ T.rows, ∃ w, l[classOf T.cols r]? = some (some w)

/-- The weights handed to `add_batch`. -/
def wts (cls : Option String) (wc : Option (List (Option K))) (T : Mat K) : Option (List K) :=
  if cls = some "wc" then some (T.rows.map (wtOf wc T.cols)) else none

theorem mapM_ok_map {α β : Type} (l : List α) (f : α → Except PyErr β) (g : α → β) (h : ∀ a ∈ l, f a = .ok (g a)) :
    l.mapM f = .ok (l.map g) := by
  induction l with
  | nil => rfl
  | cons a l ih =>
    rw [List.mapM_cons, h a List.mem_cons_self, ih (fun b hb => h b (List.mem_cons_of_mem _ hb))]
    rfl

theorem batchWeights_wts {cls : Option String} {wc : Option (List (Option K))} {T : Mat K}
    (h1 : cls = some "wc" → OneEach T.cols T.rows) (h2 : WOk cls wc T) : batchWeights cls wc T = .ok (wts cls wc T) := by
  unfold batchWeights wts
  by_cases hc : cls = some "wc"
  · rw [if_pos hc, if_pos hc]
    obtain ⟨l, rfl, hl⟩ := h2 hc
    simp only [wcVector, onesCols_eq (h1 hc)]
    rw [List.mapM_map, mapM_ok_map (g := wtOf (some l) T.cols)]
    · rfl
    · intro r hr
      obtain ⟨w, hw⟩ := hl r hr
      simp [wtOf, hw]
  · rw [if_neg hc, if_neg hc]; rfl

theorem autoWc_cls (env : Env K) (e : ELM K) (ns : List K) : (e.autoWc env ns).classification = e.classification := by
  unfold ELM.autoWc; split <;> rfl

theorem autoWc_batch (env : Env K) (e : ELM K) (ns : List K) : (e.autoWc env ns).batch = e.batch := by
  unfold ELM.autoWc; split <;> rfl

theorem explicit_WOk {cls : Option String} {ws : List K} {T : Mat K} (hT : cls = some "wc" → OneHot T)
    (hl : ws.length = T.cols) : WOk cls (some (ws.map some)) T := by
  intro hc
  refine ⟨_, rfl, ?_⟩
  intro r hr
  obtain ⟨k, hk⟩ := hT hc r hr
  rw [classOf_isClass hk]
  have : k < ws.length := by rw [hl]; exact hk.1
  exact ⟨ws[k], by simp [this]⟩

section ordered
variable [IsStrictOrderedRing K]

/-- Column sums of a one-hot matrix are the class counts. -/
theorem colSums_oneHot {T : Mat K} (hT : OneHot T) (k : Nat) (hk : k < T.cols) :
    (colSums T).getD k 0 = ((T.rows.countP fun r => decide (classOf T.cols r = k) : Nat) : K) := by
  unfold colSums
  rw [List.getD_eq_getElem?_getD, List.getElem?_map, List.getElem?_range hk]
  simp only [Option.map_some, Option.getD_some]
  obtain ⟨c, rows⟩ := T
  simp only at *
  induction rows with
  | nil => simp
  | cons r rows ih =>
    obtain ⟨k', hk'⟩ := hT r List.mem_cons_self
    have := ih (fun r' hr' => hT r' (List.mem_cons_of_mem _ hr'))
    rw [List.map_cons, List.sum_cons, this, List.countP_cons, classOf_isClass hk', hk'.2.2 k hk]
    by_cases h : k = k'
    · simp [h, add_comm]
    · simp [h, Ne.symm h]

theorem countP_pos {T : Mat K} {r : List K} (hr : r ∈ T.rows) :
    0 < T.rows.countP fun r' => decide (classOf T.cols r' = classOf T.cols r) := by
  rw [List.countP_pos_iff]
  exact ⟨r, hr, by simp⟩

/-- Automatic weights are finite for the classes that occur. -/
theorem auto_WOk {env : Env K} (hx : env.Exact) {cls : Option String} {T : Mat K} {p : Prec} (hT : cls = some "wc" → OneHot T) :
    WOk cls (some (autoWeights ((colSums T).map (env.cast p)))) T := by
  intro hc
  refine ⟨_, rfl, ?_⟩
  intro r hr
  obtain ⟨k, hk⟩ := hT hc r hr
  have hcs := colSums_oneHot (hT hc) k hk.1
  have hlen : (colSums T).length = T.cols := by simp [colSums]
  have hkl : k < (colSums T).length := by rw [hlen]; exact hk.1
  have hpos := countP_pos hr
  rw [classOf_isClass hk] at hpos ⊢
  rw [Mat.map_of_exact (hx p)]
  unfold autoWeights
  rw [List.getElem?_map, List.getElem?_eq_getElem hkl]
  simp only [Option.map_some]
  have : (colSums T)[k] ≠ 0 := by
    rw [List.getD_eq_getElem?_getD, List.getElem?_eq_getElem hkl] at hcs
    simp only [Option.getD_some] at hcs
    rw [hcs]
    exact_mod_cast hpos.ne'
  rw [if_neg this]
  exact ⟨_, rfl⟩

/-- After `autoWc` the weights are fine if they were explicit or absent. -/
theorem autoWc_WOk {env : Env K} (hx : env.Exact) {e : ELM K} {T : Mat K} (hT : e.classification = some "wc" → OneHot T)
    (hw : e.wc = none ∨ ∃ ws : List K, e.wc = some (ws.map some) ∧ ws.length = T.cols) :
    WOk e.classification (e.autoWc env (colSums T)).wc T := by
  unfold ELM.autoWc
  by_cases h : e.classification = some "wc" ∧ e.wc = none
  · rw [if_pos h]; exact auto_WOk hx hT
  · rw [if_neg h]
    rcases hw with hw | ⟨ws, hw, hl⟩
    · intro hc; exact absurd ⟨hc, hw⟩ h
    · rw [hw]; exact explicit_WOk hT hl

end ordered

/-! ### Accumulation as a sum over samples -/

/-- Scale factor of a sample in `add_batch`. -/
def sfac (env : Env K) (p : Prec) (cls : Option String) (wc : Option (List (Option K))) (c : Nat) (t : List K) : K :=
  if cls = some "wc" then env.cast p (env.sqrt (wtOf wc c t)) else 1

theorem map_one_mul (r : List K) : r.map ((1 : K) * ·) = r := by
  conv_rhs => rw [← List.map_id r]
  apply List.map_congr_left; intro x _; simp

/-- The weighted rows, as a map over the pairs of sample and target. -/
theorem wRows_pairs (env : Env K) (p : Prec) (cls : Option String) (wc : Option (List (Option K))) (c : Nat)
    (P : List (List K × List K)) (f : List K × List K → List K) :
    wRows env p (wts cls wc ⟨c, P.map (·.2)⟩) (P.map f)
      = P.map fun q => (f q).map (sfac env p cls wc c q.2 * ·) := by
  unfold wts wRows sfac
  by_cases hc : cls = some "wc"
  · simp only [if_pos hc, List.map_map]
    rw [List.zipWith_map, List.zipWith_self]
    rfl
  · simp only [if_neg hc]
    apply List.map_congr_left
    intro q _
    exact (map_one_mul (f q)).symm

theorem tmul_pairs {α : Type} (c d : Nat) (P : List α) (f g : α → List K) :
    (⟨c, P.map f⟩ : Mat K).tmul ⟨d, P.map g⟩ = Mat.ofFn c d fun i j => (P.map fun p => (f p).getD i 0 * (g p).getD j 0).sum := by
  unfold Mat.tmul
  simp only [List.zip_map', List.map_map]
  rfl

theorem tmul_perm {α : Type} (c d : Nat) {P Q : List α} (h : P.Perm Q) (f g : α → List K) :
    (⟨c, P.map f⟩ : Mat K).tmul ⟨d, P.map g⟩ = (⟨c, Q.map f⟩ : Mat K).tmul ⟨d, Q.map g⟩ := by
  rw [tmul_pairs, tmul_pairs]
  apply Mat.ofFn_congr
  intro i j _ _
  exact (h.map _).sum_eq

theorem updHH_perm {α : Type} (n : NNet K) (HH : Mat K) (c : Nat) {P Q : List α} (h : P.Perm Q) (f : α → List K) :
    n.updHH HH ⟨c, P.map f⟩ = n.updHH HH ⟨c, Q.map f⟩ := by
  unfold NNet.updHH
  split <;> simp only [syrkUpper, tmul_perm c c h f f]

theorem unzip_rows {X T : Mat K} (h : X.nrows = T.nrows) :
    X.rows = (X.rows.zip T.rows).map (·.1) ∧ T.rows = (X.rows.zip T.rows).map (·.2) := by
  have h' : X.rows.length = T.rows.length := h
  constructor
  · rw [List.map_fst_zip (by omega)]
  · rw [List.map_snd_zip (by omega)]

/-- `add_batch` with class weights, written over the pairs of sample and target. -/
theorem addBatch_pairs (env : Env K) (n : NNet K) (xc tc : Nat) (P : List (List K × List K)) (cls : Option String)
    (wc : Option (List (Option K))) :
    n.addBatch env ⟨xc, P.map (·.1)⟩ ⟨tc, P.map (·.2)⟩ (wts cls wc ⟨tc, P.map (·.2)⟩) =
      (n.project env ⟨xc, P.map (·.1)⟩).bind fun H =>
        n.accum env ⟨H.cols, P.map fun q => (rowOut env n.neurons q.1).map (sfac env n.prec cls wc tc q.2 * ·)⟩
          ⟨tc, P.map fun q => (q.2.map (env.cast n.prec)).map (sfac env n.prec cls wc tc q.2 * ·)⟩ none := by
  rw [addBatch_eq]
  cases hp : n.project env ⟨xc, P.map (·.1)⟩ with
  | error e => rfl
  | ok H =>
    simp only [Except.bind]
    obtain ⟨_, _, _, rfl⟩ := (project_ok_iff _ _ _ _).1 hp
    rw [accum_weighted]
    · simp only [Mat.map_rows, Mat.map_cols, List.map_map]
      congr 2
      · exact wRows_pairs env n.prec cls wc tc P (fun q => rowOut env n.neurons q.1)
      · have := wRows_pairs env n.prec cls wc tc P (fun q => q.2.map (env.cast n.prec))
        simp only [List.map_map] at this
        exact this
    · intro v hv
      unfold wts at hv
      split at hv
      · injection hv with hv
        subst hv
        simp [Mat.nrows]
      · cases hv

theorem project_rows_perm {env : Env K} {n : NNet K} {c : Nat} {r1 r2 : List (List K)} {H : Mat K}
    (h : n.project env ⟨c, r1⟩ = .ok H) : n.project env ⟨c, r2⟩ = .ok ⟨H.cols, r2.map (rowOut env n.neurons)⟩ := by
  obtain ⟨h1, h2, h3, rfl⟩ := (project_ok_iff _ _ _ _).1 h
  exact (project_ok_iff _ _ _ _).2 ⟨h1, h2, h3, rfl⟩

theorem addBatch_perm (env : Env K) (n : NNet K) (xc tc : Nat) {P Q : List (List K × List K)} (h : P.Perm Q)
    (cls : Option String) (wc : Option (List (Option K))) :
    n.addBatch env ⟨xc, P.map (·.1)⟩ ⟨tc, P.map (·.2)⟩ (wts cls wc ⟨tc, P.map (·.2)⟩) =
      n.addBatch env ⟨xc, Q.map (·.1)⟩ ⟨tc, Q.map (·.2)⟩ (wts cls wc ⟨tc, Q.map (·.2)⟩) := by
  rw [addBatch_pairs, addBatch_pairs]
  cases hp : n.project env ⟨xc, P.map (·.1)⟩ with
  | error e =>
    rw [project_eq] at hp
    rw [project_eq]
    simp only at hp ⊢
    split at hp
    · rename_i g; rw [if_pos g]; injection hp with hp; subst hp; rfl
    · rename_i g1
      rw [if_neg g1]
      split at hp
      · rename_i g; rw [if_pos g]; injection hp with hp; subst hp; rfl
      · rename_i g2
        rw [if_neg g2]
        split at hp
        · rename_i g; rw [if_pos g]; injection hp with hp; subst hp; rfl
        · cases hp
  | ok H =>
    rw [project_rows_perm (r2 := Q.map (·.1)) hp]
    simp only [Except.bind]
    rw [accum_none, accum_none]
    simp only [Mat.nrows_mk, List.length_map, ne_eq, not_true_eq_false, false_or]
    split
    · rfl
    · split
      · rfl
      · rw [updHH_perm n _ _ h, tmul_perm _ _ h]

end Hpelm
