import Verif.Lemmas.Failures
import Verif.Lemmas.Batches
import Verif.Lemmas.Folds
import Verif.Props.C06_C08_Structure

/-! States after structure selections that raised. -/

set_option linter.unusedSectionVars false

namespace Hpelm
variable {K : Type} [Field K] [LinearOrder K]
open Spec

/-- Only the accumulated matrices and the neuron count differ. -/
def Near (e f : ELM K) : Prop := ∃ c l, f = { e with nnet := { e.nnet with corr := c, L := l } }

theorem Near.rfl' (e : ELM K) : Near e e := ⟨e.nnet.corr, e.nnet.L, rfl⟩
theorem Near.trans {a b c : ELM K} (h : Near a b) (h' : Near b c) : Near a c := by
  obtain ⟨x, y, rfl⟩ := h
  obtain ⟨z, w, rfl⟩ := h'
  exact ⟨z, w, rfl⟩
theorem Near.kept {e f : ELM K} (h : Near e f) : Kept e f := by
  obtain ⟨c, l, rfl⟩ := h
  exact ⟨rfl, rfl, rfl, rfl, rfl, rfl, rfl, rfl, rfl⟩
theorem Near.reset {e f : ELM K} (h : Near e f) : f.nnet.reset = e.nnet.reset := by
  obtain ⟨c, l, rfl⟩ := h; rfl
theorem Near.prune {e f : ELM K} (h : Near e f) (best) : f.nnet.prune best = e.nnet.prune best := by
  obtain ⟨c, l, rfl⟩ := h; rfl
theorem Near.project {env : Env K} {e f : ELM K} (h : Near e f) (X) : f.nnet.project env X = e.nnet.project env X := by
  obtain ⟨c, l, rfl⟩ := h; rfl

theorem addBatchS_reset_near (env : Env K) (e : ELM K) (X T : Mat K) :
    Near e { e with nnet := (e.nnet.reset.addBatchS env X T none).1 } := by
  obtain ⟨c, h⟩ := addBatchS_same env e.nnet.reset X T none
  rw [h]
  exact ⟨c, _, rfl⟩

/-- Adding data of fitting shapes cannot fail. -/
theorem addBatchS_fresh {env : Env K} {n : NNet K} {X T H : Mat K} (hc : Consistent n) (hp : n.project env X = .ok H)
    (hN : X.nrows = T.nrows) (hT : T.cols = n.outputs) : ∃ c, n.addBatchS env X T none = ({ n with corr := some c }, .ok ()) := by
  have hne := ((project_ok_iff env n X H).1 hp).2.2.1
  have h0 := corr0_shape hc (L_of_ne hc hne)
  have hL := L_of_ne hc hne
  obtain ⟨w1, w2, w3⟩ := project_WF hc hp
  have hcol : H.cols = n.corr0.1.cols := by
    have := h0.2.2.2.1
    rw [hL] at this
    injection this with this
    rw [w3, this]
  rw [addBatchS_eq, hp]
  have hw : weighted env n.prec none H (T.map (env.cast n.prec)) = .ok (H, T.map (env.cast n.prec)) := rfl
  simp only [hw]
  rw [if_neg (by simpa using hcol), if_neg (by simp [Mat.nrows, Mat.map] at *; omega)]
  have : n.addHT n.corr0.2 (H.tmul (T.map (env.cast n.prec))) = some (n.corr0.2.add (H.tmul (T.map (env.cast n.prec)))) := by
    unfold NNet.addHT
    rw [if_pos]
    rw [h0.2.2.2.2.2, ← hT]
    rfl
  rw [this]
  exact ⟨_, rfl⟩

/-- Pruning and re-training cannot fail when the data have been used before. -/
theorem refitS_total {env : Env K} {e : ELM K} {best : List Nat} {X T H : Mat K} (hc : Consistent e.nnet) (hp : e.nnet.project env X = .ok H)
    (hN : X.nrows = T.nrows) (hT : T.cols = e.nnet.outputs) : (e.refitS env best X T).2 = .ok () := by
  obtain ⟨_, _, _, a4⟩ := Props.C08_prune env e.nnet hc best
  obtain ⟨c, h⟩ := addBatchS_fresh (prune_consistent hc best) (a4 X H hp) hN hT
  unfold ELM.refitS
  rw [h]
  rfl

theorem refitS_consistent {env : Env K} (hs : Shapes env) {e : ELM K} {best : List Nat} {X T : Mat K} (hc : Consistent e.nnet) :
    Consistent (e.refitS env best X T).1.nnet := by
  have h := addBatchS_consistent (env := env) (X := X) (T := T) (w := none) (prune_consistent hc best)
  unfold ELM.refitS
  cases hr : (e.nnet.prune best).addBatchS env X T none with
  | mk n r =>
    rw [hr] at h
    cases r with
    | error x => exact h
    | ok u =>
      simp only
      split
      · exact h
      · rename_i hn
        exact solve_consistent hs h hn

theorem refitS_of_ok {env : Env K} {e e' f : ELM K} {best : List Nat} {X T : Mat K} (hc : Consistent e.nnet) (hf : Near e f)
    (h : e.refit env best X T = .ok e') : f.refitS env best X T = (e', .ok ()) := by
  unfold ELM.refit at h
  obtain ⟨n, h1, h⟩ := bind_ok h
  obtain ⟨n', h2, h⟩ := bind_ok h
  injection h with h
  unfold ELM.refitS
  rw [hf.prune, addBatchS_of_ok (prune_consistent hc best) h1]
  simp only [h2]
  obtain ⟨c, l, rfl⟩ := hf
  rw [← h]

/-- If data were added, the network can be projected on them. -/
theorem addDataS_project {env : Env K} {e e' : ELM K} {X T : Mat K} (h : e.addDataS env X T = (e', .ok ())) :
    ∃ H, e.nnet.project env X = .ok H := by
  unfold ELM.addDataS at h
  split at h
  · cases h
  · simp only at h
    split at h
    · cases h
    · cases h
    · rename_i hb Xs Ts hX hT
      have hpos : 0 < ceilDiv X.nrows e.batch := by
        by_contra hk
        unfold arraySplit at hX
        rw [if_pos (by omega)] at hX
        cases hX
      have hlen : ∀ {α : Type} {l : List α} {ls}, arraySplit l (ceilDiv X.nrows e.batch) = .ok ls → ls ≠ [] := by
        intro α l ls hl
        unfold arraySplit at hl
        rw [if_neg (by omega)] at hl
        injection hl with hl
        intro h0
        rw [h0] at hl
        have : (splitSizes (arraySplitSizes l.length (ceilDiv X.nrows e.batch).toNat) l).length = 0 := by rw [hl]; rfl
        have h2 : ∀ (ss : List Nat) (l : List α), (splitSizes ss l).length = ss.length := by
          intro ss
          induction ss with
          | nil => intro l; rfl
          | cons s ss ih => intro l; simp [splitSizes, ih]
        rw [h2] at this
        simp only [arraySplitSizes, List.length_append, List.length_replicate] at this
        have := Nat.mod_lt l.length (show 0 < (ceilDiv X.nrows e.batch).toNat by omega)
        omega
      obtain ⟨Xb, Xs', rfl⟩ := List.exists_cons_of_ne_nil (hlen hX)
      obtain ⟨Tb, Ts', rfl⟩ := List.exists_cons_of_ne_nil (hlen hT)
      simp only [List.zip_cons_cons] at h
      unfold ELM.feedS at h
      split at h
      · cases h
      · rename_i w hw
        cases hp : (e.autoWc env (colSums T)).nnet.project env ⟨X.cols, Xb⟩ with
        | error x =>
          rw [addBatchS_eq, hp] at h
          cases h
        | ok H =>
          rw [autoWc_nnet] at hp
          obtain ⟨a, b, c, _⟩ := (project_ok_iff _ _ _ _).1 hp
          exact ⟨_, (project_ok_iff env e.nnet X _).2 ⟨a, b, c, rfl⟩⟩

theorem SameModel.near {e e' : ELM K} (h : SameModel e e') : Near e { e' with wc := e.wc, rankingOP := e.rankingOP, kmaxOp := e.kmaxOp } := by
  obtain ⟨⟨c, hn⟩, h2, h3, h4, h5⟩ := h
  refine ⟨c, e.nnet.L, ?_⟩
  cases e; cases e'
  simp_all

/-- What a failed training call leaves behind. -/
theorem trainVS_error {env : Env K} {sh} {e e' : ELM K} {X T Xv Tv : Mat K} {x} (hc : Consistent e.nnet) (hN : X.nrows = T.nrows)
    (hT : T.cols = e.nnet.outputs) (h : trainVS env sh e X T Xv Tv = (e', .error x)) : e' = (e.addDataS env X T).1 := by
  unfold trainVS at h
  have hs := addDataS_same env e X T
  have hc' := addDataS_consistent (env := env) (X := X) (T := T) hc
  cases h1 : e.addDataS env X T with
  | mk e1 r1 =>
    rw [h1] at h hs hc'
    cases r1 with
    | error y => injection h with h _; exact h.symm
    | ok u =>
      simp only at h
      split at h
      · injection h with h _; exact h.symm
      · obtain ⟨H, hp⟩ := addDataS_project h1
        obtain ⟨c, hn⟩ := hs.nnet
        simp only at hn
        have := refitS_total (env := env) (e := e1) (best := by assumption) (X := X) (T := T) (H := H) hc' (by rw [hn]; exact hp) hN (by rw [hn]; exact hT)
        rw [h] at this
        cases this

theorem trainLOOS_error {env : Env K} {sh} {e e' : ELM K} {X T : Mat K} {x} (hc : Consistent e.nnet) (hN : X.nrows = T.nrows)
    (hT : T.cols = e.nnet.outputs) (h : trainLOOS env sh e X T = (e', .error x)) : e' = e ∨ e' = (e.addDataS env X T).1 := by
  unfold trainLOOS at h
  split at h
  · injection h with h _; exact Or.inl h.symm
  right
  have hs := addDataS_same env e X T
  have hc' := addDataS_consistent (env := env) (X := X) (T := T) hc
  cases h1 : e.addDataS env X T with
  | mk e1 r1 =>
    rw [h1] at h hs hc'
    cases r1 with
    | error y => injection h with h _; exact h.symm
    | ok u =>
      simp only at h
      split at h
      · injection h with h _; exact h.symm
      · obtain ⟨H, hp⟩ := addDataS_project h1
        obtain ⟨c, hn⟩ := hs.nnet
        simp only at hn
        have := refitS_total (env := env) (e := e1) (best := by assumption) (X := X) (T := T) (H := H) hc' (by rw [hn]; exact hp) hN (by rw [hn]; exact hT)
        rw [h] at this
        cases this

theorem cvFoldS_near (env : Env K) (sh) (e : ELM K) (X T : Mat K) (k i : Nat) : Near e (e.cvFoldS env sh X T k i).1 := by
  have hn := addBatchS_reset_near env e (X.selRows (cvTrain X.nrows k i)) (T.selRows (cvTrain X.nrows k i))
  unfold ELM.cvFoldS
  simp only
  cases hr : e.nnet.reset.addBatchS env (X.selRows (cvTrain X.nrows k i)) (T.selRows (cvTrain X.nrows k i)) none with
  | mk n r =>
    rw [hr] at hn
    cases r <;> exact hn

theorem cvFoldS_consistent {env : Env K} {sh} {e : ELM K} {X T : Mat K} {k i : Nat} (hc : Consistent e.nnet) :
    Consistent (e.cvFoldS env sh X T k i).1.nnet := by
  have hn := addBatchS_consistent (env := env) (X := X.selRows (cvTrain X.nrows k i)) (T := T.selRows (cvTrain X.nrows k i)) (w := none)
    (reset_consistent hc)
  unfold ELM.cvFoldS
  simp only
  cases hr : e.nnet.reset.addBatchS env (X.selRows (cvTrain X.nrows k i)) (T.selRows (cvTrain X.nrows k i)) none with
  | mk n r =>
    rw [hr] at hn
    cases r <;> exact hn

theorem cvFoldS_project {env : Env K} {sh} {e e' : ELM K} {X T : Mat K} {k i : Nat} {d} (h : e.cvFoldS env sh X T k i = (e', .ok d)) :
    ∃ H, e.nnet.project env X = .ok H := by
  unfold ELM.cvFoldS at h
  simp only at h
  cases hp : e.nnet.reset.project env (X.selRows (cvTrain X.nrows k i)) with
  | error x =>
    rw [addBatchS_eq, hp] at h
    cases h
  | ok H =>
    obtain ⟨a, b, c, _⟩ := (project_ok_iff _ _ _ _).1 hp
    exact ⟨_, (project_ok_iff env e.nnet X _).2 ⟨a, b, c, rfl⟩⟩

theorem cvRoundsS_near (env : Env K) (sh) (X T : Mat K) (k : Nat) (is : List Nat) (e : ELM K) : Near e (ELM.cvRoundsS env sh X T k is e).1 := by
  induction is generalizing e with
  | nil => exact Near.rfl' e
  | cons i is ih =>
    have h1 := cvFoldS_near env (sh i) e X T k i
    unfold ELM.cvRoundsS
    cases hr : e.cvFoldS env (sh i) X T k i with
    | mk e1 r =>
      rw [hr] at h1
      cases r with
      | error x => exact h1
      | ok d =>
        have h2 := ih e1
        simp only
        cases hq : ELM.cvRoundsS env sh X T k is e1 with
        | mk e2 r2 =>
          rw [hq] at h2
          cases r2 <;> exact h1.trans h2

theorem cvRoundsS_consistent {env : Env K} {sh} {X T : Mat K} {k : Nat} (is : List Nat) {e : ELM K} (hc : Consistent e.nnet) :
    Consistent (ELM.cvRoundsS env sh X T k is e).1.nnet := by
  induction is generalizing e with
  | nil => exact hc
  | cons i is ih =>
    have h1 := cvFoldS_consistent (env := env) (sh := sh i) (X := X) (T := T) (k := k) (i := i) hc
    unfold ELM.cvRoundsS
    cases hr : e.cvFoldS env (sh i) X T k i with
    | mk e1 r =>
      rw [hr] at h1
      cases r with
      | error x => exact h1
      | ok d =>
        have h2 := ih h1
        simp only at h2 ⊢
        cases hq : ELM.cvRoundsS env sh X T k is e1 with
        | mk e2 r2 =>
          rw [hq] at h2
          cases r2 <;> exact h2

theorem cvRoundsS_project {env : Env K} {sh} {X T : Mat K} {k : Nat} {is : List Nat} {e e' : ELM K} {ds} (hne : is ≠ [])
    (h : ELM.cvRoundsS env sh X T k is e = (e', .ok ds)) : ∃ H, e.nnet.project env X = .ok H := by
  cases is with
  | nil => exact absurd rfl hne
  | cons i is =>
    unfold ELM.cvRoundsS at h
    cases hr : e.cvFoldS env (sh i) X T k i with
    | mk e1 r =>
      rw [hr] at h
      cases r with
      | error x => cases h
      | ok d => exact cvFoldS_project hr

theorem trainCVS_error {env : Env K} {sh} {e e' : ELM K} {X T : Mat K} {k x} (hk : 0 < k) (hc : Consistent e.nnet) (hN : X.nrows = T.nrows)
    (hT : T.cols = e.nnet.outputs) (h : trainCVS env sh e X T k = (e', .error x)) : Near e e' := by
  unfold trainCVS at h
  have hs := cvRoundsS_near env sh X T k (List.range k) e
  have hc' := cvRoundsS_consistent (env := env) (sh := sh) (X := X) (T := T) (k := k) (List.range k) hc
  cases h1 : ELM.cvRoundsS env sh X T k (List.range k) e with
  | mk e1 r1 =>
    rw [h1] at h hs hc'
    cases r1 with
    | error y => injection h with h _; rw [← h]; exact hs
    | ok u =>
      simp only at h
      split at h
      · injection h with h _; rw [← h]; exact hs
      · obtain ⟨H, hp⟩ := cvRoundsS_project (by simp; omega) h1
        have := refitS_total (env := env) (e := e1) (best := by assumption) (X := X) (T := T) (H := H) hc' (by rw [hs.project]; exact hp) hN
          (by rw [hs.kept.outputs]; exact hT)
        rw [h] at this
        cases this

/-! Successful calls. -/

theorem bind_step {α β : Type} {x : Except PyErr α} {a : α} (h : x = .ok a) (f : α → Except PyErr β) : (x >>= f) = f a := by
  rw [h]; rfl

theorem trainVS_of_ok {env : Env K} {sh} {e e' : ELM K} {X T Xv Tv : Mat K} {r} (hc : Consistent e.nnet)
    (h : trainV env sh e X T Xv Tv = .ok (e', r)) : trainVS env sh e X T Xv Tv = (e', .ok ()) := by
  unfold trainV at h
  obtain ⟨e1, h1, h⟩ := bind_ok h
  obtain ⟨c, h2, h⟩ := bind_ok h
  obtain ⟨Hv, h3, h⟩ := bind_ok h
  obtain ⟨rk, h4, h⟩ := bind_ok h
  obtain ⟨err, h5, h⟩ := bind_ok h
  obtain ⟨pen, h6, h⟩ := bind_ok h
  obtain ⟨m, h7, h⟩ := bind_ok h
  obtain ⟨e2, h8, h⟩ := bind_ok h
  injection h with h
  injection h with h _
  unfold trainVS
  rw [addDataS_of_ok hc h1]
  have : e1.pickV env sh Xv Tv = .ok (rk.1.take m.1) := by
    unfold ELM.pickV
    refine (bind_step h2 _).trans ?_
    refine (bind_step h3 _).trans ?_
    refine (bind_step h4 _).trans ?_
    refine (bind_step h5 _).trans ?_
    refine (bind_step h6 _).trans ?_
    exact bind_step h7 _
  simp only [this]
  rw [← h]
  exact refitS_of_ok (addData_consistent hc h1) (Near.rfl' _) h8

theorem trainLOOS_of_ok {env : Env K} {sh} {e e' : ELM K} {X T : Mat K} {r} (hc : Consistent e.nnet)
    (h : trainLOO env sh e X T = .ok (e', r)) : trainLOOS env sh e X T = (e', .ok ()) := by
  unfold trainLOO at h
  obtain ⟨H, h0, h⟩ := bind_ok h
  obtain ⟨e1, h1, h⟩ := bind_ok h
  obtain ⟨c, h2, h⟩ := bind_ok h
  obtain ⟨rk, h4, h⟩ := bind_ok h
  obtain ⟨err, h5, h⟩ := bind_ok h
  obtain ⟨pen, h6, h⟩ := bind_ok h
  obtain ⟨m, h7, h⟩ := bind_ok h
  obtain ⟨e2, h8, h⟩ := bind_ok h
  injection h with h
  injection h with h _
  unfold trainLOOS
  rw [h0]
  simp only
  rw [addDataS_of_ok hc h1]
  have : e1.pickLOO env sh H T = .ok (rk.1.take m.1) := by
    unfold ELM.pickLOO
    refine (bind_step h2 _).trans ?_
    refine (bind_step h4 _).trans ?_
    refine (bind_step h5 _).trans ?_
    refine (bind_step h6 _).trans ?_
    exact bind_step h7 _
  simp only [this]
  rw [← h]
  exact refitS_of_ok (addData_consistent hc h1) (Near.rfl' _) h8

theorem cvFoldS_of_ok {env : Env K} {sh} {e f : ELM K} {X T : Mat K} {k i : Nat} {d} (hc : Consistent e.nnet) (hf : Near e f)
    (h : cvFold env sh e X T k i = .ok d) : (f.cvFoldS env sh X T k i).2 = .ok d := by
  unfold cvFold at h
  obtain ⟨n, h1, h⟩ := bind_ok h
  unfold ELM.cvFoldS
  simp only
  rw [hf.reset, addBatchS_of_ok (reset_consistent hc) h1]
  simp only
  obtain ⟨c, l, rfl⟩ := hf
  exact h

theorem cvRoundsS_of_ok {env : Env K} {sh : Nat → List Nat} {X T : Mat K} {k : Nat} {e : ELM K} (hc : Consistent e.nnet) (is : List Nat) {f : ELM K}
    (hf : Near e f) {ds} (h : (is.mapM fun i => cvFold env (sh i) e X T k i) = .ok ds) : (ELM.cvRoundsS env sh X T k is f).2 = .ok ds := by
  induction is generalizing f ds with
  | nil =>
    injection h with h
    rw [← h]; rfl
  | cons i is ih =>
    rw [List.mapM_cons] at h
    obtain ⟨d, h1, h⟩ := bind_ok h
    obtain ⟨ds', h2, h⟩ := bind_ok h
    injection h with h
    have hd := cvFoldS_of_ok (sh := sh i) hc hf h1
    have hn := cvFoldS_near env (sh i) f X T k i
    unfold ELM.cvRoundsS
    cases hr : f.cvFoldS env (sh i) X T k i with
    | mk f1 r =>
      rw [hr] at hd hn
      simp only at hd
      subst hd
      have hi := ih (hf.trans hn) h2
      simp only at hi ⊢
      cases hq : ELM.cvRoundsS env sh X T k is f1 with
      | mk f2 r2 =>
        rw [hq] at hi
        simp only at hi
        subst hi
        rw [← h]

theorem trainCVS_of_ok {env : Env K} {sh : Nat → List Nat} {e e' : ELM K} {X T : Mat K} {k : Nat} {r} (hk : 0 < k) (hc : Consistent e.nnet)
    (h : trainCV env sh e X T k = .ok (e', r)) : trainCVS env sh e X T k = (e', .ok ()) := by
  unfold trainCV at h
  obtain ⟨ds, h1, h⟩ := bind_ok h
  obtain ⟨err, h5, h⟩ := bind_ok h
  obtain ⟨pen, h6, h⟩ := bind_ok h
  obtain ⟨m, h7, h⟩ := bind_ok h
  obtain ⟨et, h9, h⟩ := bind_ok h
  obtain ⟨e2, h8, h⟩ := bind_ok h
  injection h with h
  injection h with h _
  have hr := cvRoundsS_of_ok hc (List.range k) (Near.rfl' e) h1
  have hn := cvRoundsS_near env sh X T k (List.range k) e
  have hds : ds ≠ [] := by
    intro h0
    subst h0
    cases k with
    | zero => omega
    | succ k =>
      rw [List.range_succ_eq_map, List.mapM_cons] at h1
      obtain ⟨d, _, h1⟩ := bind_ok h1
      obtain ⟨ds', _, h1⟩ := bind_ok h1
      injection h1 with h1
      cases h1
  unfold trainCVS
  cases hq : ELM.cvRoundsS env sh X T k (List.range k) e with
  | mk f r2 =>
    rw [hq] at hr hn
    simp only at hr hn
    subst hr
    have : f.pickCV env k ds = .ok (((ds.map (·.rank)).getLastD []).take m.1) := by
      obtain ⟨c, l, rfl⟩ := hn
      have hlast : ∀ a b : Nat, (ds.map (·.L)).getLastD a = (ds.map (·.L)).getLastD b := by
        intro a b
        have : ds.map (·.L) ≠ [] := by simpa using hds
        cases hm : ds.map (·.L) with
        | nil => exact absurd hm this
        | cons y ys => rfl
      unfold ELM.pickCV
      simp only
      rw [hlast _ (e.nnet.L.getD 0)]
      refine (bind_step h5 _).trans ?_
      refine (bind_step h6 _).trans ?_
      refine (bind_step h7 _).trans ?_
      exact bind_step h9 _
    simp only [this]
    rw [← h]
    exact refitS_of_ok hc hn h8

/-! The whole training call. -/

/-- What a training call that raises leaves behind: the network without its accumulated data. -/
theorem trainBodyS_error {env : Env K} {fs rnd} {e e' : ELM K} {X T : Mat K} {args kw x} (hc : Consistent e.nnet) (hN : X.nrows = T.nrows)
    (hT : T.cols = e.nnet.outputs) (h : e.trainBodyS env fs rnd X T args kw = (e', .error x)) : Kept e e' ∧ e'.batch = e.batch := by
  have hs := addDataS_same env e X T
  have hd : e' = (e.addDataS env X T).1 → Kept e e' ∧ e'.batch = e.batch := fun h => by rw [h]; exact ⟨hs.kept, hs.batch⟩
  have hz : e' = e → Kept e e' ∧ e'.batch = e.batch := fun h => by rw [h]; exact ⟨Kept.rfl' _, rfl⟩
  unfold ELM.trainBodyS at h
  split at h
  · split at h
    · split at h
      · injection h with h _; exact hz h.symm
      · exact hd (trainVS_error hc hN hT h)
    · injection h with h _; exact hz h.symm
  split at h
  · split at h
    · injection h with h _; exact hz h.symm
    · split at h
      · have hn := trainCVS_error (by omega) hc hN hT h
        refine ⟨hn.kept, ?_⟩
        obtain ⟨c, l, rfl⟩ := hn
        rfl
      · injection h with h _; exact hz h.symm
  split at h
  · rcases trainLOOS_error hc hN hT h with h | h
    · exact hz h
    · exact hd h
  · cases h1 : e.addDataS env X T with
    | mk e1 r =>
      rw [h1] at h hd
      cases r with
      | error y => injection h with h _; exact hd h.symm
      | ok u =>
        simp only at h
        split at h
        · injection h with h _; exact hd h.symm
        · injection h with _ h; cases h

theorem refitS_accelerator (env : Env K) (e : ELM K) (best X T) : (e.refitS env best X T).1.accelerator = e.accelerator := by
  unfold ELM.refitS
  split
  · rfl
  · split <;> rfl

/-- Whatever happens, the network is consistent afterwards. -/
theorem trainBodyS_consistent {env : Env K} (hs : Shapes env) {fs rnd} {e : ELM K} {X T : Mat K} {args kw} (hc : Consistent e.nnet) :
    Consistent (e.trainBodyS env fs rnd X T args kw).1.nnet ∧ (e.trainBodyS env fs rnd X T args kw).1.accelerator = e.accelerator := by
  have hd := addDataS_consistent (env := env) (X := X) (T := T) hc
  have ha := (addDataS_same env e X T).accelerator
  unfold ELM.trainBodyS
  split
  · split
    · split
      · exact ⟨hc, rfl⟩
      · unfold trainVS
        cases h1 : e.addDataS env X T with
        | mk e1 r =>
          rw [h1] at hd ha
          cases r with
          | error y => exact ⟨hd, ha⟩
          | ok u =>
            simp only
            split
            · exact ⟨hd, ha⟩
            · exact ⟨refitS_consistent hs hd, (refitS_accelerator ..).trans ha⟩
    · exact ⟨hc, rfl⟩
  split
  · split
    · exact ⟨hc, rfl⟩
    · rename_i k _
      split
      · have h1 := cvRoundsS_consistent (env := env) (sh := rnd.shuffles) (X := X) (T := T) (k := k.toNat) (List.range k.toNat) hc
        have h2 := (cvRoundsS_near env rnd.shuffles X T k.toNat (List.range k.toNat) e).kept.accelerator
        unfold trainCVS
        cases hq : ELM.cvRoundsS env rnd.shuffles X T k.toNat (List.range k.toNat) e with
        | mk e1 r =>
          rw [hq] at h1 h2
          cases r with
          | error y => exact ⟨h1, h2⟩
          | ok u =>
            simp only
            split
            · exact ⟨h1, h2⟩
            · exact ⟨refitS_consistent hs h1, (refitS_accelerator ..).trans h2⟩
      · exact ⟨hc, rfl⟩
  split
  · unfold trainLOOS
    split
    · exact ⟨hc, rfl⟩
    · cases h1 : e.addDataS env X T with
      | mk e1 r =>
        rw [h1] at hd ha
        cases r with
        | error y => exact ⟨hd, ha⟩
        | ok u =>
          simp only
          split
          · exact ⟨hd, ha⟩
          · exact ⟨refitS_consistent hs hd, (refitS_accelerator ..).trans ha⟩
  · cases h1 : e.addDataS env X T with
    | mk e1 r =>
      rw [h1] at hd ha
      cases r with
      | error y => exact ⟨hd, ha⟩
      | ok u =>
        simp only
        split
        · exact ⟨hd, ha⟩
        · rename_i hn
          exact ⟨solve_consistent hs hd hn, ha⟩

/-- Calls that succeed are described by `trainBody`. -/
theorem trainBodyS_of_ok {env : Env K} {fs rnd} {e e' : ELM K} {X T : Mat K} {args kw r} (hc : Consistent e.nnet)
    (h : e.trainBody env fs rnd X T args kw = .ok (r, e')) : e.trainBodyS env fs rnd X T args kw = (e', .ok ()) := by
  unfold ELM.trainBody at h
  unfold ELM.trainBodyS
  split at h
  · rename_i hv
    rw [if_pos hv]
    split at h
    · rename_i Xv Tv hx ht
      obtain ⟨p, h1, h⟩ := bind_ok h
      obtain ⟨q, h2, h⟩ := bind_ok h
      injection h with h
      injection h with _ h
      simp only [hx, ht, h1]
      rw [← h]
      exact trainVS_of_ok hc (r := q.2) h2
    · cases h
  rename_i hv
  rw [if_neg hv]
  split at h
  · rename_i hcv
    rw [if_pos hcv]
    split at h
    · cases h
    · rename_i k hk'
      obtain ⟨u, h1, h⟩ := bind_ok h
      obtain ⟨q, h2, h⟩ := bind_ok h
      injection h with h
      injection h with _ h
      have hk : k ≥ 3 := by
        unfold pyAssert at h1
        split at h1
        · rename_i h3; simpa using h3
        · cases h1
      simp only [hk']
      rw [if_pos hk, ← h]
      exact trainCVS_of_ok (by omega) hc (r := q.2) h2
  rename_i hcv
  rw [if_neg hcv]
  split at h
  · rename_i hl
    rw [if_pos hl]
    obtain ⟨q, h2, h⟩ := bind_ok h
    injection h with h
    injection h with _ h
    rw [← h]
    exact trainLOOS_of_ok hc (r := q.2) h2
  · rename_i hl
    rw [if_neg hl]
    obtain ⟨e1, h1, h⟩ := bind_ok h
    obtain ⟨n, h2, h⟩ := bind_ok h
    injection h with h
    injection h with _ h
    rw [addDataS_of_ok hc h1]
    simp only [h2]
    rw [← h]

end Hpelm
