import Verif.Spec.Twin
import Verif.Lemmas.Folds
import Verif.Lemmas.Frame

/-! Training sees its input data only through the hidden layer: simulation between two models with corresponding neurons. -/

set_option linter.unusedSectionVars false

namespace Hpelm
open Spec
variable {K : Type} [Field K] [LinearOrder K]

/-- Both computations succeed with related results, or both raise the same exception. -/
def RelE {α β : Type} (r : α → β → Prop) : Except PyErr α → Except PyErr β → Prop
  | .ok a, .ok b => r a b
  | .error x, .error y => x = y
  | _, _ => False

theorem RelE.bind {α β γ δ : Type} {r : α → β → Prop} {s : γ → δ → Prop} {m : Except PyErr α} {m' : Except PyErr β}
    {f : α → Except PyErr γ} {f' : β → Except PyErr δ} (h : RelE r m m') (hf : ∀ a b, r a b → RelE s (f a) (f' b)) :
    RelE s (m >>= f) (m' >>= f') := by
  cases m <;> cases m'
  · exact h
  · exact h.elim
  · exact h.elim
  · exact hf _ _ h

theorem RelE.same {α β : Type} {r : α → β → Prop} {γ : Type} {m : Except PyErr γ} {f : γ → Except PyErr α} {f' : γ → Except PyErr β}
    (hf : ∀ a, RelE r (f a) (f' a)) : RelE r (m >>= f) (m >>= f') := by
  cases m
  · exact rfl
  · exact hf _

theorem RelE.eq {α : Type} (m : Except PyErr α) : RelE Eq m m := by cases m <;> exact rfl

theorem RelE.eq' {α : Type} {m m' : Except PyErr α} (h : RelE Eq m m') : m' = m := by
  cases m <;> cases m'
  · exact congrArg _ (Eq.symm h)
  · exact h.elim
  · exact h.elim
  · exact congrArg _ (Eq.symm h)

variable {env : Env K} {R : List K → List K → Prop}

theorem twin_applyGroup {g g' : Group K} (h : TwinGroups env R g g') {X X' : Mat K} (hX : List.Forall₂ R X.rows X'.rows) :
    applyGroup env X' g' = applyGroup env X g := by
  unfold applyGroup
  rw [h.func]
  cases hf : g.func with
  | ufunc s => rfl
  | name s =>
    simp only
    cases ha : act env s with
    | none => rfl
    | some a =>
      simp only
      obtain ⟨s1, s2, s3, s4⟩ := h.sizes
      rw [s1, s3]
      congr 2
      generalize X.rows = rs at hX
      generalize X'.rows = rs' at hX
      induction hX with
      | nil => rfl
      | cons hr _ ih =>
        rw [List.map_cons, List.map_cons, ih]
        congr 1
        apply List.ext_getElem
        · simp [s1, s2, s3, s4]
        · intro k h1 h2
          simp only [List.length_zipWith, s1, s2, s3, s4] at h1 h2
          have := h.same s a hf ha _ _ hr k (by omega)
          simp only [List.getElem_zipWith]
          rw [List.getD_eq_getElem _ _ (by omega), List.getD_eq_getElem _ _ (by omega), List.getD_eq_getElem _ _ (by omega),
            List.getD_eq_getElem _ _ (by omega)] at this
          exact this.symm

theorem twin_project {n n' : NNet K} (h : List.Forall₂ (TwinGroups env R) n.neurons n'.neurons) {X X' : Mat K} (hX : TwinData R n n' X X') :
    n'.project env X' = n.project env X := by
  unfold NNet.project
  rw [if_neg (by simpa using hX.cols'), if_neg (by simpa using hX.cols)]
  have : n'.neurons.mapM (applyGroup env X') = n.neurons.mapM (applyGroup env X) := by
    generalize n.neurons = gs at h
    generalize n'.neurons = gs' at h
    induction h with
    | nil => rfl
    | cons hg _ ih => rw [List.mapM_cons, List.mapM_cons, twin_applyGroup hg hX.rows, ih]
  rw [this]

/-- Twin networks with the same accumulated matrices. -/
structure TwinN (env : Env K) (R : List K → List K → Prop) (n n' : NNet K) : Prop extends TwinNets env R n n' where
  L : n'.L = n.L
  corr : n'.corr = n.corr

theorem _root_.Hpelm.Spec.TwinNets.numbers {n n' : NNet K} (h : TwinNets env R n n') : n'.neurons.map (·.number) = n.neurons.map (·.number) := by
  have h := h.neurons
  generalize n.neurons = gs at h
  generalize n'.neurons = gs' at h
  induction h with
  | nil => rfl
  | cons hg _ ih => rw [List.map_cons, List.map_cons, ih, hg.number]

theorem twin_reset {n n' : NNet K} (h : TwinNets env R n n') : TwinN env R n.reset n'.reset :=
  ⟨⟨h.solver, h.prec, h.outputs, h.norm, h.neurons⟩, by simp only [NNet.reset, h.numbers], rfl⟩

theorem twin_addBatch {n n' : NNet K} (h : TwinN env R n n') {X X' : Mat K} (hX : TwinData R n n' X X') (T : Mat K) (w : Option (List K)) :
    RelE (fun a b => TwinN env R a b ∧ a.inputs = n.inputs ∧ b.inputs = n'.inputs ∧ a.B = n.B ∧ b.B = n'.B) (n.addBatch env X T w)
      (n'.addBatch env X' T w) := by
  unfold NNet.addBatch
  rw [twin_project h.neurons hX]
  refine RelE.same fun H => ?_
  simp only [h.prec]
  refine RelE.same fun p => ?_
  obtain ⟨H, T⟩ := p
  simp only [h.outputs, h.L, h.norm, h.corr]
  have hu : ∀ A H, n'.updHH A H = n.updHH A H := by
    intro A H
    unfold NNet.updHH
    rw [h.solver, h.prec]
  split_ifs
  · exact rfl
  · exact rfl
  · exact rfl
  · refine ⟨⟨⟨h.solver, rfl, rfl, rfl, h.neurons⟩, rfl, ?_⟩, rfl, rfl, rfl, rfl⟩
    simp only [hu]

theorem twin_solveCorr {n n' : NNet K} (h : TwinNets env R n n') (A B : Mat K) : n'.solveCorr env A B = n.solveCorr env A B :=
  solveCorr_congr h.solver h.prec A B

theorem twin_solve {n n' : NNet K} (h : TwinN env R n n') :
    RelE (fun a b => TwinN env R a b ∧ a.inputs = n.inputs ∧ b.inputs = n'.inputs ∧ b.B = a.B) (n.solve env) (n'.solve env) := by
  unfold NNet.solve
  rw [h.corr]
  cases n.corr with
  | none => exact rfl
  | some c =>
    refine ⟨⟨⟨h.solver, h.prec, h.outputs, h.norm, h.neurons⟩, h.L, rfl⟩, rfl, rfl, ?_⟩
    simp only [twin_solveCorr h.toTwinNets]

theorem twin_getCorr {n n' : NNet K} (h : TwinN env R n n') : n'.getCorr! = n.getCorr! := by
  unfold NNet.getCorr! NNet.getCorr
  rw [h.corr, h.solver]

theorem twin_pruneGroups {gs gs' : List (Group K)} (h : List.Forall₂ (TwinGroups env R) gs gs') (idx : List Nat) :
    List.Forall₂ (TwinGroups env R) (pruneGroups gs idx) (pruneGroups gs' idx) := by
  induction h generalizing idx with
  | nil => exact .nil
  | @cons g g' _ _ hg _ ih =>
    unfold pruneGroups
    rw [hg.number, hg.func]
    refine .cons ⟨rfl, rfl, ⟨by simp, by simp, by simp, by simp⟩, ?_⟩ (ih _)
    intro s a hf ha x x' hr k hk
    simp only at hk
    have hm : (idx.filter (· < g.number))[k] ∈ idx.filter (· < g.number) := List.getElem_mem hk
    rw [List.mem_filter] at hm
    have := hg.same s a hf ha x x' hr _ (by simpa using hm.2)
    simpa [List.getD_eq_getElem?_getD, List.getElem?_map, List.getElem?_eq_getElem hk] using this

theorem twin_prune {n n' : NNet K} (h : TwinNets env R n n') (idx : List Nat) : TwinN env R (n.prune idx) (n'.prune idx) := by
  have : TwinNets env R { n with neurons := pruneGroups n.neurons idx } { n' with neurons := pruneGroups n'.neurons idx } :=
    ⟨h.solver, h.prec, h.outputs, h.norm, twin_pruneGroups h.neurons idx⟩
  obtain ⟨⟨a, b, c, d, e⟩, f, g⟩ := twin_reset this
  exact ⟨⟨a, b, c, d, e⟩, f, g⟩

/-- Twin models: the settings of a training run agree. -/
structure TwinE (env : Env K) (R : List K → List K → Prop) (e e' : ELM K) : Prop where
  nnet : TwinN env R e.nnet e'.nnet
  batch : e'.batch = e.batch
  prec : e'.prec = e.prec
  classification : e'.classification = e.classification
  wc : e'.wc = e.wc
  rankingOP : e'.rankingOP = e.rankingOP
  kmaxOp : e'.kmaxOp = e.kmaxOp

/-- The result of a step: still twins, with the numbers of inputs they had. -/
def StepE (env : Env K) (R : List K → List K → Prop) (e e' a b : ELM K) : Prop :=
  TwinE env R a b ∧ a.nnet.inputs = e.nnet.inputs ∧ b.nnet.inputs = e'.nnet.inputs

theorem _root_.Hpelm.Spec.TwinData.mono {n n' m m' : NNet K} {X X' : Mat K} (h : TwinData R n n' X X') (h1 : m.inputs = n.inputs) (h2 : m'.inputs = n'.inputs) :
    TwinData R m m' X X' := ⟨h.cols.trans h1.symm, h.cols'.trans h2.symm, h.rows⟩

theorem twin_feed {bs bs' : List (List (List K) × List (List K))}
    (hb : List.Forall₂ (fun b b' => List.Forall₂ R b.1 b'.1 ∧ b'.2 = b.2) bs bs') {oc : Nat} :
    ∀ {e e' : ELM K}, TwinE env R e e' →
      RelE (StepE env R e e') (e.feed env e.nnet.inputs oc bs) (e'.feed env e'.nnet.inputs oc bs') := by
  induction hb with
  | nil => intro e e' h; exact ⟨h, rfl, rfl⟩
  | @cons b b' _ _ hb _ ih =>
    intro e e' h
    obtain ⟨Xb, Tb⟩ := b
    obtain ⟨Xb', Tb'⟩ := b'
    obtain ⟨hr, ht⟩ := hb
    simp only at hr ht
    subst ht
    unfold ELM.feed
    rw [h.classification, h.wc]
    refine RelE.same fun w => ?_
    refine RelE.bind (twin_addBatch h.nnet ⟨rfl, rfl, hr⟩ _ _) ?_
    rintro n n' ⟨ht, h1, h2, -, -⟩
    have := ih (e := { e with nnet := n }) (e' := { e' with nnet := n' }) ⟨ht, h.batch, h.prec, h.classification, h.wc, h.rankingOP, h.kmaxOp⟩
    unfold StepE at this ⊢
    simp only [h1, h2, h.classification, h.wc] at this
    exact this

theorem forall₂_split {α β : Type} {r : α → β → Prop} (ss : List Nat) {l : List α} {l' : List β} (h : List.Forall₂ r l l') :
    List.Forall₂ (List.Forall₂ r) (splitSizes ss l) (splitSizes ss l') := by
  induction ss generalizing l l' with
  | nil => exact .nil
  | cons s ss ih => exact .cons (List.forall₂_take s h) (ih (List.forall₂_drop s h))

theorem twin_addData {e e' : ELM K} (h : TwinE env R e e') {X X' : Mat K} (hX : TwinData R e.nnet e'.nnet X X') (T : Mat K) :
    RelE (StepE env R e e') (e.addData env X T) (e'.addData env X' T) := by
  unfold ELM.addData
  rw [h.batch]
  have hn : X'.nrows = X.nrows := hX.rows.length_eq.symm
  split_ifs with hb
  · exact rfl
  simp only [hn]
  have ha : TwinE env R (e.autoWc env (colSums T)) (e'.autoWc env (colSums T)) ∧ (e.autoWc env (colSums T)).nnet = e.nnet ∧
      (e'.autoWc env (colSums T)).nnet = e'.nnet := by
    refine ⟨?_, autoWc_nnet _ _ _, autoWc_nnet _ _ _⟩
    unfold ELM.autoWc
    rw [h.classification, h.wc, h.prec]
    split_ifs
    · exact ⟨h.nnet, h.batch, rfl, rfl, rfl, h.rankingOP, h.kmaxOp⟩
    · exact h
  obtain ⟨ha, hi, hi'⟩ := ha
  have hs : RelE (List.Forall₂ (List.Forall₂ R)) (arraySplit X.rows (ceilDiv X.nrows e.batch)) (arraySplit X'.rows (ceilDiv X.nrows e.batch)) := by
    unfold arraySplit
    rw [hX.rows.length_eq]
    split_ifs
    · exact rfl
    · exact forall₂_split _ hX.rows
  refine RelE.bind hs fun Xs Xs' hXs => ?_
  refine RelE.same fun Ts => ?_
  have hz : List.Forall₂ (fun (b b' : List (List K) × List (List K)) => List.Forall₂ R b.1 b'.1 ∧ b'.2 = b.2) (Xs.zip Ts) (Xs'.zip Ts) := by
    induction hXs generalizing Ts with
    | nil => exact .nil
    | cons hr _ ih =>
      cases Ts with
      | nil => exact .nil
      | cons t ts => exact .cons ⟨hr, rfl⟩ (ih ts)
  have := twin_feed hz (oc := T.cols) ha
  rw [hi, hi', ← hX.cols, ← hX.cols'] at this
  unfold StepE at this ⊢
  rw [hi, hi'] at this
  exact this

/-- The final state: twins with the same output weights. -/
def DoneE (env : Env K) (R : List K → List K → Prop) (e e' a b : ELM K) : Prop :=
  StepE env R e e' a b ∧ b.nnet.B = a.nnet.B

theorem twin_refit {e e' : ELM K} (h : TwinE env R e e') {X X' : Mat K} (hX : TwinData R e.nnet e'.nnet X X') (T : Mat K) (best : List Nat) :
    RelE (DoneE env R e e') (e.refit env best X T) (e'.refit env best X' T) := by
  unfold ELM.refit
  have hp := twin_prune h.nnet.toTwinNets best
  refine RelE.bind (twin_addBatch hp (hX.mono rfl rfl) T none) ?_
  rintro n n' ⟨h1, i1, i2, -, -⟩
  refine RelE.bind (twin_solve h1) ?_
  rintro m m' ⟨h2, j1, j2, hB⟩
  exact ⟨⟨⟨h2, h.batch, h.prec, h.classification, h.wc, h.rankingOP, h.kmaxOp⟩, j1.trans i1, j2.trans i2⟩, hB⟩

theorem twin_ranking {e e' : ELM K} (h : TwinE env R e e') (sh : List Nat) (L : Nat) (H T : Mat K) :
    e'.ranking env sh L H T = e.ranking env sh L H T := by
  unfold ELM.ranking
  rw [h.rankingOP, h.kmaxOp]

theorem twin_scoreV {e e' : ELM K} (h : TwinE env R e e') (A B C D : Mat K) (r : List Nat) :
    scoreV env e' A B C D r = scoreV env e A B C D r := by
  unfold scoreV
  rw [twin_solveCorr h.nnet.toTwinNets, h.classification, h.wc]

theorem twin_scoreLOO {e e' : ELM K} (h : TwinE env R e e') (A B C D : Mat K) : scoreLOO env e' A B C D = scoreLOO env e A B C D := by
  unfold scoreLOO
  rw [h.classification, h.wc]

theorem StepE.trans {e e' a b c d : ELM K} (h : StepE env R e e' a b) (h' : StepE env R a b c d) : StepE env R e e' c d :=
  ⟨h'.1, h'.2.1.trans h.2.1, h'.2.2.trans h.2.2⟩

theorem twin_trainV {e e' : ELM K} (h : TwinE env R e e') {X X' Xv Xv' : Mat K} (hX : TwinData R e.nnet e'.nnet X X')
    (hXv : TwinData R e.nnet e'.nnet Xv Xv') (T Tv : Mat K) (sh : List Nat) :
    RelE (fun r r' => DoneE env R e e' r.1 r'.1 ∧ r'.2 = r.2) (trainV env sh e X T Xv Tv) (trainV env sh e' X' T Xv' Tv) := by
  unfold trainV
  refine RelE.bind (twin_addData h hX T) fun a b hs => ?_
  obtain ⟨ht, i1, i2⟩ := hs
  rw [twin_getCorr ht.nnet]
  refine RelE.same fun c => ?_
  obtain ⟨HH, HT⟩ := c
  simp only
  rw [twin_project ht.nnet.neurons (hXv.mono i1 i2)]
  refine RelE.same fun Hv => ?_
  rw [ht.nnet.L, twin_ranking ht]
  refine RelE.same fun p => ?_
  obtain ⟨rank, L⟩ := p
  simp only
  rw [twin_solveCorr ht.nnet.toTwinNets, ht.classification, ht.wc]
  refine RelE.same fun err => ?_
  refine RelE.same fun pen => ?_
  simp only [twin_scoreV ht]
  refine RelE.same fun q => ?_
  obtain ⟨kopt, errs⟩ := q
  simp only
  refine RelE.bind (twin_refit ht (hX.mono i1 i2) T (rank.take kopt)) fun f g hf => ?_
  exact ⟨⟨StepE.trans ⟨ht, i1, i2⟩ hf.1, hf.2⟩, rfl⟩

theorem twin_trainLOO {e e' : ELM K} (h : TwinE env R e e') {X X' : Mat K} (hX : TwinData R e.nnet e'.nnet X X') (T : Mat K) (sh : List Nat) :
    RelE (fun r r' => DoneE env R e e' r.1 r'.1 ∧ r'.2 = r.2) (trainLOO env sh e X T) (trainLOO env sh e' X' T) := by
  unfold trainLOO
  rw [twin_project h.nnet.neurons hX]
  refine RelE.same fun H => ?_
  refine RelE.bind (twin_addData h hX T) fun a b hs => ?_
  obtain ⟨ht, i1, i2⟩ := hs
  rw [twin_getCorr ht.nnet]
  refine RelE.same fun c => ?_
  obtain ⟨HH, HT⟩ := c
  simp only
  rw [ht.nnet.L, twin_ranking ht]
  refine RelE.same fun p => ?_
  obtain ⟨rank, L⟩ := p
  simp only
  simp only [twin_scoreLOO ht]
  refine RelE.same fun err => ?_
  refine RelE.same fun pen => ?_
  refine RelE.same fun q => ?_
  obtain ⟨kopt, errs⟩ := q
  simp only
  refine RelE.bind (twin_refit ht (hX.mono i1 i2) T (rank.take kopt)) fun f g hf => ?_
  exact ⟨⟨StepE.trans ⟨ht, i1, i2⟩ hf.1, hf.2⟩, rfl⟩

theorem forall₂_selRows {l l' : List (List K)} (h : List.Forall₂ R l l') {idx : List Nat} (hi : ∀ i ∈ idx, i < l.length) :
    List.Forall₂ R (idx.map fun i => l.getD i []) (idx.map fun i => l'.getD i []) := by
  induction idx with
  | nil => exact .nil
  | cons i idx ih =>
    refine .cons ?_ (ih fun j hj => hi j (List.mem_cons_of_mem _ hj))
    have h1 := hi i List.mem_cons_self
    have h2 : i < l'.length := h.length_eq ▸ h1
    simp only [List.getD_eq_getElem _ _ h1, List.getD_eq_getElem _ _ h2]
    exact h.get h1 h2

theorem _root_.Hpelm.Spec.TwinData.sel {n n' : NNet K} {X X' : Mat K} (h : TwinData R n n' X X') {idx : List Nat} (hi : ∀ i ∈ idx, i < X.nrows) :
    TwinData R n n' (X.selRows idx) (X'.selRows idx) := ⟨h.cols, h.cols', forall₂_selRows h.rows hi⟩

theorem twin_cvFold {e e' : ELM K} (h : TwinE env R e e') {X X' : Mat K} (hX : TwinData R e.nnet e'.nnet X X') (T : Mat K) (sh : List Nat) (k i : Nat) :
    cvFold env sh e' X' T k i = cvFold env sh e X T k i := by
  apply RelE.eq'
  unfold cvFold
  have hn : X'.nrows = X.nrows := hX.rows.length_eq.symm
  simp only [hn]
  obtain ⟨l1, l2, l3⟩ := cv_lt (N := X.nrows) (k := k) (i := i)
  refine RelE.bind (twin_addBatch (twin_reset h.nnet.toTwinNets) ((hX.sel l1).mono rfl rfl) _ _) ?_
  rintro n n' ⟨ht, i1, i2, -, -⟩
  rw [twin_getCorr ht]
  refine RelE.same fun c => ?_
  obtain ⟨HH, HT⟩ := c
  simp only
  rw [twin_project ht.neurons ((hX.sel l2).mono i1 i2), twin_project ht.neurons ((hX.sel l3).mono i1 i2)]
  refine RelE.same fun Hvl => ?_
  refine RelE.same fun Hts => ?_
  rw [twin_ranking h]
  exact RelE.eq _

theorem twin_trainCV {e e' : ELM K} (h : TwinE env R e e') {X X' : Mat K} (hX : TwinData R e.nnet e'.nnet X X') (T : Mat K) (sh : Nat → List Nat)
    (k : Nat) :
    RelE (fun r r' => DoneE env R e e' r.1 r'.1 ∧ r'.2 = r.2) (trainCV env sh e X T k) (trainCV env sh e' X' T k) := by
  unfold trainCV
  simp only [twin_cvFold h hX]
  refine RelE.same fun ds => ?_
  simp only [h.nnet.L, twin_solveCorr h.nnet.toTwinNets, h.classification, h.wc, twin_scoreV h]
  refine RelE.same fun err => ?_
  refine RelE.same fun pen => ?_
  refine RelE.same fun q => ?_
  obtain ⟨kopt, errs⟩ := q
  simp only
  refine RelE.same fun errT => ?_
  refine RelE.bind (twin_refit h hX T _) fun f g hf => ?_
  exact ⟨hf, rfl⟩

theorem twin_parseOne {kw kw' : Kwargs K} (hk : kw'.kmax = kw.kmax) (hw : kw'.w = kw.w) {e e' : ELM K} (h : TwinE env R e e') (a : String) :
    StepE env R e e' (parseOne kw e a).1 (parseOne kw' e' a).1 ∧ (parseOne kw' e' a).2 = (parseOne kw e a).2 := by
  have hn := parseOne_nnet kw e a
  have hn' := parseOne_nnet kw' e' a
  suffices TwinE env R (parseOne kw e a).1 (parseOne kw' e' a).1 ∧ (parseOne kw' e' a).2 = (parseOne kw e a).2 from
    ⟨⟨this.1, by rw [hn], by rw [hn']⟩, this.2⟩
  clear hn hn'
  have mk : ∀ c w r k, TwinE env R { e with classification := c, wc := w, rankingOP := r, kmaxOp := k }
      { e' with classification := c, wc := w, rankingOP := r, kmaxOp := k } := fun c w r k =>
    ⟨h.nnet, h.batch, h.prec, rfl, rfl, rfl, rfl⟩
  have he : e' = { e' with classification := e.classification, wc := e.wc, rankingOP := e.rankingOP, kmaxOp := e.kmaxOp } := by
    obtain ⟨n, b, p, ac, c, w, r, k⟩ := e'
    obtain ⟨_, _, _, h1, h2, h3, h4⟩ := h
    simp only at h1 h2 h3 h4
    subst h1 h2 h3 h4
    rfl
  rw [he]
  unfold parseOne
  simp only [hk, hw, h.nnet.outputs]
  split_ifs
  all_goals first
    | exact ⟨mk _ _ _ _, rfl⟩
    | (split
       · exact ⟨mk _ _ _ _, rfl⟩
       · split_ifs
         · exact ⟨mk _ _ _ _, rfl⟩
         · exact ⟨mk _ _ _ _, rfl⟩)

theorem twin_parseLoop {kw kw' : Kwargs K} (hk : kw'.kmax = kw.kmax) (hw : kw'.w = kw.w) (as : List String) {e e' : ELM K}
    (h : TwinE env R e e') :
    StepE env R e e' (parseLoop kw as e).1 (parseLoop kw' as e').1 ∧ (parseLoop kw' as e').2 = (parseLoop kw as e).2 := by
  induction as generalizing e e' with
  | nil => exact ⟨⟨h, rfl, rfl⟩, rfl⟩
  | cons a as ih =>
    obtain ⟨h1, h2⟩ := twin_parseOne hk hw h a
    unfold parseLoop
    cases hp : parseOne kw e a with
    | mk f r =>
      cases hp' : parseOne kw' e' a with
      | mk f' r' =>
        rw [hp, hp'] at h1 h2
        simp only at h1 h2
        subst h2
        cases r' with
        | error x => exact ⟨h1, rfl⟩
        | ok u =>
          obtain ⟨i1, i2⟩ := ih h1.1
          exact ⟨h1.trans i1, i2⟩

theorem twin_parseArgs {kw kw' : Kwargs K} (hk : kw'.kmax = kw.kmax) (hw : kw'.w = kw.w) (hb : kw'.batch = kw.batch) (args : List String)
    {e e' : ELM K} (h : TwinNets env R e.nnet e'.nnet) (h1 : e'.batch = e.batch) (h2 : e'.prec = e.prec) :
    (e'.parseArgs args kw').2 = (e.parseArgs args kw).2 ∧
      ((e.parseArgs args kw).2 = .ok () → StepE env R e e' (e.parseArgs args kw).1 (e'.parseArgs args kw').1) := by
  unfold ELM.parseArgs
  have hl : e'.nnet.neurons.isEmpty = e.nnet.neurons.isEmpty := by
    have := h.neurons.length_eq
    rw [Bool.eq_iff_iff, List.isEmpty_iff_length_eq_zero, List.isEmpty_iff_length_eq_zero, this]
  rw [hl]
  have ht : TwinE env R { e with nnet := e.nnet.reset, rankingOP := false, kmaxOp := none, classification := none, wc := none }
      { e' with nnet := e'.nnet.reset, rankingOP := false, kmaxOp := none, classification := none, wc := none } :=
    ⟨twin_reset h, h1, h2, rfl, rfl, rfl, rfl⟩
  obtain ⟨p1, p2⟩ := twin_parseLoop hk hw (args.map upper) ht
  simp only
  split_ifs
  · exact ⟨rfl, fun h => by cases h⟩
  · exact ⟨rfl, fun h => by cases h⟩
  · exact ⟨rfl, fun h => by cases h⟩
  · cases hp : parseLoop kw (args.map upper) { e with nnet := e.nnet.reset, rankingOP := false, kmaxOp := none, classification := none, wc := none } with
    | mk f r =>
      cases hp' : parseLoop kw' (args.map upper)
          { e' with nnet := e'.nnet.reset, rankingOP := false, kmaxOp := none, classification := none, wc := none } with
      | mk f' r' =>
        rw [hp, hp'] at p1 p2
        simp only at p1 p2
        subst p2
        cases r' with
        | error x => exact ⟨rfl, fun h => by cases h⟩
        | ok u =>
          refine ⟨rfl, fun _ => ?_⟩
          simp only [hb]
          cases kw.batch with
          | none => exact p1
          | some b => exact ⟨⟨p1.1.nnet, rfl, p1.1.prec, p1.1.classification, p1.1.wc, p1.1.rankingOP, p1.1.kmaxOp⟩, p1.2⟩

theorem twin_checkBoth {fs : Files K} {n n' : NNet K} (ho : n'.outputs = n.outputs) {X X' : Mat K} (hX : TwinData R n n' X X') (T : DataArg K) :
    RelE (fun p p' => p.1 = X ∧ p'.1 = X' ∧ p'.2 = p.2) (checkBoth fs n (.mat X) T) (checkBoth fs n' (.mat X') T) := by
  have hn : X'.nrows = X.nrows := hX.rows.length_eq.symm
  unfold checkBoth checkData
  have h1 : checkOne fs n.inputs (.mat X) = .ok (some X) := by
    unfold checkOne
    simp [hX.cols, pyAssert, pure, Except.pure, bind, Except.bind]
  have h2 : checkOne fs n'.inputs (.mat X') = .ok (some X') := by
    unfold checkOne
    simp [hX.cols', pyAssert, pure, Except.pure, bind, Except.bind]
  rw [h1, h2, ho]
  cases hT : checkOne fs n.outputs T with
  | error x => exact rfl
  | ok T =>
    cases T with
    | none => exact rfl
    | some T =>
      simp only [bind, Except.bind, hn]
      cases pyAssert (decide (X.nrows = T.nrows)) with
      | error x => exact rfl
      | ok u => exact ⟨rfl, rfl, rfl⟩

theorem twin_trainBody {fs : Files K} {rnd : Rnd} {kw kw' : Kwargs K} {e e' : ELM K} (h : TwinE env R e e') {X X' : Mat K}
    (hX : TwinData R e.nnet e'.nnet X X') (T : Mat K) (args : List String) (hk : kw'.k = kw.k) (ht : kw'.Tv = kw.Tv)
    (hv : TwinOpt R e.nnet e'.nnet kw.Xv kw'.Xv) :
    RelE (fun r r' => r'.1 = r.1 ∧ DoneE env R e e' r.2 r'.2) (e.trainBody env fs rnd X T args kw) (e'.trainBody env fs rnd X' T args kw') := by
  unfold ELM.trainBody
  rw [hk, ht]
  split_ifs
  · generalize hx : kw.Xv = v at hv
    generalize hx' : kw'.Xv = v' at hv
    cases hv with
    | none => exact rfl
    | some Xv Xv' hv =>
      cases kw.Tv with
      | none => exact rfl
      | some Tv =>
        refine RelE.bind (twin_checkBoth h.nnet.outputs hv Tv) ?_
        rintro ⟨A, B⟩ ⟨A', B'⟩ ⟨rfl, rfl, rfl⟩
        refine RelE.bind (twin_trainV h hX hv T _ _) fun r r' hr => ?_
        exact ⟨rfl, hr.1⟩
  · cases kw.k with
    | none => exact rfl
    | some k =>
      refine RelE.same fun _ => ?_
      refine RelE.bind (twin_trainCV h hX T _ _) fun r r' hr => ?_
      exact ⟨by rw [hr.2], hr.1⟩
  · refine RelE.bind (twin_trainLOO h hX T _) fun r r' hr => ?_
    exact ⟨rfl, hr.1⟩
  · refine RelE.bind (twin_addData h hX T) fun a b hs => ?_
    refine RelE.bind (twin_solve hs.1.nnet) ?_
    rintro n n' ⟨h1, i1, i2, hB⟩
    refine ⟨rfl, ⟨⟨h1, hs.1.batch, hs.1.prec, hs.1.classification, hs.1.wc, hs.1.rankingOP, hs.1.kmaxOp⟩, i1.trans hs.2.1, i2.trans hs.2.2⟩, hB⟩

theorem twin_predict {n n' : NNet K} (h : List.Forall₂ (TwinGroups env R) n.neurons n'.neurons) (hB : n'.B = n.B) {X X' : Mat K}
    (hX : TwinData R n n' X X') : n'.predict env X' = n.predict env X := by
  unfold NNet.predict
  rw [hB, twin_project h hX]

end Hpelm
