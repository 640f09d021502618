import Verif.Lemmas.Weights

/-! What training does not look at: old output weights, the batch size (up to exact arithmetic), the accelerator name. -/

set_option linter.unusedSectionVars false

namespace Hpelm
open Spec
variable {K : Type} [Field K] [LinearOrder K]

/-- Forget the output weights. -/
def NNet.noB (n : NNet K) : NNet K := { n with B := none }

/-- Forget output weights, batch size and accelerator name. -/
def ELM.core (e : ELM K) : ELM K := { e with batch := 0, accelerator := none, nnet := e.nnet.noB }

/-- Forget batch size and accelerator name. -/
def ELM.shell (e : ELM K) : ELM K := { e with batch := 0, accelerator := none }

theorem map_bind {α β γ : Type} (x : Except PyErr α) (f : α → Except PyErr β) (g : β → γ) :
    (x >>= f).map g = x >>= fun a => (f a).map g := by cases x <;> rfl

theorem bind_map {α β γ : Type} (x : Except PyErr α) (g : α → β) (f : β → Except PyErr γ) :
    (x.map g) >>= f = x >>= fun a => f (g a) := by cases x <;> rfl

theorem accum_noB (env : Env K) (n : NNet K) (H T : Mat K) (w) :
    (n.accum env H T w).map NNet.noB = n.noB.accum env H T w := by
  unfold NNet.accum
  rw [map_bind]
  have : n.noB.prec = n.prec := rfl
  rw [this]
  congr 1
  funext p
  obtain ⟨H', T'⟩ := p
  simp only
  have h1 : n.noB.outputs = n.outputs := rfl
  have h2 : n.noB.corr = n.corr := rfl
  have h3 : n.noB.L = n.L := rfl
  have h4 : n.noB.norm = n.norm := rfl
  rw [h1, h2, h3, h4]
  by_cases g1 : H'.nrows ≠ T'.nrows ∨ T'.cols ≠ n.outputs
  · rw [if_pos g1, if_pos g1]; rfl
  · rw [if_neg g1, if_neg g1]
    cases n.corr with
    | none =>
      simp only
      split <;> rfl
    | some c =>
      simp only
      split <;> rfl

theorem addBatch_noB (env : Env K) (n : NNet K) (X T : Mat K) (w) :
    (n.addBatch env X T w).map NNet.noB = n.noB.addBatch env X T w := by
  rw [addBatch_eq, addBatch_eq]
  have : n.noB.project env X = n.project env X := rfl
  rw [this]
  cases n.project env X with
  | error x => rfl
  | ok H => exact accum_noB env n H _ w

theorem feed_core (env : Env K) (ic oc : Nat) (bs : List (List (List K) × List (List K))) (e : ELM K) :
    (e.feed env ic oc bs).map ELM.core = e.core.feed env ic oc bs := by
  induction bs generalizing e with
  | nil => rfl
  | cons b bs ih =>
    obtain ⟨Xb, Tb⟩ := b
    unfold ELM.feed
    rw [map_bind]
    have h1 : e.core.classification = e.classification := rfl
    have h2 : e.core.wc = e.wc := rfl
    rw [h1, h2]
    congr 1
    funext w
    rw [map_bind]
    have h3 : e.core.nnet = e.nnet.noB := rfl
    rw [h3, ← addBatch_noB, bind_map]
    congr 1
    funext n
    rw [ih]
    rfl

theorem core_of_eq {e e' : ELM K} (h : e.core = e'.core) : e.classification = e'.classification ∧ e.wc = e'.wc ∧ e.prec = e'.prec ∧
    e.rankingOP = e'.rankingOP ∧ e.kmaxOp = e'.kmaxOp ∧ e.nnet.noB = e'.nnet.noB := by
  unfold ELM.core at h
  injection h with h1 h2 h3 h4 h5 h6 h7 h8
  exact ⟨h5, h6, h3, h7, h8, h1⟩

theorem autoWc_core (env : Env K) (e : ELM K) (ns) : (e.autoWc env ns).core = e.core.autoWc env ns := by
  unfold ELM.autoWc
  have h1 : e.core.classification = e.classification := rfl
  have h2 : e.core.wc = e.wc := rfl
  rw [h1, h2]
  split <;> rfl

/-- With the same batch size nothing else outside the core matters for `add_data`. -/
theorem addData_core_same {env : Env K} {e e' : ELM K} (X T : Mat K) (h : e.core = e'.core) (hb : e.batch = e'.batch) :
    (e.addData env X T).map ELM.core = (e'.addData env X T).map ELM.core := by
  unfold ELM.addData
  rw [hb]
  split
  · rfl
  · rw [map_bind, map_bind]
    congr 1; funext Xs
    rw [map_bind, map_bind]
    congr 1; funext Ts
    rw [feed_core, feed_core, autoWc_core, autoWc_core, h]

theorem addData_empty {env : Env K} {e : ELM K} {X T : Mat K} (hb : 0 < e.batch) (hn : X.nrows = 0) :
    e.addData env X T = .error .valueError := by
  unfold ELM.addData
  rw [if_neg (by omega), hn]
  have : ceilDiv ((0 : Nat) : Int) e.batch = 0 := ceilDiv_zero hb
  rw [this]
  rfl

/-- The weights after `autoWc` are fine for these targets (vacuous outside weighted mode). -/
def AutoOk (env : Env K) (e : ELM K) (T : Mat K) : Prop :=
  (e.classification = some "wc" → OneEach T.cols T.rows) ∧ WOk e.classification (e.autoWc env (colSums T)).wc T

theorem addData_wts {env : Env K} {e : ELM K} {X T : Mat K} (hb : 0 < e.batch) (hn : 0 < X.nrows) (hN : X.nrows = T.nrows)
    (h : AutoOk env e T) :
    e.addData env X T =
      (e.nnet.addBatch env X T (wts e.classification (e.autoWc env (colSums T)).wc T)).map
        fun n => { e.autoWc env (colSums T) with nnet := n } :=
  addData_eq env e X T hb hn hN h.1 (batchWeights_wts h.1 h.2)

theorem autoOk_core {env : Env K} {e e' : ELM K} {T : Mat K} (h : e.core = e'.core) (ha : AutoOk env e T) : AutoOk env e' T := by
  obtain ⟨h1, h2, h3, _⟩ := core_of_eq h
  have h4 : (e.autoWc env (colSums T)).wc = (e'.autoWc env (colSums T)).wc := by
    have := autoWc_core env e (colSums T)
    rw [h, ← autoWc_core] at this
    exact (core_of_eq this).2.1
  unfold AutoOk
  rw [← h1, ← h4]
  exact ha

/-- `add_data` gives the same matrices for any two batch sizes. -/
theorem addData_core {env : Env K} {e e' : ELM K} {X T : Mat K} (h : e.core = e'.core) (hb : 0 < e.batch) (hb' : 0 < e'.batch)
    (hN : X.nrows = T.nrows) (ha : AutoOk env e T) :
    (e.addData env X T).map ELM.core = (e'.addData env X T).map ELM.core := by
  by_cases hn : X.nrows = 0
  · rw [addData_empty hb hn, addData_empty hb' hn]
  · have hn' : 0 < X.nrows := Nat.pos_of_ne_zero hn
    rw [addData_wts hb hn' hN ha, addData_wts hb' hn' hN (autoOk_core h ha)]
    obtain ⟨h1, h2, h3, h4, h5, h6⟩ := core_of_eq h
    have h7 : (e.autoWc env (colSums T)).core = (e'.autoWc env (colSums T)).core := by rw [autoWc_core, autoWc_core, h]
    have h8 : (e.autoWc env (colSums T)).wc = (e'.autoWc env (colSums T)).wc := (core_of_eq h7).2.1
    have key : ∀ (x : ELM K) (r : Except PyErr (NNet K)),
        (r.map fun n => { x with nnet := n }).map ELM.core = (r.map NNet.noB).map fun n => { x.core with nnet := n } := by
      intro x r; cases r <;> rfl
    rw [key, key, addBatch_noB, addBatch_noB, h1, h8, h6, h7]

theorem refit_core (env : Env K) (e : ELM K) (best : List Nat) (X T : Mat K) :
    (e.refit env best X T).map ELM.shell = (e.core.refit env best X T).map ELM.shell := by
  unfold ELM.refit
  rw [map_bind, map_bind]
  congr 1; funext n
  rw [map_bind, map_bind]
  congr 1

theorem refit_congr {env : Env K} {e e' : ELM K} (h : e.core = e'.core) (best : List Nat) (X T : Mat K) :
    (e.refit env best X T).map ELM.shell = (e'.refit env best X T).map ELM.shell := by
  rw [refit_core, h, ← refit_core]

/-- What `train_v` does after accumulating the data. -/
def trainVrest (env : Env K) (shuffled : List Nat) (e : ELM K) (X T Xv Tv : Mat K) :
    Except PyErr (ELM K × Nat × List K) := do
  let (HH, HT) ← e.nnet.getCorr!
  let B := e.nnet.solveCorr env HH HT
  let Hv ← e.nnet.project env Xv
  let L0 := e.nnet.L.getD 0
  let (rank, L) ← e.ranking env shuffled L0 Hv Tv
  let err ← elmError e.classification e.wc Tv (Hv.mul B)
  let penalty ← penaltyOf err L
  let score (idx : Nat) : Except PyErr K := do
    let s ← scoreV env e HH HT Hv Tv (rank.take idx)
    pure (s + idx * penalty)
  let (kopt, errs) ← myopt 1 L (errArray L0 L (err + L * penalty)) score
  let e ← e.refit env (rank.take kopt) X T
  pure (e, kopt, errs)

theorem trainV_eq (env : Env K) (sh) (e : ELM K) (X T Xv Tv : Mat K) :
    trainV env sh e X T Xv Tv = e.addData env X T >>= fun e => trainVrest env sh e X T Xv Tv := rfl

/-- What `train_loo` does after accumulating the data. -/
def trainLOOrest (env : Env K) (shuffled : List Nat) (H : Mat K) (e : ELM K) (X T : Mat K) :
    Except PyErr (ELM K × Nat × List K) := do
  let (HH, HT) ← e.nnet.getCorr!
  let L0 := e.nnet.L.getD 0
  let (rank, L) ← e.ranking env shuffled L0 H T
  let err ← scoreLOO env e HH HT H T
  let penalty ← penaltyOf err L
  let score (idx : Nat) : Except PyErr K := do
    let rank1 := rank.take idx
    let s ← scoreLOO env e (subSquare HH rank1) (HT.selRows rank1) (H.selCols rank1) T
    pure (s + idx * penalty)
  let (kopt, errs) ← myopt 1 L (errArray L0 L (err + L * penalty)) score
  let e ← e.refit env (rank.take kopt) X T
  pure (e, kopt, errs)

theorem trainLOO_eq (env : Env K) (sh) (e : ELM K) (X T : Mat K) :
    trainLOO env sh e X T = e.nnet.project env X >>= fun H => e.addData env X T >>= fun e => trainLOOrest env sh H e X T := rfl

/-- Apply `shell` to the model in a selection result. -/
def shell3 {β : Type} (r : ELM K × β) : ELM K × β := (r.1.shell, r.2)

theorem map_refit3 {env : Env K} {e e' : ELM K} {β : Type} (h : (e.refit env best X T).map ELM.shell = (e'.refit env best X T).map ELM.shell)
    (b : β) : (e.refit env best X T >>= fun e => (pure (e, b) : Except PyErr (ELM K × β))).map shell3 =
      (e'.refit env best X T >>= fun e => (pure (e, b) : Except PyErr (ELM K × β))).map shell3 := by
  have key : ∀ r : Except PyErr (ELM K), (r >>= fun e => (pure (e, b) : Except PyErr (ELM K × β))).map shell3
      = (r.map ELM.shell).map fun e => (e, b) := by intro r; cases r <;> rfl
  rw [key, key, h]

theorem trainVrest_core (env : Env K) (sh) (e : ELM K) (X T Xv Tv : Mat K) :
    (trainVrest env sh e X T Xv Tv).map shell3 = (trainVrest env sh e.core X T Xv Tv).map shell3 := by
  unfold trainVrest
  rw [map_bind, map_bind]
  congr 1; funext ⟨HH, HT⟩
  simp only
  rw [map_bind, map_bind]
  congr 1; funext Hv
  rw [map_bind, map_bind]
  congr 1; funext ⟨rank, L⟩
  simp only
  rw [map_bind, map_bind]
  congr 1; funext err
  rw [map_bind, map_bind]
  congr 1; funext pen
  rw [map_bind, map_bind]
  congr 1; funext ⟨kopt, errs⟩
  simp only
  exact map_refit3 (refit_core _ _ _ _ _) _

theorem trainLOOrest_core (env : Env K) (sh) (H : Mat K) (e : ELM K) (X T : Mat K) :
    (trainLOOrest env sh H e X T).map shell3 = (trainLOOrest env sh H e.core X T).map shell3 := by
  unfold trainLOOrest
  rw [map_bind, map_bind]
  congr 1; funext ⟨HH, HT⟩
  simp only
  rw [map_bind, map_bind]
  congr 1; funext ⟨rank, L⟩
  simp only
  rw [map_bind, map_bind]
  congr 1; funext err
  rw [map_bind, map_bind]
  congr 1; funext pen
  rw [map_bind, map_bind]
  congr 1; funext ⟨kopt, errs⟩
  simp only
  exact map_refit3 (refit_core _ _ _ _ _) _

theorem trainCV_core (env : Env K) (sh) (e : ELM K) (X T : Mat K) (k : Nat) :
    (trainCV env sh e X T k).map shell3 = (trainCV env sh e.core X T k).map shell3 := by
  unfold trainCV
  have hf : (fun i => cvFold env (sh i) e X T k i) = fun i => cvFold env (sh i) e.core X T k i := by
    funext i
    unfold cvFold
    have : e.core.nnet.reset = e.nnet.reset.noB := rfl
    rw [this]
    simp only
    rw [← addBatch_noB, bind_map]
    congr 1
  rw [hf, map_bind, map_bind]
  congr 1; funext datak
  simp only
  rw [map_bind, map_bind]
  congr 1; funext err
  rw [map_bind, map_bind]
  congr 1; funext pen
  rw [map_bind, map_bind]
  congr 1; funext ⟨kopt, errs⟩
  simp only
  rw [map_bind, map_bind]
  congr 1; funext errT
  exact map_refit3 (refit_core _ _ _ _ _) _

theorem bind_congr_core {α β : Type} {x x' : Except PyErr (ELM K)} {f : ELM K → Except PyErr α} {g : α → β}
    (h : x.map ELM.core = x'.map ELM.core) (hf : ∀ e, (f e).map g = (f e.core).map g) :
    (x >>= f).map g = (x' >>= f).map g := by
  have key : ∀ y : Except PyErr (ELM K), (y >>= f).map g = (y.map ELM.core >>= fun e => (f e).map g) := by
    intro y
    cases y with
    | error e => rfl
    | ok e => exact hf e
  rw [key, key, h]

/-- Training looks only at the core, provided the data accumulates to the same matrices. -/
theorem trainBody_core {env : Env K} {fs rnd} {e e' : ELM K} {X T : Mat K} {args kw}
    (h : e.core = e'.core) (ha : (e.addData env X T).map ELM.core = (e'.addData env X T).map ELM.core) :
    (e.trainBody env fs rnd X T args kw).map (fun r => (r.1, r.2.shell)) =
      (e'.trainBody env fs rnd X T args kw).map (fun r => (r.1, r.2.shell)) := by
  obtain ⟨h1, h2, h3, h4, h5, h6⟩ := core_of_eq h
  unfold ELM.trainBody
  have key : ∀ {β γ : Type} (r : Except PyErr (ELM K × β)) (f : β → Option K),
      (r >>= fun r => (pure (f r.2, r.1) : Except PyErr (Option K × ELM K))).map (fun r => (r.1, r.2.shell))
        = (r.map shell3).map fun r => (f r.2, r.1) := by
    intro β γ r f; cases r <;> rfl
  split
  · cases kw.Xv with
    | none => rfl
    | some Xv =>
      cases kw.Tv with
      | none => rfl
      | some Tv =>
        simp only
        have hc : checkBoth fs e.nnet Xv Tv = checkBoth fs e'.nnet Xv Tv := by
          have : ∀ x : NNet K, checkBoth fs x Xv Tv = checkBoth fs x.noB Xv Tv := fun _ => rfl
          rw [this e.nnet, this e'.nnet, h6]
        rw [hc, map_bind, map_bind]
        congr 1; funext ⟨xv, tv⟩
        simp only
        refine (key (γ := Unit) _ (fun _ => none)).trans ?_
        refine Eq.trans ?_ (key (γ := Unit) _ (fun _ => none)).symm
        rw [trainV_eq, trainV_eq]
        rw [bind_congr_core ha (fun x => trainVrest_core env _ x X T xv tv)]
  · split
    · cases kw.k with
      | none => rfl
      | some k =>
        simp only
        refine (map_bind _ _ _).trans (Eq.trans ?_ (map_bind _ _ _).symm)
        congr 1; funext _
        refine (key (γ := Unit) _ (fun b : K × Nat × List K => some b.1)).trans ?_
        refine Eq.trans ?_ (key (γ := Unit) _ (fun b : K × Nat × List K => some b.1)).symm
        rw [trainCV_core, trainCV_core env _ e', h]
    · split
      · refine (key (γ := Unit) _ (fun _ => none)).trans ?_
        refine Eq.trans ?_ (key (γ := Unit) _ (fun _ => none)).symm
        rw [trainLOO_eq, trainLOO_eq]
        have hp : e.nnet.project env X = e'.nnet.project env X := by
          have : ∀ x : NNet K, x.project env X = x.noB.project env X := fun _ => rfl
          rw [this e.nnet, this e'.nnet, h6]
        rw [hp]
        cases e'.nnet.project env X with
        | error x => rfl
        | ok H =>
          show Except.map _ (Except.map _ (e.addData env X T >>= fun e => trainLOOrest env _ H e X T)) =
            Except.map _ (Except.map _ (e'.addData env X T >>= fun e => trainLOOrest env _ H e X T))
          rw [bind_congr_core ha (fun x => trainLOOrest_core env _ H x X T)]
      · apply bind_congr_core ha
        intro x
        rw [map_bind, map_bind]
        have : ∀ x : ELM K, x.nnet.solve env >>= (fun n => ((pure (none, { x with nnet := n }) : Except PyErr (Option K × ELM K))).map
            fun r => (r.1, r.2.shell)) = match x.nnet.corr with
              | none => .error .typeError
              | some (HH, HT) => .ok (none, { x.shell with nnet := { x.nnet with B := some (x.nnet.solveCorr env HH HT) } }) := by
          intro x
          unfold NNet.solve
          rcases hc : x.nnet.corr with _ | ⟨HH, HT⟩
          · rfl
          · simp only [hc]; rfl
        rw [this, this]
        have : x.core.nnet.corr = x.nnet.corr := rfl
        rw [this]
        rcases hc : x.nnet.corr with _ | ⟨HH, HT⟩
        · rfl
        · rfl

/-- After argument parsing: weights are absent or given with one entry per output, weighted mode was asked for. -/
theorem parseOne_wc (kw : Kwargs K) (e : ELM K) (a : String) (P : Prop) (hP : a = "WC" → P)
    (h1 : e.classification = some "wc" → P)
    (h2 : e.wc = none ∨ ∃ ws : List K, e.wc = some (ws.map some) ∧ ws.length = e.nnet.outputs) :
    ((parseOne kw e a).1.classification = some "wc" → P) ∧
    ((parseOne kw e a).1.wc = none ∨ ∃ ws : List K, (parseOne kw e a).1.wc = some (ws.map some) ∧ ws.length = e.nnet.outputs) := by
  unfold parseOne
  split
  · exact ⟨h1, h2⟩
  split
  · split
    · exact ⟨by simp, h2⟩
    · exact ⟨h1, h2⟩
  split
  · rename_i ha
    split
    · simp only
      split
      · exact ⟨fun _ => hP ha, h2⟩
      · split
        · rename_i hl
          exact ⟨fun _ => hP ha, Or.inr ⟨_, rfl, hl⟩⟩
        · exact ⟨fun _ => hP ha, h2⟩
    · exact ⟨h1, h2⟩
  split
  · split
    · exact ⟨by simp, h2⟩
    · exact ⟨h1, h2⟩
  split
  · exact ⟨by simp, h2⟩
  · exact ⟨h1, h2⟩

theorem parseLoop_wc (kw : Kwargs K) (as : List String) (e : ELM K) (P : Prop) (hP : "WC" ∈ as → P)
    (h1 : e.classification = some "wc" → P)
    (h2 : e.wc = none ∨ ∃ ws : List K, e.wc = some (ws.map some) ∧ ws.length = e.nnet.outputs) :
    ((parseLoop kw as e).1.classification = some "wc" → P) ∧
    ((parseLoop kw as e).1.wc = none ∨ ∃ ws : List K, (parseLoop kw as e).1.wc = some (ws.map some) ∧ ws.length = e.nnet.outputs) := by
  induction as generalizing e with
  | nil => exact ⟨h1, h2⟩
  | cons a as ih =>
    unfold parseLoop
    have h3 := parseOne_wc kw e a P (fun h => hP (by rw [h]; exact List.mem_cons_self)) h1 h2
    have h4 := parseOne_nnet kw e a
    split
    · rename_i e' x heq; rw [heq] at h3; exact h3
    · rename_i e' heq
      rw [heq] at h3 h4
      simp only at h3 h4
      rw [← h4] at h3 ⊢
      exact ih e' (fun h => hP (List.mem_cons_of_mem _ h)) h3.1 h3.2

theorem parseArgs_wc {kw : Kwargs K} {args : List String} {e e1 : ELM K} (h : e.parseArgs args kw = (e1, .ok ())) :
    (e1.classification = some "wc" → "WC" ∈ args.map upper) ∧
    (e1.wc = none ∨ ∃ ws : List K, e1.wc = some (ws.map some) ∧ ws.length = e.nnet.outputs) := by
  unfold ELM.parseArgs at h
  split at h
  · cases h
  simp only at h
  split at h
  · cases h
  split at h
  · cases h
  have := parseLoop_wc kw (args.map upper)
    { e with nnet := e.nnet.reset, rankingOP := false, kmaxOp := none, classification := none, wc := none }
    ("WC" ∈ args.map upper) id (by simp) (Or.inl rfl)
  split at h
  · cases h
  · rename_i e' heq
    rw [heq] at this
    injection h with h _
    rw [← h]
    cases kw.batch <;> exact this

theorem checkBoth_ok {fs : Files K} {n : NNet K} {X T : DataArg K} {X' T' : Mat K} (h : checkBoth fs n X T = .ok (X', T')) :
    X'.cols = n.inputs ∧ T'.cols = n.outputs ∧ X'.nrows = T'.nrows := by
  unfold checkBoth at h
  obtain ⟨⟨a, b⟩, h1, h⟩ := bind_ok h
  have one : ∀ {c : Nat} {A : DataArg K} {M : Mat K}, checkOne fs c A = .ok (some M) → M.cols = c := by
    intro c A M h
    unfold checkOne at h
    cases A with
    | absent => cases h
    | nonNumeric => cases h
    | otherDim => cases h
    | vec v =>
      obtain ⟨_, h0, h⟩ := bind_ok h
      injection h0 with h0; subst h0
      obtain ⟨_, h1, h⟩ := bind_ok h
      have h1 := of_decide_eq_true (pyAssert_ok h1)
      injection h with h; injection h with h; rw [← h]; exact h1
    | mat A =>
      obtain ⟨_, h0, h⟩ := bind_ok h
      injection h0 with h0; subst h0
      obtain ⟨_, h1, h⟩ := bind_ok h
      have h1 := of_decide_eq_true (pyAssert_ok h1)
      injection h with h; injection h with h; rw [← h]; exact h1
    | path f =>
      simp only at h
      split at h
      · cases h
      · split at h
        · cases h
        · obtain ⟨_, h0, h⟩ := bind_ok h
          injection h0 with h0; subst h0
          obtain ⟨_, h1, h⟩ := bind_ok h
          have h1 := of_decide_eq_true (pyAssert_ok h1)
          injection h with h; injection h with h; rw [← h]; exact h1
  cases a with
  | none => cases h
  | some a =>
    cases b with
    | none => cases h
    | some b =>
      injection h with h
      injection h with ha hb
      unfold checkData at h1
      obtain ⟨X1, c1, h1⟩ := bind_ok h1
      obtain ⟨T1, c2, h1⟩ := bind_ok h1
      cases X1 with
      | none =>
        cases T1 <;> (injection h1 with h1; cases h1)
      | some X1 =>
        cases T1 with
        | none => injection h1 with h1; cases h1
        | some T1 =>
          simp only at h1
          obtain ⟨_, c3, h1⟩ := bind_ok h1
          injection h1 with h1
          injection h1 with h1 h2
          injection h1 with h1
          injection h2 with h2
          have c3 := of_decide_eq_true (pyAssert_ok c3)
          rw [← ha, ← hb, ← h1, ← h2]
          exact ⟨one c1, one c2, c3⟩

theorem addData_bcls {env : Env K} {e e' : ELM K} {X T : Mat K} (h : e.addData env X T = .ok e') :
    e'.batch = e.batch ∧ e'.classification = e.classification := by
  obtain ⟨c, rfl⟩ := addData_fields h
  exact ⟨autoWc_batch env e _, autoWc_cls env e _⟩

theorem refit_bcls {env : Env K} {e e' : ELM K} {best : List Nat} {X T : Mat K}
    (h : e.refit env best X T = .ok e') : e'.batch = e.batch ∧ e'.classification = e.classification := by
  unfold ELM.refit at h
  obtain ⟨n1, h1, h⟩ := bind_ok h
  obtain ⟨n2, h2, h⟩ := bind_ok h
  simp only [pure, Except.pure] at h
  injection h with h
  rw [← h]
  exact ⟨rfl, rfl⟩

theorem trainV_bcls {env : Env K} {sh} {e : ELM K} {X T Xv Tv : Mat K} {r}
    (h : trainV env sh e X T Xv Tv = .ok r) : r.1.batch = e.batch ∧ r.1.classification = e.classification := by
  unfold trainV at h
  obtain ⟨e1, h1, h⟩ := bind_ok h
  obtain ⟨_, _, h⟩ := bind_ok h
  obtain ⟨_, _, h⟩ := bind_ok h
  obtain ⟨_, _, h⟩ := bind_ok h
  obtain ⟨_, _, h⟩ := bind_ok h
  obtain ⟨_, _, h⟩ := bind_ok h
  obtain ⟨_, _, h⟩ := bind_ok h
  obtain ⟨e2, h2, h⟩ := bind_ok h
  simp only [pure, Except.pure] at h
  injection h with h
  rw [← h]
  exact ⟨(refit_bcls h2).1.trans (addData_bcls h1).1, (refit_bcls h2).2.trans (addData_bcls h1).2⟩

theorem trainLOO_bcls {env : Env K} {sh} {e : ELM K} {X T : Mat K} {r}
    (h : trainLOO env sh e X T = .ok r) : r.1.batch = e.batch ∧ r.1.classification = e.classification := by
  unfold trainLOO at h
  obtain ⟨_, _, h⟩ := bind_ok h
  obtain ⟨e1, h1, h⟩ := bind_ok h
  obtain ⟨_, _, h⟩ := bind_ok h
  obtain ⟨_, _, h⟩ := bind_ok h
  obtain ⟨_, _, h⟩ := bind_ok h
  obtain ⟨_, _, h⟩ := bind_ok h
  obtain ⟨_, _, h⟩ := bind_ok h
  obtain ⟨e2, h2, h⟩ := bind_ok h
  simp only [pure, Except.pure] at h
  injection h with h
  rw [← h]
  exact ⟨(refit_bcls h2).1.trans (addData_bcls h1).1, (refit_bcls h2).2.trans (addData_bcls h1).2⟩

theorem trainCV_bcls {env : Env K} {sh} {e : ELM K} {X T : Mat K} {k} {r}
    (h : trainCV env sh e X T k = .ok r) : r.1.batch = e.batch ∧ r.1.classification = e.classification := by
  unfold trainCV at h
  obtain ⟨_, _, h⟩ := bind_ok h
  obtain ⟨_, _, h⟩ := bind_ok h
  obtain ⟨_, _, h⟩ := bind_ok h
  obtain ⟨_, _, h⟩ := bind_ok h
  obtain ⟨_, _, h⟩ := bind_ok h
  obtain ⟨e2, h2, h⟩ := bind_ok h
  simp only [pure, Except.pure] at h
  injection h with h
  rw [← h]
  exact refit_bcls h2

theorem trainBody_bcls {env : Env K} {fs rnd} {e : ELM K} {X T : Mat K} {args kw r}
    (h : e.trainBody env fs rnd X T args kw = .ok r) : r.2.batch = e.batch ∧ r.2.classification = e.classification := by
  unfold ELM.trainBody at h
  split at h
  · split at h
    · obtain ⟨_, _, h⟩ := bind_ok h
      obtain ⟨r', hr, h⟩ := bind_ok h
      simp only [pure, Except.pure] at h
      injection h with h
      rw [← h]
      exact trainV_bcls hr
    · cases h
  split at h
  · split at h
    · cases h
    · obtain ⟨_, _, h⟩ := bind_ok h
      obtain ⟨r', hr, h⟩ := bind_ok h
      simp only [pure, Except.pure] at h
      injection h with h
      rw [← h]
      exact trainCV_bcls hr
  split at h
  · obtain ⟨r', hr, h⟩ := bind_ok h
    simp only [pure, Except.pure] at h
    injection h with h
    rw [← h]
    exact trainLOO_bcls hr
  · obtain ⟨e1, h1, h⟩ := bind_ok h
    obtain ⟨n1, h2, h⟩ := bind_ok h
    simp only [pure, Except.pure] at h
    injection h with h
    rw [← h]
    have h3 := addData_bcls h1; exact ⟨h3.1, h3.2⟩

theorem trainBody_batch {env : Env K} {fs rnd} {e : ELM K} {X T : Mat K} {args kw r}
    (h : e.trainBody env fs rnd X T args kw = .ok r) : r.2.batch = e.batch := (trainBody_bcls h).1

end Hpelm
