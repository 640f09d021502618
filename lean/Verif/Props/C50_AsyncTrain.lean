import Verif.Lemmas.Async
import Verif.Props.C42_C45_OutOfMemory

/-! # C50 asynchronous training -/

set_option linter.unusedSectionVars false

namespace Hpelm.Props
open Spec

variable {K σ : Type} [Field K] [LinearOrder K]

/-! ## Any interleaving of the three processes -/

/-- Batch `j` of the inputs. -/
def xBatch (c : TCtx K σ) (j : Nat) : List (List K) := pySlice c.X.rows (c.bounds j).1 (c.bounds j).2

/-- Batch `j` of the targets. -/
def tBatch (c : TCtx K σ) (j : Nat) : List (List K) := pySlice c.T.rows (c.bounds j).1 (c.bounds j).2

/-- The model after the first `j` batches, fed in order. -/
def fedN (c : TCtx K σ) (m : σ) (j : Nat) : Except PyErr σ := ((List.range j).map fun i => (xBatch c i, tBatch c i)).foldlM c.feed m

theorem fedN_succ (c : TCtx K σ) (m : σ) (j : Nat) : fedN c m (j + 1) = (fedN c m j).bind fun m' => c.feed m' (xBatch c j, tBatch c j) := by
  unfold fedN
  rw [List.range_succ, List.map_append, List.foldlM_append]
  simp only [List.map_singleton, List.foldlM_cons, List.foldlM_nil, bind_pure]
  rfl

theorem fedN_error {c : TCtx K σ} {m : σ} {x : PyErr} {j : Nat} (h : fedN c m j = .error x) : ∀ k, fedN c m (j + k) = .error x
  | 0 => h
  | k + 1 => by rw [← Nat.add_assoc, fedN_succ, fedN_error h k]; rfl

/-- How far the main process is. -/
def TMainRel (c : TCtx K σ) (m : σ) (s : TState K σ) (pX gX pT gT : Nat) : Prop :=
  match s.main with
  | .loop b => pX = b ∧ gX = b - 1 ∧ pT = b ∧ gT = b - 1 ∧ fedN c m (b - 1) = .ok s.model ∧ b ≤ c.nb.toNat + 1
  | .putT b => pX = b + 1 ∧ gX = b - 1 ∧ pT = b ∧ gT = b - 1 ∧ fedN c m (b - 1) = .ok s.model ∧ b ≤ c.nb.toNat
  | .getX b => pX = b + 1 ∧ gX = b - 1 ∧ pT = b + 1 ∧ gT = b - 1 ∧ fedN c m (b - 1) = .ok s.model ∧ 1 ≤ b ∧ b ≤ c.nb.toNat
  | .getT b => pX = b + 1 ∧ gX = b ∧ pT = b + 1 ∧ gT = b - 1 ∧ fedN c m (b - 1) = .ok s.model ∧ 1 ≤ b ∧ b ≤ c.nb.toNat ∧ s.xb = xBatch c (b - 1)
  | .joinX => pX = c.nb.toNat + 1 ∧ gX = c.nb.toNat ∧ pT = c.nb.toNat + 1 ∧ gT = c.nb.toNat ∧ fedN c m c.nb.toNat = .ok s.model
  | .joinT => pT = c.nb.toNat + 1 ∧ gT = c.nb.toNat ∧ fedN c m c.nb.toNat = .ok s.model ∧ s.readX = .done
  | .done => fedN c m c.nb.toNat = .ok s.model ∧ s.readX = .done ∧ s.readT = .done
  | .failed x => ∃ j < c.nb.toNat, fedN c m (j + 1) = .error x

/-- The invariant of all reachable states. -/
def TInv (c : TCtx K σ) (m : σ) (s : TState K σ) : Prop :=
  ∃ pX gX pT gT, RInv c.bounds (xBatch c) c.nb.toNat s.readX s.qXin s.qXout pX gX ∧
    RInv c.bounds (tBatch c) c.nb.toNat s.readT s.qTin s.qTout pT gT ∧ TMainRel c m s pX gX pT gT

/-- The requests of a call: proper batches followed by the request to stop. -/
def GoodBounds (bounds : Nat → Int × Int) (nb : Nat) : Prop :=
  (∀ j < nb, (bounds j).1 < (bounds j).2) ∧ (bounds nb).2 ≤ (bounds nb).1

theorem tinv_init (c : TCtx K σ) (m : σ) : TInv c m (TState.init m) :=
  ⟨0, 0, 0, 0, rinv_init, rinv_init, rfl, rfl, rfl, rfl, rfl, by omega⟩

theorem tinv_step {c : TCtx K σ} {m : σ} (h0 : 0 ≤ c.nb) (hb : GoodBounds c.bounds c.nb.toNat) {s t : TState K σ} (h : TInv c m s) (hs : TStep c s t) :
    TInv c m t := by
  obtain ⟨pX, gX, pT, gT, hX, hT, hm⟩ := h
  unfold TMainRel at hm
  cases hs with
  | mainPutX b e hb' =>
    simp only [e] at hm
    obtain ⟨rfl, rfl, rfl, rfl, m5, m6⟩ := hm
    exact ⟨_, _, _, _, rinv_ask hX (by omega), hT, by simp only [TMainRel]; exact ⟨trivial, trivial, trivial, trivial, m5, by omega⟩⟩
  | mainPutT b e =>
    simp only [e] at hm
    obtain ⟨rfl, rfl, rfl, rfl, m5, m6⟩ := hm
    refine ⟨_, _, _, _, hX, rinv_ask hT (by omega), ?_⟩
    by_cases hz : pT = 0
    · subst hz
      simp only [TMainRel, if_true]
      exact ⟨trivial, trivial, trivial, trivial, m5, by omega⟩
    · simp only [TMainRel, hz, if_false]
      exact ⟨trivial, trivial, trivial, trivial, m5, by omega, m6⟩
  | mainExit b e hb' =>
    simp only [e] at hm
    obtain ⟨rfl, rfl, rfl, rfl, m5, m6⟩ := hm
    have : pT = c.nb.toNat + 1 := by omega
    subst this
    exact ⟨_, _, _, _, hX, hT, rfl, rfl, rfl, rfl, m5⟩
  | mainGetX b x q e hq =>
    simp only [e] at hm
    obtain ⟨rfl, rfl, rfl, rfl, m5, m6, m7⟩ := hm
    rw [hq] at hX
    obtain ⟨r1, r2, r3⟩ := rinv_take hX
    refine ⟨_, _, _, _, r3, hT, ?_⟩
    simp only [TMainRel]
    exact ⟨trivial, by omega, trivial, trivial, m5, m6, m7, r1⟩
  | mainGetT b x q m' e hq hf =>
    simp only [e] at hm
    obtain ⟨rfl, rfl, rfl, rfl, m5, m6, m7, m8⟩ := hm
    rw [hq] at hT
    obtain ⟨r1, r2, r3⟩ := rinv_take hT
    refine ⟨_, _, _, _, hX, r3, ?_⟩
    simp only [TMainRel]
    refine ⟨trivial, by omega, trivial, by omega, ?_, by omega⟩
    have e1 : gX + 1 - 1 = (gX - 1) + 1 := by omega
    rw [e1, fedN_succ, m5]
    simp only [Except.bind]
    rw [← m8, ← r1]
    exact hf
  | mainFail b x q y e hq hf =>
    simp only [e] at hm
    obtain ⟨rfl, rfl, rfl, rfl, m5, m6, m7, m8⟩ := hm
    rw [hq] at hT
    obtain ⟨r1, r2, r3⟩ := rinv_take hT
    refine ⟨_, _, _, _, hX, r3, gX - 1, by omega, ?_⟩
    rw [fedN_succ, m5]
    simp only [Except.bind]
    rw [← m8, ← r1]
    exact hf
  | mainJoinX e hr =>
    simp only [e] at hm
    obtain ⟨rfl, rfl, rfl, rfl, m5⟩ := hm
    exact ⟨_, _, _, _, hX, hT, rfl, rfl, m5, hr⟩
  | mainJoinT e hr =>
    simp only [e] at hm
    obtain ⟨rfl, rfl, m5, m6⟩ := hm
    exact ⟨_, _, _, _, hX, hT, m5, m6, hr⟩
  | readXGet r q e hq hr =>
    rw [hq, e] at hX
    obtain ⟨j, j1, j2, j3⟩ := rinv_get hb.2 hX hr
    refine ⟨pX, gX, pT, gT, ?_, hT, ?_⟩
    · simp only; rw [j2]; exact j3
    · unfold TMainRel
      simp only
      split at hm <;> first | exact hm | (exfalso; simp_all; done)
  | readXStop r q e hq hr =>
    rw [hq, e] at hX
    refine ⟨pX, gX, pT, gT, rinv_stop hb.1 hX hr, hT, ?_⟩
    unfold TMainRel
    simp only
    split at hm <;> first | exact hm | (exfalso; simp_all; done)
  | readXPut v e hq =>
    rw [hq, e] at hX
    refine ⟨pX, gX, pT, gT, rinv_put hX, hT, ?_⟩
    unfold TMainRel
    simp only
    split at hm <;> first | exact hm | (exfalso; simp_all; done)
  | readTGet r q e hq hr =>
    rw [hq, e] at hT
    obtain ⟨j, j1, j2, j3⟩ := rinv_get hb.2 hT hr
    refine ⟨pX, gX, pT, gT, hX, ?_, ?_⟩
    · simp only; rw [j2]; exact j3
    · unfold TMainRel
      simp only
      split at hm <;> first | exact hm | (exfalso; simp_all; done)
  | readTStop r q e hq hr =>
    rw [hq, e] at hT
    refine ⟨pX, gX, pT, gT, hX, rinv_stop hb.1 hT hr, ?_⟩
    unfold TMainRel
    simp only
    split at hm <;> first | exact hm | (exfalso; simp_all; done)
  | readTPut v e hq =>
    rw [hq, e] at hT
    refine ⟨pX, gX, pT, gT, hX, rinv_put hT, ?_⟩
    unfold TMainRel
    simp only
    split at hm <;> first | exact hm | (exfalso; simp_all; done)

theorem tinv_run {c : TCtx K σ} {m : σ} (h0 : 0 ≤ c.nb) (hb : GoodBounds c.bounds c.nb.toNat) {s : TState K σ}
    (h : Relation.ReflTransGen (TStep c) (TState.init m) s) : TInv c m s := by
  induction h with
  | refl => exact tinv_init c m
  | tail _ hs ih => exact tinv_step h0 hb ih hs

/-- No reachable state is stuck before the end. -/
theorem tinv_progress {c : TCtx K σ} {m : σ} (h0 : 0 ≤ c.nb) {s : TState K σ} (h : TInv c m s) :
    s.main = .done ∨ (∃ x, s.main = .failed x) ∨ ∃ t, TStep c s t := by
  obtain ⟨pX, gX, pT, gT, hX, hT, hm⟩ := h
  unfold TMainRel at hm
  have goX : (s.readX = .idle ∧ ∃ b q, s.qXin = b :: q) → ∃ t, TStep c s t := by
    rintro ⟨e, b, q, hq⟩
    rcases lt_or_ge b.1 b.2 with hlt | hge
    · exact ⟨_, .readXGet s b q e hq hlt⟩
    · exact ⟨_, .readXStop s b q e hq hge⟩
  have goT : (s.readT = .idle ∧ ∃ b q, s.qTin = b :: q) → ∃ t, TStep c s t := by
    rintro ⟨e, b, q, hq⟩
    rcases lt_or_ge b.1 b.2 with hlt | hge
    · exact ⟨_, .readTGet s b q e hq hlt⟩
    · exact ⟨_, .readTStop s b q e hq hge⟩
  cases e : s.main with
  | done => exact Or.inl rfl
  | failed x => exact Or.inr (Or.inl ⟨x, rfl⟩)
  | loop b =>
    refine Or.inr (Or.inr ?_)
    rcases le_or_gt (b : Int) c.nb with hle | hgt
    · exact ⟨_, .mainPutX s b e hle⟩
    · exact ⟨_, .mainExit s b e hgt⟩
  | putT b => exact Or.inr (Or.inr ⟨_, .mainPutT s b e⟩)
  | getX b =>
    simp only [e] at hm
    obtain ⟨rfl, rfl, rfl, rfl, m5, m6, m7⟩ := hm
    refine Or.inr (Or.inr ?_)
    cases hq : s.qXout with
    | cons x q => exact ⟨_, .mainGetX s b x q e hq⟩
    | nil =>
      rw [hq] at hX
      rcases rinv_progress_get hX (by omega) (by omega) with h | ⟨v, h⟩
      · exact goX h
      · exact ⟨_, .readXPut s v h hq⟩
  | getT b =>
    simp only [e] at hm
    obtain ⟨rfl, rfl, rfl, rfl, m5, m6, m7, m8⟩ := hm
    refine Or.inr (Or.inr ?_)
    cases hq : s.qTout with
    | cons x q =>
      cases hf : c.feed s.model (s.xb, x) with
      | ok m' => exact ⟨_, .mainGetT s _ x q m' e hq hf⟩
      | error y => exact ⟨_, .mainFail s _ x q y e hq hf⟩
    | nil =>
      rw [hq] at hT
      rcases rinv_progress_get hT (by omega) (by omega) with h | ⟨v, h⟩
      · exact goT h
      · exact ⟨_, .readTPut s v h hq⟩
  | joinX =>
    simp only [e] at hm
    obtain ⟨rfl, rfl, rfl, rfl, m5⟩ := hm
    refine Or.inr (Or.inr ?_)
    rcases rinv_progress_join hX with h | h
    · exact ⟨_, .mainJoinX s e h⟩
    · exact goX h
  | joinT =>
    simp only [e] at hm
    obtain ⟨rfl, rfl, m5, m6⟩ := hm
    refine Or.inr (Or.inr ?_)
    rcases rinv_progress_join hT with h | h
    · exact ⟨_, .mainJoinT s e h⟩
    · exact goT h

/-- Steps left for the main process (weighted). -/
def tmainRank (nb : Int) : TMain → Nat
  | .loop b => 10 * (nb + 2 - b).toNat + 3
  | .putT b => 10 * (nb + 1 - b).toNat + 9
  | .getX b => 10 * (nb + 1 - b).toNat + 5
  | .getT b => 10 * (nb + 1 - b).toNat + 4
  | .joinX => 2
  | .joinT => 1
  | .done => 0
  | .failed _ => 0

/-- Steps left for a reader that has taken a request. -/
def readerRank {V : Type} : Reader V → Nat
  | .putting _ => 2
  | _ => 0

/-- A bound on the number of steps left. -/
def trank (c : TCtx K σ) (s : TState K σ) : Nat :=
  tmainRank c.nb s.main + 3 * s.qXin.length + 3 * s.qTin.length + readerRank s.readX + readerRank s.readT + s.qXout.length + s.qTout.length

theorem trank_step {c : TCtx K σ} {s t : TState K σ} (h : TStep c s t) : trank c t < trank c s := by
  unfold trank
  cases h with
  | mainPutX b e hb => simp only [e, tmainRank, List.length_append, List.length_singleton]; omega
  | mainPutT b e =>
    simp only [e, List.length_append, List.length_singleton]
    split
    · rename_i hz
      subst hz
      simp only [tmainRank]
      omega
    · simp only [tmainRank]
      omega
  | mainExit b e hb => simp only [e, tmainRank]; omega
  | mainGetX b x q e hq => simp only [e, hq, tmainRank, List.length_cons]; omega
  | mainGetT b x q m' e hq hf =>
    simp only [e, hq, tmainRank, List.length_cons]
    push_cast
    have : (c.nb + 2 - ((b : Int) + 1)) = c.nb + 1 - b := by ring
    rw [this]
    omega
  | mainFail b x q y e hq hf => simp only [e, hq, tmainRank, List.length_cons]; omega
  | mainJoinX e hr => simp only [e, tmainRank]; omega
  | mainJoinT e hr => simp only [e, tmainRank]; omega
  | readXGet r q e hq hr => simp only [e, hq, readerRank, List.length_cons]; omega
  | readXStop r q e hq hr => simp only [e, hq, readerRank, List.length_cons]; omega
  | readXPut v e hq => simp only [e, hq, readerRank, List.length_cons, List.length_nil]; omega
  | readTGet r q e hq hr => simp only [e, hq, readerRank, List.length_cons]; omega
  | readTStop r q e hq hr => simp only [e, hq, readerRank, List.length_cons]; omega
  | readTPut v e hq => simp only [e, hq, readerRank, List.length_cons, List.length_nil]; omega

/-- The batches received are those of the synchronous call, in order and correctly paired. -/
theorem feed_foldlM' (env : Env K) (ic oc : Nat) (l : List (List (List K) × List (List K))) (e : ELM K) :
    e.feed env ic oc l = l.foldlM (feedOne env ic oc) e := by
  induction l generalizing e with
  | nil => rfl
  | cons p l ih =>
    obtain ⟨Xb, Tb⟩ := p
    rw [List.foldlM_cons]
    unfold ELM.feed feedOne
    simp only
    cases batchWeights e.classification e.wc ⟨oc, Tb⟩ with
    | error x => rfl
    | ok w =>
      simp only [bind, Except.bind]
      cases e.nnet.addBatch env ⟨ic, Xb⟩ ⟨oc, Tb⟩ w with
      | error x => rfl
      | ok n => exact ih _

theorem ceilDiv_nonneg {n b : Int} (hb : 0 < b) (hn : -b < n) : 0 ≤ ceilDiv n b := by
  obtain ⟨h1, h2⟩ := ceilDiv_spec n b hb
  by_contra h
  have : ceilDiv n b * b ≤ (-1) * b := mul_le_mul_of_nonneg_right (by omega) hb.le
  omega

theorem ceilDiv_neg {n b : Int} (hb : 0 < b) (hn : n ≤ -b) : ceilDiv n b < 0 := by
  obtain ⟨h1, h2⟩ := ceilDiv_spec n b hb
  by_contra h
  have : (-1) * b ≤ (ceilDiv n b - 1) * b := mul_le_mul_of_nonneg_right (by omega) hb.le
  omega

/-- What `asyncStart` prepares, against the synchronous call. -/
theorem asyncStart_spec {env : Env K} {fs : Files K} {e : ELM K} {fX fT : String} {istart : Int} {icount : Option Int} {fHH fHT : Option String}
    {c : TCtx K (ELM K)} {e0 : ELM K} {fs1 : Files K} (h : e.asyncStart env fs fX fT istart icount fHH fHT = .ok (c, e0, fs1)) :
    c.nb = ceilDiv (rangeCount c.X.nrows istart icount) e.batch ∧ c.bounds = batchBounds e.batch istart (rangeCount c.X.nrows istart icount) ∧
    e.hAddData env fs (.path fX) (.path fT) istart icount fHH fHT = (fedN c e0 c.nb.toNat).bind fun e' => e'.storeCorr fs1 fHH fHT := by
  unfold ELM.asyncStart at h
  obtain ⟨u1, g1, h⟩ := bind_ok h
  obtain ⟨⟨X, T⟩, g2, h⟩ := bind_ok h
  obtain ⟨⟨n, fs2⟩, g3, h⟩ := bind_ok h
  obtain ⟨bs, g4, h⟩ := bind_ok h
  injection h with h
  injection h with h1 h2
  injection h2 with h2 h3
  have hbt : (ELM.autoWc env { e with nnet := n } (batchColSums n.outputs T bs)).batch = e.batch := by
    unfold ELM.autoWc; split <;> rfl
  have hnb : c.nb = ceilDiv (rangeCount X.nrows istart icount) e.batch := by
    rw [← h1]; simp only [TCtx.ofCall]; rw [hbt]
  have hbd : c.bounds = batchBounds e.batch istart (rangeCount X.nrows istart icount) := by
    rw [← h1]; simp only [TCtx.ofCall]; rw [hbt]
  have hX : c.X = X := by rw [← h1]; rfl
  have hT : c.T = T := by rw [← h1]; rfl
  have hF : c.feed = feedOne env X.cols T.cols := by rw [← h1]; rfl
  refine ⟨by rw [hX]; exact hnb, by rw [hX]; exact hbd, ?_⟩
  unfold ELM.hAddData
  rw [g1]
  simp only [bind, Except.bind]
  rw [g2]
  simp only
  rw [g3]
  simp only
  simp only at g4
  rw [g4]
  simp only
  have hcut : cutBatches X T bs = (List.range c.nb.toNat).map fun i => (xBatch c i, tBatch c i) := by
    unfold hBatches at g4
    split at g4
    · cases g4
    · injection g4 with g4
      rw [← g4, hnb]
      unfold cutBatches
      rw [List.map_map]
      apply List.map_congr_left
      intro i _
      simp only [Function.comp, xBatch, tBatch, hbd, hX, hT]
  rw [feed_foldlM', hcut, h2]
  unfold fedN
  rw [hF, h3]

/-- If the preparation fails, the synchronous call raises the same exception. -/
theorem C50_start_fails (env : Env K) (fs : Files K) (e : ELM K) (fX fT : String) (istart : Int) (icount : Option Int) (fHH fHT : Option String)
    (x : PyErr) (h : e.asyncStart env fs fX fT istart icount fHH fHT = .error x) :
    e.hAddData env fs (.path fX) (.path fT) istart icount fHH fHT = .error x := by
  unfold ELM.asyncStart at h
  unfold ELM.hAddData
  simp only [bind, Except.bind] at h ⊢
  cases g1 : pyAssert (!e.nnet.neurons.isEmpty) with
  | error y => rw [g1] at h; simp only at h ⊢; injection h with h; rw [h]
  | ok u =>
    rw [g1] at h
    simp only at h ⊢
    cases g2 : checkBoth fs e.nnet (.path fX) (.path fT) with
    | error y => rw [g2] at h; simp only at h ⊢; injection h with h; rw [h]
    | ok u =>
      rw [g2] at h
      simp only at h ⊢
      cases g3 : prepareFHH fs fHH fHT e.nnet with
      | error y => rw [g3] at h; simp only at h ⊢; injection h with h; rw [h]
      | ok v =>
        rw [g3] at h
        simp only at h ⊢
        cases g4 : hBatches e.batch istart (rangeCount u.1.nrows istart icount) with
        | error y => rw [g4] at h; simp only at h ⊢; injection h with h; rw [h]
        | ok w => rw [g4] at h; simp only at h; cases h

/-- C50 for ranges that do not start a whole batch or more beyond the end of the data.  In every execution of the three processes: there
are no infinite executions; no state is stuck before the end of the call; when the call completes, its result (model and files) is that of
`add_data`; when it raises, `add_data` raises the same exception.

Missing for the full property: ranges that start beyond the end of the data by a batch or more, where the call waits for ever
(`C50_beyond_end_refuted`). -/
theorem C50_async_train_partial (env : Env K) (fs : Files K) (e : ELM K) (fX fT : String) (istart : Int) (icount : Option Int)
    (fHH fHT : Option String) (c : TCtx K (ELM K)) (e0 : ELM K) (fs1 : Files K) (hb : 0 < e.batch)
    (h : e.asyncStart env fs fX fT istart icount fHH fHT = .ok (c, e0, fs1)) (hr : -e.batch < rangeCount c.X.nrows istart icount) :
    (WellFounded fun t s => TStep c s t) ∧ ∀ s, Relation.ReflTransGen (TStep c) (TState.init e0) s →
      (s.main = .done ∨ (∃ x, s.main = .failed x) ∨ ∃ t, TStep c s t) ∧
      (s.main = .done → s.model.storeCorr fs1 fHH fHT = e.hAddData env fs (.path fX) (.path fT) istart icount fHH fHT) ∧
      (∀ x, s.main = .failed x → e.hAddData env fs (.path fX) (.path fT) istart icount fHH fHT = .error x) := by
  obtain ⟨h1, h2, h3⟩ := asyncStart_spec h
  have h0 : 0 ≤ c.nb := by rw [h1]; exact ceilDiv_nonneg hb hr
  have hg : GoodBounds c.bounds c.nb.toNat := by
    rw [h2, h1]
    exact bounds_spec hb (by rw [← h1]; exact h0)
  refine ⟨Subrelation.wf (fun {t s} hs => trank_step hs) (measure (trank c)).wf, ?_⟩
  intro s hs
  have hi := tinv_run h0 hg hs
  refine ⟨tinv_progress h0 hi, ?_, ?_⟩
  · intro hd
    obtain ⟨pX, gX, pT, gT, _, _, hm⟩ := hi
    unfold TMainRel at hm
    simp only [hd] at hm
    rw [h3, hm.1]
    rfl
  · intro x hx
    obtain ⟨pX, gX, pT, gT, _, _, hm⟩ := hi
    unfold TMainRel at hm
    simp only [hx] at hm
    obtain ⟨j, hj, hj'⟩ := hm
    have := fedN_error hj' (c.nb.toNat - (j + 1))
    have e1 : j + 1 + (c.nb.toNat - (j + 1)) = c.nb.toNat := by omega
    rw [e1] at this
    rw [h3, this]
    rfl

/-- Every execution can be continued to the end of the call. -/
theorem C50_async_train_ends (env : Env K) (fs : Files K) (e : ELM K) (fX fT : String) (istart : Int) (icount : Option Int)
    (fHH fHT : Option String) (c : TCtx K (ELM K)) (e0 : ELM K) (fs1 : Files K) (hb : 0 < e.batch)
    (h : e.asyncStart env fs fX fT istart icount fHH fHT = .ok (c, e0, fs1)) (hr : -e.batch < rangeCount c.X.nrows istart icount)
    (s : TState K (ELM K)) (hs : Relation.ReflTransGen (TStep c) (TState.init e0) s) :
    ∃ t, Relation.ReflTransGen (TStep c) s t ∧ (t.main = .done ∨ ∃ x, t.main = .failed x) := by
  obtain ⟨hwf, hall⟩ := C50_async_train_partial env fs e fX fT istart icount fHH fHT c e0 fs1 hb h hr
  induction s using hwf.induction with
  | _ s ih =>
    rcases (hall s hs).1 with hd | hf | ⟨t, ht⟩
    · exact ⟨s, .refl, Or.inl hd⟩
    · exact ⟨s, .refl, Or.inr hf⟩
    · obtain ⟨u, hu, hu'⟩ := ih t ht (hs.tail ht)
      exact ⟨u, .head ht hu, hu'⟩

/-- Files of the examples. -/
def exFiles : Files ℚ := fun f =>
  if f = "x" then some ⟨⟨2, [[5, 5], [1, 0], [0, 1], [2, 3]]⟩, none, none⟩
  else if f = "t" then some ⟨⟨1, [[9], [1], [2], [3]]⟩, none, none⟩ else none

/-- The hypotheses are met by a range of three samples in batches of two (two batches), stored on disk. -/
example : ∃ c e0 fs1, (exModel 1 2 none none).asyncStart QEnv.env exFiles "x" "t" 1 none (some "hh") (some "ht") = .ok (c, e0, fs1) ∧
    c.nb = 2 ∧ -2 < rangeCount c.X.nrows 1 none := by
  have h : ((exModel 1 2 none none).asyncStart QEnv.env exFiles "x" "t" 1 none (some "hh") (some "ht")).map
      (fun r => (r.1.nb, rangeCount r.1.X.nrows 1 none)) = .ok (2, 3) := by decide +kernel
  cases h1 : (exModel 1 2 none none).asyncStart QEnv.env exFiles "x" "t" 1 none (some "hh") (some "ht") with
  | error x => rw [h1] at h; cases h
  | ok r =>
    obtain ⟨c, e0, fs1⟩ := r
    rw [h1] at h
    simp only [Except.map, Except.ok.injEq, Prod.mk.injEq] at h
    exact ⟨c, e0, fs1, rfl, h.1, by rw [h.2]; decide⟩

/-- If there are fewer than no batches, the main process waits for a reader that was never told to stop. -/
theorem stuck_negative {c : TCtx K σ} (m : σ) (h : c.nb < 0) :
    ∃ s, Relation.ReflTransGen (TStep c) (TState.init m) s ∧ s.main = .joinX ∧ ¬ ∃ t, TStep c s t := by
  refine ⟨{ TState.init m with main := .joinX }, .single (.mainExit _ 0 rfl (by exact_mod_cast h)), rfl, ?_⟩
  rintro ⟨t, ht⟩
  cases ht with
  | mainPutX b e => cases e
  | mainPutT b e => cases e
  | mainExit b e => cases e
  | mainGetX b x q e => cases e
  | mainGetT b x q m' e => cases e
  | mainFail b x q y e => cases e
  | mainJoinX e hr => cases hr
  | mainJoinT e => cases e
  | readXGet r q e hq => cases hq
  | readXStop r q e hq => cases hq
  | readXPut v e => cases e
  | readTGet r q e hq => cases hq
  | readTStop r q e hq => cases hq
  | readTPut v e => cases e

/-- C50 is false for a range that starts beyond the end of the data by a batch or more: `add_data` adds nothing and returns, `add_data_async`
reaches a state where the call has not returned and no process can move. -/
theorem C50_beyond_end_refuted : ∃ (e : ELM ℚ) (fs : Files ℚ), 0 < e.batch ∧
    (e.hAddData QEnv.env fs (.path "x") (.path "t") 6 none none none).map (·.1) = .ok e ∧
    ∃ c e0 fs1, e.asyncStart QEnv.env fs "x" "t" 6 none none none = .ok (c, e0, fs1) ∧
      ∃ s, Relation.ReflTransGen (TStep c) (TState.init e0) s ∧ s.main ≠ .done ∧ (∀ x, s.main ≠ .failed x) ∧ ¬ ∃ t, TStep c s t := by
  refine ⟨exModel 1 2 none none, exFiles, by decide, by decide +kernel, ?_⟩
  have h : ((exModel 1 2 none none).asyncStart QEnv.env exFiles "x" "t" 6 none none none).map (fun r => r.1.nb) = .ok (-1) := by decide +kernel
  cases h1 : (exModel 1 2 none none).asyncStart QEnv.env exFiles "x" "t" 6 none none none with
  | error x => rw [h1] at h; cases h
  | ok r =>
    obtain ⟨c, e0, fs1⟩ := r
    rw [h1] at h
    simp only [Except.map, Except.ok.injEq] at h
    obtain ⟨s, s1, s2, s3⟩ := stuck_negative (c := c) e0 (by rw [h]; decide)
    exact ⟨c, e0, fs1, rfl, s, s1, by rw [s2]; simp, by rw [s2]; simp, s3⟩

end Hpelm.Props
